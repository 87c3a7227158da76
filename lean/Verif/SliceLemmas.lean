import Verif.VecCopyLemmas
/-!
# Helper lemmas about untyped slices
-/
namespace Dync
variable {U V σ α : Type}

theorem isize_le_usize : isizeMax ≤ usizeMax := by decide

theorem numBytes_new (Γ : TyEnv U) (t : TyId) : (ElemInfo.new Γ t).numBytes = Γ.size t := by
  simp only [ElemInfo.new, ElemInfo.numBytes]
  exact Nat.div_mul_cancel (Γ.align_dvd t)

namespace SRepr
variable {Γ : TyEnv U} {t : TyId} {es : List Bytes} {s : SliceCopy V} {cfg : Cfg}

theorem numBytes (R : SRepr Γ t es s) : s.elem.numBytes = Γ.size t := by
  rw [R.elem]; exact numBytes_new Γ t

theorem length (R : SRepr Γ t es s) : s.data.length = es.length * Γ.size t := by
  rw [R.data, length_flatten_eq R.each]

theorem mul_le (R : SRepr Γ t es s) {i : Nat} (hi : i ≤ es.length) : i * Γ.size t ≤ usizeMax := by
  have := Nat.mul_le_mul_right (Γ.size t) hi
  have := R.bound; have := isize_le_usize; omega

theorem count_le (R : SRepr Γ t es s) : es.length ≤ isizeMax := by
  have := R.bound
  have : es.length * 1 ≤ es.length * Γ.size t := Nat.mul_le_mul_left _ R.pos
  omega

/-- Same element type, another list of elements. -/
theorem sub (R : SRepr Γ t es s) {fs : List Bytes} {s' : SliceCopy V} (hd : s'.data = fs.flatten)
    (he : s'.elem = s.elem) (hf : ∀ e ∈ fs, e.length = Γ.size t) (hl : fs.length ≤ es.length) :
    SRepr Γ t fs s' := by
  refine ⟨hd, hf, he.trans R.elem, R.pos, ?_⟩
  have := Nat.mul_le_mul_right (Γ.size t) hl
  have := R.bound; omega

theorem len (R : SRepr Γ t es s) (st : σ) : s.len cfg st = (.ok es.length, st) := by
  have h0 : Γ.size t ≠ 0 := by have := R.pos; omega
  have h1 : es.length * Γ.size t % Γ.size t = 0 := Nat.mul_mod_left _ _
  have h2 : es.length * Γ.size t / Γ.size t = es.length := Nat.mul_div_cancel _ R.pos
  simp only [SliceCopy.len, R.numBytes, R.length]
  rw [if_neg h0, h1, h2]
  split <;> rfl

theorem check (R : SRepr Γ t es s) (t' : TyId) : s.check t' = if t' = t then some s else none := by
  simp only [SliceCopy.check, R.elem, ElemInfo.new]
  by_cases h : t' = t <;> simp [h]

theorem indexByteRange_ok {nb i : Nat} (h1 : i + 1 ≤ usizeMax) (h2 : (i + 1) * nb ≤ usizeMax) (st : σ) :
    indexByteRange cfg nb i st = (.ok (i * nb, (i + 1) * nb), st) := by
  have h3 : i * nb ≤ usizeMax := Nat.le_trans (Nat.mul_le_mul_right _ (Nat.le_succ i)) h2
  simp only [indexByteRange]
  rw [M.bind_ok (umul_ok h3 st), M.bind_ok (uadd_ok h1 st), M.bind_ok (umul_ok h2 st)]
  rfl

theorem indexRange (R : SRepr Γ t es s) {i : Nat} (hi : i < es.length) (st : σ) :
    indexByteRange cfg (Γ.size t) i st = (.ok (i * Γ.size t, (i + 1) * Γ.size t), st) := by
  have := R.count_le; have := isize_le_usize
  exact indexByteRange_ok (by omega) (R.mul_le (by omega)) st

theorem sliceIndex_elem {n : Nat} {es : List Bytes} (h : ∀ e ∈ es, e.length = n) {i : Nat}
    (hi : i < es.length) : sliceIndex es.flatten (i * n) ((i + 1) * n) = .ok es[i] := by
  unfold sliceIndex
  rw [if_pos ⟨Nat.mul_le_mul_right _ (by omega),
    by rw [length_flatten_eq h]; exact Nat.mul_le_mul_right _ (by omega)⟩]
  congr 1
  rw [take_flatten h, drop_flatten (fun e he => h e (List.mem_of_mem_take he))]
  have : List.drop i (List.take (i + 1) es) = [es[i]] := by
    rw [List.drop_take, Nat.add_sub_cancel_left, List.drop_eq_getElem_cons hi, List.take_succ_cons,
      List.take_zero]
  rw [this]; simp

theorem sliceIndex_range {n : Nat} {es : List Bytes} (h : ∀ e ∈ es, e.length = n) {a b : Nat}
    (hab : a ≤ b) (hb : b ≤ es.length) :
    sliceIndex es.flatten (a * n) (b * n) = .ok ((es.take b).drop a).flatten := by
  unfold sliceIndex
  rw [if_pos ⟨Nat.mul_le_mul_right _ hab,
    by rw [length_flatten_eq h]; exact Nat.mul_le_mul_right _ hb⟩]
  rw [take_flatten h, drop_flatten (fun e he => h e (List.mem_of_mem_take he))]

theorem sliceIndex_out {n : Nat} {es : List Bytes} (h : ∀ e ∈ es, e.length = n) (hn : 0 < n) {a b : Nat}
    (hout : b < a ∨ es.length < b) : sliceIndex es.flatten (a * n) (b * n) = .panic .index := by
  unfold sliceIndex
  rw [if_neg]
  rintro ⟨h1, h2⟩
  rw [length_flatten_eq h] at h2
  rcases hout with h' | h'
  · have := Nat.mul_lt_mul_of_pos_right h' hn; omega
  · have := Nat.mul_lt_mul_of_pos_right h' hn; omega

end SRepr

/-! ### `chunks` on lists of any kind -/

theorem chunks_length {α : Type} {k : Nat} (hk : 0 < k) (l : List α) : (chunks k l).length = l.length / k := by
  induction hn : l.length using Nat.strongRecOn generalizing l with
  | _ n ih =>
    unfold chunks
    by_cases h : 0 < k ∧ k ≤ l.length
    · rw [dif_pos h, List.length_cons, ih (l.drop k).length (by simp; omega) _ rfl]
      simp only [List.length_drop]
      rw [← hn, ← Nat.sub_add_cancel h.2, Nat.add_sub_cancel, Nat.add_div_right _ hk]
    · rw [dif_neg h]
      have : l.length < k := by omega
      simp [← hn, Nat.div_eq_of_lt this]

theorem chunks_each {α : Type} {k : Nat} (l : List α) : ∀ c ∈ chunks k l, c.length = k := by
  induction hn : l.length using Nat.strongRecOn generalizing l with
  | _ n ih =>
    unfold chunks
    by_cases h : 0 < k ∧ k ≤ l.length
    · rw [dif_pos h]
      intro c hc
      rcases List.mem_cons.1 hc with rfl | hc
      · simp; omega
      · exact ih (l.drop k).length (by simp; omega) _ rfl c hc
    · rw [dif_neg h]; simp

theorem chunks_join {α : Type} {k : Nat} (l : List α) :
    (chunks k l).flatten = l.take (l.length / k * k) := by
  induction hn : l.length using Nat.strongRecOn generalizing l with
  | _ n ih =>
    unfold chunks
    by_cases h : 0 < k ∧ k ≤ l.length
    · rw [dif_pos h, List.flatten_cons, ih (l.drop k).length (by simp; omega) _ rfl]
      simp only [List.length_drop]
      have : n / k * k = k + (l.length - k) / k * k := by
        rw [← hn]
        conv => lhs; rw [← Nat.sub_add_cancel h.2, Nat.add_div_right _ h.1]
        rw [Nat.succ_mul, Nat.add_comm]
      rw [this, List.take_add]
    · rw [dif_neg h]
      by_cases hk : k = 0
      · subst hk; simp
      · have : l.length < k := by omega
        simp [← hn, Nat.div_eq_of_lt this]

theorem chunks_flatten_group {α : Type} {es : List (List α)} {n k : Nat} (hn : 0 < n)
    (h : ∀ e ∈ es, e.length = n) : chunks (n * k) es.flatten = (chunks k es).map List.flatten := by
  by_cases hk : k = 0
  · subst hk
    rw [Nat.mul_zero]
    unfold chunks
    simp
  have hk' : 0 < k := by omega
  induction hl : es.length using Nat.strongRecOn generalizing es with
  | _ m ih =>
    unfold chunks
    have hlen := length_flatten_eq h
    by_cases hc : k ≤ es.length
    · have h1 : 0 < n * k ∧ n * k ≤ es.flatten.length := by
        refine ⟨Nat.mul_pos hn hk', ?_⟩
        rw [hlen, Nat.mul_comm]; exact Nat.mul_le_mul_right _ hc
      rw [dif_pos h1, dif_pos ⟨hk', hc⟩, List.map_cons, Nat.mul_comm n k, take_flatten h, drop_flatten h,
        Nat.mul_comm k n]
      congr 1
      exact ih (es.drop k).length (by simp; omega) (fun e he => h e (List.mem_of_mem_drop he)) rfl
    · have h1 : ¬ (0 < n * k ∧ n * k ≤ es.flatten.length) := by
        rintro ⟨_, h2⟩
        rw [hlen, Nat.mul_comm] at h2
        exact hc (Nat.le_of_mul_le_mul_right h2 hn)
      rw [dif_neg h1, dif_neg (by omega)]
      rfl

theorem chunks_subset {α : Type} {k : Nat} {l c : List α} (hc : c ∈ chunks k l) : ∀ x ∈ c, x ∈ l := by
  intro x hx
  have : x ∈ (chunks k l).flatten := List.mem_flatten.2 ⟨c, hc, hx⟩
  rw [chunks_join] at this
  exact List.mem_of_mem_take this

/-! ### `swap` -/

theorem swap_lists {α : Type} {es : List α} {i j : Nat} (hij : i < j) (hj : j < es.length) (x y : α) :
    (es.take j).set i y ++ (es.drop j).set 0 x = (es.set i y).set j x := by
  apply List.ext_getElem
  · simp; omega
  · intro k h1 h2
    simp only [List.length_set] at h2
    rw [List.getElem_append]
    split
    · rename_i h
      simp only [List.length_set, List.length_take] at h
      simp only [List.getElem_set, List.getElem_take]
      have : j ≠ k := by omega
      simp [this]
    · rename_i h
      simp only [List.length_set, List.length_take] at h
      simp only [List.getElem_set, List.getElem_drop, List.length_set, List.length_take]
      have : i ≠ k := by omega
      have e1 : min j es.length = j := by omega
      simp only [this, if_false, e1]
      by_cases hk : j = k
      · subst hk; simp
      · have : ¬ 0 = k - j := by omega
        simp only [this, if_false, hk]
        congr 1; omega

theorem swap_half {σ : Type} {cfg : Cfg} {n : Nat} {es : List Bytes} (hn : 0 < n) (h : ∀ e ∈ es, e.length = n)
    (hb : es.length * n ≤ isizeMax) {i j : Nat} (hij : i < j) (hj : j < es.length) (st : σ) :
    (do
      let (la, lb) ← indexByteRange cfg n i
      let m ← umul cfg n j
      let (l, r) ← M.lift (sliceSplitAt es.flatten m)
      let ls ← M.lift (sliceIndex l la lb)
      let rs ← M.lift (sliceIndex r (0 * n) ((0 + 1) * n))
      let (ls', rs') ← M.lift (sliceSwapWith ls rs)
      pure (splice l la ls' ++ splice r (0 * n) rs') : M σ Bytes) st =
    (.ok ((es.set i es[j]).set j (es[i]'(Nat.lt_trans hij hj))).flatten, st) := by
  have hcnt : es.length ≤ isizeMax := by
    have : es.length * 1 ≤ es.length * n := Nat.mul_le_mul_left _ hn
    omega
  have hus := isize_le_usize
  have hmul : ∀ k, k ≤ es.length → k * n ≤ usizeMax := by
    intro k hk; have := Nat.mul_le_mul_right n hk; omega
  have hm : n * j ≤ usizeMax := by rw [Nat.mul_comm]; exact hmul j (by omega)
  have hi : i < es.length := Nat.lt_trans hij hj
  have hsp : sliceSplitAt es.flatten (n * j) = .ok ((es.take j).flatten, (es.drop j).flatten) := by
    unfold sliceSplitAt
    rw [if_pos (by rw [length_flatten_eq h, Nat.mul_comm]; exact Nat.mul_le_mul_right _ (by omega)),
      Nat.mul_comm, take_flatten h, drop_flatten h]
  have ht : ∀ e ∈ es.take j, e.length = n := fun e he => h e (List.mem_of_mem_take he)
  have hd : ∀ e ∈ es.drop j, e.length = n := fun e he => h e (List.mem_of_mem_drop he)
  have hti : i < (es.take j).length := by simp; omega
  have hdj : 0 < (es.drop j).length := by simp; omega
  have g1 := SRepr.sliceIndex_elem ht hti
  have g2 := SRepr.sliceIndex_elem hd hdj
  have eti : (es.take j)[i] = es[i] := by simp
  have edj : (es.drop j)[0] = es[j] := by simp
  rw [eti] at g1
  rw [edj] at g2
  have hsw : sliceSwapWith es[i] es[j] = .ok (es[j], es[i]) := by
    unfold sliceSwapWith
    rw [if_pos (by rw [h _ (List.getElem_mem hi), h _ (List.getElem_mem hj)])]
  rw [M.bind_ok (SRepr.indexByteRange_ok (by omega) (hmul (i + 1) (by omega)) st)]
  simp only
  rw [M.bind_ok (umul_ok hm st)]
  simp only [hsp, g1, g2, hsw, M.bind_run, M.lift_run, M.pure_run]
  rw [splice_flatten ht hti (h _ (List.getElem_mem hj)), splice_flatten hd hdj (h _ (List.getElem_mem hi)),
    ← List.flatten_append, swap_lists hij hj]

theorem set_set_comm {α : Type} {es : List α} {i j : Nat} (hij : i ≠ j) (x y : α) :
    (es.set i x).set j y = (es.set j y).set i x := List.set_comm x y hij

theorem swapBytes_ok {σ : Type} {cfg : Cfg} {n : Nat} {es : List Bytes} (hn : 0 < n) (h : ∀ e ∈ es, e.length = n)
    (hb : es.length * n ≤ isizeMax) {i j : Nat} (hi : i < es.length) (hj : j < es.length) (st : σ) :
    swapBytes cfg n es.flatten i j st = (.ok ((es.set i es[j]).set j es[i]).flatten, st) := by
  have hcnt : es.length ≤ isizeMax := by
    have : es.length * 1 ≤ es.length * n := Nat.mul_le_mul_left _ hn
    omega
  have hus := isize_le_usize
  have hmul : (0 + 1) * n ≤ usizeMax := by
    have : 1 * n ≤ es.length * n := Nat.mul_le_mul_right _ (by omega)
    omega
  by_cases hij : i = j
  · subst hij
    simp [swapBytes]
  · unfold swapBytes
    rw [if_neg hij, M.bind_ok (SRepr.indexByteRange_ok (by omega) hmul st)]
    simp only
    by_cases hlt : i < j
    · rw [if_pos hlt]
      exact swap_half hn h hb hlt hj st
    · rw [if_neg hlt]
      have := swap_half (cfg := cfg) hn h hb (show j < i by omega) hi st
      rw [set_set_comm hij]
      exact this

end Dync
