import Verif.SafetyLemmas3
import Mathlib.Tactic.ByContra
/-!
# Helper lemmas: programs on views
-/
namespace Dync
variable {U V α σ : Type} {Γ : TyEnv U} {S : Values Γ} {t : TyId} {cfg : Cfg}

/-! ### Lists of equally long elements followed by an incomplete one -/

theorem take_cat {es : List Bytes} {n : Nat} (h : ∀ e ∈ es, e.length = n) (rest : Bytes) {a : Nat} (ha : a ≤ es.length) :
    (es.flatten ++ rest).take (a * n) = (es.take a).flatten := by
  have : a * n ≤ es.flatten.length := by rw [length_flatten_eq h]; exact Nat.mul_le_mul_right _ ha
  rw [List.take_append_of_le_length this, take_flatten h]

theorem drop_cat {es : List Bytes} {n : Nat} (h : ∀ e ∈ es, e.length = n) (rest : Bytes) {a : Nat} (ha : a ≤ es.length) :
    (es.flatten ++ rest).drop (a * n) = (es.drop a).flatten ++ rest := by
  have : a * n ≤ es.flatten.length := by rw [length_flatten_eq h]; exact Nat.mul_le_mul_right _ ha
  rw [List.drop_append_of_le_length this, drop_flatten h]

theorem le_of_cat {es : List Bytes} {n : Nat} (h : ∀ e ∈ es, e.length = n) {rest : Bytes} (hr : rest.length < n) {a : Nat}
    (ha : a * n ≤ (es.flatten ++ rest).length) : a ≤ es.length := by
  rw [List.length_append, length_flatten_eq h] at ha
  by_contra hc
  have : (es.length + 1) * n ≤ a * n := Nat.mul_le_mul_right _ (by omega)
  rw [Nat.add_mul, Nat.one_mul] at this
  omega

theorem elem_at {es : List Bytes} {n : Nat} (h : ∀ e ∈ es, e.length = n) (rest : Bytes) {i : Nat} (hi : i < es.length) :
    ((es.flatten ++ rest).drop (i * n)).take n = es[i] := by
  rw [drop_cat h rest (Nat.le_of_lt hi), List.drop_eq_getElem_cons hi, List.flatten_cons, List.append_assoc]
  exact List.take_left' (h _ (List.getElem_mem hi))

/-- A contiguous part that starts at an element boundary. -/
theorem view_part {es : List Bytes} {n : Nat} (hn : 0 < n) (h : ∀ e ∈ es, e.length = n) {rest : Bytes} (hr : rest.length < n)
    {a L : Nat} (hL : a * n + L ≤ (es.flatten ++ rest).length) :
    ∃ es1 r1, ((es.flatten ++ rest).take (a * n + L)).drop (a * n) = es1.flatten ++ r1 ∧ r1.length = L % n ∧
      es1 = (es.drop a).take (L / n) ∧ es1.length = L / n ∧ a + L / n ≤ es.length ∧
      ∀ es1' : List Bytes, (∀ e ∈ es1', e.length = n) → es1'.length = es1.length →
        splice (es.flatten ++ rest) (a * n) (es1'.flatten ++ r1) = (es.take a ++ es1' ++ es.drop (a + L / n)).flatten ++ rest := by
  have hdm : L / n * n + L % n = L := by rw [Nat.mul_comm]; exact Nat.div_add_mod L n
  have haq : a + L / n ≤ es.length := by
    refine le_of_cat h hr ?_
    rw [Nat.add_mul]; omega
  have ha : a ≤ es.length := Nat.le_trans (Nat.le_add_right _ _) haq
  have hq : L / n ≤ es.length - a := Nat.le_sub_of_add_le (by rw [Nat.add_comm]; exact haq)
  have hlen1 : ((es.drop a).take (L / n)).length = L / n := by rw [List.length_take, List.length_drop, Nat.min_eq_left hq]
  have hdrop : ∀ e ∈ es.drop a, e.length = n := fun e he => h e (List.mem_of_mem_drop he)
  -- what follows the complete elements
  have hY : (((es.drop (a + L / n)).flatten ++ rest).take (L % n)).length = L % n := by
    rw [List.length_take, List.length_append, length_flatten_eq (fun e he => h e (List.mem_of_mem_drop he)), List.length_drop]
    rw [List.length_append, length_flatten_eq h] at hL
    have : es.length * n = (es.length - (a + L / n)) * n + (a + L / n) * n := by
      rw [← Nat.add_mul]; congr 1; omega
    rw [Nat.add_mul] at this
    omega
  refine ⟨(es.drop a).take (L / n), ((es.drop (a + L / n)).flatten ++ rest).take (L % n), ?_, hY, rfl, hlen1, haq, ?_⟩
  · rw [List.drop_take, drop_cat h rest ha]
    have : a * n + L - a * n = L / n * n + L % n := by omega
    rw [this, List.take_add]
    rw [take_cat hdrop rest (by rw [List.length_drop]; exact hq), drop_cat hdrop rest (by rw [List.length_drop]; exact hq), List.drop_drop]
  · intro es1' he hl
    have hnew : (es1'.flatten ++ ((es.drop (a + L / n)).flatten ++ rest).take (L % n)).length = L / n * n + L % n := by
      rw [List.length_append, length_flatten_eq he, hl, hlen1, hY]
    unfold splice
    have hd : (es.flatten ++ rest).drop (a * n + (L / n * n + L % n)) = ((es.drop (a + L / n)).flatten ++ rest).drop (L % n) := by
      rw [← drop_cat h rest haq, List.drop_drop, Nat.add_mul, Nat.add_assoc]
    rw [hnew, take_cat h rest ha, hd]
    simp only [List.flatten_append, List.append_assoc]
    congr 2
    rw [List.take_append_drop]

theorem chunks_append_short {β : Type} {N : Nat} (hN : 0 < N) (a b : List β) (h : (a.length + b.length) / N = a.length / N) :
    chunks N (a ++ b) = chunks N a := by
  induction hk : a.length using Nat.strongRecOn generalizing a with
  | _ k ih =>
    by_cases hle : N ≤ a.length
    · rw [chunks, dif_pos ⟨hN, by rw [List.length_append]; omega⟩]
      conv => rhs; rw [chunks, dif_pos ⟨hN, hle⟩]
      rw [List.take_append_of_le_length hle, List.drop_append_of_le_length hle]
      congr 1
      refine ih (a.drop N).length (by rw [List.length_drop]; omega) _ ?_ rfl
      rw [List.length_drop]
      have e1 : a.length - N + b.length = a.length + b.length - N := by omega
      rw [e1]
      have h1 := Nat.div_eq_sub_div hN (show N ≤ a.length + b.length by omega)
      have h2 := Nat.div_eq_sub_div hN hle
      omega
    · have h0 : a.length / N = 0 := Nat.div_eq_of_lt (by omega)
      rw [h0] at h
      have : a.length + b.length < N := (Nat.div_eq_zero_iff_lt hN).1 h
      rw [chunks, dif_neg (by rw [List.length_append]; omega)]
      rw [chunks, dif_neg (by omega)]

theorem div_cat {E n r k : Nat} (hr : r < n) (hk : 0 < k) : (E * n + r) / (n * k) = E / k := by
  rw [← Nat.div_div_eq_div_mul]
  congr 1
  rw [Nat.mul_comm, Nat.mul_add_div (by omega), Nat.div_eq_of_lt hr, Nat.add_zero]

theorem chunks_cat {es : List Bytes} {n k : Nat} (hn : 0 < n) (hk : 0 < k) (h : ∀ e ∈ es, e.length = n) {rest : Bytes}
    (hr : rest.length < n) : chunks (n * k) (es.flatten ++ rest) = (chunks k es).map List.flatten := by
  rw [chunks_append_short (Nat.mul_pos hn hk), chunks_flatten_group hn h]
  rw [length_flatten_eq h, div_cat hr hk]
  have := div_cat (E := es.length) (n := n) (r := 0) hn hk
  rw [Nat.add_zero] at this
  exact this.symm

theorem chunks_cat_one {es : List Bytes} {n : Nat} (hn : 0 < n) (h : ∀ e ∈ es, e.length = n) {rest : Bytes}
    (hr : rest.length < n) : chunks n (es.flatten ++ rest) = es := by
  rw [chunks_append_short hn, chunks_flatten hn h]
  rw [length_flatten_eq h]
  have h1 := div_cat (E := es.length) (k := 1) hr (by omega)
  have h2 := div_cat (E := es.length) (n := n) (r := 0) (k := 1) hn (by omega)
  rw [Nat.mul_one] at h1 h2
  rw [h1, ← h2, Nat.add_zero]

theorem typedSlice_cat {es : List Bytes} {n : Nat} (h : ∀ e ∈ es, e.length = n) (rest : Bytes) :
    typedSlice n es.length (es.flatten ++ rest) = .ok es := by
  have h1 : es.length * n ≤ (es.flatten ++ rest).length := by rw [List.length_append, length_flatten_eq h]; omega
  unfold typedSlice
  rw [if_pos h1]
  congr 1
  refine List.ext_getElem (by simp) ?_
  intro i h2 h3
  simp only [List.getElem_map, List.getElem_range]
  exact elem_at h rest h3

/-! ### Views -/

/-- A view of values of type `t`, possibly followed by an incomplete element. -/
structure SGood (Γ : TyEnv U) (S : Values Γ) (t : TyId) (es : List Bytes) (rest : Bytes) (s : SliceCopy V) : Prop where
  data : s.data = es.flatten ++ rest
  valid : ∀ e ∈ es, S.valid t e
  short : rest.length < Γ.size t
  elem : s.elem = ElemInfo.new Γ t

/-- What a program may do to a view: exchange its values for others. -/
def SPost (S : Values Γ) (t : TyId) (es : List Bytes) (rest : Bytes) (s s' : SliceCopy V) : Prop :=
  ∃ es' : List Bytes, es'.length = es.length ∧ (∀ e ∈ es', S.valid t e) ∧ s' = { s with data := es'.flatten ++ rest }

namespace SGood
variable {es : List Bytes} {rest : Bytes} {s : SliceCopy V}

theorem pos (G : SGood Γ S t es rest s) : 0 < Γ.size t := by have := G.short; omega
theorem each (G : SGood Γ S t es rest s) : ∀ e ∈ es, e.length = Γ.size t := fun e he => S.len t e (G.valid e he)
theorem numBytes (G : SGood Γ S t es rest s) : s.elem.numBytes = Γ.size t := by rw [G.elem, numBytes_new]
theorem refl (G : SGood Γ S t es rest s) : SPost S t es rest s s := ⟨es, rfl, G.valid, by rw [← G.data]⟩

theorem post (G : SGood Γ S t es rest s) {s' : SliceCopy V} (h : SPost S t es rest s s') :
    ∃ es', SGood Γ S t es' rest s' ∧ ∀ s'', SPost S t es' rest s' s'' → SPost S t es rest s s'' := by
  obtain ⟨es', h1, h2, rfl⟩ := h
  refine ⟨es', ⟨rfl, h2, G.short, G.elem⟩, ?_⟩
  rintro s'' ⟨es2, h3, h4, rfl⟩
  exact ⟨es2, h3.trans h1, h4, rfl⟩

theorem check (G : SGood Γ S t es rest s) (t' : TyId) : s.check t' = if t' = t then some s else none := by
  simp only [SliceCopy.check, G.elem, ElemInfo.new]
  by_cases h : t' = t <;> simp [h]

theorem len_runs (G : SGood Γ S t es rest s) (st : σ) :
    Runs (s.len cfg) st (fun m st' => st' = st ∧ m = es.length) (fun st' => st' = st) := by
  have hp := G.pos
  have hd : s.data.length / Γ.size t = es.length := by
    rw [G.data, List.length_append, length_flatten_eq G.each]
    have := div_cat (E := es.length) (k := 1) G.short (by omega)
    simpa using this
  have h0 : Γ.size t ≠ 0 := by omega
  unfold SliceCopy.len
  rw [G.numBytes]
  simp only [h0, if_false, hd]
  split
  · refine Runs.bind (R := fun _ st' => st' = st) (Runs.assert (fun _ => rfl) fun _ => rfl) ?_
    rintro _ _ rfl
    exact ⟨rfl, rfl⟩
  · exact ⟨rfl, rfl⟩

theorem sliceIndex_elem (G : SGood Γ S t es rest s) {i : Nat} :
    (∃ h : i < es.length, sliceIndex s.data (i * Γ.size t) ((i + 1) * Γ.size t) = .ok (es[i]'h)) ∨
      sliceIndex s.data (i * Γ.size t) ((i + 1) * Γ.size t) = .panic .index := by
  have hp := G.pos
  by_cases hi : i < es.length
  · left
    refine ⟨hi, ?_⟩
    have h1 : (i + 1) * Γ.size t ≤ s.data.length := by
      rw [G.data, List.length_append, length_flatten_eq G.each]
      have : (i + 1) * Γ.size t ≤ es.length * Γ.size t := Nat.mul_le_mul_right _ hi
      omega
    have h2 : i * Γ.size t ≤ (i + 1) * Γ.size t := Nat.mul_le_mul_right _ (by omega)
    unfold sliceIndex
    rw [if_pos ⟨h2, h1⟩, List.drop_take, Nat.add_mul, Nat.one_mul, Nat.add_sub_cancel_left, G.data, elem_at G.each rest hi]
  · right
    unfold sliceIndex
    rw [if_neg]
    rintro ⟨_, h⟩
    rw [G.data] at h
    exact hi (le_of_cat G.each G.short h)

theorem indexByteRange_runs {n i : Nat} (hn : 0 < n) (hw : NoWrap cfg ((i + 1) * n)) (st : σ) :
    Runs (indexByteRange cfg n i) st (fun p st' => st' = st ∧ p = (i * n, (i + 1) * n)) (fun st' => st' = st) := by
  rcases indexByteRange_nowrap hn hw st with e | e
  · exact Runs.of_ok e ⟨rfl, rfl⟩
  · exact Runs.of_panic e rfl

theorem get_runs (G : SGood Γ S t es rest s) {i : Nat} (hw : NoWrap cfg ((i + 1) * Γ.size t)) (st : σ) :
    Runs (s.get cfg i) st (fun v st' => st' = st ∧ v.type_id = t ∧ S.valid t v.bytes) (fun st' => st' = st) := by
  unfold SliceCopy.get
  have key : Runs (do let b ← indexByteSlice cfg s.elem.numBytes s.data i; pure (s.valueOf b)) st
      (fun v st' => st' = st ∧ v.type_id = t ∧ S.valid t v.bytes) (fun st' => st' = st) := by
    rw [G.numBytes]
    refine Runs.bind (R := fun b st' => st' = st ∧ S.valid t b) ?_ ?_
    · unfold indexByteSlice
      refine Runs.bind (indexByteRange_runs G.pos hw st) ?_
      rintro _ _ ⟨rfl, rfl⟩
      rcases G.sliceIndex_elem (i := i) with ⟨h, e⟩ | e
      · simp only [e]
        exact ⟨rfl, G.valid _ (List.getElem_mem h)⟩
      · simp only [e]
        exact rfl
    · rintro b _ ⟨rfl, hb⟩
      refine ⟨rfl, ?_, hb⟩
      show s.elem.type_id = t
      rw [G.elem]; rfl
  split
  · refine Runs.bind (G.len_runs st) ?_
    rintro m s0 ⟨hs0, _⟩
    rw [hs0]
    refine Runs.bind (R := fun _ st' => st' = st) (Runs.assert (fun _ => rfl) fun _ => rfl) ?_
    rintro _ s1 hs1
    rw [hs1]
    exact key
  · exact key

theorem getAs_runs (G : SGood Γ S t es rest s) {i : Nat} (t' : TyId) (st : σ) :
    Runs (SliceCopy.getAs Γ cfg t' i s) st (fun v st' => st' = st ∧ ∀ b, v = some b → S.valid t' b) (fun st' => st' = st) := by
  unfold SliceCopy.getAs
  refine Runs.bind (G.len_runs st) ?_
  rintro m s0 ⟨hs0, rfl⟩
  rw [hs0]
  refine Runs.bind (R := fun _ st' => st' = st ∧ i < es.length)
    (Runs.assert (fun e => ⟨rfl, of_decide_eq_true e⟩) fun _ => rfl) ?_
  rintro _ s1 ⟨hs1, hi⟩
  rw [hs1]
  rw [G.check]
  by_cases ht : t' = t
  · subst ht
    simp only [if_true]
    have h1 : (i + 1) * Γ.size t' ≤ s.data.length := by
      rw [G.data, List.length_append, length_flatten_eq G.each]
      have : (i + 1) * Γ.size t' ≤ es.length * Γ.size t' := Nat.mul_le_mul_right _ hi
      omega
    rw [if_pos h1]
    refine ⟨rfl, ?_⟩
    intro b hb
    cases hb
    rw [G.data, elem_at G.each rest hi]
    exact G.valid _ (List.getElem_mem hi)
  · rw [if_neg ht]
    exact ⟨rfl, fun b hb => by cases hb⟩

theorem iter_runs (G : SGood Γ S t es rest s) (st : σ) :
    Runs s.iter st (fun vs st' => st' = st ∧ ∀ v ∈ vs, v.type_id = t ∧ S.valid t v.bytes) (fun st' => st' = st) := by
  have h0 : Γ.size t ≠ 0 := by have := G.pos; omega
  unfold SliceCopy.iter
  simp only [Dync.chunksExact, G.numBytes, h0, if_false, G.data, chunks_cat_one G.pos G.each G.short]
  refine ⟨rfl, ?_⟩
  intro v hv
  simp only [List.mem_map] at hv
  obtain ⟨e, he, rfl⟩ := hv
  refine ⟨?_, G.valid e he⟩
  show s.elem.type_id = t
  rw [G.elem]; rfl

theorem asSlice_runs (G : SGood Γ S t es rest s) (t' : TyId) (st : σ) :
    Runs (s.asSlice Γ cfg t') st (fun r st' => st' = st ∧ ∀ xs, r = some xs → ∀ x ∈ xs, S.valid t' x) (fun st' => st' = st) := by
  unfold SliceCopy.asSlice
  rw [G.check]
  by_cases ht : t' = t
  · subst ht
    simp only [if_true]
    refine Runs.bind (G.len_runs st) ?_
    rintro m _ ⟨rfl, rfl⟩
    rw [G.data, typedSlice_cat G.each]
    refine ⟨rfl, ?_⟩
    intro xs hx
    cases hx
    exact G.valid
  · rw [if_neg ht]
    exact ⟨rfl, fun xs hx => by cases hx⟩

/-- Writing a part of a view. -/
theorem splice_part (G : SGood Γ S t es rest s) {a L : Nat} (hL : a * Γ.size t + L ≤ s.data.length) :
    ∃ (es1 : List Bytes) (r1 : Bytes), (s.data.take (a * Γ.size t + L)).drop (a * Γ.size t) = es1.flatten ++ r1 ∧ r1.length = L % Γ.size t ∧
      es1.length = L / Γ.size t ∧ (∀ e ∈ es1, S.valid t e) ∧
      (a * Γ.size t + L = s.data.length → L % Γ.size t = rest.length) ∧
      ∀ es1' : List Bytes, (∀ e ∈ es1', S.valid t e) → es1'.length = es1.length →
        SPost S t es rest s { s with data := splice s.data (a * Γ.size t) (es1'.flatten ++ r1) } := by
  rw [G.data] at hL
  obtain ⟨es1, r1, h1, h2, h3, h4, h5, h6⟩ := view_part G.pos G.each G.short hL
  refine ⟨es1, r1, by rw [G.data]; exact h1, h2, h4, ?_, ?_, ?_⟩
  · rw [h3]; intro e he
    exact G.valid e (List.mem_of_mem_drop (List.mem_of_mem_take he))
  · intro e
    rw [G.data, List.length_append, length_flatten_eq G.each] at e
    have : (a * Γ.size t + L) % Γ.size t = (es.length * Γ.size t + rest.length) % Γ.size t := by rw [e]
    rw [Nat.mul_add_mod_self_right, Nat.mul_add_mod_self_right, Nat.mod_eq_of_lt G.short] at this
    exact this
  · intro es1' hv hl
    refine ⟨es.take a ++ es1' ++ es.drop (a + L / Γ.size t), ?_, ?_, ?_⟩
    · simp only [List.length_append, List.length_take, List.length_drop, hl, h4]; omega
    · intro e he
      rcases List.mem_append.1 he with he | he
      · rcases List.mem_append.1 he with he | he
        · exact G.valid e (List.mem_of_mem_take he)
        · exact hv e he
      · exact G.valid e (List.mem_of_mem_drop he)
    · rw [G.data, h6 es1' (fun e he => S.len t e (hv e he)) hl]

theorem set_elem (G : SGood Γ S t es rest s) {i : Nat} (hi : i < es.length) {x : Bytes} (hx : S.valid t x) :
    SPost S t es rest s { s with data := splice s.data (i * Γ.size t) x } := by
  have hp := G.pos
  have hL : i * Γ.size t + Γ.size t ≤ s.data.length := by
    rw [G.data, List.length_append, length_flatten_eq G.each]
    have : (i + 1) * Γ.size t ≤ es.length * Γ.size t := Nat.mul_le_mul_right _ hi
    rw [Nat.add_mul, Nat.one_mul] at this
    omega
  obtain ⟨es1, r1, h1, h2, h3, h4, _, h5⟩ := G.splice_part hL
  rw [Nat.mod_self] at h2
  rw [Nat.div_self hp] at h3
  have hr1 : r1 = [] := List.eq_nil_of_length_eq_zero h2
  have := h5 [x] (by simpa using hx) (by simp [h3])
  simpa [hr1] using this

theorem setAs_runs (G : SGood Γ S t es rest s) {i : Nat} {t' : TyId} {x : Bytes} (hx : S.valid t' x) :
    Runs (SliceCopy.setAs Γ cfg t' i x) s (fun _ s' => SPost S t es rest s s') (fun s' => SPost S t es rest s s') := by
  unfold SliceCopy.setAs
  refine Runs.bind_ok (b := s) (s' := s) rfl ?_
  refine Runs.bind ((G.len_runs s).mono (fun _ _ h => h) fun s' e => by rw [e]; exact G.refl) ?_
  rintro m s0 ⟨hs0, rfl⟩
  rw [hs0]
  refine Runs.bind (R := fun _ s' => s' = s ∧ i < es.length)
    (Runs.assert (fun e => ⟨rfl, of_decide_eq_true e⟩) fun _ => G.refl) ?_
  rintro _ s1 ⟨hs1, hi⟩
  rw [hs1, G.check]
  by_cases ht : t' = t
  · subst ht
    simp only [if_true]
    have h1 : (i + 1) * Γ.size t' ≤ s.data.length := by
      rw [G.data, List.length_append, length_flatten_eq G.each]
      have : (i + 1) * Γ.size t' ≤ es.length * Γ.size t' := Nat.mul_le_mul_right _ hi
      omega
    rw [if_pos h1]
    exact G.set_elem hi hx
  · rw [if_neg ht]
    exact G.refl

theorem setValue_runs (G : SGood Γ S t es rest s) {i : Nat} (hw : NoWrap cfg ((i + 1) * Γ.size t)) {t' : TyId} {x : Bytes}
    (hx : S.valid t' x) :
    Runs (SliceCopy.getMut cfg i (do
      let self ← M.get
      CopyValue.copy (CopyValue.new Γ t' self.vtable x))) s
      (fun _ s' => SPost S t es rest s s') (fun s' => SPost S t es rest s s') := by
  unfold SliceCopy.getMut
  refine Runs.bind_ok (b := s) (s' := s) rfl ?_
  have key : Runs (do
      let (a, b) ← indexByteRange cfg s.elem.numBytes i
      let bs ← M.lift (sliceIndex s.data a b)
      (⟨fun s =>
        let out := (do
          let self ← M.get
          CopyValue.copy (CopyValue.new Γ t' self.vtable x) : M (CopyValue V) (Option Unit)) (s.valueOf bs)
        (out.1, { s with data := splice s.data a out.2.bytes })⟩ : M (SliceCopy V) (Option Unit))) s
      (fun _ s' => SPost S t es rest s s') (fun s' => SPost S t es rest s s') := by
    rw [G.numBytes]
    refine Runs.bind ((indexByteRange_runs G.pos hw s).mono (fun _ _ h => h) fun s' e => by rw [e]; exact G.refl) ?_
    rintro _ s0 ⟨hs0, rfl⟩
    rw [hs0]
    rcases G.sliceIndex_elem (i := i) with ⟨hi, e⟩ | e
    · simp only [e]
      refine Runs.bind_ok (b := es[i]) (s' := s) rfl ?_
      by_cases ht : t' = t
      · subst ht
        have hl : es[i].length = x.length := by rw [G.each _ (List.getElem_mem hi), S.len t' x hx]
        refine Runs.of_ok (a := some ()) (s' := { s with data := splice s.data (i * Γ.size t') x }) ?_ (G.set_elem hi hx)
        simp [CopyValue.copy, SliceCopy.valueOf, CopyValue.new, G.elem, ElemInfo.new, sliceCopyFrom, hl]
        exact ⟨rfl, rfl⟩
      · refine Runs.of_ok (a := none) (s' := { s with data := splice s.data (i * Γ.size t) es[i] }) ?_
          (G.set_elem hi (G.valid _ (List.getElem_mem hi)))
        have ht' : ¬ t = t' := fun h => ht h.symm
        simp [CopyValue.copy, SliceCopy.valueOf, CopyValue.new, G.elem, ElemInfo.new, ht']
    · simp only [e]
      exact G.refl
  split
  · refine Runs.bind ((G.len_runs s).mono (fun _ _ h => h) fun s' e => by rw [e]; exact G.refl) ?_
    rintro m s0 ⟨hs0, _⟩
    rw [hs0]
    refine Runs.bind (R := fun _ s' => s' = s) (Runs.assert (fun _ => rfl) fun _ => G.refl) ?_
    rintro _ s1 hs1
    rw [hs1]
    exact key
  · exact key

theorem splice_all (G : SGood Γ S t es rest s) {es' : List Bytes} (hl : es'.length = es.length) (hv : ∀ e ∈ es', S.valid t e) :
    SPost S t es rest s { s with data := splice s.data 0 es'.flatten } := by
  refine ⟨es', hl, hv, ?_⟩
  congr 1
  have h1 : es'.flatten.length = es.length * Γ.size t := by rw [length_flatten_eq (fun e he => S.len t e (hv e he)), hl]
  unfold splice
  rw [h1, G.data, Nat.zero_add, drop_cat G.each rest (Nat.le_refl _)]
  simp

theorem mapAll_runs (G : SGood Γ S t es rest s) {f : TyId → Bytes → Bytes} (hf : ∀ t b, S.valid t b → S.valid t (f t b)) :
    Runs (M.zoom (fun s => (s, ())) (fun s _ => s.1) (SliceCopy.iterMut (σ := Unit)
      (M.modify fun s => ({ s.1 with bytes := f s.1.type_id s.1.bytes }, s.2)))) s
      (fun _ s' => SPost S t es rest s s') (fun s' => SPost S t es rest s s') := by
  have h0 : Γ.size t ≠ 0 := by have := G.pos; omega
  refine Runs.zoom ?_
  unfold SliceCopy.iterMut
  refine Runs.bind_ok (b := (s, ())) (s' := (s, ())) rfl ?_
  simp only [Dync.chunksExact, G.numBytes, h0, if_false]
  refine Runs.bind_ok (b := chunks (Γ.size t) s.data) (s' := (s, ())) rfl ?_
  have hv := visitMut_pure (fun v : CopyValue V => { v with bytes := f v.type_id v.bytes }) ((chunks (Γ.size t) s.data).map s.valueOf) ()
  refine Runs.of_ok (a := ()) (s' := ({ s with data := splice s.data 0 (es.map (f t)).flatten }, ())) ?_ ?_
  · simp only [hv]
    rw [G.data, chunks_cat_one G.pos G.each G.short]
    simp [Function.comp_def, SliceCopy.valueOf, G.elem, ElemInfo.new]
  · refine G.splice_all (by simp) ?_
    intro e he
    simp only [List.mem_map] at he
    obtain ⟨e0, h1, rfl⟩ := he
    exact hf t e0 (G.valid e0 h1)

theorem asSliceMut_runs (G : SGood Γ S t es rest s) {t' : TyId} {m : M (List Bytes) α}
    (hm : t' = t → Runs m es (fun _ es' => es'.length = es.length ∧ ∀ e ∈ es', S.valid t e)
      (fun es' => es'.length = es.length ∧ ∀ e ∈ es', S.valid t e)) :
    Runs (SliceCopy.asSliceMut Γ cfg t' m) s (fun _ s' => SPost S t es rest s s') (fun s' => SPost S t es rest s s') := by
  unfold SliceCopy.asSliceMut
  refine Runs.bind_ok (b := s) (s' := s) rfl ?_
  refine Runs.bind ((G.len_runs s).mono (fun _ _ h => h) fun s' e => by rw [e]; exact G.refl) ?_
  rintro n s0 ⟨hs0, rfl⟩
  rw [hs0, G.check]
  by_cases ht : t' = t
  · subst ht
    simp only [if_true]
    refine Runs.bind_ok (b := es) (s' := s) (by rw [G.data, typedSlice_cat G.each]; rfl) ?_
    rcases (hm rfl).cases_on with ⟨a, es', e, h1, h2⟩ | ⟨y, es', e, h1, h2⟩
    · refine Runs.bind_ok (b := a) (s' := { s with data := splice s.data 0 es'.flatten }) ?_ (G.splice_all h1 h2)
      simp [e]
    · refine Runs.of_panic (y := y) (s' := { s with data := splice s.data 0 es'.flatten }) ?_ (G.splice_all h1 h2)
      simp only [e]
      rfl
  · rw [if_neg ht]
    exact G.refl

theorem copyFromSlice_runs (G : SGood Γ S t es rest s) {t' : TyId} {xs : List Bytes} (hx : ∀ x ∈ xs, S.valid t' x) :
    Runs (SliceCopy.copyFromSlice Γ cfg t' xs) s (fun _ s' => SPost S t es rest s s') (fun s' => SPost S t es rest s s') := by
  unfold SliceCopy.copyFromSlice
  refine G.asSliceMut_runs ?_
  rintro rfl
  refine Runs.bind_ok (b := es) (s' := es) rfl ?_
  unfold sliceCopyFrom
  split
  · rename_i h
    exact ⟨h.symm, hx⟩
  · exact ⟨rfl, G.valid⟩

theorem rotate_post (G : SGood Γ S t es rest s) (hr : rest = []) {k : Nat} :
    SPost S t es rest s { s with data := s.data.drop (k * Γ.size t) ++ s.data.take (k * Γ.size t) } := by
  subst hr
  refine ⟨es.drop k ++ es.take k, ?_, ?_, ?_⟩
  · simp only [List.length_append, List.length_drop, List.length_take]; omega
  · intro e he
    rcases List.mem_append.1 he with he | he
    · exact G.valid e (List.mem_of_mem_drop he)
    · exact G.valid e (List.mem_of_mem_take he)
  · rw [G.data, List.append_nil, drop_flatten G.each, take_flatten G.each]
    simp

theorem rotateLeft_runs (G : SGood Γ S t es rest s) (hr : rest = []) {k : Nat} (hw : NoWrap cfg (k * Γ.size t)) :
    Runs (SliceCopy.rotateLeft cfg k) s (fun _ s' => SPost S t es rest s s') (fun s' => SPost S t es rest s s') := by
  unfold SliceCopy.rotateLeft
  refine Runs.bind_ok (b := s) (s' := s) rfl ?_
  rw [G.numBytes]
  refine Runs.bind (R := fun n s' => s' = s ∧ n = k * Γ.size t) (Runs.umul_nowrap hw (fun _ => ⟨rfl, rfl⟩) G.refl) ?_
  rintro n s0 ⟨hs0, rfl⟩
  rw [hs0]
  unfold sliceRotateLeft
  split
  · exact G.rotate_post hr
  · exact G.refl

theorem rotateRight_runs (G : SGood Γ S t es rest s) (hr : rest = []) {k : Nat} (hw : NoWrap cfg (k * Γ.size t)) :
    Runs (SliceCopy.rotateRight cfg k) s (fun _ s' => SPost S t es rest s s') (fun s' => SPost S t es rest s s') := by
  unfold SliceCopy.rotateRight
  refine Runs.bind_ok (b := s) (s' := s) rfl ?_
  rw [G.numBytes]
  refine Runs.bind (R := fun n s' => s' = s ∧ n = k * Γ.size t) (Runs.umul_nowrap hw (fun _ => ⟨rfl, rfl⟩) G.refl) ?_
  rintro n s0 ⟨hs0, rfl⟩
  rw [hs0]
  unfold sliceRotateRight
  split
  · have : s.data.length - k * Γ.size t = (es.length - k) * Γ.size t := by
      rw [G.data, hr, List.append_nil, length_flatten_eq G.each, Nat.sub_mul]
    rw [this]
    exact G.rotate_post hr
  · exact G.refl

end SGood
end Dync
