import Verif.PointersLemmas
/-!
# Views as pointers: simulation of the operations
-/
namespace Dync
variable {U V α β : Type} {Γ : TyEnv U} {cfg : Cfg} {t : TyId} {v : PtrView V} {m : Mem}

/-- Outcome `A` on the bytes of a view, outcome `B` on memory. -/
structure Traces (v : PtrView V) (m : Mem) (A : Res α × SliceCopy V) (B : Res α × Mem) : Prop where
  res : A.1 = B.1
  view : A.2 = v.contents B.2
  frame : ∀ a, ¬ (v.addr ≤ a ∧ a < v.addr + v.len) → B.2.byte a = m.byte a
  log : ∃ l, B.2.log = m.log ++ l ∧ ∀ x ∈ l, x.Within v.addr v.len

/-- `a` on the bytes of a view does what `b` does on memory. -/
def PtrSim (v : PtrView V) (a : M (SliceCopy V) α) (b : M Mem α) : Prop := ∀ m, Traces v m (a (v.contents m)) (b m)

theorem Traces.stay (r : Res α) : Traces v m (r, v.contents m) (r, m) :=
  ⟨rfl, rfl, fun _ _ => rfl, [], by simp, by simp⟩

theorem PtrSim.lift (r : Res α) : PtrSim v (M.lift r) (M.lift r) := fun _ => Traces.stay r

theorem Traces.trans {m1 : Mem} {s1 : SliceCopy V} {a : α} {A B : Res β × _} (h : Traces v m (.ok a, s1) (.ok a, m1))
    (h' : Traces v m1 A B) : Traces v m A B := by
  obtain ⟨l, e, hl⟩ := h.log
  obtain ⟨l', e', hl'⟩ := h'.log
  refine ⟨h'.res, h'.view, fun a ha => (h'.frame a ha).trans (h.frame a ha), l ++ l', by rw [e', show m1.log = _ from e, List.append_assoc], ?_⟩
  intro x hx
  rcases List.mem_append.1 hx with hx | hx
  · exact hl x hx
  · exact hl' x hx

theorem PtrSim.bind {a : M (SliceCopy V) α} {b : M Mem α} {f : α → M (SliceCopy V) β} {g : α → M Mem β}
    (h : PtrSim v a b) (hf : ∀ x, PtrSim v (f x) (g x)) : PtrSim v (a >>= f) (b >>= g) := by
  intro m
  have H := h m
  rcases hA : a (v.contents m) with ⟨r, s1⟩
  rcases hB : b m with ⟨r', m1⟩
  rw [hA, hB] at H
  simp only [M.bind_run, hA, hB]
  have e : r = r' := H.res
  subst e
  have hs : s1 = v.contents m1 := H.view
  cases r with
  | ok x => rw [hs] at H ⊢; exact H.trans (hf x m1)
  | panic y => exact ⟨rfl, H.view, H.frame, H.log⟩
  | ub => exact ⟨rfl, H.view, H.frame, H.log⟩
  | abort => exact ⟨rfl, H.view, H.frame, H.log⟩

theorem PtrSim.bindLift (r : Res α) {f : α → M (SliceCopy V) β} {g : α → M Mem β}
    (hf : ∀ x, r = .ok x → PtrSim v (f x) (g x)) : PtrSim v (M.lift r >>= f) (M.lift r >>= g) := by
  intro m
  cases r with
  | ok x => exact hf x rfl m
  | panic y => exact Traces.stay _
  | ub => exact Traces.stay _
  | abort => exact Traces.stay _

/-- The first computation reads the view. -/
theorem PtrSim.get {f : SliceCopy V → M (SliceCopy V) β} {b : M Mem β}
    (h : ∀ m, Traces v m (f (v.contents m) (v.contents m)) (b m)) : PtrSim v (M.get >>= f) b := h

/-! ### Loads and stores -/

theorem contents_logged (x : Access) : v.contents { m with log := m.log ++ [x] } = v.contents m := rfl

theorem Traces.load {a n al : Nat} (h : Access.Within v.addr v.len ⟨a, n, al, false⟩) :
    Traces v m (.ok (m.read a n), v.contents m) (Mem.load a n al m) :=
  ⟨rfl, rfl, fun _ _ => rfl, [⟨a, n, al, false⟩], rfl, by simpa using h⟩

theorem Traces.store {a al : Nat} {bs : Bytes} (h : Access.Within v.addr v.len ⟨a, bs.length, al, true⟩) :
    Traces v m (.ok (), { v.contents m with data := splice (m.read v.addr v.len) (a - v.addr) bs }) (Mem.store a bs al m) := by
  have h1 : v.addr ≤ a := h.lower
  have h2 : a + bs.length ≤ v.addr + v.len := h.upper
  refine ⟨rfl, ?_, ?_, [⟨a, bs.length, al, true⟩], rfl, by simpa using h⟩
  · show _ = PtrView.contents _ _
    simp only [Mem.store, PtrView.contents]
    rw [show ({ m.write a bs with log := m.log ++ [⟨a, bs.length, al, true⟩] } : Mem).read v.addr v.len = (m.write a bs).read v.addr v.len from rfl,
      Mem.read_write h1 h2]
  · intro i hi
    exact Mem.write_byte_out (by omega)

/-- Continue after a step on both sides. -/
theorem Traces.next {s1 : SliceCopy V} {a : α} {b : M Mem α} {A : Res β × SliceCopy V} {g : α → M Mem β}
    (h : Traces v m (.ok a, s1) (b m)) (h' : ∀ m1, v.contents m1 = s1 → Traces v m1 A (g a m1)) : Traces v m A ((b >>= g) m) := by
  rcases hB : b m with ⟨r, m1⟩
  rw [hB] at h
  have e : r = .ok a := h.res.symm
  subst e
  have := h' m1 h.view.symm
  simp only [M.bind_run, hB]
  exact h.trans this

/-! ### Length and elements -/

/-- `len` as an outcome. -/
def countRes (cfg : Cfg) (n nb : Nat) : Res Nat :=
  if nb = 0 then .panic .divZero
  else if cfg.debug = true ∧ n % nb ≠ 0 then .panic .assertion
  else .ok (n / nb)

theorem len_eq {σ : Type} (s : SliceCopy V) : (s.len cfg : M σ Nat) = M.lift (countRes cfg s.data.length s.elem.numBytes) := by
  unfold SliceCopy.len countRes
  by_cases h0 : s.elem.numBytes = 0
  · by_cases hd : cfg.debug <;> simp only [h0, hd, if_true, if_false, Bool.false_eq_true] <;> rfl
  · by_cases hd : cfg.debug
    · by_cases hm : s.data.length % s.elem.numBytes = 0
      · simp only [h0, hd, hm, if_true, if_false, beq_self_eq_true, ne_eq, not_true, and_false]; rfl
      · have : (s.data.length % s.elem.numBytes == 0) = false := by simpa using hm
        simp only [h0, hd, this, hm, if_true, if_false, ne_eq, not_false_iff, and_true]; rfl
    · simp only [h0, hd, if_false, Bool.false_eq_true, false_and]; rfl

theorem count_eq (v : PtrView V) : v.count cfg = M.lift (countRes cfg v.len v.elem.numBytes) := by
  unfold PtrView.count countRes
  by_cases h0 : v.elem.numBytes = 0
  · by_cases hd : cfg.debug <;> simp only [h0, hd, if_true, if_false, Bool.false_eq_true] <;> rfl
  · by_cases hd : cfg.debug
    · by_cases hm : v.len % v.elem.numBytes = 0
      · simp only [h0, hd, hm, if_true, if_false, beq_self_eq_true, ne_eq, not_true, and_false]; rfl
      · have : (v.len % v.elem.numBytes == 0) = false := by simpa using hm
        simp only [h0, hd, this, hm, if_true, if_false, ne_eq, not_false_iff, and_true]; rfl
    · simp only [h0, hd, if_false, Bool.false_eq_true, false_and]; rfl

theorem countRes_ok {n nb k : Nat} (h : countRes cfg n nb = .ok k) : 0 < nb ∧ k = n / nb := by
  unfold countRes at h
  split at h
  · cases h
  · split at h
    · cases h
    · cases h; exact ⟨by omega, rfl⟩

theorem contents_len (m : Mem) : (v.contents m).data.length = v.len := Mem.read_length

theorem PtrView.Ok.bytes (h : v.Ok Γ t) : v.elem.numBytes = Γ.size t := by rw [h.elem, numBytes_new]
theorem PtrView.Ok.ty (h : v.Ok Γ t) : v.elem.type_id = t := by rw [h.elem]; rfl

theorem PtrView.Ok.move {a n : Nat} (h : v.Ok Γ t) (ha : Γ.align t ∣ a) : ({ v with addr := v.addr + a, len := n } : PtrView V).Ok Γ t :=
  ⟨h.elem, (Nat.dvd_add_right h.aligned).2 ha⟩

/-- The bytes of element `i`, if there are any. -/
def elemRes (cfg : Cfg) (n nb i : Nat) : Res (Nat × Nat) :=
  (if cfg.debug then (countRes cfg n nb).bind fun k => if i < k then .ok () else .panic .assertion else .ok ()).bind fun _ =>
    (rangeRes cfg nb i).bind fun r => if r.1 ≤ r.2 ∧ r.2 ≤ n then .ok r else .panic .index

theorem M.assert_eq {σ : Type} (b : Bool) : (M.assert b : M σ Unit) = M.lift (if b then .ok () else .panic .assertion) := by
  cases b <;> rfl

theorem elemAt_eq (i : Nat) (v : PtrView V) : v.elemAt cfg i =
    M.lift ((elemRes cfg v.len v.elem.numBytes i).bind fun r => .ok { v with addr := v.addr + r.1, len := r.2 - r.1 }) := by
  unfold PtrView.elemAt elemRes
  by_cases hd : cfg.debug
  · simp only [hd, if_true, count_eq, M.assert_eq, indexByteRange_eq, PtrView.range, M.lift_bind, decide_eq_true_eq]
    cases countRes cfg v.len v.elem.numBytes with
    | ok k =>
      simp only [Res.bind]
      by_cases hk : i < k
      · simp only [hk, if_true]
        cases rangeRes cfg v.elem.numBytes i with
        | ok r => simp only; split <;> rfl
        | panic => rfl
        | ub => rfl
        | abort => rfl
      · simp only [hk, if_false]
    | panic => rfl
    | ub => rfl
    | abort => rfl
  · simp only [hd, if_false, Bool.false_eq_true, indexByteRange_eq, PtrView.range, M.lift_bind, Res.bind]
    cases rangeRes cfg v.elem.numBytes i with
    | ok r => simp only; split <;> rfl
    | panic => rfl
    | ub => rfl
    | abort => rfl

theorem elemRes_ok {n nb i d : Nat} {r : Nat × Nat} (h : elemRes cfg n nb i = .ok r) (hn : nb ≤ usizeMax) (hd : d ∣ nb) (hw : d ∣ usizeMax + 1) :
    d ∣ r.1 ∧ r.2 = r.1 + nb ∧ r.2 ≤ n := by
  obtain ⟨-, -, h⟩ := Res.bind_ok h
  obtain ⟨r', h1, h2⟩ := Res.bind_ok h
  split at h2
  · rename_i hc
    cases h2
    obtain ⟨k1, k2⟩ := rangeRes_ok (a := r.1) (b := r.2) h1 hn hd hw
    exact ⟨k1, k2 hc.1, hc.2⟩
  · cases h2

end Dync
