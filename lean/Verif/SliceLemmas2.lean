import Verif.VecCopyLemmas2
/-!
# Helper lemmas: views of slices, element loops, out-of-range indices
-/
namespace Dync
variable {U V σ τ α : Type}

theorem umul_nowrap {cfg : Cfg} {a b : Nat} (h : NoWrap cfg (a * b)) (st : σ) :
    umul cfg a b st = (.ok (a * b), st) ∨ umul cfg a b st = (.panic .overflow, st) := by
  unfold umul
  by_cases h1 : a * b ≤ usizeMax
  · left; rw [if_pos h1]; rfl
  · rcases h with h | h
    · right; rw [if_neg h1, h]; rfl
    · exact absurd h h1

theorem uadd_nowrap {cfg : Cfg} {a b : Nat} (h : NoWrap cfg (a + b)) (st : σ) :
    uadd cfg a b st = (.ok (a + b), st) ∨ uadd cfg a b st = (.panic .overflow, st) := by
  unfold uadd
  by_cases h1 : a + b ≤ usizeMax
  · left; rw [if_pos h1]; rfl
  · rcases h with h | h
    · right; rw [if_neg h1, h]; rfl
    · exact absurd h h1

theorem NoWrap.mono {cfg : Cfg} {a b : Nat} (h : NoWrap cfg b) (hab : a ≤ b) : NoWrap cfg a := by
  rcases h with h | h
  · exact .inl h
  · exact .inr (Nat.le_trans hab h)

theorem indexByteRange_nowrap {cfg : Cfg} {nb i : Nat} (hnb : 0 < nb) (h : NoWrap cfg ((i + 1) * nb)) (st : σ) :
    indexByteRange cfg nb i st = (.ok (i * nb, (i + 1) * nb), st) ∨
    indexByteRange cfg nb i st = (.panic .overflow, st) := by
  have h1 : NoWrap cfg (i * nb) := h.mono (Nat.mul_le_mul_right _ (Nat.le_succ i))
  have h2 : NoWrap cfg (i + 1) := h.mono (by
    have := Nat.mul_le_mul_left (i + 1) hnb; omega)
  simp only [indexByteRange]
  rcases umul_nowrap h1 st with e | e
  · rw [M.bind_ok e]
    rcases uadd_nowrap h2 st with e | e
    · rw [M.bind_ok e]
      rcases umul_nowrap h st with e | e
      · rw [M.bind_ok e]; exact .inl rfl
      · rw [M.bind_panic e]; exact .inr rfl
    · rw [M.bind_panic e]; exact .inr rfl
  · rw [M.bind_panic e]; exact .inr rfl

/-- A loop over wrapped elements does what the loop over the plain elements does. -/
theorem visitMut_sim {β : Type} {val : β → τ} {P : β → Prop} {body : M (τ × σ) Unit} {g : M (β × σ) Unit}
    (hP : ∀ e s, P e → P (g (e, s)).2.1)
    (h : ∀ e s, P e → body (val e, s) = ((g (e, s)).1, (val (g (e, s)).2.1, (g (e, s)).2.2)))
    (xs : List β) (hx : ∀ e ∈ xs, P e) (s : σ) :
    visitMut body (xs.map val) s =
      ((visitMut g xs s).1, ((visitMut g xs s).2.1.map val, (visitMut g xs s).2.2)) ∧
    (∀ e ∈ (visitMut g xs s).2.1, P e) ∧ (visitMut g xs s).2.1.length = xs.length := by
  induction xs generalizing s with
  | nil => simp [visitMut]
  | cons x xs ih =>
    have hx0 := hx x List.mem_cons_self
    have hxs := fun e he => hx e (List.mem_cons_of_mem _ he)
    have hb := h x s hx0
    have hp := hP x s hx0
    simp only [List.map_cons, visitMut, hb]
    rcases hg : g (x, s) with ⟨r, x', s'⟩
    rw [hg] at hp
    cases r with
    | ok a =>
      obtain ⟨i1, i2, i3⟩ := ih hxs s'
      simp only [i1, i3, List.map_cons, List.length_cons, List.mem_cons, true_and, and_true]
      rintro e (rfl | he)
      · exact hp
      · exact i2 e he
    | _ =>
      simp only [List.map_cons, List.length_cons, List.mem_cons, true_and, and_true]
      rintro e (rfl | he)
      · exact hp
      · exact hxs e he

theorem visitMut_pure (f : τ → τ) (xs : List τ) (s : σ) :
    visitMut (M.modify fun p => (f p.1, p.2)) xs s = (.ok (), (xs.map f, s)) := by
  induction xs generalizing s with
  | nil => rfl
  | cons x xs ih => simp [visitMut, ih]

/-! ### Slices -/
namespace SRepr
variable {Γ : TyEnv U} {t : TyId} {es : List Bytes} {s : SliceCopy V} {cfg : Cfg}

/-- The view is determined by its elements. -/
theorem eq (R : SRepr Γ t es s) : s = ⟨es.flatten, ElemInfo.new Γ t, s.vtable⟩ := by
  cases s; simp only [SliceCopy.mk.injEq, and_true]; exact ⟨R.data, R.elem⟩

theorem mk' {fs : List Bytes} {vt : V} (R : SRepr Γ t es s) (hf : ∀ e ∈ fs, e.length = Γ.size t)
    (hl : fs.length ≤ es.length) : SRepr Γ t fs (⟨fs.flatten, s.elem, vt⟩ : SliceCopy V) :=
  ⟨rfl, hf, R.elem, R.pos, by have := Nat.mul_le_mul_right (Γ.size t) hl; have := R.bound; omega⟩

theorem splice_range {n : Nat} {es fs : List Bytes} (h : ∀ e ∈ es, e.length = n) {a b : Nat}
    (hf : ∀ e ∈ fs, e.length = n) (hl : fs.length = b - a) (hab : a ≤ b) :
    splice es.flatten (a * n) fs.flatten = (es.take a ++ fs ++ es.drop b).flatten := by
  unfold splice
  rw [take_flatten h, length_flatten_eq hf, ← Nat.add_mul, hl, Nat.add_sub_cancel' hab, drop_flatten h]
  simp

theorem get (R : SRepr Γ t es s) {i : Nat} (hi : i < es.length) (st : σ) :
    s.get cfg i st = (.ok ⟨es[i], t, Γ.align t, s.vtable⟩, st) := by
  have h1 : indexByteSlice cfg s.elem.numBytes s.data i st = (.ok es[i], st) := by
    unfold indexByteSlice
    rw [R.numBytes, M.bind_ok (R.indexRange hi st)]
    simp only [M.lift_run, R.data, sliceIndex_elem R.each hi]
  have hv : s.valueOf es[i] = ⟨es[i], t, Γ.align t, s.vtable⟩ := by
    simp [SliceCopy.valueOf, R.elem, ElemInfo.new]
  unfold SliceCopy.get
  by_cases hd : cfg.debug = true
  · rw [if_pos hd]
    simp only [M.bind_run, R.len, decide_eq_true hi, M.assert_true_run, h1, M.pure_run, hv]
  · rw [if_neg hd]
    simp only [M.bind_run, h1, M.pure_run, hv]

theorem getAs (R : SRepr Γ t es s) {i : Nat} (hi : i < es.length) (t' : TyId) (st : σ) :
    s.getAs Γ cfg t' i st = (.ok (if t' = t then some es[i] else none), st) := by
  have hm : (i + 1) * Γ.size t ≤ s.data.length := by
    rw [R.length]; exact Nat.mul_le_mul_right _ (by omega)
  simp only [SliceCopy.getAs, M.bind_run, R.len, decide_eq_true hi, M.assert_true_run, R.check]
  by_cases ht : t' = t
  · subst ht
    rw [R.data] at hm
    simp only [if_true, R.data, if_pos hm, M.pure_run, drop_take_flatten R.each hi]
  · simp only [if_neg ht, M.pure_run]

theorem getAs_out (R : SRepr Γ t es s) {i : Nat} (hi : es.length ≤ i) (t' : TyId) (st : σ) :
    s.getAs Γ cfg t' i st = (.panic .assertion, st) := by
  have : decide (i < es.length) = false := decide_eq_false (by omega)
  simp only [SliceCopy.getAs, M.bind_run, R.len, this, M.assert_false_run]

theorem get_out (R : SRepr Γ t es s) {i : Nat} (hi : es.length ≤ i)
    (hw : NoWrap cfg ((i + 1) * Γ.size t)) (st : σ) : ∃ y, s.get cfg i st = (.panic y, st) := by
  unfold SliceCopy.get
  by_cases hd : cfg.debug = true
  · have : decide (i < es.length) = false := decide_eq_false (by omega)
    rw [if_pos hd]
    exact ⟨.assertion, by simp only [M.bind_run, R.len, this, M.assert_false_run]⟩
  · rw [if_neg hd]
    have h1 : ∃ y, indexByteSlice cfg s.elem.numBytes s.data i st = (.panic y, st) := by
      unfold indexByteSlice
      rw [R.numBytes]
      rcases indexByteRange_nowrap R.pos hw st with e | e
      · rw [M.bind_ok e]
        exact ⟨.index, by simp only [M.lift_run, R.data, sliceIndex_out R.each R.pos (.inr (show es.length < i + 1 by omega))]⟩
      · rw [M.bind_panic e]; exact ⟨_, rfl⟩
    obtain ⟨y, h1⟩ := h1
    exact ⟨y, by simp only [M.bind_run, h1]⟩


/-- Replace the content of the view: everything else stays. -/
theorem set_ok (R : SRepr Γ t es s) {fs : List Bytes} (hf : ∀ e ∈ fs, e.length = Γ.size t)
    (hl : fs.length ≤ es.length) : SRepr Γ t fs ({ s with data := fs.flatten } : SliceCopy V) := R.mk' hf hl

theorem splice_elem (R : SRepr Γ t es s) {i : Nat} (hi : i < es.length) {x : Bytes} (hx : x.length = Γ.size t) :
    splice s.data (i * Γ.size t) x = (es.set i x).flatten := by
  rw [R.data]; exact splice_flatten R.each hi hx

theorem getMut (R : SRepr Γ t es s) {i : Nat} (hi : i < es.length) (m : M (CopyValue V) α) :
    SliceCopy.getMut cfg i m s = ((m ⟨es[i], t, Γ.align t, s.vtable⟩).1,
      { s with data := splice s.data (i * Γ.size t) (m ⟨es[i], t, Γ.align t, s.vtable⟩).2.bytes }) := by
  have hv : s.valueOf es[i] = ⟨es[i], t, Γ.align t, s.vtable⟩ := by
    simp [SliceCopy.valueOf, R.elem, ElemInfo.new]
  have hix : sliceIndex s.data (i * Γ.size t) ((i + 1) * Γ.size t) = .ok es[i] := by
    rw [R.data]; exact sliceIndex_elem R.each hi
  unfold SliceCopy.getMut
  rw [M.bind_ok (M.get_run s)]
  by_cases hd : cfg.debug = true
  · rw [if_pos hd]
    simp only [M.bind_run, R.len, decide_eq_true hi, M.assert_true_run, R.numBytes, R.indexRange hi, M.lift_run,
      hix, hv]
  · rw [if_neg hd]
    simp only [M.bind_run, R.numBytes, R.indexRange hi, M.lift_run, hix, hv]

theorem setAs (R : SRepr Γ t es s) {i : Nat} (hi : i < es.length) {x : Bytes} (hx : x.length = Γ.size t) :
    SliceCopy.setAs Γ cfg t i x s = (.ok (some ()), { s with data := (es.set i x).flatten }) := by
  have hm : (i + 1) * Γ.size t ≤ s.data.length := by
    rw [R.length]; exact Nat.mul_le_mul_right _ (by omega)
  simp only [SliceCopy.setAs, M.bind_run, M.get_run, R.len, decide_eq_true hi, M.assert_true_run, R.check, if_true,
    if_pos hm, M.set_run, M.pure_run, R.splice_elem hi hx]

theorem setAs_mismatch (R : SRepr Γ t es s) {i : Nat} (hi : i < es.length) {t' : TyId} (ht : t' ≠ t) (x : Bytes) :
    SliceCopy.setAs Γ cfg t' i x s = (.ok none, s) := by
  simp only [SliceCopy.setAs, M.bind_run, M.get_run, R.len, decide_eq_true hi, M.assert_true_run, R.check, if_neg ht,
    M.pure_run]

theorem iter (R : SRepr Γ t es s) (st : σ) :
    s.iter st = (.ok (es.map fun e => ⟨e, t, Γ.align t, s.vtable⟩), st) := by
  have hne : Γ.size t ≠ 0 := by have := R.pos; omega
  simp only [SliceCopy.iter, M.bind_run, M.lift_run, R.numBytes, Dync.chunksExact, if_neg hne, R.data,
    chunks_flatten R.pos R.each, M.pure_run]
  congr 2
  apply List.map_congr_left
  intro e _
  simp [SliceCopy.valueOf, R.elem, ElemInfo.new]

theorem iterMut (R : SRepr Γ t es s) {body : M (CopyValue V × σ) Unit} {g : M (Bytes × σ) Unit}
    (hP : ∀ e st, e.length = Γ.size t → (g (e, st)).2.1.length = Γ.size t)
    (hb : ∀ e st, e.length = Γ.size t → body (⟨e, t, Γ.align t, s.vtable⟩, st) =
      ((g (e, st)).1, (⟨(g (e, st)).2.1, t, Γ.align t, s.vtable⟩, (g (e, st)).2.2))) (st : σ) :
    SliceCopy.iterMut body (s, st) = ((visitMut g es st).1,
      ({ s with data := (visitMut g es st).2.1.flatten }, (visitMut g es st).2.2)) ∧
    (∀ e ∈ (visitMut g es st).2.1, e.length = Γ.size t) ∧
    (visitMut g es st).2.1.length = es.length := by
  have hne : Γ.size t ≠ 0 := by have := R.pos; omega
  have hv : (es.map s.valueOf) = es.map fun e => ⟨e, t, Γ.align t, s.vtable⟩ := by
    apply List.map_congr_left
    intro e _
    simp [SliceCopy.valueOf, R.elem, ElemInfo.new]
  obtain ⟨h1, h2, h3⟩ := visitMut_sim (P := fun e => e.length = Γ.size t) hP hb es R.each st
  refine ⟨?_, h2, h3⟩
  have hcc : Dync.chunksExact s.elem.numBytes s.data = .ok es := by
    rw [R.numBytes, R.data, Dync.chunksExact, if_neg hne, chunks_flatten R.pos R.each]
  have hmm : ((visitMut g es st).2.1.map (fun e => (⟨e, t, Γ.align t, s.vtable⟩ : CopyValue V))).map (·.bytes)
      = (visitMut g es st).2.1 := by simp [Function.comp_def]
  simp only [SliceCopy.iterMut, M.bind_run, M.get_run, M.lift_run, hcc, hv, h1, hmm]
  rw [splice_whole]
  rw [length_flatten_eq h2, h3, R.length]

theorem bounds (R : SRepr Γ t es s) {r : Rng} (hr : r.halfOpen ∨ Γ.size t = 1)
    (hlo : r.lo ≤ r.hi es.length) (hhi : r.hi es.length ≤ es.length) (st : σ) :
    (do let r ← r.scale cfg s.elem.numBytes; M.lift (r.bounds s.data.length) : M σ (Nat × Nat)) st =
        (.ok (r.lo * Γ.size t, r.hi es.length * Γ.size t), st) := by
  have hlo' := R.mul_le (show r.lo ≤ es.length by omega)
  have hhi' := R.mul_le hhi
  have hcnt := R.count_le
  have hlen := R.length
  rw [R.numBytes]
  cases r with
  | range a b =>
    simp only [Rng.lo, Rng.hi] at *
    simp only [Rng.scale, Rng.bounds, M.bind_run, umul_ok hlo', umul_ok hhi', M.pure_run, M.lift_run]
  | rangeTo b =>
    simp only [Rng.lo, Rng.hi] at *
    simp only [Rng.scale, Rng.bounds, M.bind_run, umul_ok hhi', M.pure_run, M.lift_run, Nat.zero_mul]
  | rangeFrom a =>
    simp only [Rng.lo, Rng.hi] at *
    simp only [Rng.scale, Rng.bounds, M.bind_run, umul_ok hlo', M.pure_run, M.lift_run, hlen]
  | full =>
    simp only [Rng.lo, Rng.hi] at *
    simp only [Rng.scale, Rng.bounds, M.bind_run, M.pure_run, M.lift_run, hlen, Nat.zero_mul]
  | inclusive a b =>
    simp only [Rng.lo, Rng.hi] at *
    have h1 : Γ.size t = 1 := by rcases hr with h | h; exact h.elim; exact h
    rw [h1] at hlo' hhi' ⊢
    have hb : b * 1 ≤ usizeMax := by omega
    have hne : ¬ b = usizeMax := by unfold isizeMax at *; unfold usizeMax; omega
    simp only [Rng.scale, Rng.bounds, M.bind_run, umul_ok hlo', umul_ok hb, M.pure_run, M.lift_run,
      if_neg hne, Nat.mul_one]
  | toInclusive b =>
    simp only [Rng.lo, Rng.hi] at *
    have h1 : Γ.size t = 1 := by rcases hr with h | h; exact h.elim; exact h
    rw [h1] at hlo' hhi' ⊢
    have hb : b * 1 ≤ usizeMax := by omega
    have hne : ¬ b = usizeMax := by unfold isizeMax at *; unfold usizeMax; omega
    simp only [Rng.scale, Rng.bounds, M.bind_run, umul_ok hb, M.pure_run, M.lift_run, if_neg hne, Nat.mul_one]

/-- Bounds outside the slice: some step panics. -/
theorem bounds_out (R : SRepr Γ t es s) {r : Rng} (hr : r.halfOpen ∨ Γ.size t = 1)
    (hout : r.hi es.length < r.lo ∨ es.length < r.hi es.length)
    (hw : NoWrap cfg (r.lo * Γ.size t)) (hw' : NoWrap cfg (r.hi es.length * Γ.size t)) (st : σ) :
    (∃ y, (do let r ← r.scale cfg s.elem.numBytes; M.lift (r.bounds s.data.length) : M σ (Nat × Nat)) st =
        (.panic y, st)) ∨
    (do let r ← r.scale cfg s.elem.numBytes; M.lift (r.bounds s.data.length) : M σ (Nat × Nat)) st =
        (.ok (r.lo * Γ.size t, r.hi es.length * Γ.size t), st) := by
  have hlen := R.length
  rw [R.numBytes]
  cases r with
  | range a b =>
    simp only [Rng.lo, Rng.hi] at *
    simp only [Rng.scale, Rng.bounds, M.bind_run]
    rcases umul_nowrap hw st with e | e <;> simp only [e]
    · rcases umul_nowrap hw' st with e | e <;> simp only [e]
      · right; rfl
      · left; exact ⟨_, rfl⟩
    · left; exact ⟨_, rfl⟩
  | rangeTo b =>
    simp only [Rng.lo, Rng.hi] at *
    simp only [Rng.scale, Rng.bounds, M.bind_run]
    rcases umul_nowrap hw' st with e | e <;> simp only [e]
    · right; simp
    · left; exact ⟨_, rfl⟩
  | rangeFrom a =>
    simp only [Rng.lo, Rng.hi] at *
    simp only [Rng.scale, Rng.bounds, M.bind_run]
    rcases umul_nowrap hw st with e | e <;> simp only [e]
    · right; simp [hlen]
    · left; exact ⟨_, rfl⟩
  | full =>
    simp only [Rng.lo, Rng.hi] at *
    simp only [Rng.scale, Rng.bounds, M.bind_run]
    right; simp [hlen]
  | inclusive a b =>
    simp only [Rng.lo, Rng.hi] at *
    have h1 : Γ.size t = 1 := by rcases hr with h | h; exact h.elim; exact h
    rw [h1] at hw hw' ⊢
    have hw2 : NoWrap cfg (b * 1) := hw'.mono (by omega)
    simp only [Rng.scale, Rng.bounds, M.bind_run]
    rcases umul_nowrap hw st with e | e <;> simp only [e]
    · rcases umul_nowrap hw2 st with e | e <;> simp only [e]
      · by_cases hb : b = usizeMax
        · left; exact ⟨.index, by simp [hb]⟩
        · right; simp [hb]
      · left; exact ⟨_, rfl⟩
    · left; exact ⟨_, rfl⟩
  | toInclusive b =>
    simp only [Rng.lo, Rng.hi] at *
    have h1 : Γ.size t = 1 := by rcases hr with h | h; exact h.elim; exact h
    rw [h1] at hw hw' ⊢
    have hw2 : NoWrap cfg (b * 1) := hw'.mono (by omega)
    simp only [Rng.scale, Rng.bounds, M.bind_run]
    rcases umul_nowrap hw2 st with e | e <;> simp only [e]
    · by_cases hb : b = usizeMax
      · left; exact ⟨.index, by simp [hb]⟩
      · right; simp [hb]
    · left; exact ⟨_, rfl⟩

theorem splitAt (R : SRepr Γ t es s) {mid : Nat} (h : mid ≤ es.length) (st : σ) :
    s.splitAt cfg mid st = (.ok (⟨(es.take mid).flatten, s.elem, s.vtable⟩,
      ⟨(es.drop mid).flatten, s.elem, s.vtable⟩), st) := by
  have hle : mid * Γ.size t ≤ es.flatten.length := by
    rw [length_flatten_eq R.each]; exact Nat.mul_le_mul_right _ h
  simp only [SliceCopy.splitAt, M.bind_run, R.numBytes, umul_ok (R.mul_le h), M.lift_run, R.data, sliceSplitAt,
    if_pos hle, take_flatten R.each, drop_flatten R.each, M.pure_run, SliceCopy.fromRawParts]

theorem splitAt_out (R : SRepr Γ t es s) {mid : Nat} (h : es.length < mid) (hw : NoWrap cfg (mid * Γ.size t))
    (st : σ) : ∃ y, s.splitAt cfg mid st = (.panic y, st) := by
  have hle : ¬ mid * Γ.size t ≤ es.flatten.length := by
    rw [length_flatten_eq R.each]
    have := Nat.mul_lt_mul_of_pos_right h R.pos; omega
  simp only [SliceCopy.splitAt, M.bind_run, R.numBytes]
  rcases umul_nowrap hw st with e | e
  · exact ⟨.assertion, by simp only [e, M.lift_run, R.data, sliceSplitAt, if_neg hle]⟩
  · exact ⟨.overflow, by simp only [e]⟩

theorem splitAtMut (R : SRepr Γ t es s) {mid : Nat} (h : mid ≤ es.length)
    (m : M (SliceCopy V × SliceCopy V) α) :
    SliceCopy.splitAtMut cfg mid m s =
      ((m (⟨(es.take mid).flatten, s.elem, s.vtable⟩, ⟨(es.drop mid).flatten, s.elem, s.vtable⟩)).1,
       { s with data :=
          (m (⟨(es.take mid).flatten, s.elem, s.vtable⟩, ⟨(es.drop mid).flatten, s.elem, s.vtable⟩)).2.1.data ++
          (m (⟨(es.take mid).flatten, s.elem, s.vtable⟩, ⟨(es.drop mid).flatten, s.elem, s.vtable⟩)).2.2.data }) := by
  have hle : mid * Γ.size t ≤ es.flatten.length := by
    rw [length_flatten_eq R.each]; exact Nat.mul_le_mul_right _ h
  simp only [SliceCopy.splitAtMut, M.bind_run, M.get_run, R.numBytes, umul_ok (R.mul_le h), M.lift_run, R.data,
    sliceSplitAt, if_pos hle, take_flatten R.each, drop_flatten R.each, SliceCopy.fromRawParts]

theorem rotateLeft (R : SRepr Γ t es s) {n : Nat} (h : n ≤ es.length) :
    SliceCopy.rotateLeft cfg n s = (.ok (), { s with data := (es.drop n ++ es.take n).flatten }) := by
  have hle : n * Γ.size t ≤ es.flatten.length := by
    rw [length_flatten_eq R.each]; exact Nat.mul_le_mul_right _ h
  simp only [SliceCopy.rotateLeft, M.bind_run, M.get_run, R.numBytes, umul_ok (R.mul_le h), M.lift_run, R.data,
    sliceRotateLeft, if_pos hle, take_flatten R.each, drop_flatten R.each, M.set_run, List.flatten_append]

theorem rotateRight (R : SRepr Γ t es s) {n : Nat} (h : n ≤ es.length) :
    SliceCopy.rotateRight cfg n s =
      (.ok (), { s with data := (es.drop (es.length - n) ++ es.take (es.length - n)).flatten }) := by
  have hle : n * Γ.size t ≤ es.flatten.length := by
    rw [length_flatten_eq R.each]; exact Nat.mul_le_mul_right _ h
  have he : es.flatten.length - n * Γ.size t = (es.length - n) * Γ.size t := by
    rw [length_flatten_eq R.each, Nat.sub_mul]
  simp only [SliceCopy.rotateRight, M.bind_run, M.get_run, R.numBytes, umul_ok (R.mul_le h), M.lift_run, R.data,
    sliceRotateRight, if_pos hle, he, take_flatten R.each, drop_flatten R.each, M.set_run, List.flatten_append]

theorem rotate_out (R : SRepr Γ t es s) {n : Nat} (h : es.length < n) (hw : NoWrap cfg (n * Γ.size t)) :
    (∃ y, SliceCopy.rotateLeft cfg n s = (.panic y, s)) ∧ (∃ y, SliceCopy.rotateRight cfg n s = (.panic y, s)) := by
  have hle : ¬ n * Γ.size t ≤ es.flatten.length := by
    rw [length_flatten_eq R.each]
    have := Nat.mul_lt_mul_of_pos_right h R.pos; omega
  simp only [SliceCopy.rotateRight, SliceCopy.rotateLeft, M.bind_run, M.get_run, R.numBytes]
  rcases umul_nowrap hw s with e | e
  · exact ⟨⟨.assertion, by simp only [e, M.lift_run, R.data, sliceRotateLeft, if_neg hle]⟩,
      ⟨.assertion, by simp only [e, M.lift_run, R.data, sliceRotateRight, if_neg hle]⟩⟩
  · exact ⟨⟨.overflow, by simp only [e]⟩, ⟨.overflow, by simp only [e]⟩⟩

theorem chunksExact (R : SRepr Γ t es s) {k : Nat} (hk : 0 < k) (hb : Γ.size t * k ≤ usizeMax) (st : σ) :
    s.chunksExact cfg k st = (.ok ((chunks k es).map fun g => ⟨g.flatten, s.elem, s.vtable⟩), st) := by
  have hne : ¬ Γ.size t * k = 0 := by have := Nat.mul_pos R.pos hk; omega
  simp only [SliceCopy.chunksExact, M.bind_run, R.numBytes, umul_ok hb, M.lift_run, R.data, Dync.chunksExact,
    if_neg hne, chunks_flatten_group R.pos R.each, M.pure_run, List.map_map]
  rfl

theorem chunksExactMut (R : SRepr Γ t es s) {k : Nat} (hk : 0 < k) (hbd : Γ.size t * k ≤ usizeMax)
    {body : M (SliceCopy V × σ) Unit} {g : M (List Bytes × σ) Unit}
    (hP : ∀ c st, (∀ e ∈ c, e.length = Γ.size t) ∧ c.length = k →
      (∀ e ∈ (g (c, st)).2.1, e.length = Γ.size t) ∧ (g (c, st)).2.1.length = k)
    (hb : ∀ c st, (∀ e ∈ c, e.length = Γ.size t) ∧ c.length = k →
      body (⟨c.flatten, s.elem, s.vtable⟩, st) =
      ((g (c, st)).1, (⟨(g (c, st)).2.1.flatten, s.elem, s.vtable⟩, (g (c, st)).2.2))) (st : σ) :
    SliceCopy.chunksExactMut cfg k body (s, st) = ((visitMut g (chunks k es) st).1,
      ({ s with data := ((visitMut g (chunks k es) st).2.1.flatten ++
          es.drop (es.length / k * k)).flatten }, (visitMut g (chunks k es) st).2.2)) ∧
    (∀ e ∈ (visitMut g (chunks k es) st).2.1.flatten, e.length = Γ.size t) ∧
    (visitMut g (chunks k es) st).2.1.flatten.length = es.length / k * k := by
  have hne : ¬ Γ.size t * k = 0 := by have := Nat.mul_pos R.pos hk; omega
  obtain ⟨h1, h2, h3⟩ := visitMut_sim (val := fun c : List Bytes => (⟨c.flatten, s.elem, s.vtable⟩ : SliceCopy V))
    (P := fun c => (∀ e ∈ c, e.length = Γ.size t) ∧ c.length = k) hP hb (chunks k es)
    (fun c hc => ⟨fun e he => R.each e (chunks_subset hc e he), chunks_each es c hc⟩) st
  have h4 : (visitMut g (chunks k es) st).2.1.flatten.length = es.length / k * k := by
    rw [length_flatten_eq (fun c hc => (h2 c hc).2), h3, chunks_length hk]
  have h5 : ∀ e ∈ (visitMut g (chunks k es) st).2.1.flatten, e.length = Γ.size t := by
    intro e he
    obtain ⟨c, hc, he⟩ := List.mem_flatten.1 he
    exact (h2 c hc).1 e he
  refine ⟨?_, h5, h4⟩
  have hcc : Dync.chunksExact (Γ.size t * k) s.data = .ok ((chunks k es).map List.flatten) := by
    rw [R.data, Dync.chunksExact, if_neg hne, chunks_flatten_group R.pos R.each]
  have hmap : ((chunks k es).map List.flatten).map (fun d => SliceCopy.fromRawParts d s.elem s.vtable) =
      (chunks k es).map (fun c : List Bytes => (⟨c.flatten, s.elem, s.vtable⟩ : SliceCopy V)) := by
    simp [SliceCopy.fromRawParts, Function.comp_def]
  have hmm : (((visitMut g (chunks k es) st).2.1.map
      (fun c : List Bytes => (⟨c.flatten, s.elem, s.vtable⟩ : SliceCopy V))).map (·.data)).flatten
      = (visitMut g (chunks k es) st).2.1.flatten.flatten := by
    rw [List.map_map, List.flatten_flatten]; rfl
  simp only [SliceCopy.chunksExactMut, M.bind_run, M.get_run, R.numBytes, umul_ok hbd, M.lift_run, hcc, hmap, h1, hmm]
  have hs : splice s.data 0 (visitMut g (chunks k es) st).2.1.flatten.flatten =
      ((visitMut g (chunks k es) st).2.1.flatten ++ es.drop (es.length / k * k)).flatten := by
    have := splice_range (a := 0) (b := es.length / k * k) R.each h5 (by rw [h4]; simp) (Nat.zero_le _)
    rw [Nat.zero_mul] at this
    rw [R.data, this]; simp
  rw [hs]

end SRepr

/-! ### Out-of-range `swap` -/

theorem swapBytes_out {cfg : Cfg} {n : Nat} {es : List Bytes} (hn : 0 < n) (h : ∀ e ∈ es, e.length = n)
    (hb : n ≤ usizeMax) {i j : Nat} (hij : i ≠ j) (hout : es.length ≤ i ∨ es.length ≤ j)
    (hw : NoWrap cfg ((i + 1) * n)) (hw' : NoWrap cfg ((j + 1) * n)) (st : σ) :
    ∃ y, swapBytes cfg n es.flatten i j st = (.panic y, st) := by
  have key : ∀ a b : Nat, a < b → es.length ≤ b → NoWrap cfg ((a + 1) * n) → NoWrap cfg ((b + 1) * n) →
      ∃ y, (do
      let (la, lb) ← indexByteRange cfg n a
      let m ← umul cfg n b
      let (l, r) ← M.lift (sliceSplitAt es.flatten m)
      let ls ← M.lift (sliceIndex l la lb)
      let rs ← M.lift (sliceIndex r (0 * n) ((0 + 1) * n))
      let (ls', rs') ← M.lift (sliceSwapWith ls rs)
      pure (splice l la ls' ++ splice r (0 * n) rs') : M σ Bytes) st = (.panic y, st) := by
    intro a b hab hbl hwa hwb
    rcases indexByteRange_nowrap hn hwa st with e | e
    · rw [M.bind_ok e]
      simp only
      rcases umul_nowrap (cfg := cfg) (a := n) (b := b) (hwb.mono (by rw [Nat.mul_comm]; exact Nat.mul_le_mul_right _ (Nat.le_succ b))) st with e | e
      · rw [M.bind_ok e]
        simp only [M.bind_run, M.lift_run, sliceSplitAt, length_flatten_eq h]
        by_cases hle : n * b ≤ es.length * n
        · have hbe : b = es.length := by
            rw [Nat.mul_comm] at hle
            have := Nat.le_of_mul_le_mul_right hle hn; omega
          rw [if_pos hle]
          simp only
          have h0 : (es.flatten.drop (n * b)) = [] := by
            apply List.drop_eq_nil_of_le; rw [length_flatten_eq h, hbe, Nat.mul_comm]; exact Nat.le_refl _
          rw [h0]
          have hz : sliceIndex ([] : Bytes) (0 * n) ((0 + 1) * n) = .panic .index := by
            unfold sliceIndex; rw [if_neg]; rintro ⟨_, h2⟩; simp at h2; omega
          rw [hz]
          rcases hsl : sliceIndex (List.take (n * b) es.flatten) (a * n) ((a + 1) * n) with x | y | _ | _
          · exact ⟨_, rfl⟩
          · exact ⟨_, rfl⟩
          · unfold sliceIndex at hsl; split at hsl <;> cases hsl
          · unfold sliceIndex at hsl; split at hsl <;> cases hsl
        · rw [if_neg hle]; exact ⟨_, rfl⟩
      · rw [M.bind_panic e]; exact ⟨_, rfl⟩
    · rw [M.bind_panic e]; exact ⟨_, rfl⟩
  unfold swapBytes
  rw [if_neg hij, M.bind_ok (SRepr.indexByteRange_ok (by decide) (by simpa using hb) st)]
  simp only
  by_cases hlt : i < j
  · rw [if_pos hlt]; exact key i j hlt (by omega) hw hw'
  · rw [if_neg hlt]; exact key j i (by omega) (by omega) hw' hw

end Dync
