import Verif.SliceLemmas2
import Verif.Props.Example
/-!
# Properties of untyped slices and of element access

`SRepr Γ t es s`: the untyped slice `s` views the elements `es` of type `t`.
-/
namespace Dync
variable {U V σ α : Type} {Γ : TyEnv U} {t : TyId} {es : List Bytes} {s : SliceCopy V} {cfg : Cfg}

/-- An untyped slice over `[1u32, 2, 3]`, as returned by `from_slice`. -/
def Ex.s123 : SliceCopy Unit := SliceCopy.fromSlice Ex.env 2 () [Ex.a1, Ex.a2, Ex.a3]
theorem Ex.s123_repr : SRepr Ex.env 2 [Ex.a1, Ex.a2, Ex.a3] Ex.s123 :=
  ⟨rfl, by decide, rfl, by decide, by decide⟩

/-- Two `u64` values and a slice over them. -/
def Ex.b1 : Bytes := [some 1, some 0, some 0, some 0, some 0, some 0, some 0, some 0]
def Ex.b2 : Bytes := [some 2, some 0, some 0, some 0, some 0, some 0, some 0, some 0]
def Ex.s64 : SliceCopy Unit := SliceCopy.fromSlice Ex.env 5 () [Ex.b1, Ex.b2]
theorem Ex.s64_repr : SRepr Ex.env 5 [Ex.b1, Ex.b2] Ex.s64 := ⟨rfl, by decide, rfl, by decide, by decide⟩

/-- `from_slice` of any slice of a type of non-zero size views exactly its elements, and is the
only thing needed to satisfy `SRepr`. -/
theorem C26_slice_from_slice (vt : V) (hpos : 0 < Γ.size t) (he : ∀ e ∈ es, e.length = Γ.size t)
    (hb : es.length * Γ.size t ≤ isizeMax) : SRepr Γ t es (SliceCopy.fromSlice Γ t vt es) :=
  ⟨rfl, he, rfl, hpos, hb⟩

example := C26_slice_from_slice (Γ := Ex.env) (t := 3) (es := [[some 1, some 2, some 3]]) () (by decide) (by decide) (by decide)

/-! ### C22 swap -/

theorem C22_slice_swap (R : SRepr Γ t es s) {i j : Nat} (hi : i < es.length) (hj : j < es.length) :
    ∃ s', SliceCopy.swap cfg i j s = (.ok (), s') ∧ s'.vtable = s.vtable ∧
      SRepr Γ t ((es.set i es[j]).set j es[i]) s' := by
  refine ⟨_, R.swap hi hj, rfl, R.set_ok ?_ (by simp)⟩
  intro e he
  rcases List.mem_or_eq_of_mem_set he with he | rfl
  · rcases List.mem_or_eq_of_mem_set he with he | rfl
    · exact R.each e he
    · exact R.each _ (List.getElem_mem hj)
  · exact R.each _ (List.getElem_mem hi)

example := C22_slice_swap (cfg := ⟨true⟩) Ex.s123_repr (i := 0) (j := 2) (by decide) (by decide)

/-- What the result of `swap` means index by index. -/
theorem C22_swap_pointwise {α : Type} (es : List α) {i j : Nat} (hi : i < es.length) (hj : j < es.length)
    (k : Nat) (hk : k < es.length) :
    ((es.set i es[j]).set j es[i])[k]'(by simpa using hk) =
      if k = j then es[i] else if k = i then es[j] else es[k] := by
  simp only [List.getElem_set]
  by_cases h1 : k = j
  · subst h1; simp
  · by_cases h2 : k = i
    · subst h2
      rw [if_neg (Ne.symm h1), if_pos rfl, if_neg h1]
    · simp [h1, h2, Ne.symm h1, Ne.symm h2]

/-- An index out of range panics and nothing changes, provided the indices differ and the byte offsets do
not wrap around. What is missing: `swap(i, i)` out of range does nothing, and in release builds a
huge index may wrap (`C22_swap_out_refuted`). -/
theorem C22_slice_swap_out_partial (R : SRepr Γ t es s) {i j : Nat} (hij : i ≠ j)
    (hout : es.length ≤ i ∨ es.length ≤ j) (hw : NoWrap cfg ((i + 1) * Γ.size t))
    (hw' : NoWrap cfg ((j + 1) * Γ.size t)) : ∃ y, SliceCopy.swap cfg i j s = (.panic y, s) := by
  have hb : Γ.size t ≤ usizeMax := Nat.le_trans (Γ.size_le t) isize_le_usize
  obtain ⟨y, hy⟩ := swapBytes_out R.pos R.each hb hij hout hw hw' s
  exact ⟨y, by simp only [SliceCopy.swap, M.bind_run, M.get_run, R.numBytes, R.data, hy]⟩

example := C22_slice_swap_out_partial (cfg := ⟨false⟩) Ex.s123_repr (i := 1) (j := 3) (by decide) (.inr (by decide))
  (.inr (by decide)) (.inr (by decide))

/-- The full claim: an index out of range panics. -/
def C22_swap_out_full : Prop :=
  ∀ (U V : Type) (Γ : TyEnv U) (t : TyId) (es : List Bytes) (s : SliceCopy V) (cfg : Cfg) (i j : Nat),
    SRepr Γ t es s → i ≤ usizeMax → j ≤ usizeMax → es.length ≤ i ∨ es.length ≤ j →
    ∃ y, (SliceCopy.swap cfg i j s).1 = .panic y

theorem C22_swap_out_refuted : ¬ C22_swap_out_full := by
  intro h
  obtain ⟨y, hy⟩ := h _ _ _ _ _ _ ⟨true⟩ 7 7 Ex.s123_repr (by decide) (by decide) (.inl (by decide))
  cases hy

/-- A second way to violate it: in a release build `swap(0, 2^61 + 1)` on a slice of two `u64`
exchanges elements 0 and 1. -/
theorem C22_swap_wraps : SliceCopy.swap ⟨false⟩ 0 (2 ^ 61 + 1) Ex.s64 =
    (.ok (), { Ex.s64 with data := [Ex.b2, Ex.b1].flatten }) := by decide

/-! ### C23 split_at -/

theorem C23_slice_split_at (R : SRepr Γ t es s) {mid : Nat} (h : mid ≤ es.length) (st : σ) :
    ∃ l r, s.splitAt cfg mid st = (.ok (l, r), st) ∧ SRepr Γ t (es.take mid) l ∧ SRepr Γ t (es.drop mid) r ∧
      l.vtable = s.vtable ∧ r.vtable = s.vtable := by
  refine ⟨_, _, R.splitAt h st, ?_, ?_, rfl, rfl⟩
  · exact R.mk' (fun e he => R.each e (List.mem_of_mem_take he)) (by simp; omega)
  · exact R.mk' (fun e he => R.each e (List.mem_of_mem_drop he)) (by simp)

example := C23_slice_split_at (cfg := ⟨true⟩) Ex.s123_repr (mid := 2) (by decide) ()

/-- Splitting beyond the end panics (release: if the byte offset does not wrap). -/
theorem C23_slice_split_at_out_partial (R : SRepr Γ t es s) {mid : Nat} (h : es.length < mid)
    (hw : NoWrap cfg (mid * Γ.size t)) (st : σ) : ∃ y, s.splitAt cfg mid st = (.panic y, st) :=
  R.splitAt_out h hw st

example := C23_slice_split_at_out_partial (cfg := ⟨true⟩) Ex.s123_repr (mid := usizeMax) (by decide) (.inl rfl) ()

/-- The full claim for out-of-range split positions. -/
def C23_split_at_out_full : Prop :=
  ∀ (U V : Type) (Γ : TyEnv U) (t : TyId) (es : List Bytes) (s : SliceCopy V) (cfg : Cfg) (mid : Nat),
    SRepr Γ t es s → mid ≤ usizeMax → es.length < mid → ∃ y, s.splitAt cfg mid () = (.panic y, ())

/-- In a release build `split_at(2^61 + 1)` on two `u64` splits after the first element. -/
theorem C23_split_at_out_refuted : ¬ C23_split_at_out_full := by
  intro h
  obtain ⟨y, hy⟩ := h _ _ _ _ _ _ ⟨false⟩ (2 ^ 61 + 1) Ex.s64_repr (by decide) (by decide)
  have : SliceCopy.splitAt (σ := Unit) ⟨false⟩ (2 ^ 61 + 1) Ex.s64 () =
    (.ok (⟨Ex.b1, Ex.s64.elem, ()⟩, ⟨Ex.b2, Ex.s64.elem, ()⟩), ()) := by decide
  rw [this] at hy
  cases hy

/-! ### C24 chunks_exact -/

/-- `chunks_exact(k)`: `len / k` slices of `k` elements; together they are the longest prefix of a
length divisible by `k`. Missing: a `k` so large that `k * element_size` exceeds `usize` (see
`C24_chunks_exact_refuted`). -/
theorem C24_slice_chunks_exact_partial (R : SRepr Γ t es s) {k : Nat} (hk : 0 < k)
    (hb : Γ.size t * k ≤ usizeMax) (st : σ) :
    ∃ (ss : List (SliceCopy V)) (gs : List (List Bytes)), s.chunksExact cfg k st = (.ok ss, st) ∧
      ss.length = gs.length ∧ (∀ i (h : i < ss.length) (h' : i < gs.length), SRepr Γ t gs[i] ss[i] ∧
        ss[i].vtable = s.vtable) ∧
      gs.length = es.length / k ∧ (∀ g ∈ gs, g.length = k) ∧ gs.flatten = es.take (es.length / k * k) := by
  refine ⟨_, chunks k es, R.chunksExact hk hb st, by simp, ?_, chunks_length hk es, chunks_each es, chunks_join es⟩
  intro i h h'
  rw [List.getElem_map]
  refine ⟨R.mk' (fun e he => R.each e (chunks_subset (List.getElem_mem h') e he)) ?_, rfl⟩
  rw [chunks_each es _ (List.getElem_mem h')]
  rw [chunks_length hk] at h'
  have h1 : 0 < es.length / k := by omega
  exact Nat.le_of_not_lt fun h2 => by rw [Nat.div_eq_of_lt h2] at h1; exact Nat.lt_irrefl _ h1

example := C24_slice_chunks_exact_partial (cfg := ⟨true⟩) Ex.s123_repr (k := 2) (by decide) (by decide) ()

/-- The full claim: `chunks_exact(k)` never fails for `k > 0`. -/
def C24_chunks_exact_full : Prop :=
  ∀ (U V : Type) (Γ : TyEnv U) (t : TyId) (es : List Bytes) (s : SliceCopy V) (cfg : Cfg) (k : Nat),
    SRepr Γ t es s → k ≤ usizeMax → 0 < k → ∃ ss, s.chunksExact cfg k () = (.ok ss, ()) ∧ ss.length = es.length / k

theorem C24_chunks_exact_refuted : ¬ C24_chunks_exact_full := by
  intro h
  obtain ⟨ss, hss, -⟩ := h _ _ _ _ _ _ ⟨true⟩ (2 ^ 61) Ex.s64_repr (by decide) (by decide)
  have : SliceCopy.chunksExact (σ := Unit) ⟨true⟩ (2 ^ 61) Ex.s64 () = (.panic .overflow, ()) := by decide
  rw [this] at hss
  cases hss

/-- `chunks_exact_mut`: a loop over the chunks does to the elements what the same loop `g` over the
groups of typed elements does; the remainder is untouched. -/
theorem C24_slice_chunks_exact_mut (R : SRepr Γ t es s) {k : Nat} (hk : 0 < k)
    (hbd : Γ.size t * k ≤ usizeMax) {body : M (SliceCopy V × σ) Unit} {g : M (List Bytes × σ) Unit}
    (hP : ∀ c st, (∀ e ∈ c, e.length = Γ.size t) ∧ c.length = k →
      (∀ e ∈ (g (c, st)).2.1, e.length = Γ.size t) ∧ (g (c, st)).2.1.length = k)
    (hb : ∀ c st, (∀ e ∈ c, e.length = Γ.size t) ∧ c.length = k →
      body (⟨c.flatten, s.elem, s.vtable⟩, st) =
      ((g (c, st)).1, (⟨(g (c, st)).2.1.flatten, s.elem, s.vtable⟩, (g (c, st)).2.2))) (st : σ) :
    ∃ s' r gs st', SliceCopy.chunksExactMut cfg k body (s, st) = (r, (s', st')) ∧
      visitMut g (chunks k es) st = (r, (gs, st')) ∧
      SRepr Γ t (gs.flatten ++ es.drop (es.length / k * k)) s' := by
  obtain ⟨h1, h2, h3⟩ := R.chunksExactMut (cfg := cfg) hk hbd hP hb st
  refine ⟨_, _, _, _, h1, rfl, R.set_ok ?_ ?_⟩
  · intro e he
    rcases List.mem_append.1 he with he | he
    · exact h2 e he
    · exact R.each e (List.mem_of_mem_drop he)
  · rw [List.length_append, h3, List.length_drop]
    have := Nat.div_mul_le_self es.length k
    omega

/-! ### C25 subslice -/

/-- `subslice(r)` selects exactly the elements with index in the range, for all half-open ranges,
and for inclusive ones if elements are single bytes. Missing: inclusive ranges over larger elements, see
`C25_subslice_inclusive`. -/
theorem C25_subslice_partial (R : SRepr Γ t es s) {r : Rng} (hr : r.halfOpen ∨ Γ.size t = 1)
    (hlo : r.lo ≤ r.hi es.length) (hhi : r.hi es.length ≤ es.length) (st : σ) :
    ∃ s', s.subslice cfg r st = (.ok s', st) ∧ SRepr Γ t ((es.take (r.hi es.length)).drop r.lo) s' ∧
      s'.vtable = s.vtable := by
  have hb := R.bounds (cfg := cfg) hr hlo hhi st
  refine ⟨⟨((es.take (r.hi es.length)).drop r.lo).flatten, s.elem, s.vtable⟩, ?_, ?_, rfl⟩
  · have hx := SRepr.sliceIndex_range R.each hlo hhi
    rw [← R.data] at hx
    unfold SliceCopy.subslice
    rw [show (do
      let r ← Rng.scale cfg s.elem.numBytes r
      let x ← M.lift (r.bounds s.data.length)
      match x with
        | (a, b) => do
          let d ← M.lift (sliceIndex s.data a b)
          pure (⟨d, s.elem, s.vtable⟩ : SliceCopy V) : M σ (SliceCopy V)) =
      ((do let r ← Rng.scale cfg s.elem.numBytes r
           M.lift (r.bounds s.data.length)) >>= fun x : Nat × Nat => do
          let d ← M.lift (sliceIndex s.data x.1 x.2)
          pure (⟨d, s.elem, s.vtable⟩ : SliceCopy V)) from by rw [bind_assoc]]
    rw [M.bind_ok hb]
    simp only [M.bind_run, M.lift_run, hx, M.pure_run]
  · exact R.mk' (fun e he => R.each e (List.mem_of_mem_take (List.mem_of_mem_drop he))) (by simp; omega)

example := C25_subslice_partial (cfg := ⟨true⟩) Ex.s123_repr (r := .range 1 3) (.inl trivial) (by decide) (by decide) ()

/-- A half-open range that is not inside the slice panics (release: if no byte offset wraps). -/
theorem C25_subslice_out_partial (R : SRepr Γ t es s) {r : Rng} (hr : r.halfOpen ∨ Γ.size t = 1)
    (hout : r.hi es.length < r.lo ∨ es.length < r.hi es.length)
    (hw : NoWrap cfg (r.lo * Γ.size t)) (hw' : NoWrap cfg (r.hi es.length * Γ.size t)) (st : σ) :
    ∃ y, s.subslice cfg r st = (.panic y, st) := by
  have hb := R.bounds_out (cfg := cfg) hr hout hw hw' st
  have hx := SRepr.sliceIndex_out R.each R.pos hout
  rw [← R.data] at hx
  unfold SliceCopy.subslice
  rw [show (do
      let r ← Rng.scale cfg s.elem.numBytes r
      let x ← M.lift (r.bounds s.data.length)
      match x with
        | (a, b) => do
          let d ← M.lift (sliceIndex s.data a b)
          pure (⟨d, s.elem, s.vtable⟩ : SliceCopy V) : M σ (SliceCopy V)) =
      ((do let r ← Rng.scale cfg s.elem.numBytes r
           M.lift (r.bounds s.data.length)) >>= fun x : Nat × Nat => do
          let d ← M.lift (sliceIndex s.data x.1 x.2)
          pure (⟨d, s.elem, s.vtable⟩ : SliceCopy V)) from by rw [bind_assoc]]
  rcases hb with ⟨y, hb⟩ | hb
  · exact ⟨y, by rw [M.bind_panic hb]⟩
  · rw [M.bind_ok hb]
    exact ⟨.index, by simp only [M.bind_run, M.lift_run, hx]⟩

example := C25_subslice_out_partial (cfg := ⟨true⟩) Ex.s123_repr (r := .rangeFrom 4) (.inl trivial) (.inl (by decide))
  (.inl rfl) (.inl rfl) ()

/-- What an inclusive range really gives: one byte past the *first* byte of the last element
instead of that element, i.e. `(b - a) * size + 1` bytes. -/
theorem C25_subslice_inclusive (R : SRepr Γ t es s) {a b : Nat} (hab : a ≤ b) (hb : b < es.length) (st : σ) :
    s.subslice cfg (.inclusive a b) st =
      (.ok ⟨(s.data.take (b * Γ.size t + 1)).drop (a * Γ.size t), s.elem, s.vtable⟩, st) := by
  have h1 := R.mul_le (show a ≤ es.length by omega)
  have h2 := R.mul_le (show b ≤ es.length by omega)
  have h3 : b * Γ.size t + 1 ≤ s.data.length := by
    rw [R.length]
    have := Nat.mul_le_mul_right (Γ.size t) (show b + 1 ≤ es.length by omega)
    rw [Nat.succ_mul] at this
    have := R.pos; omega
  have h4 : ¬ b * Γ.size t = usizeMax := by
    have h5 := R.bound
    rw [R.length] at h3
    unfold isizeMax at h5; unfold usizeMax; omega
  have h6 : a * Γ.size t ≤ b * Γ.size t + 1 := Nat.le_succ_of_le (Nat.mul_le_mul_right _ hab)
  simp only [SliceCopy.subslice, Rng.scale, M.bind_run, R.numBytes, umul_ok h1, umul_ok h2, M.pure_run, Rng.bounds,
    if_neg h4, M.lift_run, sliceIndex, if_pos (And.intro h6 h3)]

/-- The full claim: all six kinds of ranges select the elements in the range. -/
def C25_full : Prop :=
  ∀ (U V : Type) (Γ : TyEnv U) (t : TyId) (es : List Bytes) (s : SliceCopy V) (cfg : Cfg) (r : Rng),
    SRepr Γ t es s → r.lo ≤ r.hi es.length → r.hi es.length ≤ es.length →
    ∃ s', s.subslice cfg r () = (.ok s', ()) ∧ SRepr Γ t ((es.take (r.hi es.length)).drop r.lo) s'

/-- `subslice(0..=1)` of three `u32` has 5 bytes. -/
theorem C25_refuted : ¬ C25_full := by
  intro h
  obtain ⟨s', h1, h2⟩ := h _ _ _ _ _ _ ⟨true⟩ (.inclusive 0 1) Ex.s123_repr (by decide) (by decide)
  rw [C25_subslice_inclusive Ex.s123_repr (by decide) (by decide)] at h1
  cases h1
  have := h2.length
  revert this
  decide

/-- Consequently, in a debug build, `len()` of such a subslice panics. -/
theorem C25_inclusive_len_panics :
    (do let s' ← Ex.s123.subslice ⟨true⟩ (.inclusive 0 1); s'.len ⟨true⟩ : M Unit Nat) () = (.panic .assertion, ()) := by
  decide

/-! ### C26 iter, get, len and typed views agree -/

theorem C26_slice (R : SRepr Γ t es s) (st : σ) :
    ∃ vs : List (CopyValue V), s.len cfg st = (.ok vs.length, st) ∧ s.iter st = (.ok vs, st) ∧
      s.asSlice Γ cfg t st = (.ok (some (vs.map (·.bytes))), st) ∧ vs.map (·.bytes) = es ∧
      ∀ i (hi : i < vs.length), s.get cfg i st = (.ok vs[i], st) ∧
        s.getAs Γ cfg t i st = (.ok (some vs[i].bytes), st) ∧
        vs[i].downcast Γ t st = (.ok (some vs[i].bytes), st) ∧
        (∀ t', t' ≠ t → vs[i].downcast Γ t' st = (.ok none, st)) := by
  have hm : (es.map fun e => (⟨e, t, Γ.align t, s.vtable⟩ : CopyValue V)).map (·.bytes) = es := by
    simp [Function.comp_def]
  refine ⟨es.map fun e => ⟨e, t, Γ.align t, s.vtable⟩, by rw [R.len]; simp, R.iter st, ?_, hm, ?_⟩
  · rw [hm]; exact R.asSlice st
  · intro i hi
    have hi' : i < es.length := by simpa using hi
    have hl := R.each _ (List.getElem_mem hi')
    refine ⟨by rw [R.get hi' st]; simp, by rw [R.getAs hi' t st]; simp, ?_, ?_⟩
    · simp [CopyValue.downcast, hl]; rfl
    · intro t' ht
      simp [CopyValue.downcast, Ne.symm ht]

example := C26_slice (cfg := ⟨true⟩) Ex.s123_repr ()

theorem C26_veccopy {c : VecCopy V} {h : Heap} (R : Repr Γ h t es c.data) (st : σ) :
    ∃ vs : List (CopyValue V), c.len = vs.length ∧ (c.isEmpty = true ↔ vs = []) ∧ c.iter st = (.ok vs, st) ∧
      c.asSliceAs Γ t st = (.ok (some (vs.map (·.bytes))), st) ∧ vs.map (·.bytes) = es ∧
      ∀ i (hi : i < vs.length), c.getRef cfg i st = (.ok vs[i], st) ∧
        c.getAs Γ t i st = (.ok (some vs[i].bytes), st) ∧
        vs[i].downcast Γ t st = (.ok (some vs[i].bytes), st) ∧
        (∀ t', t' ≠ t → vs[i].downcast Γ t' st = (.ok none, st)) := by
  have hm : (es.map fun e => (⟨e, t, Γ.align t, c.vtable⟩ : CopyValue V)).map (·.bytes) = es := by
    simp [Function.comp_def]
  refine ⟨es.map fun e => ⟨e, t, Γ.align t, c.vtable⟩, by simp [VecCopy.len, R.len], ?_, VecCopy.iter_ok R st, ?_, hm, ?_⟩
  · simp [VecCopy.isEmpty, R.len]
  · rw [hm]; exact VecCopy.asSliceAs_ok R st
  · intro i hi
    have hi' : i < es.length := by simpa using hi
    have hl := R.each _ (List.getElem_mem hi')
    refine ⟨by rw [VecCopy.getRef_ok R hi' st]; simp, by rw [VecCopy.getAs_ok R hi' st]; simp, ?_, ?_⟩
    · simp [CopyValue.downcast, hl]; rfl
    · intro t' ht
      simp [CopyValue.downcast, Ne.symm ht]

example := C26_veccopy (cfg := ⟨false⟩) Ex.c123_repr ()

/-! ### C27 out-of-range access -/

/-- Typed access out of range always panics, in both profiles and for every index. -/
theorem C27_get_as (R : SRepr Γ t es s) {i : Nat} (hi : es.length ≤ i) (t' : TyId) (st : σ) :
    s.getAs Γ cfg t' i st = (.panic .assertion, st) := R.getAs_out hi t' st

theorem C27_veccopy_get_as {c : VecCopy V} {h : Heap} (R : Repr Γ h t es c.data) {i : Nat} (hi : es.length ≤ i)
    (t' : TyId) (st : σ) : c.getAs Γ t' i st = (.panic .assertion, st) := VecCopy.getAs_out R hi st

theorem C27_veccopy_get_mut_as {c : VecCopy V} {w : World U} (R : Repr Γ w.heap t es c.data) {i : Nat}
    (hi : es.length ≤ i) (t' : TyId) (m : M (Bytes × World U) α) :
    VecCopy.getMutAs Γ t' i m (c, w) = (.panic .assertion, (c, w)) := by
  have hb : (decide (i < c.len)) = false := by
    simp only [VecCopy.len, R.len]; exact decide_eq_false (by omega)
  simp only [VecCopy.getMutAs, M.bind_run, getSelf_run, hb, M.assert_false_run]

example := C27_get_as (cfg := ⟨false⟩) Ex.s123_repr (i := 3) (by decide) 5 ()
example := C27_veccopy_get_as Ex.c123_repr (i := usizeMax) (by decide) 5 ()

/-- Untyped `get` on a slice out of range panics, in a release build if `(i + 1) * size` does not
wrap. -/
theorem C27_slice_get_partial (R : SRepr Γ t es s) {i : Nat} (hi : es.length ≤ i)
    (hw : NoWrap cfg ((i + 1) * Γ.size t)) (st : σ) : ∃ y, s.get cfg i st = (.panic y, st) :=
  R.get_out hi hw st

example := C27_slice_get_partial (cfg := ⟨true⟩) Ex.s123_repr (i := 5) (by decide) (.inl rfl) ()

/-- Debug builds: `VecCopy::get_ref` and `get_mut` out of range panic. -/
theorem C27_veccopy_get_debug_partial {c : VecCopy V} {w : World U} (R : Repr Γ w.heap t es c.data) {i : Nat}
    (hi : es.length ≤ i) (hd : cfg.debug = true) (m : M (CopyValue V × World U) α) :
    c.getRef cfg i w = (.panic .assertion, w) ∧
    VecCopy.getMut cfg i m (c, w) = (.panic .assertion, (c, w)) := by
  refine ⟨VecCopy.getRef_out_debug R hi hd w, ?_⟩
  have hb : (decide (i < c.len)) = false := by
    simp only [VecCopy.len, R.len]; exact decide_eq_false (by omega)
  simp only [VecCopy.getMut, M.bind_run, getSelf_run, debugAssert, hd, if_true, hb, M.assert_false_run]

example := C27_veccopy_get_debug_partial (cfg := ⟨true⟩) Ex.c123_repr (i := 3) (by decide) rfl
  (pure () : M (CopyValue Unit × World Ex.Log) Unit)

/-- Rotating a slice by more than its length panics (release: if the offset does not wrap). -/
theorem C27_slice_rotate_partial (R : SRepr Γ t es s) {n : Nat} (h : es.length < n)
    (hw : NoWrap cfg (n * Γ.size t)) :
    (∃ y, SliceCopy.rotateLeft cfg n s = (.panic y, s)) ∧ (∃ y, SliceCopy.rotateRight cfg n s = (.panic y, s)) :=
  R.rotate_out h hw

example := C27_slice_rotate_partial (cfg := ⟨true⟩) Ex.s123_repr (n := 5) (by decide) (.inl rfl)

/-- The full claim for untyped element access. -/
def C27_full : Prop :=
  ∀ (U V : Type) (Γ : TyEnv U) (t : TyId) (es : List Bytes) (cfg : Cfg) (i : Nat), es.length ≤ i → i ≤ usizeMax →
    (∀ s : SliceCopy V, SRepr Γ t es s → ∃ y, s.get cfg i () = (.panic y, ())) ∧
    (∀ (c : VecCopy V) (h : Heap), Repr Γ h t es c.data → ∃ y, c.getRef cfg i () = (.panic y, ()))

/-- Release builds: `VecCopy::get_ref(len)` reads outside the content (undefined behaviour), without
any wrap-around being involved. -/
theorem C27_get_ref_release_ub : ∀ {c : VecCopy V} {h : Heap}, Repr Γ h t es c.data →
    c.getRef ⟨false⟩ es.length () = (.ub, ()) := by
  intro c h R
  exact VecCopy.getRef_out_release R (Nat.le_refl _)
    (Nat.le_trans (VecCopy.Repr_mul_le R) isize_le_usize) rfl ()

/-- Release builds: `get(2^61)` on a slice of two `u64` returns element 0. -/
theorem C27_get_release_wraps : Ex.s64.get ⟨false⟩ (2 ^ 61) () = (.ok ⟨Ex.b1, 5, 8, ()⟩, ()) := by decide

theorem C27_refuted : ¬ C27_full := by
  intro h
  obtain ⟨h1, h2⟩ := h Ex.Log Unit Ex.env 2 [Ex.a1, Ex.a2, Ex.a3] ⟨false⟩ 3 (by decide) (by decide)
  obtain ⟨y, hy⟩ := h2 Ex.c123 _ Ex.c123_repr
  have := C27_get_ref_release_ub Ex.c123_repr
  rw [show [Ex.a1, Ex.a2, Ex.a3].length = 3 from rfl, hy] at this
  cases this

/-! ### C34 CopyValueMut -/

theorem C34_copy (a b : CopyValue V) (hlen : a.type_id = b.type_id → a.bytes.length = b.bytes.length) :
    CopyValue.copy b a = if a.type_id = b.type_id then (.ok (some ()), { a with bytes := b.bytes })
      else (.ok none, a) := by
  by_cases h : a.type_id = b.type_id
  · simp [CopyValue.copy, h, sliceCopyFrom, hlen h]; rfl
  · simp [CopyValue.copy, h]

theorem C34_swap (a b : CopyValue V)
    (hty : a.type_id = b.type_id → a.bytes.length = b.bytes.length ∧ a.alignment = b.alignment) :
    CopyValue.swap (a, b) = if a.type_id = b.type_id then
        (.ok (), ({ a with bytes := b.bytes }, { b with bytes := a.bytes }))
      else (.ok (), (a, b)) := by
  by_cases h : a.type_id = b.type_id
  · obtain ⟨h1, h2⟩ := hty h
    simp [CopyValue.swap, h, sliceSwapWith, h1, h2]
  · simp [CopyValue.swap, h]

/-- Values made by `CopyValueMut::new` (or taken from containers) meet the hypotheses: type ids
determine size and alignment. -/
theorem C34_hypotheses (Γ : TyEnv U) {t t' : TyId} {x y : Bytes} (vt : V) (hx : x.length = Γ.size t)
    (hy : y.length = Γ.size t') :
    (CopyValue.new Γ t vt x).type_id = (CopyValue.new Γ t' vt y).type_id →
      (CopyValue.new Γ t vt x).bytes.length = (CopyValue.new Γ t' vt y).bytes.length ∧
      (CopyValue.new Γ t vt x).alignment = (CopyValue.new Γ t' vt y).alignment := by
  intro h
  simp only [CopyValue.new] at *
  subst h
  exact ⟨hx.trans hy.symm, rfl⟩

example := C34_swap (CopyValue.new Ex.env 2 () Ex.a1) (CopyValue.new Ex.env 2 () Ex.a2)
  (C34_hypotheses Ex.env () rfl rfl)

/-! ### C48 writes through mutable views -/

/-- `get_mut(i)`: whatever the caller writes into the value becomes element `i`; nothing else changes.
This also holds if the caller panics after writing. -/
theorem C48_slice_get_mut (R : SRepr Γ t es s) {i : Nat} (hi : i < es.length) (m : M (CopyValue V) α)
    (hm : (m ⟨es[i], t, Γ.align t, s.vtable⟩).2.bytes.length = Γ.size t) :
    ∃ s', SliceCopy.getMut cfg i m s = ((m ⟨es[i], t, Γ.align t, s.vtable⟩).1, s') ∧ s'.vtable = s.vtable ∧
      SRepr Γ t (es.set i (m ⟨es[i], t, Γ.align t, s.vtable⟩).2.bytes) s' := by
  refine ⟨_, R.getMut hi m, rfl, ?_⟩
  rw [R.splice_elem hi hm]
  refine R.set_ok ?_ (by simp)
  intro e he
  rcases List.mem_or_eq_of_mem_set he with he | rfl
  · exact R.each e he
  · exact hm

example := C48_slice_get_mut (cfg := ⟨true⟩) Ex.s123_repr (i := 1) (by decide)
  (CopyValue.copy (CopyValue.new Ex.env 2 () Ex.a3)) (by decide)

theorem C48_slice_set_as (R : SRepr Γ t es s) {i : Nat} (hi : i < es.length) {x : Bytes} (hx : x.length = Γ.size t) :
    ∃ s', SliceCopy.setAs Γ cfg t i x s = (.ok (some ()), s') ∧ s'.vtable = s.vtable ∧ SRepr Γ t (es.set i x) s' := by
  refine ⟨_, R.setAs hi hx, rfl, R.set_ok ?_ (by simp)⟩
  intro e he
  rcases List.mem_or_eq_of_mem_set he with he | rfl
  · exact R.each e he
  · exact hx

/-- `iter_mut`: a loop over the untyped values does to the elements what the loop `g` over the typed
elements does, including when it panics half way. -/
theorem C48_slice_iter_mut (R : SRepr Γ t es s) {body : M (CopyValue V × σ) Unit} {g : M (Bytes × σ) Unit}
    (hP : ∀ e st, e.length = Γ.size t → (g (e, st)).2.1.length = Γ.size t)
    (hb : ∀ e st, e.length = Γ.size t → body (⟨e, t, Γ.align t, s.vtable⟩, st) =
      ((g (e, st)).1, (⟨(g (e, st)).2.1, t, Γ.align t, s.vtable⟩, (g (e, st)).2.2))) (st : σ) :
    ∃ s' r fs st', SliceCopy.iterMut body (s, st) = (r, (s', st')) ∧ visitMut g es st = (r, (fs, st')) ∧
      SRepr Γ t fs s' ∧ fs.length = es.length := by
  obtain ⟨h1, h2, h3⟩ := R.iterMut hP hb st
  exact ⟨_, _, _, _, h1, rfl, R.set_ok h2 (by rw [h3]; exact Nat.le_refl _), h3⟩

/-- Special case: applying `f` to every element. -/
theorem C48_slice_iter_mut_map (R : SRepr Γ t es s) (f : Bytes → Bytes)
    (hf : ∀ e, e.length = Γ.size t → (f e).length = Γ.size t) (st : σ) :
    ∃ s', SliceCopy.iterMut (M.modify fun p : CopyValue V × σ => ({ p.1 with bytes := f p.1.bytes }, p.2)) (s, st) =
        (.ok (), (s', st)) ∧ SRepr Γ t (es.map f) s' := by
  obtain ⟨s', r, fs, st', h1, h2, h3, h4⟩ := C48_slice_iter_mut (σ := σ) R
    (body := M.modify fun p : CopyValue V × σ => ({ p.1 with bytes := f p.1.bytes }, p.2))
    (g := M.modify fun p => (f p.1, p.2)) (fun e st he => hf e he) (fun e st _ => rfl) st
  rw [visitMut_pure] at h2
  cases h2
  exact ⟨s', h1, h3⟩

example := C48_slice_iter_mut_map Ex.s123_repr List.reverse (fun e h => by simpa using h) ()

/-- `subslice_mut(lo..hi)`: the caller's computation on the view changes exactly the elements
`lo..hi`. -/
theorem C48_slice_subslice_mut (R : SRepr Γ t es s) {r : Rng} (hr : r.halfOpen ∨ Γ.size t = 1)
    (hlo : r.lo ≤ r.hi es.length) (hhi : r.hi es.length ≤ es.length) (m : M (SliceCopy V) α)
    {fs : List Bytes} (hf : ∀ e ∈ fs, e.length = Γ.size t) (hl : fs.length = r.hi es.length - r.lo) {res : Res α}
    (hm : ∀ v, SRepr Γ t ((es.take (r.hi es.length)).drop r.lo) v → v.vtable = s.vtable →
      (m v).1 = res ∧ (m v).2.data = fs.flatten) :
    ∃ s', SliceCopy.subsliceMut cfg r m s = (res, s') ∧ s'.vtable = s.vtable ∧
      SRepr Γ t (es.take r.lo ++ fs ++ es.drop (r.hi es.length)) s' := by
  have hb := R.bounds (cfg := cfg) hr hlo hhi s
  have hx := SRepr.sliceIndex_range R.each hlo hhi
  rw [← R.data] at hx
  obtain ⟨h1, h2⟩ := hm ⟨((es.take (r.hi es.length)).drop r.lo).flatten, s.elem, s.vtable⟩
    (R.mk' (fun e he => R.each e (List.mem_of_mem_take (List.mem_of_mem_drop he))) (by simp; omega)) rfl
  refine ⟨{ s with data := splice s.data (r.lo * Γ.size t) fs.flatten }, ?_, rfl, ?_⟩
  · unfold SliceCopy.subsliceMut
    rw [M.bind_ok (M.get_run s)]
    rw [show (do
      let r ← Rng.scale cfg s.elem.numBytes r
      let x ← M.lift (r.bounds s.data.length)
      match x with
        | (a, b) => do
          let d ← M.lift (sliceIndex s.data a b)
          (⟨fun s =>
            let out := m ⟨d, s.elem, s.vtable⟩
            (out.1, { s with data := splice s.data a out.2.data })⟩ : M (SliceCopy V) α) : M (SliceCopy V) α) =
      ((do let r ← Rng.scale cfg s.elem.numBytes r
           M.lift (r.bounds s.data.length)) >>= fun x : Nat × Nat => do
          let d ← M.lift (sliceIndex s.data x.1 x.2)
          (⟨fun s =>
            let out := m ⟨d, s.elem, s.vtable⟩
            (out.1, { s with data := splice s.data x.1 out.2.data })⟩ : M (SliceCopy V) α)) from by rw [bind_assoc]]
    rw [M.bind_ok hb]
    simp only [M.bind_run, M.lift_run, hx, h1, h2]
  · rw [R.data, SRepr.splice_range R.each hf hl hlo]
    refine R.set_ok ?_ ?_
    · intro e he
      rcases List.mem_append.1 he with he | he
      · rcases List.mem_append.1 he with he | he
        · exact R.each e (List.mem_of_mem_take he)
        · exact hf e he
      · exact R.each e (List.mem_of_mem_drop he)
    · simp; omega

/-- `split_at` on a mutable slice: the two halves are written independently. -/
theorem C48_slice_split_at_mut (R : SRepr Γ t es s) {mid : Nat} (h : mid ≤ es.length)
    (m : M (SliceCopy V × SliceCopy V) α) {ls rs : List Bytes} (hls : ∀ e ∈ ls, e.length = Γ.size t)
    (hrs : ∀ e ∈ rs, e.length = Γ.size t) (hl : ls.length = mid) (hr : rs.length = es.length - mid) {res : Res α}
    (hm : ∀ a b, SRepr Γ t (es.take mid) a → SRepr Γ t (es.drop mid) b → a.vtable = s.vtable → b.vtable = s.vtable →
      (m (a, b)).1 = res ∧ (m (a, b)).2.1.data = ls.flatten ∧ (m (a, b)).2.2.data = rs.flatten) :
    ∃ s', SliceCopy.splitAtMut cfg mid m s = (res, s') ∧ s'.vtable = s.vtable ∧ SRepr Γ t (ls ++ rs) s' := by
  obtain ⟨h1, h2, h3⟩ := hm ⟨(es.take mid).flatten, s.elem, s.vtable⟩ ⟨(es.drop mid).flatten, s.elem, s.vtable⟩
    (R.mk' (fun e he => R.each e (List.mem_of_mem_take he)) (by simp; omega))
    (R.mk' (fun e he => R.each e (List.mem_of_mem_drop he)) (by simp)) rfl rfl
  refine ⟨{ s with data := (ls ++ rs).flatten }, ?_, rfl, R.set_ok ?_ (by simp; omega)⟩
  · rw [R.splitAtMut h m, h1, h2, h3, List.flatten_append]
  · intro e he
    rcases List.mem_append.1 he with he | he
    · exact hls e he
    · exact hrs e he

/-- `as_slice` on a mutable slice: the caller works on the typed elements themselves; whatever it
leaves there, also when it panics, is the new content. Another type is refused. -/
theorem C48_slice_as_slice_mut (R : SRepr Γ t es s) (m : M (List Bytes) α) :
    ((∀ e ∈ (m es).2, e.length = Γ.size t) → (m es).2.length = es.length →
      ∃ s', SliceCopy.asSliceMut Γ cfg t m s = ((m es).1.map some, s') ∧ s'.vtable = s.vtable ∧ SRepr Γ t (m es).2 s') ∧
    ∀ t', t' ≠ t → SliceCopy.asSliceMut Γ cfg t' m s = (.ok none, s) := by
  refine ⟨fun h1 h2 => ⟨_, R.asSliceMut m, rfl, ?_⟩, fun t' ht => R.asSliceMut_mismatch ht m⟩
  rw [splice_whole (by rw [length_flatten_eq h1, R.length, h2])]
  exact R.set_ok h1 (by omega)

example := (C48_slice_as_slice_mut (cfg := ⟨false⟩) Ex.s123_repr (do M.modify List.reverse; M.panic .user : M (List Bytes) Unit)).1
  (by decide) (by decide)

/-! ### C11, C12 rotating and overwriting a view -/

/-- Rotating a view moves whole elements, for every alignment. -/
theorem C11_slice_rotate (R : SRepr Γ t es s) {n : Nat} (h : n ≤ es.length) :
    (∃ s', SliceCopy.rotateLeft cfg n s = (.ok (), s') ∧ s'.vtable = s.vtable ∧ SRepr Γ t (es.drop n ++ es.take n) s') ∧
    (∃ s', SliceCopy.rotateRight cfg n s = (.ok (), s') ∧ s'.vtable = s.vtable ∧
      SRepr Γ t (es.drop (es.length - n) ++ es.take (es.length - n)) s') := by
  have key : ∀ k, ∀ e ∈ es.drop k ++ es.take k, e.length = Γ.size t := by
    intro k e he
    rcases List.mem_append.1 he with he | he
    · exact R.each e (List.mem_of_mem_drop he)
    · exact R.each e (List.mem_of_mem_take he)
  exact ⟨⟨_, R.rotateLeft h, rfl, R.set_ok (key n) (by simp; omega)⟩, ⟨_, R.rotateRight h, rfl, R.set_ok (key _) (by simp)⟩⟩

example := C11_slice_rotate (cfg := ⟨false⟩) Ex.s123_repr (n := 2) (by decide)

/-- `copy_from_slice` on a view: replaces all elements if type and number agree, panics without effect
if the number differs, and is refused without effect if the type does. -/
theorem C12_slice_copy_from_slice (R : SRepr Γ t es s) (src : List Bytes) :
    ((∀ e ∈ src, e.length = Γ.size t) → src.length = es.length →
      ∃ s', SliceCopy.copyFromSlice Γ cfg t src s = (.ok (some ()), s') ∧ s'.vtable = s.vtable ∧ SRepr Γ t src s') ∧
    (src.length ≠ es.length → SliceCopy.copyFromSlice Γ cfg t src s = (.panic .lenMismatch, s)) ∧
    ∀ t', t' ≠ t → SliceCopy.copyFromSlice Γ cfg t' src s = (.ok none, s) :=
  ⟨fun h1 h2 => ⟨_, R.copyFromSlice h1 h2, rfl, R.set_ok h1 (by omega)⟩, fun h => R.copyFromSlice_len h,
    fun _ ht => R.asSliceMut_mismatch ht _⟩

example := (C12_slice_copy_from_slice (cfg := ⟨false⟩) Ex.s123_repr [Ex.a2, Ex.a2, Ex.a1]).1 (by decide) (by decide)

example := C48_slice_set_as (cfg := ⟨false⟩) Ex.s123_repr (i := 2) (by decide) (x := Ex.a1) (by decide)

/-- `view.subslice_mut(1..).rotate_left(1)` -/
example := C48_slice_subslice_mut (cfg := ⟨false⟩) Ex.s123_repr (r := .rangeFrom 1) (.inl trivial) (by decide) (by decide)
  (SliceCopy.rotateLeft ⟨false⟩ 1) (fs := [Ex.a3, Ex.a2]) (by decide) (by decide) (res := .ok ()) (by
    intro v hv _
    rw [hv.rotateLeft (n := 1) (by decide)]
    exact ⟨rfl, rfl⟩)

/-- `let (a, b) = view.split_at(1); b.swap(0, 1)` -/
example := C48_slice_split_at_mut (cfg := ⟨true⟩) Ex.s123_repr (mid := 1) (by decide)
  (M.zoom Prod.snd (fun b s => (s.1, b)) (SliceCopy.swap ⟨true⟩ 0 1)) (ls := [Ex.a1]) (rs := [Ex.a3, Ex.a2]) (by decide) (by decide)
  (by decide) (by decide) (res := .ok ()) (by
    intro a b ha hb _ _
    rw [M.zoom_run, hb.swap (i := 0) (j := 1) (by decide) (by decide)]
    exact ⟨rfl, ha.data, rfl⟩)

/-- Reverse every group of two elements. -/
example := C24_slice_chunks_exact_mut (cfg := ⟨true⟩) Ex.s123_repr (k := 2) (by decide) (by decide) (σ := Unit)
  (body := M.modify fun p => ({ p.1 with data := p.1.data.drop 4 ++ p.1.data.take 4 }, p.2))
  (g := M.modify fun p => (p.1.drop 1 ++ p.1.take 1, p.2))
  (by
    intro c st h
    refine ⟨fun e he => ?_, ?_⟩
    · rcases List.mem_append.1 he with he | he
      · exact h.1 e (List.mem_of_mem_drop he)
      · exact h.1 e (List.mem_of_mem_take he)
    · simp [M.modify_run, h.2])
  (by
    intro c st h
    have h1 := take_flatten (n := 4) (k := 1) h.1
    have h2 := drop_flatten (n := 4) (k := 1) h.1
    simp only [M.modify_run, List.flatten_append, ← h1, ← h2])
  ()

end Dync
