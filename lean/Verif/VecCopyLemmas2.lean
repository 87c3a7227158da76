import Verif.SliceLemmas
/-!
# Helper lemmas: construction, conversion and element access of `VecCopy`
-/
namespace Dync
variable {U V α : Type}

theorem Room.zero {Γ : TyEnv U} {t : TyId} {n : Nat} (h : Room Γ t n) : Room Γ t 0 := h.mono (Nat.zero_le _)

/-- Alignment is at most 2^29, so an empty array always fits. -/
theorem room_zero (Γ : TyEnv U) (t : TyId) : Room Γ t 0 := by
  unfold Room
  obtain ⟨k, hk, he⟩ := Γ.align_pow t
  have : (2:Nat) ^ k ≤ 2 ^ 29 := Nat.pow_le_pow_right (by decide) hk
  rw [he]
  have e : (2:Nat) ^ 29 = 536870912 := by decide
  rw [e] at this
  unfold isizeMax; omega

/-- `Vec::new()`. -/
theorem isVec_new (Γ : TyEnv U) (h : Heap) {t : TyId} (hpos : 0 < Γ.size t) :
    IsVec Γ h t [] (RVec.new (Γ.layout t)) := by
  have : Γ.size t ≠ 0 := by omega
  refine ⟨rfl, by simp, rfl, by simp [RVec.new], ?_, .inl ?_⟩
  · simp only [RVec.new, this, if_false]; exact room_zero Γ t
  · simp [RVec.new, this]

namespace VecCopy
variable {Γ : TyEnv U} {t : TyId} {es : List Bytes} {c : VecCopy V} {w : World U} {cfg : Cfg} {vt : V}

/-- The healthy result of a constructor: `c'` holds `es`, in the given or a fresh block. -/
theorem fromVec_ok {rv : RVec} (hv : IsVec Γ w.heap t es rv) (wf : w.heap.WF) (hpos : 0 < Γ.size t) :
    ∃ p k h', fromVec Γ t vt rv w =
        (.ok ⟨⟨p, rv.len, k, ElemInfo.new Γ t, rv.bytes⟩, vt⟩, { w with heap := h' }) ∧
      Repr Γ h' t es ⟨p, rv.len, k, ElemInfo.new Γ t, rv.bytes⟩ ∧
      Realloc w.heap rv.ptr h' p ∧
      (0 < rv.cap → p = rv.ptr ∧ k = rv.cap ∧ h' = w.heap) ∧ k ≤ max rv.cap 8 := by
  obtain ⟨p, k, h', hrun, hR, hre, hsame, hub⟩ := VecVoid.fromVec_spec hv wf hpos
  refine ⟨p, k, h', ?_, hR, hre, hsame, hub⟩
  have hne : (Γ.size t != 0) = true := by simp; omega
  have ha : withLocal rv (RVec.dropTyped Γ t) (M.assert (Γ.size t != 0)) w = (.ok ((), rv), w) :=
    withLocal_ok (by rw [hne]; rfl)
  simp only [fromVec, M.bind_run, ha, hrun, M.pure_run]

/-- For a zero-sized type `from_vec` panics (after dropping the vector). -/
theorem fromVec_zst {rv : RVec} (h0 : Γ.size t = 0) {w' : World U}
    (hd : RVec.dropTyped Γ t rv w = (.ok (), w')) :
    fromVec Γ t vt rv w = (.panic .assertion, w') := by
  have ha : withLocal rv (RVec.dropTyped Γ t) (M.assert (Γ.size t != 0)) w = (.panic .assertion, w') := by
    apply withLocal_panic (x' := rv) (w' := w)
    · rw [show (Γ.size t != 0) = false by simp [h0]]; rfl
    · exact hd
  simp only [fromVec, M.bind_run, ha]

theorem fromVec_zst_ne {rv : RVec} (h0 : Γ.size t = 0) (c : VecCopy V) :
    (fromVec Γ t vt rv w).1 ≠ .ok c := by
  have hf : (Γ.size t != 0) = false := by simp [h0]
  simp only [fromVec, M.bind_run, hf, withLocal, M.assert_false_run]
  rcases RVec.dropTyped Γ t rv w with ⟨r, w'⟩
  cases r <;> simp

theorem dropTyped_empty {rv : RVec} (hl : rv.len = 0) (h0 : Γ.size t = 0) :
    RVec.dropTyped Γ t rv w = (.ok (), w) := by
  simp [RVec.dropTyped, M.thenDrop, RVec.elems, hl, RVec.dropBuf, worldHeap, dealloc, h0]

theorem withCapacity_isVec {n : Nat} (wf : w.heap.WF) (hpos : 0 < Γ.size t) (hroom : Room Γ t n) :
    ∃ p h', RVec.withCapacity (Γ.layout t) n w = (.ok ⟨p, 0, n, []⟩, { w with heap := h' }) ∧
      IsVec Γ h' t [] ⟨p, 0, n, []⟩ ∧ h'.WF ∧
      (∀ j, j < w.heap.next → h'.live j = w.heap.live j) ∧ (∀ i, p = some i → w.heap.next ≤ i) ∧
      w.heap.next ≤ h'.next := by
  have hne : Γ.size t ≠ 0 := by omega
  refine ⟨(w.heap.alloc ⟨n * Γ.size t, Γ.align t⟩).1, (w.heap.alloc ⟨n * Γ.size t, Γ.align t⟩).2,
    ?_, ⟨rfl, by simp, rfl, Nat.zero_le _, hroom, ?_⟩, wf.alloc _, ?_, ?_, ?_⟩
  · unfold Room at hroom
    simp [RVec.withCapacity, hne, hroom]
  · by_cases hn : n = 0
    · left; subst hn; simp [Heap.alloc]
    · right
      have hz : (⟨n * Γ.size t, Γ.align t⟩ : Layout).size ≠ 0 := Nat.mul_ne_zero hn hne
      exact ⟨Nat.pos_of_ne_zero hn, _, (Heap.alloc_live hz).1, (Heap.alloc_live hz).2⟩
  · intro j hj
    simp only [Heap.alloc]
    split
    · rfl
    · have : j ≠ w.heap.next := by omega
      simp [this]
  · intro i hi
    simp only [Heap.alloc] at hi
    split at hi
    · cases hi
    · cases hi; exact Nat.le_refl _
  · simp only [Heap.alloc]
    split
    · exact Nat.le_refl _
    · exact Nat.le_succ _

/-! ### Element access -/

theorem getAs_ok {σ : Type} {h : Heap} (R : Repr Γ h t es c.data) {i : Nat} (hi : i < es.length) (s : σ) :
    getAs Γ t i c s = (.ok (some es[i]), s) := by
  have hck : c.checkRef t = some c := by simp [checkRef, elementTypeId, R.type_id]
  have hb : (decide (i < c.len)) = true := by simp only [len, R.len]; exact decide_eq_true hi
  have hm : (i + 1) * Γ.size t ≤ c.data.mem.length := by
    rw [R.mem_len, R.len]; exact Nat.mul_le_mul_right _ (by omega)
  simp only [getAs, hb, M.bind_run, M.assert_true_run, hck, if_pos hm, M.pure_run]
  rw [R.mem, drop_take_flatten R.each hi]

theorem getAs_mismatch {σ : Type} {h : Heap} (R : Repr Γ h t es c.data) {t' : TyId} (ht : t' ≠ t) {i : Nat}
    (hi : i < es.length) (s : σ) : getAs Γ t' i c s = (.ok none, s) := by
  have hck : c.checkRef t' = none := by simp [checkRef, elementTypeId, R.type_id, ht]
  have hb : (decide (i < c.len)) = true := by simp only [len, R.len]; exact decide_eq_true hi
  simp only [getAs, hb, M.bind_run, M.assert_true_run, hck, M.pure_run]

theorem getAs_out {σ : Type} {h : Heap} (R : Repr Γ h t es c.data) {t' : TyId} {i : Nat}
    (hi : es.length ≤ i) (s : σ) : getAs Γ t' i c s = (.panic .assertion, s) := by
  have hb : (decide (i < c.len)) = false := by
    simp only [len, R.len]; exact decide_eq_false (by omega)
  simp only [getAs, hb, M.bind_run, M.assert_false_run]

theorem Repr_mul_le {h : Heap} (R : Repr Γ h t es c.data) : es.length * Γ.size t ≤ isizeMax := by
  have h1 := Nat.mul_le_mul_right (Γ.size t) R.len_cap
  have := R.room; unfold Room at this; omega

theorem getRef_ok {σ : Type} {h : Heap} (R : Repr Γ h t es c.data) {i : Nat} (hi : i < es.length) (s : σ) :
    getRef cfg i c s = (.ok ⟨es[i], t, Γ.align t, c.vtable⟩, s) := by
  have hb : (decide (i < c.len)) = true := by simp only [len, R.len]; exact decide_eq_true hi
  have hmul := Nat.mul_le_mul_right (Γ.size t) (show i + 1 ≤ es.length by omega)
  have hm := Repr_mul_le R
  have hus := isize_le_usize
  rw [Nat.succ_mul] at hmul
  simp only [getRef, R.numBytes]
  rw [M.bind_ok (debugAssert_ok hb s), M.bind_ok (umul_ok (by omega) s),
    if_pos (by rw [R.mem_len, R.len]; exact hmul)]
  simp only [M.pure_run, valueOf, elementTypeId, R.type_id, R.align]
  rw [R.mem, drop_take_flatten R.each hi]

theorem getRef_out_debug {σ : Type} {h : Heap} (R : Repr Γ h t es c.data) {i : Nat} (hi : es.length ≤ i)
    (hd : cfg.debug = true) (s : σ) : getRef cfg i c s = (.panic .assertion, s) := by
  have hb : (decide (i < c.len)) = false := by
    simp only [len, R.len]; exact decide_eq_false (by omega)
  simp only [getRef, debugAssert, hd, if_true, hb, M.bind_run, M.assert_false_run]

/-- In a release build `get_ref` past the end is undefined behaviour (no wrap-around case). -/
theorem getRef_out_release {σ : Type} {h : Heap} (R : Repr Γ h t es c.data) {i : Nat} (hi : es.length ≤ i)
    (hb : i * Γ.size t ≤ usizeMax) (hd : cfg.debug = false) (s : σ) : getRef cfg i c s = (.ub, s) := by
  have hmul := Nat.mul_le_mul_right (Γ.size t) hi
  have hpos := R.pos
  have hg : debugAssert (σ := σ) cfg (decide (i < c.len)) s = (.ok (), s) := by
    simp [debugAssert, hd]
  simp only [getRef, R.numBytes]
  rw [M.bind_ok hg, M.bind_ok (umul_ok hb s), if_neg (by rw [R.mem_len, R.len]; omega)]
  rfl

theorem byteChunks_ok {σ : Type} {h : Heap} {v : VecVoid} (R : Repr Γ h t es v) (s : σ) :
    v.byteChunks s = (.ok es, s) := by
  have : Γ.size t ≠ 0 := by have := R.pos; omega
  simp only [VecVoid.byteChunks, M.bind_run, M.lift_run, R.bytes, R.numBytes, chunksExact, if_neg this,
    chunks_flatten R.pos R.each]

theorem iter_ok {σ : Type} {h : Heap} (R : Repr Γ h t es c.data) (s : σ) :
    iter c s = (.ok (es.map fun e => ⟨e, t, Γ.align t, c.vtable⟩), s) := by
  simp only [iter, M.bind_run, byteChunks_ok R, M.pure_run]
  congr 2
  apply List.map_congr_left
  intro e _
  simp [valueOf, elementTypeId, R.type_id, R.align]

theorem asSlice_ok {h : Heap} (R : Repr Γ h t es c.data) :
    ∃ s, asSlice c = .ok s ∧ SRepr Γ t es s ∧ s.vtable = c.vtable := by
  refine ⟨⟨es.flatten, c.data.elem, c.vtable⟩, by simp only [asSlice, R.bytes, Res.map]; rfl, ⟨rfl, R.each, R.elem_eq, R.pos, Repr_mul_le R⟩, rfl⟩

/-- Running a computation on the mutable untyped slice. -/
theorem asMutSlice_run (R : Repr Γ w.heap t es c.data) (m : M (SliceCopy V) α) :
    ∃ s, SRepr Γ t es s ∧ s.vtable = c.vtable ∧
      asMutSlice m (c, w) = ((m s).1, ({ c with data := { c.data with
        mem := splice c.data.mem 0 (m s).2.data } }, w)) := by
  refine ⟨⟨es.flatten, c.data.elem, c.vtable⟩, ⟨rfl, R.each, R.elem_eq, R.pos, Repr_mul_le R⟩, rfl, ?_⟩
  simp only [asMutSlice, M.bind_run, getSelf_run, M.lift_run, R.bytes, SliceCopy.fromRawParts]

theorem asMutSlice_ok (R : Repr Γ w.heap t es c.data) (wf : w.heap.WF) {m : M (SliceCopy V) α} {r : Res α}
    {es' : List Bytes} (he : ∀ e ∈ es', e.length = Γ.size t) (hl : es'.length = es.length)
    (hm : ∀ s : SliceCopy V, SRepr Γ t es s → s.vtable = c.vtable →
      (m s).1 = r ∧ (m s).2.data = es'.flatten) :
    ∃ d, asMutSlice m (c, w) = (r, ({ c with data := d }, w)) ∧
      Evolves Γ t 0 es' w.heap c.data w.heap d := by
  obtain ⟨s, hs, hvt, hrun⟩ := asMutSlice_run R m
  obtain ⟨h1, h2⟩ := hm s hs hvt
  refine ⟨_, by rw [hrun, h1], ?_⟩
  have hlen : (m s).2.data.length = c.data.mem.length := by
    rw [h2, length_flatten_eq he, R.mem_len, hl, R.len]
  exact Evolves.setContent R wf he (by rw [hl]; exact R.len_cap) (by rw [R.len, hl])
    (by rw [splice_whole hlen, h2]) rfl

end VecCopy

/-! ### Slices -/

namespace SRepr
variable {Γ : TyEnv U} {t : TyId} {es : List Bytes} {s : SliceCopy V} {cfg : Cfg}

theorem asSlice {σ : Type} (R : SRepr Γ t es s) (st : σ) : s.asSlice Γ cfg t st = (.ok (some es), st) := by
  simp only [SliceCopy.asSlice, R.check, if_true, M.bind_run, R.len, M.lift_run, R.data,
    typedSlice_flatten R.each rfl, M.pure_run]

theorem asSliceMut (R : SRepr Γ t es s) (m : M (List Bytes) α) :
    SliceCopy.asSliceMut Γ cfg t m s =
      ((m es).1.map some, { s with data := splice s.data 0 (m es).2.flatten }) := by
  simp only [SliceCopy.asSliceMut, M.bind_run, M.get_run, R.len, R.check, if_true, M.lift_run]
  rw [R.data, typedSlice_flatten R.each rfl]
  simp only
  rw [← R.data]
  rcases m es with ⟨r, e⟩
  cases r <;> rfl

theorem asSliceMut_mismatch (R : SRepr Γ t es s) {t' : TyId} (ht : t' ≠ t) (m : M (List Bytes) α) :
    SliceCopy.asSliceMut Γ cfg t' m s = (.ok none, s) := by
  simp only [SliceCopy.asSliceMut, M.bind_run, M.get_run, R.len, R.check, ht, if_false, M.pure_run]

theorem copyFromSlice (R : SRepr Γ t es s) {src : List Bytes} (hs : ∀ e ∈ src, e.length = Γ.size t)
    (hl : src.length = es.length) :
    SliceCopy.copyFromSlice Γ cfg t src s = (.ok (some ()), { s with data := src.flatten }) := by
  simp only [SliceCopy.copyFromSlice, R.asSliceMut, M.bind_run, M.get_run, sliceCopyFrom, hl, if_true,
    M.lift_run, M.set_run, Res.map]
  rw [splice_whole (by rw [length_flatten_eq hs, R.length, hl])]

theorem copyFromSlice_len (R : SRepr Γ t es s) {src : List Bytes} (hl : src.length ≠ es.length) :
    SliceCopy.copyFromSlice Γ cfg t src s = (.panic .lenMismatch, s) := by
  have : ¬ es.length = src.length := fun h => hl h.symm
  simp only [SliceCopy.copyFromSlice, R.asSliceMut, M.bind_run, M.get_run, sliceCopyFrom, this, if_false,
    M.lift_run, Res.map]
  rw [splice_whole (by rw [R.data]), ← R.data]

theorem swap (R : SRepr Γ t es s) {i j : Nat} (hi : i < es.length) (hj : j < es.length) :
    SliceCopy.swap cfg i j s = (.ok (), { s with data := ((es.set i es[j]).set j es[i]).flatten }) := by
  simp only [SliceCopy.swap, M.bind_run, M.get_run, R.numBytes, R.data,
    swapBytes_ok R.pos R.each R.bound hi hj, M.set_run]

end SRepr
end Dync
