import Verif.Props.VecDyn
/-!
# Properties of views, copies out of views, and `Debug`
-/
namespace Dync
variable {U V σ α : Type} {Γ : TyEnv U} {t : TyId} {es : List Bytes} {s : SliceCopy V} {cfg : Cfg} {w : World U}

/-! ### C26: whole slices -/

/-- `is_empty` of a slice. -/
theorem C26_slice_is_empty (R : SRepr Γ t es s) : s.isEmpty = true ↔ es = [] := by
  simp only [SliceCopy.isEmpty, R.data, List.isEmpty_iff]
  constructor
  · intro h
    cases es with
    | nil => rfl
    | cons e es =>
      have h1 := R.each e (by simp)
      have h2 := R.pos
      have h3 : e = [] := by
        have := congrArg List.length h
        simp only [List.flatten_cons, List.length_append, List.length_nil] at this
        exact List.eq_nil_of_length_eq_zero (by omega)
      rw [h3] at h1; simp at h1; omega
  · rintro rfl; rfl

/-- Reborrowing a slice gives a slice of the same elements with the same table. -/
theorem C26_slice_reborrow (R : SRepr Γ t es s) : SRepr Γ t es s.reborrow ∧ s.reborrow.vtable = s.vtable :=
  ⟨⟨R.data, R.each, R.elem, R.pos, R.bound⟩, rfl⟩

/-- `append_copy_to_vec` and `copy_into_vec` of a slice: with the right type the elements are appended to
what the vector held; with any other type nothing happens. -/
theorem C26_slice_copy_into_vec (R : SRepr Γ t es s) (t' : TyId) (vec : List Bytes) (st : σ) :
    s.appendCopyToVec Γ cfg t' vec st = (.ok (if t' = t then some (vec ++ es) else none), st) ∧
    s.copyIntoVec Γ cfg t' st = (.ok (if t' = t then some es else none), st) := by
  have key : ∀ vec, s.appendCopyToVec Γ cfg t' vec st = (.ok (if t' = t then some (vec ++ es) else none), st) := by
    intro vec
    unfold SliceCopy.appendCopyToVec
    by_cases ht : t' = t
    · subst ht
      rw [M.bind_ok (SliceDyn.asSlice_ok R st), if_pos rfl]; rfl
    · rw [M.bind_ok (SliceDyn.asSlice_mismatch R ht st), if_neg ht]; rfl
  exact ⟨key vec, by have := key []; simpa [SliceCopy.copyIntoVec] using this⟩

/-- `as_slice` of a container views exactly its elements. -/
theorem C26_veccopy_as_slice {c : VecCopy V} {h : Heap} (R : Repr Γ h t es c.data) :
    ∃ s, VecCopy.asSlice c = .ok s ∧ SRepr Γ t es s ∧ s.vtable = c.vtable :=
  VecCopy.asSlice_ok R

/-- `get_unchecked_ref::<T>(i)`, used within its contract (right type, valid index), is element `i`. -/
theorem C26_veccopy_get_unchecked {c : VecCopy V} {h : Heap} (R : Repr Γ h t es c.data) {i : Nat} (hi : i < es.length) (st : σ) :
    c.getUncheckedRef Γ t i st = (.ok es[i], st) := by
  have hm : (i + 1) * Γ.size t ≤ c.data.mem.length := by
    rw [R.mem_len, R.len]; exact Nat.mul_le_mul_right _ (by omega)
  simp only [VecCopy.getUncheckedRef, if_pos hm, M.pure_run]
  rw [R.mem, drop_take_flatten R.each hi]

/-! ### C33: `as_mut` of owned values -/

/-- What is done through `as_mut` of a boxed value is done to the value: afterwards it holds what the
reference held last; block and table are kept. -/
theorem C33_box_as_mut {h : Heap} {x x' : Bytes} {v : BoxValue V} (hv : IsBox Γ h t x v) {m : M (ValueRef V) α} {r : Res α}
    {v' : ValueRef V} (hm : m v.asRef = (r, v')) (hx : v'.bytes = x') (hl : x'.length = Γ.size t) :
    IsRef Γ t x v.asRef ∧ ∃ b, Value.asMut m v = (r, b) ∧ IsBox Γ h t x' b ∧ b.vtable = v.vtable := by
  refine ⟨hv.asRef, { v with bytes := { v.bytes with bytes := x' } }, ?_, ⟨hv.type_id, hv.align, rfl, hl, hv.block⟩, rfl⟩
  simp only [Value.asMut, hm, hx, ByteBuf.set]

theorem C33_small_as_mut {x x' : Bytes} {v : SmallValue V} (hv : IsSmall Γ t x v) {m : M (ValueRef V) α} {r : Res α}
    {v' : ValueRef V} (hm : m v.asRef = (r, v')) (hx : v'.bytes = x') (hl : x'.length = Γ.size t) :
    IsRef Γ t x v.asRef ∧ ∃ b, Value.asMut m v = (r, b) ∧ IsSmall Γ t x' b ∧ b.vtable = v.vtable := by
  refine ⟨hv.asRef, { v with bytes := ⟨x'⟩ }, ?_, ⟨hv.type_id, hv.align, rfl, hl, hv.size⟩, rfl⟩
  simp only [Value.asMut, hm, hx, ByteBuf.set]

/-! ### C20: cloning out of a slice -/

/-- If `Clone` panics in `clone_into_vec` of a slice, the clones made so far are dropped, in order. -/
theorem C20_slice_clone_into_vec_panic (R : SRepr Γ t es s) {es' : List Bytes} {u' u'' : U} {y : Why}
    (hm : TVec.extendClones Γ t es [] w.user = (.panic y, (es', u')))
    (hd : M.dropEach es' (Γ.drop t) u' = (.ok (), u'')) :
    SliceDyn.cloneIntoVec Γ cfg t s w = (.panic y, { w with user := u'' }) :=
  SliceDyn.cloneIntoVec_panic R hm hd

/-! ### C56: `Debug` -/

/-- The text `{:?}` prints for a list of entries. -/
def debugText : List String → String
  | [] => "[]"
  | x :: xs => "[" ++ x ++ rest xs
where
  rest : List String → String
  | [] => "]"
  | x :: xs => ", " ++ x ++ rest xs

theorem debugEntry_rest (xs : List String) (a : String) :
    (xs.foldl debugEntry (a, true)).1 ++ "]" = a ++ debugText.rest xs := by
  induction xs generalizing a with
  | nil => rfl
  | cons x xs ih => simp only [List.foldl_cons, debugEntry, ih, debugText.rest, String.append_assoc, if_true]

theorem debugList_text (xs : List String) : debugList xs = debugText xs := by
  cases xs with
  | nil => rfl
  | cons x xs =>
    simp only [debugList, List.foldl_cons, debugEntry, debugEntry_rest, debugText]
    simp

/-- `{:?}` of a container prints what `{:?}` of the `Vec<T>` prints. -/
theorem C56_vecdyn_debug [HasDebug V] {h : Heap} {a : VecDyn V} (Ra : Repr Γ h t es a.data)
    (hl : LawfulDebug Γ t a.vtable) (st : σ) :
    VecDyn.fmt a st = (.ok (debugText (es.map (Γ.fmt t))), st) := by
  rw [VecDyn.fmt_ok Ra hl, debugList_text]

/-- `{:?}` of a slice. -/
theorem C56_slice_debug [HasDebug V] (R : SRepr Γ t es s) (hl : LawfulDebug Γ t s.vtable) (st : σ) :
    SliceDyn.fmt s st = (.ok (debugText (es.map (Γ.fmt t))), st) := by
  unfold SliceDyn.fmt
  rw [M.bind_ok (SliceDyn.iter_valueOf R st)]
  let ca : VecDyn V := ⟨⟨none, 0, 0, ElemInfo.new Γ t, []⟩, s.vtable⟩
  have e1 : es.map s.valueOf = es.map ca.valueOf := List.map_congr_left fun e _ => by
    simp [SliceCopy.valueOf, R.elem, ca, VecCopy.valueOf, VecCopy.elementTypeId]
  rw [e1, VecDyn.fmtAll_ok (a := ca) hl R.each]
  simp only [Res.map, M.lift_run, debugList_text]

/-- `{:?}` of values and references. -/
theorem C56_value_debug [HasDebug V] {x : Bytes} :
    (∀ (h : Heap) (v : BoxValue V), IsBox Γ h t x v → LawfulDebug Γ t v.vtable → Value.fmt v = .ok (Γ.fmt t x)) ∧
    (∀ v : SmallValue V, IsSmall Γ t x v → LawfulDebug Γ t v.vtable → Value.fmt v = .ok (Γ.fmt t x)) ∧
    (∀ v : ValueRef V, IsRef Γ t x v → LawfulDebug Γ t v.vtable → ValueRef.fmt v = .ok (Γ.fmt t x)) := by
  refine ⟨fun h v hv hl => ?_, fun v hv hl => ?_, fun v hv hl => ?_⟩
  · have e : ByteBuf.get v.bytes = x := hv.bytes
    simp only [Value.fmt, e, hl x hv.length]
  · have e : ByteBuf.get v.bytes = x := hv.bytes
    simp only [Value.fmt, e, hl x hv.length]
  · simp only [ValueRef.fmt, hv.bytes, hl x hv.length]

/-! ### Examples -/

abbrev Ex.debugVT (t : TyId) : DebugVTable Ex.Log := DebugVTable.build Ex.env t
theorem Ex.debugVT_debug (t : TyId) : LawfulDebug Ex.env t (Ex.debugVT t) := lawfulDebug_of rfl
def Ex.sld10 (es : List Bytes) : SliceCopy (DebugVTable Ex.Log) := ⟨es.flatten, ElemInfo.new Ex.env 10, Ex.debugVT 10⟩
def Ex.sl7 : SliceCopy (CloneVTable Ex.Log) := ⟨Ex.g1 ++ Ex.badClone, ElemInfo.new Ex.env 7, Ex.cloneVT 7⟩
theorem Ex.sl7_repr : SRepr Ex.env 7 [Ex.g1, Ex.badClone] Ex.sl7 := ⟨rfl, by decide, rfl, by decide, by decide⟩

example := C26_slice_is_empty Ex.s123_repr
example := C26_slice_reborrow Ex.s123_repr
example := (C26_slice_copy_into_vec (cfg := ⟨true⟩) Ex.s123_repr 2 [Ex.a3] ()).1
example := C26_veccopy_as_slice Ex.c123_repr
example := C26_veccopy_get_unchecked Ex.c123_repr (i := 1) (by decide) ()
example := C33_box_as_mut (Ex.box_isBox (x := Ex.s1) (t := 10) (vt := Ex.cloneVT 10) rfl (by decide))
  (m := M.modify fun v => { v with bytes := Ex.s2 }) (x' := Ex.s2) rfl rfl rfl
example := C33_small_as_mut (Ex.small_isSmall (x := Ex.g1) (t := 7) (vt := Ex.cloneVT 7) rfl rfl)
  (m := M.modify fun v => { v with bytes := Ex.g2 }) (x' := Ex.g2) rfl rfl rfl
example := C20_slice_clone_into_vec_panic (cfg := ⟨true⟩) (w := Ex.world 2 4) Ex.sl7_repr (es' := [Ex.g1])
  (u' := [.cloned 7 Ex.g1]) (u'' := [.cloned 7 Ex.g1, .dropped 7 Ex.g1]) (y := .user) rfl rfl
def Ex.dd10 : VecDyn (DebugVTable Ex.Log) := ⟨Ex.vec 10 [Ex.s1, Ex.s2] 4, Ex.debugVT 10⟩
example := C56_vecdyn_debug (a := Ex.dd10) (h := (Ex.world 10 4).heap)
  (Ex.vec_repr (by decide) (by decide) (by decide) (by decide) (by unfold Room; decide)) (Ex.debugVT_debug 10) ()
example := C56_slice_debug (s := Ex.sld10 [Ex.s1, Ex.s2])
  (show SRepr Ex.env 10 [Ex.s1, Ex.s2] _ from ⟨rfl, by decide, rfl, by decide, by decide⟩) (Ex.debugVT_debug 10) ()
example : debugText ["1", "2", "3"] = "[1, 2, 3]" := by decide
example := (C56_value_debug (x := Ex.s1) (V := DebugVTable Ex.Log)).1 _ _ (Ex.box_isBox rfl (by decide)) (Ex.debugVT_debug 10)

end Dync
