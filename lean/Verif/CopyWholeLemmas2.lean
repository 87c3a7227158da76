import Verif.CopyWholeLemmas
/-!
# Programs on views of containers whose content was lost, for `VecCopy`
-/
namespace Dync
variable {U V : Type} {Γ : TyEnv U} {cfg : Cfg} {t : TyId} {es : List Bytes} {c : VecCopy V} {s : SliceCopy V} {w : World U} {n : Nat}

/-- A view of a container whose content was lost. -/
structure LostView (Γ : TyEnv U) (s : SliceCopy V) : Prop where
  data : s.data = []
  elem : s.elem = ElemInfo.new Γ Γ.unitTy

/-- Returns what is expected, or panics where a panic is expected. -/
def Res.Shows (r : Res (List Read)) : Option (List Read) → Prop
  | some rs => r = .ok rs
  | none => ∃ y, r = .panic y

namespace LostView

theorem numBytes (R : LostView Γ s) : s.elem.numBytes = 0 := by
  rw [R.elem]
  have := Γ.unit_size
  simp [ElemInfo.new, ElemInfo.numBytes, this]

theorem len {σ : Type} (R : LostView Γ s) (st : σ) : s.len cfg st = (.panic .divZero, st) := by
  unfold SliceCopy.len
  rw [R.numBytes]
  cases cfg.debug <;> rfl

theorem check (R : LostView Γ s) (t : TyId) : s.check t = if t = Γ.unitTy then some s else none := by
  unfold SliceCopy.check
  rw [R.elem]
  by_cases h : t = Γ.unitTy
  · rw [if_neg (by simpa [ElemInfo.new] using h), if_pos h]
  · rw [if_pos (by simpa [ElemInfo.new] using h), if_neg h]

theorem same (R : LostView Γ s) : ({ s with data := [] } : SliceCopy V) = s := by rw [← R.data]

theorem getMut {α : Type} (R : LostView Γ s) (hd : cfg.debug = false) (i : Nat) (m : M (CopyValue V) α) :
    SliceCopy.getMut cfg i m s =
      ((m ⟨[], Γ.unitTy, Γ.align Γ.unitTy, s.vtable⟩).1,
        { s with data := splice s.data 0 (m ⟨[], Γ.unitTy, Γ.align Γ.unitTy, s.vtable⟩).2.bytes }) := by
  unfold SliceCopy.getMut
  rw [M.bind_ok (M.get_run _)]
  have hi : indexByteRange cfg 0 i s = (.ok (0, 0), s) := by rw [indexByteRange_unit, if_neg (by simp [hd])]
  have hv : s.valueOf [] = ⟨[], Γ.unitTy, Γ.align Γ.unitTy, s.vtable⟩ := by simp [SliceCopy.valueOf, R.elem, ElemInfo.new]
  simp [M.bind_run, R.numBytes, hi, R.data, sliceIndex, hv, hd]

end LostView

/-- A program on a view of a container whose content was lost leaves it alone and does what `SProg.onUnits` says. -/
theorem SProg.lost_run (p : SProg) (hz : ∀ t, p.Sized Γ t) : ∀ {s : SliceCopy V}, LostView Γ s →
    ∃ r, p.exec Γ cfg s = (r, s) ∧ r.Shows (p.onUnits Γ cfg) := by
  induction p with
  | skip => intro s R; exact ⟨_, rfl, rfl⟩
  | seq p q ihp ihq =>
    intro s R
    obtain ⟨r, h1, h2⟩ := ihp (fun t => (hz t).1) R
    obtain ⟨r', h3, h4⟩ := ihq (fun t => (hz t).2) R
    simp only [SProg.exec, M.bind_run, h1, SProg.onUnits]
    cases hp : p.onUnits Γ cfg with
    | none => rw [hp] at h2; obtain ⟨y, rfl⟩ := h2; exact ⟨.panic y, rfl, y, rfl⟩
    | some a =>
      rw [hp] at h2
      have h2 : r = .ok a := h2
      subst h2
      simp only [h3]
      cases hq : q.onUnits Γ cfg with
      | none => rw [hq] at h4; obtain ⟨y, rfl⟩ := h4; exact ⟨.panic y, rfl, y, rfl⟩
      | some b =>
        rw [hq] at h4
        have h4 : r' = .ok b := h4
        subst h4
        exact ⟨_, rfl, rfl⟩
  | get i =>
    intro s R
    simp only [SProg.onUnits]
    cases hd : cfg.debug with
    | true =>
      refine ⟨.panic .divZero, ?_, ⟨_, rfl⟩⟩
      simp [SProg.exec, M.bind_run, SliceCopy.get, hd, R.len]
    | false =>
      refine ⟨.ok [(Γ.unitTy, [])], ?_, rfl⟩
      have hi : indexByteRange cfg 0 i s = (.ok (0, 0), s) := by rw [indexByteRange_unit, if_neg (by simp [hd])]
      have hb : sliceIndex ([] : Bytes) 0 0 = .ok [] := rfl
      have hv : s.valueOf [] = ⟨[], Γ.unitTy, Γ.align Γ.unitTy, s.vtable⟩ := by simp [SliceCopy.valueOf, R.elem, ElemInfo.new]
      simp only [SProg.exec, M.bind_run, M.get_run, SliceCopy.get, hd, Bool.false_eq_true, if_false, M.pure_run,
        R.numBytes, indexByteSlice, hi, R.data, M.lift_run, hb, hv]
  | getAs t i =>
    intro s R
    refine ⟨.panic .divZero, ?_, ⟨_, rfl⟩⟩
    simp [SProg.exec, M.bind_run, SliceCopy.getAs, R.len]
  | iter =>
    intro s R
    refine ⟨.panic .zeroChunk, ?_, ⟨_, rfl⟩⟩
    simp only [SProg.exec, M.bind_run, M.get_run, SliceCopy.iter, R.numBytes, Dync.chunksExact, if_true, M.lift_run]
  | asSlice t =>
    intro s R
    simp only [SProg.onUnits]
    by_cases ht : t = Γ.unitTy
    · rw [if_pos ht]
      refine ⟨.panic .divZero, ?_, ⟨_, rfl⟩⟩
      simp [SProg.exec, M.bind_run, SliceCopy.asSlice, R.check, ht, R.len]
    · rw [if_neg ht]
      refine ⟨.ok [], ?_, rfl⟩
      simp [SProg.exec, M.bind_run, SliceCopy.asSlice, R.check, ht]
  | setAs t i x =>
    intro s R
    refine ⟨.panic .divZero, ?_, ⟨_, rfl⟩⟩
    simp [SProg.exec, M.bind_run, SliceCopy.setAs, R.len]
  | setValue i t x =>
    intro s R
    simp only [SProg.onUnits]
    cases hd : cfg.debug with
    | true =>
      refine ⟨.panic .divZero, ?_, ⟨_, rfl⟩⟩
      simp [SProg.exec, M.bind_run, SliceCopy.getMut, hd, R.len]
    | false =>
      refine ⟨.ok [], ?_, rfl⟩
      have hx : x.length = Γ.size t := hz t
      by_cases ht : t = Γ.unitTy
      · subst ht
        have hx0 : x = [] := List.length_eq_zero_iff.1 (hx.trans Γ.unit_size)
        subst hx0
        have e : CopyValue.copy (CopyValue.new Γ Γ.unitTy s.vtable [])
            ⟨[], Γ.unitTy, Γ.align Γ.unitTy, s.vtable⟩ = (.ok (some ()), ⟨[], Γ.unitTy, Γ.align Γ.unitTy, s.vtable⟩) := by
          have h0 : sliceCopyFrom ([] : Bytes) [] = .ok [] := rfl
          simp only [M.bind_run, M.get_run, CopyValue.copy, CopyValue.new, if_true, M.lift_run, h0, M.set_run, M.pure_run]
        simp only [SProg.exec, M.bind_run, R.getMut hd, M.get_run, e, M.pure_run]
        simp [splice, R.data, R.same]
      · have e : CopyValue.copy (CopyValue.new Γ t s.vtable x)
            ⟨[], Γ.unitTy, Γ.align Γ.unitTy, s.vtable⟩ = (.ok none, ⟨[], Γ.unitTy, Γ.align Γ.unitTy, s.vtable⟩) := by
          have ht' : ¬ (⟨[], Γ.unitTy, Γ.align Γ.unitTy, s.vtable⟩ : CopyValue V).type_id = (CopyValue.new Γ t s.vtable x).type_id :=
            fun e => ht (Eq.symm e)
          simp only [M.bind_run, M.get_run, CopyValue.copy, if_neg ht', M.pure_run]
        simp only [SProg.exec, M.bind_run, R.getMut hd, M.get_run, e, M.pure_run]
        simp [splice, R.data, R.same]
  | mapAll f =>
    intro s R
    refine ⟨.panic .zeroChunk, ?_, ⟨_, rfl⟩⟩
    simp only [SProg.exec, SliceCopy.iterMut, M.zoom_run, M.bind_run, M.get_run, R.numBytes, Dync.chunksExact, if_true, M.lift_run]
  | mapAs t f =>
    intro s R
    refine ⟨.panic .divZero, ?_, ⟨_, rfl⟩⟩
    simp [SProg.exec, M.bind_run, SliceCopy.asSliceMut, R.len]
  | swap i j =>
    intro s R
    simp only [SProg.onUnits]
    by_cases h : i ≠ j ∧ cfg.debug ∧ usizeMax ≤ min i j
    · rw [if_pos h]
      refine ⟨.panic .overflow, ?_, ⟨_, rfl⟩⟩
      have h' : i ≠ j ∧ cfg.debug ∧ 2 ^ 64 ≤ min i j + 1 := ⟨h.1, h.2.1, by have := h.2.2; simp only [usizeMax] at this; omega⟩
      simp only [SProg.exec, M.bind_run, M.get_run, SliceCopy.swap, R.numBytes, R.data, swapBytes_unit, if_pos h']
    · rw [if_neg h]
      refine ⟨.ok [], ?_, rfl⟩
      have h' : ¬ (i ≠ j ∧ cfg.debug ∧ 2 ^ 64 ≤ min i j + 1) := fun e => h ⟨e.1, e.2.1, by have := e.2.2; simp only [usizeMax]; omega⟩
      simp only [SProg.exec, M.bind_run, M.get_run, SliceCopy.swap, R.numBytes, R.data, swapBytes_unit,
        if_neg h', M.set_run, M.pure_run, R.same]
  | rotateLeft k =>
    intro s R
    refine ⟨.ok [], ?_, rfl⟩
    have hr : sliceRotateLeft ([] : Bytes) 0 = .ok [] := rfl
    simp only [SProg.exec, M.bind_run, M.get_run, SliceCopy.rotateLeft, R.numBytes, umul_zero_run, R.data,
      M.lift_run, hr, M.set_run, R.same, M.pure_run]
  | rotateRight k =>
    intro s R
    refine ⟨.ok [], ?_, rfl⟩
    have hr : sliceRotateRight ([] : Bytes) 0 = .ok [] := rfl
    simp only [SProg.exec, M.bind_run, M.get_run, SliceCopy.rotateRight, R.numBytes, umul_zero_run, R.data,
      M.lift_run, hr, M.set_run, R.same, M.pure_run]
  | copyFromSlice t xs =>
    intro s R
    refine ⟨.panic .divZero, ?_, ⟨_, rfl⟩⟩
    simp [SProg.exec, M.bind_run, SliceCopy.copyFromSlice, SliceCopy.asSliceMut, R.len]
  | sub r p ih =>
    intro s R
    obtain ⟨q, h1, h2⟩ := ih (fun t => hz t) R
    cases r <;> simp only [SProg.onUnits] <;>
      first
      | (refine ⟨.panic .index, ?_, ⟨_, rfl⟩⟩
         simp [SProg.exec, SliceCopy.subsliceMut, R.numBytes, Rng.scale, M.bind_run, umul_zero_run, Rng.bounds, R.data, sliceIndex, usizeMax]
         done)
      | (refine ⟨q, ?_, h2⟩
         have h1' : (p.exec Γ cfg) ({ s with data := [] } : SliceCopy V) = (q, s) := by rw [R.same]; exact h1
         simp [SProg.exec, SliceCopy.subsliceMut, R.numBytes, Rng.scale, M.bind_run, umul_zero_run, Rng.bounds, R.data, sliceIndex, R.same, splice, h1])
  | split mid p q ihp ihq =>
    intro s R
    obtain ⟨r, h1, h2⟩ := ihp (fun t => (hz t).1) R
    obtain ⟨r', h3, h4⟩ := ihq (fun t => (hz t).2) R
    have h0 : sliceSplitAt ([] : Bytes) 0 = .ok ([], []) := rfl
    have hs : ({ s with data := s.data ++ s.data } : SliceCopy V) = s := by rw [R.data]; exact R.same
    simp only [SProg.exec, SliceCopy.splitAtMut, M.bind_run, M.get_run, R.numBytes, umul_zero_run, R.data, M.lift_run, h0,
      SliceCopy.fromRawParts, R.same, SProg.onFst, SProg.onSnd, M.zoom_run, h1, SProg.onUnits]
    cases hp : p.onUnits Γ cfg with
    | none => rw [hp] at h2; obtain ⟨y, rfl⟩ := h2; exact ⟨.panic y, by simp [R.data, R.same], y, rfl⟩
    | some a =>
      rw [hp] at h2
      have h2 : r = .ok a := h2
      subst h2
      simp only [h3]
      cases hq : q.onUnits Γ cfg with
      | none => rw [hq] at h4; obtain ⟨y, rfl⟩ := h4; exact ⟨.panic y, by simp [R.data, R.same], y, rfl⟩
      | some b =>
        rw [hq] at h4
        have h4 : r' = .ok b := h4
        subst h4
        exact ⟨.ok (a ++ b), by simp [R.data, R.same], rfl⟩
  | chunks k p ih =>
    intro s R
    refine ⟨.panic .zeroChunk, ?_, ⟨_, rfl⟩⟩
    simp only [SProg.exec, SliceCopy.chunksExactMut, M.zoom_run, M.bind_run, M.get_run, R.numBytes, umul_run_zero, Dync.chunksExact, if_true, M.lift_run]

end Dync
