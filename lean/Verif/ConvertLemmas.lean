import Verif.Convert
import Verif.VecCopyLemmas3
/-!
# Facts about the conversions of `Verif/Convert.lean`
-/
namespace Dync
variable {U V : Type} {Γ : TyEnv V} {t t' : TyId} {es es' : List Bytes} {v src : VecVoid} {w : World U} {cfg : Cfg}

/-- `Vec::clone_from` on the chunk view, for a source that holds `n` whole elements. -/
theorem RVec.cloneFrom_chunk (R : Repr Γ w.heap t es v) (wf : w.heap.WF) {rv : RVec} {n : Nat}
    (hn : rv.len = n * v.elem.size)
    (hroom : Room Γ t (max 8 (max (2 * v.cap) n))) (hbad : ¬ BadGrowth Γ t v.cap n) :
    ∃ p c h', RVec.cloneFrom ⟨Γ.align t, Γ.align t⟩ rv (v.chunkView, w) =
        (.ok (), (⟨p, n * v.elem.size, c * v.elem.size, rv.bytes⟩, { w with heap := h' })) ∧
      n ≤ c ∧ v.cap ≤ c ∧ Room Γ t c ∧ Realloc w.heap v.ptr h' p ∧
      (∃ i, p = some i ∧ h'.live i = some ⟨c * Γ.size t, Γ.align t⟩) ∧
      (n ≤ v.cap → p = v.ptr ∧ c = v.cap ∧ h' = w.heap) ∧
      c ≤ max v.cap (max 8 (2 * n)) := by
  obtain ⟨p, c, h', hrun, h1, h2, h3, h4, h5, h6, h7⟩ := reserve_chunk (n := n) R.emptied wf
    (by simpa using hroom) (by simpa using hbad)
  simp only [Nat.zero_add] at h1 h6 h7
  refine ⟨p, c, h', ?_, h1, h2, h3, h4, h5, h6, h7⟩
  have hcl : RVec.clear ⟨Γ.align t, Γ.align t⟩ (v.chunkView, w) =
      (.ok (), ((⟨v.ptr, 0, v.cap, v.elem, []⟩ : VecVoid).chunkView, w)) := by
    simp [RVec.clear, RVec.truncate, VecVoid.chunkView]
  simp only [RVec.cloneFrom, RVec.extendFromSlice, M.bind_run, hcl, hn, hrun, M.modify_run]
  simp

/-- `VecVoid::clone_from` for a source whose alignment is that of `self` and which holds as many bytes
as `n` elements of `self`: `self` takes over the bytes and keeps its own element information. -/
theorem VecVoid.cloneFrom_bytes (R : Repr Γ w.heap t es v) (Rs : Repr Γ w.heap t' es' src) (wf : w.heap.WF)
    (hal : Γ.align t' = Γ.align t) {n : Nat} (hn : es'.length * Γ.size t' = n * Γ.size t)
    (hroom : Room Γ t (max 8 (max (2 * v.cap) n))) (hbad : ¬ BadGrowth Γ t v.cap n) :
    ∃ p c h', VecVoid.cloneFrom Γ cfg src (v, w) = (.ok (), (⟨p, n, c, v.elem, src.mem⟩, { w with heap := h' })) ∧
      n ≤ c ∧ v.cap ≤ c ∧ Room Γ t c ∧ Realloc w.heap v.ptr h' p ∧
      (∃ i, p = some i ∧ h'.live i = some ⟨c * Γ.size t, Γ.align t⟩) ∧
      (n ≤ v.cap → p = v.ptr ∧ c = v.cap ∧ h' = w.heap) ∧
      c ≤ max v.cap (max 8 (2 * n)) := by
  have hchunk : src.chunkView.len = n * v.elem.size := by
    have h1 : src.chunkView.len * Γ.align t = n * v.elem.size * Γ.align t := by
      show src.len * src.elem.size * Γ.align t = _
      rw [Nat.mul_assoc, Nat.mul_assoc, R.chunks, ← hal, Rs.chunks, Rs.len, hn]
    exact Nat.eq_of_mul_eq_mul_right (align_pos Γ t) h1
  obtain ⟨p, c, h', hrun, h1, h2, h3, h4, h5, h6, h7⟩ := RVec.cloneFrom_chunk R wf hchunk hroom hbad
  refine ⟨p, c, h', ?_, h1, h2, h3, h4, h5, h6, h7⟩
  have hsrc : (VecVoid.alignedVec cfg ⟨Γ.align t, Γ.align t⟩ src : M (VecVoid × World U) RVec) (v, w) =
      (.ok src.chunkView, (v, w)) := by
    rw [← hal]; exact Rs.alignedVec cfg _
  simp only [VecVoid.cloneFrom, M.bind_run, getSelf_run, R.align, evalAlign_align, hsrc]
  rw [applyAligned_ok (n := n) (c := c) R hrun rfl rfl (by have := R.cap_pos; omega)]
  rfl

end Dync
