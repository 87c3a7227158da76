import Verif.VecVoidLemmas3
/-!
# What the `VecVoid` operations do to a healthy vector, continued (helper lemmas)
-/
namespace Dync
variable {U V α : Type}

/-- `VecVoid::default()` is `VecVoid::from_vec(Vec::<()>::new())` (src/vec_void.rs:77-82). -/
theorem VecVoid.default_eq_fromVec (Γ : TyEnv V) (w : World U) :
    VecVoid.fromVec Γ Γ.unitTy (RVec.new (Γ.layout Γ.unitTy)) w = (.ok (VecVoid.default Γ), w) := by
  have hc : (if Γ.size Γ.unitTy = 0 then usizeMax else 0) = usizeMax := by rw [Γ.unit_size]; rfl
  have h0 : usizeMax ≠ 0 := by decide
  have hrun : VecVoid.intoValidVec (U := U) (Γ.layout Γ.unitTy)
      (RVec.new (Γ.layout Γ.unitTy), w) = (.ok (), (RVec.new (Γ.layout Γ.unitTy), w)) := by
    simp only [VecVoid.intoValidVec, M.bind_run, getSelf_run, RVec.new, hc, if_neg h0, M.pure_run]
  simp only [VecVoid.fromVec, M.bind_run]
  rw [withLocal_ok hrun]
  simp only [RVec.new, hc, M.pure_run, VecVoid.default]

/-- Dropping the default vector frees nothing. -/
theorem VecVoid.drop_default (Γ : TyEnv V) (cfg : Cfg) (w : World U) :
    VecVoid.drop cfg (VecVoid.default Γ) w = (.ok (), w) := by
  have h1 : (ElemInfo.new Γ Γ.unitTy).alignment = Γ.align Γ.unitTy := rfl
  have h2 : (ElemInfo.new Γ Γ.unitTy).size = 0 := by simp [ElemInfo.new, Γ.unit_size]
  simp only [VecVoid.drop, VecVoid.default, h1, evalAlign_align]
  have : VecVoid.alignedVec cfg ⟨Γ.align Γ.unitTy, Γ.align Γ.unitTy⟩
      ⟨none, 0, usizeMax, ElemInfo.new Γ Γ.unitTy, []⟩ w = (.ok ⟨none, 0, 0, []⟩, w) := by
    simp only [VecVoid.alignedVec, h1, h2]
    rw [M.bind_ok (debugAssert_ok (by simp) w), M.bind_ok (debugAssert_ok (by simp) w)]
    simp [RVec.fromRawParts]
  rw [M.bind_ok this]
  simp [RVec.dropBuf, dealloc]

section ops
variable {Γ : TyEnv V} {t : TyId} {es es' : List Bytes} {v o : VecVoid} {w : World U} {cfg : Cfg}

/-- `VecVoid::append` of two healthy vectors of the same type. -/
theorem VecVoid.append_spec {w : World (VecVoid × U)} (R : Repr Γ w.heap t es v)
    (Ro : Repr Γ w.heap t es' w.user.1) (wf : w.heap.WF)
    (hroom : Room Γ t (max 8 (max (2 * v.cap) (v.len + w.user.1.len))))
    (hbad : ¬ BadGrowth Γ t v.cap (v.len + w.user.1.len)) :
    ∃ p c h', VecVoid.append Γ cfg (v, w) =
        (.ok (), (⟨p, v.len + w.user.1.len, c, v.elem, v.mem ++ w.user.1.mem⟩,
          ⟨h', (⟨w.user.1.ptr, 0, w.user.1.cap, w.user.1.elem, []⟩, w.user.2)⟩)) ∧
      Repr Γ h' t (es ++ es') ⟨p, v.len + w.user.1.len, c, v.elem, v.mem ++ w.user.1.mem⟩ ∧
      Realloc w.heap v.ptr h' p ∧ v.cap ≤ c ∧ v.len + w.user.1.len ≤ c ∧
      (v.len + w.user.1.len ≤ v.cap → p = v.ptr ∧ c = v.cap ∧ h' = w.heap) ∧
      c ≤ max v.cap (max 8 (2 * (v.len + w.user.1.len))) := by
  obtain ⟨h0, o, u⟩ := w
  simp only at *
  have helem : o.elem = v.elem := by rw [R.elem_eq, Ro.elem_eq]
  have hes : v.elem.size = o.elem.size := by rw [helem]
  -- `Vec::reserve` runs with both vectors moved out of their containers
  obtain ⟨p, c, h', hrun, hnc, hcc, hroomc, hre, hblk, hfit, hub⟩ :=
    reserve_chunk (w := (⟨h0, (o.chunkView, u)⟩ : World (RVec × U))) (n := o.len) R wf hroom hbad
  have hcp := R.cap_pos
  refine ⟨p, c, h', ?_, ?_, hre, hcc, hnc, hfit, hub⟩
  · have a1 : (v.elem.type_id == o.elem.type_id) = true := by simp [helem]
    simp only [VecVoid.append, M.bind_run, getSelf_run, M.get_run, a1, M.assert_true_run]
    rw [debugAssert_ok (by simp [helem])]
    simp only
    rw [debugAssert_ok (by simp [helem])]
    simp only [R.align, evalAlign_align]
    refine applyAligned_ok (n := v.len + o.len) (c := c)
      (v' := ⟨p, (v.len + o.len) * v.elem.size, c * v.elem.size, v.mem ++ o.mem⟩) R ?_ rfl rfl (by omega)
    rw [swapRoles_run]
    have inner : VecVoid.applyAligned Γ cfg ⟨Γ.align t, Γ.align t⟩
        (VecVoid.swapRoles (do
          let (_, w) ← M.get
          let source := w.user.1
          let source ← RVec.append ⟨Γ.align t, Γ.align t⟩ source
          M.modify fun s => (s.1, ⟨s.2.heap, (source, s.2.user.2)⟩)))
        (o, (⟨h0, (v.chunkView, u)⟩ : World (RVec × U))) =
        (.ok (), (⟨o.ptr, 0, o.cap, o.elem, []⟩,
          ⟨h', (⟨p, (v.len + o.len) * v.elem.size, c * v.elem.size, v.mem ++ o.mem⟩, u)⟩)) := by
      refine applyAligned_ok (n := 0) (c := o.cap)
        (v' := ⟨o.ptr, 0, o.cap * o.elem.size, []⟩) Ro ?_ (by simp) rfl Ro.cap_pos
      rw [swapRoles_run]
      have hl : o.chunkView.len = o.len * v.elem.size := by simp [VecVoid.chunkView, helem]
      simp only [M.bind_run, M.get_run, RVec.append, hl]
      rw [hrun]
      simp [VecVoid.chunkView, helem, Nat.add_mul]
    rw [inner]
  · refine ⟨R.type_id, R.chunks, R.align, R.pos, ?_, ?_, ?_, hnc, Nat.lt_of_lt_of_le hcp hcc, hroomc, hblk⟩
    · simp [R.mem, Ro.mem]
    · intro e he
      rcases List.mem_append.1 he with he | he
      · exact R.each e he
      · exact Ro.each e he
    · simp [R.len, Ro.len]

/-- The other vector after `append`: empty, same block. -/
theorem Repr.emptied {h : Heap} (R : Repr Γ h t es v) :
    Repr Γ h t [] ⟨v.ptr, 0, v.cap, v.elem, []⟩ := by
  have := R.setContent (es' := []) (by simp) (by simp)
  simpa using this

/-- The bad growth case of `Vec::reserve` on the chunk view: the capacity becomes 8 chunks, which
is not a whole number of 3-byte elements. -/
theorem reserve_chunk_bad (R : Repr Γ w.heap t es v) (wf : w.heap.WF) {n : Nat}
    (hbad : BadGrowth Γ t v.cap (v.len + n)) :
    ∃ i h', RVec.reserve ⟨Γ.align t, Γ.align t⟩ (n * v.elem.size) (v.chunkView, w) =
        (.ok (), (⟨some i, v.len * v.elem.size, 8, v.mem⟩, { w with heap := h' })) ∧
      Realloc w.heap v.ptr h' (some i) ∧ h'.live i = some ⟨8, 1⟩ := by
  obtain ⟨hs3, ha1, hc1, hn2⟩ := hbad
  have he3 : v.elem.size = 3 := by have := R.chunks; rw [ha1, hs3] at this; omega
  obtain ⟨i, hp, hl⟩ := R.chunkBlock
  have hg : RVec.grownCap ⟨Γ.align t, Γ.align t⟩ v.chunkView.cap (v.chunkView.len + n * v.elem.size) = 8 := by
    simp only [VecVoid.chunkView, he3, hc1, ha1, RVec.grownCap, RVec.minNonZeroCap, if_true]
    omega
  have hrun := RVec.reserve_grow (T := ⟨Γ.align t, Γ.align t⟩) (v := v.chunkView) (w := w)
    (n := n * v.elem.size) (i := i)
    (by
      simp only [VecVoid.chunkView]
      have := R.len_le
      rw [he3, hc1]; omega)
    (by simp [ha1]) (by simp [VecVoid.chunkView, he3, hc1]) hp hl
    (by rw [hg]; simp [ha1, isizeMax])
  rw [hg] at hrun
  have hne : (⟨8 * Γ.align t, Γ.align t⟩ : Layout).size ≠ 0 := by simp [ha1]
  refine ⟨(w.heap.free i).next, ((w.heap.free i).alloc ⟨8 * Γ.align t, Γ.align t⟩).2, ?_, ?_, ?_⟩
  · rw [hrun, (Heap.alloc_live hne).1]; rfl
  · have := Realloc.of_free_alloc wf hl hne
    rw [(Heap.alloc_live hne).1] at this
    rw [hp]; exact this
  · have := (Heap.alloc_live (h := w.heap.free i) hne).2
    rw [this, ha1]

/-- In the bad growth case `reserve` panics, and the container loses content and type. The buffer
is leaked. -/
theorem VecVoid.reserve_bad (R : Repr Γ w.heap t es v) (wf : w.heap.WF) {n : Nat}
    (hbad : BadGrowth Γ t v.cap (v.len + n)) :
    ∃ i h', VecVoid.reserve Γ cfg n (v, w) =
        (.panic .assertion, (VecVoid.default Γ, { w with heap := h' })) ∧
      Realloc w.heap v.ptr h' (some i) ∧ h'.live i = some ⟨8, 1⟩ := by
  obtain ⟨i, h', hrun, hre, hl⟩ := reserve_chunk_bad R wf hbad
  obtain ⟨hs3, ha1, hc1, hn2⟩ := hbad
  have he3 : v.elem.size = 3 := by have := R.chunks; rw [ha1, hs3] at this; omega
  refine ⟨i, h', ?_, hre, hl⟩
  simp only [VecVoid.reserve, M.bind_run, getSelf_run, R.align, evalAlign_align]
  refine applyAligned_badCap (out := ()) (w' := { w with heap := h' })
    (v' := ⟨some i, v.len * v.elem.size, 8, v.mem⟩) R ?_ (by simp [he3]) (by simp [he3]) (by simp [he3])
  have : umul cfg n v.elem.size (v.chunkView, w) = (.ok (n * v.elem.size), (v.chunkView, w)) := by
    apply umul_ok; rw [he3]; unfold usizeMax; omega
  simp only [M.bind_run, this, hrun]

/-- `VecVoid::resize_with(len + 1, init)`: the new element is what `init` makes of a zeroed slot. -/
theorem VecVoid.resizeWith_succ (R : Repr Γ w.heap t es v) (wf : w.heap.WF)
    {init : M (Bytes × World U) Unit}
    (hroom : Room Γ t (max 8 (max (2 * v.cap) (v.len + 1))))
    (hbad : ¬ BadGrowth Γ t v.cap (v.len + 1)) :
    ∃ p c h', v.len + 1 ≤ c ∧ v.cap ≤ c ∧ Room Γ t c ∧ Realloc w.heap v.ptr h' p ∧
      (∃ i, p = some i ∧ h'.live i = some ⟨c * Γ.size t, Γ.align t⟩) ∧
      (v.len < v.cap → p = v.ptr ∧ c = v.cap ∧ h' = w.heap) ∧
      c ≤ max v.cap (max 8 (2 * (v.len + 1))) ∧
      (∀ x w', init (List.replicate (Γ.size t) (some 0), { w with heap := h' }) = (.ok (), (x, w')) →
        x.length = Γ.size t →
        VecVoid.resizeWith Γ cfg (v.len + 1) init (v, w) =
          (.ok (), (⟨p, v.len + 1, c, v.elem, v.mem ++ x⟩, w'))) ∧
      (∀ x w' y, init (List.replicate (Γ.size t) (some 0), { w with heap := h' }) = (.panic y, (x, w')) →
        w'.heap.live = h'.live →
        ∃ i, p = some i ∧ VecVoid.resizeWith Γ cfg (v.len + 1) init (v, w) =
          (.panic y, (VecVoid.default Γ, { w' with heap := w'.heap.free i }))) := by
  have hs := R.chunk_pos
  have ha := align_pos Γ t
  obtain ⟨p, c, h', hrun, hnc, hcc, hroomc, hre, hblk, hfit, hub⟩ := reserve_chunk R wf hroom hbad
  rw [Nat.one_mul] at hrun
  refine ⟨p, c, h', hnc, hcc, hroomc, hre, hblk, fun h => hfit (by omega), hub, ?_, ?_⟩
  all_goals
    have hz : (List.replicate v.elem.size (List.replicate (Γ.align t) (some (0 : UInt8)))).flatten =
        List.replicate (Γ.size t) (some 0) := by
      rw [List.flatten_replicate_replicate, R.chunks]
    have hum : umul cfg (v.len + 1) v.elem.size (v.chunkView, w) =
        (.ok ((v.len + 1) * v.elem.size), (v.chunkView, w)) := umul_room_ok R hroomc hnc _
    have hlt : v.len * v.elem.size < (v.len + 1) * v.elem.size := Nat.mul_lt_mul_of_pos_right (by omega) hs
    have hd : (v.len + 1) * v.elem.size - v.len * v.elem.size = v.elem.size := by
      rw [Nat.succ_mul]; omega
    have hrw : RVec.resizeWith ⟨Γ.align t, Γ.align t⟩ ((v.len + 1) * v.elem.size)
        (List.replicate (Γ.align t) (some 0)) (v.chunkView, w) =
        (.ok (), (⟨p, (v.len + 1) * v.elem.size, c * v.elem.size,
          v.mem ++ List.replicate (Γ.size t) (some 0)⟩, { w with heap := h' })) := by
      simp only [RVec.resizeWith, M.bind_run, M.get_run]
      rw [if_pos (by exact hlt)]
      simp only [M.bind_run, VecVoid.chunkView, hd] at hrun ⊢
      rw [hrun]
      simp [hz]
    have hoff : v.len * v.elem.size * Γ.align t = v.mem.length := by
      rw [Nat.mul_assoc, R.chunks, R.mem_len]
  · intro x w' hinit hx
    simp only [VecVoid.resizeWith, M.bind_run, getSelf_run, R.align, evalAlign_align]
    refine applyAligned_ok (n := v.len + 1) (c := c)
      (v' := ⟨p, (v.len + 1) * v.elem.size, c * v.elem.size, v.mem ++ x⟩) R ?_ rfl rfl (by omega)
    simp only [M.bind_run, getSelf_run, hum]
    rw [hrw]
    simp only
    rw [if_neg (by simp only [VecVoid.chunkView]; omega), if_neg (by
      simp only [VecVoid.chunkView, hoff, R.numBytes, List.length_append, List.length_replicate]; omega)]
    simp only [M.zoom_run, VecVoid.chunkView, hoff, R.numBytes, List.drop_left, List.take_replicate,
      Nat.min_self, hinit, splice, List.take_left]
    rw [List.drop_of_length_le (by simp [hx])]
    simp
  · intro x w' y hinit hlive
    obtain ⟨i, hp, hl⟩ := hblk
    refine ⟨i, hp, ?_⟩
    simp only [VecVoid.resizeWith, M.bind_run, getSelf_run, R.align, evalAlign_align]
    refine applyAligned_panic (w' := w')
      (v' := ⟨p, (v.len + 1) * v.elem.size, c * v.elem.size,
        splice (v.mem ++ List.replicate (Γ.size t) (some 0)) (v.len * v.elem.size * Γ.align t) x⟩) R ?_ ?_
    · simp only [M.bind_run, getSelf_run, hum]
      rw [hrw]
      simp only
      rw [if_neg (by simp only [VecVoid.chunkView]; omega), if_neg (by
        simp only [VecVoid.chunkView, hoff, R.numBytes, List.length_append, List.length_replicate]; omega)]
      simp only [M.zoom_run, VecVoid.chunkView, hoff, R.numBytes, List.drop_left, List.take_replicate,
        Nat.min_self, hinit]
    · have e1 : c * v.elem.size * Γ.align t = c * Γ.size t := by rw [Nat.mul_assoc, R.chunks]
      have hpos : c * Γ.size t ≠ 0 := Nat.mul_ne_zero (by omega) (by have := R.pos; omega)
      simp only [RVec.dropBuf, worldHeap_run, e1, hp]
      rw [dealloc_live (by rw [hlive]; exact hl) hpos]

end ops
end Dync
