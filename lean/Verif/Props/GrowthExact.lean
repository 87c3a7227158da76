import Verif.Props.AnyGrowth2
import Verif.LossLemmas
/-!
# C08, C09, C13 Exactly when growing fails

The cases that the `_partial` theorems leave out, so that together they cover every call of `append`, `resize` and
`reserve` on healthy containers.
-/
namespace Dync
variable {U V : Type} {Γ : TyEnv U} {t : TyId} {es es' : List Bytes} {c : VecCopy V} {cfg : Cfg}

/-- The larger buffer that the standard library picks is above the largest allocation exactly if twice the capacity,
or the need, is. -/
theorem std_unitRoom_iff {h : Heap} {v : VecVoid} (R : Repr Γ h t es v) {n : Nat} (hn : v.cap < es.length + n) :
    ¬ UnitRoom Γ t (VecPolicy.std.unitCap Γ h t v.cap (es.length + n)) ↔ TooLarge Γ t v.cap es.length n := by
  have hal : Γ.align t ≤ Γ.size t := Nat.le_of_dvd R.pos (Γ.align_dvd t)
  have hsz := Γ.size_le t
  have hl : leastCap (Γ.align t) * Γ.align t + (Γ.align t - 1) ≤ isizeMax :=
    least_room _ fun _ => by
      have h1 := R.room
      have h2 := Nat.le_mul_of_pos_left (Γ.size t) R.cap_pos
      unfold Room at h1
      omega
  have hm : ∀ a b, max (a * unitsPer Γ t) (b * unitsPer Γ t) * Γ.align t = max a b * Γ.size t := by
    intro a b
    rw [← unitsPer_mul R (max a b)]
    congr 1
    rcases Nat.le_total a b with h | h
    · rw [Nat.max_eq_right h, Nat.max_eq_right (Nat.mul_le_mul_right _ h)]
    · rw [Nat.max_eq_left h, Nat.max_eq_left (Nat.mul_le_mul_right _ h)]
  have hk : VecPolicy.std.unitCap Γ h t v.cap (es.length + n) =
      max (leastCap (Γ.align t)) (max (2 * v.cap * unitsPer Γ t) ((es.length + n) * unitsPer Γ t)) := by
    have : v.cap * unitsPer Γ t * 2 = 2 * v.cap * unitsPer Γ t := by rw [Nat.mul_comm, Nat.mul_assoc]
    rw [← this]; rfl
  unfold UnitRoom TooLarge
  rw [hk, Nat.not_le, over_iff hl, hm]
  exact ⟨fun h => ⟨hn, h⟩, fun h => h.2⟩

/-- `reserve` of a container whose need fits into the address space: it returns, with content and type as before
and room for the need, unless twice the capacity does not fit or a full container of one three-byte element grows to
two. In these cases it panics and the content is lost. -/
theorem C13_veccopy_reserve_exact {w : World U} (R : Repr Γ w.heap t es c.data) (wf : w.heap.WF) {n : Nat}
    (hroom : Room Γ t (es.length + n)) :
    (¬ NoGrowth Γ t c.data.cap es.length n → ∃ d h',
      VecCopy.reserve Γ cfg n (c, w) = (.ok (), ({ c with data := d }, { w with heap := h' })) ∧
      GrowsTo Γ t (es.length + n) es w.heap c.data h' d) ∧
    (NoGrowth Γ t c.data.cap es.length n → ∃ y h',
      VecCopy.reserve Γ cfg n (c, w) = (.panic y, ({ c with data := VecVoid.default Γ }, { w with heap := h' }))) := by
  by_cases hn : c.data.cap < es.length + n
  · obtain ⟨h1, h2, h3⟩ := C92_veccopy_reserve (cfg := cfg) .std R wf hn hroom
    have hf := std_unitRoom_iff R hn
    have hb := C92_std_splits_iff R hn
    refine ⟨fun h => ?_, ?_⟩
    · obtain ⟨d, h', hrun, hg, -⟩ := h1 (Classical.not_not.1 fun hu => h (.inl (hf.1 hu)))
        (Classical.not_not.1 fun hu => h (.inr (hb.1 hu)))
      exact ⟨d, h', hrun, hg⟩
    · intro h
      by_cases hu : UnitRoom Γ t (VecPolicy.std.unitCap Γ w.heap t c.data.cap (es.length + n))
      · have hbad : BadGrowth Γ t c.data.cap (es.length + n) := h.resolve_left fun h => hf.2 h hu
        obtain ⟨i, h', hrun, -⟩ := h2 hu (hb.2 hbad)
        exact ⟨_, h', hrun⟩
      · obtain ⟨i, -, hrun⟩ := h3 hu
        exact ⟨_, _, hrun⟩
  · refine ⟨fun _ => ⟨c.data, w.heap, C92_veccopy_reserve_fits .std R (by omega), R, .refl wf _, Nat.le_refl _, by omega⟩, ?_⟩
    rintro (h | h)
    · exact absurd h.1 hn
    · exact absurd (by have := h.2.2.1; have := h.2.2.2; omega) hn

/-- `resize` of a `VecCopy` to a length that fits into the address space. -/
theorem C09_veccopy_resize_exact {w : World U} (R : Repr Γ w.heap t es c.data) (wf : w.heap.WF) {n : Nat} {x : Bytes}
    (hx : x.length = Γ.size t) (hroom : Room Γ t n) :
    (¬ NoGrowth Γ t c.data.cap es.length (n - es.length) → ∃ d h',
      VecCopy.resize Γ cfg t n x (c, w) = (.ok (some ()), ({ c with data := d }, { w with heap := h' })) ∧
      GrowsTo Γ t n (es.take n ++ List.replicate (n - es.length) x) w.heap c.data h' d) ∧
    (NoGrowth Γ t c.data.cap es.length (n - es.length) → ∃ y h',
      VecCopy.resize Γ cfg t n x (c, w) = (.panic y, ({ c with data := VecVoid.default Γ }, { w with heap := h' }))) := by
  have hlc := R.len_cap
  have hl := R.len
  by_cases hn : c.data.cap < n
  · have e : es.length + (n - es.length) = n := by omega
    obtain ⟨h1, h2, h3⟩ := C92_veccopy_resize (cfg := cfg) .std R wf hx hn hroom
    have hf := std_unitRoom_iff R (n := n - es.length) (by omega)
    have hb := C92_std_splits_iff R hn
    rw [e] at hf
    refine ⟨fun h => ?_, ?_⟩
    · obtain ⟨d, h', hrun, hg, -⟩ := h1 (Classical.not_not.1 fun hu => h (.inl (hf.1 hu)))
        (Classical.not_not.1 fun hu => h (.inr (by rw [e]; exact hb.1 hu)))
      rw [List.take_of_length_le (by omega)]
      exact ⟨d, h', hrun, hg⟩
    · intro h
      by_cases hu : UnitRoom Γ t (VecPolicy.std.unitCap Γ w.heap t c.data.cap n)
      · have hbad := h.resolve_left fun h => hf.2 h hu
        rw [e] at hbad
        obtain ⟨i, h', hrun, -⟩ := h2 hu (hb.2 hbad)
        exact ⟨_, h', hrun⟩
      · obtain ⟨i, -, hrun⟩ := h3 hu
        exact ⟨_, _, hrun⟩
  · refine ⟨fun _ => ?_, ?_⟩
    · obtain ⟨d, hrun, hR, hp, hc⟩ := C92_veccopy_resize_fits (cfg := cfg) .std R wf hx (n := n) (by omega)
      exact ⟨d, w.heap, hrun, hR, hp ▸ .refl wf _, by omega, by omega⟩
    · rintro (h | h)
      · exact absurd (by have := h.1; omega) hn
      · exact absurd (by have := h.2.2.1; have := h.2.2.2; omega) hn

/-- `append` when the elements fit already. -/
theorem VecCopy.append_fits {w : World (VecCopy V × U)} (R : Repr Γ w.heap t es c.data)
    (Ro : Repr Γ w.heap t es' w.user.1.data) (hn : es.length + es'.length ≤ c.data.cap) :
    ∃ d, VecCopy.append Γ cfg (c, w) = (.ok (some ()), ({ c with data := d },
        ⟨w.heap, ({ w.user.1 with data := ⟨w.user.1.data.ptr, 0, w.user.1.data.cap, w.user.1.data.elem, []⟩ }, w.user.2)⟩)) ∧
      Repr Γ w.heap t (es ++ es') d ∧ d.ptr = c.data.ptr ∧ d.cap = c.data.cap := by
  have hl := R.len
  have hl' := Ro.len
  have helem : w.user.1.data.elem = c.data.elem := by rw [R.elem_eq, Ro.elem_eq]
  have hle : w.user.1.data.len * w.user.1.data.elem.size ≤
      c.data.cap * c.data.elem.size - c.data.len * c.data.elem.size := by
    rw [← Nat.sub_mul, helem]; exact Nat.mul_le_mul_right _ (by omega)
  have hty : w.user.1.elementTypeId = c.elementTypeId := by simp [VecCopy.elementTypeId, helem]
  obtain ⟨h0, o, u⟩ := w
  obtain ⟨o, ovt⟩ := o
  obtain ⟨v, vt⟩ := c
  simp only at *
  have hv : VecVoid.append Γ cfg (v, (⟨h0, (o, u)⟩ : World (VecVoid × U))) =
      (.ok (), (⟨v.ptr, v.len + o.len, v.cap, v.elem, v.mem ++ o.mem⟩,
        ⟨h0, (⟨o.ptr, 0, o.cap, o.elem, []⟩, u)⟩)) := by
    have a1 : (v.elem.type_id == o.elem.type_id) = true := by simp [helem]
    simp only [VecVoid.append, M.bind_run, getSelf_run, M.get_run, a1, M.assert_true_run]
    rw [debugAssert_ok (by simp [helem])]
    simp only
    rw [debugAssert_ok (by simp [helem])]
    simp only [R.align, evalAlign_align]
    refine applyAligned_ok (n := v.len + o.len) (c := v.cap)
      (v' := ⟨v.ptr, (v.len + o.len) * v.elem.size, v.cap * v.elem.size, v.mem ++ o.mem⟩) R ?_ rfl rfl R.cap_pos
    rw [swapRoles_run]
    have inner : VecVoid.applyAligned Γ cfg ⟨Γ.align t, Γ.align t⟩
        (VecVoid.swapRoles (do
          let (_, w) ← M.get
          let source := w.user.1
          let source ← RVec.append ⟨Γ.align t, Γ.align t⟩ source
          M.modify fun s => (s.1, ⟨s.2.heap, (source, s.2.user.2)⟩)))
        (o, (⟨h0, (v.chunkView, u)⟩ : World (RVec × U))) =
        (.ok (), (⟨o.ptr, 0, o.cap, o.elem, []⟩,
          ⟨h0, (⟨v.ptr, (v.len + o.len) * v.elem.size, v.cap * v.elem.size, v.mem ++ o.mem⟩, u)⟩)) := by
      refine applyAligned_ok (n := 0) (c := o.cap)
        (v' := ⟨o.ptr, 0, o.cap * o.elem.size, []⟩) Ro ?_ (by simp) rfl Ro.cap_pos
      rw [swapRoles_run]
      simp only [M.bind_run, M.get_run, RVec.append]
      rw [RVec.reserve_fit (by simpa only [VecVoid.chunkView] using hle)]
      simp [VecVoid.chunkView, helem, Nat.add_mul]
    rw [inner]
  refine ⟨⟨v.ptr, v.len + o.len, v.cap, v.elem, v.mem ++ o.mem⟩, ?_, ?_, rfl, rfl⟩
  · simp only [VecCopy.append, M.bind_run, getSelf_run, M.get_run, if_pos hty, M.zoom_run, hv, M.pure_run]
  · have := R.setContent (es' := es ++ es') (by simpa using hn) (fun e he => (List.mem_append.1 he).elim (R.each e) (Ro.each e))
    have e1 : (es ++ es').length = v.len + o.len := by simp [hl, hl']
    have e2 : (es ++ es').flatten = v.mem ++ o.mem := by simp [R.mem, Ro.mem]
    rw [e1, e2] at this
    exact this

/-- `append` of a container to another of the same type: it moves all elements over, unless the receiver cannot grow;
then it panics, and the content of both is lost: the receiver is an empty container of `()`, and the argument is empty
or that too. -/
theorem C08_veccopy_append_exact {w : World (VecCopy V × U)} (R : Repr Γ w.heap t es c.data)
    (Ro : Repr Γ w.heap t es' w.user.1.data) (wf : w.heap.WF) (hne : c.data.ptr ≠ w.user.1.data.ptr) :
    (¬ NoGrowth Γ t c.data.cap es.length es'.length → ∃ d o h',
      VecCopy.append Γ cfg (c, w) = (.ok (some ()), ({ c with data := d }, ⟨h', ({ w.user.1 with data := o }, w.user.2)⟩)) ∧
      GrowsTo Γ t (es.length + es'.length) (es ++ es') w.heap c.data h' d ∧ Repr Γ h' t [] o ∧
      o.ptr = w.user.1.data.ptr ∧ o.cap = w.user.1.data.cap) ∧
    (NoGrowth Γ t c.data.cap es.length es'.length → ∃ y o h',
      VecCopy.append Γ cfg (c, w) =
        (.panic y, ({ c with data := VecVoid.default Γ }, ⟨h', ({ w.user.1 with data := o }, w.user.2)⟩)) ∧
      (Repr Γ h' t [] o ∨ o = VecVoid.default Γ)) := by
  by_cases hn : c.data.cap < es.length + es'.length
  · obtain ⟨h1, h2, h3⟩ := C92_veccopy_append (cfg := cfg) .std R Ro wf hne hn
    have hf := std_unitRoom_iff R hn
    have hb := C92_std_splits_iff R hn
    refine ⟨fun h => ?_, ?_⟩
    · obtain ⟨d, h', hrun, hg, hR, -⟩ := h1 (Classical.not_not.1 fun hu => h (.inl (hf.1 hu)))
        (Classical.not_not.1 fun hu => h (.inr (hb.1 hu)))
      exact ⟨d, _, h', hrun, hg, hR, rfl, rfl⟩
    · intro h
      by_cases hu : UnitRoom Γ t (VecPolicy.std.unitCap Γ w.heap t c.data.cap (es.length + es'.length))
      · have hbad := h.resolve_left fun h => hf.2 h hu
        obtain ⟨i, h', hrun, -, -, hR⟩ := h2 hu (hb.2 hbad)
        exact ⟨_, _, h', hrun, .inl hR⟩
      · obtain ⟨i, j, -, -, hrun⟩ := h3 hu
        exact ⟨_, _, _, hrun, .inr rfl⟩
  · refine ⟨fun _ => ?_, ?_⟩
    · obtain ⟨d, hrun, hR, hp, hc⟩ := VecCopy.append_fits (cfg := cfg) R Ro (by omega)
      exact ⟨d, _, w.heap, hrun, ⟨hR, hp ▸ .refl wf _, by omega, by omega⟩, Ro.emptied, rfl, rfl⟩
    · rintro (h | h)
      · exact absurd h.1 hn
      · exact absurd (by have := h.2.2.1; have := h.2.2.2; omega) hn

/-! ### Concrete cases -/

example := (C13_veccopy_reserve_exact (cfg := ⟨true⟩) Ex.c123_repr Ex.w4_wf (n := 17) (by unfold Room; decide)).1
  (by unfold NoGrowth TooLarge BadGrowth isizeMax; decide)
example := (C09_veccopy_resize_exact (cfg := ⟨true⟩) Ex.c123_repr Ex.w4_wf (n := 2) (x := Ex.a1) (by decide) (by unfold Room; decide)).1
  (by unfold NoGrowth TooLarge BadGrowth isizeMax; decide)
-- one pair appended to two, and two appended to one
example (cfg : Cfg) := (C08_veccopy_append_exact (cfg := cfg) (w := ⟨Ex.pairHeap, (Ex.pair1, ([] : Ex.Log))⟩)
  Ex.pair2_repr Ex.pair1_repr' Ex.pairHeap_wf (by decide)).1 (by unfold NoGrowth TooLarge BadGrowth isizeMax; decide)
example (cfg : Cfg) := (C08_veccopy_append_exact (cfg := cfg) (w := ⟨Ex.pairHeap, (Ex.pair2, ([] : Ex.Log))⟩)
  Ex.pair1_repr' Ex.pair2_repr Ex.pairHeap_wf (by decide)).1 (by unfold NoGrowth TooLarge BadGrowth isizeMax; decide)
-- one `[u8; 3]` appended to one
example := (C08_veccopy_append_exact (Γ := Ex.env) (cfg := ⟨true⟩) (c := Ex.bad3) (w := Ex.world3) (t := 3) (es := [Ex.b3]) (es' := [Ex.b3])
  ⟨rfl, rfl, rfl, by decide, rfl, by decide, rfl, by decide, by decide, by unfold Room; decide, 0, rfl, rfl⟩
  ⟨rfl, rfl, rfl, by decide, rfl, by decide, rfl, by decide, by decide, by unfold Room; decide, 1, rfl, rfl⟩
  (Ex.twoHeap_wf _ _) (by decide)).2 (.inr (by unfold BadGrowth; decide))

end Dync
