import Verif.VecCopyLemmas2
import Verif.Props.Example
/-!
# Properties of `VecCopy`: construction, content operations, clone

Every theorem is followed by an `example` that instantiates it at a concrete container, which shows
that its hypotheses can be met.
-/
namespace Dync
variable {U V : Type} {Γ : TyEnv U} {t : TyId} {es : List Bytes} {c : VecCopy V} {w : World U}
  {cfg : Cfg} {vt : V}

/-- One element of any type fits into the address space. -/
theorem room_one (Γ : TyEnv U) {t : TyId} (hpos : 0 < Γ.size t) : Room Γ t 1 := by
  unfold Room
  rw [Nat.one_mul]
  have hsle := Γ.size_le t
  obtain ⟨k, hk, hke⟩ := Γ.align_pow t
  obtain ⟨q, hq⟩ := Γ.align_dvd t
  have h63 : (2:Nat) ^ 63 = Γ.align t * 2 ^ (63 - k) := by
    rw [hke, ← Nat.pow_add]; congr 1; omega
  have hlt : Γ.align t * q < Γ.align t * 2 ^ (63 - k) := by
    rw [← h63, ← hq]; unfold isizeMax at hsle; omega
  have hq' : q + 1 ≤ 2 ^ (63 - k) := Nat.lt_of_mul_lt_mul_left hlt
  have : Γ.align t * (q + 1) ≤ 2 ^ 63 := by
    rw [h63]; exact Nat.mul_le_mul_left _ hq'
  rw [Nat.mul_succ, ← hq] at this
  have := align_pos Γ t
  unfold isizeMax; omega

/-! ### C01 round trip -/

/-- `VecCopy::from_vec(v).into_vec::<T>()` gives back the very same vector (pointer, length,
capacity, bytes) without touching heap or user state; only a vector of capacity 0 comes back as an
empty vector with a fresh block. -/
theorem C01_veccopy_round_trip {rv : RVec} (hv : IsVec Γ w.heap t es rv) (wf : w.heap.WF)
    (hpos : 0 < Γ.size t) :
    ∃ rv' h', (VecCopy.fromVec Γ t vt rv >>= VecCopy.intoVec Γ cfg t) w =
        (.ok (some rv'), { w with heap := h' }) ∧
      IsVec Γ h' t es rv' ∧ Realloc w.heap rv.ptr h' rv'.ptr ∧
      (0 < rv.cap → rv' = rv ∧ h' = w.heap) := by
  obtain ⟨p, k, h', hrun, hR, hre, hsame, -⟩ := VecCopy.fromVec_ok (vt := vt) hv wf hpos
  refine ⟨⟨p, rv.len, k, rv.bytes⟩, h', ?_, hR.isVec, hre, ?_⟩
  · rw [M.bind_ok hrun]
    have hck : VecCopy.check (U := U) cfg t
        (⟨⟨p, rv.len, k, ElemInfo.new Γ t, rv.bytes⟩, vt⟩ : VecCopy V) = pure (some _) :=
      if_neg (by simp [VecCopy.elementTypeId, ElemInfo.new])
    have := hR.intoVec cfg (World.mk h' w.user)
    simp only [VecCopy.intoVec, hck, M.bind_run, M.pure_run, this, VecVoid.typedView]
  · intro hc
    obtain ⟨rfl, rfl, rfl⟩ := hsame hc
    exact ⟨rfl, rfl⟩

example := C01_veccopy_round_trip (cfg := ⟨true⟩) (vt := ()) (w := Ex.world 2 4) Ex.c123_repr.isVec Ex.w4_wf
  (by decide)

/-! ### C02 typed access -/

/-- With the wrong type every typed accessor returns `None` and changes nothing (`push_as` drops the
rejected element). -/
theorem C02_veccopy_mismatch (R : Repr Γ w.heap t es c.data) {t' : TyId} (ht : t' ≠ t) :
    c.checkRef t' = none ∧
    VecCopy.asSliceAs Γ t' c w = (.ok none, w) ∧
    (∀ vec, VecCopy.appendCopyToVec Γ t' vec c w = (.ok none, w)) ∧
    VecCopy.copyIntoVec Γ t' c w = (.ok none, w) ∧
    (∀ i, i < es.length → VecCopy.getAs Γ t' i c w = (.ok none, w)) ∧
    (∀ (α : Type) i (m : M (Bytes × World U) α), i < es.length →
      VecCopy.getMutAs Γ t' i m (c, w) = (.ok none, (c, w))) ∧
    (∀ (α : Type) (m : M (List Bytes × World U) α),
      VecCopy.asMutSliceAs Γ t' m (c, w) = (.ok none, (c, w))) ∧
    (∀ x, VecCopy.fill Γ t' x (c, w) = (.ok none, (c, w))) ∧
    (∀ n x, VecCopy.resize Γ cfg t' n x (c, w) = (.ok none, (c, w))) ∧
    (∀ src, VecCopy.copyFromSlice Γ cfg t' src (c, w) = (.ok none, (c, w))) ∧
    (∀ x u, Γ.drop t' x w.user = (.ok (), u) →
      VecCopy.pushAs Γ cfg t' x (c, w) = (.ok none, (c, { w with user := u }))) ∧
    (∃ i, c.data.ptr = some i ∧
      VecCopy.intoVec Γ cfg t' c w = (.ok none, { w with heap := w.heap.free i })) := by
  have hck := VecCopy.checkRef_none R ht
  refine ⟨hck, ?_, ?_, ?_, fun i hi => VecCopy.getAs_mismatch R ht hi w, ?_, ?_, ?_, ?_, ?_, ?_, ?_⟩
  · simp [VecCopy.asSliceAs, hck]
  · intro vec; simp [VecCopy.appendCopyToVec, VecCopy.asSliceAs, hck]
  · simp [VecCopy.copyIntoVec, VecCopy.appendCopyToVec, VecCopy.asSliceAs, hck]
  · intro α i m hi
    have hb : (decide (i < c.len)) = true := by
      simp only [VecCopy.len, R.len]; exact decide_eq_true hi
    simp only [VecCopy.getMutAs, M.bind_run, getSelf_run, hb, M.assert_true_run, hck, M.pure_run]
  · intro α m; simp only [VecCopy.asMutSliceAs, M.bind_run, getSelf_run, hck, M.pure_run]
  · intro x; simp only [VecCopy.fill, VecCopy.asMutSliceAs, M.bind_run, getSelf_run, hck, M.pure_run]
  · intro n x; simp only [VecCopy.resize, M.bind_run, getSelf_run, hck, M.pure_run]
  · intro src
    obtain ⟨s, hs, hvt, hrun⟩ := VecCopy.asMutSlice_run R (SliceCopy.copyFromSlice Γ cfg t' src)
    have hm : SliceCopy.copyFromSlice Γ cfg t' src s = (.ok none, s) := hs.asSliceMut_mismatch ht _
    rw [hm] at hrun
    simp only [VecCopy.copyFromSlice, hrun]
    rw [splice_whole (by rw [hs.data, R.mem]), hs.data, ← R.mem]
  · intro x u hd
    simp only [VecCopy.pushAs, M.bind_run, getSelf_run, hck, onWorld_run, worldUser_run, hd, M.pure_run]
  · obtain ⟨i, hp, hd⟩ := VecVoid.drop_spec (cfg := cfg) R
    refine ⟨i, hp, ?_⟩
    have : t' ≠ c.elementTypeId := by simp [VecCopy.elementTypeId, R.type_id, ht]
    simp only [VecCopy.intoVec, VecCopy.check, if_pos this, VecCopy.drop, M.bind_run, hd, M.pure_run]

example := C02_veccopy_mismatch (cfg := ⟨false⟩) Ex.c123_repr (t' := 5) (by decide)

/-- With the right type every typed read accessor returns `Some` of exactly the stored elements. -/
theorem C02_veccopy_match (R : Repr Γ w.heap t es c.data) :
    c.checkRef t = some c ∧
    VecCopy.asSliceAs Γ t c w = (.ok (some es), w) ∧
    (∀ vec, VecCopy.appendCopyToVec Γ t vec c w = (.ok (some (vec ++ es)), w)) ∧
    VecCopy.copyIntoVec Γ t c w = (.ok (some es), w) ∧
    (∀ i (hi : i < es.length), VecCopy.getAs Γ t i c w = (.ok (some es[i]), w)) ∧
    VecCopy.intoVec Γ cfg t c w = (.ok (some c.data.typedView), w) := by
  have hck := VecCopy.checkRef_some R
  have hs := VecCopy.asSliceAs_ok R w
  refine ⟨hck, hs, ?_, ?_, fun i hi => VecCopy.getAs_ok R hi w, ?_⟩
  · intro vec; simp [VecCopy.appendCopyToVec, hs]
  · simp [VecCopy.copyIntoVec, VecCopy.appendCopyToVec, hs]
  · have : ¬ t ≠ c.elementTypeId := by simp [VecCopy.elementTypeId, R.type_id]
    simp only [VecCopy.intoVec, VecCopy.check, if_neg this, M.bind_run, M.pure_run, R.intoVec]

example := C02_veccopy_match (cfg := ⟨false⟩) Ex.c123_repr

/-- `append` of a container of another type returns `None` and changes neither. -/
theorem C02_veccopy_append_mismatch {w : World (VecCopy V × U)} {t' : TyId} {es' : List Bytes}
    (R : Repr Γ w.heap t es c.data) (Ro : Repr Γ w.heap t' es' w.user.1.data) (ht : t' ≠ t) :
    VecCopy.append Γ cfg (c, w) = (.ok none, (c, w)) := by
  have : ¬ w.user.1.elementTypeId = c.elementTypeId := by
    simp [VecCopy.elementTypeId, R.type_id, Ro.type_id, ht]
  simp only [VecCopy.append, M.bind_run, getSelf_run, M.get_run, if_neg this, M.pure_run]

/-! ### C04 zero-sized types -/

/-- No constructor ever returns a container for a zero-sized type; `with_type`, `with_capacity`
panic outright. -/
theorem C04_veccopy_rejects_zst (h0 : Γ.size t = 0) (w : World U) :
    (∀ rv (c : VecCopy V), (VecCopy.fromVec Γ t vt rv w).1 ≠ .ok c) ∧
    VecCopy.withType Γ t vt w = (.panic .assertion, w) ∧
    (∀ n, VecCopy.withCapacity Γ t vt n w = (.panic .assertion, w)) ∧
    (∀ n x (c : VecCopy V), (VecCopy.withSize Γ t vt n x w).1 ≠ .ok c) ∧
    (∀ s (c : VecCopy V), (VecCopy.fromSlice Γ t vt s w).1 ≠ .ok c) ∧
    (∀ vt' : V, VecCopy.withTypeFrom ⟨ElemInfo.new Γ t, vt'⟩ w = (.panic .divZero, w)) := by
  have hwc : ∀ n, RVec.withCapacity (Γ.layout t) n w = (.ok (RVec.new (Γ.layout t)), w) := by
    intro n; simp [RVec.withCapacity, h0]
  refine ⟨fun rv c => VecCopy.fromVec_zst_ne h0 c, ?_, ?_, ?_, ?_, ?_⟩
  · exact VecCopy.fromVec_zst h0 (VecCopy.dropTyped_empty rfl h0)
  · intro n
    simp only [VecCopy.withCapacity, M.bind_run, hwc]
    exact VecCopy.fromVec_zst h0 (VecCopy.dropTyped_empty rfl h0)
  · intro n x c
    simp only [VecCopy.withSize, M.bind_run, hwc]
    exact VecCopy.fromVec_zst_ne h0 c
  · intro s c
    simp only [VecCopy.fromSlice, M.bind_run, hwc]
    rcases withLocal (RVec.new (Γ.layout t)) (RVec.dropTyped Γ t)
      (RVec.extendFromSlice (Γ.layout t) s.length s.flatten) w with ⟨r, w'⟩
    cases r with
    | ok a => exact VecCopy.fromVec_zst_ne h0 c
    | _ => simp
  · intro vt'
    have ha := align_pos Γ t
    have hz : (ElemInfo.new Γ t).size = 0 := by simp [ElemInfo.new, h0]
    have hal : (ElemInfo.new Γ t).alignment = Γ.align t := rfl
    have hne : Γ.align t ≠ 0 := by omega
    have hr : 0 * Γ.align t + (Γ.align t - 1) ≤ isizeMax := by
      have := room_zero Γ t; unfold Room at this; rw [h0] at this; omega
    have hc : RVec.withCapacity ⟨Γ.align t, Γ.align t⟩ 0 w = (.ok ⟨none, 0, 0, []⟩, w) := by
      simp only [RVec.withCapacity, hne, if_false, hr, if_true]
      simp [Heap.alloc]
    simp only [VecCopy.withTypeFrom, hal, evalAlign_align, hz, M.bind_run, hc]
    simp [VecVoid.fromVecOverride, hal, hz]

example := C04_veccopy_rejects_zst (Γ := Ex.env) (t := 8) (vt := ()) rfl (Ex.world 2 4)

/-- For every other type `from_vec`, `with_type`, `with_capacity`, `with_size`, `from_slice` build a
healthy container with the requested content. -/
theorem C04_veccopy_accepts (hpos : 0 < Γ.size t) (wf : w.heap.WF) :
    (∀ rv, IsVec Γ w.heap t es rv → ∃ c h', VecCopy.fromVec Γ t vt rv w = (.ok c, { w with heap := h' }) ∧
      Repr Γ h' t es c.data ∧ c.vtable = vt ∧ h'.WF) ∧
    (∃ c h', VecCopy.withType Γ t vt w = (.ok c, { w with heap := h' }) ∧
      Repr Γ h' t [] c.data ∧ c.vtable = vt ∧ h'.WF) ∧
    (∀ n, Room Γ t n → ∃ c h', VecCopy.withCapacity Γ t vt n w = (.ok c, { w with heap := h' }) ∧
      Repr Γ h' t [] c.data ∧ c.vtable = vt ∧ h'.WF ∧ n ≤ c.capacity) ∧
    (∀ n x, Room Γ t n → x.length = Γ.size t →
      ∃ c h', VecCopy.withSize Γ t vt n x w = (.ok c, { w with heap := h' }) ∧
      Repr Γ h' t (List.replicate n x) c.data ∧ c.vtable = vt ∧ h'.WF) ∧
    (∀ s, Room Γ t s.length → (∀ e ∈ s, e.length = Γ.size t) →
      ∃ c h', VecCopy.fromSlice Γ t vt s w = (.ok c, { w with heap := h' }) ∧
      Repr Γ h' t s c.data ∧ c.vtable = vt ∧ h'.WF) := by
  refine ⟨?_, ?_, ?_, ?_, ?_⟩
  · intro rv hv
    obtain ⟨p, k, h', hrun, hR, hre, -, -⟩ := VecCopy.fromVec_ok (vt := vt) hv wf hpos
    exact ⟨_, h', hrun, hR, rfl, hre.wf⟩
  · obtain ⟨p, k, h', hrun, hR, hre, -, -⟩ := VecCopy.fromVec_ok (vt := vt) (isVec_new Γ w.heap hpos) wf hpos
    exact ⟨⟨_, vt⟩, h', hrun, hR, rfl, hre.wf⟩
  · intro n hroom
    obtain ⟨p, h1, hrun, hv, hwf, -, -⟩ := VecCopy.withCapacity_isVec wf hpos hroom
    obtain ⟨p', k, h', hrun', hR, hre, hsame, -⟩ :=
      VecCopy.fromVec_ok (vt := vt) (w := { w with heap := h1 }) hv hwf hpos
    refine ⟨_, h', by simp only [VecCopy.withCapacity, M.bind_run, hrun]; exact hrun', hR, rfl, hre.wf, ?_⟩
    rcases Nat.eq_zero_or_pos n with h | h
    · subst h; exact Nat.zero_le _
    · simp only [VecCopy.capacity]; rw [(hsame h).2.1]; exact Nat.le_refl _
  · intro n x hroom hx
    obtain ⟨p, h1, hrun, hv, hwf, -, -⟩ := VecCopy.withCapacity_isVec wf hpos hroom
    have hv' : IsVec Γ h1 t (List.replicate n x) ⟨p, n, n, (List.replicate n x).flatten⟩ :=
      ⟨rfl, fun e he => by rw [List.eq_of_mem_replicate he]; exact hx, by simp, Nat.le_refl _, hv.room, hv.block⟩
    obtain ⟨p', k, h', hrun', hR, hre, hsame, -⟩ :=
      VecCopy.fromVec_ok (vt := vt) (w := { w with heap := h1 }) hv' hwf hpos
    exact ⟨_, h', by simp only [VecCopy.withSize, M.bind_run, hrun]; exact hrun', hR, rfl, hre.wf⟩
  · intro s hroom hs
    obtain ⟨p, h1, hrun, hv, hwf, -, -⟩ := VecCopy.withCapacity_isVec wf hpos hroom
    have hv' : IsVec Γ h1 t s ⟨p, s.length, s.length, s.flatten⟩ :=
      ⟨rfl, hs, rfl, Nat.le_refl _, hv.room, hv.block⟩
    obtain ⟨p', k, h', hrun', hR, hre, hsame, -⟩ :=
      VecCopy.fromVec_ok (vt := vt) (w := { w with heap := h1 }) hv' hwf hpos
    refine ⟨⟨_, vt⟩, h', ?_, hR, rfl, hre.wf⟩
    simp only [VecCopy.fromSlice, M.bind_run, hrun]
    have he : RVec.extendFromSlice (U := U) (Γ.layout t) s.length s.flatten
        (⟨p, 0, s.length, []⟩, { w with heap := h1 }) =
        (.ok (), (⟨p, s.length, s.length, s.flatten⟩, { w with heap := h1 })) := by
      simp only [RVec.extendFromSlice, M.bind_run]
      rw [RVec.reserve_fit (by simp)]
      simp
    rw [withLocal_ok he]
    exact hrun'

example := C04_veccopy_accepts (Γ := Ex.env) (t := 3) (es := []) (vt := ()) (w := Ex.world 2 4) (by decide) Ex.w4_wf

/-! ### C05 push_as -/

/-- `push_as` appends exactly the element, for every layout, content and capacity. -/
theorem C05_veccopy_push_as (R : Repr Γ w.heap t es c.data) (wf : w.heap.WF) {x : Bytes}
    (hx : x.length = Γ.size t) (hroom : Room Γ t (max 8 (max (2 * c.data.cap) (es.length + 1)))) :
    ∃ d h', VecCopy.pushAs Γ cfg t x (c, w) =
        (.ok (some ()), ({ c with data := d }, { w with heap := h' })) ∧
      Evolves Γ t (es.length + 1) (es ++ [x]) w.heap c.data h' d :=
  VecCopy.pushAs_ok R wf hx hroom

example := C05_veccopy_push_as (cfg := ⟨true⟩) Ex.c123_repr Ex.w4_wf (x := Ex.a1) rfl (by unfold Room; decide)

/-! ### C08 append -/

/-- `append` moves all elements: the receiver holds both contents, the argument is empty, still
healthy, in its own block with its capacity and type; user code is not called. -/
theorem C08_veccopy_append_partial {es' : List Bytes} {w : World (VecCopy V × U)}
    (R : Repr Γ w.heap t es c.data) (Ro : Repr Γ w.heap t es' w.user.1.data) (wf : w.heap.WF)
    (hdisj : w.user.1.data.ptr ≠ c.data.ptr)
    (hroom : Room Γ t (max 8 (max (2 * c.data.cap) (es.length + es'.length))))
    (hbad : ¬ BadGrowth Γ t c.data.cap (es.length + es'.length)) :
    ∃ d o h', VecCopy.append Γ cfg (c, w) =
        (.ok (some ()), ({ c with data := d }, ⟨h', ({ w.user.1 with data := o }, w.user.2)⟩)) ∧
      Evolves Γ t (es.length + es'.length) (es ++ es') w.heap c.data h' d ∧
      Repr Γ h' t [] o ∧ o.ptr = w.user.1.data.ptr ∧ o.cap = w.user.1.data.cap := by
  obtain ⟨d, h', hrun, hev⟩ := VecCopy.append_ok (cfg := cfg) R Ro wf hroom hbad
  refine ⟨d, _, h', hrun, hev, ?_, rfl, rfl⟩
  exact Ro.emptied.frame_realloc wf hev.realloc hdisj

/-! ### C09 resize -/

/-- `resize` keeps the first `min n len` elements and fills up with copies. The excluded case is a
container of 3-byte elements of alignment 1 with capacity 1 resized to 2: see
`C09_veccopy_resize_refuted`. -/
theorem C09_veccopy_resize_partial (R : Repr Γ w.heap t es c.data) (wf : w.heap.WF) {n : Nat} {x : Bytes}
    (hx : x.length = Γ.size t) (hroom : Room Γ t (max 8 (max (2 * c.data.cap) n)))
    (hbad : ¬ BadGrowth Γ t c.data.cap n) :
    ∃ d h', VecCopy.resize Γ cfg t n x (c, w) =
        (.ok (some ()), ({ c with data := d }, { w with heap := h' })) ∧
      Evolves Γ t n (es.take n ++ List.replicate (n - es.length) x) w.heap c.data h' d := by
  by_cases hn : es.length ≤ n
  · rw [List.take_of_length_le hn]
    exact VecCopy.resize_grow R wf hx hn hroom hbad
  · obtain ⟨d, hrun, hev⟩ := VecCopy.resize_shrink (cfg := cfg) (x := x) R wf (show n < es.length by omega)
    refine ⟨d, w.heap, hrun, ?_⟩
    have : n - es.length = 0 := by omega
    simp only [this, List.replicate_zero, List.append_nil]
    exact ⟨hev.repr, hev.realloc, hev.cap_le, by have := hev.cap_bound; omega,
      fun h => hev.stay (Nat.zero_le _)⟩

example := C09_veccopy_resize_partial (cfg := ⟨true⟩) Ex.c123_repr Ex.w4_wf (n := 7) (x := Ex.a1) rfl
  (by unfold Room; decide) (by unfold BadGrowth; decide)

/-- The full claim of C09 for `VecCopy`. -/
def C09_veccopy_full : Prop :=
  ∀ (U V : Type) (Γ : TyEnv U) (t : TyId) (es : List Bytes) (c : VecCopy V) (w : World U) (cfg : Cfg)
    (n : Nat) (x : Bytes), Repr Γ w.heap t es c.data → w.heap.WF → x.length = Γ.size t →
    Room Γ t (max 8 (max (2 * c.data.cap) n)) →
    ∃ s', VecCopy.resize Γ cfg t n x (c, w) = (.ok (some ()), s') ∧
      Repr Γ s'.2.heap t (es.take n ++ List.replicate (n - es.length) x) s'.1.data

/-- One `[u8; 3]` in a container of capacity 1. -/
def Ex.bad3 : VecCopy Unit := ⟨Ex.vec 3 [[some 1, some 2, some 3]] 1, ()⟩

theorem Ex.bad3_repr : Repr Ex.env (Ex.world 3 1).heap 3 [[some 1, some 2, some 3]] Ex.bad3.data :=
  Ex.vec_repr (by decide) (by decide) (by decide) (by decide) (by unfold Room; decide)

theorem Ex.bad3_bad : BadGrowth Ex.env 3 Ex.bad3.data.cap (Ex.bad3.data.len + 1) := by
  unfold BadGrowth; decide

theorem C09_veccopy_resize_refuted : ¬ C09_veccopy_full := by
  intro h
  obtain ⟨s', hrun, -⟩ := h Ex.Log Unit Ex.env 3 [[some 1, some 2, some 3]] Ex.bad3 (Ex.world 3 1) ⟨true⟩ 2
    [some 7, some 7, some 7] Ex.bad3_repr (Ex.oneHeap_wf _) rfl (by unfold Room; decide)
  obtain ⟨i, h', hres, -⟩ := VecVoid.reserve_bad (cfg := ⟨true⟩) (w := Ex.world 3 1) Ex.bad3_repr
    (Ex.oneHeap_wf _) (n := 1) Ex.bad3_bad
  have hle : Ex.bad3.len ≤ 2 := by decide
  have h1 : 2 - Ex.bad3.len = 1 := by decide
  simp only [VecCopy.resize, M.bind_run, getSelf_run, VecCopy.checkRef_some Ex.bad3_repr, if_pos hle, h1,
    VecCopy.onData_run, hres] at hrun
  cases hrun

/-! ### C10 clear and fill -/

theorem C10_veccopy_clear (R : Repr Γ w.heap t es c.data) (wf : w.heap.WF) :
    ∃ d, VecCopy.clear Γ cfg (c, w) = (.ok (), ({ c with data := d }, w)) ∧
      Evolves Γ t 0 [] w.heap c.data w.heap d := by
  refine ⟨_, VecCopy.clear_ok R, ?_⟩
  exact Evolves.setContent R wf (by simp) (by simp) rfl rfl rfl

example := C10_veccopy_clear (cfg := ⟨true⟩) Ex.c123_repr Ex.w4_wf

theorem C10_veccopy_fill (R : Repr Γ w.heap t es c.data) (wf : w.heap.WF) {x : Bytes}
    (hx : x.length = Γ.size t) :
    ∃ d, VecCopy.fill Γ t x (c, w) = (.ok (some ()), ({ c with data := d }, w)) ∧
      Evolves Γ t 0 (List.replicate es.length x) w.heap c.data w.heap d :=
  VecCopy.fill_ok R wf hx

example := C10_veccopy_fill Ex.c123_repr Ex.w4_wf (x := Ex.a1) rfl

/-! ### C11 rotation -/

/-- Rotations permute whole elements, for all element types with alignment up to 8192. -/
theorem C11_veccopy_rotate_partial (R : Repr Γ w.heap t es c.data) (wf : w.heap.WF) {n : Nat}
    (hn : n ≤ es.length) (ha : Γ.align t ≤ 8192) :
    (∃ d, VecCopy.rotateLeft Γ cfg n (c, w) = (.ok (), ({ c with data := d }, w)) ∧
      Evolves Γ t 0 (es.drop n ++ es.take n) w.heap c.data w.heap d) ∧
    (∃ d, VecCopy.rotateRight Γ cfg n (c, w) = (.ok (), ({ c with data := d }, w)) ∧
      Evolves Γ t 0 (es.drop (es.length - n) ++ es.take (es.length - n)) w.heap c.data w.heap d) :=
  ⟨VecCopy.rotateLeft_ok R wf hn ha, VecCopy.rotateRight_ok R wf hn ha⟩

example := C11_veccopy_rotate_partial (cfg := ⟨true⟩) Ex.c123_repr Ex.w4_wf (n := 2) (by decide) (by decide)

/-- `rotate_right(n)` undoes `rotate_left(n)`. -/
theorem C11_veccopy_rotate_inverse (R : Repr Γ w.heap t es c.data) (wf : w.heap.WF) {n : Nat}
    (hn : n ≤ es.length) (ha : Γ.align t ≤ 8192) :
    (do VecCopy.rotateLeft Γ cfg n; VecCopy.rotateRight Γ cfg n : M (VecCopy V × World U) Unit) (c, w) =
      (.ok (), (c, w)) := by
  obtain ⟨d, h1, e1⟩ := VecCopy.rotateLeft_ok (cfg := cfg) R wf hn ha
  obtain ⟨d2, h2, e2⟩ := VecCopy.rotateRight_ok (cfg := cfg) (c := { c with data := d }) e1.repr wf
    (n := n) (by simp; omega) ha
  rw [M.bind_ok h1, h2]
  have hl : (es.drop n ++ es.take n).length - n = (es.drop n).length := by simp; omega
  rw [hl, List.drop_left, List.take_left, List.take_append_drop] at e2
  have := e2.repr.eta
  have hc := R.eta
  have hp : d2.ptr = c.data.ptr := (e2.stay (Nat.zero_le _)).1.trans (e1.stay (Nat.zero_le _)).1
  have hcap : d2.cap = c.data.cap := (e2.stay (Nat.zero_le _)).2.1.trans (e1.stay (Nat.zero_le _)).2.1
  have he : d2.elem = c.data.elem := by rw [e2.repr.elem_eq, R.elem_eq]
  rw [hp, hcap, he, ← hc] at this
  rw [this]

example := C11_veccopy_rotate_inverse (cfg := ⟨true⟩) Ex.c123_repr Ex.w4_wf (n := 2) (by decide) (by decide)

/-- The full claim of C11 for `VecCopy::rotate_left`. -/
def C11_veccopy_full : Prop :=
  ∀ (U V : Type) (Γ : TyEnv U) (t : TyId) (es : List Bytes) (c : VecCopy V) (w : World U) (cfg : Cfg)
    (n : Nat), Repr Γ w.heap t es c.data → w.heap.WF → n ≤ es.length →
    ∃ s', VecCopy.rotateLeft Γ cfg n (c, w) = (.ok (), s') ∧
      Repr Γ s'.2.heap t (es.drop n ++ es.take n) s'.1.data

/-- An empty container of an over-aligned type. -/
def Ex.over : VecCopy Unit := ⟨Ex.vec 6 [] 1, ()⟩
theorem Ex.over_repr : Repr Ex.env (Ex.world 6 1).heap 6 [] Ex.over.data :=
  Ex.vec_repr (by decide) (by decide) (by decide) (by decide) (by unfold Room; decide)

/-- Rotation always panics for alignments above 8192. -/
theorem C11_veccopy_rotate_overaligned (R : Repr Γ w.heap t es c.data) (ha : 8192 < Γ.align t) (n : Nat) :
    VecCopy.rotateLeft Γ cfg n (c, w) = (.panic .unreachable, (c, w)) ∧
    VecCopy.rotateRight Γ cfg n (c, w) = (.panic .unreachable, (c, w)) := by
  constructor
  · simp only [VecCopy.rotateLeft, VecCopy.onData_run, VecVoid.rotateLeft_overaligned R ha]
  · simp only [VecCopy.rotateRight, VecCopy.onData_run, VecVoid.rotateRight_overaligned R ha]

theorem C11_veccopy_rotate_refuted : ¬ C11_veccopy_full := by
  intro h
  obtain ⟨s', hrun, -⟩ := h Ex.Log Unit Ex.env 6 [] Ex.over (Ex.world 6 1) ⟨true⟩ 0 Ex.over_repr
    (Ex.oneHeap_wf _) (Nat.le_refl _)
  have := (C11_veccopy_rotate_overaligned (cfg := ⟨true⟩) Ex.over_repr (by decide) 0).1
  rw [this] at hrun
  cases hrun

/-! ### C12 copy_from_slice -/

/-- `VecCopy::copy_from_slice` of a slice of the same length overwrites all elements. -/
theorem C12_veccopy_copy_from_slice_partial (R : Repr Γ w.heap t es c.data) (wf : w.heap.WF)
    {src : List Bytes} (hs : ∀ e ∈ src, e.length = Γ.size t) (hl : src.length = es.length) :
    ∃ d, VecCopy.copyFromSlice Γ cfg t src (c, w) = (.ok (some ()), ({ c with data := d }, w)) ∧
      Evolves Γ t 0 src w.heap c.data w.heap d := by
  refine VecCopy.asMutSlice_ok R wf hs hl ?_
  intro s hs' _
  rw [hs'.copyFromSlice hs hl]
  exact ⟨rfl, rfl⟩

example := C12_veccopy_copy_from_slice_partial (cfg := ⟨true⟩) Ex.c123_repr Ex.w4_wf
  (src := [Ex.a3, Ex.a3, Ex.a1]) (by decide) rfl

/-- A slice of any other length panics; the container is unchanged. The documentation promises that
a longer slice extends the container. -/
theorem C12_veccopy_copy_from_slice_other_len (R : Repr Γ w.heap t es c.data)
    {src : List Bytes} (hl : src.length ≠ es.length) :
    VecCopy.copyFromSlice Γ cfg t src (c, w) = (.panic .lenMismatch, (c, w)) := by
  obtain ⟨s, hs, hvt, hrun⟩ := VecCopy.asMutSlice_run R (SliceCopy.copyFromSlice Γ cfg t src)
  simp only [VecCopy.copyFromSlice, hrun, hs.copyFromSlice_len hl]
  rw [splice_whole (by rw [hs.data, R.mem]), hs.data, ← R.mem]

/-- The documented claim: the container starts with the slice afterwards, whatever its length. -/
def C12_veccopy_full : Prop :=
  ∀ (U V : Type) (Γ : TyEnv U) (t : TyId) (es src : List Bytes) (c : VecCopy V) (w : World U) (cfg : Cfg),
    Repr Γ w.heap t es c.data → w.heap.WF → (∀ e ∈ src, e.length = Γ.size t) →
    ∃ s', VecCopy.copyFromSlice Γ cfg t src (c, w) = (.ok (some ()), s') ∧
      Repr Γ s'.2.heap t (src ++ es.drop src.length) s'.1.data

theorem C12_veccopy_refuted : ¬ C12_veccopy_full := by
  intro h
  obtain ⟨s', hrun, -⟩ := h _ Unit Ex.env 2 _ [Ex.a1] Ex.c123 (Ex.world 2 4) ⟨true⟩ Ex.c123_repr Ex.w4_wf (by decide)
  rw [C12_veccopy_copy_from_slice_other_len Ex.c123_repr (by decide)] at hrun
  cases hrun

/-! ### C13 reserve -/

/-- `reserve` keeps the content and makes room, except in the `BadGrowth` case. -/
theorem C13_veccopy_reserve_partial (R : Repr Γ w.heap t es c.data) (wf : w.heap.WF) {n : Nat}
    (hroom : Room Γ t (max 8 (max (2 * c.data.cap) (es.length + n))))
    (hbad : ¬ BadGrowth Γ t c.data.cap (es.length + n)) :
    ∃ d h', VecCopy.reserve Γ cfg n (c, w) = (.ok (), ({ c with data := d }, { w with heap := h' })) ∧
      Evolves Γ t (es.length + n) es w.heap c.data h' d ∧ es.length + n ≤ d.cap :=
  VecCopy.reserve_ok R wf hroom hbad

example := C13_veccopy_reserve_partial (cfg := ⟨true⟩) Ex.c123_repr Ex.w4_wf (n := 17)
  (by unfold Room; decide) (by unfold BadGrowth; decide)

/-- In the remaining case `reserve` panics and the container loses its content and element type. -/
theorem C13_veccopy_reserve_bad (R : Repr Γ w.heap t es c.data) (wf : w.heap.WF) {n : Nat}
    (hbad : BadGrowth Γ t c.data.cap (es.length + n)) :
    ∃ h', VecCopy.reserve Γ cfg n (c, w) =
      (.panic .assertion, ({ c with data := VecVoid.default Γ }, { w with heap := h' })) := by
  rw [← R.len] at hbad
  obtain ⟨i, h', hres, -⟩ := VecVoid.reserve_bad (cfg := cfg) R wf hbad
  exact ⟨h', by simp only [VecCopy.reserve, VecCopy.onData_run, hres]⟩

/-- The full claim of C13. -/
def C13_veccopy_full : Prop :=
  ∀ (U V : Type) (Γ : TyEnv U) (t : TyId) (es : List Bytes) (c : VecCopy V) (w : World U) (cfg : Cfg)
    (n : Nat), Repr Γ w.heap t es c.data → w.heap.WF →
    Room Γ t (max 8 (max (2 * c.data.cap) (es.length + n))) →
    ∃ s', VecCopy.reserve Γ cfg n (c, w) = (.ok (), s') ∧ Repr Γ s'.2.heap t es s'.1.data

theorem C13_veccopy_refuted : ¬ C13_veccopy_full := by
  intro h
  obtain ⟨s', hrun, -⟩ := h Ex.Log Unit Ex.env 3 [[some 1, some 2, some 3]] Ex.bad3 (Ex.world 3 1) ⟨false⟩ 1
    Ex.bad3_repr (Ex.oneHeap_wf _) (by unfold Room; decide)
  obtain ⟨h', hres⟩ := C13_veccopy_reserve_bad (cfg := ⟨false⟩) Ex.bad3_repr (Ex.oneHeap_wf _) (n := 1)
    Ex.bad3_bad
  rw [hres] at hrun
  cases hrun

/-! ### C15 clone -/

/-- `clone` yields an equal container (content, type, capacity, table) in a fresh block; the original
stays healthy, no other block changes, no user code runs. -/
theorem C15_veccopy_clone (R : Repr Γ w.heap t es c.data) (wf : w.heap.WF) :
    ∃ c' h', VecCopy.clone cfg c w = (.ok c', { w with heap := h' }) ∧
      Repr Γ h' t es c'.data ∧ Repr Γ h' t es c.data ∧ c'.vtable = c.vtable ∧
      c'.capacity = c.capacity ∧ c'.data.ptr ≠ c.data.ptr ∧ h'.WF ∧
      (∀ j, some j ≠ c'.data.ptr → h'.live j = w.heap.live j) := by
  have hne : (⟨c.data.cap * Γ.size t, Γ.align t⟩ : Layout).size ≠ 0 :=
    Nat.mul_ne_zero (by have := R.cap_pos; omega) (by have := R.pos; omega)
  have hother : ∀ j, some j ≠ some w.heap.next →
      (w.heap.alloc ⟨c.data.cap * Γ.size t, Γ.align t⟩).2.live j = w.heap.live j := by
    intro j hj
    have hj' : j ≠ w.heap.next := fun e => hj (by rw [e])
    simp only [Heap.alloc]
    split
    · rfl
    · simp [hj']
  refine ⟨⟨⟨some w.heap.next, c.data.len, c.data.cap, c.data.elem, c.data.mem⟩, c.vtable⟩, _, ?_, ?_, ?_,
    rfl, rfl, ?_, wf.alloc _, hother⟩
  · simp only [VecCopy.clone, M.bind_run, VecVoid.clone_spec R, M.pure_run]
  · exact ⟨R.type_id, R.chunks, R.align, R.pos, R.mem, R.each, R.len, R.len_le, R.cap_pos, R.room,
      w.heap.next, rfl, (Heap.alloc_live hne).2⟩
  · apply R.frame
    intro i hi
    apply hother
    intro e; cases e
    have := R.ptr_lt wf _ hi; omega
  · intro e
    have := R.ptr_lt wf w.heap.next e.symm; omega

example := C15_veccopy_clone (cfg := ⟨true⟩) Ex.c123_repr Ex.w4_wf

/-- Both containers can be dropped afterwards, in either order, and the heap is as before minus the
original's block. -/
theorem C15_veccopy_clone_then_drop (R : Repr Γ w.heap t es c.data) (wf : w.heap.WF) :
    ∃ i h', c.data.ptr = some i ∧
      (do let c' ← VecCopy.clone cfg c; c'.drop cfg; c.drop cfg : M (World U) Unit) w =
        (.ok (), { w with heap := h' }) ∧ ∀ j, h'.live j = if j = i then none else w.heap.live j := by
  obtain ⟨c', h', hcl, hR', hR, -, -, hne, hwf, hoth⟩ := C15_veccopy_clone (cfg := cfg) R wf
  obtain ⟨i', hp', hd'⟩ := VecVoid.drop_spec (cfg := cfg) (w := { w with heap := h' }) hR'
  obtain ⟨i0, hp0, -⟩ := R.block
  have hii : i0 ≠ i' := by
    intro e; apply hne; rw [hp', hp0, e]
  have hR2 : Repr Γ (h'.free i') t es c.data := by
    apply hR.frame
    intro k hk
    rw [hp0] at hk; cases hk
    simp [Heap.free, hii]
  obtain ⟨i, hp, hd⟩ := VecVoid.drop_spec (cfg := cfg) (w := ⟨h'.free i', w.user⟩) hR2
  rw [hp0] at hp; cases hp
  refine ⟨i0, (h'.free i').free i0, hp0, ?_, ?_⟩
  · rw [M.bind_ok hcl, M.bind_ok (s' := ⟨h'.free i', w.user⟩) (a := ())]
    · exact hd
    · exact hd'
  · intro j
    simp only [Heap.free]
    by_cases h1 : j = i0
    · simp [h1]
    · simp only [h1, if_false]
      by_cases h2 : j = i'
      · subst h2
        simp only [if_true]
        have hfresh : w.heap.live j = none := by
          -- the clone's block was not live before
          have : w.heap.next ≤ j := by
            have hc' : VecCopy.clone cfg c w = (.ok ⟨⟨some w.heap.next, c.data.len, c.data.cap, c.data.elem,
              c.data.mem⟩, c.vtable⟩, { w with heap := (w.heap.alloc ⟨c.data.cap * Γ.size t, Γ.align t⟩).2 }) := by
              simp only [VecCopy.clone, M.bind_run, VecVoid.clone_spec R, M.pure_run]
            rw [hc'] at hcl
            injection hcl with e1 _
            injection e1 with e1
            rw [← e1] at hp'
            injection hp' with e2
            omega
          exact wf j this
        rw [hfresh]
      · simp only [h2, if_false]
        exact hoth j (by rw [hp']; exact fun e => h2 (by injection e))

example := C15_veccopy_clone_then_drop (cfg := ⟨true⟩) Ex.c123_repr Ex.w4_wf

/-! ### C46 with_type_from -/

/-- `with_type_from` with the information of any type of non-zero size creates an empty container of
exactly this type (with room for one element) and the given table. -/
theorem C46_with_type_from (hpos : 0 < Γ.size t) (wf : w.heap.WF) (vt : V) :
    ∃ c h', VecCopy.withTypeFrom ⟨ElemInfo.new Γ t, vt⟩ w = (.ok c, { w with heap := h' }) ∧
      Repr Γ h' t [] c.data ∧ c.vtable = vt ∧ c.capacity = 1 ∧ Realloc w.heap none h' c.data.ptr := by
  have ha := align_pos Γ t
  have hal : (ElemInfo.new Γ t).alignment = Γ.align t := rfl
  have hsz : (ElemInfo.new Γ t).size * Γ.align t = Γ.size t := Nat.div_mul_cancel (Γ.align_dvd t)
  have hne : Γ.align t ≠ 0 := by omega
  have hs0 : (ElemInfo.new Γ t).size ≠ 0 := by
    intro e; rw [e, Nat.zero_mul] at hsz; omega
  have hroom := room_one Γ hpos
  have hr : Γ.size t + (Γ.align t - 1) ≤ isizeMax := by unfold Room at hroom; omega
  have hz : (⟨Γ.size t, Γ.align t⟩ : Layout).size ≠ 0 := by simp only; omega
  have e1 : (w.heap.alloc ⟨Γ.size t, Γ.align t⟩).1 = some w.heap.next := (Heap.alloc_live hz).1
  refine ⟨⟨⟨some w.heap.next, 0, 1, ElemInfo.new Γ t, []⟩, vt⟩, (w.heap.alloc ⟨Γ.size t, Γ.align t⟩).2,
    ?_, ?_, rfl, rfl, e1 ▸ Realloc.ofAlloc wf _⟩
  · simp only [VecCopy.withTypeFrom, hal, evalAlign_align, M.bind_run, RVec.withCapacity, hne, if_false,
      hsz, hr, if_true, e1]
    have := fromVecOverride_ok (σ := World U) (a := Γ.align t)
      (v := ⟨some w.heap.next, 0, (ElemInfo.new Γ t).size, []⟩) (e := ElemInfo.new Γ t) (n := 0) (c := 1)
      ha rfl (Nat.pos_of_ne_zero hs0) (by simp) (by simp) (by decide)
    rw [this]
    rfl
  · exact ⟨rfl, hsz, rfl, hpos, rfl, by simp, rfl, Nat.zero_le _, Nat.one_pos, hroom, w.heap.next, rfl, by
      simp only [Nat.one_mul]; exact (Heap.alloc_live hz).2⟩

example := C46_with_type_from (Γ := Ex.env) (t := 4) (w := Ex.world 2 4) (by decide) Ex.w4_wf ()

/-- The information recorded in a container, a slice and a value of type `t` is that of `t`. -/
theorem C46_meta {h : Heap} (R : Repr Γ h t es c.data) {e : Bytes} (he : e ∈ es) {s : SliceCopy V}
    (S : SRepr Γ t es s) :
    c.toMeta = ⟨ElemInfo.new Γ t, c.vtable⟩ ∧
    Meta.ofValue e t (Γ.align t) c.vtable = ⟨ElemInfo.new Γ t, c.vtable⟩ ∧
    s.elem = ElemInfo.new Γ t := by
  refine ⟨by simp [VecCopy.toMeta, R.elem_eq], ?_, S.elem⟩
  simp [Meta.ofValue, ElemInfo.new, R.each e he]

/-! ### C47 raw parts -/

theorem C47_raw_parts_veccopy (c : VecCopy V) :
    VecCopy.fromRawParts c.intoRawParts.1 c.intoRawParts.2 = c ∧
    ∀ d vt, (VecCopy.fromRawParts (V := V) d vt).intoRawParts = (d, vt) := ⟨rfl, fun _ _ => rfl⟩

theorem C47_raw_parts_slicecopy (s : SliceCopy V) :
    SliceCopy.fromRawParts s.intoRawParts.1 s.intoRawParts.2.1 s.intoRawParts.2.2 = s := rfl

end Dync
