import Verif.AnyGrowth
import Verif.Props.Example
/-!
# C92 Which results do not depend on how `Vec` chooses capacities

The other theorems about growing fix the choice the current standard library makes. Here they are proved
for every choice that keeps the documented promise of `Vec` ("at least"), and where the code does rely on
more than that promise, the exact condition on the choice is given.
-/
namespace Dync
variable {U V α : Type}

/-! ### Specification -/

/-- Number of alignment-sized units per element. -/
def unitsPer (Γ : TyEnv U) (t : TyId) : Nat := Γ.size t / Γ.align t

/-- The layout of one alignment-sized unit; untyped growth happens in such units. -/
def unitLayout (Γ : TyEnv U) (t : TyId) : Layout := ⟨Γ.align t, Γ.align t⟩

/-- The capacity, in units, that `Vec` chooses when a container of capacity `cap` has to hold `need`
elements. -/
def VecPolicy.unitCap (P : VecPolicy) (Γ : TyEnv U) (h : Heap) (t : TyId) (cap need : Nat) : Nat :=
  P.grow h (unitLayout Γ t) (cap * unitsPer Γ t) (need * unitsPer Γ t)

/-- `k` units fit into the address space. -/
def UnitRoom (Γ : TyEnv U) (t : TyId) (k : Nat) : Prop := k * Γ.align t + (Γ.align t - 1) ≤ isizeMax

/-- The vector `v` in heap `h` became `v'` in heap `h'`, which holds `es'` and has room for `need` elements.
All blocks other than the vector's own are untouched. -/
structure GrowsTo (Γ : TyEnv U) (t : TyId) (need : Nat) (es' : List Bytes)
    (h : Heap) (v : VecVoid) (h' : Heap) (v' : VecVoid) : Prop where
  repr : Repr Γ h' t es' v'
  realloc : Realloc h v.ptr h' v'.ptr
  cap_le : v.cap ≤ v'.cap
  need_le : need ≤ v'.cap

/-- A choice of capacities that keeps whole numbers whole: if the old capacity and the need are multiples of
a number, so is the new capacity. Doubling does that; rounding up to a power of two or to the size classes
of an allocator does not. -/
def VecPolicy.Whole (P : VecPolicy) : Prop :=
  (∀ h T cap need s, s ∣ cap → s ∣ need → cap < need → s ∣ P.grow h T cap need) ∧
  (∀ h T n s, s ∣ n → s ∣ P.initial h T n)

/-! ### Growing in units -/

section
variable {Γ : TyEnv V} {t : TyId} {es es' : List Bytes} {v : VecVoid} {w : World U} {cfg : Cfg} {P : VecPolicy}

theorem Repr.units {h : Heap} (R : Repr Γ h t es v) : v.elem.size = unitsPer Γ t := by
  rw [R.elem_eq]; rfl

theorem unitsPer_mul {h : Heap} (R : Repr Γ h t es v) (n : Nat) :
    n * unitsPer Γ t * Γ.align t = n * Γ.size t := by rw [← R.units, Nat.mul_assoc, R.chunks]

theorem RVec.reserveP_fit {T : Layout} {v : RVec} {w : World U} {n : Nat} (h : n ≤ v.cap - v.len) :
    RVec.reserveP P T n (v, w) = (.ok (), (v, w)) := by
  simp [RVec.reserveP, Nat.not_lt.2 h]

theorem RVec.growP_ok {T : Layout} {v : RVec} {w : World U} {n i : Nat}
    (hT : T.size ≠ 0) (hc : v.cap ≠ 0) (hp : v.ptr = some i)
    (hl : w.heap.live i = some ⟨v.cap * T.size, T.align⟩)
    (hroom : P.grow w.heap T v.cap (v.len + n) * T.size + (T.align - 1) ≤ isizeMax) :
    RVec.growP P T n (v, w) = (.ok (),
      ({ v with ptr := ((w.heap.free i).alloc ⟨P.grow w.heap T v.cap (v.len + n) * T.size, T.align⟩).1,
                cap := P.grow w.heap T v.cap (v.len + n) },
       { w with heap :=
          ((w.heap.free i).alloc ⟨P.grow w.heap T v.cap (v.len + n) * T.size, T.align⟩).2 })) := by
  have hle := P.grow_ge w.heap T v.cap (v.len + n)
  have h1 : v.len + n ≤ usizeMax := by
    have := Nat.le_mul_of_pos_right (P.grow w.heap T v.cap (v.len + n)) (Nat.pos_of_ne_zero hT)
    have : isizeMax ≤ usizeMax := by decide
    omega
  have hpos : v.cap * T.size ≠ 0 := Nat.mul_ne_zero hc hT
  simp [RVec.growP, hT, Nat.not_lt.2 h1, Nat.not_lt.2 hroom, realloc, hp, dealloc_live hl hpos]

theorem RVec.growP_full {T : Layout} {v : RVec} {w : World U} {n : Nat}
    (hroom : isizeMax < P.grow w.heap T v.cap (v.len + n) * T.size + (T.align - 1)) :
    RVec.growP P T n (v, w) = (.panic .capacity, (v, w)) := by
  by_cases hT : T.size = 0
  · simp [RVec.growP, hT]
  · by_cases h1 : usizeMax < v.len + n
    · simp [RVec.growP, hT, h1]
    · simp [RVec.growP, hT, h1, hroom]

/-- `Vec::reserve` on the unit view, when it has to grow and the choice fits. -/
theorem reserveP_unit (R : Repr Γ w.heap t es v) (wf : w.heap.WF) {n : Nat} (hn : v.cap < v.len + n)
    (hfit : UnitRoom Γ t (P.unitCap Γ w.heap t v.cap (v.len + n))) :
    ∃ i h', RVec.reserveP P ⟨Γ.align t, Γ.align t⟩ (n * v.elem.size) (v.chunkView, w) =
        (.ok (), (⟨some i, v.len * v.elem.size, P.unitCap Γ w.heap t v.cap (v.len + n), v.mem⟩,
          { w with heap := h' })) ∧
      Realloc w.heap v.ptr h' (some i) ∧
      h'.live i = some ⟨P.unitCap Γ w.heap t v.cap (v.len + n) * Γ.align t, Γ.align t⟩ := by
  have hs := R.chunk_pos
  have ha := align_pos Γ t
  obtain ⟨i, hp, hl⟩ := R.chunkBlock
  have hk : P.grow w.heap ⟨Γ.align t, Γ.align t⟩ v.chunkView.cap (v.chunkView.len + n * v.elem.size) =
      P.unitCap Γ w.heap t v.cap (v.len + n) := by
    simp only [VecPolicy.unitCap, unitLayout, ← R.units, VecVoid.chunkView, ← Nat.add_mul]
  have hge : (v.len + n) * v.elem.size ≤ P.unitCap Γ w.heap t v.cap (v.len + n) := by
    rw [R.units]; exact P.grow_ge _ _ _ _
  have hk0 : P.unitCap Γ w.heap t v.cap (v.len + n) ≠ 0 := by
    have : 0 < (v.len + n) * v.elem.size := Nat.mul_pos (by omega) hs
    omega
  have hg := RVec.growP_ok (P := P) (T := ⟨Γ.align t, Γ.align t⟩) (v := v.chunkView) (w := w)
    (n := n * v.elem.size) (i := i) (by simp only; omega)
    (by simp only [VecVoid.chunkView]; exact Nat.mul_ne_zero (by have := R.cap_pos; omega) (by omega))
    hp hl (by rw [hk]; exact hfit)
  rw [hk] at hg
  have hlt : v.chunkView.cap - v.chunkView.len < n * v.elem.size := by
    simp only [VecVoid.chunkView]
    rw [← Nat.sub_mul]
    have := R.len_le
    exact Nat.mul_lt_mul_of_pos_right (by omega) hs
  have hne : (⟨P.unitCap Γ w.heap t v.cap (v.len + n) * Γ.align t, Γ.align t⟩ : Layout).size ≠ 0 :=
    Nat.mul_ne_zero hk0 (by omega)
  refine ⟨(w.heap.free i).next, ((w.heap.free i).alloc
    ⟨P.unitCap Γ w.heap t v.cap (v.len + n) * Γ.align t, Γ.align t⟩).2, ?_, ?_, (Heap.alloc_live hne).2⟩
  · simp only [RVec.reserveP, M.bind_run, M.get_run, if_pos hlt, hg, (Heap.alloc_live hne).1]
    rfl
  · have := Realloc.of_free_alloc wf hl hne
    rw [(Heap.alloc_live hne).1] at this
    rw [hp]; exact this

/-- … and when it does not fit. -/
theorem reserveP_unit_full (R : Repr Γ w.heap t es v) {n : Nat} (hn : v.cap < v.len + n)
    (hfit : ¬ UnitRoom Γ t (P.unitCap Γ w.heap t v.cap (v.len + n))) :
    RVec.reserveP P ⟨Γ.align t, Γ.align t⟩ (n * v.elem.size) (v.chunkView, w) =
        (.panic .capacity, (v.chunkView, w)) := by
  have hs := R.chunk_pos
  have hk : P.grow w.heap ⟨Γ.align t, Γ.align t⟩ v.chunkView.cap (v.chunkView.len + n * v.elem.size) =
      P.unitCap Γ w.heap t v.cap (v.len + n) := by
    simp only [VecPolicy.unitCap, unitLayout, ← R.units, VecVoid.chunkView, ← Nat.add_mul]
  have hlt : v.chunkView.cap - v.chunkView.len < n * v.elem.size := by
    simp only [VecVoid.chunkView]
    rw [← Nat.sub_mul]
    have := R.len_le
    exact Nat.mul_lt_mul_of_pos_right (by omega) hs
  simp only [RVec.reserveP, M.bind_run, M.get_run, if_pos hlt]
  apply RVec.growP_full
  rw [hk]
  unfold UnitRoom at hfit
  simp only; omega

theorem umul_need {σ : Type} {h : Heap} (R : Repr Γ h t es v) {n : Nat} (hroom : Room Γ t (v.len + n)) (s : σ) :
    umul cfg n v.elem.size s = (.ok (n * v.elem.size), s) := umul_room_ok R hroom (by omega) s

/-- A grown healthy vector. -/
theorem Repr.grown {h h' : Heap} (R : Repr Γ h t es v) {i k need : Nat} (hd : unitsPer Γ t ∣ k)
    (hge : need * unitsPer Γ t ≤ k) (hn : v.cap ≤ need) (hfit : UnitRoom Γ t k)
    (hl : h'.live i = some ⟨k * Γ.align t, Γ.align t⟩) (hre : Realloc h v.ptr h' (some i)) :
    GrowsTo Γ t need es h v h' ⟨some i, v.len, k / unitsPer Γ t, v.elem, v.mem⟩ := by
  have hs : 0 < unitsPer Γ t := by rw [← R.units]; exact R.chunk_pos
  obtain ⟨q, rfl⟩ := hd
  have hq : unitsPer Γ t * q / unitsPer Γ t = q := Nat.mul_div_cancel_left _ hs
  have hnq : need ≤ q := by
    rw [Nat.mul_comm] at hge; exact Nat.le_of_mul_le_mul_left hge hs
  have e1 : unitsPer Γ t * q * Γ.align t = q * Γ.size t := by
    rw [Nat.mul_comm (unitsPer Γ t)]; exact unitsPer_mul R q
  have := R.cap_pos
  have := R.len_le
  refine ⟨⟨R.type_id, R.chunks, R.align, R.pos, R.mem, R.each, R.len, ?_, ?_, ?_, ⟨i, rfl, ?_⟩⟩, hre, ?_, ?_⟩
  · simp only [hq]; omega
  · simp only [hq]; omega
  · simp only [hq]; unfold Room; rw [← e1]; exact hfit
  · simp only [hq]; rw [hl, e1]
  · simp only [hq]; omega
  · simp only [hq]; omega

end

/-! ### C92 `reserve` -/

section
variable {Γ : TyEnv U} {t : TyId} {es es' : List Bytes} {c : VecCopy V} {w : World U} {cfg : Cfg}

/-- The container after its content has been lost. -/
def VecCopy.lost (Γ : TyEnv U) (c : VecCopy V) : VecCopy V := { c with data := VecVoid.default Γ }

/-- `reserve` when the additional elements fit already: nothing happens, whatever `Vec` does when it grows. -/
theorem C92_veccopy_reserve_fits (P : VecPolicy) (R : Repr Γ w.heap t es c.data) {n : Nat}
    (hn : es.length + n ≤ c.data.cap) :
    VecCopy.reserveP P Γ cfg n (c, w) = (.ok (), (c, w)) := by
  have hl := R.len
  have hv : VecVoid.reserveP P Γ cfg n (c.data, w) = (.ok (), (c.data, w)) := by
    simp only [VecVoid.reserveP, M.bind_run, getSelf_run, R.align, evalAlign_align]
    rw [applyAligned_ok (n := c.data.len) (c := c.data.cap) (v' := c.data.chunkView) (w' := w) (out := ()) R ?_ rfl rfl
      R.cap_pos]
    · rfl
    · simp only [M.bind_run, umul_need R (R.room.mono (by omega : c.data.len + n ≤ c.data.cap))]
      apply RVec.reserveP_fit
      simp only [VecVoid.chunkView]
      rw [← Nat.sub_mul]; exact Nat.mul_le_mul_right _ (by omega)
  simp only [VecCopy.reserveP, VecCopy.onData_run, hv]

/-- `reserve` when it has to grow, for every choice of capacities. It succeeds, with the content intact and
the room that was asked for, if the capacity `Vec` chooses (in alignment units) is a whole number of
elements. If it is not, the call panics, the content is lost, and the new buffer leaks. If the choice does
not fit into the address space the call panics, the content is lost, and the old buffer is freed. -/
theorem C92_veccopy_reserve (P : VecPolicy) (R : Repr Γ w.heap t es c.data) (wf : w.heap.WF) {n : Nat}
    (hn : c.data.cap < es.length + n) (hroom : Room Γ t (es.length + n)) :
    let k := P.unitCap Γ w.heap t c.data.cap (es.length + n)
    (UnitRoom Γ t k → unitsPer Γ t ∣ k →
      ∃ d h', VecCopy.reserveP P Γ cfg n (c, w) = (.ok (), ({ c with data := d }, { w with heap := h' })) ∧
        GrowsTo Γ t (es.length + n) es w.heap c.data h' d ∧ d.cap * unitsPer Γ t = k) ∧
    (UnitRoom Γ t k → ¬ unitsPer Γ t ∣ k →
      ∃ i h', VecCopy.reserveP P Γ cfg n (c, w) =
          (.panic .assertion, (c.lost Γ, { w with heap := h' })) ∧
        Realloc w.heap c.data.ptr h' (some i) ∧ h'.live i = some ⟨k * Γ.align t, Γ.align t⟩) ∧
    (¬ UnitRoom Γ t k →
      ∃ i, c.data.ptr = some i ∧ VecCopy.reserveP P Γ cfg n (c, w) =
          (.panic .capacity, (c.lost Γ, { w with heap := w.heap.free i }))) := by
  have hl := R.len
  rw [← hl] at hn hroom ⊢
  have hum := umul_need (cfg := cfg) R hroom (c.data.chunkView, w)
  have hu := R.units
  have hs : 0 < unitsPer Γ t := by rw [← hu]; exact R.chunk_pos
  have hge : (c.data.len + n) * unitsPer Γ t ≤ P.unitCap Γ w.heap t c.data.cap (c.data.len + n) :=
    P.grow_ge _ _ _ _
  refine ⟨fun hfit hd => ?_, fun hfit hd => ?_, fun hfit => ?_⟩
  · obtain ⟨i, h', hrun, hre, hlive⟩ := reserveP_unit R wf hn hfit
    have hg := R.grown hd hge (by omega) hfit hlive hre
    have hcp := hg.repr.cap_pos
    refine ⟨_, h', ?_, hg, Nat.div_mul_cancel hd⟩
    have hv : VecVoid.reserveP P Γ cfg n (c.data, w) =
        (.ok (), (⟨some i, c.data.len, P.unitCap Γ w.heap t c.data.cap (c.data.len + n) / unitsPer Γ t,
          c.data.elem, c.data.mem⟩, { w with heap := h' })) := by
      simp only [VecVoid.reserveP, M.bind_run, getSelf_run, R.align, evalAlign_align]
      refine applyAligned_ok (n := c.data.len) (out := ()) (w' := { w with heap := h' })
        (c := P.unitCap Γ w.heap t c.data.cap (c.data.len + n) / unitsPer Γ t)
        (v' := ⟨some i, c.data.len * c.data.elem.size, P.unitCap Γ w.heap t c.data.cap (c.data.len + n),
          c.data.mem⟩) R ?_ rfl ?_ hcp
      · simp only [M.bind_run, hum, hrun]
      · simp only [hu]; exact (Nat.div_mul_cancel hd).symm
    simp only [VecCopy.reserveP, VecCopy.onData_run, hv]
  · obtain ⟨i, h', hrun, hre, hlive⟩ := reserveP_unit R wf hn hfit
    refine ⟨i, h', ?_, hre, hlive⟩
    have hv : VecVoid.reserveP P Γ cfg n (c.data, w) =
        (.panic .assertion, (VecVoid.default Γ, { w with heap := h' })) := by
      simp only [VecVoid.reserveP, M.bind_run, getSelf_run, R.align, evalAlign_align]
      refine applyAligned_badCap (out := ()) (w' := { w with heap := h' })
        (v' := ⟨some i, c.data.len * c.data.elem.size, P.unitCap Γ w.heap t c.data.cap (c.data.len + n),
          c.data.mem⟩) R ?_ ?_ (by simp) ?_
      · simp only [M.bind_run, hum, hrun]
      · simp only [hu]
        have : 1 * unitsPer Γ t ≤ (c.data.len + n) * unitsPer Γ t := Nat.mul_le_mul_right _ (by omega)
        omega
      · simp only [hu]; exact fun e => hd (Nat.dvd_of_mod_eq_zero e)
    simp only [VecCopy.reserveP, VecCopy.onData_run, hv, VecCopy.lost]
  · have hrun := reserveP_unit_full (P := P) R hn hfit
    obtain ⟨i, hp, hd⟩ := R.dropChunk
    refine ⟨i, hp, ?_⟩
    have hv : VecVoid.reserveP P Γ cfg n (c.data, w) =
        (.panic .capacity, (VecVoid.default Γ, { w with heap := w.heap.free i })) := by
      simp only [VecVoid.reserveP, M.bind_run, getSelf_run, R.align, evalAlign_align]
      refine applyAligned_panic (y := .capacity) (v' := c.data.chunkView) (w' := w) R ?_ hd
      simp only [M.bind_run, hum, hrun]
    simp only [VecCopy.reserveP, VecCopy.onData_run, hv, VecCopy.lost]


/-! ### C92 `append` -/

/-- `append` when the elements fit already: no choice is made. -/
theorem C92_veccopy_append_fits {w : World (VecCopy V × U)} (P : VecPolicy) (R : Repr Γ w.heap t es c.data)
    (Ro : Repr Γ w.heap t es' w.user.1.data) (hn : es.length + es'.length ≤ c.data.cap) :
    VecCopy.appendP P Γ cfg (c, w) = VecCopy.append Γ cfg (c, w) := by
  have hl := R.len
  have hl' := Ro.len
  have helem : w.user.1.data.elem = c.data.elem := by rw [R.elem_eq, Ro.elem_eq]
  have hle : w.user.1.data.len * w.user.1.data.elem.size ≤
      c.data.cap * c.data.elem.size - c.data.len * c.data.elem.size := by
    rw [← Nat.sub_mul, helem]; exact Nat.mul_le_mul_right _ (by omega)
  have hty : w.user.1.elementTypeId = c.elementTypeId := by simp [VecCopy.elementTypeId, helem]
  obtain ⟨h0, o, u⟩ := w
  simp only at *
  have hv : VecVoid.appendP P Γ cfg (c.data, (⟨h0, (o.data, u)⟩ : World (VecVoid × U))) =
      VecVoid.append Γ cfg (c.data, (⟨h0, (o.data, u)⟩ : World (VecVoid × U))) := by
    have a1 : (c.data.elem.type_id == o.data.elem.type_id) = true := by simp [helem]
    simp only [VecVoid.appendP, VecVoid.append, M.bind_run, getSelf_run, M.get_run, a1, M.assert_true_run]
    rw [debugAssert_ok (by simp [helem])]
    simp only
    rw [debugAssert_ok (by simp [helem])]
    simp only [R.align, evalAlign_align, VecVoid.applyAligned, M.bind_run, getSelf_run, setSelf_run, R.alignedVec,
      onWorld_run, withLocal, swapRoles_run, Ro.alignedVec, M.get_run, RVec.appendP, RVec.append]
    rw [RVec.reserveP_fit (by simpa only [VecVoid.chunkView] using hle),
      RVec.reserve_fit (by simpa only [VecVoid.chunkView] using hle)]
  simp only [VecCopy.appendP, VecCopy.append, M.bind_run, getSelf_run, M.get_run, if_pos hty, M.zoom_run, hv]

/-- `append` when it has to grow, for every choice of capacities: as `reserve`, and in both failing cases the
content of *both* containers is lost. -/
theorem C92_veccopy_append {w : World (VecCopy V × U)} (P : VecPolicy) (R : Repr Γ w.heap t es c.data)
    (Ro : Repr Γ w.heap t es' w.user.1.data) (wf : w.heap.WF) (hne : c.data.ptr ≠ w.user.1.data.ptr)
    (hn : c.data.cap < es.length + es'.length) :
    let k := P.unitCap Γ w.heap t c.data.cap (es.length + es'.length)
    let emptied : VecVoid := ⟨w.user.1.data.ptr, 0, w.user.1.data.cap, w.user.1.data.elem, []⟩
    (UnitRoom Γ t k → unitsPer Γ t ∣ k →
      ∃ d h', VecCopy.appendP P Γ cfg (c, w) = (.ok (some ()), ({ c with data := d },
          ⟨h', ({ w.user.1 with data := emptied }, w.user.2)⟩)) ∧
        GrowsTo Γ t (es.length + es'.length) (es ++ es') w.heap c.data h' d ∧
        Repr Γ h' t [] emptied ∧ d.cap * unitsPer Γ t = k) ∧
    (UnitRoom Γ t k → ¬ unitsPer Γ t ∣ k →
      ∃ i h', VecCopy.appendP P Γ cfg (c, w) = (.panic .assertion, (c.lost Γ,
          ⟨h', ({ w.user.1 with data := emptied }, w.user.2)⟩)) ∧
        Realloc w.heap c.data.ptr h' (some i) ∧ h'.live i = some ⟨k * Γ.align t, Γ.align t⟩ ∧
        Repr Γ h' t [] emptied) ∧
    (¬ UnitRoom Γ t k →
      ∃ i j, c.data.ptr = some i ∧ w.user.1.data.ptr = some j ∧
        VecCopy.appendP P Γ cfg (c, w) = (.panic .capacity, (c.lost Γ,
          ⟨(w.heap.free j).free i, (w.user.1.lost Γ, w.user.2)⟩))) := by
  obtain ⟨h0, o, u⟩ := w
  simp only at *
  have hl := R.len
  have hl' := Ro.len
  rw [← hl, ← hl'] at hn ⊢
  have helem : o.data.elem = c.data.elem := by rw [R.elem_eq, Ro.elem_eq]
  have hty : o.elementTypeId = c.elementTypeId := by simp [VecCopy.elementTypeId, helem]
  have hu := R.units
  have hs : 0 < unitsPer Γ t := by rw [← hu]; exact R.chunk_pos
  have hge : (c.data.len + o.data.len) * unitsPer Γ t ≤
      P.unitCap Γ h0 t c.data.cap (c.data.len + o.data.len) := P.grow_ge _ _ _ _
  -- what the outer call hands to the closure
  have a1 : (c.data.elem.type_id == o.data.elem.type_id) = true := by simp [helem]
  have houter : VecVoid.appendP P Γ cfg (c.data, (⟨h0, (o.data, u)⟩ : World (VecVoid × U))) =
      VecVoid.applyAligned Γ cfg ⟨Γ.align t, Γ.align t⟩
        (VecVoid.swapRoles (VecVoid.applyAligned Γ cfg ⟨Γ.align t, Γ.align t⟩
          (VecVoid.swapRoles (do
            let (_, w) ← M.get
            let source := w.user.1
            let source ← RVec.appendP P ⟨Γ.align t, Γ.align t⟩ source
            M.modify fun s => (s.1, ⟨s.2.heap, (source, s.2.user.2)⟩)))))
        (c.data, (⟨h0, (o.data, u)⟩ : World (VecVoid × U))) := by
    simp only [VecVoid.appendP, M.bind_run, getSelf_run, M.get_run, a1, M.assert_true_run]
    rw [debugAssert_ok (by simp [helem])]
    simp only
    rw [debugAssert_ok (by simp [helem])]
    simp only [R.align, evalAlign_align]
  have hcl : o.data.chunkView.len = o.data.len * c.data.elem.size := by simp [VecVoid.chunkView, helem]
  have inner_ok : ∀ {i : Nat} {h' : Heap},
      RVec.reserveP P ⟨Γ.align t, Γ.align t⟩ (o.data.len * c.data.elem.size)
        (c.data.chunkView, (⟨h0, (o.data.chunkView, u)⟩ : World (RVec × U))) =
        (.ok (), (⟨some i, c.data.len * c.data.elem.size, P.unitCap Γ h0 t c.data.cap (c.data.len + o.data.len),
          c.data.mem⟩, ⟨h', (o.data.chunkView, u)⟩)) →
      VecVoid.applyAligned Γ cfg ⟨Γ.align t, Γ.align t⟩
        (VecVoid.swapRoles (do
          let (_, w) ← M.get
          let source := w.user.1
          let source ← RVec.appendP P ⟨Γ.align t, Γ.align t⟩ source
          M.modify fun s => (s.1, ⟨s.2.heap, (source, s.2.user.2)⟩)))
        (o.data, (⟨h0, (c.data.chunkView, u)⟩ : World (RVec × U))) =
        (.ok (), (⟨o.data.ptr, 0, o.data.cap, o.data.elem, []⟩,
          ⟨h', (⟨some i, (c.data.len + o.data.len) * c.data.elem.size,
            P.unitCap Γ h0 t c.data.cap (c.data.len + o.data.len), c.data.mem ++ o.data.mem⟩, u)⟩)) := by
    intro i h' hrun
    refine applyAligned_ok (n := 0) (c := o.data.cap)
      (v' := ⟨o.data.ptr, 0, o.data.cap * o.data.elem.size, []⟩) Ro ?_ (by simp) rfl Ro.cap_pos
    rw [swapRoles_run]
    simp only [M.bind_run, M.get_run, RVec.appendP, hcl]
    rw [hrun]
    simp [VecVoid.chunkView, helem, Nat.add_mul]
  refine ⟨fun hfit hd => ?_, fun hfit hd => ?_, fun hfit => ?_⟩
  · obtain ⟨i, h', hrun, hre, hlive⟩ :=
      reserveP_unit (w := (⟨h0, (o.data.chunkView, u)⟩ : World (RVec × U))) (n := o.data.len) R wf hn hfit
    have hg := R.grown hd hge (by omega) hfit hlive hre
    have hcp := hg.repr.cap_pos
    have hRe : Repr Γ h' t [] ⟨o.data.ptr, 0, o.data.cap, o.data.elem, []⟩ :=
      Ro.emptied.frame_realloc wf hre (Ne.symm hne)
    refine ⟨⟨some i, c.data.len + o.data.len,
      P.unitCap Γ h0 t c.data.cap (c.data.len + o.data.len) / unitsPer Γ t, c.data.elem,
      c.data.mem ++ o.data.mem⟩, h', ?_, ⟨?_, hre, hg.cap_le, hg.need_le⟩, hRe, Nat.div_mul_cancel hd⟩
    · have hv : VecVoid.appendP P Γ cfg (c.data, (⟨h0, (o.data, u)⟩ : World (VecVoid × U))) =
          (.ok (), (⟨some i, c.data.len + o.data.len,
            P.unitCap Γ h0 t c.data.cap (c.data.len + o.data.len) / unitsPer Γ t, c.data.elem,
            c.data.mem ++ o.data.mem⟩, ⟨h', (⟨o.data.ptr, 0, o.data.cap, o.data.elem, []⟩, u)⟩)) := by
        rw [houter]
        refine applyAligned_ok (n := c.data.len + o.data.len) (out := ())
          (c := P.unitCap Γ h0 t c.data.cap (c.data.len + o.data.len) / unitsPer Γ t)
          (v' := ⟨some i, (c.data.len + o.data.len) * c.data.elem.size,
            P.unitCap Γ h0 t c.data.cap (c.data.len + o.data.len), c.data.mem ++ o.data.mem⟩) R ?_ rfl ?_ hcp
        · rw [swapRoles_run, inner_ok hrun]
        · simp only [hu]; exact (Nat.div_mul_cancel hd).symm
      simp only [VecCopy.appendP, M.bind_run, getSelf_run, M.get_run, if_pos hty, M.zoom_run, hv, M.pure_run]
    · have r := hg.repr
      refine ⟨r.type_id, r.chunks, r.align, r.pos, ?_, ?_, ?_, hg.need_le, r.cap_pos, r.room, r.block⟩
      · simp [R.mem, Ro.mem]
      · intro e he
        rcases List.mem_append.1 he with he | he
        · exact R.each e he
        · exact Ro.each e he
      · simp [hl, hl']
  · obtain ⟨i, h', hrun, hre, hlive⟩ :=
      reserveP_unit (w := (⟨h0, (o.data.chunkView, u)⟩ : World (RVec × U))) (n := o.data.len) R wf hn hfit
    refine ⟨i, h', ?_, hre, hlive, Ro.emptied.frame_realloc wf hre (Ne.symm hne)⟩
    have hv : VecVoid.appendP P Γ cfg (c.data, (⟨h0, (o.data, u)⟩ : World (VecVoid × U))) =
        (.panic .assertion, (VecVoid.default Γ,
          ⟨h', (⟨o.data.ptr, 0, o.data.cap, o.data.elem, []⟩, u)⟩)) := by
      rw [houter]
      refine applyAligned_badCap (out := ())
        (v' := ⟨some i, (c.data.len + o.data.len) * c.data.elem.size,
          P.unitCap Γ h0 t c.data.cap (c.data.len + o.data.len), c.data.mem ++ o.data.mem⟩) R ?_ ?_ (by simp) ?_
      · rw [swapRoles_run, inner_ok hrun]
      · simp only [hu]
        have : 1 * unitsPer Γ t ≤ (c.data.len + o.data.len) * unitsPer Γ t := Nat.mul_le_mul_right _ (by omega)
        omega
      · simp only [hu]; exact fun e => hd (Nat.dvd_of_mod_eq_zero e)
    simp only [VecCopy.appendP, M.bind_run, getSelf_run, M.get_run, if_pos hty, M.zoom_run, hv, VecCopy.lost]
  · have hrun := reserveP_unit_full (P := P) (w := (⟨h0, (o.data.chunkView, u)⟩ : World (RVec × U)))
      (n := o.data.len) R hn hfit
    obtain ⟨j, hpj, hdj⟩ := Ro.dropChunk (w := (⟨h0, (c.data.chunkView, u)⟩ : World (RVec × U)))
    have hRf : Repr Γ (h0.free j) t es c.data := by
      apply R.frame
      intro i hi
      have : i ≠ j := fun e => hne (by rw [hi, hpj, e])
      simp [Heap.free, this]
    obtain ⟨i, hpi, hdi⟩ := hRf.dropChunk
      (w := (⟨h0.free j, (VecVoid.default Γ, u)⟩ : World (VecVoid × U)))
    refine ⟨i, j, hpi, hpj, ?_⟩
    have hv : VecVoid.appendP P Γ cfg (c.data, (⟨h0, (o.data, u)⟩ : World (VecVoid × U))) =
        (.panic .capacity, (VecVoid.default Γ, ⟨(h0.free j).free i, (VecVoid.default Γ, u)⟩)) := by
      rw [houter]
      refine applyAligned_panic (y := .capacity) (v' := c.data.chunkView)
        (w' := ⟨h0.free j, (VecVoid.default Γ, u)⟩) R ?_ hdi
      rw [swapRoles_run]
      rw [applyAligned_panic (y := .capacity) (v' := o.data.chunkView)
        (w' := (⟨h0, (c.data.chunkView, u)⟩ : World (RVec × U))) Ro ?_ hdj]
      rw [swapRoles_run]
      simp only [M.bind_run, M.get_run, RVec.appendP, hcl]
      rw [hrun]
    simp only [VecCopy.appendP, M.bind_run, getSelf_run, M.get_run, if_pos hty, M.zoom_run, hv, VecCopy.lost]


/-! ### C92 `clone` and `with_type_from` -/

/-- `clone` relies on the capacity that `with_capacity` chooses: it succeeds with an equal container and leaves
the source as it was if that capacity is a whole number of elements. If it is not, the call panics and the new
block leaks. If the choice does not fit into the address space the call panics and nothing changes. -/
theorem C92_veccopy_clone (P : VecPolicy) (R : Repr Γ w.heap t es c.data) (wf : w.heap.WF) :
    let k := P.initial w.heap (unitLayout Γ t) (c.data.cap * unitsPer Γ t)
    (UnitRoom Γ t k → unitsPer Γ t ∣ k →
      ∃ d h', VecCopy.cloneP P cfg c w = (.ok ⟨d, c.vtable⟩, { w with heap := h' }) ∧
        Repr Γ h' t es d ∧ Repr Γ h' t es c.data ∧ Realloc w.heap none h' d.ptr ∧ c.data.cap ≤ d.cap ∧
        d.cap * unitsPer Γ t = k) ∧
    (UnitRoom Γ t k → ¬ unitsPer Γ t ∣ k →
      ∃ i h', VecCopy.cloneP P cfg c w = (.panic .assertion, { w with heap := h' }) ∧
        Repr Γ h' t es c.data ∧ Realloc w.heap none h' (some i) ∧
        h'.live i = some ⟨k * Γ.align t, Γ.align t⟩) ∧
    (¬ UnitRoom Γ t k → VecCopy.cloneP P cfg c w = (.panic .capacity, w)) := by
  have ha := align_pos Γ t
  have hu := R.units
  have hs : 0 < unitsPer Γ t := by rw [← hu]; exact R.chunk_pos
  have hne : Γ.align t ≠ 0 := by omega
  have hge := P.initial_ge w.heap (unitLayout Γ t) (c.data.cap * unitsPer Γ t)
  have hcs : 0 < c.data.cap * unitsPer Γ t := Nat.mul_pos R.cap_pos hs
  have hi : P.initial w.heap (⟨Γ.align t, Γ.align t⟩ : Layout) (c.data.cap * c.data.elem.size) =
      P.initial w.heap (unitLayout Γ t) (c.data.cap * unitsPer Γ t) := by rw [hu]; rfl
  generalize hk : P.initial w.heap (unitLayout Γ t) (c.data.cap * unitsPer Γ t) = k at *
  have hpos : (⟨k * Γ.align t, Γ.align t⟩ : Layout).size ≠ 0 := Nat.mul_ne_zero (by omega) hne
  have hre := Realloc.ofAlloc wf ⟨k * Γ.align t, Γ.align t⟩
  have halloc := Heap.alloc_live (h := w.heap) hpos
  rw [halloc.1] at hre
  have hcl : (RVec.cloneFromP P ⟨Γ.align t, Γ.align t⟩ c.data.chunkView)
      ((⟨some w.heap.next, 0, k, []⟩ : RVec),
        ({ w with heap := (w.heap.alloc ⟨k * Γ.align t, Γ.align t⟩).2 } : World U)) =
      (.ok (), (⟨some w.heap.next, c.data.len * c.data.elem.size, k, c.data.mem⟩,
        { w with heap := (w.heap.alloc ⟨k * Γ.align t, Γ.align t⟩).2 })) := by
    have hle : c.data.len * unitsPer Γ t ≤ c.data.cap * unitsPer Γ t := Nat.mul_le_mul_right _ R.len_le
    simp only [RVec.cloneFromP, RVec.clear, RVec.truncate, RVec.extendFromSliceP, M.bind_run,
      M.modify_run, Nat.lt_irrefl, if_false, List.take_nil, VecVoid.chunkView]
    rw [RVec.reserveP_fit (by simp only [hu]; omega)]
    simp
  have hrun : UnitRoom Γ t k → VecVoid.cloneP P cfg c.data w =
      VecVoid.fromVecOverride ⟨Γ.align t, Γ.align t⟩
        ⟨some w.heap.next, c.data.len * c.data.elem.size, k, c.data.mem⟩ c.data.elem
        { w with heap := (w.heap.alloc ⟨k * Γ.align t, Γ.align t⟩).2 } := by
    intro hfit
    unfold UnitRoom at hfit
    simp only [VecVoid.cloneP, R.align, evalAlign_align, M.bind_run, R.alignedVec, RVec.withCapacityP,
      show c.data.chunkView.cap = c.data.cap * c.data.elem.size from rfl, hi, hne, if_false, if_pos hfit, halloc.1]
    rw [withLocal_ok hcl]
  have hframe : Repr Γ (w.heap.alloc ⟨k * Γ.align t, Γ.align t⟩).2 t es c.data := by
    apply R.frame
    intro i hi
    have := R.ptr_lt wf i hi
    apply hre.other
    · simp
    · intro e; cases e; omega
  refine ⟨fun hfit hd => ?_, fun hfit hd => ?_, fun hfit => ?_⟩
  · obtain ⟨q, rfl⟩ := hd
    have hq : c.data.cap ≤ q := by
      rw [Nat.mul_comm] at hge; exact Nat.le_of_mul_le_mul_left hge hs
    have e1 : unitsPer Γ t * q * Γ.align t = q * Γ.size t := by
      rw [Nat.mul_comm (unitsPer Γ t)]; exact unitsPer_mul R q
    have hov := fromVecOverride_ok (a := Γ.align t) (e := c.data.elem) (n := c.data.len) (c := q)
      (v := ⟨some w.heap.next, c.data.len * c.data.elem.size, unitsPer Γ t * q, c.data.mem⟩)
      ha R.align.symm R.chunk_pos rfl (by simp only [hu]; exact Nat.mul_comm _ _)
      (Nat.lt_of_lt_of_le R.cap_pos hq) ({ w with heap := (w.heap.alloc ⟨unitsPer Γ t * q * Γ.align t, Γ.align t⟩).2 } : World U)
    refine ⟨⟨some w.heap.next, c.data.len, q, c.data.elem, c.data.mem⟩, _, ?_, ?_, hframe, hre, hq, Nat.mul_comm _ _⟩
    · simp only [VecCopy.cloneP, M.bind_run, hrun hfit, hov, M.pure_run]
    · have := R.len_le
      have := R.cap_pos
      refine ⟨R.type_id, R.chunks, R.align, R.pos, R.mem, R.each, R.len, by simp only; omega, by simp only; omega, ?_,
        _, rfl, ?_⟩
      · unfold Room; simp only; rw [← e1]; exact hfit
      · rw [halloc.2, e1]
  · have hov := fromVecOverride_badCap (a := Γ.align t) (e := c.data.elem)
      (v := ⟨some w.heap.next, c.data.len * c.data.elem.size, k, c.data.mem⟩)
      ha R.align.symm R.chunk_pos (by
        simp only [hu]
        have := Nat.le_mul_of_pos_left (unitsPer Γ t) R.cap_pos
        omega) (by simp) (by simp only [hu]; exact fun e => hd (Nat.dvd_of_mod_eq_zero e))
      ({ w with heap := (w.heap.alloc ⟨k * Γ.align t, Γ.align t⟩).2 } : World U)
    exact ⟨_, _, by simp only [VecCopy.cloneP, M.bind_run, hrun hfit, hov], hframe, hre, halloc.2⟩
  · unfold UnitRoom at hfit
    simp only [VecCopy.cloneP, M.bind_run, VecVoid.cloneP, R.align, evalAlign_align, R.alignedVec, RVec.withCapacityP,
      show c.data.chunkView.cap = c.data.cap * c.data.elem.size from rfl, hi, hne, if_false, if_neg hfit]

/-- `with_type_from` likewise. `m` is the meta information of a type that is not zero-sized. -/
theorem C92_veccopy_with_type_from (P : VecPolicy) {m : Meta V} (hm : m.elem = ElemInfo.new Γ t) (hpos : 0 < Γ.size t)
    (wf : w.heap.WF) :
    let k := P.initial w.heap (unitLayout Γ t) (unitsPer Γ t)
    (UnitRoom Γ t k → unitsPer Γ t ∣ k →
      ∃ d h', VecCopy.withTypeFromP P m w = (.ok ⟨d, m.vtable⟩, { w with heap := h' }) ∧
        Repr Γ h' t [] d ∧ Realloc w.heap none h' d.ptr ∧ d.cap * unitsPer Γ t = k) ∧
    (UnitRoom Γ t k → ¬ unitsPer Γ t ∣ k →
      ∃ i h', VecCopy.withTypeFromP P m w = (.panic .assertion, { w with heap := h' }) ∧
        Realloc w.heap none h' (some i) ∧ h'.live i = some ⟨k * Γ.align t, Γ.align t⟩) ∧
    (¬ UnitRoom Γ t k → VecCopy.withTypeFromP P m w = (.panic .capacity, w)) := by
  have ha := align_pos Γ t
  have hch : unitsPer Γ t * Γ.align t = Γ.size t := Nat.div_mul_cancel (Γ.align_dvd t)
  have hs : 0 < unitsPer Γ t := by
    rcases Nat.eq_zero_or_pos (unitsPer Γ t) with h | h
    · rw [h, Nat.zero_mul] at hch; omega
    · exact h
  have hne : Γ.align t ≠ 0 := by omega
  have hge := P.initial_ge w.heap (unitLayout Γ t) (unitsPer Γ t)
  have hi : P.initial w.heap (⟨Γ.align t, Γ.align t⟩ : Layout) (ElemInfo.new Γ t).size =
      P.initial w.heap (unitLayout Γ t) (unitsPer Γ t) := rfl
  generalize hk : P.initial w.heap (unitLayout Γ t) (unitsPer Γ t) = k at *
  have hpos' : (⟨k * Γ.align t, Γ.align t⟩ : Layout).size ≠ 0 := Nat.mul_ne_zero (by omega) hne
  have hre := Realloc.ofAlloc wf ⟨k * Γ.align t, Γ.align t⟩
  have halloc := Heap.alloc_live (h := w.heap) hpos'
  rw [halloc.1] at hre
  have hal : (ElemInfo.new Γ t).alignment = Γ.align t := rfl
  have hrun : UnitRoom Γ t k → VecCopy.withTypeFromP P m w =
      (do let data ← VecVoid.fromVecOverride ⟨Γ.align t, Γ.align t⟩ ⟨some w.heap.next, 0, k, []⟩ (ElemInfo.new Γ t)
          pure ⟨data, m.vtable⟩ : M (World U) (VecCopy V))
        { w with heap := (w.heap.alloc ⟨k * Γ.align t, Γ.align t⟩).2 } := by
    intro hfit
    unfold UnitRoom at hfit
    simp only [VecCopy.withTypeFromP, hm, hal, evalAlign_align, M.bind_run, RVec.withCapacityP, hi, hne, if_false,
      if_pos hfit, halloc.1]
  refine ⟨fun hfit hd => ?_, fun hfit hd => ?_, fun hfit => ?_⟩
  · obtain ⟨q, rfl⟩ := hd
    have hq : 0 < q := by
      rcases Nat.eq_zero_or_pos q with h | h
      · subst h; omega
      · exact h
    have e1 : unitsPer Γ t * q * Γ.align t = q * Γ.size t := by
      rw [Nat.mul_comm (unitsPer Γ t), Nat.mul_assoc, hch]
    have hov := fromVecOverride_ok (a := Γ.align t) (e := ElemInfo.new Γ t) (n := 0) (c := q)
      (v := ⟨some w.heap.next, 0, unitsPer Γ t * q, []⟩)
      ha rfl hs (by simp) (Nat.mul_comm _ _) hq
      ({ w with heap := (w.heap.alloc ⟨unitsPer Γ t * q * Γ.align t, Γ.align t⟩).2 } : World U)
    refine ⟨⟨some w.heap.next, 0, q, ElemInfo.new Γ t, []⟩, _, ?_, ?_, hre, Nat.mul_comm _ _⟩
    · rw [hrun hfit]; simp only [M.bind_run, hov, M.pure_run]
    · refine ⟨rfl, hch, rfl, hpos, rfl, by simp, rfl, Nat.zero_le _, hq, ?_, _, rfl, ?_⟩
      · unfold Room; simp only; rw [← e1]; exact hfit
      · rw [halloc.2, e1]
  · have hov := fromVecOverride_badCap (a := Γ.align t) (e := ElemInfo.new Γ t)
      (v := ⟨some w.heap.next, 0, k, []⟩)
      ha rfl hs hge (by simp) (fun e => hd (Nat.dvd_of_mod_eq_zero e))
      ({ w with heap := (w.heap.alloc ⟨k * Γ.align t, Γ.align t⟩).2 } : World U)
    exact ⟨_, _, by rw [hrun hfit]; simp only [M.bind_run, hov], hre, halloc.2⟩
  · unfold UnitRoom at hfit
    simp only [VecCopy.withTypeFromP, hm, hal, evalAlign_align, M.bind_run, RVec.withCapacityP, hi, hne, if_false,
      if_neg hfit]

end
end Dync
