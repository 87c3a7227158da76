import Verif.MachineLemmas3
import Verif.SafetyLemmas5
/-!
# The methods of `VecCopy` do what the machine of `Machine.lean` says: containers whose content was lost
-/
namespace Dync
variable {U V α : Type} {Γ : TyEnv U} {t t' : TyId} {n : Nat} {v : VecVoid} {c : VecCopy V} {w : World U} {cfg : Cfg}

theorem IsUnits.good (u : IsUnits Γ n v) : UGood Γ v := ⟨u.ptr, u.cap, u.elem, u.mem⟩

/-- Methods that go through the bytes of the buffer. -/
theorem IsUnits.applyAligned {W : Type} {w : World W} (u : IsUnits Γ n v) {f : M (RVec × World W) α} {a : α} {r : RVec}
    (hf : f (v.chunkView, w) = (.ok a, (r, w))) :
    ∃ y, VecVoid.applyAligned Γ cfg ⟨Γ.align Γ.unitTy, Γ.align Γ.unitTy⟩ f (v, w) = (.panic y, (VecVoid.default Γ, w)) := by
  rcases (u.good.applyAligned (cfg := cfg) (E := fun w' => w' = w) (f := f) (w := w) (Runs.of_ok hf rfl)).cases_on with
    ⟨_, _, _, h⟩ | ⟨y, ⟨v', w'⟩, e, h1, h2⟩
  · exact h.elim
  · simp only at h1 h2
    subst h1 h2
    exact ⟨y, e⟩

theorem unit_lostV (u : IsUnits Γ n v) (wf : w.heap.WF) {m : M (VecVoid × World U) Unit}
    (hm : ∃ y, m (v, w) = (.panic y, (VecVoid.default Γ, w))) : After.lost.AgreesV Γ m v w := by
  obtain ⟨y, hm⟩ := hm
  refine ⟨_, _, w.heap, hm, ⟨y, rfl⟩, IsUnits.default Γ, ?_⟩
  show Realloc _ _ _ _
  rw [u.ptr]
  exact Realloc.refl wf _

theorem unit_lost (u : IsUnits Γ n c.data) (wf : w.heap.WF) {m : M (VecVoid × World U) Unit}
    (hm : ∃ y, m (c.data, w) = (.panic y, (VecVoid.default Γ, w))) :
    After.lost.Agrees Γ (do VecCopy.onData m; return Obs.done) c w :=
  Agrees.ofV (unit_lostV u wf hm) (by simp [After.lost]) fun _ _ _ h => onData_done h

theorem IsUnits.align (u : IsUnits Γ n v) : v.elem.alignment = Γ.align Γ.unitTy := by rw [u.elem]; rfl
theorem IsUnits.type_id (u : IsUnits Γ n v) : v.elem.type_id = Γ.unitTy := by rw [u.elem]; rfl
theorem umul_zero_run {σ : Type} (a : Nat) (s : σ) : umul cfg a 0 s = (.ok 0, s) := by
  rw [umul_ok (by simp)]; rfl

theorem umul_run_zero {σ : Type} (a : Nat) (s : σ) : umul cfg 0 a s = (.ok 0, s) := by
  rw [umul_ok (by simp), Nat.zero_mul]

theorem unit_reserve_run (u : IsUnits Γ n v) (k : Nat) : ∃ y, VecVoid.reserve Γ cfg k (v, w) = (.panic y, (VecVoid.default Γ, w)) := by
  simp only [VecVoid.reserve, M.bind_run, getSelf_run, u.align, evalAlign_align, u.good.size]
  refine u.applyAligned (a := ()) (r := v.chunkView) ?_
  simp only [M.bind_run, umul_zero_run]
  exact RVec.reserve_fit (Nat.zero_le _)

theorem unit_reserve (u : IsUnits Γ n c.data) (wf : w.heap.WF) (k : Nat) :
    (XVec.reserve Γ cfg k (.unit n)).Agrees Γ (do VecCopy.reserve Γ cfg k; return .done) c w :=
  unit_lost u wf (unit_reserve_run u k)

theorem unit_clear (u : IsUnits Γ n c.data) (wf : w.heap.WF) :
    (XVec.clear (.unit n)).Agrees Γ (do VecCopy.clear Γ cfg; return .done) c w := by
  refine unit_lost u wf ?_
  simp only [VecVoid.clear, M.bind_run, getSelf_run, u.align, evalAlign_align]
  refine u.applyAligned (a := ()) (r := ⟨none, 0, 0, []⟩) ?_
  rw [u.good.chunkView]
  simp [RVec.clear, RVec.truncate]

theorem unit_rotateLeft (u : IsUnits Γ n c.data) (wf : w.heap.WF) (k : Nat) :
    (XVec.rotateLeft Γ cfg k (.unit n)).Agrees Γ (do VecCopy.rotateLeft Γ cfg k; return .done) c w := by
  refine unit_lost u wf ?_
  simp only [VecVoid.rotateLeft, M.bind_run, getSelf_run, u.align, evalAlignLimited_align Γ _ _ (show Γ.align Γ.unitTy ≤ 8192 by rw [Γ.unit_align]; decide), u.good.size]
  refine u.applyAligned (a := ()) (r := ⟨none, 0, 0, []⟩) ?_
  rw [u.good.chunkView]
  simp [M.bind_run, umul_zero_run, RVec.rotateLeft]

theorem unit_rotateRight (u : IsUnits Γ n c.data) (wf : w.heap.WF) (k : Nat) :
    (XVec.rotateRight Γ cfg k (.unit n)).Agrees Γ (do VecCopy.rotateRight Γ cfg k; return .done) c w := by
  refine unit_lost u wf ?_
  simp only [VecVoid.rotateRight, M.bind_run, getSelf_run, u.align, evalAlignLimited_align Γ _ _ (show Γ.align Γ.unitTy ≤ 8192 by rw [Γ.unit_align]; decide), u.good.size]
  refine u.applyAligned (a := ()) (r := ⟨none, 0, 0, []⟩) ?_
  rw [u.good.chunkView]
  simp [M.bind_run, umul_zero_run, RVec.rotateRight]

theorem unit_checkRef (u : IsUnits Γ n c.data) (t' : TyId) : c.checkRef t' = if t' = Γ.unitTy then some c else none :=
  VecCopy.unit_type u.good t'

theorem unit_nil {x : Bytes} (hx : x.length = Γ.size Γ.unitTy) : x = [] :=
  List.eq_nil_of_length_eq_zero (by rw [hx, Γ.unit_size])

theorem unit_pushAs (hc : Op.Typed.Copyable Γ t) (u : IsUnits Γ n c.data) (wf : w.heap.WF) {x : Bytes} (hx : x.length = Γ.size t) :
    (XVec.pushAs Γ t x (.unit n)).Agrees Γ (do return Obs.ofUnit (← VecCopy.pushAs Γ cfg t x)) c w := by
  simp only [XVec.pushAs]
  by_cases ht : t = Γ.unitTy
  swap
  · rw [if_neg ht]
    refine Agrees.same wf u (ofUnit_refused ?_) rfl
    simp only [VecCopy.pushAs, M.bind_run, getSelf_run, unit_checkRef u, if_neg ht, onWorld_run]
    simp [worldUser, hc x w.user]
  subst ht
  rw [if_pos rfl]
  have hx0 := unit_nil hx
  subst hx0
  have hgo : ∀ (a : After), a.AgreesV Γ (VecVoid.applyUnchecked Γ cfg Γ.unitTy (RVec.pushOwned Γ Γ.unitTy [])) c.data w →
      a.out ≠ .ub → a.Agrees Γ (do return Obs.ofUnit (← VecCopy.pushAs Γ cfg Γ.unitTy [])) c w := fun a h ho =>
    Agrees.ofV h ho fun r d w' h => ofUnit_done (by
      simp only [VecCopy.pushAs, M.bind_run, getSelf_run, unit_checkRef u, if_true]
      exact onData_some h)
  rw [RVec.pushOwned_plain hc] at hgo
  by_cases hn : n = usizeMax
  · rw [if_pos hn]
    refine hgo _ (unit_lostV u wf ⟨.capacity, ?_⟩) (by simp [After.lost])
    have hdrop : RVec.dropTyped Γ Γ.unitTy ⟨none, c.data.len, usizeMax, []⟩ w = (.ok (), w) := by
      have h1 : ∀ xs : List Bytes, M.dropEach xs (fun b => (worldUser (Γ.drop Γ.unitTy b) : M (World U) Unit)) w = (.ok (), w) := by
        intro xs
        induction xs with
        | nil => rfl
        | cons x xs ih =>
          refine M.thenDrop_ok (s' := w) ?_ ih
          simp [worldUser, hc x w.user]
      exact M.thenDrop_ok (h1 _) (by simp [RVec.dropBuf, worldHeap, dealloc, Γ.unit_size])
    have hpush : RVec.push (Γ.layout Γ.unitTy) [] (⟨none, c.data.len, usizeMax, []⟩, w) =
        (.panic .capacity, ((⟨none, c.data.len, usizeMax, []⟩ : RVec), w)) := by
      simp [RVec.push, RVec.grow, Γ.unit_size, u.len, hn]
    have hl := withLocal_panic (d := RVec.dropTyped Γ Γ.unitTy) hpush hdrop
    simp only [VecVoid.applyUnchecked, M.bind_run, getSelf_run, setSelf_run, u.good.typedView, onWorld_run, hl]
  · rw [if_neg hn]
    have hpush : RVec.push (Γ.layout Γ.unitTy) [] (⟨none, c.data.len, usizeMax, []⟩, w) =
        (.ok (), ((⟨none, c.data.len + 1, usizeMax, []⟩ : RVec), w)) := by
      simp [RVec.push, u.len, hn]
    have hl := withLocal_ok (d := RVec.dropTyped Γ Γ.unitTy) hpush
    have hne : usizeMax ≠ 0 := by decide
    have hlc : (withLocal (⟨none, c.data.len + 1, usizeMax, []⟩ : RVec) noDrop (VecVoid.intoValidVec (Γ.layout Γ.unitTy)) :
        M (World U) (Unit × RVec)) w = (.ok ((), ⟨none, c.data.len + 1, usizeMax, []⟩), w) := by
      simp [withLocal, VecVoid.intoValidVec, hne]
    refine hgo _ ?_ (by simp)
    refine AgreesV.ok (d := ⟨none, n + 1, usizeMax, ElemInfo.new Γ Γ.unitTy, []⟩) (x := .unit (n + 1)) (h' := w.heap)
      ⟨rfl, rfl, rfl, rfl, rfl⟩ (by rw [u.ptr]; exact Realloc.refl wf _) ?_
    simp only [VecVoid.applyUnchecked, M.bind_run, getSelf_run, setSelf_run, u.good.typedView, onWorld_run, hl, VecVoid.fromVec, hlc]
    rw [u.len]
    rfl

theorem unit_push {vt : V} (u : IsUnits Γ n c.data) (wf : w.heap.WF) {x : Bytes} (hx : x.length = Γ.size t) :
    (XVec.push Γ t x (.unit n)).Agrees Γ (do return Obs.ofUnit (← VecCopy.push Γ cfg (CopyValue.new Γ t vt x))) c w := by
  simp only [XVec.push]
  have hsz : c.elementSize = 0 := u.good.numBytes
  by_cases hs : Γ.size t = 0
  swap
  · rw [if_pos hs]
    refine Agrees.same wf u (r := .panic .assertion) ?_ ⟨_, rfl⟩
    have h1 : ((CopyValue.new Γ t vt x).size == c.elementSize) = false := by
      rw [hsz]; simpa [CopyValue.size, CopyValue.new, hx] using hs
    simp only [VecCopy.push, M.bind_run, getSelf_run, h1, M.assert_false_run]
  rw [if_neg (fun h => h hs)]
  have h1 : ((CopyValue.new Γ t vt x).size == c.elementSize) = true := by
    rw [hsz]; simpa [CopyValue.size, CopyValue.new, hx] using hs
  by_cases ht : t = Γ.unitTy
  · rw [if_neg (fun h => h ht)]
    subst ht
    have hx0 := unit_nil hx
    subst hx0
    left
    refine ⟨rfl, ?_⟩
    have hub : (VecVoid.push Γ cfg [] (c.data, w)).1 = .ub := by
      simp only [VecVoid.push, M.bind_run, getSelf_run, u.align, evalAlign_align]
      rw [if_neg (by rw [Γ.unit_align]; simp)]
      simp only [VecVoid.applyAligned, M.bind_run, getSelf_run, setSelf_run, onWorld_run, withLocal, M.ub_run]
      rw [u.good.alignedVec (cfg := cfg) (σ := VecVoid × World U)]
    rcases hp : VecVoid.push Γ cfg [] (c.data, w) with ⟨r, d, w'⟩
    rw [hp] at hub
    simp only at hub
    subst hub
    simp only [VecCopy.push, M.bind_run, getSelf_run, h1, M.assert_true_run]
    rw [if_pos (show (CopyValue.new Γ Γ.unitTy vt []).type_id = c.elementTypeId from u.type_id.symm)]
    have h2 := onData_some (c := c) hp
    rw [show (CopyValue.new Γ Γ.unitTy vt []).bytes = [] from rfl, h2]
    rfl
  · rw [if_pos ht]
    refine Agrees.same wf u (ofUnit_refused ?_) rfl
    simp only [VecCopy.push, M.bind_run, getSelf_run, h1, M.assert_true_run]
    rw [if_neg (show ¬ (CopyValue.new Γ t vt x).type_id = c.elementTypeId from fun h => ht (h.trans u.type_id))]
    rfl

theorem IsUnits.of_lost {a : VecVoid} (h : a = VecVoid.default Γ) : IsUnits Γ 0 a := by
  subst h; exact IsUnits.default Γ

theorem unit_resize (u : IsUnits Γ n c.data) (wf : w.heap.WF) {x : Bytes} {k : Nat} :
    (XVec.resize Γ cfg t k x (.unit n)).Agrees Γ (do return Obs.ofUnit (← VecCopy.resize Γ cfg t k x)) c w := by
  simp only [XVec.resize]
  by_cases ht : t = Γ.unitTy
  · rw [if_pos ht]
    subst ht
    have hgo : ∀ m : M (VecVoid × World U) Unit, ∀ f : M (VecCopy V × World U) (Option Unit),
        (∃ y, m (c.data, w) = (.panic y, (VecVoid.default Γ, w))) →
        VecCopy.resize Γ cfg Γ.unitTy k x (c, w) = (do VecCopy.onData m; f) (c, w) →
        After.lost.Agrees Γ (do return Obs.ofUnit (← VecCopy.resize Γ cfg Γ.unitTy k x)) c w := by
      intro m f hm hr
      obtain ⟨y, hm⟩ := hm
      right
      refine ⟨by simp [After.lost], .panic y, VecVoid.default Γ, w.heap, ?_, ⟨y, rfl⟩, IsUnits.default Γ, ?_⟩
      · simp only [M.bind_run, hr, VecCopy.onData_run, hm]
      · show Realloc _ _ _ _
        rw [u.ptr]
        exact Realloc.refl wf _
    by_cases hk : c.len ≤ k
    · refine hgo (VecVoid.reserve Γ cfg (k - c.len)) (do
        M.repeatN (k - c.len) (do let _ ← VecCopy.pushAs Γ cfg Γ.unitTy x; pure ())
        pure (some ())) (unit_reserve_run u _) ?_
      simp only [VecCopy.resize, M.bind_run, getSelf_run, unit_checkRef u, if_true, if_pos hk]
    · refine hgo (VecVoid.truncate Γ cfg k) (pure (some ())) ?_ ?_
      · simp only [VecVoid.truncate, M.bind_run, getSelf_run, u.align, evalAlign_align, u.good.size]
        refine u.applyAligned (a := ()) (r := ⟨none, 0, 0, []⟩) ?_
        rw [u.good.chunkView]
        simp [M.bind_run, umul_zero_run, RVec.truncate]
      · simp only [VecCopy.resize, M.bind_run, getSelf_run, unit_checkRef u, if_true, if_neg hk]
  · rw [if_neg ht]
    refine Agrees.same wf u (ofUnit_refused ?_) rfl
    simp only [VecCopy.resize, M.bind_run, getSelf_run, unit_checkRef u, if_neg ht, M.pure_run]

theorem unit_slice (u : IsUnits Γ n c.data) : typedSlice (Γ.size Γ.unitTy) c.len c.data.mem = .ok (List.replicate n []) := by
  unfold typedSlice
  rw [Γ.unit_size, u.mem]
  simp [VecCopy.len, u.len, List.map_const']

theorem unit_fill (u : IsUnits Γ n c.data) (wf : w.heap.WF) {x : Bytes} (hx : x.length = Γ.size t) :
    (XVec.fill Γ t x (.unit n)).Agrees Γ (do return Obs.ofUnit (← VecCopy.fill Γ t x)) c w := by
  simp only [XVec.fill]
  by_cases ht : t = Γ.unitTy
  · rw [if_pos ht]
    subst ht
    have hx0 := unit_nil hx
    subst hx0
    refine Agrees.same wf u (ofUnit_done (r := .ok ()) ?_) rfl
    have hvis : visitMut (M.modify fun s : Bytes × World U => (([] : Bytes), s.2)) (List.replicate n []) w =
        (.ok (), ((List.replicate n ([] : Bytes)).map fun _ => [], w)) := visitMut_pure (fun _ => []) _ w
    simp only [VecCopy.fill, VecCopy.asMutSliceAs, M.bind_run, getSelf_run, unit_checkRef u, if_true, unit_slice u, M.lift_run,
      forEachMut, hvis, M.pure_run]
    have h2 : ((List.replicate n ([] : Bytes)).map fun _ => ([] : Bytes)).flatten = [] := by
      simp
    rw [h2, u.mem]
    have := VecCopy.unit_same u.good
    simp [splice, this, Res.map]
  · rw [if_neg ht]
    refine Agrees.same wf u (ofUnit_refused ?_) rfl
    simp only [VecCopy.fill, VecCopy.asMutSliceAs, M.bind_run, getSelf_run, unit_checkRef u, if_neg ht, M.pure_run]

/-- A method of the slice view that leaves the view as it is. -/
theorem unit_asMutSlice (u : IsUnits Γ n c.data) {m : M (SliceCopy V) α} {r : Res α}
    (hm : m (SliceCopy.fromRawParts [] c.data.elem c.vtable) = (r, SliceCopy.fromRawParts [] c.data.elem c.vtable)) :
    VecCopy.asMutSlice m (c, w) = (r, (c, w)) := by
  have hs := VecCopy.unit_same u.good
  simp only [VecCopy.asMutSlice, M.bind_run, getSelf_run, VecCopy.unit_bytes u.good, M.lift_run, hm]
  rw [u.mem]
  simp [SliceCopy.fromRawParts, splice, hs]

theorem unit_copyFromSlice (u : IsUnits Γ n c.data) (wf : w.heap.WF) {xs : List Bytes} :
    (XVec.copyFromSlice t xs (.unit n)).Agrees Γ (do return Obs.ofUnit (← VecCopy.copyFromSlice Γ cfg t xs)) c w := by
  have h : VecCopy.copyFromSlice Γ cfg t xs (c, w) = (.panic .divZero, (c, w)) := by
    refine unit_asMutSlice u ?_
    have hn := u.good.numBytes
    obtain ⟨dbg⟩ := cfg
    cases dbg <;>
    simp [SliceCopy.copyFromSlice, SliceCopy.asSliceMut, M.bind_run, M.get_run, SliceCopy.len, SliceCopy.fromRawParts, hn]
  exact Agrees.same wf u (r := .panic .divZero) (by simp only [M.bind_run, h]) ⟨_, rfl⟩

theorem indexByteRange_unit {σ : Type} (k : Nat) (s : σ) :
    indexByteRange cfg 0 k s = if cfg.debug = true ∧ 2 ^ 64 ≤ k + 1 then (.panic .overflow, s) else (.ok (0, 0), s) := by
  simp only [indexByteRange, M.bind_run, umul_zero_run]
  obtain ⟨dbg⟩ := cfg
  cases dbg with
  | false => simp [uadd_release, umul_zero_run]
  | true =>
    by_cases h : 2 ^ 64 ≤ k + 1
    · rw [if_pos ⟨rfl, h⟩]
      simp [uadd, usizeMax, show ¬ k ≤ 18446744073709551614 by omega]
    · rw [if_neg fun x => h x.2, uadd_ok (by simp [usizeMax]; omega)]
      simp only [umul_zero_run, M.pure_run]

theorem swapBytes_unit {σ : Type} (i j : Nat) (s : σ) :
    swapBytes cfg 0 [] i j s =
      if i ≠ j ∧ cfg.debug ∧ 2 ^ 64 ≤ min i j + 1 then (.panic .overflow, s) else (.ok [], s) := by
  unfold swapBytes
  by_cases hij : i = j
  · subst hij
    simp
  rw [if_neg hij]
  simp only [M.bind_run, indexByteRange_unit (cfg := cfg) 0 s]
  rw [if_neg (by simp)]
  simp only []
  rcases Nat.lt_or_gt_of_ne hij with h | h
  · rw [if_pos h, Nat.min_eq_left (by omega)]
    simp only [M.bind_run, indexByteRange_unit (cfg := cfg) i s]
    by_cases hd : cfg.debug = true ∧ 2 ^ 64 ≤ i + 1
    · rw [if_pos hd, if_pos ⟨hij, hd⟩]
    · rw [if_neg hd, if_neg fun x => hd x.2]
      simp [umul_run_zero, sliceSplitAt, sliceIndex, sliceSwapWith, splice]
  · rw [if_neg (by omega), Nat.min_eq_right (by omega)]
    simp only [M.bind_run, indexByteRange_unit (cfg := cfg) j s]
    by_cases hd : cfg.debug = true ∧ 2 ^ 64 ≤ j + 1
    · rw [if_pos hd, if_pos ⟨hij, hd⟩]
    · rw [if_neg hd, if_neg fun x => hd x.2]
      simp [umul_run_zero, sliceSplitAt, sliceIndex, sliceSwapWith, splice]

theorem unit_swap (u : IsUnits Γ n c.data) (wf : w.heap.WF) (i j : Nat) :
    (XVec.swap Γ cfg i j (.unit n)).Agrees Γ (do VecCopy.swap cfg i j; return .done) c w := by
  simp only [XVec.swap]
  have hn := u.good.numBytes
  by_cases h : i ≠ j ∧ cfg.debug ∧ 2 ^ 64 ≤ min i j + 1
  · rw [if_pos h]
    have hr : VecCopy.swap cfg i j (c, w) = (.panic .overflow, (c, w)) := by
      refine unit_asMutSlice u ?_
      simp only [SliceCopy.swap, M.bind_run, M.get_run, SliceCopy.fromRawParts, hn, swapBytes_unit, if_pos h]
    exact Agrees.same wf u (r := .panic .overflow) (by simp only [M.bind_run, hr]) ⟨_, rfl⟩
  · rw [if_neg h]
    have hr : VecCopy.swap cfg i j (c, w) = (.ok (), (c, w)) := by
      refine unit_asMutSlice u ?_
      simp only [SliceCopy.swap, M.bind_run, M.get_run, SliceCopy.fromRawParts, hn, swapBytes_unit, if_neg h, M.set_run]
    exact Agrees.same wf u (r := .ok .done) (by simp only [M.bind_run, hr, M.pure_run]) rfl

theorem unit_setAs (u : IsUnits Γ n c.data) (wf : w.heap.WF) (i : Nat) {x : Bytes} (hx : x.length = Γ.size t) :
    (XVec.setAs Γ t i x (.unit n)).Agrees Γ
      (do return Obs.ofUnit (← VecCopy.getMutAs Γ t i (M.modify fun s => (x, s.2)))) c w := by
  simp only [XVec.setAs]
  by_cases hi : i < n
  swap
  · rw [if_neg hi]
    have hb : (decide (i < c.len)) = false := by simp only [VecCopy.len, u.len]; exact decide_eq_false hi
    exact Agrees.same wf u (r := .panic .assertion) (by simp only [M.bind_run, VecCopy.getMutAs, getSelf_run, hb, M.assert_false_run]) ⟨_, rfl⟩
  rw [if_pos hi]
  have hb : (decide (i < c.len)) = true := by simp only [VecCopy.len, u.len]; exact decide_eq_true hi
  by_cases ht : t = Γ.unitTy
  · rw [if_pos ht]
    subst ht
    have hx0 := unit_nil hx
    subst hx0
    refine Agrees.same wf u (ofUnit_done (r := .ok ()) ?_) rfl
    have hs := VecCopy.unit_same u.good
    simp only [M.bind_run, VecCopy.getMutAs, getSelf_run, hb, M.assert_true_run, unit_checkRef u, if_true, Γ.unit_size, Nat.mul_zero, Nat.zero_le]
    simp [M.modify, splice, u.mem, hs, Res.map]
  · rw [if_neg ht]
    refine Agrees.same wf u (ofUnit_refused ?_) rfl
    simp only [M.bind_run, VecCopy.getMutAs, getSelf_run, hb, M.assert_true_run, unit_checkRef u, if_neg ht, M.pure_run]

theorem unit_setValue (u : IsUnits Γ n c.data) (wf : w.heap.WF) (i : Nat) {x : Bytes} (hx : x.length = Γ.size t) :
    (XVec.setValue Γ cfg i t x (.unit n)).Agrees Γ (do return Obs.ofUnit (← VecCopy.getMut cfg i (copyInto Γ t x))) c w := by
  simp only [XVec.setValue]
  by_cases hi : cfg.debug = true ∧ n ≤ i
  · rw [if_pos hi]
    have hb : (decide (i < c.len)) = false := by simp only [VecCopy.len, u.len]; exact decide_eq_false (by omega)
    exact Agrees.same wf u (r := .panic .assertion)
      (by simp only [M.bind_run, VecCopy.getMut, getSelf_run, debugAssert, hi.1, if_true, hb, M.assert_false_run]) ⟨_, rfl⟩
  rw [if_neg hi]
  have hda : debugAssert cfg (decide (i < c.len)) (c, w) = (.ok (), (c, w)) := by
    unfold debugAssert
    by_cases hd : cfg.debug = true
    · have hb : (decide (i < c.len)) = true := by
        simp only [VecCopy.len, u.len]; exact decide_eq_true (Nat.lt_of_not_le fun h => hi ⟨hd, h⟩)
      rw [if_pos hd, hb, M.assert_true_run]
    · rw [if_neg hd]; rfl
  have hval : c.valueOf ((c.data.mem.drop 0).take 0) = ⟨[], Γ.unitTy, c.data.elem.alignment, c.vtable⟩ := by
    simp [VecCopy.valueOf, VecCopy.elementTypeId, u.type_id]
  have hs := VecCopy.unit_same u.good
  by_cases ht : t = Γ.unitTy
  · rw [if_pos ht]
    subst ht
    have hx0 := unit_nil hx
    subst hx0
    refine Agrees.same wf u (ofUnit_done (r := .ok ()) ?_) rfl
    simp only [VecCopy.getMut, M.bind_run, getSelf_run, hda, u.good.numBytes, umul_zero_run, Nat.add_zero, Nat.zero_le, if_true, hval,
      copyInto_ok (b := []) (by rw [Γ.unit_size]; rfl) hx]
    simp [splice, u.mem, hs, Res.map]
  · rw [if_neg ht]
    refine Agrees.same wf u (ofUnit_refused ?_) rfl
    simp only [VecCopy.getMut, M.bind_run, getSelf_run, hda, u.good.numBytes, umul_zero_run, Nat.add_zero, Nat.zero_le, if_true, hval,
      copyInto_refused ht]
    simp [splice, u.mem, hs]

theorem unit_chunks (u : IsUnits Γ n c.data) {σ : Type} (s : σ) : c.data.byteChunks s = (.panic .zeroChunk, s) := by
  unfold VecVoid.byteChunks
  rw [VecCopy.unit_bytes u.good, u.good.numBytes]
  rfl

theorem unit_mapAll (u : IsUnits Γ n c.data) (wf : w.heap.WF) {f : Bytes → Bytes} :
    (XVec.mapAll f (.unit n)).Agrees Γ
      (do VecCopy.iterMut (M.modify fun s => ({ s.1 with bytes := f s.1.bytes }, s.2)); return .done) c w := by
  refine Agrees.same wf u (r := .panic .zeroChunk) ?_ ⟨_, rfl⟩
  simp only [VecCopy.iterMut, M.bind_run, getSelf_run, unit_chunks u]

/-! ### The methods that only look -/

theorem len_agrees {x : XVec} (wf : w.heap.WF) (I : x.Is Γ w.heap c.data) :
    (x.look Γ (fun _ es => .ok (.num es.length)) (fun n => .ok (.num n))).Agrees Γ (do return .num (← getSelf).len) c w := by
  cases x with
  | vec t es cap => exact Agrees.same wf I (r := .ok (.num c.len)) (by simp only [M.bind_run, getSelf_run, M.pure_run]) (congrArg (fun n => Res.ok (Obs.num n)) I.1.len)
  | unit n => exact Agrees.same wf I (r := .ok (.num c.len)) (by simp only [M.bind_run, getSelf_run, M.pure_run]) (congrArg (fun n => Res.ok (Obs.num n)) I.len)

theorem typeId_agrees {x : XVec} (wf : w.heap.WF) (I : x.Is Γ w.heap c.data) :
    (x.look Γ (fun t _ => .ok (.num t)) (fun _ => .ok (.num Γ.unitTy))).Agrees Γ (do return .num (← getSelf).elementTypeId) c w := by
  cases x with
  | vec t es cap => exact Agrees.same wf I (r := .ok (.num c.elementTypeId)) (by simp only [M.bind_run, getSelf_run, M.pure_run]) (congrArg (fun n => Res.ok (Obs.num n)) I.1.type_id)
  | unit n => exact Agrees.same wf I (r := .ok (.num c.elementTypeId)) (by simp only [M.bind_run, getSelf_run, M.pure_run]) (congrArg (fun n => Res.ok (Obs.num n)) (IsUnits.type_id I))

theorem getAs_agrees {x : XVec} (wf : w.heap.WF) (I : x.Is Γ w.heap c.data) (i : Nat) :
    (x.look Γ (fun t' es => if h : i < es.length then .ok (if t = t' then .elem es[i] else .refused) else .panic)
      (fun n => if i < n then .ok (if t = Γ.unitTy then .elem [] else .refused) else .panic)).Agrees Γ
      (do match ← VecCopy.getAs Γ t i (← getSelf) with
          | none => return .refused
          | some b => return .elem b) c w := by
  cases x with
  | vec t' es cap =>
    simp only [XVec.look]
    by_cases hi : i < es.length
    · rw [dif_pos hi]
      by_cases ht : t = t'
      · rw [if_pos ht]
        subst ht
        exact Agrees.same wf I (by simp only [M.bind_run, getSelf_run, VecCopy.getAs_ok I.1 hi, M.pure_run]) rfl
      · rw [if_neg ht]
        exact Agrees.same wf I (by simp only [M.bind_run, getSelf_run, VecCopy.getAs_mismatch I.1 ht hi, M.pure_run]) rfl
    · rw [dif_neg hi]
      exact Agrees.same wf I (r := .panic .assertion) (by simp only [M.bind_run, getSelf_run, VecCopy.getAs_out I.1 (by omega : es.length ≤ i)]) ⟨_, rfl⟩
  | unit n =>
    simp only [XVec.look]
    have u : IsUnits Γ n c.data := I
    by_cases hi : i < n
    · rw [if_pos hi]
      have hb : (decide (i < c.len)) = true := by simp only [VecCopy.len, u.len]; exact decide_eq_true hi
      by_cases ht : t = Γ.unitTy
      · rw [if_pos ht]
        subst ht
        refine Agrees.same wf I (r := .ok (.elem [])) ?_ rfl
        simp only [M.bind_run, VecCopy.getAs, getSelf_run, hb, M.assert_true_run, unit_checkRef u, if_true, Γ.unit_size, Nat.mul_zero, Nat.zero_le, M.pure_run, List.take_zero]
      · rw [if_neg ht]
        refine Agrees.same wf I (r := .ok .refused) ?_ rfl
        simp only [M.bind_run, VecCopy.getAs, getSelf_run, hb, M.assert_true_run, unit_checkRef u, if_neg ht, M.pure_run]
    · rw [if_neg hi]
      have hb : (decide (i < c.len)) = false := by simp only [VecCopy.len, u.len]; exact decide_eq_false hi
      exact Agrees.same wf I (r := .panic .assertion) (by simp only [M.bind_run, VecCopy.getAs, getSelf_run, hb, M.assert_false_run]) ⟨_, rfl⟩

theorem get_agrees {x : XVec} (wf : w.heap.WF) (I : x.Is Γ w.heap c.data) (i : Nat) :
    (x.look Γ (fun t es =>
        if cfg.debug then if h : i < es.length then .ok (.value t es[i]) else .panic
        else if i * Γ.size t % 2 ^ 64 + Γ.size t ≤ es.length * Γ.size t then
          .ok (.value t ((es.flatten.drop (i * Γ.size t % 2 ^ 64)).take (Γ.size t)))
        else .ub)
      (fun n => if cfg.debug = true ∧ n ≤ i then .panic else .ok (.value Γ.unitTy []))).Agrees Γ
      (do let v ← VecCopy.getRef cfg i (← getSelf)
          return .value v.type_id v.bytes) c w := by
  cases x with
  | vec t es cap =>
    simp only [XVec.look]
    obtain ⟨dbg⟩ := cfg
    cases dbg with
    | true =>
      rw [if_pos rfl]
      by_cases hi : i < es.length
      · rw [dif_pos hi]
        exact Agrees.same wf I (by simp only [M.bind_run, getSelf_run, VecCopy.getRef_ok I.1 hi, M.pure_run]) rfl
      · rw [dif_neg hi]
        exact Agrees.same wf I (r := .panic .assertion) (by simp only [M.bind_run, getSelf_run,
          VecCopy.getRef_out_debug (cfg := ⟨true⟩) I.1 (by omega : es.length ≤ i) rfl]) ⟨_, rfl⟩
    | false =>
      rw [if_neg (by simp)]
      by_cases hi : i * Γ.size t % 2 ^ 64 + Γ.size t ≤ es.length * Γ.size t
      · rw [if_pos hi]
        exact Agrees.same wf I (by simp only [M.bind_run, getSelf_run, C68_get_ref_release I.1, if_pos hi, M.pure_run]) rfl
      · rw [if_neg hi]
        left
        exact ⟨rfl, by simp only [M.bind_run, getSelf_run, C68_get_ref_release I.1, if_neg hi]⟩
  | unit n =>
    simp only [XVec.look]
    have u : IsUnits Γ n c.data := I
    by_cases hi : cfg.debug = true ∧ n ≤ i
    · rw [if_pos hi]
      have hb : (decide (i < c.len)) = false := by simp only [VecCopy.len, u.len]; exact decide_eq_false (by omega)
      exact Agrees.same wf I (r := .panic .assertion)
        (by simp only [M.bind_run, VecCopy.getRef, getSelf_run, debugAssert, hi.1, if_true, hb, M.assert_false_run]) ⟨_, rfl⟩
    rw [if_neg hi]
    have hda : debugAssert cfg (decide (i < c.len)) (c, w) = (.ok (), (c, w)) := by
      unfold debugAssert
      by_cases hd : cfg.debug = true
      · have hb : (decide (i < c.len)) = true := by
          simp only [VecCopy.len, u.len]; exact decide_eq_true (Nat.lt_of_not_le fun h => hi ⟨hd, h⟩)
        rw [if_pos hd, hb, M.assert_true_run]
      · rw [if_neg hd]; rfl
    refine Agrees.same wf I (r := .ok (.value Γ.unitTy [])) ?_ rfl
    simp [M.bind_run, VecCopy.getRef, getSelf_run, hda, u.good.numBytes, umul_zero_run, VecCopy.valueOf, VecCopy.elementTypeId, u.type_id]

theorem asSlice_agrees {x : XVec} (wf : w.heap.WF) (I : x.Is Γ w.heap c.data) :
    (x.look Γ (fun t' es => .ok (if t = t' then .elems es else .refused))
      (fun n => .ok (if t = Γ.unitTy then .elems (List.replicate n []) else .refused))).Agrees Γ
      (do match ← VecCopy.asSliceAs Γ t (← getSelf) with
          | none => return .refused
          | some bs => return .elems bs) c w := by
  cases x with
  | vec t' es cap =>
    simp only [XVec.look]
    by_cases ht : t = t'
    · rw [if_pos ht]
      subst ht
      exact Agrees.same wf I (by simp only [M.bind_run, getSelf_run, VecCopy.asSliceAs_ok I.1, M.pure_run]) rfl
    · rw [if_neg ht]
      refine Agrees.same wf I (r := .ok .refused) ?_ rfl
      simp only [M.bind_run, getSelf_run, VecCopy.asSliceAs, VecCopy.checkRef_none I.1 ht, M.pure_run]
  | unit n =>
    simp only [XVec.look]
    have u : IsUnits Γ n c.data := I
    by_cases ht : t = Γ.unitTy
    · rw [if_pos ht]
      subst ht
      refine Agrees.same wf I (r := .ok (.elems (List.replicate n []))) ?_ rfl
      simp only [M.bind_run, getSelf_run, VecCopy.asSliceAs, unit_checkRef u, if_true, unit_slice u, M.lift_run, M.pure_run]
    · rw [if_neg ht]
      refine Agrees.same wf I (r := .ok .refused) ?_ rfl
      simp only [M.bind_run, getSelf_run, VecCopy.asSliceAs, unit_checkRef u, if_neg ht, M.pure_run]

theorem iter_agrees {x : XVec} (wf : w.heap.WF) (I : x.Is Γ w.heap c.data) :
    (x.look Γ (fun _ es => .ok (.elems es)) (fun _ => .panic)).Agrees Γ
      (do return .elems ((← VecCopy.iter (← getSelf)).map (·.bytes))) c w := by
  cases x with
  | vec t es cap =>
    refine Agrees.same wf I (r := .ok (.elems es)) ?_ rfl
    simp only [M.bind_run, getSelf_run, VecCopy.iter_ok I.1, M.pure_run, List.map_map]
    simp [Function.comp_def]
  | unit n =>
    refine Agrees.same wf I (r := .panic .zeroChunk) ?_ ⟨_, rfl⟩
    simp only [M.bind_run, getSelf_run, VecCopy.iter, unit_chunks I]

end Dync
