import Verif.MachineLemmas6
import Verif.HistoryDynLemmas
/-!
# `append`, every operation and whole programs: what the machine says
-/
namespace Dync
variable {U V α : Type} {Γ : TyEnv U} {t t' : TyId} {n : Nat} {v o : VecVoid} {c b : VecCopy V} {w : World U} {cfg : Cfg}
  {slots : Slots V} {h h' : Heap} {var : Nat → Option XVec} {L : List Nat} {k j : Nat} {x y : XVec} {p p' : Ptr} {vt : V}
  {es es' : List Bytes}

/-- What `append` does with the second container moved out. -/
theorem append_inner (Ro : Repr Γ h t es' o) (R : Repr Γ h t es v) (u : U) :
    VecVoid.append Γ cfg (v, (⟨h, (o, u)⟩ : World (VecVoid × U))) =
    VecVoid.applyAligned Γ cfg ⟨Γ.align t, Γ.align t⟩
      (VecVoid.swapRoles (VecVoid.applyAligned Γ cfg ⟨Γ.align t, Γ.align t⟩
        (VecVoid.swapRoles (do
          let (_, w) ← M.get
          let source := w.user.1
          let source ← RVec.append ⟨Γ.align t, Γ.align t⟩ source
          M.modify fun s => (s.1, ⟨s.2.heap, (source, s.2.user.2)⟩))))) (v, (⟨h, (o, u)⟩ : World (VecVoid × U))) := by
  have helem : o.elem = v.elem := by rw [R.elem_eq, Ro.elem_eq]
  have a1 : (v.elem.type_id == o.elem.type_id) = true := by simp [helem]
  simp only [VecVoid.append, M.bind_run, getSelf_run, M.get_run, a1, M.assert_true_run]
  rw [debugAssert_ok (by simp [helem])]
  simp only
  rw [debugAssert_ok (by simp [helem])]
  simp only [R.align, evalAlign_align]

/-- `VecVoid::append` when the reservation succeeds. -/
theorem append_room (R : Repr Γ h t es v) (Ro : Repr Γ h t es' o) {u : U} {r : RVec}
    (hr : RVec.reserve ⟨Γ.align t, Γ.align t⟩ (o.len * v.elem.size) (v.chunkView, (⟨h, (o.chunkView, u)⟩ : World (RVec × U))) =
      (.ok (), (r, ⟨h', (o.chunkView, u)⟩))) :
    VecVoid.swapRoles (VecVoid.applyAligned Γ cfg ⟨Γ.align t, Γ.align t⟩
        (VecVoid.swapRoles (do
          let (_, w) ← M.get
          let source := w.user.1
          let source ← RVec.append ⟨Γ.align t, Γ.align t⟩ source
          M.modify fun s => (s.1, ⟨s.2.heap, (source, s.2.user.2)⟩))))
      (v.chunkView, (⟨h, (o, u)⟩ : World (VecVoid × U))) =
      (.ok (), ({ r with len := r.len + o.len * v.elem.size, bytes := r.bytes ++ o.mem },
        ⟨h', (⟨o.ptr, 0, o.cap, o.elem, []⟩, u)⟩)) := by
  have helem : o.elem = v.elem := by rw [R.elem_eq, Ro.elem_eq]
  rw [swapRoles_run]
  have inner : VecVoid.applyAligned Γ cfg ⟨Γ.align t, Γ.align t⟩
      (VecVoid.swapRoles (do
        let (_, w) ← M.get
        let source := w.user.1
        let source ← RVec.append ⟨Γ.align t, Γ.align t⟩ source
        M.modify fun s => (s.1, ⟨s.2.heap, (source, s.2.user.2)⟩)))
      (o, (⟨h, (v.chunkView, u)⟩ : World (RVec × U))) =
      (.ok (), (⟨o.ptr, 0, o.cap, o.elem, []⟩,
        ⟨h', ({ r with len := r.len + o.len * v.elem.size, bytes := r.bytes ++ o.mem }, u)⟩)) := by
    refine applyAligned_ok (n := 0) (c := o.cap)
      (v' := ⟨o.ptr, 0, o.cap * o.elem.size, []⟩) Ro ?_ (by simp) rfl Ro.cap_pos
    rw [swapRoles_run]
    have hl : o.chunkView.len = o.len * v.elem.size := by simp [VecVoid.chunkView, helem]
    simp only [M.bind_run, M.get_run, RVec.append, hl]
    rw [hr]
    simp [VecVoid.chunkView, helem]
  rw [inner]

/-- `VecVoid::append` when it does not: both buffers are dropped. -/
theorem append_full (R : Repr Γ h t es v) (Ro : Repr Γ h t es' o) {u : U} {z : Why} (hne : v.ptr ≠ o.ptr)
    (hr : RVec.reserve ⟨Γ.align t, Γ.align t⟩ (o.len * v.elem.size) (v.chunkView, (⟨h, (o.chunkView, u)⟩ : World (RVec × U))) =
      (.panic z, (v.chunkView, ⟨h, (o.chunkView, u)⟩))) :
    ∃ i i', v.ptr = some i ∧ o.ptr = some i' ∧ VecVoid.append Γ cfg (v, (⟨h, (o, u)⟩ : World (VecVoid × U))) =
      (.panic z, (VecVoid.default Γ, ⟨(h.free i').free i, (VecVoid.default Γ, u)⟩)) := by
  have helem : o.elem = v.elem := by rw [R.elem_eq, Ro.elem_eq]
  obtain ⟨i', hi', hd'⟩ := Repr.dropChunk (w := (⟨h, (v.chunkView, u)⟩ : World (RVec × U))) Ro
  obtain ⟨i0, hi0, -⟩ := R.block
  have hii : i0 ≠ i' := fun e => hne (by rw [hi0, hi', e])
  have Rf : Repr Γ (h.free i') t es v := R.frame fun j hj => by
    rw [hi0] at hj; cases hj; simp [Heap.free, hii]
  obtain ⟨i, hi, hd⟩ := Repr.dropChunk (w := (⟨h.free i', (VecVoid.default Γ, u)⟩ : World (VecVoid × U))) Rf
  refine ⟨i, i', hi, hi', ?_⟩
  rw [append_inner Ro R]
  refine applyAligned_panic (v' := v.chunkView) (w' := (⟨h.free i', (VecVoid.default Γ, u)⟩ : World (VecVoid × U))) R ?_ hd
  rw [swapRoles_run]
  have inner : VecVoid.applyAligned Γ cfg ⟨Γ.align t, Γ.align t⟩
      (VecVoid.swapRoles (do
        let (_, w) ← M.get
        let source := w.user.1
        let source ← RVec.append ⟨Γ.align t, Γ.align t⟩ source
        M.modify fun s => (s.1, ⟨s.2.heap, (source, s.2.user.2)⟩)))
      (o, (⟨h, (v.chunkView, u)⟩ : World (RVec × U))) =
      (.panic z, (VecVoid.default Γ, ⟨h.free i', (v.chunkView, u)⟩)) := by
    refine applyAligned_panic (v' := o.chunkView) (w' := (⟨h, (v.chunkView, u)⟩ : World (RVec × U))) Ro ?_ hd'
    rw [swapRoles_run]
    have hl : o.chunkView.len = o.len * v.elem.size := by simp [VecVoid.chunkView, helem]
    simp only [M.bind_run, M.get_run, RVec.append, hl]
    rw [hr]
  rw [inner]

theorem IsUnits.applyAligned_panic {W : Type} {w w' : World W} (u : IsUnits Γ n v) {f : M (RVec × World W) α} {z : Why}
    (hf : f (v.chunkView, w) = (.panic z, (v.chunkView, w'))) :
    VecVoid.applyAligned Γ cfg ⟨Γ.align Γ.unitTy, Γ.align Γ.unitTy⟩ f (v, w) = (.panic z, (VecVoid.default Γ, w')) := by
  simp only [VecVoid.applyAligned, M.bind_run, getSelf_run, setSelf_run, u.good.alignedVec (cfg := cfg), onWorld_run]
  rw [withLocal_panic hf (w'' := w') (by rw [u.good.chunkView]; simp [RVec.dropBuf, dealloc])]

theorem IsUnits.append {n n' : Nat} (u : IsUnits Γ n v) (u' : IsUnits Γ n' o) (a : U) :
    ∃ z, VecVoid.append Γ cfg (v, (⟨h, (o, a)⟩ : World (VecVoid × U))) =
      (.panic z, (VecVoid.default Γ, ⟨h, (VecVoid.default Γ, a)⟩)) := by
  have helem : o.elem = v.elem := by rw [u.elem, u'.elem]
  have a1 : (v.elem.type_id == o.elem.type_id) = true := by simp [helem]
  obtain ⟨z, hz⟩ := IsUnits.applyAligned (cfg := cfg) (w := (⟨h, (v.chunkView, a)⟩ : World (RVec × U))) u'
    (f := VecVoid.swapRoles (do
        let (_, w) ← M.get
        let source := w.user.1
        let source ← RVec.append ⟨Γ.align Γ.unitTy, Γ.align Γ.unitTy⟩ source
        M.modify fun s => (s.1, ⟨s.2.heap, (source, s.2.user.2)⟩))) (a := ()) (r := o.chunkView) (by
      rw [swapRoles_run, u.good.chunkView, u'.good.chunkView]
      simp [RVec.append, RVec.reserve])
  refine ⟨z, ?_⟩
  simp only [VecVoid.append, M.bind_run, getSelf_run, M.get_run, a1, M.assert_true_run]
  rw [debugAssert_ok (by simp [helem])]
  simp only
  rw [debugAssert_ok (by simp [helem])]
  simp only [u.align, evalAlign_align]
  refine u.applyAligned_panic ?_
  rw [swapRoles_run]
  simp only [hz]

/-- Two containers change in their variables. -/
theorem Owned.update2 {d d' : VecVoid} {x' y' : XVec} {h1 h2 : Heap} {lk lk' : Bool} (O : Owned Γ slots h var L) (hk : slots k = some c)
    (hj : slots j = some b) (hkj : k ≠ j) (I : x'.Is Γ h1 d) (m : Moves h c.data.ptr h1 d.ptr lk)
    (J : y'.Is Γ h2 d') (m' : Moves h1 b.data.ptr h2 d'.ptr lk') (vt vt' : V) :
    ∃ L', L'.length = L.length + (if lk then 1 else 0) + (if lk' then 1 else 0) ∧
      Owned Γ (Slots.put (Slots.put slots k (some ⟨d, vt⟩)) j (some ⟨d', vt'⟩)) h2
        (Slots.put (Slots.put var k (some x')) j (some y')) L' := by
  obtain ⟨L1, hL1, O1⟩ := O.update hk I m vt
  have hj1 : Slots.put slots k (some ⟨d, vt⟩) j = some b := by rw [Slots.put_other _ _ (Ne.symm hkj)]; exact hj
  obtain ⟨L2, hL2, O2⟩ := O1.update hj1 J m' vt'
  exact ⟨L2, by rw [hL2, hL1], O2⟩

theorem realloc_free (wf : h.WF) {i : Nat} (hp : p = some i) : Realloc h p (h.free i) none := by
  rw [hp]
  exact ⟨wf.free i, Nat.le_refl _, fun j h1 _ => by simp only [Heap.free]; rw [if_neg (fun e => h1 (by rw [e]))],
    fun _ j e => by cases e; simp [Heap.free], fun _ _ e => by cases e⟩

theorem append_sim {s : XState} (H : s.Holds Γ slots w.heap) (k j : Nat) :
    MSim Γ ((Op.append k j).exec Γ cfg vt) slots w (s.append Γ k j) := by
  obtain ⟨L, hL, O⟩ := H.owned
  unfold XState.append
  by_cases hkj : k = j
  · rw [if_pos hkj]
    exact sim_same H (r := .ok .absent) (by simp only [Op.exec, if_pos hkj]) rfl (by simp)
  rw [if_neg hkj]
  cases hk : slots k with
  | none =>
    have hv := (O.none_iff k).1 hk
    simp only [hv]
    exact sim_same H (r := .ok .absent) (by simp only [Op.exec, if_neg hkj, hk]) rfl (by simp)
  | some c =>
  cases hj : slots j with
  | none =>
    have hv := (O.none_iff j).1 hj
    obtain ⟨x, hx, I⟩ := O.lookup hk
    have : MSim Γ ((Op.append k j).exec Γ cfg vt) slots w (.ok .absent, s) :=
      sim_same H (r := .ok .absent) (by simp only [Op.exec, if_neg hkj, hk, hj]) rfl (by simp)
    cases x <;> simp only [hx, hv] <;> exact this
  | some b =>
  obtain ⟨x, hx, I⟩ := O.lookup hk
  obtain ⟨y, hy, J⟩ := O.lookup hj
  -- different element types
  have hrefuse : b.data.elem.type_id ≠ c.data.elem.type_id →
      MSim Γ ((Op.append k j).exec Γ cfg vt) slots w (.ok .refused, s) := by
    intro hne
    have hne' : ¬ b.elementTypeId = c.elementTypeId := hne
    have hrun : VecCopy.append Γ cfg (c, (⟨w.heap, (b, w.user)⟩ : World (VecCopy V × U))) =
        (.ok none, (c, ⟨w.heap, (b, w.user)⟩)) := by
      simp only [VecCopy.append, M.bind_run, getSelf_run, M.get_run, if_neg hne', M.pure_run]
    refine sim_same H (r := .ok .refused) ?_ rfl (by simp)
    simp only [Op.exec, if_neg hkj, hk, hj, hrun, Res.map, Obs.ofUnit]
    have e1 : Slots.put slots k (some c) = slots := by rw [← hk]; exact Slots.put_self _ _
    rw [e1, ← hj, Slots.put_self]
  -- equal element types
  have hexec : b.data.elem.type_id = c.data.elem.type_id → ∀ (d d' : VecVoid) (h' : Heap) (r : Res Unit),
      VecVoid.append Γ cfg (c.data, (⟨w.heap, (b.data, w.user)⟩ : World (VecVoid × U))) = (r, (d, ⟨h', (d', w.user)⟩)) →
      (Op.append k j).exec Γ cfg vt (slots, w) = (r.map fun _ => .done,
        (Slots.put (Slots.put slots k (some ⟨d, c.vtable⟩)) j (some ⟨d', b.vtable⟩), { w with heap := h' })) := by
    intro he d d' h' r hr
    have he' : b.elementTypeId = c.elementTypeId := he
    have hrun : VecCopy.append Γ cfg (c, (⟨w.heap, (b, w.user)⟩ : World (VecCopy V × U))) =
        (r.map some, (⟨d, c.vtable⟩, ⟨h', (⟨d', b.vtable⟩, w.user)⟩)) := by
      simp only [VecCopy.append, M.bind_run, getSelf_run, M.get_run, if_pos he', M.zoom_run, hr]
      cases r <;> simp [Res.map]
    simp only [Op.exec, if_neg hkj, hk, hj, hrun]
    cases r <;> simp [Res.map, Obs.ofUnit]
  have hfin : ∀ (d d' : VecVoid) (h1 h2 : Heap) (r : Res Unit) (out : Out) (x' y' : XVec) (lk : Bool),
      b.data.elem.type_id = c.data.elem.type_id →
      VecVoid.append Γ cfg (c.data, (⟨w.heap, (b.data, w.user)⟩ : World (VecVoid × U))) = (r, (d, ⟨h2, (d', w.user)⟩)) →
      out.Is (r.map fun _ => Obs.done) → out ≠ .ub → x'.Is Γ h1 d → Moves w.heap c.data.ptr h1 d.ptr lk →
      y'.Is Γ h2 d' → Realloc h1 b.data.ptr h2 d'.ptr →
      MSim Γ ((Op.append k j).exec Γ cfg vt) slots w
        (out, ⟨Slots.put (Slots.put s.var k (some x')) j (some y'), s.leaked + if lk then 1 else 0⟩) := by
    intro d d' h1 h2 r out x' y' lk he hr ho hu I' m J' m'
    obtain ⟨L', hL', O'⟩ := O.update2 hk hj hkj I' m (lk' := false) J' m' c.vtable b.vtable
    refine .inr ⟨hu, _, _, h2, hexec he d d' h2 r hr, ho, ?_⟩
    have := O'.holds
    rw [hL', hL] at this
    exact this
  cases x with
  | unit n =>
    have u : IsUnits Γ n c.data := I
    cases y with
    | unit n' =>
      have u' : IsUnits Γ n' b.data := J
      simp only [hx, hy]
      obtain ⟨z, hz⟩ := u.append (cfg := cfg) (h := w.heap) u' w.user
      refine hfin _ _ w.heap w.heap _ .panic (.unit 0) (.unit 0) false (by rw [u.type_id, u'.type_id]) hz ⟨z, rfl⟩ (by simp)
        (IsUnits.default Γ) ?_ (IsUnits.default Γ) ?_
      · show Realloc _ _ _ _; rw [u.ptr]; exact Realloc.refl O.wf _
      · rw [u'.ptr]; exact Realloc.refl O.wf _
    | vec t' es' cap' =>
      simp only [hx, hy]
      refine hrefuse ?_
      rw [u.type_id, J.1.type_id]
      intro e
      have := J.1.pos
      rw [e, Γ.unit_size] at this
      omega
  | vec t es cap =>
    cases y with
    | unit n' =>
      have u' : IsUnits Γ n' b.data := J
      simp only [hx, hy]
      refine hrefuse ?_
      rw [u'.type_id, I.1.type_id]
      intro e
      have := I.1.pos
      rw [← e, Γ.unit_size] at this
      omega
    | vec t' es' cap' =>
      obtain ⟨R, rfl⟩ := I
      obtain ⟨Ro, rfl⟩ := J
      simp only [hx, hy]
      by_cases ht : t = t'
      swap
      · rw [if_neg ht]
        exact hrefuse (by rw [R.type_id, Ro.type_id]; exact fun e => ht e.symm)
      subst ht
      rw [if_pos rfl]
      have he : b.data.elem.type_id = c.data.elem.type_id := by rw [R.type_id, Ro.type_id]
      have helem : b.data.elem = c.data.elem := by rw [R.elem_eq, Ro.elem_eq]
      have hne : c.data.ptr ≠ b.data.ptr := by
        intro e
        obtain ⟨i, hi, -⟩ := R.block
        exact hkj (O.inj k j c b i hk hj hi (e ▸ hi))
      have hlen : es'.length * perElem Γ t = b.data.len * c.data.elem.size := by rw [← R.perElem_eq, Ro.len]
      rw [hlen]
      have hs := R.chunk_pos
      have hcat : ∀ e ∈ es ++ es', e.length = Γ.size t := by
        intro e he
        rcases List.mem_append.1 he with h1 | h1
        · exact R.each e h1
        · exact Ro.each e h1
      have Rb : ∀ {h1 : Heap} {q : Ptr}, Realloc w.heap c.data.ptr h1 q → (∀ i, q = some i → h1.live i ≠ none) →
          Repr Γ h1 t [] ⟨b.data.ptr, 0, b.data.cap, b.data.elem, []⟩ := by
        intro h1 q re hq
        refine Ro.emptied.frame fun i hi => ?_
        have hi : b.data.ptr = some i := hi
        refine re.other i (fun e => hne (e.symm.trans hi.symm)) (fun e => ?_)
        by_cases hqp : q = c.data.ptr
        · exact hne (hqp.symm.trans (e.symm.trans hi.symm))
        · have := re.new_fresh hqp i e.symm
          have := Ro.ptr_lt O.wf i hi
          omega
      rcases Repr.room_cases (w := (⟨w.heap, (b.data.chunkView, w.user)⟩ : World (RVec × U))) R O.wf (b.data.len * c.data.elem.size)
        with ⟨hg, hr, hle⟩ | ⟨C, i, h1, hg, hr, re, hl, hcc, hle, hroom⟩ | ⟨hg, z, hr⟩ | ⟨hg, C, i, h1, hr, re, hl, hcc, hmod⟩
      · rw [hg]
        have hfit : es.length + es'.length ≤ c.data.cap := by
          rw [Ro.len, ← Nat.add_mul] at hle
          exact Nat.le_of_mul_le_mul_right hle hs
        have R' := R.setContent (es' := es ++ es') (by simpa using hfit) hcat
        refine hfin ⟨c.data.ptr, (es ++ es').length, c.data.cap, c.data.elem, (es ++ es').flatten⟩ _ w.heap w.heap (.ok ())
          (.ok .done) (.vec t (es ++ es') c.data.cap) (.vec t [] b.data.cap) false he ?_ rfl (by simp) ⟨R', rfl⟩
          (show Realloc _ _ _ _ from Realloc.refl O.wf _) ⟨Ro.emptied, rfl⟩ (Realloc.refl O.wf _)
        rw [append_inner Ro R, applyAligned_ok (n := (es ++ es').length) (c := c.data.cap) R (append_room R Ro hr) ?_ rfl R.cap_pos]
        · simp [VecVoid.chunkView, R.mem, Ro.mem]
        · show c.data.len * _ + _ = _
          rw [← Nat.add_mul, List.length_append, R.len, Ro.len]
      · rw [hg]
        have hfit : (es ++ es').length ≤ C := by
          rw [Ro.len, ← Nat.add_mul] at hle
          rw [List.length_append]
          exact Nat.le_of_mul_le_mul_right hle hs
        have hCpos : 0 < C := Nat.lt_of_lt_of_le R.cap_pos hcc
        have R' := R.regrow hcat hfit hCpos hl hroom
        have hRb := Rb re (fun _ e => by cases e; rw [hl]; simp)
        refine hfin ⟨some i, (es ++ es').length, C, c.data.elem, (es ++ es').flatten⟩ _ h1 h1 (.ok ())
          (.ok .done) (.vec t (es ++ es') C) (.vec t [] b.data.cap) false he ?_ rfl (by simp) ⟨R', rfl⟩
          (show Realloc _ _ _ _ from re) ⟨hRb, rfl⟩ (Realloc.refl re.wf _)
        rw [append_inner Ro R, applyAligned_ok (n := (es ++ es').length) (c := C) R (append_room R Ro hr) ?_ rfl hCpos]
        · simp [R.mem, Ro.mem]
        · show c.data.len * _ + _ = _
          rw [← Nat.add_mul, List.length_append, R.len, Ro.len]
      · rw [hg]
        obtain ⟨i, i', hi, hi', hrun⟩ := append_full (cfg := cfg) R Ro hne hr
        obtain ⟨L1, hL1, O1⟩ := O.update (d := VecVoid.default Γ) (y := .unit 0) (leak := false) hj (IsUnits.default Γ)
          (show Realloc _ _ _ _ from realloc_free O.wf hi') b.vtable
        have hk1 : Slots.put slots j (some ⟨VecVoid.default Γ, b.vtable⟩) k = some c := by
          rw [Slots.put_other _ _ hkj]; exact hk
        obtain ⟨L2, hL2, O2⟩ := O1.update (d := VecVoid.default Γ) (y := .unit 0) (leak := false) hk1 (IsUnits.default Γ)
          (show Realloc _ _ _ _ from realloc_free O1.wf hi) c.vtable
        rw [Slots.put_comm _ _ _ (Ne.symm hkj), Slots.put_comm _ _ _ (Ne.symm hkj)] at O2
        refine .inr ⟨by simp, _, _, _, hexec he _ _ _ _ hrun, ⟨z, rfl⟩, ?_⟩
        have := O2.holds
        rw [hL2, hL1, hL] at this
        exact this
      · rw [hg]
        have hRb := Rb re (fun _ e => by cases e; exact hl)
        refine hfin (VecVoid.default Γ) _ h1 h1 (.panic .assertion) .panic (.unit 0) (.vec t [] b.data.cap) true he ?_ ⟨_, rfl⟩
          (by simp) (IsUnits.default Γ) ⟨rfl, i, hl, re⟩ ⟨hRb, rfl⟩ (Realloc.refl re.wf _)
        rw [append_inner Ro R, applyAligned_badCap R (append_room R Ro hr) hcc ?_ hmod]
        show (c.data.len * _ + _) % _ = 0
        rw [← Nat.add_mul, Nat.mul_mod_left]

/-- Every operation does what the machine says. -/
theorem step_sim {s : XState} (H : s.Holds Γ slots w.heap) {op : Op} (ht : op.Typed Γ) :
    MSim Γ (op.exec Γ cfg vt) slots w (op.step Γ cfg s) := by
  have wf := H.wf
  cases op with
  | withType k t => exact create_sim H k (withType_fresh wf)
  | withCapacity k t n => exact create_sim H k (withCapacity_fresh wf n)
  | fromSlice k t xs => exact create_sim H k (fromSlice_fresh ht.1 wf ht.2)
  | drop k => exact drop_sim H k
  | clone k j => exact clone_sim H k j
  | append k j => exact append_sim H k j
  | roundTrip k t => exact roundTrip_sim ht H k
  | pushAs k t x =>
    refine onSlot_sim H k fun c y I => ?_
    cases y with
    | vec t' es cap => obtain ⟨R, rfl⟩ := I; exact pushAs_agrees ht.1 R wf ht.2
    | unit n => exact unit_pushAs ht.1 I wf ht.2
  | push k t x =>
    refine onSlot_sim H k fun c y I => ?_
    cases y with
    | vec t' es cap => obtain ⟨R, rfl⟩ := I; exact push_agrees R wf ht.2
    | unit n => exact unit_push I wf ht.2
  | resize k t n x =>
    refine onSlot_sim H k fun c y I => ?_
    cases y with
    | vec t' es cap => obtain ⟨R, rfl⟩ := I; exact resize_agrees ht.1 R wf ht.2 n
    | unit n => exact unit_resize I wf
  | reserve k n =>
    refine onSlot_sim H k fun c y I => ?_
    cases y with
    | vec t' es cap => obtain ⟨R, rfl⟩ := I; exact reserve_agrees R wf n
    | unit n => exact unit_reserve I wf _
  | clear k =>
    refine onSlot_sim H k fun c y I => ?_
    cases y with
    | vec t' es cap => obtain ⟨R, rfl⟩ := I; exact clear_agrees R wf
    | unit n => exact unit_clear I wf
  | fill k t x =>
    refine onSlot_sim H k fun c y I => ?_
    cases y with
    | vec t' es cap => obtain ⟨R, rfl⟩ := I; exact fill_agrees R wf ht.2
    | unit n => exact unit_fill I wf ht.2
  | copyFromSlice k t xs =>
    refine onSlot_sim H k fun c y I => ?_
    cases y with
    | vec t' es cap => obtain ⟨R, rfl⟩ := I; exact copyFromSlice_agrees R wf ht.2
    | unit n => exact unit_copyFromSlice I wf
  | rotateLeft k n =>
    refine onSlot_sim H k fun c y I => ?_
    cases y with
    | vec t' es cap => obtain ⟨R, rfl⟩ := I; exact rotateLeft_agrees R wf n
    | unit n => exact unit_rotateLeft I wf _
  | rotateRight k n =>
    refine onSlot_sim H k fun c y I => ?_
    cases y with
    | vec t' es cap => obtain ⟨R, rfl⟩ := I; exact rotateRight_agrees R wf n
    | unit n => exact unit_rotateRight I wf _
  | swap k i j =>
    refine onSlot_sim H k fun c y I => ?_
    cases y with
    | vec t' es cap => obtain ⟨R, rfl⟩ := I; exact swap_agrees R wf i j
    | unit n => exact unit_swap I wf i j
  | setAs k t i x =>
    refine onSlot_sim H k fun c y I => ?_
    cases y with
    | vec t' es cap => obtain ⟨R, rfl⟩ := I; exact setAs_agrees R wf i ht.2
    | unit n => exact unit_setAs I wf i ht.2
  | setValue k i t x =>
    refine onSlot_sim H k fun c y I => ?_
    cases y with
    | vec t' es cap => obtain ⟨R, rfl⟩ := I; exact setValue_agrees R wf i ht.2
    | unit n => exact unit_setValue I wf i ht.2
  | mapAll k f =>
    refine onSlot_sim H k fun c y I => ?_
    cases y with
    | vec t' es cap => obtain ⟨R, rfl⟩ := I; exact mapAll_agrees R wf ht
    | unit n => exact unit_mapAll I wf
  | len k => exact onSlot_sim H k fun c y I => len_agrees wf I
  | typeId k => exact onSlot_sim H k fun c y I => typeId_agrees wf I
  | getAs k t i => exact onSlot_sim H k fun c y I => getAs_agrees wf I i
  | get k i => exact onSlot_sim H k fun c y I => get_agrees wf I i
  | asSlice k t => exact onSlot_sim H k fun c y I => asSlice_agrees wf I
  | iter k => exact onSlot_sim H k fun c y I => iter_agrees wf I

/-- Every program with caught panics does what the machine says. -/
theorem run_sim (ops : List Op) : ∀ {s : XState} {slots : Slots V} {w : World U},
    s.Holds Γ slots w.heap → (∀ op ∈ ops, op.Typed Γ) →
    match XState.run Γ cfg ops s with
    | none => (runCaught Γ cfg vt ops (slots, w)).1 = .ub
    | some (os, s') => ∃ slots' h', runCaught Γ cfg vt ops (slots, w) = (.ok os, (slots', { w with heap := h' })) ∧
        s'.Holds Γ slots' h' := by
  induction ops with
  | nil => intro s slots w H _; exact ⟨slots, w.heap, rfl, H⟩
  | cons op ops ih =>
    intro s slots w H ht
    have hs := step_sim (cfg := cfg) (vt := vt) H (ht op (List.mem_cons_self ..))
    have hts : ∀ op ∈ ops, op.Typed Γ := fun op h => ht op (List.mem_cons_of_mem _ h)
    rcases hst : op.step Γ cfg s with ⟨o, s1⟩
    rw [hst] at hs
    rcases hs with ⟨h1, h2⟩ | ⟨h1, r, slots1, h', hrun, ho, H1⟩
    · simp only at h1
      subst h1
      simp only [XState.run, hst]
      rcases he : op.exec Γ cfg vt (slots, w) with ⟨r, st⟩
      rw [he] at h2
      simp only at h2
      subst h2
      simp only [runCaught, M.bind_run, he]
    · simp only at h1 H1 ho
      have hi := ih (s := s1) (slots := slots1) (w := { w with heap := h' }) H1 hts
      cases o with
      | ub => exact absurd rfl h1
      | ok o =>
        have : r = .ok o := ho
        subst this
        simp only [XState.run, hst]
        cases hr : XState.run Γ cfg ops s1 with
        | none =>
          rw [hr] at hi
          simp only [Option.map_none]
          rcases hc : runCaught Γ cfg vt ops (slots1, ({ w with heap := h' } : World U)) with ⟨r2, st⟩
          rw [hc] at hi
          simp only at hi
          subst hi
          simp only [runCaught, M.bind_run, hrun, hc]
        | some q =>
          obtain ⟨os, s2⟩ := q
          rw [hr] at hi
          obtain ⟨slots2, h2, hc, H2⟩ := hi
          simp only [Option.map_some]
          exact ⟨slots2, h2, by simp only [runCaught, M.bind_run, hrun, hc, M.pure_run], H2⟩
      | panic =>
        obtain ⟨z, rfl⟩ : ∃ z, r = .panic z := ho
        simp only [XState.run, hst]
        cases hr : XState.run Γ cfg ops s1 with
        | none =>
          rw [hr] at hi
          simp only [Option.map_none]
          rcases hc : runCaught Γ cfg vt ops (slots1, ({ w with heap := h' } : World U)) with ⟨r2, st⟩
          rw [hc] at hi
          simp only at hi
          subst hi
          simp only [runCaught, M.bind_run, hrun, hc]
        | some q =>
          obtain ⟨os, s2⟩ := q
          rw [hr] at hi
          obtain ⟨slots2, h2, hc, H2⟩ := hi
          simp only [Option.map_some]
          exact ⟨slots2, h2, by simp only [runCaught, M.bind_run, hrun, hc, M.pure_run], H2⟩

end Dync
