import Verif.HistoryDynLemmas
/-!
# Every operation on `VecDyn` containers and owned values agrees with its specification
-/
namespace Dync
variable {U V : Type} [HasDrop U V] [HasClone U V] {Γ : TyEnv U} {N : Nat} {slots : DSlots V} {s s' : DState}
  {cfg : Cfg} {vt : TyId → V} {w : World U} {o : Obs} {u' : U}

/-- What one operation achieves. -/
def DOp.StepOk (Γ : TyEnv U) (cfg : Cfg) (vt : TyId → V) (N : Nat) (op : DOp) (slots : DSlots V) (w : World U) (o : Obs)
    (s' : DState) (u' : U) : Prop :=
  ∃ slots' h', op.exec Γ cfg vt (slots, w) = (.ok o, (slots', ⟨h', u'⟩)) ∧ DInv Γ N slots' h' s'

private theorem unchanged {t : TyId} {es : List Bytes} {c : VecDyn V} {m : M (VecDyn V × World U) Obs}
    (R : Repr Γ w.heap t es c.data) (wf : w.heap.WF) (hm : m (c, w) = (.ok o, (c, w))) :
    ∃ d, m (c, w) = (.ok o, ({ c with data := d }, w)) ∧ Evolves Γ t 0 es w.heap c.data w.heap d :=
  ⟨c.data, hm, Evolves.refl R wf⟩

/-- Unfold a successful bind. -/
theorem M.bind_ok_inv {σ α β : Type} {m : M σ α} {f : α → M σ β} {s s2 : σ} {b : β}
    (h : (m >>= f) s = (.ok b, s2)) : ∃ a s1, m s = (.ok a, s1) ∧ f a s1 = (.ok b, s2) := by
  simp only [M.bind_run] at h
  rcases hm : m s with ⟨r, s1⟩
  rw [hm] at h
  cases r with
  | ok a => exact ⟨a, s1, rfl, h⟩
  | panic y => cases h
  | ub => cases h
  | abort => cases h

theorem DSpec.user_ok_inv {α : Type} {m : M U α} {s : DState} {u : U} {a : α} {q : DState × U}
    (h : DSpec.user m (s, u) = (.ok a, q)) : ∃ u', m u = (.ok a, u') ∧ q = (s, u') := by
  simp only [DSpec.user, M.zoom_run] at h
  rcases hm : m u with ⟨r, u1⟩
  rw [hm] at h
  simp only at h
  cases h
  exact ⟨u1, rfl, rfl⟩

theorem refuse_ok_inv {t : TyId} {x : Bytes} {es : List Bytes} {u : U} {q : List Bytes × U}
    (h : DSpec.refuse Γ t x (es, u) = (.ok o, q)) : ∃ u', Γ.drop t x u = (.ok (), u') ∧ q = (es, u') ∧ o = .refused := by
  obtain ⟨a, q1, h1, h2⟩ := M.bind_ok_inv h
  simp only [M.zoom_run] at h1
  rcases hd : Γ.drop t x u with ⟨r, u1⟩
  rw [hd] at h1
  simp only at h1
  cases h1
  cases h2
  exact ⟨u1, rfl, rfl, rfl⟩

theorem tvec_ok_inv {f : List Bytes → U → Res Unit × (List Bytes × U)} {es : List Bytes} {u : U} {q : List Bytes × U}
    (h : DSpec.tvec f (es, u) = (.ok o, q)) : f es u = (.ok (), q) ∧ o = .done := by
  obtain ⟨a, q1, h1, h2⟩ := M.bind_ok_inv h
  cases h2
  exact ⟨h1, rfl⟩

/-! ### Creating containers and values -/

theorem fromVec_new {t : TyId} {xs : List Bytes} (vt : V) (wf : w.heap.WF) (hpos : 0 < Γ.size t)
    (hx : ∀ x ∈ xs, x.length = Γ.size t) (hroom : Room Γ t xs.length) :
    ∃ c : VecDyn V, ∃ h', (do
        let v ← RVec.withCapacity (Γ.layout t) xs.length
        return .vec (← VecCopy.fromVec Γ t vt { v with len := xs.length, bytes := xs.flatten }) : M (World U) (Item V)) w =
        (.ok (.vec c), { w with heap := h' }) ∧ Repr Γ h' t xs c.data ∧ Realloc w.heap none h' c.data.ptr ∧
      c.vtable = vt ∧ c.data.cap ≤ max xs.length 8 := by
  obtain ⟨p, h1, hrun, wf1, hre1, hv⟩ := VecDyn.fresh_isVec (w := w) wf hpos hroom
  have hiv := hv xs (Nat.le_refl _) hx
  obtain ⟨p2, k, h2, hfv, hR, hre2, _, hub⟩ := VecCopy.fromVec_ok (w := { w with heap := h1 }) (vt := vt) hiv wf1 hpos
  refine ⟨⟨_, vt⟩, h2, ?_, hR, Realloc.trans wf (fun i hi => by cases hi) hre1 hre2, rfl, hub⟩
  simp only [M.bind_run, hrun, hfv, M.pure_run]

theorem cloneItem_ok {a : Item V} {b b' : SItem} {u1 : U} (A : ItemOk Γ N w.heap a b) (wf : w.heap.WF)
    (hc : DSpec.cloneS Γ b w.user = (.ok b', u1)) :
    ∃ a' h', DOp.cloneItem cfg a w = (.ok a', ⟨h', u1⟩) ∧ ItemOk Γ N h' a' b' ∧ Realloc w.heap none h' a'.ptr := by
  cases b with
  | vec t es =>
    obtain ⟨c, rfl, R, hcap, hroom, hl, hlc⟩ := A.vec
    obtain ⟨es', u2, h1, h2⟩ := M.bind_ok_inv hc
    cases h2
    obtain ⟨d, h', hrun, hR, hcap', hre⟩ := VecDyn.clone_ok (cfg := cfg) R hlc wf (clones_ok h1)
    refine ⟨.vec ⟨d, c.vtable⟩, h', by simp only [DOp.cloneItem, M.bind_run, hrun, M.pure_run], ⟨hR, ?_, hroom, hl, hlc⟩, hre⟩
    show d.cap ≤ _
    omega
  | box t x =>
    obtain ⟨v, rfl, B, hl, hlc⟩ := A.box
    obtain ⟨x', u2, h1, h2⟩ := M.bind_ok_inv hc
    cases h2
    obtain ⟨v', h', hrun, B', hvt, hre⟩ := ValueRef.cloneValue_ok wf B.asRef hlc h1
    refine ⟨.box v', h', by simp only [DOp.cloneItem, BoxValue.clone, M.bind_run, hrun, M.pure_run], ⟨B', ?_, ?_⟩, hre⟩
    · rw [hvt]; exact hl
    · rw [hvt]; exact hlc
  | small t x =>
    obtain ⟨v, rfl, B, hl, hlc⟩ := A.small
    obtain ⟨x', u2, h1, h2⟩ := M.bind_ok_inv hc
    cases h2
    obtain ⟨v', hrun, B', hvt⟩ := ValueRef.cloneSmallValue_ok B.asRef B.size hlc h1
    refine ⟨.small v', w.heap, by simp only [DOp.cloneItem, SmallValue.clone, M.bind_run, hrun, M.pure_run],
      ⟨B', ?_, ?_⟩, Realloc.refl wf none⟩
    · rw [hvt]; exact hl
    · rw [hvt]; exact hlc

/-! ### Typed conversions -/

theorem intoVec_ok {t : TyId} {es : List Bytes} {c : VecDyn V} (R : Repr Γ w.heap t es c.data) :
    VecCopy.intoVec Γ cfg t c w = (.ok (some c.data.typedView), w) := by
  have hck : VecCopy.check (U := U) cfg t c = pure (some c) := by
    simp [VecCopy.check, VecCopy.elementTypeId, R.type_id]
  simp only [VecCopy.intoVec, hck, M.bind_run, M.pure_run, R.intoVec]

theorem consumeItem_ok {a : Item V} {b : SItem} {u1 : U} (A : ItemOk Γ N w.heap a b) (wf : w.heap.WF)
    (hd : b.drop Γ w.user = (.ok (), u1)) :
    ∃ h', DOp.consumeItem Γ cfg b.ty a w = (.ok .done, ⟨h', u1⟩) ∧ Realloc w.heap a.ptr h' none := by
  cases b with
  | vec t es =>
    obtain ⟨c, rfl, R, hcap, hroom, hl, hlc⟩ := A.vec
    obtain ⟨h', hrun, hre⟩ := R.isVec.dropTyped wf R.pos hd
    refine ⟨h', ?_, hre⟩
    simp only [DOp.consumeItem, SItem.ty, M.bind_run, intoVec_ok R, hrun, M.pure_run]
  | box t x =>
    obtain ⟨v, rfl, B, hl, hlc⟩ := A.box
    obtain ⟨h', hde, hre, -⟩ := dealloc_owned wf B.block
    refine ⟨h', ?_, hre⟩
    have hd' : Γ.drop t v.bytes.bytes w.user = (.ok (), u1) := by rw [B.bytes]; exact hd
    have hdown : BoxValue.downcast (U := U) t v = pure (some v.bytes) := by
      simp [BoxValue.downcast, Value.is, B.type_id]
    have : dropTypedBox Γ t v.bytes w = (.ok (), ⟨h', u1⟩) := by
      unfold dropTypedBox
      rw [M.thenDrop_ok (worldUser_ok hd') (s'' := ⟨h', u1⟩) (by simp only [worldHeap, M.zoom_run, hde])]
    simp only [DOp.consumeItem, SItem.ty, hdown, M.bind_run, M.pure_run, this]
  | small t x =>
    obtain ⟨v, rfl, B, hl, hlc⟩ := A.small
    have hd' : Γ.drop t v.bytes.bytes w.user = (.ok (), u1) := by rw [B.bytes]; exact hd
    have hdown : SmallValue.downcast Γ t v = pure (some v.bytes.bytes) := by
      simp [SmallValue.downcast, Value.is, B.type_id, B.size]
    refine ⟨w.heap, ?_, Realloc.refl wf none⟩
    simp only [DOp.consumeItem, SItem.ty, hdown, M.bind_run, M.pure_run, worldUser_ok hd']

/-! ### Places -/

/-- Writing back what was read. -/
theorem write_read {k i : Nat} {t : TyId} {x : Bytes} {s : DState} {u : U} {q : DState × U}
    (h : DSpec.read k i (s, u) = (.ok (some (t, x)), q)) : Slots.put s k ((s k).map (SItem.setAt i x)) = s := by
  cases hs : s k with
  | none => rw [Option.map_none, ← hs, Slots.put_self]
  | some b =>
    have : SItem.setAt i x b = b := by
      cases b with
      | vec t' es =>
        simp only [DSpec.read, hs] at h
        by_cases hi : i < es.length
        · rw [dif_pos hi] at h; cases h; simp [SItem.setAt]
        · rw [dif_neg hi] at h; cases h
      | box t' x' => simp only [DSpec.read, hs] at h; cases h; rfl
      | small t' x' => simp only [DSpec.read, hs] at h; cases h; rfl
    rw [Option.map_some, this, ← hs, Slots.put_self]

theorem read_congr {k i : Nat} {s s2 : DState} {u u2 : U} {r : Option (TyId × Bytes)} {q : DState × U}
    (h : DSpec.read k i (s, u) = (.ok r, q)) (hs : s2 k = s k) : DSpec.read k i (s2, u2) = (.ok r, (s2, u2)) := by
  simp only [DSpec.read] at h ⊢
  rw [hs]
  cases hk : s k with
  | none => rw [hk] at h; cases h; rfl
  | some b =>
    rw [hk] at h
    cases b with
    | vec t' es =>
      simp only at h ⊢
      by_cases hi : i < es.length
      · rw [dif_pos hi] at h ⊢; cases h; rfl
      · rw [dif_neg hi] at h; cases h
    | box t' x' => cases h; rfl
    | small t' x' => cases h; rfl

/-- `place.assign(value)`: the value is moved out of variable `j`. -/
theorem assign_step {k i j : Nat} {a : Item V} {t : TyId} {x : Bytes} {b : SItem} (hkj : k ≠ j)
    (I : DInv Γ N slots w.heap s) (hj : slots j = some a) (hsj : s j = some b) (hbt : b = .box t x ∨ b = .small t x)
    (hspec : DOp.spec.assignPlace Γ k i j t x (s, w.user) = (.ok o, (s', u'))) (hk : s k ≠ none) :
    ∃ slots' h', (do
        let _ ← DOp.readRef cfg k i
        DOp.clearVar j
        DOp.onMut cfg k i (DOp.assignItem a) : M (DSlots V × World U) Obs) (slots, w) =
      (.ok o, (slots', ⟨h', u'⟩)) ∧ DInv Γ N slots' h' s' := by
  simp only [DOp.spec.assignPlace] at hspec
  obtain ⟨r, q, hr0, hspec⟩ := M.bind_ok_inv hspec
  obtain ⟨rfl, r0', hread, hr0'⟩ := read_step (cfg := cfg) I hr0
  · cases r with
    | none =>
      cases r0' with
      | none => exact absurd hr0' hk
      | some v => exact hr0'.elim
    | some p =>
      obtain ⟨t', old⟩ := p
      simp only at hspec
      have hA : ItemOk Γ N w.heap a b := by have := I.ok j; rw [hj, hsj] at this; exact this
      -- the value `v` with the content it has when dropped
      have key : ∀ (b' z : Bytes) (u1 : U), b'.length = Γ.size t' →
          (t = t' ∧ b' = x ∧ z = old ∨ t ≠ t' ∧ b' = old ∧ z = x) → Γ.drop t z w.user = (.ok (), u1) →
          ∃ h', (∀ v, IsRef Γ t' old v → LawfulDrop Γ t' v.vtable → LawfulClone Γ t' v.vtable →
            DOp.assignItem a (v, w) = (.ok .done, ({ v with bytes := b' }, ⟨h', u1⟩))) ∧
          Realloc w.heap a.ptr h' none := by
        intro b' z u1 hb' hcase hd
        rcases hbt with rfl | rfl
        · obtain ⟨v0, rfl, B, hl, hlc⟩ := hA.box
          rcases hcase with ⟨rfl, rfl, rfl⟩ | ⟨hne, rfl, rfl⟩
          · have hold : z.length = Γ.size t := by
              obtain ⟨-, r', -, hr'⟩ := read_step (cfg := cfg) I hr0
              cases r' with
              | none => exact hr'.elim
              | some v => exact hr'.1.length
            obtain ⟨h', -, hre, -⟩ := C33_assign_box (a := (⟨z, t, Γ.align t, v0.vtable⟩ : ValueRef V)) I.wf
              ⟨rfl, rfl, rfl, hold⟩ B hl hd
            have hB2 : IsBox Γ w.heap t z { v0 with bytes := ByteBuf.set z v0.bytes } :=
              ⟨B.type_id, B.align, rfl, hold, B.block⟩
            obtain ⟨h2, e2, r2, n2⟩ := C31_box_drop I.wf hB2 hl hd
            refine ⟨h2, fun v hv _ _ => ?_, r2⟩
            have hs := (C33_swap hv B.asRef).1 rfl
            have : ValueRef.assign v0 (v, w) = (.ok (), ({ v with bytes := b' }, ⟨h2, u1⟩)) := by
              unfold ValueRef.assign
              simp only [hs]
              rw [M.thenDrop_ok (by rfl) e2]
            simp only [DOp.assignItem, M.bind_run, this, M.pure_run]
          · obtain ⟨h2, e2, r2, n2⟩ := C31_box_drop I.wf B hl hd
            refine ⟨h2, fun v hv _ _ => ?_, r2⟩
            have hs := (C33_swap hv B.asRef).2 (Ne.symm hne)
            have : ValueRef.assign v0 (v, w) = (.ok (), ({ v with bytes := b' }, ⟨h2, u1⟩)) := by
              unfold ValueRef.assign
              simp only [hs]
              rw [M.thenDrop_ok (by rfl) (s'' := ⟨h2, u1⟩) (by exact e2)]
              rw [← hv.bytes]
            simp only [DOp.assignItem, M.bind_run, this, M.pure_run]
        · obtain ⟨v0, rfl, B, hl, hlc⟩ := hA.small
          rcases hcase with ⟨rfl, rfl, rfl⟩ | ⟨hne, rfl, rfl⟩
          · refine ⟨w.heap, fun v hv _ _ => ?_, Realloc.refl I.wf none⟩
            have := C33_assign_small hv B hl hd
            simp only [DOp.assignItem, M.bind_run, this, M.pure_run]
          · refine ⟨w.heap, fun v hv _ _ => ?_, Realloc.refl I.wf none⟩
            have hs := (C33_swap hv B.asRef).2 (Ne.symm hne)
            have e2 := C32_small_drop (w := w) B hl hd
            have : ValueRef.assign v0 (v, w) = (.ok (), ({ v with bytes := b' }, { w with user := u1 })) := by
              unfold ValueRef.assign
              simp only [hs]
              rw [M.thenDrop_ok (by rfl) (s'' := { w with user := u1 }) (by exact e2)]
              rw [← hv.bytes]
            simp only [DOp.assignItem, M.bind_run, this, M.pure_run]
      -- conclude
      have fin : ∀ (b' z : Bytes) (u1 : U), b'.length = Γ.size t' →
          (t = t' ∧ b' = x ∧ z = old ∨ t ≠ t' ∧ b' = old ∧ z = x) → Γ.drop t z w.user = (.ok (), u1) →
          ∃ slots' h', (do
              let _ ← DOp.readRef cfg k i
              DOp.clearVar j
              DOp.onMut cfg k i (DOp.assignItem a) : M (DSlots V × World U) Obs) (slots, w) =
            (.ok .done, (slots', ⟨h', u1⟩)) ∧
            DInv Γ N slots' h' (Slots.put (Slots.put s j none) k ((s k).map (SItem.setAt i b'))) := by
        intro b' z u1 hb' hcase hd
        obtain ⟨h', hm, hre⟩ := key b' z u1 hb' hcase hd
        obtain ⟨a', hrun, I1⟩ := onMut_step (cfg := cfg) I hr0 hb' hm
        have hrun' : DOp.onMut cfg k i (DOp.assignItem a) (Slots.put slots j none, w) =
            (.ok .done, (Slots.put (Slots.put slots j none) k (some a'), ⟨h', u1⟩)) := by
          have e : Slots.put slots j none k = slots k := Slots.put_other _ _ hkj
          simp only [DOp.onMut, e] at hrun ⊢
          cases hsk : slots k with
          | none => rw [hsk] at hrun; cases hrun
          | some a0 =>
            rw [hsk] at hrun
            cases a0 <;> (
              simp only [Prod.mk.injEq] at hrun ⊢
              obtain ⟨h1, h2, h3⟩ := hrun
              refine ⟨h1, ?_, h3⟩
              have := congrFun h2 k
              simp only [Slots.put_same] at this
              rw [this])
        refine ⟨Slots.put (Slots.put slots j none) k (some a'), h', ?_, ?_⟩
        · simp only [M.bind_run, hread, DOp.clearVar, M.modify_run, hrun']
        · have I2 := I1.update (k := j) (a := none) (b := none) (h' := h') (by
            rw [Slots.put_other _ _ (Ne.symm hkj), hj]; exact hre) trivial
          rw [Slots.put_comm _ _ _ hkj] at I2
          rw [Slots.put_comm s _ _ hkj] at I2
          exact I2
      obtain ⟨-, r', -, hr'⟩ := read_step (cfg := cfg) I hr0
      have hold : old.length = Γ.size t' := by
        cases r' with
        | none => exact hr'.elim
        | some v => exact hr'.1.length
      have hxl : x.length = Γ.size t := by
        rcases hbt with rfl | rfl
        · obtain ⟨v0, rfl, B, hl, hlc⟩ := hA.box; exact B.length
        · obtain ⟨v0, rfl, B, hl, hlc⟩ := hA.small; exact B.length
      by_cases ht : t = t'
      · rw [if_pos ht] at hspec
        simp only [DSpec.write, DSpec.moveOut, M.bind_run, M.modify_run, DSpec.user, M.zoom_run] at hspec
        rcases hd : Γ.drop t old w.user with ⟨rd, ud⟩
        rw [hd] at hspec
        cases rd with
        | ok _ =>
          cases hspec
          rw [Slots.put_other _ _ hkj]
          exact fin x old _ (ht ▸ hxl) (.inl ⟨ht, rfl, rfl⟩) hd
        | panic y => cases hspec
        | ub => cases hspec
        | abort => cases hspec
      · rw [if_neg ht] at hspec
        simp only [DSpec.moveOut, M.bind_run, M.modify_run, DSpec.user, M.zoom_run] at hspec
        rcases hd : Γ.drop t x w.user with ⟨rd, ud⟩
        rw [hd] at hspec
        cases rd with
        | ok _ =>
          cases hspec
          have := fin old x _ hold (.inr ⟨ht, rfl, rfl⟩) hd
          have hr : DSpec.read k i (Slots.put s j none, w.user) = (.ok (some (t', old)), (Slots.put s j none, w.user)) :=
            read_congr hr0 (Slots.put_other _ _ hkj)
          rw [← Slots.put_other s none hkj, write_read hr] at this
          exact this
        | panic y => cases hspec
        | ub => cases hspec
        | abort => cases hspec

/-! ### Every operation -/

private theorem same {t : TyId} {es : List Bytes} {c : VecDyn V} {m : M (VecDyn V × World U) Obs} {u1 : U}
    (R : Repr Γ w.heap t es c.data) (wf : w.heap.WF) (hm : m (c, w) = (.ok o, (c, { w with user := u1 }))) :
    ∃ d h' n, m (c, w) = (.ok o, ({ c with data := d }, ⟨h', u1⟩)) ∧ Evolves Γ t n es w.heap c.data h' d ∧ n ≤ N :=
  ⟨c.data, w.heap, 0, hm, Evolves.refl R wf, Nat.zero_le _⟩

theorem dstep_ok (op : DOp) (hvt : ∀ t, LawfulDrop Γ t (vt t) ∧ LawfulClone Γ t (vt t))
    (I : DInv Γ N slots w.heap s) (hwt : op.WellTyped Γ) (hsup : op.Supported Γ N s)
    (hspec : op.spec Γ (s, w.user) = (.ok o, (s', u'))) : op.StepOk Γ cfg vt N slots w o s' u' := by
  have wf := I.wf
  cases op with
  | withType k t =>
    obtain ⟨c, h', hrun, R, hv, hre, hcap⟩ := VecCopy.withType_ok (vt := vt t) wf hwt
    refine create_step (a := .vec c) (b := .vec t _) (h1 := h') (u1 := w.user) I ?_ hre ⟨R, by omega, hsup, ?_⟩ hspec
    · simp only [M.bind_run, hrun, M.pure_run]
    · rw [hv]; exact hvt t
  | withCapacity k t n =>
    obtain ⟨hn, hroom⟩ := hsup
    obtain ⟨c, h', hrun, R, hv, hre, hcap⟩ := VecCopy.withCapacity_ok (vt := vt t) (n := n) wf hwt (hroom.mono (by omega))
    refine create_step (a := .vec c) (b := .vec t _) (h1 := h') (u1 := w.user) I ?_ hre ⟨R, by omega, hroom, ?_⟩ hspec
    · simp only [M.bind_run, hrun, M.pure_run]
    · rw [hv]; exact hvt t
  | fromVec k t xs =>
    obtain ⟨hn, hroom⟩ := hsup
    obtain ⟨c, h', hrun, R, hre, hv, hcap⟩ := fromVec_new (vt t) wf hwt.1 hwt.2 (hroom.mono (by omega))
    refine create_step (a := .vec c) (b := .vec t _) (h1 := h') (u1 := w.user) I hrun hre ⟨R, by omega, hroom, ?_⟩ hspec
    rw [hv]; exact hvt t
  | fromSlice k t xs =>
    obtain ⟨hn, hroom⟩ := hsup
    obtain ⟨es', q, h1, h2⟩ := M.bind_ok_inv hspec
    obtain ⟨u1, h0, rfl⟩ := DSpec.user_ok_inv h1
    obtain ⟨d, h', hrun, R, hre, hcap⟩ := VecDyn.fromSlice_ok (vt := vt t) wf hwt.1 (hroom.mono (by omega)) (clones_ok h0)
    refine create_step (b := .vec t _) (a := .vec ⟨d, vt t⟩) (h1 := h') (u1 := u1) I ?_ hre ⟨R, ?_, hroom, hvt t⟩ h2
    · simp only [M.bind_run, hrun, M.pure_run]
    · show d.cap ≤ _; omega
  | withSize k t n x =>
    obtain ⟨hn, hroom⟩ := hsup
    obtain ⟨es', q, h1, h2⟩ := M.bind_ok_inv hspec
    obtain ⟨u1, h0, rfl⟩ := DSpec.user_ok_inv h1
    cases n with
    | zero =>
      obtain ⟨⟨⟩, u2, h3, h4⟩ := M.bind_ok_inv h0
      cases h4
      obtain ⟨d, h', hrun, R, hre, hcap⟩ := VecDyn.withSize_zero_ok (vt := vt t) wf hwt.1 (room_zero Γ t) h3
      refine create_step (b := .vec t _) (a := .vec ⟨d, vt t⟩) (h1 := h') (u1 := u1) I ?_ hre ⟨R, ?_, hroom, hvt t⟩ h2
      · simp only [M.bind_run, hrun, M.pure_run]
      · show d.cap ≤ _; omega
    | succ n =>
      simp only [DSpec.vecOf] at h0
      rcases hp : TVec.pushClones Γ t x n [] w.user with ⟨r, es, u2⟩
      rw [hp] at h0
      cases r with
      | ok a =>
        cases h0
        obtain ⟨ys, hys, hm⟩ := mapEach_of_extendClones hp
        rw [List.nil_append] at hys
        subst hys
        obtain ⟨d, h', hrun, R, hre, hcap⟩ := VecDyn.withSize_ok (vt := vt t) wf hwt.1 (hroom.mono (by omega)) hwt.2 hm
        refine create_step (b := .vec t _) (a := .vec ⟨d, vt t⟩) (h1 := h') (u1 := u1) I ?_ hre ⟨R, ?_, hroom, hvt t⟩ h2
        · simp only [M.bind_run, hrun, M.pure_run]
        · show d.cap ≤ _; omega
      | panic y =>
        simp only at h0
        obtain ⟨_, _, _, h3⟩ := M.bind_ok_inv h0
        cases h3
      | ub => cases h0
      | abort => cases h0
  | newBox k t x =>
    obtain ⟨v, h', hrun, B, hv, hre⟩ := C31_box_new wf hwt (vt t)
    refine create_step (a := .box v) (b := .box t x) (h1 := h') (u1 := w.user) I ?_ hre ⟨B, ?_⟩ hspec
    · simp only [M.bind_run, hrun, M.pure_run]
    · rw [hv]; exact hvt t
  | newSmall k t x =>
    obtain ⟨v, hrun, B, hv⟩ := (C32_small_new (w := w) hwt.1 (vt t)).1 hwt.2
    refine create_step (a := .small v) (b := .small t x) (h1 := w.heap) (u1 := w.user) I ?_ (Realloc.refl wf none) ⟨B, ?_⟩ hspec
    · simp only [M.bind_run, hrun, M.pure_run]
    · rw [hv]; exact hvt t
  | drop k =>
    simp only [DOp.spec] at hspec
    cases hs : s k with
    | none =>
      rw [hs] at hspec; cases hspec
      exact ⟨slots, w.heap, by simp only [DOp.exec, I.empty hs], I⟩
    | some b =>
      rw [hs] at hspec
      simp only [M.bind_run, DSpec.moveOut, M.modify_run] at hspec
      obtain ⟨a, ha, A⟩ := I.lookup hs
      rcases hd : b.drop Γ w.user with ⟨r, u1⟩
      simp only [DSpec.user, M.zoom_run, hd] at hspec
      cases r with
      | ok _ =>
        cases hspec
        obtain ⟨h', hrun, hre⟩ := Item.drop_ok (cfg := cfg) A wf hd
        refine ⟨Slots.put slots k none, h', ?_, I.update (a := none) (b := none) (by rw [ha]; exact hre) trivial⟩
        simp only [DOp.exec, ha, M.bind_run, DOp.clearVar, M.modify_run, onWorld, M.zoom_run, hrun, M.pure_run]
      | panic y => cases hspec
      | ub => cases hspec
      | abort => cases hspec
  | clone k j =>
    simp only [DOp.spec] at hspec
    cases hs : s k with
    | none =>
      rw [hs] at hspec; cases hspec
      exact ⟨slots, w.heap, by simp only [DOp.exec, I.empty hs], I⟩
    | some b =>
      rw [hs] at hspec
      obtain ⟨a, ha, A⟩ := I.lookup hs
      obtain ⟨b', q, h1, h2⟩ := M.bind_ok_inv hspec
      obtain ⟨u1, h0, rfl⟩ := DSpec.user_ok_inv h1
      obtain ⟨a', h', hrun, A', hre⟩ := cloneItem_ok (cfg := cfg) A wf h0
      obtain ⟨slots', h'', hr, I'⟩ := create_step (cfg := cfg) I hrun hre A' h2
      exact ⟨slots', h'', by simp only [DOp.exec, ha, hr], I'⟩
  | consume k t =>
    simp only [DOp.spec] at hspec
    cases hs : s k with
    | none =>
      rw [hs] at hspec; cases hspec
      exact ⟨slots, w.heap, by simp only [DOp.exec, I.empty hs], I⟩
    | some b =>
      rw [hs] at hspec
      have ht := hsup b hs
      subst ht
      simp only [M.bind_run, DSpec.moveOut, M.modify_run] at hspec
      obtain ⟨a, ha, A⟩ := I.lookup hs
      rcases hd : b.drop Γ w.user with ⟨r, u1⟩
      simp only [DSpec.user, M.zoom_run, hd] at hspec
      cases r with
      | ok _ =>
        cases hspec
        obtain ⟨h', hrun, hre⟩ := consumeItem_ok (cfg := cfg) A wf hd
        refine ⟨Slots.put slots k none, h', ?_, I.update (a := none) (b := none) (by rw [ha]; exact hre) trivial⟩
        simp only [DOp.exec, ha, M.bind_run, DOp.clearVar, M.modify_run, onWorld, M.zoom_run, hrun, if_true]
      | panic y => cases hspec
      | ub => cases hspec
      | abort => cases hspec
  | roundTrip k t =>
    simp only [DOp.spec] at hspec
    cases hs : s k with
    | none =>
      rw [hs] at hspec; cases hspec
      exact ⟨slots, w.heap, by simp only [DOp.exec, I.empty hs], I⟩
    | some b =>
      obtain ⟨a, ha, A⟩ := I.lookup hs
      cases b with
      | box t' x =>
        rw [hs] at hspec; cases hspec
        obtain ⟨v, rfl, -⟩ := A.box
        exact ⟨slots, w.heap, by simp only [DOp.exec, ha], I⟩
      | small t' x =>
        rw [hs] at hspec; cases hspec
        obtain ⟨v, rfl, -⟩ := A.small
        exact ⟨slots, w.heap, by simp only [DOp.exec, ha], I⟩
      | vec t' es =>
        have ht := hsup t' es hs
        subst ht
        rw [hs] at hspec
        simp only [if_true] at hspec
        cases hspec
        obtain ⟨c, rfl, R, hcap, hroom, -⟩ := A.vec
        obtain ⟨p, n, h', hrun, hR, hre, hsame, -⟩ := VecCopy.fromVec_ok (vt := vt t') R.isVec wf R.pos
        obtain ⟨hp, hn, hh⟩ := hsame R.cap_pos
        subst hh
        have I' := I.update (k := k) (a := some (.vec ⟨⟨p, c.data.typedView.len, n, ElemInfo.new Γ t', c.data.typedView.bytes⟩, vt t'⟩))
          (b := some (.vec t' es)) (by rw [ha]; exact hre) ⟨hR, by show n ≤ _; rw [hn]; exact hcap, hroom, hvt t'⟩
        have hss : Slots.put s k (some (.vec t' es)) = s := by rw [← hs, Slots.put_self]
        rw [hss] at I'
        refine ⟨_, w.heap, ?_, I'⟩
        simp only [DOp.exec, ha, M.bind_run, DOp.clearVar, M.modify_run, DOp.roundTripVec, onWorld, M.zoom_run, intoVec_ok R,
          DOp.create, hrun, M.pure_run, DOp.putItem, Slots.put_same, Slots.put_put]
  | append k j =>
    simp only [DOp.spec] at hspec
    by_cases hkj : k = j
    · rw [if_pos hkj] at hspec; cases hspec
      exact ⟨slots, w.heap, by simp only [DOp.exec, if_pos hkj], I⟩
    · rw [if_neg hkj] at hspec
      have hother : (∀ t es t' es', ¬ (s k = some (.vec t es) ∧ s j = some (.vec t' es'))) →
          DOp.StepOk Γ cfg vt N (.append k j) slots w o s' u' := by
        intro hn
        have h1 : (Res.ok Obs.absent, (s, w.user)) = (Res.ok o, (s', u')) := by
          rcases hs : s k with _ | ⟨t, es⟩ | ⟨t, x⟩ | ⟨t, x⟩ <;> rcases hs' : s j with _ | ⟨t', es'⟩ | ⟨t', x'⟩ | ⟨t', x'⟩ <;>
            first
            | exact absurd ⟨hs, hs'⟩ (hn _ _ _ _)
            | (rw [hs, hs'] at hspec; exact hspec)
        cases h1
        refine ⟨slots, w.heap, ?_, I⟩
        have hk := I.ok k
        have hj := I.ok j
        simp only [DOp.exec, if_neg hkj]
        rcases ha : slots k with _ | ⟨c⟩ | ⟨v⟩ | ⟨v⟩ <;> rcases hb : slots j with _ | ⟨b⟩ | ⟨v'⟩ | ⟨v'⟩ <;> try rfl
        rw [ha] at hk; rw [hb] at hj
        rcases hs : s k with _ | ⟨t, es⟩ | ⟨t, x⟩ | ⟨t, x⟩ <;> rw [hs] at hk <;> try exact hk.elim
        rcases hs' : s j with _ | ⟨t', es'⟩ | ⟨t', x'⟩ | ⟨t', x'⟩ <;> rw [hs'] at hj <;> try exact hj.elim
        exact absurd ⟨hs, hs'⟩ (hn _ _ _ _)
      by_cases hv : ∃ t es t' es', s k = some (.vec t es) ∧ s j = some (.vec t' es')
      · obtain ⟨t, es, t', es', hs, hs'⟩ := hv
        obtain ⟨a, ha, A⟩ := I.lookup hs
        obtain ⟨c, rfl, R, hcap, hroom, hl⟩ := A.vec
        obtain ⟨a', hb, B⟩ := I.lookup hs'
        obtain ⟨b, rfl, Rb, hcapb, hroomb, hlb⟩ := B.vec
        rw [hs, hs'] at hspec
        simp only at hspec
        by_cases ht : t = t'
        · subst ht
          rw [if_pos rfl] at hspec; cases hspec
          obtain ⟨hn, hodd⟩ := hsup t es t es' hs hs' rfl
          obtain ⟨d, h', hrun, hev⟩ := VecCopy.append_ok (cfg := cfg) (c := c)
            (w := (⟨w.heap, (b, w.user)⟩ : World (VecCopy V × U))) (Γ := Γ) R Rb wf (hroom.mono (by omega))
            (fun hbad => hodd ⟨hbad.1, hbad.2.1, hbad.2.2.2⟩)
          have I1 := I.update (k := k) (h' := h') (a := some (.vec { c with data := d })) (b := some (.vec t (es ++ es')))
            (by rw [ha]; exact hev.realloc)
            ⟨hev.repr, by have := hev.cap_bound; show d.cap ≤ _; omega, hroom, hl⟩
          have hb1 : Slots.put slots k (some (.vec { c with data := d })) j = some (.vec b) := by
            rw [Slots.put_other _ _ (Ne.symm hkj)]; exact hb
          have Rb1 : Repr Γ h' t es' b.data := by
            have := I1.ok j
            rw [hb1, Slots.put_other _ _ (Ne.symm hkj), hs'] at this
            exact this.1
          have hev2 : Evolves Γ t 0 [] h' b.data h' ⟨b.data.ptr, 0, b.data.cap, b.data.elem, []⟩ :=
            Evolves.setContent Rb1 I1.wf (by simp) (by simp) rfl rfl rfl
          have I2 := I1.update (k := j) (h' := h')
            (a := some (.vec { b with data := ⟨b.data.ptr, 0, b.data.cap, b.data.elem, []⟩ }))
            (b := some (.vec t [])) (by rw [hb1]; exact hev2.realloc) ⟨hev2.repr, hcapb, hroomb, hlb⟩
          refine ⟨_, h', ?_, I2⟩
          simp only [DOp.exec, if_neg hkj, ha, hb, hrun, Res.map, Obs.ofUnit]
        · rw [if_neg ht] at hspec; cases hspec
          have hne : ¬ b.elementTypeId = c.elementTypeId := by
            simp [VecCopy.elementTypeId, R.type_id, Rb.type_id, Ne.symm ht]
          have hrun : VecCopy.append Γ cfg (c, (⟨w.heap, (b, w.user)⟩ : World (VecCopy V × U))) =
              (.ok none, (c, ⟨w.heap, (b, w.user)⟩)) := by
            simp only [VecCopy.append, M.bind_run, getSelf_run, M.get_run, if_neg hne, M.pure_run]
          refine ⟨slots, w.heap, ?_, I⟩
          simp only [DOp.exec, if_neg hkj, ha, hb, hrun, Res.map, Obs.ofUnit]
          have e1 : Slots.put slots k (some (.vec c)) = slots := by rw [← ha]; exact Slots.put_self _ _
          rw [e1, ← hb, Slots.put_self]
      · exact hother fun t es t' es' h => hv ⟨t, es, t', es', h⟩
  | pushAs k t x =>
    refine method_step I hspec ?_
    intro c t' es es' hc hs hf R hcap hroom hl hlc
    by_cases ht : t = t'
    · subst ht
      rw [if_pos rfl] at hf; cases hf
      have hn := hsup es hs
      obtain ⟨d, h', hrun, hev⟩ := VecCopy.pushAs_ok (cfg := cfg) R wf hwt (hroom.mono (by omega))
      exact ⟨d, h', _, by simp only [M.bind_run, hrun, M.pure_run, Obs.ofUnit], hev, hn⟩
    · rw [if_neg ht] at hf
      obtain ⟨u1, hd, he, rfl⟩ := refuse_ok_inv hf
      cases he
      refine same R wf ?_
      simp only [VecCopy.pushAs, M.bind_run, getSelf_run, VecCopy.checkRef_none R ht, onWorld, worldUser, M.zoom_run,
        hd, M.pure_run, Obs.ofUnit]
  | resize k t n x =>
    refine method_step I hspec ?_
    intro c t' es es' hc hs hf R hcap hroom hl hlc
    by_cases ht : t = t'
    · subst ht
      rw [if_pos rfl] at hf
      obtain ⟨hn, hodd⟩ := hsup es hs
      obtain ⟨hg, rfl⟩ := tvec_ok_inv hf
      clear hf
      have hf := hg
      by_cases hle : es.length ≤ n
      · rw [if_pos hle] at hf
        obtain ⟨d, h', hrun, hev⟩ := VecDyn.resize_grow (cfg := cfg) R wf hle (hroom.mono (by omega))
          (fun hb => hodd ⟨hb.1, hb.2.1, hb.2.2.2⟩) hf
        exact ⟨d, h', n, by simp only [M.bind_run, hrun, Res.map, M.pure_run, Obs.ofUnit], hev, hn⟩
      · rw [if_neg hle] at hf
        rcases hd : M.dropEach (es.drop n) (Γ.drop t) w.user with ⟨r, u1⟩
        rw [hd] at hf
        cases r with
        | ok _ =>
          simp only [TVec.thenDropArg] at hf
          rcases hx : Γ.drop t x u1 with ⟨r2, u2⟩
          rw [hx] at hf
          cases hf
          obtain ⟨d, hrun, hev⟩ := VecDyn.resize_shrink (cfg := cfg) R wf hl (by omega) (dropEach_ok_forEach hd) hx
          exact ⟨d, w.heap, 0, by simp only [M.bind_run, hrun, Res.map, M.pure_run, Obs.ofUnit], hev, Nat.zero_le _⟩
        | panic y =>
          simp only [TVec.thenDropArg] at hf
          rcases hx : Γ.drop t x u1 with ⟨r2, u2⟩
          rw [hx] at hf
          cases r2 <;> cases hf
        | ub => cases hf
        | abort => cases hf
    · rw [if_neg ht] at hf
      obtain ⟨u1, hd, he, rfl⟩ := refuse_ok_inv hf
      cases he
      exact same R wf (by simp only [M.bind_run, VecDyn.resize_mismatch (cfg := cfg) (n := n) R ht hd, M.pure_run, Obs.ofUnit])
  | fill k t x =>
    refine method_step I hspec ?_
    intro c t' es es' hc hs hf R hcap hroom hl hlc
    by_cases ht : t = t'
    · subst ht
      rw [if_pos rfl] at hf
      obtain ⟨hg, rfl⟩ := tvec_ok_inv hf
      clear hf
      have hf := hg
      obtain ⟨d, hrun, hev⟩ := VecDyn.fill_run R wf hf
      exact ⟨d, w.heap, 0, by simp only [M.bind_run, hrun, Res.map, M.pure_run, Obs.ofUnit], hev, Nat.zero_le _⟩
    · rw [if_neg ht] at hf
      obtain ⟨u1, hd, he, rfl⟩ := refuse_ok_inv hf
      cases he
      exact same R wf (by simp only [M.bind_run, VecDyn.fill_mismatch R ht hd, M.pure_run, Obs.ofUnit])
  | clear k =>
    refine method_step (f := fun t => DSpec.tvec fun es u =>
      ((M.dropEach es (Γ.drop t) u).1, ([], (M.dropEach es (Γ.drop t) u).2))) I hspec ?_
    intro c t es es' hc hs hf R hcap hroom hl hlc
    obtain ⟨hg, rfl⟩ := tvec_ok_inv hf
    clear hf
    have hf := hg
    rcases hd : M.dropEach es (Γ.drop t) w.user with ⟨r, u1⟩
    rw [hd] at hf
    cases hf
    have hrun := VecDyn.clear_ok (cfg := cfg) R hl (dropEach_ok_forEach hd)
    exact ⟨⟨c.data.ptr, 0, c.data.cap, c.data.elem, []⟩, w.heap, 0, by simp only [M.bind_run, hrun, M.pure_run],
      Evolves.setContent R wf (by simp) (by simp) rfl rfl rfl, Nat.zero_le _⟩
  | rotateLeft k n =>
    simp only [DOp.spec] at hspec
    refine pure_step I hspec ?_
    intro c t es es' hs hf R hl hlc
    by_cases hn : n ≤ es.length
    · simp only [if_pos hn] at hf; cases hf
      obtain ⟨d, hrun, hev⟩ := VecCopy.rotateLeft_ok (cfg := cfg) R wf hn (hsup t es hs)
      exact ⟨d, by simp only [M.bind_run, hrun, M.pure_run], hev⟩
    · simp only [if_neg hn] at hf; cases hf
  | rotateRight k n =>
    simp only [DOp.spec] at hspec
    refine pure_step I hspec ?_
    intro c t es es' hs hf R hl hlc
    by_cases hn : n ≤ es.length
    · simp only [if_pos hn] at hf; cases hf
      obtain ⟨d, hrun, hev⟩ := VecCopy.rotateRight_ok (cfg := cfg) R wf hn (hsup t es hs)
      exact ⟨d, by simp only [M.bind_run, hrun, M.pure_run], hev⟩
    · simp only [if_neg hn] at hf; cases hf
  | swap k i j =>
    simp only [DOp.spec] at hspec
    refine pure_step I hspec ?_
    intro c t es es' hs hf R hl hlc
    by_cases hij : i < es.length ∧ j < es.length
    · simp only [dif_pos hij] at hf; cases hf
      obtain ⟨d, hrun, hev⟩ := VecCopy.asMutSlice_ok (m := SliceCopy.swap cfg i j) (r := .ok ())
        (es' := (es.set i (es[j]'hij.2)).set j (es[i]'hij.1)) R wf (by
          intro e he
          rcases List.mem_or_eq_of_mem_set he with he | rfl
          · rcases List.mem_or_eq_of_mem_set he with he | rfl
            · exact R.each e he
            · exact R.each _ (List.getElem_mem hij.2)
          · exact R.each _ (List.getElem_mem hij.1)) (by simp)
          (fun s S _ => by rw [S.swap hij.1 hij.2]; exact ⟨rfl, rfl⟩)
      exact ⟨d, by simp only [VecCopy.swap, M.bind_run, hrun, M.pure_run], hev⟩
    · simp only [dif_neg hij] at hf; cases hf
  | setAs k t i x =>
    refine method_step I hspec ?_
    intro c t' es es' hc hs hf R hcap hroom hl hlc
    by_cases hi : i < es.length
    · simp only [dif_pos hi] at hf
      by_cases ht : t = t'
      · subst ht
        rw [if_pos rfl] at hf
        rcases hd : Γ.drop t es[i] w.user with ⟨r, u1⟩
        rw [hd] at hf
        cases r with
        | ok _ =>
          cases hf
          obtain ⟨d, hrun, hev⟩ := VecCopy.getMutAs_ok (r := .ok ()) (w' := { w with user := u1 })
            (m := VecDyn.assignTyped Γ t x) R wf hi (by
              simp only [VecDyn.assignTyped, worldUser_ok hd]) hwt
          exact ⟨d, w.heap, 0, by simp only [M.bind_run, hrun, Res.map, M.pure_run], hev, Nat.zero_le _⟩
        | panic y => cases hf
        | ub => cases hf
        | abort => cases hf
      · rw [if_neg ht] at hf
        obtain ⟨u1, hd, he, rfl⟩ := refuse_ok_inv hf
        cases he
        refine same R wf ?_
        have hb : (decide (i < c.len)) = true := by
          simp only [VecCopy.len, R.len]; exact decide_eq_true hi
        simp only [VecCopy.getMutAs, M.bind_run, getSelf_run, hb, M.assert_true_run, VecCopy.checkRef_none R ht, M.pure_run,
          onWorld, worldUser, M.zoom_run, hd]
    · simp only [dif_neg hi] at hf; cases hf
  | cloneIntoVec k t =>
    refine method_step I hspec ?_
    intro c t' es es' hc hs hf R hcap hroom hl hlc
    by_cases ht : t = t'
    · subst ht
      simp only [if_pos] at hf
      rcases hm : (DSpec.clones Γ t es >>= fun es => M.dropEach es (Γ.drop t) >>= fun _ => pure (Obs.elems es)) w.user
        with ⟨r, u1⟩
      rw [hm] at hf
      cases hf
      obtain ⟨xs, u2, h1, h2⟩ := M.bind_ok_inv hm
      obtain ⟨⟨⟩, u3, h2, h3⟩ := M.bind_ok_inv h2
      cases h3
      refine same R wf ?_
      simp only [M.bind_run, getSelf_run, onWorld, M.zoom_run, VecDyn.cloneIntoVec_ok R (clones_ok h1), worldUser, h2, M.pure_run]
    · simp only [if_neg ht] at hf; cases hf
      refine same R wf ?_
      simp only [M.bind_run, getSelf_run, onWorld, M.zoom_run, VecDyn.cloneIntoVec_mismatch R ht, M.pure_run]
  | len k =>
    refine pure_step (f := fun _ es => some (.num es.length, es)) I hspec ?_
    intro c t es es' hs hf R hl hlc
    cases hf
    refine unchanged R wf ?_
    simp only [M.bind_run, getSelf_run, M.pure_run, VecCopy.len, R.len]
  | typeId k =>
    refine pure_step (f := fun t es => some (.num t, es)) I hspec ?_
    intro c t es es' hs hf R hl hlc
    cases hf
    refine unchanged R wf ?_
    simp only [M.bind_run, getSelf_run, M.pure_run, VecCopy.elementTypeId, R.type_id]
  | getAs k t i =>
    simp only [DOp.spec] at hspec
    refine pure_step I hspec ?_
    intro c t' es es' hs hf R hl hlc
    by_cases hi : i < es.length
    · simp only [dif_pos hi] at hf
      by_cases ht : t = t'
      · subst ht
        rw [if_pos rfl] at hf; cases hf
        refine unchanged R wf ?_
        simp only [M.bind_run, getSelf_run, VecCopy.getAs_ok R hi, M.pure_run]
      · rw [if_neg ht] at hf; cases hf
        refine unchanged R wf ?_
        simp only [M.bind_run, getSelf_run, VecCopy.getAs_mismatch R ht hi, M.pure_run]
    · simp only [dif_neg hi] at hf; cases hf
  | asSlice k t =>
    simp only [DOp.spec] at hspec
    refine pure_step I hspec ?_
    intro c t' es es' hs hf R hl hlc
    by_cases ht : t = t'
    · subst ht
      rw [if_pos rfl] at hf; cases hf
      refine unchanged R wf ?_
      simp only [M.bind_run, getSelf_run, VecCopy.asSliceAs_ok R, M.pure_run]
    · rw [if_neg ht] at hf; cases hf
      refine unchanged R wf ?_
      simp only [M.bind_run, getSelf_run, VecCopy.asSliceAs, VecCopy.checkRef_none R ht, M.pure_run]
  | iter k =>
    refine pure_step (f := fun _ es => some (.elems es, es)) I hspec ?_
    intro c t es es' hs hf R hl hlc
    cases hf
    refine unchanged R wf ?_
    simp only [M.bind_run, getSelf_run, VecCopy.iter_ok R, M.pure_run, List.map_map, Function.comp_def, List.map_id']
  | get k i =>
    obtain ⟨r, q, h1, h2⟩ := M.bind_ok_inv hspec
    obtain ⟨rfl, r', hrun, hr'⟩ := read_step (cfg := cfg) I h1
    refine ⟨slots, w.heap, ?_, ?_⟩
    · cases r with
      | none =>
        cases r' with
        | none =>
          cases h2
          simp only [DOp.exec, M.bind_run, hrun, M.pure_run]
        | some v => exact hr'.elim
      | some p =>
        cases r' with
        | none => exact hr'.elim
        | some v =>
          obtain ⟨t, x⟩ := p
          cases h2
          simp only [DOp.exec, M.bind_run, hrun, M.pure_run, hr'.1.type_id, hr'.1.bytes]
    · cases r with
      | none => cases h2; exact I
      | some p => cases h2; exact I
  | cloneValue k i j =>
    obtain ⟨r, q, h1, h2⟩ := M.bind_ok_inv hspec
    obtain ⟨rfl, r', hrun, hr'⟩ := read_step (cfg := cfg) I h1
    cases r with
    | none =>
      cases r' with
      | none =>
        cases h2
        exact ⟨slots, w.heap, by simp only [DOp.exec, M.bind_run, hrun, M.pure_run], I⟩
      | some v => exact hr'.elim
    | some p =>
      cases r' with
      | none => exact hr'.elim
      | some v =>
        obtain ⟨t, x⟩ := p
        obtain ⟨hv, hl, hlc, hty⟩ := hr'
        obtain ⟨x', q, h3, h4⟩ := M.bind_ok_inv h2
        obtain ⟨u1, h5, rfl⟩ := DSpec.user_ok_inv h3
        obtain ⟨v', h', hcl, B', hvt', hre⟩ := ValueRef.cloneValue_ok wf hv hlc h5
        obtain ⟨slots', h'', hr, I'⟩ := create_step (cfg := cfg) (a := .box v') (b := .box t x') I
          (m := do return .box (← ValueRef.cloneValue v)) (by simp only [M.bind_run, hcl, M.pure_run]) hre
          ⟨B', by rw [hvt']; exact hl, by rw [hvt']; exact hlc⟩ h4
        exact ⟨slots', h'', by simp only [DOp.exec, M.bind_run, hrun]; exact hr, I'⟩
  | cloneSmall k i j =>
    obtain ⟨r, q, h1, h2⟩ := M.bind_ok_inv hspec
    obtain ⟨rfl, r', hrun, hr'⟩ := read_step (cfg := cfg) I h1
    cases r with
    | none =>
      cases r' with
      | none =>
        cases h2
        exact ⟨slots, w.heap, by simp only [DOp.exec, M.bind_run, hrun, M.pure_run], I⟩
      | some v => exact hr'.elim
    | some p =>
      cases r' with
      | none => exact hr'.elim
      | some v =>
        obtain ⟨t, x⟩ := p
        obtain ⟨hv, hl, hlc, hty⟩ := hr'
        obtain ⟨x', q, h3, h4⟩ := M.bind_ok_inv h2
        obtain ⟨u1, h5, rfl⟩ := DSpec.user_ok_inv h3
        obtain ⟨v', hcl, B', hvt'⟩ := ValueRef.cloneSmallValue_ok hv (hsup t hty) hlc h5
        obtain ⟨slots', h'', hr, I'⟩ := create_step (cfg := cfg) (a := .small v') (b := .small t x') (h1 := w.heap) (u1 := u1) I
          (m := do return .small (← ValueRef.cloneSmallValue v)) (by simp only [M.bind_run, hcl, M.pure_run])
          (Realloc.refl wf none) ⟨B', by rw [hvt']; exact hl, by rw [hvt']; exact hlc⟩ h4
        exact ⟨slots', h'', by simp only [DOp.exec, M.bind_run, hrun]; exact hr, I'⟩
  | pushCloned k j i =>
    simp only [DOp.spec] at hspec
    by_cases hkj : k = j
    · rw [if_pos hkj] at hspec; cases hspec
      exact ⟨slots, w.heap, by simp only [DOp.exec, if_pos hkj, M.pure_run], I⟩
    · rw [if_neg hkj] at hspec
      obtain ⟨r, q, h1, h2⟩ := M.bind_ok_inv hspec
      obtain ⟨rfl, r', hrun, hr'⟩ := read_step (cfg := cfg) I h1
      cases r with
      | none =>
        cases r' with
        | none =>
          cases h2
          exact ⟨slots, w.heap, by simp only [DOp.exec, if_neg hkj, M.bind_run, hrun, M.pure_run], I⟩
        | some v => exact hr'.elim
      | some p =>
        cases r' with
        | none => exact hr'.elim
        | some v =>
          obtain ⟨t, x⟩ := p
          obtain ⟨hv, hl, hlc, hty⟩ := hr'
          obtain ⟨slots', h', hrun2, I'⟩ := method_step (m := do return Obs.ofUnit (← VecDyn.pushCloned Γ cfg v)) I h2 (by
            intro c t' es es' hc hs hf R hcap hroom hl' hlc'
            by_cases ht : t = t'
            · subst ht
              rw [if_pos rfl] at hf
              obtain ⟨hg, rfl⟩ := tvec_ok_inv hf
              obtain ⟨ys, rfl, hm⟩ := mapEach_of_extendClones hg
              obtain ⟨x', u2, h3, h4⟩ := M.bind_ok_inv hm
              obtain ⟨xs', u3, h4, h5⟩ := M.bind_ok_inv h4
              cases h4
              cases h5
              obtain ⟨hn, hodd⟩ := hsup t es hs hty
              obtain ⟨d, h', hrun, hev⟩ := VecDyn.pushCloned_ok (cfg := cfg) R wf hlc' hv h3 (hroom.mono (by omega))
                (fun hb => hodd ⟨hb.1, hb.2.1, hb.2.2.2⟩)
              exact ⟨d, h', _, by simp only [M.bind_run, hrun, M.pure_run, Obs.ofUnit], hev, hn⟩
            · rw [if_neg ht] at hf; cases hf
              refine same R wf ?_
              have : v.type_id ≠ t' := by rw [hv.type_id]; exact ht
              simp only [M.bind_run, VecDyn.pushCloned_mismatch (cfg := cfg) R this, M.pure_run, Obs.ofUnit])
          exact ⟨slots', h', by simp only [DOp.exec, if_neg hkj, M.bind_run, hrun]; exact hrun2, I'⟩
  | pushBox k j =>
    simp only [DOp.spec] at hspec
    have hother : (∀ t es t' x, ¬ (s k = some (.vec t es) ∧ s j = some (.box t' x))) →
        DOp.StepOk Γ cfg vt N (.pushBox k j) slots w o s' u' := by
      intro hn
      have h1 : (Res.ok Obs.absent, (s, w.user)) = (Res.ok o, (s', u')) := by
        rcases hs : s k with _ | ⟨t, es⟩ | ⟨t, x⟩ | ⟨t, x⟩ <;> rcases hs' : s j with _ | ⟨t', es'⟩ | ⟨t', x'⟩ | ⟨t', x'⟩ <;>
          first
          | exact absurd ⟨hs, hs'⟩ (hn _ _ _ _)
          | (rw [hs, hs'] at hspec; exact hspec)
      cases h1
      refine ⟨slots, w.heap, ?_, I⟩
      have hk := I.ok k
      have hj := I.ok j
      simp only [DOp.exec]
      rcases ha : slots k with _ | ⟨c⟩ | ⟨v⟩ | ⟨v⟩ <;> rcases hb : slots j with _ | ⟨b⟩ | ⟨v'⟩ | ⟨v'⟩ <;> try rfl
      rw [ha] at hk; rw [hb] at hj
      rcases hs : s k with _ | ⟨t, es⟩ | ⟨t, x⟩ | ⟨t, x⟩ <;> rw [hs] at hk <;> try exact hk.elim
      rcases hs' : s j with _ | ⟨t', es'⟩ | ⟨t', x'⟩ | ⟨t', x'⟩ <;> rw [hs'] at hj <;> try exact hj.elim
      exact absurd ⟨hs, hs'⟩ (hn _ _ _ _)
    by_cases hv : ∃ t es t' x, s k = some (.vec t es) ∧ s j = some (.box t' x)
    · obtain ⟨t, es, t', x, hs, hs'⟩ := hv
      have hkj : k ≠ j := by rintro rfl; rw [hs] at hs'; cases hs'
      obtain ⟨a, ha, A⟩ := I.lookup hs
      obtain ⟨c, rfl, R, hcap, hroom, hl⟩ := A.vec
      obtain ⟨a', hb, B⟩ := I.lookup hs'
      obtain ⟨v, rfl, Bx, hlb, hlcb⟩ := B.box
      rw [hs, hs'] at hspec
      simp only [M.bind_run, DSpec.moveOut, M.modify_run, DSpec.methodVec, Slots.put_other _ _ hkj, hs] at hspec
      by_cases ht : t' = t
      · subst ht
        simp only [if_true] at hspec
        cases hspec
        obtain ⟨hn, h1⟩ := hsup t' es x hs hs'
        have hne : v.bytes.ptr ≠ c.data.ptr := by
          obtain ⟨i, hp, -⟩ := R.block
          intro e
          exact hkj (I.inj k j i (by rw [ha]; exact hp) (by rw [hb]; show v.bytes.ptr = _; rw [e]; exact hp))
        obtain ⟨d, h1, h', i, hrun, hp, hh', hev, hR', wf'⟩ := VecDyn.push_ok (cfg := cfg) R wf Bx hne h1 (hroom.mono (by omega))
        have I1 := I.update (k := k) (h' := h1) (a := some (.vec { c with data := d })) (b := some (.vec t' (es ++ [x])))
            (by rw [ha]; exact hev.realloc) ⟨hev.repr, by have := hev.cap_bound; show d.cap ≤ _; omega, hroom, hl⟩
        have hb1 : Slots.put slots k (some (.vec { c with data := d })) j = some (.box v) := by
          rw [Slots.put_other _ _ (Ne.symm hkj)]; exact hb
        have I2 := I1.update (k := j) (h' := h') (a := none) (b := none)
          (by rw [hb1, hh']; show Realloc _ v.bytes.ptr _ _; rw [hp]; exact Realloc.ofFree I1.wf i) trivial
        rw [Slots.put_comm _ _ _ hkj, Slots.put_comm s _ _ hkj] at I2
        refine ⟨_, h', ?_, I2⟩
        simp only [DOp.exec, ha, hb, M.bind_run, DOp.clearVar, M.modify_run, DOp.onVec, Slots.put_other _ _ hkj, hrun,
          M.pure_run, Obs.ofUnit]
      · simp only [if_neg ht] at hspec
        rcases hd : DSpec.refuse Γ t' x (es, w.user) with ⟨r, q⟩
        rw [hd] at hspec
        cases r with
        | ok o' =>
          obtain ⟨u1, hd0, rfl, rfl⟩ := refuse_ok_inv hd
          cases hspec
          obtain ⟨h', hrun, hre⟩ := VecDyn.push_mismatch (cfg := cfg) R wf Bx ht hlb hd0
          have I2 := I.update (k := j) (h' := h') (a := none) (b := none) (by rw [hb]; exact hre) trivial
          have e1 : Slots.put (Slots.put s j none) k (some (.vec t es)) = Slots.put s j none := by
            rw [← hs, ← Slots.put_other s none hkj, Slots.put_self]
          have e2 : Slots.put (Slots.put slots j none) k (some (.vec c)) = Slots.put slots j none := by
            rw [← ha, ← Slots.put_other slots none hkj, Slots.put_self]
          rw [e1]
          refine ⟨_, h', ?_, I2⟩
          simp only [DOp.exec, ha, hb, M.bind_run, DOp.clearVar, M.modify_run, DOp.onVec, Slots.put_other _ _ hkj, hrun,
            M.pure_run, Obs.ofUnit, e2]
        | panic y => cases hspec
        | ub => cases hspec
        | abort => cases hspec
    · exact hother fun t es t' es' h => hv ⟨t, es, t', es', h⟩
  | assign k i j =>
    simp only [DOp.spec] at hspec
    by_cases hkj : k = j
    · rw [if_pos hkj] at hspec; cases hspec
      exact ⟨slots, w.heap, by simp only [DOp.exec, if_pos hkj], I⟩
    · rw [if_neg hkj] at hspec
      cases hs : s k with
      | none =>
        rw [hs] at hspec; cases hspec
        exact ⟨slots, w.heap, by simp only [DOp.exec, if_neg hkj, I.empty hs], I⟩
      | some b0 =>
        obtain ⟨a0, ha0, A0⟩ := I.lookup hs
        cases hs' : s j with
        | none =>
          rw [hs, hs'] at hspec; cases hspec
          exact ⟨slots, w.heap, by simp only [DOp.exec, if_neg hkj, ha0, I.empty hs'], I⟩
        | some b =>
          obtain ⟨a, ha, A⟩ := I.lookup hs'
          rw [hs, hs'] at hspec
          cases b with
          | vec t es =>
            cases hspec
            obtain ⟨c, rfl, -⟩ := A.vec
            exact ⟨slots, w.heap, by simp only [DOp.exec, if_neg hkj, ha0, ha], I⟩
          | box t x =>
            obtain ⟨slots', h', hrun, I'⟩ := assign_step (cfg := cfg) hkj I ha hs' (.inl rfl) hspec (by rw [hs]; simp)
            obtain ⟨v, rfl, -⟩ := A.box
            exact ⟨slots', h', by simp only [DOp.exec, if_neg hkj, ha0, ha]; exact hrun, I'⟩
          | small t x =>
            obtain ⟨slots', h', hrun, I'⟩ := assign_step (cfg := cfg) hkj I ha hs' (.inr rfl) hspec (by rw [hs]; simp)
            obtain ⟨v, rfl, -⟩ := A.small
            exact ⟨slots', h', by simp only [DOp.exec, if_neg hkj, ha0, ha]; exact hrun, I'⟩
  | cloneFrom k i j i' =>
    simp only [DOp.spec] at hspec
    by_cases hkj : k = j
    · rw [if_pos hkj] at hspec; cases hspec
      exact ⟨slots, w.heap, by simp only [DOp.exec, if_pos hkj, M.pure_run], I⟩
    · rw [if_neg hkj] at hspec
      obtain ⟨r, q, h1, h2⟩ := M.bind_ok_inv hspec
      obtain ⟨rfl, r', hrun, hr'⟩ := read_step (cfg := cfg) I h1
      cases r with
      | none =>
        cases r' with
        | none =>
          cases h2
          exact ⟨slots, w.heap, by simp only [DOp.exec, if_neg hkj, M.bind_run, hrun, M.pure_run], I⟩
        | some v => exact hr'.elim
      | some p =>
        cases r' with
        | none => exact hr'.elim
        | some v =>
          obtain ⟨t, x⟩ := p
          obtain ⟨hv, hl, hlc, hty⟩ := hr'
          obtain ⟨r2, q2, h3, h4⟩ := M.bind_ok_inv h2
          obtain ⟨rfl, r2', hrun2, hr2'⟩ := read_step (cfg := cfg) I h3
          cases r2 with
          | none =>
            cases r2' with
            | some v => exact hr2'.elim
            | none =>
              cases h4
              refine ⟨slots, w.heap, ?_, I⟩
              simp only [DOp.exec, if_neg hkj, M.bind_run, hrun, DOp.onMut, I.empty hr2']
          | some p2 =>
            cases r2' with
            | none => exact hr2'.elim
            | some v2 =>
              obtain ⟨t', d⟩ := p2
              simp only at h4
              have hex : DOp.exec Γ cfg vt (.cloneFrom k i j i') (slots, w) =
                  DOp.onMut cfg k i (do return Obs.ofUnit (← ValueRef.cloneFromOther v)) (slots, w) := by
                simp only [DOp.exec, if_neg hkj, M.bind_run, hrun]
              by_cases ht : t = t'
              · subst ht
                rw [if_pos rfl] at h4
                rcases hcf : Γ.cloneFrom t x (d, w.user) with ⟨r3, d', u1⟩
                rw [hcf] at h4
                cases r3 with
                | ok _ =>
                  simp only [DSpec.write, M.modify_run] at h4
                  cases h4
                  obtain ⟨a', hrun3, I'⟩ := onMut_step (cfg := cfg) (b' := d') (w' := { w with user := u' }) (r := .ok .done)
                    (m := do return Obs.ofUnit (← ValueRef.cloneFromOther v)) I h3
                    (Γ.cloneFrom_len hcf hr2'.1.length) (by
                    intro v0 hv0 hl0 hlc0
                    have := ((C33_clone_from_other (w := w) hv0 hv hlc0).1 rfl (.ok ()) d' u' hcf).1
                    simp only [M.bind_run, this, Res.map, M.pure_run, Obs.ofUnit])
                  exact ⟨_, w.heap, by rw [hex, hrun3], I'⟩
                | panic y => cases h4
                | ub => cases h4
                | abort => cases h4
              · rw [if_neg ht] at h4
                cases h4
                obtain ⟨a', hrun3, I'⟩ := onMut_step (cfg := cfg) (b' := d) (w' := w) (r := .ok .refused)
                  (m := do return Obs.ofUnit (← ValueRef.cloneFromOther v)) I h3 hr2'.1.length (by
                    intro v0 hv0 hl0 hlc0
                    have := (C33_clone_from_other (w := w) hv0 hv hlc0).2 (Ne.symm ht)
                    simp only [M.bind_run, this, M.pure_run, Obs.ofUnit]
                    rw [← hv0.bytes])
                rw [write_read h3] at I'
                exact ⟨_, w.heap, by rw [hex, hrun3], I'⟩
  | swapValues k i j i' =>
    simp only [DOp.spec] at hspec
    by_cases hkj : k = j
    · rw [if_pos hkj] at hspec; cases hspec
      exact ⟨slots, w.heap, by simp only [DOp.exec, if_pos hkj, M.pure_run], I⟩
    · rw [if_neg hkj] at hspec
      obtain ⟨r, q, h1, h2⟩ := M.bind_ok_inv hspec
      obtain ⟨rfl, r', hrun, hr'⟩ := read_step (cfg := cfg) I h1
      cases r with
      | none =>
        cases r' with
        | none =>
          cases h2
          exact ⟨slots, w.heap, by simp only [DOp.exec, if_neg hkj, M.bind_run, hrun, M.pure_run], I⟩
        | some v => exact hr'.elim
      | some p =>
        cases r' with
        | none => exact hr'.elim
        | some v =>
          obtain ⟨t, x⟩ := p
          obtain ⟨hv, hl, hlc, hty⟩ := hr'
          obtain ⟨r2, q2, h3, h4⟩ := M.bind_ok_inv h2
          obtain ⟨rfl, r2', hrun2, hr2'⟩ := read_step (cfg := cfg) I h3
          cases r2 with
          | none =>
            cases r2' with
            | some v => exact hr2'.elim
            | none =>
              cases h4
              refine ⟨slots, w.heap, ?_, I⟩
              simp only [DOp.exec, if_neg hkj, M.bind_run, hrun, hrun2, M.pure_run]
          | some p2 =>
            cases r2' with
            | none => exact hr2'.elim
            | some v2 =>
              obtain ⟨t', x'⟩ := p2
              obtain ⟨hv2, -, -, -⟩ := hr2'
              have key : ∀ y y' : Bytes, y.length = Γ.size t → y'.length = Γ.size t' →
                  ValueRef.swap (v, v2) = (.ok (), ({ v with bytes := y }, { v2 with bytes := y' })) →
                  ∃ slots', DOp.exec Γ cfg vt (.swapValues k i j i') (slots, w) = (.ok .done, (slots', w)) ∧
                    DInv Γ N slots' w.heap (Slots.put (Slots.put s k ((s k).map (SItem.setAt i y))) j ((s j).map (SItem.setAt i' y'))) := by
                intro y y' hy hy' hsw
                obtain ⟨a1, hrun3, I1⟩ := onMut_step (cfg := cfg) (b' := y) (w' := w) (r := .ok .done)
                  (m := do M.modify fun s => ({ s.1 with bytes := y }, s.2); pure .done) I h1 hy
                  (fun v0 _ _ _ => rfl)
                have h3' : DSpec.read j i' (Slots.put s k ((s k).map (SItem.setAt i y)), w.user) =
                    (.ok (some (t', x')), (Slots.put s k ((s k).map (SItem.setAt i y)), w.user)) :=
                  read_congr h3 (Slots.put_other _ _ (Ne.symm hkj))
                obtain ⟨a2, hrun4, I2⟩ := onMut_step (cfg := cfg) (b' := y') (w' := w) (r := .ok .done)
                  (m := do M.modify fun s => ({ s.1 with bytes := y' }, s.2); pure .done) I1 h3' hy'
                  (fun v0 _ _ _ => rfl)
                rw [Slots.put_other _ _ (Ne.symm hkj)] at I2
                refine ⟨_, ?_, I2⟩
                simp only [DOp.exec, if_neg hkj, M.bind_run, hrun, hrun2, hsw, Res.map, M.lift_run, DOp.writeRef] at hrun3 hrun4 ⊢
                simp only [hrun3, hrun4]
              simp only at h4
              by_cases ht : t = t'
              · subst ht
                rw [if_pos rfl] at h4
                simp only [DSpec.write, M.bind_run, M.modify_run, M.pure_run] at h4
                cases h4
                obtain ⟨slots', hr, I'⟩ := key x' x hv2.length hv.length ((C33_swap hv hv2).1 rfl)
                rw [Slots.put_other _ _ (Ne.symm hkj)]
                exact ⟨slots', w.heap, hr, I'⟩
              · rw [if_neg ht] at h4
                cases h4
                have hsw := (C33_swap hv hv2).2 ht
                obtain ⟨slots', hr, I'⟩ := key x x' hv.length hv2.length (by
                  rw [hsw, ← hv.bytes, ← hv2.bytes])
                rw [write_read h1] at I'
                rw [write_read h3] at I'
                exact ⟨slots', w.heap, hr, I'⟩

end Dync
