import Verif.OwnStep
/-!
# Helper lemmas: every operation of a `VecDyn` program keeps the variables in order
-/
namespace Dync
variable {U V α σ : Type} {Γ : TyEnv (Ledger U)} {S : Values Γ} {t t' : TyId} {es : List Bytes} {x : Bytes}
  {w : World (Ledger U)} {cfg : Cfg} {v : VecVoid} {c : VecDyn V} {vt : TyId → V}
variable [HasDrop (Ledger U) V] [HasClone (Ledger U) V]
variable {K k j i : Nat} {s : DSlots V × World (Ledger U)} {G : List Obj}

theorem Stepped.trans {s1 s2 : DSlots V × World (Ledger U)} (h : Stepped Γ S K s [] s1) (h' : Stepped Γ S K s1 [] s2) : Stepped Γ S K s [] s2 := by
  refine ⟨h'.safe, ?_⟩
  have h1 := h.own
  have h2 := h'.own
  simp only [List.append_nil] at h1 h2 ⊢
  exact h1.trans h2

theorem Stepped.mono {s1 : DSlots V × World (Ledger U)} {G' : List Obj} (h : Stepped Γ S K s G s1) (hg : ∀ a, G.count a ≤ G'.count a) :
    Stepped Γ S K s G' s1 :=
  ⟨h.safe, h.own.mono (fun a => by have := hg a; simp only [List.count_append]; omega) fun _ => Nat.le_refl _⟩

namespace DOp

/-! ### Writing to a place -/

theorem writeRef_real (D : DSafe Γ S s.1 s.2.heap) {a : Item V} {r : ValueRef V} (hk : s.1 k = some a) (P : PlaceOf Γ S s.2.heap i t a r)
    (hr : Real Γ S t r) {b : Bytes} (hb : S.valid t b) :
    ∃ a', writeRef cfg k i b s = (.ok .done, (Slots.put s.1 k (some a'), s.2)) ∧ Held Γ S s.2.heap a' ∧ a'.ptr = a.ptr ∧
      ∀ y, a'.objs.count y + [(t, r.bytes)].count y = a.objs.count y + [(t, b)].count y := by
  cases P with
  | @vec c es H R hi =>
    obtain ⟨d, e1, e2⟩ := VecDyn.getMut_ok (cfg := cfg) (c := c) (m := (do M.modify fun s => ({ s.1 with bytes := b }, s.2); Pure.pure Obs.done))
      (r := .ok .done) (x := { c.valueOf es[i] with bytes := b }) (w' := s.2) R D.wf hi rfl (S.len _ _ hb)
    have hval : ∀ e ∈ es.set i b, S.valid t e := by
      intro e he
      rcases List.mem_or_eq_of_mem_set he with he | rfl
      · exact H.valid e he
      · exact hb
    refine ⟨.vec { c with data := d }, by simp only [writeRef, onMut, hk, e1], ⟨t, es.set i b, H.tab, H.pos, .inl e2.repr, hval⟩,
      (e2.stay (Nat.zero_le _)).1, ?_⟩
    intro y
    rw [Cont.objs (c := { c with data := d }) (.inl e2.repr), H.cont.objs]
    exact count_set hi t b y
  | @lost c es H u => exact absurd (hr.type_id.symm.trans (u.lostRef (c := c) H.pos).type_id) hr.unit
  | @box v H =>
    have B : BoxOk Γ S s.2.heap t { v with bytes := ByteBuf.set b v.bytes } :=
      ⟨H.tab, ⟨H.real.type_id, H.real.alignment, H.real.unit, hb⟩, H.block⟩
    refine ⟨.box { v with bytes := ByteBuf.set b v.bytes }, by simp only [writeRef, onMut, hk]; rfl, ⟨t, B⟩, rfl, ?_⟩
    intro y
    rw [B.objs, H.objs]
    exact Nat.add_comm _ _
  | @small v H =>
    have B : SmallOk Γ S t { v with bytes := ByteBuf.set b v.bytes } :=
      ⟨H.tab, ⟨H.real.type_id, H.real.alignment, H.real.unit, hb⟩, H.size⟩
    refine ⟨.small { v with bytes := ByteBuf.set b v.bytes }, by simp only [writeRef, onMut, hk]; rfl, ⟨t, B⟩, rfl, ?_⟩
    intro y
    rw [B.objs, H.objs]
    exact Nat.add_comm _ _

theorem writeRef_lost {a : Item V} {r : ValueRef V} (hk : s.1 k = some a) (P : PlaceOf Γ S s.2.heap i t a r) (hr : LostRef Γ t r) :
    NoUb (writeRef cfg k i []) s (fun _ s' => s' = s) (fun s' => s' = s) := by
  cases P with
  | @vec c es H R hi => exact absurd ((R.real (S := S) (c := c) (H.valid _ (List.getElem_mem hi))).type_id.symm.trans hr.type_id) R.not_unit
  | @lost c es H u =>
    unfold writeRef
    have self : ∀ s' : VecDyn V × World (Ledger U), s' = (c, s.2) → (Slots.put s.1 k (some (Item.vec s'.1)), s'.2) = s := by
      rintro _ rfl
      rw [← hk, Slots.put_self]
    refine NoUb.rearrange (n := VecDyn.getMut cfg i (do M.modify fun s => ({ s.1 with bytes := [] }, s.2); Pure.pure Obs.done)) (t := (c, s.2))
      (f := fun q => (Slots.put s.1 k (some (.vec q.1)), q.2)) ?_ (by simp [onMut, hk])
    refine NoUb.mono (Q := fun _ s' => s' = (c, s.2)) (E := fun s' => s' = (c, s.2)) ?_ (fun _ s' h => self s' h) fun s' h => self s' h
    unfold VecDyn.getMut
    refine NoUb.bind_ok (b := c) (s' := (c, s.2)) rfl ?_
    refine NoUb.bind (R := fun _ s' => s' = (c, s.2)) (NoUb.debugAssert (fun _ => rfl) fun _ _ => rfl) ?_
    rintro _ _ rfl
    refine NoUb.bind ((u.getBytes i (c, s.2)).noUb) ?_
    rintro _ _ ⟨rfl, rfl⟩
    rw [u.numBytes]
    refine NoUb.bind ((SUnit.range_runs i (c, s.2)).noUb) ?_
    rintro _ _ ⟨rfl, rfl⟩
    refine NoUb.of_ok (a := .done) (s' := (c, s.2)) ?_ rfl
    have e : ({ c with data := { c.data with mem := splice c.data.mem 0 [] } } : VecCopy V) = c := by
      rw [u.mem]; exact VecCopy.unit_same u
    show (Res.ok Obs.done, ({ c with data := { c.data with mem := splice c.data.mem 0 [] } }, s.2)) = _
    rw [e]
  | @box v H => exact absurd (H.real.type_id.symm.trans hr.type_id) H.real.unit
  | @small v H => exact absurd (H.real.type_id.symm.trans hr.type_id) H.real.unit

/-- Only variable `k` was written, and the values are the same. -/
def Rewrote (Γ : TyEnv (Ledger U)) (S : Values Γ) (K k : Nat) (s s' : DSlots V × World (Ledger U)) : Prop :=
  Stepped Γ S K s [] s' ∧ s'.2 = s.2 ∧ ∀ l, l ≠ k → s'.1 l = s.1 l

theorem writeRef_same (D : DSafe Γ S s.1 s.2.heap) (hK : k < K) {a : Item V} {r : ValueRef V} (hk : s.1 k = some a)
    (P : PlaceOf Γ S s.2.heap i t a r) (hr : RefOk Γ S t r) :
    NoUb (writeRef cfg k i r.bytes) s (fun _ s' => Rewrote Γ S K k s s') (fun s' => Rewrote Γ S K k s s') := by
  rcases hr.2 with hr | hr
  · obtain ⟨a', e, h1, h2, h3⟩ := writeRef_real (cfg := cfg) D hk P hr hr.valid
    refine NoUb.of_ok e ⟨Stepped.one D hK ⟨?_, ?_⟩ (by rintro _ ⟨⟩; exact h1), rfl, fun l hl => Slots.put_other _ _ hl⟩
    · rw [hk]
      show Moved s.2.heap a.ptr s.2.heap a'.ptr
      rw [h2]; exact Moved.refl D.wf _
    · rw [hk]
      show Own s.2.user s.2.user (a.objs ++ []) a'.objs
      refine (Own.refl _ _).mono (fun _ => Nat.le_refl _) fun y => ?_
      have := h3 y
      rw [List.append_nil]; omega
  · rw [hr.bytes]
    have key : ∀ s', s' = s → Rewrote Γ S K k s s' := by
      rintro _ rfl
      exact ⟨Stepped.refl D K [], rfl, fun _ _ => rfl⟩
    exact (writeRef_lost hk P hr).mono (fun _ s' h => key s' h) fun s' h => key s' h

/-- `swap` of two values of the same type in different variables. -/
theorem swapReal (D : DSafe Γ S s.1 s.2.heap) (hkj : k ≠ j) (hK : k < K) (hJ : j < K) {i' : Nat} {a b : Item V} {r q : ValueRef V}
    (hk : s.1 k = some a) (hj : s.1 j = some b) (P : PlaceOf Γ S s.2.heap i t a r) (Q : PlaceOf Γ S s.2.heap i' t b q)
    (hr : Real Γ S t r) (hq : Real Γ S t q) :
    NoUb (do let _ ← writeRef cfg k i q.bytes; writeRef cfg j i' r.bytes) s (fun _ s' => Stepped Γ S K s [] s') (fun s' => Stepped Γ S K s [] s') := by
  obtain ⟨a', e1, h1, h2, h3⟩ := writeRef_real (cfg := cfg) D hk P hr hq.valid
  have D1 : DSafe Γ S (Slots.put s.1 k (some a')) s.2.heap := by
    refine D.move ?_ (by rintro _ ⟨⟩; exact h1)
    rw [hk]
    show Moved s.2.heap a.ptr s.2.heap a'.ptr
    rw [h2]; exact Moved.refl D.wf _
  have hj1 : Slots.put s.1 k (some a') j = some b := by rw [Slots.put_other _ _ (fun e => hkj e.symm), hj]
  obtain ⟨b', e4, h4, h5, h6⟩ := writeRef_real (cfg := cfg) (s := (Slots.put s.1 k (some a'), s.2)) D1 hj1 Q hq hr.valid
  refine NoUb.bind_ok e1 (NoUb.of_ok e4 ?_)
  refine Stepped.two D hkj hK hJ ?_ ?_ (by rintro _ ⟨⟩; exact h1) (by rintro _ ⟨⟩; exact h4)
  · refine ⟨D.wf, Nat.le_refl _, fun _ _ _ _ => rfl, ?_, ?_, ?_⟩
    · rw [hk]; intro l hl; exact .inl (h2.symm.trans hl)
    · rw [hj]; intro l hl; exact .inl (h5.symm.trans hl)
    · intro l hl hl'
      have := D.apart k j hkj l
      rw [hk, hj] at this
      exact this (h2.symm.trans hl) (h5.symm.trans hl')
  · rw [hk, hj]
    show Own s.2.user s.2.user (a.objs ++ b.objs ++ []) (a'.objs ++ b'.objs)
    refine (Own.refl _ _).mono (fun _ => Nat.le_refl _) fun y => ?_
    have h7 := h3 y
    have h8 := h6 y
    simp only [List.count_append, List.count_nil]
    omega

theorem swapValues_own (D : DSafe Γ S s.1 s.2.heap) {i' : Nat} (hK : k < K) (hJ : j < K) (hf : Fits Γ cfg i) (hf' : Fits Γ cfg i') :
    NoUb ((DOp.swapValues k i j i').exec Γ cfg vt) s (fun _ s' => Stepped Γ S K s [] s') (fun s' => Stepped Γ S K s [] s') := by
  have h0 := Stepped.refl D K []
  show NoUb (do
    if k = j then return .absent
    match ← readRef cfg k i with
    | none => return .absent
    | some a =>
      match ← readRef cfg j i' with
      | none => return .absent
      | some b => do
        let (a', b') ← M.lift ((ValueRef.swap (a, b)).1.map fun _ => (ValueRef.swap (a, b)).2)
        let _ ← writeRef cfg k i a'.bytes
        writeRef cfg j i' b'.bytes) s _ _
  by_cases hkj : k = j
  · rw [if_pos hkj]; exact NoUb.pure h0
  rw [if_neg hkj]
  refine NoUb.bind ((readRef_own (k := k) D hf).mono (fun _ _ h => h) fun s' h => by rw [h]; exact h0) ?_
  rintro o s1 ⟨hs1, h⟩
  subst hs1
  rcases h with ⟨rfl, _⟩ | ⟨r, a, t, rfl, hk, hr, P⟩
  · exact NoUb.pure h0
  simp only
  refine NoUb.bind ((readRef_own (k := j) D hf').mono (fun _ _ h => h) fun s' h => by rw [h]; exact h0) ?_
  rintro o s1 ⟨hs1, h⟩
  subst hs1
  rcases h with ⟨rfl, _⟩ | ⟨q, b, t', rfl, hj, hq, Q⟩
  · exact NoUb.pure h0
  simp only
  by_cases he : r.type_id = q.type_id
  · rcases hr.2 with a1 | a1
    · rcases hq.2 with a2 | a2
      · have : t' = t := by rw [← a2.type_id, ← he, a1.type_id]
        subst this
        have hsw : ValueRef.swap (r, q) = (.ok (), ({ r with bytes := q.bytes }, { q with bytes := r.bytes })) := by
          unfold ValueRef.swap
          rw [M.bind_ok (M.get_run _)]
          have h2 : sliceSwapWith r.bytes q.bytes = .ok (q.bytes, r.bytes) := by
            simp [sliceSwapWith, S.len _ _ a1.valid, S.len _ _ a2.valid]
          simp only [he, if_true, h2, M.bind_run, M.lift_run, M.set_run]
        rw [hsw]
        refine NoUb.bind_ok (b := ({ r with bytes := q.bytes }, { q with bytes := r.bytes })) (s' := s1) rfl ?_
        exact swapReal (r := r) (q := q) D hkj hK hJ hk hj P Q a1 a2
      · exact absurd (a1.type_id.symm.trans (he.trans a2.type_id)) a1.unit
    · rcases hq.2 with a2 | a2
      · exact absurd (a2.type_id.symm.trans (he.symm.trans a1.type_id)) a2.unit
      · have hsw : ValueRef.swap (r, q) = (.ok (), ({ r with bytes := [] }, { q with bytes := [] })) := by
          unfold ValueRef.swap
          rw [M.bind_ok (M.get_run _)]
          have h2 : sliceSwapWith r.bytes q.bytes = .ok ([], []) := by
            simp [sliceSwapWith, a1.bytes, a2.bytes]
          simp only [he, if_true, h2, M.bind_run, M.lift_run, M.set_run]
        rw [hsw]
        refine NoUb.bind_ok (b := ({ r with bytes := [] }, { q with bytes := [] })) (s' := s1) rfl ?_
        refine NoUb.bind (R := fun _ s' => s' = s1) ((writeRef_lost hk P a1).mono (fun _ _ h => h) fun s' h => by rw [h]; exact h0) ?_
        rintro _ s2 rfl
        exact (writeRef_lost hj Q a2).mono (fun _ s' h => by rw [h]; exact h0) fun s' h => by rw [h]; exact h0
  · have hsw : ValueRef.swap (r, q) = (.ok (), (r, q)) := by
      unfold ValueRef.swap
      rw [M.bind_ok (M.get_run _)]
      simp only [he, if_false, M.pure_run]
    rw [hsw]
    refine NoUb.bind_ok (b := (r, q)) (s' := s1) rfl ?_
    refine NoUb.bind ((writeRef_same (cfg := cfg) D hK hk P hr).mono (fun _ _ h => h) fun s' h => h.1) ?_
    rintro _ s2 ⟨k1, k2, k3⟩
    have hj2 : s2.1 j = some b := by rw [k3 j (fun e => hkj e.symm), hj]
    have Q2 : PlaceOf Γ S s2.2.heap i' t' b q := by rw [k2]; exact Q
    exact (writeRef_same (cfg := cfg) k1.safe hJ hj2 Q2 hq).mono (fun _ s' h => k1.trans h.1) fun s' h => k1.trans h.1

/-! ### Every operation -/

/-- Only the container in variable `k` is looked at. -/
theorem look_own (D : DSafe Γ S s.1 s.2.heap) (hK : k < K) {m : M (VecDyn V × World (Ledger U)) Obs} {P : Obs → Prop}
    (h : ∀ c, s.1 k = some (.vec c) → Good Γ S s.2.heap c.data → NoUb m (c, s.2) (fun o s' => s' = (c, s.2) ∧ P o) (fun s' => s' = (c, s.2)))
    (hp : P .absent) : NoUb (onVec k m) s (fun o s' => Stepped Γ S K s [] s' ∧ P o) (fun s' => Stepped Γ S K s [] s') := by
  refine onVec_own D hK ?_ hp
  intro c t es hk H
  refine (h c hk (H.cont.good H.valid)).mono ?_ ?_
  · rintro o _ ⟨rfl, h⟩
    exact ⟨OStep.refl H.cont H.valid D.wf [], h⟩
  · rintro _ rfl
    exact OStep.refl H.cont H.valid D.wf []

/-- A method whose result is not looked at. -/
theorem method_own (D : DSafe Γ S s.1 s.2.heap) (hK : k < K) {m : M (VecDyn V × World (Ledger U)) α} {f : α → Obs}
    (h : ∀ c t es, s.1 k = some (.vec c) → VecOk Γ S s.2.heap t es c →
      NoUb m (c, s.2) (fun _ s' => OStep Γ S t c s.2 (objs t es ++ G) s') (fun s' => OStep Γ S t c s.2 (objs t es ++ G) s')) :
    NoUb (onVec k do return f (← m)) s (fun _ s' => Stepped Γ S K s G s') (fun s' => Stepped Γ S K s G s') :=
  (onVec_own (P := fun _ => True) D hK (fun c t es hk H => NoUb.bind (h c t es hk H) fun _ _ h => NoUb.pure ⟨h, trivial⟩) trivial).mono
    (fun _ _ h => h.1) fun _ h => h

/-- Moving out of variable `k`. -/
theorem take_own (D : DSafe Γ S s.1 s.2.heap) (hK : k < K) {a : Item V} (hk : s.1 k = some a) {m : M (World (Ledger U)) α}
    (h : NoUb m s.2 (fun _ w' => Eff s.2 a.ptr a.objs w' none []) (fun w' => Eff s.2 a.ptr a.objs w' none [])) :
    NoUb (do clearVar k; onWorld m) s (fun _ s' => Stepped Γ S K s [] s') (fun s' => Stepped Γ S K s [] s') := by
  refine NoUb.bind_ok (b := ()) (s' := (Slots.put s.1 k none, s.2)) rfl ?_
  have key : ∀ w', Eff s.2 a.ptr a.objs w' none [] → Stepped Γ S K s [] (Slots.put s.1 k none, w') := by
    intro w' e
    refine Stepped.one D hK ?_ (by rintro _ ⟨⟩)
    rw [hk]
    show Eff s.2 a.ptr (a.objs ++ []) w' none []
    rw [List.append_nil]; exact e
  exact NoUb.onWorld (h.mono (fun _ _ h => key _ h) fun _ h => key _ h)

theorem roundTrip_own (A : Acct Γ S) (T : ∀ t, Tab Γ t (vt t)) (D : DSafe Γ S s.1 s.2.heap) (hK : k < K) (hk : s.1 k = some (.vec c)) (hu : t' ≠ Γ.unitTy) :
    NoUb (do clearVar k; roundTripVec Γ cfg vt k t' c) s (fun _ s' => Stepped Γ S K s [] s') (fun s' => Stepped Γ S K s [] s') := by
  obtain ⟨t, es, H⟩ := D.held k _ hk
  refine NoUb.bind_ok (b := ()) (s' := (Slots.put s.1 k none, s.2)) rfl ?_
  have key : ∀ w' o, Eff s.2 c.data.ptr (objs t es) w' (ptrO o) (objsO o) → (∀ a, o = some a → Held Γ S w'.heap a) →
      Stepped Γ S K s [] (Slots.put s.1 k o, w') := by
    intro w' o e hh
    refine Stepped.one D hK ?_ hh
    rw [hk]
    show Eff s.2 c.data.ptr ((Item.vec c).objs ++ []) w' _ _
    rw [List.append_nil, H.cont.objs]; exact e
  have key0 : ∀ w', Eff s.2 c.data.ptr (objs t es) w' none [] → Stepped Γ S K s [] (Slots.put s.1 k none, w') :=
    fun w' e => key w' none e (by rintro _ ⟨⟩)
  unfold roundTripVec
  refine NoUb.bind (R := fun r s' => s'.1 = Slots.put s.1 k none ∧ ((r = none ∧ Eff s.2 c.data.ptr (objs t es) s'.2 none []) ∨
      ∃ v, r = some v ∧ TVal Γ S t' s.2 c.data.ptr (objs t es) (v, s'.2)))
    (NoUb.onWorld ((VecCopy.intoVec_own (cfg := cfg) hu H.cont H.valid D.wf).mono (fun _ _ h => ⟨rfl, h⟩) fun _ h => key0 _ h)) ?_
  rintro r ⟨s1, w1⟩ ⟨rfl, ⟨rfl, h⟩ | ⟨v, rfl, es', h1, h2, h3⟩⟩
  · exact NoUb.pure (key0 _ h)
  · simp only at h1 h3
    refine NoUb.bind (R := fun a s' => s'.1 = Slots.put s.1 k none ∧ Held Γ S s'.2.heap a ∧ Eff s.2 c.data.ptr (objs t es) s'.2 a.ptr a.objs)
      (NoUb.onWorld (NoUb.bind (R := fun d w' => Held Γ S w'.heap (.vec d) ∧ Eff s.2 c.data.ptr (objs t es) w' (Item.vec d).ptr (Item.vec d).objs)
        ((VecCopy.fromVec_own A (vt := vt t') h1 h2 h3.wf).mono ?_ ?_) ?_)) ?_
    · rintro d w2 ⟨k1, k2, k3⟩
      refine ⟨⟨t', es', by rw [k1]; exact T t', k2.pos, .inl k2, h2⟩, ?_⟩
      rw [Cont.objs (.inl k2)]
      exact h3.trans k3
    · intro w2 k1
      exact key0 _ (h3.trans k1)
    · rintro d w2 h
      exact NoUb.pure ⟨rfl, h⟩
    · rintro a ⟨s2, w2⟩ ⟨rfl, h4, h5⟩
      refine NoUb.bind_ok (b := ()) (s' := (Slots.put s.1 k (some a), w2)) ?_ (NoUb.pure ?_)
      · simp only [putItem, Slots.put_same, Slots.put_put]
      · exact key w2 (some a) h5 (by rintro _ ⟨⟩; exact h4)

theorem append_own (D : DSafe Γ S s.1 s.2.heap) (hK : k < K) (hJ : j < K) :
    NoUb ((DOp.append k j).exec Γ cfg vt) s (fun _ s' => Stepped Γ S K s [] s') (fun s' => Stepped Γ S K s [] s') := by
  have h0 := Stepped.refl D K []
  by_cases hkj : k = j
  · exact NoUb.of_ok (a := .absent) (s' := s) (by simp [DOp.exec, hkj]) h0
  rcases hk : s.1 k with _ | (c | a | a)
  · exact NoUb.of_ok (a := .absent) (s' := s) (by simp [DOp.exec, hkj, hk]) h0
  · rcases hj : s.1 j with _ | (b | a | a)
    · exact NoUb.of_ok (a := .absent) (s' := s) (by simp [DOp.exec, hkj, hk, hj]) h0
    · obtain ⟨t, es, H⟩ := D.held k _ hk
      obtain ⟨t', es', H'⟩ := D.held j _ hj
      have hd := D.apart k j hkj
      rw [hk, hj] at hd
      have key : ∀ q : VecDyn V × World (VecCopy V × Ledger U),
          AppendOwn Γ S t t' c b s.2 (objs t es ++ objs t' es') q.1 q.2.user.1 ⟨q.2.heap, q.2.user.2⟩ →
          Stepped Γ S K s [] (Slots.put (Slots.put s.1 k (some (.vec q.1))) j (some (.vec q.2.user.1)), ⟨q.2.heap, q.2.user.2⟩) := by
        rintro q ⟨h1, h2, h3, fs, fs', h4, h5, h6, h7, h8⟩
        refine Stepped.two D hkj hK hJ ?_ ?_ ?_ ?_
        · rw [hk, hj]; exact h3
        · rw [hk, hj]
          show Own s.2.user q.2.user.2 ((Item.vec c).objs ++ (Item.vec b).objs ++ []) ((Item.vec q.1).objs ++ (Item.vec q.2.user.1).objs)
          rw [List.append_nil, H.cont.objs, H'.cont.objs, Cont.objs h4, Cont.objs h5]
          exact h8
        · rintro _ ⟨⟩; exact ⟨t, fs, by rw [h1]; exact H.tab, H.pos, h4, h6⟩
        · rintro _ ⟨⟩; exact ⟨t', fs', by rw [h2]; exact H'.tab, H'.pos, h5, h7⟩
      rcases (VecCopy.append_own (cfg := cfg) H.cont H.valid H'.cont H'.valid D.wf hd).cases_on with ⟨a, q, e, h⟩ | ⟨y, q, e, h⟩ | ⟨q, e⟩
      · exact NoUb.of_ok (by simp only [DOp.exec, hkj, hk, hj, e, if_false]; rfl) (key q h)
      · exact NoUb.of_panic (by simp only [DOp.exec, hkj, hk, hj, e, if_false]; rfl) (key q h)
      · exact NoUb.of_abort (by simp only [DOp.exec, hkj, hk, hj, e, if_false]; rfl)
    · exact NoUb.of_ok (a := .absent) (s' := s) (by simp [DOp.exec, hkj, hk, hj]) h0
    · exact NoUb.of_ok (a := .absent) (s' := s) (by simp [DOp.exec, hkj, hk, hj]) h0
  · exact NoUb.of_ok (a := .absent) (s' := s) (by simp [DOp.exec, hkj, hk]) h0
  · exact NoUb.of_ok (a := .absent) (s' := s) (by simp [DOp.exec, hkj, hk]) h0

theorem pushBox_own (A : Acct Γ S) (D : DSafe Γ S s.1 s.2.heap) (hK : k < K) (hJ : j < K)
    (hs : ∀ c v, s.1 k = some (.vec c) → s.1 j = some (.box v) → v.type_id = c.elementTypeId → v.alignment = 1) :
    NoUb ((DOp.pushBox k j).exec Γ cfg vt) s (fun _ s' => Stepped Γ S K s [] s') (fun s' => Stepped Γ S K s [] s') := by
  have h0 := Stepped.refl D K []
  rcases hk : s.1 k with _ | (c | a | a)
  · exact NoUb.of_ok (a := .absent) (s' := s) (by simp [DOp.exec, hk]) h0
  · rcases hj : s.1 j with _ | (b | b | b)
    · exact NoUb.of_ok (a := .absent) (s' := s) (by simp [DOp.exec, hk, hj]) h0
    · exact NoUb.of_ok (a := .absent) (s' := s) (by simp [DOp.exec, hk, hj]) h0
    · have hkj : k ≠ j := by rintro rfl; rw [hk] at hj; cases hj
      obtain ⟨t, es, H⟩ := D.held k _ hk
      obtain ⟨t', H'⟩ := D.held j _ hj
      have hd := D.apart k j hkj
      rw [hk, hj] at hd
      have key : ∀ q : VecDyn V × World (Ledger U), PushPost Γ S t c b.bytes.ptr s.2 (objs t es ++ [(t', b.bytes.bytes)]) q →
          Stepped Γ S K s [] (Slots.put (Slots.put s.1 j none) k (some (.vec q.1)), q.2) := by
        rintro q ⟨h1, h2, fs, h3, h4, h5⟩
        rw [Slots.put_comm _ _ _ (fun e => hkj e.symm)]
        refine Stepped.two D hkj hK hJ ?_ ?_ ?_ (by rintro _ ⟨⟩)
        · rw [hk, hj]; exact h2
        · rw [hk, hj]
          show Own s.2.user q.2.user ((Item.vec c).objs ++ (Item.box b).objs ++ []) ((Item.vec q.1).objs ++ [])
          rw [List.append_nil, List.append_nil, H.cont.objs, H'.objs, Cont.objs h3]
          exact h5
        · rintro _ ⟨⟩; exact ⟨t, fs, by rw [h1]; exact H.tab, H.pos, h3, h4⟩
      have hk1 : Slots.put s.1 j none k = some (.vec c) := by rw [Slots.put_other _ _ hkj, hk]
      have run : ∀ (r : Res Obs) q, (do return Obs.ofUnit (← VecDyn.push Γ cfg b) : M (VecDyn V × World (Ledger U)) Obs) (c, s.2) = (r, q) →
          (DOp.pushBox k j).exec Γ cfg vt s = (r, (Slots.put (Slots.put s.1 j none) k (some (.vec q.1)), q.2)) := by
        intro r q e
        simp only [DOp.exec, hk, hj, clearVar, M.bind_run, M.modify_run, onVec, hk1]
        simp only [M.bind_run] at e
        rw [e]
      have hp := VecDyn.push_own (cfg := cfg) A H.cont H.valid D.wf H' hd (hs c b hk hj)
      have hp' : NoUb (do return Obs.ofUnit (← VecDyn.push Γ cfg b) : M (VecDyn V × World (Ledger U)) Obs) (c, s.2)
          (fun _ s' => PushPost Γ S t c b.bytes.ptr s.2 (objs t es ++ [(t', b.bytes.bytes)]) s')
          (fun s' => PushPost Γ S t c b.bytes.ptr s.2 (objs t es ++ [(t', b.bytes.bytes)]) s') :=
        NoUb.bind hp fun _ _ h => NoUb.pure h
      rcases hp'.cases_on with ⟨a, q, e, h⟩ | ⟨y, q, e, h⟩ | ⟨q, e⟩
      · exact NoUb.of_ok (run _ _ e) (key q h)
      · exact NoUb.of_panic (run _ _ e) (key q h)
      · exact NoUb.of_abort (run _ _ e)
    · exact NoUb.of_ok (a := .absent) (s' := s) (by simp [DOp.exec, hk, hj]) h0
  · exact NoUb.of_ok (a := .absent) (s' := s) (by simp [DOp.exec, hk]) h0
  · exact NoUb.of_ok (a := .absent) (s' := s) (by simp [DOp.exec, hk]) h0

theorem assign_own (A : Acct Γ S) (D : DSafe Γ S s.1 s.2.heap) (hK : k < K) (hJ : j < K) (hf : Fits Γ cfg i) :
    NoUb ((DOp.assign k i j).exec Γ cfg vt) s (fun _ s' => Stepped Γ S K s [] s') (fun s' => Stepped Γ S K s [] s') := by
  have h0 := Stepped.refl D K []
  by_cases hkj : k = j
  · exact NoUb.of_ok (a := .absent) (s' := s) (by simp [DOp.exec, hkj]) h0
  have main : ∀ b, s.1 k ≠ none → s.1 j = some b →
      NoUb (do let _ ← readRef cfg k i; clearVar j; onMut cfg k i (assignItem b)) s (fun _ s' => Stepped Γ S K s [] s') (fun s' => Stepped Γ S K s [] s') := by
    intro b hk hj
    refine NoUb.bind (R := fun _ s' => s' = s) ((readRef_own (k := k) D hf).mono (fun _ _ h => h.1) fun s' h => by rw [h]; exact h0) ?_
    rintro _ s1 rfl
    refine NoUb.bind_ok (b := ()) (s' := (Slots.put s1.1 j none, s1.2)) rfl ?_
    have D1 : DSafe Γ S (Slots.put s1.1 j none) s1.2.heap := D.move (Moved.refl D.wf _).drop (by rintro _ ⟨⟩)
    have hk1 : Slots.put s1.1 j none k = s1.1 k := Slots.put_other _ _ hkj
    have hd := D.apart k j hkj
    rw [hj] at hd
    have key : ∀ s', MutPost Γ S k (Slots.put s1.1 j none, s1.2) b.ptr b.objs s' → Stepped Γ S K s1 [] s' := by
      rintro ⟨s2, w2⟩ ⟨o, h1, h2, h3, h4, h5⟩
      simp only at h1 h2 h3 h4 h5
      rw [hk1] at h2 h4
      subst h1
      rw [Slots.put_comm _ _ _ (fun e => hkj e.symm)]
      refine Stepped.two D hkj hK hJ ?_ ?_ h5 (by rintro _ ⟨⟩)
      · rw [hj, h2]; exact Moved2.ofRight h3
      · rw [hj]
        show Own s1.2.user w2.user (objsO (s1.1 k) ++ b.objs ++ []) (objsO o ++ [])
        rw [List.append_nil, List.append_nil]
        exact h4
    refine (onMut_own (s := (Slots.put s1.1 j none, s1.2)) D1 hf ?_ ?_ fun t r hr => assignItem_own A hr (D.held j b hj) D.wf).mono
      (fun _ _ h => key _ h) fun _ h => key _ h
    · show ∀ i, ptrO (Slots.put s1.1 j none k) = some i → _
      rw [hk1]; exact hd
    · show Slots.put s1.1 j none k ≠ none
      rw [hk1]; exact hk
  cases hk : s.1 k with
  | none => exact NoUb.of_ok (a := .absent) (s' := s) (by simp [DOp.exec, hkj, hk]) h0
  | some a =>
    cases hj : s.1 j with
    | none => exact NoUb.of_ok (a := .absent) (s' := s) (by simp [DOp.exec, hkj, hk, hj]) h0
    | some b =>
      cases b with
      | vec b => exact NoUb.of_ok (a := .absent) (s' := s) (by simp [DOp.exec, hkj, hk, hj]) h0
      | box b =>
        have := main _ (by rw [hk]; simp) hj
        unfold NoUb at this ⊢
        simp only [DOp.exec, hkj, hk, hj, if_false]
        exact this
      | small b =>
        have := main _ (by rw [hk]; simp) hj
        unfold NoUb at this ⊢
        simp only [DOp.exec, hkj, hk, hj, if_false]
        exact this

end DOp
end Dync
