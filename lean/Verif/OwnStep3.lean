import Verif.OwnStep2
/-!
# Helper lemmas: one operation and whole programs
-/
namespace Dync
variable {U V α σ : Type} {Γ : TyEnv (Ledger U)} {S : Values Γ} {t t' : TyId} {es : List Bytes} {x : Bytes}
  {w : World (Ledger U)} {cfg : Cfg} {v : VecVoid} {c : VecDyn V} {vt : TyId → V}
variable [HasDrop (Ledger U) V] [HasClone (Ledger U) V]
variable {K k j i : Nat} {s : DSlots V × World (Ledger U)} {G : List Obj}

theorem VecOk.usable {h : Heap} {r : ValueRef V} (H : VecOk Γ S h t es c) (hr : RefOk Γ S t' r) (he : c.elementTypeId = r.type_id) : Usable S t r.bytes := by
  rcases H.cont with R | ⟨u, _⟩
  · have h1 : c.elementTypeId = t := R.type_id
    rcases hr.2 with b | b
    · have : t' = t := by rw [← b.type_id, ← he, h1]
      subst this
      exact .inl b.valid
    · exact absurd (h1.symm.trans (he.trans b.type_id)) R.not_unit
  · have h1 : c.elementTypeId = Γ.unitTy := (u.lostRef (c := c) H.pos).type_id
    rcases hr.2 with b | b
    · exact absurd (b.type_id.symm.trans (he.symm.trans h1)) b.unit
    · exact .inr ⟨b.bytes, H.pos⟩

theorem RefOk.valid {r : ValueRef V} (h : RefOk Γ S t r) : S.valid r.type_id r.bytes := by
  rcases h.2 with a | a
  · rw [a.type_id]; exact a.valid
  · rw [a.type_id, a.bytes]; exact S.unit

namespace DOp

/-- Reading a place before using it. -/
theorem read_own (D : DSafe Γ S s.1 s.2.heap) (hf : Fits Γ cfg i) {f : Option (ValueRef V) → M (DSlots V × World (Ledger U)) Obs} {P : Obs → Prop}
    (h0 : NoUb (f none) s (fun o s' => Stepped Γ S K s [] s' ∧ P o) (fun s' => Stepped Γ S K s [] s'))
    (h1 : ∀ r t, RefOk Γ S t r → NoUb (f (some r)) s (fun o s' => Stepped Γ S K s [] s' ∧ P o) (fun s' => Stepped Γ S K s [] s')) :
    NoUb (readRef cfg k i >>= f) s (fun o s' => Stepped Γ S K s [] s' ∧ P o) (fun s' => Stepped Γ S K s [] s') := by
  refine NoUb.bind ((readRef_own (k := k) D hf).mono (fun _ _ h => h) fun s' h => by rw [h]; exact Stepped.refl D K []) ?_
  rintro o s1 ⟨hs1, h⟩
  subst hs1
  rcases h with ⟨rfl, _⟩ | ⟨r, a, t, rfl, _, hr, _⟩
  · exact h0
  · exact h1 r t hr

theorem toVec_eq {s : DSlots V} {x : Obj} (h : s k = some (.vec c)) : toVec s k x = [x] := by simp [toVec, h]
theorem toElem_eq {s : DSlots V} {x : Obj} (h : s k = some (.vec c)) : toElem s k i x = if i < c.len then [x] else [] := by simp [toElem, h]

theorem exec_own (A : Acct Γ S) (T : ∀ t, Tab Γ t (vt t)) (D : DSafe Γ S s.1 s.2.heap) (op : DOp) (hK : ∀ k ∈ op.vars, k < K)
    (ho : op.Safe Γ S cfg s.1) :
    NoUb (op.exec Γ cfg vt) s (fun o s' => Stepped Γ S K s (op.passed s.1) s' ∧ op.Seen S s.1 o) (fun s' => Stepped Γ S K s (op.passed s.1) s') := by
  have h0 := Stepped.refl D K []
  have weaken : ∀ {m : M (DSlots V × World (Ledger U)) Obs} {G}, (∀ o, op.Seen S s.1 o) →
      NoUb m s (fun _ s' => Stepped Γ S K s G s') (fun s' => Stepped Γ S K s G s') →
      NoUb m s (fun o s' => Stepped Γ S K s G s' ∧ op.Seen S s.1 o) (fun s' => Stepped Γ S K s G s') :=
    fun hs h => h.mono (fun o _ h => ⟨h, hs o⟩) fun _ h => h
  have made : ∀ {k m G}, k < K → (∀ o, op.Seen S s.1 o) →
      NoUb m s.2 (fun a w' => MadeItem Γ S s.2 none G a w') (fun w' => Eff s.2 none G w' none []) →
      NoUb (create cfg k m) s (fun o s' => Stepped Γ S K s G s' ∧ op.Seen S s.1 o) (fun s' => Stepped Γ S K s G s') :=
    fun hk hs h => (create_own A D hk h).mono (fun o _ h => ⟨h.1, hs o⟩) fun _ h => h
  cases op with
  | withType k t => exact made (hK k (by simp [vars])) (fun o => by trivial) (Made.run (T t) (VecCopy.withType_own A D.wf))
  | withCapacity k t n => exact made (hK k (by simp [vars])) (fun o => by trivial) (Made.run (T t) (VecCopy.withCapacity_own A D.wf n))
  | fromVec k t xs =>
    have h1 := Made.run (T t) (fromVec_own (vt := vt t) A D.wf ho)
    refine made (hK k (by simp [vars])) (fun o => by trivial) ?_
    have e : (do let v ← RVec.withCapacity (Γ.layout t) xs.length
                 return Item.vec (← VecCopy.fromVec Γ t (vt t) { v with len := xs.length, bytes := xs.flatten }) : M (World (Ledger U)) (Item V)) =
        (do return Item.vec (← (do
              let v ← RVec.withCapacity (Γ.layout t) xs.length
              VecCopy.fromVec Γ t (vt t) { v with len := xs.length, bytes := xs.flatten }))) := by
      simp only [bind_assoc]
    rw [e]
    exact h1
  | fromSlice k t xs => exact made (hK k (by simp [vars])) (fun o => by trivial) (Made.run (T t) (VecDyn.fromSlice_own A D.wf ho))
  | withSize k t n x => exact made (hK k (by simp [vars])) (fun o => by trivial) (Made.run (T t) (VecDyn.withSize_own A D.wf n ho))
  | newBox k t x => exact made (hK k (by simp [vars])) (fun o => by trivial) (BoxValue.new_own (T t) D.wf ho.1 ho.2)
  | newSmall k t x => exact made (hK k (by simp [vars])) (fun o => by trivial) (SmallValue.new_own (T t) D.wf ho.1 ho.2)
  | drop k =>
    refine weaken (fun o => by trivial) ?_
    cases hk : s.1 k with
    | none => exact NoUb.of_ok (a := .absent) (s' := s) (by simp [DOp.exec, hk]) h0
    | some a =>
      have := take_own (Γ := Γ) (S := S) D (hK k (by simp [vars])) hk ((D.held k a hk).drop (cfg := cfg) A D.wf)
      have h2 : NoUb (do clearVar k; onWorld (a.drop cfg); Pure.pure Obs.done) s (fun _ s' => Stepped Γ S K s [] s') (fun s' => Stepped Γ S K s [] s') := by
        have e : (do clearVar k; onWorld (a.drop cfg); Pure.pure Obs.done : M (DSlots V × World (Ledger U)) Obs) =
            ((do clearVar k; onWorld (a.drop cfg)) >>= fun _ => Pure.pure Obs.done) := by simp only [bind_assoc]
        rw [e]
        exact NoUb.bind this fun _ _ h => NoUb.pure h
      unfold NoUb at h2 ⊢
      simp only [DOp.exec, hk]
      exact h2
  | clone k j =>
    refine weaken (fun o => by trivial) ?_
    cases hk : s.1 k with
    | none => exact NoUb.of_ok (a := .absent) (s' := s) (by simp [DOp.exec, hk]) h0
    | some a =>
      have h2 := create_own (cfg := cfg) A D (hK j (by simp [vars])) ((D.held k a hk).clone (cfg := cfg) A D.wf)
      have h3 := h2.mono (Q' := fun _ s' => Stepped Γ S K s [] s') (fun _ _ h => h.1) fun _ h => h
      unfold NoUb at h3 ⊢
      simp only [DOp.exec, hk]
      exact h3
  | consume k t =>
    refine weaken (fun o => by trivial) ?_
    cases hk : s.1 k with
    | none => exact NoUb.of_ok (a := .absent) (s' := s) (by simp [DOp.exec, hk]) h0
    | some a =>
      have h3 := take_own (Γ := Γ) (S := S) D (hK k (by simp [vars])) hk ((D.held k a hk).consume (cfg := cfg) A D.wf ho)
      unfold NoUb at h3 ⊢
      simp only [DOp.exec, hk]
      exact h3
  | roundTrip k t =>
    refine weaken (fun o => by trivial) ?_
    rcases hk : s.1 k with _ | (c | a | a)
    · exact NoUb.of_ok (a := .absent) (s' := s) (by simp [DOp.exec, hk]) h0
    · have h3 := roundTrip_own (cfg := cfg) A T D (hK k (by simp [vars])) hk ho
      unfold NoUb at h3 ⊢
      simp only [DOp.exec, hk]
      exact h3
    · exact NoUb.of_ok (a := .absent) (s' := s) (by simp [DOp.exec, hk]) h0
    · exact NoUb.of_ok (a := .absent) (s' := s) (by simp [DOp.exec, hk]) h0
  | append k j => exact weaken (fun o => by trivial) (append_own D (hK k (by simp [vars])) (hK j (by simp [vars])))
  | pushAs k t x =>
    refine weaken (fun o => by trivial) (method_own D (hK k (by simp [vars])) ?_)
    intro c t1 es hk H
    rw [passed, toVec_eq hk]
    exact VecCopy.pushAs_own A H.cont H.valid D.wf ho.1 ho.2
  | pushCloned k j i =>
    show NoUb (do
      if k = j then return .absent
      match ← readRef cfg j i with
      | none => return .absent
      | some v => onVec k do return Obs.ofUnit (← VecDyn.pushCloned Γ cfg v)) s _ _
    by_cases hkj : k = j
    · rw [if_pos hkj]; exact NoUb.pure ⟨h0, by trivial⟩
    rw [if_neg hkj]
    refine read_own D ho (NoUb.pure ⟨h0, by trivial⟩) ?_
    intro r t' hr
    refine weaken (fun o => by trivial) (method_own D (hK k (by simp [vars])) ?_)
    intro c t1 es hk H
    rw [List.append_nil]
    exact VecDyn.pushCloned_own A H.tab H.cont H.valid D.wf fun he => H.usable hr he
  | pushBox k j => exact weaken (fun o => by trivial) (pushBox_own A D (hK k (by simp [vars])) (hK j (by simp [vars])) ho)
  | resize k t n x =>
    refine weaken (fun o => by trivial) (method_own D (hK k (by simp [vars])) ?_)
    intro c t1 es hk H
    rw [passed, toVec_eq hk]
    exact VecDyn.resize_own A H.tab ho.2.2 ho.1 H.cont H.valid D.wf ho.2.1 n
  | fill k t x =>
    refine weaken (fun o => by trivial) (method_own D (hK k (by simp [vars])) ?_)
    intro c t1 es hk H
    rw [passed, toVec_eq hk]
    exact VecDyn.fill_own A ho.1 H.cont H.valid D.wf ho.2
  | clear k =>
    refine weaken (fun o => by trivial) (method_own (f := fun _ => .done) D (hK k (by simp [vars])) ?_)
    intro c t1 es hk H
    show NoUb _ _ (fun _ s' => OStep Γ S t1 c s.2 (objs t1 es ++ []) s') (fun s' => OStep Γ S t1 c s.2 (objs t1 es ++ []) s')
    rw [List.append_nil]
    refine VecDyn.clear_own A H.tab (fun R => ?_) H.cont H.valid D.wf
    have := ho c hk
    have e : c.elementTypeId = t1 := R.type_id
    rw [e] at this
    exact this
  | rotateLeft k n =>
    refine weaken (fun o => by trivial) (method_own (f := fun _ => .done) D (hK k (by simp [vars])) ?_)
    intro c t1 es hk H
    show NoUb _ _ (fun _ s' => OStep Γ S t1 c s.2 (objs t1 es ++ []) s') (fun s' => OStep Γ S t1 c s.2 (objs t1 es ++ []) s')
    rw [List.append_nil]
    exact VecCopy.rotateLeft_own H.cont H.valid D.wf (VecCopy.rotate_fits (H.cont.good H.valid) ho)
  | rotateRight k n =>
    refine weaken (fun o => by trivial) (method_own (f := fun _ => .done) D (hK k (by simp [vars])) ?_)
    intro c t1 es hk H
    show NoUb _ _ (fun _ s' => OStep Γ S t1 c s.2 (objs t1 es ++ []) s') (fun s' => OStep Γ S t1 c s.2 (objs t1 es ++ []) s')
    rw [List.append_nil]
    exact VecCopy.rotateRight_own H.cont H.valid D.wf (VecCopy.rotate_fits (H.cont.good H.valid) ho)
  | swap k a b =>
    refine weaken (fun o => by trivial) (method_own (f := fun _ => .done) D (hK k (by simp [vars])) ?_)
    intro c t1 es hk H
    show NoUb _ _ (fun _ s' => OStep Γ S t1 c s.2 (objs t1 es ++ []) s') (fun s' => OStep Γ S t1 c s.2 (objs t1 es ++ []) s')
    rw [List.append_nil]
    exact VecCopy.swap_own H.cont H.valid D.wf ho.1 ho.2
  | setAs k t i x =>
    refine onVec_own D (hK k (by simp [vars])) ?_ (by trivial)
    intro c t1 es hk H
    rw [passed, toElem_eq hk]
    exact (setAs_own A ho.1 H.cont H.valid D.wf ho.2 i).mono (fun o s' h => ⟨h, by trivial⟩) fun _ h => h
  | cloneIntoVec k t =>
    refine onVec_own D (hK k (by simp [vars])) ?_ (by trivial)
    intro c t1 es hk H
    have same := OStep.refl (S := S) (c := c) H.cont H.valid D.wf []
    have key : ∀ w' I, Usr s.2 w' [] I → OStep Γ S t1 c s.2 (objs t1 es ++ []) (c, w') := by
      intro w' I h
      have h2 : Usr s.2 w' [] [] := ⟨h.1, h.2.lose⟩
      simpa using same.andThen h2
    refine NoUb.bind_ok (b := c) (s' := (c, s.2)) rfl ?_
    refine NoUb.bind (R := fun r s' => s'.1 = c ∧ ∃ cs : List Bytes, (r = none ∧ cs = [] ∨ r = some cs) ∧ (∀ e ∈ cs, S.valid t e) ∧
      Usr s.2 s'.2 [] (objs t cs)) (NoUb.onWorld ((VecDyn.cloneIntoVec_own A ho H.cont H.valid).mono (fun _ _ h => ⟨rfl, h⟩) fun w' h => key w' _ h)) ?_
    rintro r ⟨c1, w1⟩ ⟨rfl, cs, hr, hcs, hu⟩
    rcases hr with ⟨rfl, rfl⟩ | rfl
    · exact NoUb.pure ⟨key w1 _ hu, by trivial⟩
    · have hd := A.dropEach hcs w1
      rw [dropEach_worldUser] at hd
      have fin : ∀ w2, Usr w1 w2 (objs t cs) [] → OStep Γ S t1 c1 s.2 (objs t1 es ++ []) (c1, w2) :=
        fun w2 h => key w2 [] ⟨h.1.trans hu.1, hu.2.trans h.2⟩
      refine NoUb.bind (R := fun _ s' => OStep Γ S t1 c1 s.2 (objs t1 es ++ []) s') (NoUb.onWorld (hd.mono (fun _ w2 h => fin w2 h) fun w2 h => fin w2 h)) ?_
      intro _ s' h
      exact NoUb.pure ⟨h, hcs⟩
  | cloneValue k i j =>
    refine read_own D ho (NoUb.pure ⟨h0, by trivial⟩) ?_
    intro r t' hr
    exact made (hK j (by simp [vars])) (fun o => by trivial) (ValueRef.cloneValue_own A hr D.wf)
  | cloneSmall k i j =>
    refine read_own D ho (NoUb.pure ⟨h0, by trivial⟩) ?_
    intro r t' hr
    exact made (hK j (by simp [vars])) (fun o => by trivial) (ValueRef.cloneSmallValue_own A hr D.wf)
  | assign k i j => exact weaken (fun o => by trivial) (assign_own A D (hK k (by simp [vars])) (hK j (by simp [vars])) ho)
  | cloneFrom k i j i' =>
    show NoUb (do
      if k = j then return .absent
      match ← readRef cfg j i' with
      | none => return .absent
      | some v => onMut cfg k i do return Obs.ofUnit (← ValueRef.cloneFromOther v)) s _ _
    by_cases hkj : k = j
    · rw [if_pos hkj]; exact NoUb.pure ⟨h0, by trivial⟩
    rw [if_neg hkj]
    refine read_own D ho.2 (NoUb.pure ⟨h0, by trivial⟩) ?_
    intro r t' hr
    refine weaken (fun o => by trivial) ?_
    by_cases hk : s.1 k = none
    · exact NoUb.of_ok (a := .absent) (s' := s) (by simp [onMut, hk]) h0
    · have key : ∀ s', MutPost Γ S k s none [] s' → Stepped Γ S K s [] s' := by
        rintro ⟨s2, w2⟩ ⟨o, h1, h2, h3, h4, h5⟩
        simp only at h1 h2 h3 h4 h5
        subst h1
        refine Stepped.one D (hK k (by simp [vars])) ⟨?_, h4⟩ h5
        rw [h2]
        exact ⟨h3.wf, h3.next_le, fun j hj _ => h3.other j hj (by simp), fun i hi => .inl hi⟩
      refine (onMut_own D ho.1 (by intro i _ h; cases h) hk fun t q hq =>
        NoUb.bind (ValueRef.cloneFromOther_own A hq hr D.wf) fun _ _ h => NoUb.pure h).mono (fun _ _ h => key _ h) fun _ h => key _ h
  | swapValues k i j i' => exact weaken (fun o => by trivial) (swapValues_own D (hK k (by simp [vars])) (hK j (by simp [vars])) ho.1 ho.2)
  | len k => exact look_own D (hK k (by simp [vars])) (fun c _ _ => NoUb.of_ok rfl ⟨rfl, by trivial⟩) (by trivial)
  | typeId k => exact look_own D (hK k (by simp [vars])) (fun c _ _ => NoUb.of_ok rfl ⟨rfl, by trivial⟩) (by trivial)
  | getAs k t i =>
    refine look_own D (hK k (by simp [vars])) (fun c hk g => ?_) (by trivial)
    refine NoUb.bind_ok (b := c) (s' := (c, s.2)) rfl ?_
    refine NoUb.bind (VecCopy.getAs_runs g t i (c, s.2)).noUb ?_
    rintro r s' ⟨rfl, hr⟩
    cases r with
    | none => exact NoUb.pure ⟨rfl, by trivial⟩
    | some b => exact NoUb.pure ⟨rfl, hr b rfl⟩
  | get k i =>
    refine read_own D ho (NoUb.pure ⟨h0, by trivial⟩) ?_
    intro r t' hr
    exact NoUb.pure ⟨h0, hr.valid⟩
  | asSlice k t =>
    refine look_own D (hK k (by simp [vars])) (fun c hk g => ?_) (by trivial)
    refine NoUb.bind_ok (b := c) (s' := (c, s.2)) rfl ?_
    refine NoUb.bind (VecCopy.asSliceAs_runs g t (c, s.2)).noUb ?_
    rintro r s' ⟨rfl, hr⟩
    cases r with
    | none => exact NoUb.pure ⟨rfl, by trivial⟩
    | some b => exact NoUb.pure ⟨rfl, hr b rfl⟩
  | iter k =>
    refine look_own D (hK k (by simp [vars])) (fun c hk g => ?_) (by trivial)
    refine NoUb.bind_ok (b := c) (s' := (c, s.2)) rfl ?_
    refine NoUb.bind (VecCopy.iter_runs g (c, s.2)).noUb ?_
    rintro r s' ⟨rfl, hr⟩
    refine NoUb.pure ⟨rfl, ?_⟩
    intro c1 hc1 b hb
    rw [hk] at hc1
    cases hc1
    obtain ⟨v, hv, rfl⟩ := List.mem_map.1 hb
    exact (hr v hv).2

end DOp
end Dync
