import Verif.Ledger
/-!
# Every operation on plain typed values conserves values
-/
namespace Dync
variable {U : Type} {Γ : TyEnv U} {a : Obj} {K k i : Nat} {s s' : DState} {l l' : Ledger U} {r : Res Obs} {t : TyId} {x : Bytes}

theorem caught_ok {α : Type} {b : α} : (Res.ok b).Caught := ⟨by simp, by simp⟩
theorem caught_panic {α : Type} {y : Why} : (Res.panic y : Res α).Caught := ⟨by simp, by simp⟩
theorem caught_map {α β : Type} {f : α → β} {r : Res α} (h : (r.map f).Caught) : r.Caught := by
  cases r with
  | ok b => exact caught_ok
  | panic y => exact caught_panic
  | ub => exact absurd rfl h.1
  | abort => exact absurd rfl h.2

theorem user_inv {α : Type} {m : M (Ledger U) α} {r : Res α} {q : DState × Ledger U} (h : DSpec.user m (s, l) = (r, q)) :
    ∃ l', m l = (r, l') ∧ q = (s, l') := by
  simp only [DSpec.user, M.zoom_run] at h
  cases h
  exact ⟨(m l).2, rfl, rfl⟩

theorem put_total {b : SItem} (h : DSpec.put Γ.ledger k b (s, l) = (r, (s', l'))) (hr : r.Caught) (hk : k < K) :
    total a K (s', l') = total a K (s, l) + b.cnt a := by
  simp only [DSpec.put] at h
  cases hs : s k with
  | none =>
    rw [hs] at h
    cases h
    have := DState.cnt_put (a := a) (s := s) (b := some b) hk
    rw [hs] at this
    simp only [total, cntO] at *
    omega
  | some old =>
    rw [hs] at h
    simp only at h
    rcases hd : old.drop Γ.ledger l with ⟨r1, l1⟩
    rw [hd] at h
    cases h
    have e1 := ledger_item_drop_net (a := a) hd (caught_map hr)
    have := DState.cnt_put (a := a) (s := s) (b := some b) hk
    rw [hs] at this
    simp only [total, cntO] at *
    omega

theorem method_total {f : TyId → M (List Bytes × Ledger U) Obs} {g : Int}
    (h : DSpec.methodVec k f (s, l) = (r, (s', l'))) (hr : r.Caught) (hk : k < K)
    (hg : (∀ t es, s k ≠ some (.vec t es)) → g = 0)
    (hf : ∀ t es es' l', s k = some (.vec t es) → f t (es, l) = (r, (es', l')) →
      l'.net a + cnt a t es' = l.net a + cnt a t es + g) : total a K (s', l') = total a K (s, l) + g := by
  rcases hs : s k with _ | ⟨t, es⟩ | ⟨t, x⟩ | ⟨t, x⟩
  · simp only [DSpec.methodVec, hs] at h
    cases h
    rw [hg (by simp [hs])]; omega
  · simp only [DSpec.methodVec, hs] at h
    rcases h1 : f t (es, l) with ⟨r1, es1, l1⟩
    rw [h1] at h
    cases h
    have e1 := hf t es es1 _ hs h1
    have := DState.cnt_put (a := a) (s := s) (b := some (.vec t es1)) hk
    rw [hs] at this
    simp only [total, cntO, SItem.cnt_vec] at *
    omega
  · simp only [DSpec.methodVec, hs] at h
    cases h
    rw [hg (by simp [hs])]; omega
  · simp only [DSpec.methodVec, hs] at h
    cases h
    rw [hg (by simp [hs])]; omega

theorem pure_total {f : TyId → List Bytes → Option (Obs × List Bytes)}
    (h : DSpec.pureVec k f (s, l) = (r, (s', l'))) (hr : r.Caught) (hk : k < K)
    (hf : ∀ t es o es', f t es = some (o, es') → cnt a t es' = cnt a t es) : total a K (s', l') = total a K (s, l) := by
  have := method_total (a := a) (g := 0) h hr hk (fun _ => rfl) (by
    intro t es es' l' hs h1
    simp only at h1
    cases h2 : f t es with
    | none => rw [h2] at h1; cases h1; omega
    | some p =>
      obtain ⟨o, es2⟩ := p
      rw [h2] at h1
      cases h1
      rw [hf t es _ _ h2]; omega)
  omega

theorem refuse_net {es es' : List Bytes} (h : DSpec.refuse Γ.ledger t x (es, l) = (r, (es', l'))) (hr : r.Caught) :
    es' = es ∧ l'.net a = l.net a + cnt a t [x] := by
  rcases M.bind_caught h hr with ⟨y, rfl, h1⟩ | ⟨⟨⟩, q, h1, h2⟩
  · simp only [M.zoom_run] at h1
    rcases hd : Γ.ledger.drop t x l with ⟨r1, l1⟩
    rw [hd] at h1
    cases h1
    exact ⟨rfl, ledger_drop_net hd⟩
  · simp only [M.zoom_run] at h1
    rcases hd : Γ.ledger.drop t x l with ⟨r1, l1⟩
    rw [hd] at h1
    cases h1
    cases h2
    exact ⟨rfl, ledger_drop_net hd⟩

theorem tvec_inv {f : List Bytes → Ledger U → Res Unit × (List Bytes × Ledger U)} {es : List Bytes}
    {q : List Bytes × Ledger U} (h : DSpec.tvec f (es, l) = (r, q)) (hr : r.Caught) :
    ∃ r', r'.Caught ∧ f es l = (r', q) := by
  rcases M.bind_caught h hr with ⟨y, rfl, h1⟩ | ⟨⟨⟩, q, h1, h2⟩
  · exact ⟨.panic y, caught_panic, h1⟩
  · cases h2; exact ⟨.ok (), caught_ok, h1⟩

theorem read_state {r : Res (Option (TyId × Bytes))} {q : DState × Ledger U} (h : DSpec.read k i (s, l) = (r, q)) :
    q = (s, l) := by
  rcases hs : s k with _ | ⟨t, es⟩ | ⟨t, x⟩ | ⟨t, x⟩ <;> simp only [DSpec.read, hs] at h
  · cases h; rfl
  · split at h <;> cases h <;> rfl
  · cases h; rfl
  · cases h; rfl

/-- Overwriting a place. -/
theorem write_cnt {old b : Bytes} {q : DState × Ledger U} (h : DSpec.read k i (s, l) = (.ok (some (t, old)), q)) (hk : k < K) :
    DState.cnt a K (Slots.put s k ((s k).map (SItem.setAt i b))) + cnt a t [old] = s.cnt a K + cnt a t [b] := by
  rcases hs : s k with _ | ⟨t1, es⟩ | ⟨t1, x⟩ | ⟨t1, x⟩ <;> simp only [DSpec.read, hs] at h
  · cases h
  · split at h
    · rename_i hi
      cases h
      have e1 := cnt_set (a := a) (t := t) (x := b) hi
      have := DState.cnt_put (a := a) (s := s) (b := some (.vec t (es.set i b))) hk
      rw [hs] at this
      simp only [Option.map_some, SItem.setAt, cntO, SItem.cnt_vec] at *
      omega
    · cases h
  · cases h
    have := DState.cnt_put (a := a) (s := s) (b := some (.box t b)) hk
    rw [hs] at this
    simp only [Option.map_some, SItem.setAt, cntO, SItem.cnt_box] at *
    omega
  · cases h
    have := DState.cnt_put (a := a) (s := s) (b := some (.small t b)) hk
    rw [hs] at this
    simp only [Option.map_some, SItem.setAt, cntO, SItem.cnt_small] at *
    omega

/-- Reading another variable is not affected by a write or move. -/
theorem read_other {j i' : Nat} {b : Option SItem} {l2 : Ledger U} {r : Res (Option (TyId × Bytes))} {q : DState × Ledger U}
    (hkj : k ≠ j) (h : DSpec.read j i' (s, l) = (r, q)) : DSpec.read j i' (Slots.put s k b, l2) = (r, (Slots.put s k b, l2)) := by
  have hp : Slots.put s k b j = s j := Slots.put_other _ _ (Ne.symm hkj)
  rcases hs : s j with _ | ⟨t, es⟩ | ⟨t, x⟩ | ⟨t, x⟩ <;> simp only [DSpec.read, hp, hs] at h ⊢
  · cases h; rfl
  · split at h
    · rename_i hi; rw [dif_pos hi]; cases h; rfl
    · rename_i hi; rw [dif_neg hi]; cases h; rfl
  · cases h; rfl
  · cases h; rfl

theorem given_vec_none (h : ∀ t es, s k ≠ some (.vec t es)) (b : Obj) : s.toVec k b = [] := by
  unfold DState.toVec
  split
  · rename_i t es hs; exact absurd hs (h t es)
  · rfl

theorem given_vec_some {es : List Bytes} {t' : TyId} (h : s k = some (.vec t' es)) (b : Obj) : s.toVec k b = [b] := by
  simp only [DState.toVec, h]

theorem count_obj : (([(t, x)] : List Obj).count a : Int) = cnt a t [x] := rfl

/-- On plain typed values an operation neither loses nor duplicates a value. -/
theorem dstep_total (op : DOp) (hK : ∀ k ∈ op.vars, k < K) (h : op.spec Γ.ledger (s, l) = (r, (s', l'))) (hr : r.Caught) :
    total a K (s', l') = total a K (s, l) + ((op.given s).count a : Nat) := by
  cases op with
  | withType k t =>
    have := put_total (a := a) (K := K) h hr (hK k (by simp [DOp.vars]))
    simpa [DOp.given, SItem.cnt_vec, cnt_nil] using this
  | withCapacity k t n =>
    have := put_total (a := a) (K := K) h hr (hK k (by simp [DOp.vars]))
    simpa [DOp.given, SItem.cnt_vec, cnt_nil] using this
  | fromVec k t xs => exact put_total (a := a) (K := K) h hr (hK k (by simp [DOp.vars]))
  | fromSlice k t xs =>
    have hk := hK k (by simp [DOp.vars])
    simp only [DOp.given, List.count_nil]
    rcases M.bind_caught h hr with ⟨y, rfl, h1⟩ | ⟨es, q, h1, h2⟩
    · obtain ⟨l1, h0, h⟩ := user_inv h1
      cases h
      have := ledger_clones_net (a := a) h0 caught_panic
      simp only [cntRes, total] at *; omega
    · obtain ⟨l1, h0, rfl⟩ := user_inv h1
      have e1 := ledger_clones_net (a := a) h0 caught_ok
      have e2 := put_total (a := a) (K := K) h2 hr hk
      simp only [cntRes, total, SItem.cnt_vec] at *; omega
  | withSize k t n x =>
    have hk := hK k (by simp [DOp.vars])
    simp only [DOp.given, count_obj]
    rcases M.bind_caught h hr with ⟨y, rfl, h1⟩ | ⟨es, q, h1, h2⟩
    · obtain ⟨l1, h0, h⟩ := user_inv h1
      cases h
      have := ledger_vecOf_net (a := a) h0 caught_panic
      simp only [cntRes, total] at *; omega
    · obtain ⟨l1, h0, rfl⟩ := user_inv h1
      have e1 := ledger_vecOf_net (a := a) h0 caught_ok
      have e2 := put_total (a := a) (K := K) h2 hr hk
      simp only [cntRes, total, SItem.cnt_vec] at *; omega
  | newBox k t x => exact put_total (a := a) (K := K) h hr (hK k (by simp [DOp.vars]))
  | newSmall k t x => exact put_total (a := a) (K := K) h hr (hK k (by simp [DOp.vars]))
  | drop k =>
    have hk := hK k (by simp [DOp.vars])
    simp only [DOp.given, List.count_nil]
    simp only [DOp.spec] at h
    cases hs : s k with
    | none => rw [hs] at h; cases h; omega
    | some b =>
      rw [hs] at h
      obtain h0 | ⟨⟨⟩, q, h0, h1⟩ := M.bind_caught h hr
      · obtain ⟨y, rfl, h0⟩ := h0; cases h0
      · cases h0
        have e0 := DState.cnt_put (a := a) (s := s) (b := none) hk
        rw [hs] at e0
        rcases M.bind_caught h1 hr with ⟨y, rfl, h2⟩ | ⟨⟨⟩, q, h2, h3⟩
        · obtain ⟨l1, h4, h⟩ := user_inv h2
          cases h
          have := ledger_item_drop_net (a := a) h4 caught_panic
          simp only [total, cntO] at *; omega
        · obtain ⟨l1, h4, rfl⟩ := user_inv h2
          cases h3
          have := ledger_item_drop_net (a := a) h4 caught_ok
          simp only [total, cntO] at *; omega
  | consume k t =>
    have hk := hK k (by simp [DOp.vars])
    simp only [DOp.given, List.count_nil]
    simp only [DOp.spec] at h
    cases hs : s k with
    | none => rw [hs] at h; cases h; omega
    | some b =>
      rw [hs] at h
      obtain h0 | ⟨⟨⟩, q, h0, h1⟩ := M.bind_caught h hr
      · obtain ⟨y, rfl, h0⟩ := h0; cases h0
      · cases h0
        have e0 := DState.cnt_put (a := a) (s := s) (b := none) hk
        rw [hs] at e0
        rcases M.bind_caught h1 hr with ⟨y, rfl, h2⟩ | ⟨⟨⟩, q, h2, h3⟩
        · obtain ⟨l1, h4, h⟩ := user_inv h2
          cases h
          have := ledger_item_drop_net (a := a) h4 caught_panic
          simp only [total, cntO] at *; omega
        · obtain ⟨l1, h4, rfl⟩ := user_inv h2
          cases h3
          have := ledger_item_drop_net (a := a) h4 caught_ok
          simp only [total, cntO] at *; omega
  | clone k j =>
    have hj := hK j (by simp [DOp.vars])
    simp only [DOp.given, List.count_nil]
    simp only [DOp.spec] at h
    cases hs : s k with
    | none => rw [hs] at h; cases h; omega
    | some b =>
      rw [hs] at h
      rcases M.bind_caught h hr with ⟨y, rfl, h1⟩ | ⟨b', q, h1, h2⟩
      · obtain ⟨l1, h0, h⟩ := user_inv h1
        cases h
        have := ledger_cloneS_net (a := a) h0 caught_panic
        simp only [cntItem, total] at *; omega
      · obtain ⟨l1, h0, rfl⟩ := user_inv h1
        have e1 := ledger_cloneS_net (a := a) h0 caught_ok
        have e2 := put_total (a := a) (K := K) h2 hr hj
        simp only [cntItem, total] at *; omega
  | roundTrip k t =>
    have hk := hK k (by simp [DOp.vars])
    simp only [DOp.given, List.count_nil]
    simp only [DOp.spec] at h
    split at h
    · rename_i t' es hs
      split at h
      · cases h; omega
      · obtain h0 | ⟨⟨⟩, q, h0, h1⟩ := M.bind_caught h hr
        · obtain ⟨y, rfl, h0⟩ := h0; cases h0
        · cases h0
          have e0 := DState.cnt_put (a := a) (s := s) (b := none) hk
          rw [hs] at e0
          rcases M.bind_caught h1 hr with ⟨y, rfl, h2⟩ | ⟨⟨⟩, q, h2, h3⟩
          · obtain ⟨l1, h4, h⟩ := user_inv h2
            cases h
            have := ledger_item_drop_net (a := a) h4 caught_panic
            simp only [total, cntO] at *; omega
          · obtain ⟨l1, h4, rfl⟩ := user_inv h2
            cases h3
            have := ledger_item_drop_net (a := a) h4 caught_ok
            simp only [total, cntO] at *; omega
    · cases h; omega
  | append k j =>
    have hk := hK k (by simp [DOp.vars])
    have hj := hK j (by simp [DOp.vars])
    simp only [DOp.given, List.count_nil]
    simp only [DOp.spec] at h
    split at h
    · cases h; omega
    · rename_i hkj
      split at h
      · rename_i t es t' es' hs hs'
        split at h
        · rename_i ht
          subst ht
          cases h
          have e0 := DState.cnt_put (a := a) (s := s) (b := some (.vec t (es ++ es'))) hk
          have e1 := DState.cnt_put (a := a) (s := Slots.put s k (some (.vec t (es ++ es')))) (b := some (.vec t [])) hj
          rw [hs] at e0
          rw [Slots.put_other _ _ (Ne.symm hkj), hs'] at e1
          simp only [total, cntO, SItem.cnt_vec, cnt_append, cnt_nil] at *; omega
        · cases h; omega
      · cases h; omega
  | pushAs k t x =>
    refine method_total h hr (hK k (by simp [DOp.vars])) (fun hn => by simp [DOp.given, given_vec_none hn]) ?_
    intro t' es es' l' hs hf
    simp only [DOp.given, given_vec_some hs, count_obj]
    split at hf
    · rename_i ht
      subst ht
      cases hf
      simp only [cnt_append]; omega
    · rename_i ht
      obtain ⟨rfl, e⟩ := refuse_net (a := a) hf hr
      omega
  | pushCloned k j i =>
    have hk := hK k (by simp [DOp.vars])
    simp only [DOp.given, List.count_nil]
    simp only [DOp.spec] at h
    split at h
    · cases h; omega
    · rcases M.bind_caught h hr with ⟨y, rfl, h1⟩ | ⟨p, q, h1, h2⟩
      · cases read_state h1; omega
      · cases read_state h1
        cases p with
        | none => cases h2; omega
        | some p =>
          obtain ⟨t, x⟩ := p
          have := method_total (a := a) (K := K) (g := 0) h2 hr hk (fun _ => rfl) (by
            intro t' es es' l' hs hf
            split at hf
            · rename_i ht
              subst ht
              obtain ⟨r', -, hf'⟩ := tvec_inv hf hr
              have := ledger_extendClones_net (a := a) hf'
              omega
            · cases hf; omega)
          omega
  | pushBox k j =>
    have hk := hK k (by simp [DOp.vars])
    have hj := hK j (by simp [DOp.vars])
    simp only [DOp.given, List.count_nil]
    simp only [DOp.spec] at h
    split at h
    · rename_i t1 es1 t x hs hs'
      obtain h0 | ⟨⟨⟩, q, h0, h1⟩ := M.bind_caught h hr
      · obtain ⟨y, rfl, h0⟩ := h0; cases h0
      · cases h0
        have hkj : k ≠ j := by rintro rfl; rw [hs] at hs'; cases hs'
        have e0 := DState.cnt_put (a := a) (s := s) (b := none) hj
        rw [hs'] at e0
        have := method_total (a := a) (K := K) (g := cnt a t [x]) h1 hr hk
          (fun hn => absurd (by rw [Slots.put_other _ _ hkj]; exact hs) (hn t1 es1)) (by
            intro t' es es' l' hs hf
            split at hf
            · rename_i ht
              subst ht
              cases hf
              simp only [cnt_append]; omega
            · obtain ⟨rfl, e⟩ := refuse_net (a := a) hf hr
              omega)
        simp only [total, cntO, SItem.cnt_box] at *; omega
    · cases h; omega
  | resize k t n x =>
    refine method_total h hr (hK k (by simp [DOp.vars])) (fun hn => by simp [DOp.given, given_vec_none hn]) ?_
    intro t' es es' l' hs hf
    simp only [DOp.given, given_vec_some hs, count_obj]
    split at hf
    · rename_i ht
      subst ht
      obtain ⟨r', hr', hf'⟩ := tvec_inv hf hr
      split at hf'
      · obtain ⟨rfl, e⟩ := ledger_thenDropArg_net (a := a) hf' hr'
        rcases hp : TVec.pushClones Γ.ledger t x (n - es.length) es l with ⟨r1, es1, l1⟩
        have := ledger_extendClones_net (a := a) hp
        rw [hp] at e
        simp only at *; omega
      · rcases hd : M.dropEach (es.drop n) (Γ.ledger.drop t) l with ⟨r1, l1⟩
        rw [hd] at hf'
        obtain ⟨rfl, e⟩ := ledger_thenDropArg_net (a := a) hf' hr'
        have hr1 : r1.Caught := by
          cases r1 with
          | ok b => exact caught_ok
          | panic y => exact caught_panic
          | ub => cases hf'; exact absurd rfl hr'.1
          | abort => cases hf'; exact absurd rfl hr'.2
        have := ledger_dropEach_net (a := a) hd hr1
        have := cnt_take_drop (a := a) (t := t) (es := es) n
        simp only at *; omega
    · obtain ⟨rfl, e⟩ := refuse_net (a := a) hf hr
      omega
  | fill k t x =>
    refine method_total h hr (hK k (by simp [DOp.vars])) (fun hn => by simp [DOp.given, given_vec_none hn]) ?_
    intro t' es es' l' hs hf
    simp only [DOp.given, given_vec_some hs, count_obj]
    split at hf
    · rename_i ht
      subst ht
      obtain ⟨r', hr', hf'⟩ := tvec_inv hf hr
      obtain ⟨rfl, e⟩ := ledger_thenDropArg_net (a := a) hf' hr'
      rcases hp : TVec.fill Γ.ledger t x es l with ⟨r1, es1, l1⟩
      have := ledger_fill_net (a := a) hp
      rw [hp] at e
      simp only at *; omega
    · obtain ⟨rfl, e⟩ := refuse_net (a := a) hf hr
      omega
  | clear k =>
    have := method_total (a := a) (K := K) (g := 0) (f := fun t => DSpec.tvec fun es u =>
      ((M.dropEach es (Γ.ledger.drop t) u).1, ([], (M.dropEach es (Γ.ledger.drop t) u).2))) h hr
      (hK k (by simp [DOp.vars])) (fun _ => rfl) (by
        intro t es es' l' hs hf
        obtain ⟨r', hr', hf'⟩ := tvec_inv hf hr
        rcases hd : M.dropEach es (Γ.ledger.drop t) l with ⟨r1, l1⟩
        rw [hd] at hf'
        cases hf'
        have := ledger_dropEach_net (a := a) hd hr'
        simp only [hd, cnt_nil]; omega)
    simp only [DOp.given, List.count_nil]; omega
  | rotateLeft k n =>
    simp only [DOp.spec] at h
    have := pure_total (a := a) (K := K) h hr (hK k (by simp [DOp.vars])) (by
      intro t es o es' hf
      split at hf
      · cases hf
        rw [cnt_append]
        have := cnt_take_drop (a := a) (t := t) (es := es) n
        omega
      · cases hf)
    simp only [DOp.given, List.count_nil]; omega
  | rotateRight k n =>
    simp only [DOp.spec] at h
    have := pure_total (a := a) (K := K) h hr (hK k (by simp [DOp.vars])) (by
      intro t es o es' hf
      split at hf
      · cases hf
        rw [cnt_append]
        have := cnt_take_drop (a := a) (t := t) (es := es) (es.length - n)
        omega
      · cases hf)
    simp only [DOp.given, List.count_nil]; omega
  | swap k i j =>
    simp only [DOp.spec] at h
    have := pure_total (a := a) (K := K) h hr (hK k (by simp [DOp.vars])) (by
      intro t es o es' hf
      split at hf
      · rename_i hij
        cases hf
        have e1 := cnt_set (a := a) (t := t) (x := es[j]'hij.2) hij.1
        have e2 := cnt_set (a := a) (t := t) (es := es.set i (es[j]'hij.2)) (x := es[i]'hij.1) (i := j) (by simp [hij.2])
        have e3 : (es.set i (es[j]'hij.2))[j]'(by simp [hij.2]) = es[j]'hij.2 := by
          rw [List.getElem_set]; split <;> rfl
        rw [e3] at e2
        omega
      · cases hf)
    simp only [DOp.given, List.count_nil]; omega
  | setAs k t i x =>
    have hk := hK k (by simp [DOp.vars])
    refine method_total h hr hk (fun hn => ?_) ?_
    · rcases hs : s k with _ | ⟨t1, es⟩ | ⟨t1, y⟩ | ⟨t1, y⟩
      · simp [DOp.given, DState.toElem, hs]
      · exact absurd hs (hn t1 es)
      · simp [DOp.given, DState.toElem, hs]
      · simp [DOp.given, DState.toElem, hs]
    · intro t' es es' l' hs hf
      simp only [DOp.given, DState.toElem, hs]
      by_cases hi : i < es.length
      · simp only [dif_pos hi] at hf
        rw [if_pos hi, count_obj]
        split at hf
        · rename_i ht
          subst ht
          rcases hd : Γ.ledger.drop t es[i] l with ⟨r1, l1⟩
          rw [hd] at hf
          cases hf
          have := ledger_drop_net (a := a) hd
          have := cnt_set (a := a) (t := t) (x := x) hi
          simp only [hd] at *
          omega
        · obtain ⟨rfl, e⟩ := refuse_net (a := a) hf hr
          omega
      · simp only [dif_neg hi] at hf
        cases hf
        rw [if_neg hi, List.count_nil]; omega
  | cloneIntoVec k t =>
    have := method_total (a := a) (K := K) (g := 0) h hr (hK k (by simp [DOp.vars])) (fun _ => rfl) (by
      intro t' es es' l' hs hf
      simp only at hf
      split at hf
      · rename_i ht
        subst ht
        rcases hm : (DSpec.clones Γ.ledger t es >>= fun es => M.dropEach es (Γ.ledger.drop t) >>= fun _ =>
          pure (Obs.elems es)) l with ⟨r1, l1⟩
        rw [hm] at hf
        cases hf
        rcases M.bind_caught hm hr with ⟨y, h0, h1⟩ | ⟨xs, l2, h1, h2⟩
        · have := ledger_clones_net (a := a) h1 caught_panic
          simp only [cntRes] at *; omega
        · have e1 := ledger_clones_net (a := a) h1 caught_ok
          rcases M.bind_caught h2 hr with ⟨y, h0, h3⟩ | ⟨⟨⟩, l3, h3, h4⟩
          · have := ledger_dropEach_net (a := a) h3 caught_panic
            simp only [cntRes] at *; omega
          · cases h4
            have := ledger_dropEach_net (a := a) h3 caught_ok
            simp only [cntRes] at *; omega
      · cases hf; omega)
    simp only [DOp.given, List.count_nil]; omega
  | cloneValue k i j =>
    have hj := hK j (by simp [DOp.vars])
    simp only [DOp.given, List.count_nil]
    rcases M.bind_caught h hr with ⟨y, rfl, h1⟩ | ⟨p, q, h1, h2⟩
    · cases read_state h1; omega
    · cases read_state h1
      cases p with
      | none => cases h2; omega
      | some p =>
        obtain ⟨t, x⟩ := p
        rcases M.bind_caught h2 hr with ⟨y, rfl, h3⟩ | ⟨c, q, h3, h4⟩
        · obtain ⟨l1, h0, h⟩ := user_inv h3
          cases h
          have := ledger_clone_fail (a := a) h0 (by simp)
          simp only [total] at *; omega
        · obtain ⟨l1, h0, rfl⟩ := user_inv h3
          have := ledger_clone_net (a := a) h0
          have := put_total (a := a) (K := K) h4 hr hj
          simp only [total, SItem.cnt_box] at *; omega
  | cloneSmall k i j =>
    have hj := hK j (by simp [DOp.vars])
    simp only [DOp.given, List.count_nil]
    rcases M.bind_caught h hr with ⟨y, rfl, h1⟩ | ⟨p, q, h1, h2⟩
    · cases read_state h1; omega
    · cases read_state h1
      cases p with
      | none => cases h2; omega
      | some p =>
        obtain ⟨t, x⟩ := p
        rcases M.bind_caught h2 hr with ⟨y, rfl, h3⟩ | ⟨c, q, h3, h4⟩
        · obtain ⟨l1, h0, h⟩ := user_inv h3
          cases h
          have := ledger_clone_fail (a := a) h0 (by simp)
          simp only [total] at *; omega
        · obtain ⟨l1, h0, rfl⟩ := user_inv h3
          have := ledger_clone_net (a := a) h0
          have := put_total (a := a) (K := K) h4 hr hj
          simp only [total, SItem.cnt_small] at *; omega
  | assign k i j =>
    have hk := hK k (by simp [DOp.vars])
    have hj := hK j (by simp [DOp.vars])
    simp only [DOp.given, List.count_nil]
    simp only [DOp.spec] at h
    by_cases hkj : k = j
    · rw [if_pos hkj] at h; cases h; omega
    · rw [if_neg hkj] at h
      have key : ∀ t x, cntO a (s j) = cnt a t [x] → DOp.spec.assignPlace Γ.ledger k i j t x (s, l) = (r, (s', l')) →
          total a K (s', l') = total a K (s, l) := by
        intro t x hjx h
        have e0 := DState.cnt_put (a := a) (s := s) (b := none) hj
        rw [hjx] at e0
        rcases M.bind_caught h hr with ⟨y, rfl, h1⟩ | ⟨p, q, h1, h2⟩
        · cases read_state h1; rfl
        · cases read_state h1
          cases p with
          | none => cases h2; rfl
          | some p =>
            obtain ⟨t', old⟩ := p
            simp only at h2
            split at h2
            · rename_i ht
              subst ht
              obtain h3 | ⟨⟨⟩, q, h3, h4⟩ := M.bind_caught h2 hr
              · obtain ⟨y, rfl, h3⟩ := h3; cases h3
              · cases h3
                have e1 := write_cnt (a := a) (K := K) (b := x) (read_other (b := none) (l2 := l) (Ne.symm hkj) h1) hk
                obtain h5 | ⟨⟨⟩, q, h5, h6⟩ := M.bind_caught h4 hr
                · obtain ⟨y, rfl, h5⟩ := h5; cases h5
                · cases h5
                  rcases M.bind_caught h6 hr with ⟨y, rfl, h7⟩ | ⟨⟨⟩, q, h7, h8⟩
                  · obtain ⟨l1, h9, h⟩ := user_inv h7
                    cases h
                    have := ledger_drop_net (a := a) h9
                    simp only [total, cntO] at *; omega
                  · obtain ⟨l1, h9, rfl⟩ := user_inv h7
                    cases h8
                    have := ledger_drop_net (a := a) h9
                    simp only [total, cntO] at *; omega
            · obtain h3 | ⟨⟨⟩, q, h3, h4⟩ := M.bind_caught h2 hr
              · obtain ⟨y, rfl, h3⟩ := h3; cases h3
              · cases h3
                rcases M.bind_caught h4 hr with ⟨y, rfl, h7⟩ | ⟨⟨⟩, q, h7, h8⟩
                · obtain ⟨l1, h9, h⟩ := user_inv h7
                  cases h
                  have := ledger_drop_net (a := a) h9
                  simp only [total, cntO] at *; omega
                · obtain ⟨l1, h9, rfl⟩ := user_inv h7
                  cases h8
                  have := ledger_drop_net (a := a) h9
                  simp only [total, cntO] at *; omega
      split at h
      · rename_i hs hs'
        have := key _ _ (by rw [hs']; rfl) h; omega
      · rename_i hs hs'
        have := key _ _ (by rw [hs']; rfl) h; omega
      · cases h; omega
  | cloneFrom k i j i' =>
    have hk := hK k (by simp [DOp.vars])
    simp only [DOp.given, List.count_nil]
    simp only [DOp.spec] at h
    split at h
    · cases h; omega
    · rcases M.bind_caught h hr with ⟨y, rfl, h1⟩ | ⟨p, q, h1, h2⟩
      · cases read_state h1; omega
      · cases read_state h1
        cases p with
        | none => cases h2; omega
        | some p =>
          obtain ⟨t, x⟩ := p
          rcases M.bind_caught h2 hr with ⟨y, rfl, h3⟩ | ⟨p, q, h3, h4⟩
          · cases read_state h3; omega
          · cases read_state h3
            cases p with
            | none => cases h4; omega
            | some p =>
              obtain ⟨t', d⟩ := p
              simp only at h4
              split at h4
              · rename_i ht
                subst ht
                rcases hc : Γ.ledger.cloneFrom t x (d, l) with ⟨r1, d1, l1⟩
                rw [hc] at h4
                simp only [DSpec.write, M.modify_run] at h4
                cases h4
                have e1 := ledger_cloneFrom_net (a := a) hc
                have e2 := write_cnt (a := a) (K := K) (b := d1) h3 hk
                simp only [total] at *; omega
              · cases h4; omega
  | swapValues k i j i' =>
    have hk := hK k (by simp [DOp.vars])
    have hj := hK j (by simp [DOp.vars])
    simp only [DOp.given, List.count_nil]
    simp only [DOp.spec] at h
    split at h
    · cases h; omega
    · rename_i hkj
      rcases M.bind_caught h hr with ⟨y, rfl, h1⟩ | ⟨p, q, h1, h2⟩
      · cases read_state h1; omega
      · cases read_state h1
        cases p with
        | none => cases h2; omega
        | some p =>
          obtain ⟨t, x⟩ := p
          rcases M.bind_caught h2 hr with ⟨y, rfl, h3⟩ | ⟨p, q, h3, h4⟩
          · cases read_state h3; omega
          · cases read_state h3
            cases p with
            | none => cases h4; omega
            | some p =>
              obtain ⟨t', x'⟩ := p
              simp only at h4
              split at h4
              · rename_i ht
                subst ht
                simp only [M.bind_run, DSpec.write, M.modify_run, M.pure_run] at h4
                cases h4
                have e1 := write_cnt (a := a) (K := K) (b := x') h1 hk
                have e2 := write_cnt (a := a) (K := K) (b := x)
                  (read_other (b := (s k).map (SItem.setAt i x')) (l2 := l) hkj h3) hj
                simp only [total] at *; omega
              · cases h4; omega
  | len k =>
    have := pure_total (a := a) (K := K) (f := fun _ es => some (.num es.length, es)) h hr (hK k (by simp [DOp.vars]))
      (fun t es o es' hf => by cases hf; rfl)
    simp only [DOp.given, List.count_nil]; omega
  | typeId k =>
    have := pure_total (a := a) (K := K) (f := fun t es => some (.num t, es)) h hr (hK k (by simp [DOp.vars]))
      (fun t es o es' hf => by cases hf; rfl)
    simp only [DOp.given, List.count_nil]; omega
  | getAs k t i =>
    simp only [DOp.spec] at h
    have := pure_total (a := a) (K := K) h hr (hK k (by simp [DOp.vars])) (by
      intro t' es o es' hf
      split at hf
      · split at hf <;> cases hf <;> rfl
      · cases hf)
    simp only [DOp.given, List.count_nil]; omega
  | get k i =>
    simp only [DOp.given, List.count_nil]
    rcases M.bind_caught h hr with ⟨y, rfl, h1⟩ | ⟨p, q, h1, h2⟩
    · cases read_state h1; omega
    · cases read_state h1
      cases p <;> cases h2 <;> omega
  | asSlice k t =>
    simp only [DOp.spec] at h
    have := pure_total (a := a) (K := K) h hr (hK k (by simp [DOp.vars])) (by
      intro t' es o es' hf
      split at hf <;> cases hf <;> rfl)
    simp only [DOp.given, List.count_nil]; omega
  | iter k =>
    have := pure_total (a := a) (K := K) (f := fun _ es => some (.elems es, es)) h hr (hK k (by simp [DOp.vars]))
      (fun t es o es' hf => by cases hf; rfl)
    simp only [DOp.given, List.count_nil]; omega

end Dync
