import Verif.DynMachineLemmas9

/-! Operations on places. -/

namespace Dync

section
variable {U V : Type} {Γ : TyEnv U} {t tb : TyId} {es : List Bytes} {w : World U} {o : Outside U} {cfg : Cfg} {vt : TyId → V}
  {i i' k j : Nat} [HasDrop U V] [HasClone U V] [TableLaw V] {slots : DSlots V} {vars : YVars} {c : VecDyn V}

/-- `get_mut` panics where `get` does. -/
theorem getMut_panics {y : Why} {m : M (ValueRef V × World U) Obs} {s : VecDyn V × World U}
    (h : VecDyn.get cfg i s.1 s = (.panic y, s)) : VecDyn.getMut cfg i m s = (.panic y, s) := by
  unfold VecDyn.get at h
  unfold VecDyn.getMut
  rw [M.bind_ok (getSelf_run _)]
  rcases h1 : debugAssert cfg (decide (i < s.1.len)) s with ⟨r, s1⟩
  cases r with
  | ok a =>
    rw [M.bind_ok h1] at h ⊢
    rcases h2 : s.1.data.getBytes cfg i s1 with ⟨r, s2⟩
    cases r with
    | ok b => rw [M.bind_ok h2] at h; cases h
    | panic z => rw [M.bind_panic h2] at h ⊢; cases h; rfl
    | ub => simp only [M.bind_run, h2] at h; cases h
    | abort => simp only [M.bind_run, h2] at h; cases h
  | panic z => rw [M.bind_panic h1] at h ⊢; cases h; rfl
  | ub => simp only [M.bind_run, h1] at h; cases h
  | abort => simp only [M.bind_run, h1] at h; cases h

theorem onMut_panics {a : Item V} {y : YItem} {m : M (ValueRef V × World U) Obs} (hs : slots k = some a) (I : YItem.Is Γ w.heap a y)
    (h : y.at Γ cfg i = none) : ∃ z, DOp.onMut cfg k i m (slots, w) = (.panic z, (slots, w)) := by
  cases a with
  | vec c =>
    cases y with
    | vec tb x =>
      have hp := vec_place (cfg := cfg) (i := i) I (c, w)
      rw [h] at hp
      obtain ⟨z, hz⟩ := hp
      refine ⟨z, ?_⟩
      simp only [DOp.onMut, hs, getMut_panics (s := (c, w)) hz]
      rw [← hs, Slots.put_self]
    | box => exact I.elim
    | small => exact I.elim
  | box v => cases y <;> first | exact I.elim | cases h
  | small v => cases y <;> first | exact I.elim | cases h

/-- What a reference to the place `(k, i)` is, in both. -/
inductive PlaceStep (Γ : TyEnv U) (cfg : Cfg) (k i : Nat) (slots : DSlots V) (w : World U) (vars : YVars) (o : Outside U) : Prop where
  | empty (hs : slots k = none) (hv : vars k = none) (hr : DOp.readRef cfg k i (slots, w) = (.ok none, (slots, w)))
      (hq : YOp.read Γ cfg k i (vars, o) = (.ok none, (vars, o)))
  | out {a : Item V} {y : YItem} {z : Why} (hs : slots k = some a) (hv : vars k = some y) (I : YItem.Is Γ w.heap a y)
      (ha : y.at Γ cfg i = none) (hr : DOp.readRef cfg k i (slots, w) = (.panic z, (slots, w)))
      (hq : YOp.read Γ cfg k i (vars, o) = (.panic .index, (vars, o)))
  | at {a : Item V} {y : YItem} {p : Place} {v : ValueRef V} (hs : slots k = some a) (hv : vars k = some y) (I : YItem.Is Γ w.heap a y)
      (ha : y.at Γ cfg i = some p) (hr : DOp.readRef cfg k i (slots, w) = (.ok (some v), (slots, w)))
      (hq : YOp.read Γ cfg k i (vars, o) = (.ok (some p), (vars, o))) (P : PlaceIs Γ p v)
      (hm : ∀ (m : M (ValueRef V × World U) Obs) r v' w', m (v, w) = (r, (v', w')) → v'.bytes.length = Γ.size p.ty →
          ∃ a', DOp.onMut cfg k i m (slots, w) = (r, (Slots.put slots k (some a'), w')) ∧ a'.ptr = a.ptr ∧
            YItem.Is Γ w.heap a' (y.store Γ cfg i v'.bytes))

theorem YHolds.place (H : YHolds Γ slots w vars o) (cfg : Cfg) (k i : Nat) : PlaceStep Γ cfg k i slots w vars o := by
  have J := H.var k
  rcases hk : slots k with _ | a <;> rcases hv : vars k with _ | y <;> rw [hk, hv] at J
  · exact .empty hk hv (by simp only [DOp.readRef, hk]) (by simp only [YOp.read, hv])
  · exact J.elim
  · exact J.elim
  have I : YItem.Is Γ w.heap a y := J
  have h := item_place (cfg := cfg) (i := i) hk I
  cases ha : y.at Γ cfg i with
  | none =>
    rw [ha] at h
    obtain ⟨z, hz⟩ := h
    exact .out hk hv I ha hz (by simp only [YOp.read, hv, ha])
  | some p =>
    rw [ha] at h
    obtain ⟨v, h1, P, hm⟩ := h
    exact .at hk hv I ha h1 (by simp only [YOp.read, hv, ha]) P hm

theorem pushCloned_step (H : YHolds Γ slots w vars o) :
    InStepY Γ ((DOp.pushCloned k j i).exec Γ cfg vt (slots, w)) ((DOp.pushCloned k j i).step Γ cfg (vars, o)) := by
  simp only [DOp.exec, DOp.step]
  by_cases hkj : k = j
  · simp only [if_pos hkj]; exact H.same _
  simp only [if_neg hkj]
  cases H.place cfg j i with
  | empty hs hv hr hq => rw [M.bind_ok hr, M.bind_ok hq]; exact H.same _
  | out hs hv I ha hr hq => rw [M.bind_panic hr, M.bind_panic hq]; exact .panic H
  | «at» hs hv I ha hr hq P hm =>
    rw [M.bind_ok hr, M.bind_ok hq]
    exact yonVec_step H fun F O tb c x hc ht h0 C => pushCloned_method C ht h0 P

theorem cloneValue_step (H : YHolds Γ slots w vars o) :
    InStepY Γ ((DOp.cloneValue k i j).exec Γ cfg vt (slots, w)) ((DOp.cloneValue k i j).step Γ cfg (vars, o)) := by
  simp only [DOp.exec, DOp.step]
  cases H.place cfg k i with
  | empty hs hv hr hq => rw [M.bind_ok hr, M.bind_ok hq]; exact H.same _
  | out hs hv I ha hr hq => rw [M.bind_panic hr, M.bind_panic hq]; exact .panic H
  | «at» hs hv I ha hr hq P hm =>
    rw [M.bind_ok hr, M.bind_ok hq]
    exact ycreate_step H fun F O W => cloneValue_makes W P

theorem cloneSmall_step (H : YHolds Γ slots w vars o) :
    InStepY Γ ((DOp.cloneSmall k i j).exec Γ cfg vt (slots, w)) ((DOp.cloneSmall k i j).step Γ cfg (vars, o)) := by
  simp only [DOp.exec, DOp.step]
  cases H.place cfg k i with
  | empty hs hv hr hq => rw [M.bind_ok hr, M.bind_ok hq]; exact H.same _
  | out hs hv I ha hr hq => rw [M.bind_panic hr, M.bind_panic hq]; exact .panic H
  | «at» hs hv I ha hr hq P hm =>
    rw [M.bind_ok hr, M.bind_ok hq]
    exact ycreate_step H fun F O W => cloneSmall_makes W P

theorem get_step (H : YHolds Γ slots w vars o) :
    InStepY Γ ((DOp.get k i).exec Γ cfg vt (slots, w)) ((DOp.get k i).step Γ cfg (vars, o)) := by
  simp only [DOp.exec, DOp.step]
  cases H.place cfg k i with
  | empty hs hv hr hq => rw [M.bind_ok hr, M.bind_ok hq]; exact H.same _
  | out hs hv I ha hr hq => rw [M.bind_panic hr, M.bind_panic hq]; exact .panic H
  | «at» hs hv I ha hr hq P hm =>
    rw [M.bind_ok hr, M.bind_ok hq]
    simp only [M.pure_run, P.type_id, P.bytes]
    exact H.same _

/-- A variable keeps its block, and user code runs. -/
theorem YHolds.rewrite {a a' : Item V} {y' : YItem} (H : YHolds Γ slots w vars o) (hs : slots k = some a)
    (hp : a'.ptr = a.ptr) (I : YItem.Is Γ w.heap a' y') (u : U) :
    YHolds Γ (Slots.put slots k (some a')) { w with user := u } (Slots.put vars k (some y')) { o with user := u } := by
  obtain ⟨F, W, -, fill⟩ := H.hole k
  rw [hs] at W
  refine fill (some a') (some y') _ _ ?_ I
  have W : Worlds F a.ptr.toList w o := W
  show Worlds F a'.ptr.toList _ _
  rw [hp]
  exact ⟨rfl, W.blocks⟩

theorem YHolds.store {a : Item V} {y : YItem} {p : Place} {b : Bytes} (H : YHolds Γ slots w vars o) (hs : slots k = some a)
    (hv : vars k = some y) (ha : y.at Γ cfg i = some p) (hl : b.length = Γ.size p.ty) :
    ∃ a', DOp.writeRef cfg k i b (slots, w) = (.ok .done, (Slots.put slots k (some a'), w)) ∧
      YHolds Γ (Slots.put slots k (some a')) w (Slots.put vars k (some (y.store Γ cfg i b))) o := by
  have I := H.is k a y hs hv
  have h := item_place (cfg := cfg) (i := i) hs I
  rw [ha] at h
  obtain ⟨v, h1, P, hm⟩ := h
  obtain ⟨a', h2, h3, h4⟩ := hm (do M.modify fun s => ({ s.1 with bytes := b }, s.2); pure .done) (.ok .done) { v with bytes := b } w
    rfl hl
  refine ⟨a', h2, ?_⟩
  have := H.rewrite hs h3 h4 w.user
  have e : ({ o with user := w.user } : Outside U) = o := by rw [H.user]
  rw [e] at this
  exact this

theorem swapValues_step (H : YHolds Γ slots w vars o) :
    InStepY Γ ((DOp.swapValues k i j i').exec Γ cfg vt (slots, w)) ((DOp.swapValues k i j i').step Γ cfg (vars, o)) := by
  simp only [DOp.exec, DOp.step]
  by_cases hkj : k = j
  · simp only [if_pos hkj]; exact H.same _
  simp only [if_neg hkj]
  cases H.place cfg k i with
  | empty hs hv hr hq => rw [M.bind_ok hr, M.bind_ok hq]; exact H.same _
  | out hs hv I ha hr hq => rw [M.bind_panic hr, M.bind_panic hq]; exact .panic H
  | @«at» a y p v hs hv I ha hr hq P hm =>
  rw [M.bind_ok hr, M.bind_ok hq]
  cases H.place cfg j i' with
  | empty hs' hv' hr' hq' => simp only; rw [M.bind_ok hr', M.bind_ok hq']; exact H.same _
  | out hs' hv' I' ha' hr' hq' => simp only; rw [M.bind_panic hr', M.bind_panic hq']; exact .panic H
  | @«at» a' y' p' v' hs' hv' I' ha' hr' hq' P' hm' =>
  simp only
  rw [M.bind_ok hr', M.bind_ok hq']
  simp only
  -- both places are written
  have hboth : ∀ b b', b.length = Γ.size p.ty → b'.length = Γ.size p'.ty →
      ∃ s1 s2, DOp.writeRef cfg k i b (slots, w) = (.ok .done, (s1, w)) ∧ DOp.writeRef cfg j i' b' (s1, w) = (.ok .done, (s2, w)) ∧
        YHolds Γ s2 w (Slots.put (Slots.put vars k (some (y.store Γ cfg i b))) j (some (y'.store Γ cfg i' b'))) o := by
    intro b b' hb hb'
    obtain ⟨a1, h1, H1⟩ := H.store hs hv ha hb
    obtain ⟨a2, h2, H2⟩ := H1.store (k := j) (by rw [Slots.put_other _ _ (Ne.symm hkj)]; exact hs')
      (by rw [Slots.put_other _ _ (Ne.symm hkj)]; exact hv') ha' hb'
    exact ⟨_, _, h1, h2, H2⟩
  by_cases ht : p.ty = p'.ty
  · obtain ⟨s1, s2, h1, h2, H2⟩ := hboth p'.bytes p.bytes (by rw [ht]; exact P'.length) (by rw [← ht]; exact P.length)
    have hsw : ValueRef.swap (v, v') = (.ok (), ({ v with bytes := p'.bytes }, { v' with bytes := p.bytes })) := by
      have hl : p.bytes.length = p'.bytes.length := by rw [P.length, P'.length, ht]
      simp only [ValueRef.swap, M.bind_run, M.get_run, P.type_id, P'.type_id, if_pos ht, sliceSwapWith, if_pos hl, M.lift_run, M.set_run,
        P.bytes, P'.bytes]
    have hex : (do
        let (a', b') ← (M.lift ((ValueRef.swap (v, v')).1.map fun _ => (ValueRef.swap (v, v')).2) : M (DSlots V × World U) _)
        let _ ← DOp.writeRef cfg k i a'.bytes
        DOp.writeRef cfg j i' b'.bytes : M (DSlots V × World U) Obs) (slots, w) = (.ok .done, (s2, w)) := by
      simp only [hsw, Res.map, M.bind_run, M.lift_run, h1, h2]
    rw [if_pos ht]
    have hmach : (do YOp.write Γ cfg k i p'.bytes; YOp.write Γ cfg j i' p.bytes; return .done : M (YVars × Outside U) Obs) (vars, o) =
        (.ok .done, (Slots.put (Slots.put vars k (some (y.store Γ cfg i p'.bytes))) j (some (y'.store Γ cfg i' p.bytes)), o)) := by
      simp only [YOp.write, M.bind_run, M.modify_run, M.pure_run, hv, Option.map_some, Slots.put_other _ _ (Ne.symm hkj), hv']
    rw [hmach]
    exact ⟨_, _, hex, rfl, H2⟩
  · obtain ⟨s1, s2, h1, h2, H2⟩ := hboth p.bytes p'.bytes P.length P'.length
    have hsw : ValueRef.swap (v, v') = (.ok (), (v, v')) := by
      simp only [ValueRef.swap, M.bind_run, M.get_run, P.type_id, P'.type_id, if_neg ht, M.pure_run]
    have hex : (do
        let (a', b') ← (M.lift ((ValueRef.swap (v, v')).1.map fun _ => (ValueRef.swap (v, v')).2) : M (DSlots V × World U) _)
        let _ ← DOp.writeRef cfg k i a'.bytes
        DOp.writeRef cfg j i' b'.bytes : M (DSlots V × World U) Obs) (slots, w) = (.ok .done, (s2, w)) := by
      simp only [hsw, Res.map, M.bind_run, M.lift_run, P.bytes, P'.bytes, h1, h2]
    rw [if_neg ht]
    rw [store_self I ha, store_self I' ha', ← hv, Slots.put_self, ← hv', Slots.put_self] at H2
    exact ⟨_, _, hex, rfl, H2⟩

theorem cloneFrom_step (H : YHolds Γ slots w vars o) :
    InStepY Γ ((DOp.cloneFrom k i j i').exec Γ cfg vt (slots, w)) ((DOp.cloneFrom k i j i').step Γ cfg (vars, o)) := by
  simp only [DOp.exec, DOp.step]
  by_cases hkj : k = j
  · simp only [if_pos hkj]; exact H.same _
  simp only [if_neg hkj]
  cases H.place cfg j i' with
  | empty hs' hv' hr' hq' => rw [M.bind_ok hr', M.bind_ok hq']; exact H.same _
  | out hs' hv' I' ha' hr' hq' => rw [M.bind_panic hr', M.bind_panic hq']; exact .panic H
  | @«at» a' y' p v' hs' hv' I' ha' hr' hq' P' hm' =>
  rw [M.bind_ok hr', M.bind_ok hq']
  simp only
  cases H.place cfg k i with
  | empty hs hv hr hq =>
    rw [M.bind_ok hq]
    simp only [DOp.onMut, hs]
    exact H.same _
  | out hs hv I ha hr hq =>
    rw [M.bind_panic hq]
    obtain ⟨z, hz⟩ := onMut_panics (m := (do return Obs.ofUnit (← ValueRef.cloneFromOther v') : M (ValueRef V × World U) Obs)) hs I ha
    rw [hz]; exact .panic H
  | @«at» a y d v hs hv I ha hr hq P hm =>
  rw [M.bind_ok hq]
  simp only
  have hu : ({ o with user := w.user } : Outside U) = o := by rw [H.user]
  -- what the method does on the place
  have hend : ∀ r v1 u, (do return Obs.ofUnit (← ValueRef.cloneFromOther v') : M (ValueRef V × World U) Obs) (v, w) =
      (r, (v1, { w with user := u })) → v1.bytes.length = Γ.size d.ty →
      ∃ s1, DOp.onMut cfg k i (do return Obs.ofUnit (← ValueRef.cloneFromOther v')) (slots, w) = (r, (s1, { w with user := u })) ∧
        YHolds Γ s1 { w with user := u } (Slots.put vars k (some (y.store Γ cfg i v1.bytes))) { o with user := u } := by
    intro r v1 u h1 h2
    obtain ⟨a2, h3, h4, h5⟩ := hm _ _ _ _ h1 h2
    exact ⟨_, h3, H.rewrite hs h4 h5 u⟩
  by_cases ht : d.ty = p.ty
  · rw [if_pos ht]
    by_cases hb : d.ty = d.table
    · rw [if_pos hb]
      have ht' : Tab Γ d.ty v.vtable := by rw [hb]; exact P.tab
      rcases hc : Γ.cloneFrom d.ty p.bytes (d.bytes, o.user) with ⟨r, d1, u1⟩
      have hl1 := Γ.cloneFrom_len hc P.length
      have h1 : (do return Obs.ofUnit (← ValueRef.cloneFromOther v') : M (ValueRef V × World U) Obs) (v, w) =
          (r.map fun _ => .done, ({ v with bytes := d1 }, { w with user := u1 })) := by
        have hl2 : (p.bytes.length == Γ.size d.ty) = true := by rw [ht]; simp [P'.length]
        have hl3 : (d.bytes.length == Γ.size d.ty) = true := by simp [P.length]
        simp only [ValueRef.cloneFromOther, M.bind_run, getSelf_run, P.type_id, P'.type_id, if_pos ht, M.zoom_run, ht'.cloneFrom,
          cloneFromBytes, P.bytes, P'.bytes, hl2, hl3, M.assert_true_run, M.get_run, H.user, hc]
        cases r <;> rfl
      obtain ⟨s1, h2, H1⟩ := hend _ _ _ h1 hl1
      rw [h2]
      simp only [YOp.write, M.modify_run, hc, hv, Option.map_some]
      cases r with
      | ok => exact .ok ⟨rfl, H1⟩
      | panic => exact .panic H1
      | ub => exact .ub
      | abort => exact .abort
    · rw [if_neg hb]
      have h1 : (do return Obs.ofUnit (← ValueRef.cloneFromOther v') : M (ValueRef V × World U) Obs) (v, w) =
          (.panic .assertion, (v, { w with user := w.user })) := by
        have hl2 : (p.bytes.length == Γ.size d.table) = false := by
          have := P.kind hb
          simp [P'.length, ← ht, this]
        simp only [ValueRef.cloneFromOther, M.bind_run, getSelf_run, P.type_id, P'.type_id, if_pos ht, M.zoom_run, P.tab.cloneFrom,
          cloneFromBytes, P'.bytes, hl2, M.assert_false_run]
        rw [← P.type_id]
      obtain ⟨s1, h2, H1⟩ := hend _ _ _ h1 (by rw [P.bytes]; exact P.length)
      rw [h2]
      rw [P.bytes, store_self I ha, ← hv, Slots.put_self, hu] at H1
      exact .panic H1
  · rw [if_neg ht]
    have h1 : (do return Obs.ofUnit (← ValueRef.cloneFromOther v') : M (ValueRef V × World U) Obs) (v, w) =
        (.ok .refused, (v, { w with user := w.user })) := by
      simp only [ValueRef.cloneFromOther, M.bind_run, getSelf_run, P.type_id, P'.type_id, if_neg ht, M.pure_run]
      rfl
    obtain ⟨s1, h2, H1⟩ := hend _ _ _ h1 (by rw [P.bytes]; exact P.length)
    rw [h2]
    rw [P.bytes, store_self I ha, ← hv, Slots.put_self, hu] at H1
    exact .ok ⟨rfl, H1⟩

/-- `place.assign(value)`, for a value `item x` (`mk t x` on the machine). -/
theorem assign_core {item : Bytes → Item V} {mk : TyId → Bytes → YItem} {x : Bytes} {a : Item V} {y : YItem} (H : YHolds Γ slots w vars o)
    (hkj : k ≠ j) (hs : slots k = some a) (hv : vars k = some y) (hs' : slots j = some (item x)) (hlx : x.length = Γ.size t)
    (hI : ∀ z, z.length = Γ.size t → YItem.Is Γ w.heap (item z) (mk t z)) (hptr : ∀ z, (item z).ptr = (item x).ptr)
    (hrun : ∀ v : ValueRef V, (v.type_id = t → v.bytes.length = Γ.size t) → DOp.assignItem (item x) (v, w) =
      (((item (if v.type_id = t then v.bytes else x)).drop cfg w).1.map fun _ => .done,
        ({ v with bytes := if v.type_id = t then x else v.bytes }, ((item (if v.type_id = t then v.bytes else x)).drop cfg w).2))) :
    InStepY Γ ((do let _ ← DOp.readRef cfg k i; DOp.clearVar j; DOp.onMut cfg k i (DOp.assignItem (item x)) : M (DSlots V × World U) Obs)
      (slots, w)) (YOp.assignPlace Γ cfg k i j t x mk (vars, o)) := by
  unfold YOp.assignPlace
  cases H.place cfg k i with
  | empty h => rw [hs] at h; cases h
  | out hs hv I ha hr hq => rw [M.bind_panic hr, M.bind_panic hq]; exact .panic H
  | @«at» a1 y1 p v hs1 hv1 I ha hr hq P hm =>
  rw [hs] at hs1; cases hs1
  rw [hv] at hv1; cases hv1
  rw [M.bind_ok hr, M.bind_ok hq]
  simp only [DOp.clearVar, YOp.moveOut]
  rw [M.bind_ok (M.modify_run _ _), M.bind_ok (M.modify_run _ _)]
  have hks : Slots.put slots j none k = some a := by rw [Slots.put_other _ _ hkj]; exact hs
  have hkv : Slots.put vars j none k = some y := by rw [Slots.put_other _ _ hkj]; exact hv
  have hpl := item_place (cfg := cfg) (i := i) hks I
  rw [ha] at hpl
  obtain ⟨v1, h1, P1, hm1⟩ := hpl
  obtain ⟨F, W, fill⟩ := H.hole2 hkj
  rw [hs, hs'] at W
  have W : Worlds F (a.ptr.toList ++ ((item x).ptr.toList ++ [])) w o := W
  have hfree := W.blocks.free_of
  -- the end, in both cases
  have hend : ∀ (z b : Bytes), z.length = Γ.size t → b.length = Γ.size p.ty →
      DOp.assignItem (item x) (v1, w) = (((item z).drop cfg w).1.map fun _ => .done, ({ v1 with bytes := b }, ((item z).drop cfg w).2)) →
      ∀ q : M (YVars × Outside U) Obs, q (Slots.put vars j none, o) = (((mk t z).drop Γ o).1.map fun _ => .done,
        (Slots.put (Slots.put vars j none) k (some (y.store Γ cfg i b)), ((mk t z).drop Γ o).2)) →
      InStepY Γ (DOp.onMut cfg k i (DOp.assignItem (item x)) (Slots.put slots j none, w)) (q (Slots.put vars j none, o)) := by
    intro z b hz hb hA q hq
    obtain ⟨a', h2, h3, h4⟩ := hm1 _ _ _ _ hA hb
    have W1 : Worlds (withBlock F a.ptr w.heap) ((item z).ptr.toList ++ []) w o := by
      rw [hptr]; exact W.toFrame
    have hD := item_drop (cfg := cfg) W1 (hI z hz)
    have hY : ∀ w' o', Worlds (withBlock F a.ptr w.heap) [] w' o' →
        YHolds Γ (Slots.put (Slots.put slots j none) k (some a')) w' (Slots.put (Slots.put vars j none) k (some (y.store Γ cfg i b))) o' := by
      intro w' o' W2
      obtain ⟨W3, h5⟩ := W2.ofFrame hfree
      rw [Slots.put_comm _ _ _ (Ne.symm hkj), Slots.put_comm _ _ _ (Ne.symm hkj)]
      refine fill (some a') none (some (y.store Γ cfg i b)) none w' o' ?_ ?_ trivial
      · show Worlds F (a'.ptr.toList ++ []) w' o'
        rw [h3]; exact W3
      · exact YItem.Is.frame h4 (by rw [h3]; exact h5)
    rw [h2, hq]
    rcases hdr : (mk t z).drop Γ o with ⟨r, o'⟩
    rw [hdr] at hD
    cases r with
    | ok => obtain ⟨_, w', h5, h6⟩ := hD; rw [h5]; exact .ok ⟨rfl, hY _ _ h6⟩
    | panic => obtain ⟨_, w', h5, h6⟩ := hD; rw [h5]; exact .panic (hY _ _ h6)
    | ub => rcases h7 : (item z).drop cfg w with ⟨r', w'⟩; rw [h7] at hD; cases hD; exact .ub
    | abort => rcases h7 : (item z).drop cfg w with ⟨r', w'⟩; rw [h7] at hD; cases hD; exact .abort
  by_cases ht : p.ty = t
  · have hr1 := hrun v1 (fun _ => by rw [P1.bytes, P1.length, ht])
    rw [if_pos (P1.type_id.trans ht), if_pos (P1.type_id.trans ht), P1.bytes] at hr1
    simp only [if_pos ht]
    refine hend p.bytes x (by rw [P.length, ht]) (by rw [hlx, ht]) hr1 _ ?_
    simp only [YOp.write, aside, M.bind_run, M.modify_run, M.zoom_run, hkv, Option.map_some]
    rcases (mk t p.bytes).drop Γ o with ⟨r, o'⟩
    cases r <;> rfl
  · have hne : v1.type_id ≠ t := fun e => ht (P1.type_id.symm.trans e)
    have hr1 := hrun v1 (fun e => absurd e hne)
    rw [if_neg hne, if_neg hne] at hr1
    simp only [if_neg ht]
    refine hend x v1.bytes hlx (by rw [P1.bytes, P1.length]) hr1 _ ?_
    rw [P1.bytes, store_self I ha, ← hkv, Slots.put_self]
    simp only [aside, M.bind_run, M.zoom_run]
    rcases (mk t x).drop Γ o with ⟨r, o'⟩
    cases r <;> rfl

theorem yassign_step (H : YHolds Γ slots w vars o) :
    InStepY Γ ((DOp.assign k i j).exec Γ cfg vt (slots, w)) ((DOp.assign k i j).step Γ cfg (vars, o)) := by
  simp only [DOp.exec, DOp.step]
  by_cases hkj : k = j
  · simp only [if_pos hkj]; exact H.same _
  simp only [if_neg hkj]
  have J := H.var k
  have J' := H.var j
  rcases hk : slots k with _ | a <;> rcases hv : vars k with _ | y <;> rw [hk, hv] at J
  · exact H.same _
  · exact J.elim
  · exact J.elim
  rcases hj : slots j with _ | a' <;> rcases hv' : vars j with _ | y' <;> rw [hj, hv'] at J'
  · exact H.same _
  · exact J'.elim
  · exact J'.elim
  -- the exchange
  have hsw : ∀ {t x} (v u : ValueRef V), u.type_id = t → u.bytes = x → x.length = Γ.size t → (v.type_id = t → v.bytes.length = Γ.size t) →
      ValueRef.swap (v, u) = (.ok (), ({ v with bytes := if v.type_id = t then x else v.bytes },
        { u with bytes := if v.type_id = t then v.bytes else x })) := by
    intro t x v u h1 h2 h3 h4
    subst h1 h2
    simp only [ValueRef.swap, M.bind_run, M.get_run]
    split
    · rename_i h
      have hl : v.bytes.length = u.bytes.length := by rw [h4 h, h3]
      simp only [sliceSwapWith, if_pos hl, M.bind_run, M.lift_run, M.set_run]
    · rfl
  cases a' with
  | vec c =>
    cases y' with
    | box => exact J'.elim
    | small => exact J'.elim
    | vec => exact H.same _
  | box v =>
    cases y' with
    | vec => exact J'.elim
    | small => exact J'.elim
    | box t x =>
      obtain ⟨B, ht⟩ := J'
      have hx := B.bytes
      subst hx
      refine assign_core (item := fun z => .box { v with bytes := { v.bytes with bytes := z } }) (mk := .box) H hkj hk hv hj B.length
        (fun z hz => ⟨⟨B.type_id, B.align, rfl, hz, B.block⟩, ht⟩) (fun z => rfl) fun u hu => ?_
      have h1 := hsw u v.asRef B.type_id rfl B.length hu
      simp only [DOp.assignItem, ValueRef.assign, M.bind_run, h1, M.thenDrop, M.lift_run, Item.drop]
      generalize hd : Value.drop (U := U) (_ : Value BoxBytes V) w = q
      rcases q with ⟨r, w'⟩
      have hd' : Value.drop (U := U) { v with bytes := { v.bytes with bytes := if u.type_id = t then u.bytes else v.bytes.bytes } } w = (r, w') := hd
      rw [hd']
      cases r <;> rfl
  | small v =>
    cases y' with
    | vec => exact J'.elim
    | box => exact J'.elim
    | small t x =>
      obtain ⟨B, ht⟩ := J'
      have hx := B.bytes
      subst hx
      refine assign_core (item := fun z => .small { v with bytes := (⟨z⟩ : SmallBytes) }) (mk := .small) H hkj hk hv hj B.length
        (fun z hz => ⟨⟨B.type_id, B.align, rfl, hz, B.size⟩, ht⟩) (fun z => rfl) fun u hu => ?_
      have h1 := hsw u v.asRef B.type_id rfl B.length hu
      simp only [DOp.assignItem, ValueRef.assign, M.bind_run, h1, M.thenDrop, M.lift_run, Item.drop]
      generalize hd : Value.drop (U := U) (_ : Value SmallBytes V) w = q
      rcases q with ⟨r, w'⟩
      have hd' : Value.drop (U := U) { v with bytes := (⟨if u.type_id = t then u.bytes else v.bytes.bytes⟩ : SmallBytes) } w = (r, w') := hd
      rw [hd']
      cases r <;> rfl

theorem pushBox_step (H : YHolds Γ slots w vars o) :
    InStepY Γ ((DOp.pushBox k j).exec Γ cfg vt (slots, w)) ((DOp.pushBox k j).step Γ cfg (vars, o)) := by
  simp only [DOp.exec, DOp.step]
  have J := H.var k
  have J' := H.var j
  rcases hk : slots k with _ | a <;> rcases hv : vars k with _ | y <;> rw [hk, hv] at J
  · exact H.same _
  · exact J.elim
  · exact J.elim
  rcases hj : slots j with _ | a' <;> rcases hv' : vars j with _ | y' <;> rw [hj, hv'] at J'
  · cases a <;> cases y <;> (try exact J.elim) <;> exact H.same _
  · exact J'.elim
  · exact J'.elim
  cases a with
  | box => cases y <;> try exact J.elim
           exact H.same _
  | small => cases y <;> try exact J.elim
             exact H.same _
  | vec c =>
  cases y with
  | box => exact J.elim
  | small => exact J.elim
  | vec tb x =>
  cases a' with
  | vec => cases y' <;> try exact J'.elim
           exact H.same _
  | small => cases y' <;> try exact J'.elim
             exact H.same _
  | box v =>
  cases y' with
  | vec => exact J'.elim
  | small => exact J'.elim
  | box t b =>
  have hkj : k ≠ j := by
    intro e
    rw [e, hj] at hk
    cases hk
  obtain ⟨h1, h2, h3, h4⟩ := J
  obtain ⟨B, ht⟩ := J'
  obtain ⟨F, W, fill⟩ := H.hole2 hkj
  rw [hk, hj] at W
  have C : ContIs Γ F (v.bytes.ptr.toList ++ []) tb c.vtable (c, w) (x, o) := ⟨rfl, W, h1, h4⟩
  have hq := push_method (cfg := cfg) C B ht
  have hks : Slots.put slots j none k = some (.vec c) := by rw [Slots.put_other _ _ hkj]; exact hk
  have hkv : Slots.put vars j none k = some (.vec tb x) := by rw [Slots.put_other _ _ hkj]; exact hv
  simp only [DOp.clearVar, YOp.moveOut]
  rw [M.bind_ok (M.modify_run _ _), M.bind_ok (M.modify_run _ _)]
  simp only [DOp.onVec, YOp.onVec, hks, hkv]
  have hend : ∀ c' w' x' o', ContIs Γ F [] tb c.vtable (c', w') (x', o') →
      YHolds Γ (Slots.put (Slots.put slots j none) k (some (.vec c'))) w' (Slots.put (Slots.put vars j none) k (some (.vec tb x'))) o' := by
    intro c' w' x' o' C'
    rw [Slots.put_comm _ _ _ (Ne.symm hkj), Slots.put_comm _ _ _ (Ne.symm hkj)]
    refine fill (some (.vec c')) none (some (.vec tb x')) none w' o' C'.worlds ⟨C'.is, ?_, h3, C'.ty⟩ trivial
    have := C'.vtable
    simp only at this
    rw [this]; exact h2
  rcases hr : XVec.dynPush Γ t b (x, o) with ⟨r, x', o'⟩
  rw [hr] at hq
  cases r with
  | ok b => obtain ⟨a, w', h1, rfl, h2⟩ := hq; rw [h1]; exact .ok ⟨rfl, hend _ _ _ _ h2⟩
  | panic y => obtain ⟨a, w', h1, h2⟩ := hq; rw [h1]; exact .panic (hend _ _ _ _ h2)
  | ub => exact hq
  | abort => exact hq

end
end Dync
