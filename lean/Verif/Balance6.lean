import Verif.Balance5
/-!
# The balance of values: programs
-/
namespace Dync
variable {U V : Type} {Γ : TyEnv U} {cfg : Cfg} {vt : TyId → V} {a : Obj} {K : Nat}

/-! ### What the machine holds is what the implementation holds -/

variable [HasDrop (Ledger U) V] [HasClone (Ledger U) V] {slots : DSlots V} {w : World (Ledger U)} {vars : YVars} {o : Outside (Ledger U)}

omit [HasDrop (Ledger U) V] [HasClone (Ledger U) V] in
theorem repr_objs {h : Heap} {c : VecDyn V} {t : TyId} {es : List Bytes} (R : Repr Γ h t es c.data) :
    c.elementTypeId = t ∧ c.len = es.length ∧ (Item.vec c).objs = es.map (Prod.mk t) := by
  have h1 : c.data.elem.numBytes = Γ.size t := R.numBytes
  have h2 : c.elementTypeId = t := R.type_id
  refine ⟨h2, R.len, ?_⟩
  simp only [Item.objs, h1, R.mem, h2]
  rw [chunks_flatten R.pos R.each]

theorem is_objs {h : Heap} {b : Item V} {y : YItem} (I : YItem.Is Γ.ledger h b y) (hw : y.Whole) :
    b.ty = y.ty ∧ (b.objs.count a : Int) = y.weigh a := by
  cases b with
  | vec c =>
    cases y with
    | vec d x =>
      cases x with
      | unit n => exact hw.elim
      | vec t es cap =>
        obtain ⟨h1, -, h2⟩ := repr_objs I.1.1
        exact ⟨h1, by rw [h2]; rfl⟩
    | box t x => exact I.elim
    | small t x => exact I.elim
  | box v =>
    cases y with
    | box t x =>
      refine ⟨I.1.type_id, ?_⟩
      simp only [Item.objs, I.1.type_id, I.1.bytes]
      rfl
    | vec d x => exact I.elim
    | small t x => exact I.elim
  | small v =>
    cases y with
    | small t x =>
      refine ⟨I.1.type_id, ?_⟩
      simp only [Item.objs, I.1.type_id, I.1.bytes]
      rfl
    | vec d x => exact I.elim
    | box t x => exact I.elim

theorem live_weigh (H : YHolds Γ.ledger slots w vars o) (hw : vars.Whole) :
    ((DSlots.live K slots).count a : Int) = vars.weigh a K := by
  induction K with
  | zero => rfl
  | succ K ih =>
    have : DSlots.live (K + 1) slots = DSlots.live K slots ++ ((slots K).map Item.objs).getD [] := by
      simp [DSlots.live, List.range_succ]
    rw [this, List.count_append, Int.natCast_add, ih]
    simp only [YVars.weigh]
    cases hs : slots K with
    | none => rw [(H.none_iff K).1 hs]; simp [weighO]
    | some b =>
      cases hv : vars K with
      | none => rw [(H.none_iff K).2 hv] at hs; cases hs
      | some y =>
        have := (is_objs (a := a) (H.is K b y hs hv) (hw K y hv)).2
        simp only [Option.map_some, Option.getD_some, weighO]
        omega

theorem holds_shaped (H : YHolds Γ.ledger slots w vars o) (hw : vars.Whole) : vars.Shaped Γ := by
  intro k y hv
  cases hs : slots k with
  | none => rw [(H.none_iff k).1 hs] at hv; cases hv
  | some b =>
    have I := H.is k b y hs hv
    cases y with
    | vec d x =>
      cases x with
      | unit n => exact (hw _ _ hv).elim
      | vec t es cap =>
        obtain ⟨h1, h2, -, -, h3⟩ := yholds_each H hv
        exact ⟨h1, h2, h3⟩
    | box t x =>
      cases b with
      | box v => exact I.1.length
      | vec c => exact I.elim
      | small v => exact I.elim
    | small t x =>
      cases b with
      | small v => exact I.1.length
      | vec c => exact I.elim
      | box v => exact I.elim

theorem vec_of_vars {k : Nat} {d : TyId} {x : XVec} (H : YHolds Γ.ledger slots w vars o) (hv : vars k = some (.vec d x)) :
    ∃ c, slots k = some (.vec c) ∧ x.Is Γ.ledger w.heap c.data := by
  cases hs : slots k with
  | none => rw [(H.none_iff k).1 hs] at hv; cases hv
  | some b =>
    have I := H.is k b _ hs hv
    cases b with
    | vec c => exact ⟨c, rfl, I.1⟩
    | box v => exact I.elim
    | small v => exact I.elim

theorem not_vec_of_vars {k : Nat} (H : YHolds Γ.ledger slots w vars o) (hv : ∀ d x, vars k ≠ some (.vec d x)) (c : VecDyn V) :
    slots k ≠ some (.vec c) := by
  intro hs
  cases hy : vars k with
  | none => rw [(H.none_iff k).2 hy] at hs; cases hs
  | some y =>
    have I := H.is k _ y hs hy
    cases y with
    | vec d x => exact hv _ _ hy
    | box t x => exact I.elim
    | small t x => exact I.elim

theorem toVec_count {k : Nat} {t : TyId} {x : Bytes} (H : YHolds Γ.ledger slots w vars o) :
    ((DOp.toVec slots k (t, x)).count a : Int) = match vars k with | some (.vec _ _) => cnt a t [x] | _ => 0 := by
  have hn : (∀ d x, vars k ≠ some (.vec d x)) → DOp.toVec slots k (t, x) = [] := by
    intro h
    have := not_vec_of_vars H h
    unfold DOp.toVec
    split
    · rename_i c hc; exact (this c hc).elim
    · rfl
  rcases hv : vars k with _ | ⟨d, y⟩ | ⟨t', y⟩ | ⟨t', y⟩
  · rw [hn (by simp [hv])]; rfl
  · obtain ⟨c, hc, -⟩ := vec_of_vars H hv
    simp only [DOp.toVec, hc]
    rfl
  · rw [hn (by simp [hv])]; rfl
  · rw [hn (by simp [hv])]; rfl

theorem vec_diff {k : Nat} {t : TyId} {x : Bytes} (H : YHolds Γ.ledger slots w vars o) :
    ((DOp.toVec slots k (t, x)).count a : Int) - (([] : List Obj).count a : Int) = (DOp.pushAs k t x).diff a vars := by
  rw [toVec_count H]
  simp only [List.count_nil, DOp.diff]
  rcases vars k with _ | ⟨d, y⟩ | ⟨t', y⟩ | ⟨t', y⟩ <;> simp

/-- What is passed to an operation that returns, and what it forgets. -/
theorem passed_diff {op : DOp} {r : Obs} {s' : YVars × Outside (Ledger U)} (H : YHolds Γ.ledger slots w vars o) (hw : vars.Whole)
    (h : op.step Γ.ledger cfg (vars, o) = (.ok r, s')) :
    ((op.passed slots).count a : Int) - ((op.forgets slots).count a : Int) = op.diff a vars := by
  cases op with
  | pushAs k t x => exact vec_diff H
  | resize k t n x => exact vec_diff H
  | fill k t x => exact vec_diff H
  | setAs k t i x =>
    have e : DOp.toElem slots k i (t, x) = DOp.toVec slots k (t, x) := by
      unfold DOp.toElem DOp.toVec
      cases hs : slots k with
      | none => rfl
      | some b =>
        cases b with
        | vec c =>
          simp only
          cases hv : vars k with
          | none => rw [(H.none_iff k).2 hv] at hs; cases hs
          | some y =>
            have I := H.is k _ y hs hv
            cases y with
            | vec d x' =>
              cases x' with
              | unit n => exact (hw _ _ hv).elim
              | vec t' es cap =>
                have hl := (repr_objs I.1.1).2.1
                simp only [DOp.step, YOp.onVec, hv] at h
                by_cases hi : i < es.length
                · rw [hl, if_pos hi]
                · have : XVec.dynSetAs Γ.ledger t i x (.vec t' es cap, o) = (.panic .index, (.vec t' es cap, o)) := by
                    simp only [XVec.dynSetAs, M.bind_run, M.get_run, dif_neg hi, M.panic_run]
                  rw [this] at h
                  cases h
            | box t' x' => exact I.elim
            | small t' x' => exact I.elim
        | box v => rfl
        | small v => rfl
    simp only [DOp.passed, e]
    exact vec_diff H
  | consume k t =>
    simp only [DOp.passed, DOp.forgets, DOp.diff]
    cases hs : slots k with
    | none => rw [(H.none_iff k).1 hs]; rfl
    | some b =>
      cases hv : vars k with
      | none => rw [(H.none_iff k).2 hv] at hs; cases hs
      | some y =>
        obtain ⟨h1, h2⟩ := is_objs (a := a) (H.is k b y hs hv) (hw k y hv)
        simp only [h1]
        split
        · rfl
        · rw [h2]; simp
  | roundTrip k t =>
    simp only [DOp.passed, DOp.forgets, DOp.diff]
    rcases hv : vars k with _ | ⟨d, y⟩ | ⟨t', y⟩ | ⟨t', y⟩
    · rw [(H.none_iff k).2 hv]; rfl
    · obtain ⟨c, hc, -⟩ := vec_of_vars H hv
      obtain ⟨h1, h2⟩ := is_objs (a := a) (H.is k _ _ hc hv) (hw k _ hv)
      simp only [Item.ty] at h1
      simp only [hc, h1]
      split
      · rfl
      · rw [h2]; simp [YItem.weigh]
    · have := not_vec_of_vars H (k := k) (by simp [hv])
      split
      · rename_i c hc; exact (this c hc).elim
      · rfl
    · have := not_vec_of_vars H (k := k) (by simp [hv])
      split
      · rename_i c hc; exact (this c hc).elim
      · rfl
  | fromVec k t xs => simp only [DOp.passed, DOp.forgets, DOp.diff, cnt]; simp
  | withSize k t n x => simp only [DOp.passed, DOp.forgets, DOp.diff, cnt]; simp
  | newBox k t x => simp only [DOp.passed, DOp.forgets, DOp.diff, cnt]; simp
  | newSmall k t x => simp only [DOp.passed, DOp.forgets, DOp.diff, cnt]; simp
  | _ => rfl

theorem block_diff {op : DOp} (H : YHolds Γ.ledger slots w vars o) : op.forgetsBlock slots = op.forgottenBlocks Γ vars := by
  cases op with
  | consume k t =>
    simp only [DOp.forgetsBlock, DOp.forgottenBlocks]
    cases hs : slots k with
    | none => rw [(H.none_iff k).1 hs]
    | some b =>
      cases hv : vars k with
      | none => rw [(H.none_iff k).2 hv] at hs; cases hs
      | some y =>
        have I := H.is k b y hs hv
        cases b with
        | vec c =>
          cases y with
          | vec d x => simp [YItem.boxed]
          | box t x => exact I.elim
          | small t x => exact I.elim
        | small v =>
          cases y with
          | small d x => simp [YItem.boxed]
          | box t x => exact I.elim
          | vec t x => exact I.elim
        | box v =>
          cases y with
          | small d x => exact I.elim
          | vec t x => exact I.elim
          | box t' x =>
            have h1 : v.type_id = t' := I.1.type_id
            have e : YItem.ty (.box t' x) = t' := rfl
            have hz : v.bytes.ptr = none ↔ Γ.size t' = 0 := by
              rcases I.1.block with ⟨h2, h3⟩ | ⟨h2, i, h3, -⟩
              · exact ⟨fun _ => h2, fun _ => h3⟩
              · have h2 : 0 < Γ.size t' := h2
                rw [h3]
                constructor
                · intro h; cases h
                · intro h; omega
            simp only [YItem.boxed, boxBlock, h1, hz, e]
            by_cases ht : t' = t
            · simp [ht]
            · simp [ht]
  | _ => rfl

/-! ### Programs -/

theorem exec_settled {op : DOp} {r : Obs} {s' : DSlots V × World (Ledger U)} (htab : ∀ t, Tab Γ.ledger t (vt t)) (ht : op.IsTyped Γ)
    (hb : op.Bounded Γ cfg) (hK : ∀ k ∈ op.vars, k < K) (H : YHolds Γ.ledger slots w vars o) (hw : vars.Whole)
    (h : op.exec Γ.ledger cfg vt (slots, w) = (.ok r, s')) :
    ∃ vars' o', YHolds Γ.ledger s'.1 s'.2 vars' o' ∧ vars'.Whole ∧ o'.leaked = o.leaked + op.forgetsBlock slots ∧
      ∀ a, o'.user.net a + (DSlots.live K s'.1).count a + (op.forgets slots).count a =
        o.user.net a + (DSlots.live K slots).count a + (op.passed slots).count a := by
  have hi := C71_step (cfg := cfg) H (op := op) (by cases op <;> exact ht) htab
  rcases hs : op.step Γ.ledger cfg (vars, o) with ⟨r1, vars', o'⟩
  rw [hs, h] at hi
  cases r1 with
  | ok r1 =>
    obtain ⟨-, H'⟩ := hi
    have key := fun a => step_balanced (a := a) (o := o) (holds_shaped H hw) hK hb _ _ hs
    have hw' := (key (0, [])).1
    refine ⟨vars', o', H', hw', ?_, fun a => ?_⟩
    · rw [block_diff H]; exact (key (0, [])).2.1
    · have h1 := (key a).2.2
      have h2 := passed_diff (a := a) H hw hs
      rw [live_weigh H hw, live_weigh H' hw']
      simp only at h1
      omega
  | panic y => obtain ⟨⟨y, h1⟩, -⟩ := hi; cases h1
  | ub => cases hi
  | abort => cases hi

theorem run_settled (htab : ∀ t, Tab Γ.ledger t (vt t)) : ∀ (ops : List DOp) {os : List Obs} {slots : DSlots V} {w : World (Ledger U)}
    {s' : DSlots V × World (Ledger U)} {vars : YVars} {o : Outside (Ledger U)},
    (∀ op ∈ ops, op.IsTyped Γ) → (∀ op ∈ ops, op.Bounded Γ cfg) → (∀ op ∈ ops, ∀ k ∈ op.vars, k < K) →
    YHolds Γ.ledger slots w vars o → vars.Whole → runDOps Γ.ledger cfg vt ops (slots, w) = (.ok os, s') →
    ∃ vars' o', YHolds Γ.ledger s'.1 s'.2 vars' o' ∧ vars'.Whole ∧
      o'.leaked = o.leaked + forgottenBlocksAlong Γ.ledger cfg vt ops (slots, w) ∧
      ∀ a, o'.user.net a + (DSlots.live K s'.1).count a + (forgottenAlong Γ.ledger cfg vt ops (slots, w)).count a =
        o.user.net a + (DSlots.live K slots).count a + (passedAlong Γ.ledger cfg vt ops (slots, w)).count a := by
  intro ops
  induction ops with
  | nil =>
    intro os slots w s' vars o _ _ _ H hw h
    cases h
    exact ⟨vars, o, H, hw, rfl, fun a => by simp [forgottenAlong, passedAlong]⟩
  | cons op ops ih =>
    intro os slots w s' vars o ht hb hK H hw h
    obtain ⟨r, s1, h1, h2⟩ := M.bind_ok_inv h
    obtain ⟨os1, s2, h3, h4⟩ := M.bind_ok_inv h2
    cases h4
    obtain ⟨vars1, o1, H1, hw1, l1, e1⟩ := exec_settled htab (ht op (by simp)) (hb op (by simp)) (hK op (by simp)) H hw h1
    obtain ⟨slots1, w1⟩ := s1
    obtain ⟨vars2, o2, H2, hw2, l2, e2⟩ := ih (fun op h => ht op (by simp [h])) (fun op h => hb op (by simp [h]))
      (fun op h => hK op (by simp [h])) H1 hw1 h3
    have hc : ((op.exec Γ.ledger cfg vt).caught (slots, w)).2 = (slots1, w1) := by simp only [M.caught, h1]
    refine ⟨vars2, o2, H2, hw2, ?_, fun a => ?_⟩
    · simp only [forgottenBlocksAlong, hc]
      simp only at l2
      omega
    · have h5 := e1 a
      have h6 := e2 a
      simp only [forgottenAlong, passedAlong, hc, List.count_append, Int.natCast_add] at h5 h6 ⊢
      omega

end Dync
