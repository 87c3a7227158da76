import Verif.Balance4
import Verif.Forgotten
import Verif.Props.DynMachine
/-!
# The balance of values: every operation
-/
namespace Dync
variable {U V σ α β : Type} {Γ : TyEnv U} {cfg : Cfg} {t : TyId} {a : Obj} {es : List Bytes} {vars : YVars}
  {o : Outside (Ledger U)} {K : Nat}
open Meter

/-- The number of values `a` passed to an operation, minus those forgotten by it. -/
def DOp.diff (a : Obj) (vars : YVars) : DOp → Int
  | .fromVec _ t xs => cnt a t xs
  | .withSize _ t _ x | .newBox _ t x | .newSmall _ t x => cnt a t [x]
  | .pushAs k t x | .resize k t _ x | .fill k t x | .setAs k t _ x =>
    match vars k with
    | some (.vec _ _) => cnt a t [x]
    | _ => 0
  | .consume k t =>
    match vars k with
    | some b => if b.ty = t then 0 else -b.weigh a
    | none => 0
  | .roundTrip k t =>
    match vars k with
    | some (.vec d x) => if YItem.ty (.vec d x) = t then 0 else -x.weigh a
    | _ => 0
  | _ => 0

/-- The blocks forgotten by an operation. -/
def DOp.forgottenBlocks (Γ : TyEnv U) (vars : YVars) : DOp → Nat
  | .consume k t =>
    match vars k with
    | some b => if b.ty = t then 0 else b.boxed Γ
    | none => 0
  | _ => 0

theorem onVec_zero {k : Nat} {m : M (XVec × Outside (Ledger U)) Obs} (hk : k < K) (hw : vars.Shaped Γ) (hm : TidyOn Γ a 0 m) :
    Balanced a K vars o 0 0 (YOp.onVec k m (vars, o)) := by
  have h := balanced_onVec (o := o) (d := 0) hk hw (fun _ _ _ => hm)
  rcases hv : vars k with _ | ⟨b, x⟩ | ⟨t, x⟩ | ⟨t, x⟩ <;> (rw [hv] at h; exact h)

theorem at_ledger {i : Nat} (b : YItem) : b.at Γ.ledger cfg i = b.at Γ cfg i := by
  cases b with
  | vec d x => cases x <;> rfl
  | box t x => rfl
  | small t x => rfl

theorem store_ledger {i : Nat} {x : Bytes} (b : YItem) : b.store Γ.ledger cfg i x = b.store Γ cfg i x := by
  cases b with
  | vec d y => cases y <;> rfl
  | box t x => rfl
  | small t x => rfl

theorem moves_place_clone (p : Place) : (outMeter a).Moves 0 (p.clone Γ.ledger) fun c => cnt a p.ty [c] := by
  unfold Place.clone
  split
  · exact moves_call (moves_clone p.ty p.bytes)
  · exact Moves.panic _

/-- Every operation that returns. -/
theorem step_balanced {op : DOp} (hs : vars.Shaped Γ) (hK : ∀ v ∈ op.vars, v < K) (hb : op.Bounded Γ cfg) :
    Balanced a K vars o (op.forgottenBlocks Γ vars) (op.diff a vars) (op.step Γ.ledger cfg (vars, o)) := by
  have hw := hs.whole
  cases op with
  | withType k t => exact balanced_create (hK k (by simp [DOp.vars])) hw (moves_wrapVec t [] 0) (MakesWhole.wrapVec _ _ _)
  | withCapacity k t n =>
    refine balanced_create (d := 0) (hK k (by simp [DOp.vars])) hw ?_ ?_
    · split
      · exact moves_wrapVec t [] n
      · exact Moves.panic _
    · split
      · exact MakesWhole.wrapVec _ _ _
      · exact MakesWhole.panic _
  | fromVec k t xs =>
    refine balanced_create (d := cnt a t xs) (hK k (by simp [DOp.vars])) hw ?_ ?_
    · split
      · exact moves_wrapVec t xs _
      · exact Moves.panic _
    · split
      · exact MakesWhole.wrapVec _ _ _
      · exact MakesWhole.panic _
  | fromSlice k t xs =>
    refine balanced_create (d := 0) (hK k (by simp [DOp.vars])) hw ?_ ?_
    · split
      · exact (moves_call (moves_clones t xs)).bind fun es => moves_wrapVec t es _
      · exact Moves.panic _
    · split
      · exact MakesWhole.bind fun _ => MakesWhole.wrapVec _ _ _
      · exact MakesWhole.panic _
  | withSize k t n x =>
    refine balanced_create (d := cnt a t [x]) (hK k (by simp [DOp.vars])) hw ?_ ?_
    · split
      · exact (moves_call (moves_vecOf t n x)).bind fun es => moves_wrapVec t es _
      · exact (moves_call (moves_drop t x)).unwindDrop.bind fun _ => Moves.panic _
    · split
      · exact MakesWhole.bind fun _ => MakesWhole.wrapVec _ _ _
      · exact MakesWhole.bind fun _ => MakesWhole.panic _
  | newBox k t x =>
    exact balanced_create (d := cnt a t [x]) (hK k (by simp [DOp.vars])) hw (Moves.pure rfl) (MakesWhole.pure trivial)
  | newSmall k t x =>
    refine balanced_create (d := cnt a t [x]) (hK k (by simp [DOp.vars])) hw ?_ ?_
    · split
      · exact Moves.pure rfl
      · exact Moves.panic _
    · split
      · exact MakesWhole.pure trivial
      · exact MakesWhole.panic _
  | drop k =>
    simp only [DOp.step, DOp.forgottenBlocks, DOp.diff]
    cases hv : vars k with
    | none => exact Balanced.same hw _
    | some b => exact balanced_drop (hK k (by simp [DOp.vars])) hw hv
  | clone k j =>
    simp only [DOp.step, DOp.forgottenBlocks, DOp.diff]
    cases hv : vars k with
    | none => exact Balanced.same hw _
    | some b => exact balanced_create (hK j (by simp [DOp.vars])) hw (moves_item_clone b) (MakesWhole.clone b)
  | consume k t =>
    simp only [DOp.step, DOp.forgottenBlocks, DOp.diff]
    cases hv : vars k with
    | none => exact Balanced.same hw _
    | some b => exact balanced_consume (hK k (by simp [DOp.vars])) hw hv
  | roundTrip k t =>
    have hk := hK k (by simp [DOp.vars])
    simp only [DOp.step, DOp.forgottenBlocks, DOp.diff]
    rcases hv : vars k with _ | ⟨d, x⟩ | ⟨t', x⟩ | ⟨t', x⟩
    · exact Balanced.same hw _
    · cases x with
      | unit n => exact (hw _ _ hv).elim
      | vec t' es cap =>
        simp only
        by_cases ht : t = t'
        · have e1 : YItem.ty (.vec d (.vec t' es cap)) = t := ht.symm
          rw [if_pos ht, if_pos e1]
          exact Balanced.same hw _
        · have e1 : ¬ YItem.ty (.vec d (.vec t' es cap)) = t := Ne.symm ht
          rw [if_neg ht, if_neg e1]
          intro r s' e
          cases e
          have hp := YVars.weigh_put (a := a) (vars := vars) (b := none) hk
          rw [hv] at hp
          simp only [weighO, YItem.weigh] at hp
          exact ⟨hw.none, rfl, by simp only; omega⟩
    · exact Balanced.same hw _
    · exact Balanced.same hw _
  | append k j => exact balanced_append (hK k (by simp [DOp.vars])) (hK j (by simp [DOp.vars])) hw
  | pushAs k t x => exact balanced_onVec (hK k (by simp [DOp.vars])) hs fun _ _ _ => (tidy_pushAs t x).on
  | pushCloned k j i =>
    intro r s' e
    simp only [DOp.step] at e
    by_cases hkj : k = j
    · rw [if_pos hkj] at e
      exact Balanced.same hw _ _ _ e
    · rw [if_neg hkj] at e
      obtain ⟨p, s1, e1, e2⟩ := M.bind_ok_inv e
      obtain ⟨rfl, hn, hp⟩ := read_ok e1
      cases p with
      | none => exact Balanced.same hw _ _ _ e2
      | some p => exact onVec_zero (hK k (by simp [DOp.vars])) hs (tidy_pushCloned p).on _ _ e2
  | pushBox k j =>
    have hk := hK k (by simp [DOp.vars])
    have hj := hK j (by simp [DOp.vars])
    simp only [DOp.step, DOp.forgottenBlocks, DOp.diff]
    rcases hv : vars k with _ | ⟨d, y⟩ | ⟨t', y⟩ | ⟨t', y⟩
    · exact Balanced.same hw _
    · rcases hv' : vars j with _ | ⟨d', x⟩ | ⟨t, x⟩ | ⟨t, x⟩
      · exact Balanced.same hw _
      · exact Balanced.same hw _
      · intro r s' e
        obtain ⟨u, s1, e1, e2⟩ := M.bind_ok_inv e
        simp only [YOp.moveOut, M.modify_run] at e1
        cases e1
        have hkj : k ≠ j := by rintro rfl; rw [hv] at hv'; cases hv'
        have hv2 : Slots.put vars j none k = some (.vec d y) := by rw [Slots.put_other _ _ hkj]; exact hv
        have h := balanced_onVec (a := a) (o := o) hk (hs.none (k := j)) (fun _ _ _ => (tidy_push t x).on) _ _ e2
        rw [hv2] at h
        have pj := YVars.weigh_put (a := a) (vars := vars) (b := none) hj
        rw [hv'] at pj
        simp only [weighO, YItem.weigh] at pj h
        exact ⟨h.1, h.2.1, by have := h.2.2; omega⟩
      · exact Balanced.same hw _
    · exact Balanced.same hw _
    · exact Balanced.same hw _
  | resize k t n x => exact balanced_onVec (hK k (by simp [DOp.vars])) hs fun _ _ _ => (tidy_resize t n x).on
  | fill k t x => exact balanced_onVec (hK k (by simp [DOp.vars])) hs fun _ _ _ => (tidy_fill t x).on
  | clear k => exact onVec_zero (hK k (by simp [DOp.vars])) hs tidy_clear.on
  | rotateLeft k n => exact onVec_zero (hK k (by simp [DOp.vars])) hs (tidy_rotateLeft hb)
  | rotateRight k n => exact onVec_zero (hK k (by simp [DOp.vars])) hs (tidy_rotateRight hb)
  | swap k i j => exact onVec_zero (hK k (by simp [DOp.vars])) hs (tidy_swap hb.1 hb.2)
  | setAs k t i x => exact balanced_onVec (hK k (by simp [DOp.vars])) hs fun _ _ _ => (tidy_setAs t i x).on
  | cloneIntoVec k t => exact onVec_zero (hK k (by simp [DOp.vars])) hs (tidy_cloneIntoVec t).on
  | cloneValue k i j =>
    intro r s' e
    obtain ⟨p, s1, e1, e2⟩ := M.bind_ok_inv e
    obtain ⟨rfl, hn, hp⟩ := read_ok e1
    cases p with
    | none => exact Balanced.same hw _ _ _ e2
    | some p =>
      exact balanced_create (d := 0) (hK j (by simp [DOp.vars])) hw
        ((moves_place_clone p).bind fun c => Moves.pure rfl) (MakesWhole.bind fun c => MakesWhole.pure (b := .box p.ty c) trivial) _ _ e2
  | cloneSmall k i j =>
    intro r s' e
    obtain ⟨p, s1, e1, e2⟩ := M.bind_ok_inv e
    obtain ⟨rfl, hn, hp⟩ := read_ok e1
    cases p with
    | none => exact Balanced.same hw _ _ _ e2
    | some p =>
      refine balanced_create (d := 0) (hK j (by simp [DOp.vars])) hw
        ((moves_place_clone p).bind fun c => ?_) (MakesWhole.bind fun c => ?_) _ _ e2
      · split
        · exact Moves.pure rfl
        · exact (moves_call (moves_drop p.ty c)).unwindDrop.bind fun _ => Moves.panic _
      · split
        · exact MakesWhole.pure trivial
        · exact MakesWhole.bind fun _ => MakesWhole.panic _
  | assign k i j =>
    have hk := hK k (by simp [DOp.vars])
    have hj := hK j (by simp [DOp.vars])
    simp only [DOp.step, DOp.forgottenBlocks, DOp.diff]
    by_cases hkj : k = j
    · rw [if_pos hkj]; exact Balanced.same hw _
    rw [if_neg hkj]
    cases hv : vars k with
    | none => exact Balanced.same hw _
    | some b =>
      rcases hv' : vars j with _ | ⟨d', x⟩ | ⟨t, x⟩ | ⟨t, x⟩
      · exact Balanced.same hw _
      · exact Balanced.same hw _
      · exact balanced_assignPlace hk hj hkj hb hs hv' (hs _ _ hv') (fun _ => rfl) (by rw [hv]; simp)
      · exact balanced_assignPlace hk hj hkj hb hs hv' (hs _ _ hv') (fun _ => rfl) (by rw [hv]; simp)
  | cloneFrom k i j i' =>
    have hk := hK k (by simp [DOp.vars])
    intro r s' e
    simp only [DOp.step] at e
    by_cases hkj : k = j
    · rw [if_pos hkj] at e
      exact Balanced.same hw _ _ _ e
    rw [if_neg hkj] at e
    obtain ⟨p, s1, e1, e2⟩ := M.bind_ok_inv e
    obtain ⟨rfl, hn, hp⟩ := read_ok e1
    cases p with
    | none => exact Balanced.same hw _ _ _ e2
    | some p =>
      simp only at e2
      obtain ⟨q, s2, e3, e4⟩ := M.bind_ok_inv e2
      obtain ⟨rfl, hn', hq⟩ := read_ok e3
      cases q with
      | none => exact Balanced.same hw _ _ _ e4
      | some q =>
        simp only at e4
        obtain ⟨b, hv, hat⟩ := hq q rfl
        rw [at_ledger] at hat
        by_cases h1 : q.ty = p.ty
        · rw [if_pos h1] at e4
          by_cases h2 : q.ty = q.table
          · rw [if_pos h2] at e4
            simp only at e4
            obtain ⟨-, hl, -⟩ := place_weigh (a := a) hb (hs _ _ hv) hat
            rcases hc : Γ.ledger.cloneFrom q.ty p.bytes (q.bytes, o.user) with ⟨rc, d', l'⟩
            rw [hc] at e4
            have hl' : d'.length = Γ.size q.ty := Γ.ledger.cloneFrom_len hc hl
            cases rc with
            | ok u =>
              simp only [YOp.write, M.modify_run, Res.map] at e4
              cases e4
              obtain ⟨w1, w2⟩ := weigh_write (a := a) (K := K) hk hb hs hv hat hl'
              have hn := ledger_cloneFrom_net (a := a) hc
              simp only at hv
              simp only [hv, Option.map_some, store_ledger]
              exact ⟨hw.put w1, rfl, by simp only [DOp.diff]; omega⟩
            | panic y => cases e4
            | ub => cases e4
            | abort => cases e4
          · rw [if_neg h2] at e4; cases e4
        · rw [if_neg h1] at e4; exact Balanced.same hw _ _ _ e4
  | swapValues k i j i' =>
    have hk := hK k (by simp [DOp.vars])
    have hj := hK j (by simp [DOp.vars])
    intro r s' e
    simp only [DOp.step] at e
    by_cases hkj : k = j
    · rw [if_pos hkj] at e
      exact Balanced.same hw _ _ _ e
    rw [if_neg hkj] at e
    obtain ⟨p, s1, e1, e2⟩ := M.bind_ok_inv e
    obtain ⟨rfl, hn, hp⟩ := read_ok e1
    cases p with
    | none => exact Balanced.same hw _ _ _ e2
    | some p =>
      simp only at e2
      obtain ⟨q, s2, e3, e4⟩ := M.bind_ok_inv e2
      obtain ⟨rfl, hn', hq⟩ := read_ok e3
      cases q with
      | none => exact Balanced.same hw _ _ _ e4
      | some q =>
        simp only at e4
        obtain ⟨b, hv, hat⟩ := hp p rfl
        obtain ⟨b', hv', hat'⟩ := hq q rfl
        rw [at_ledger] at hat hat'
        by_cases h1 : p.ty = q.ty
        · rw [if_pos h1] at e4
          obtain ⟨-, hl, -⟩ := place_weigh (a := a) hb.1 (hs _ _ hv) hat
          obtain ⟨-, hl', hst⟩ := place_weigh (a := a) hb.2 (hs _ _ hv') hat'
          obtain ⟨u, s3, e5, e6⟩ := M.bind_ok_inv e4
          simp only [YOp.write, M.modify_run] at e5
          cases e5
          obtain ⟨u, s3, e5, e7⟩ := M.bind_ok_inv e6
          simp only [YOp.write, M.modify_run] at e5
          cases e5
          cases e7
          simp only at hv hv'
          obtain ⟨w1, w2⟩ := weigh_write (a := a) (K := K) hk hb.1 hs hv hat (x := q.bytes) (by rw [h1]; exact hl')
          obtain ⟨w3, w4⟩ := hst p.bytes (by rw [← h1]; exact hl)
          simp only [Slots.put_other _ _ (Ne.symm hkj), hv, hv', Option.map_some, store_ledger]
          have pj := YVars.weigh_put (a := a) (vars := Slots.put vars k (some (YItem.store Γ cfg i q.bytes b)))
            (b := some (YItem.store Γ cfg i' p.bytes b')) hj
          rw [Slots.put_other _ _ (Ne.symm hkj), hv'] at pj
          rw [h1] at w2
          simp only [weighO] at pj
          exact ⟨(hw.put w1).put w3, rfl, by simp only [DOp.diff]; omega⟩
        · rw [if_neg h1] at e4; exact Balanced.same hw _ _ _ e4
  | len k => exact onVec_zero (hK k (by simp [DOp.vars])) hs (tidy_look (Γ := Γ) _ _).on
  | typeId k => exact onVec_zero (hK k (by simp [DOp.vars])) hs (tidy_look (Γ := Γ) _ _).on
  | getAs k t i => exact onVec_zero (hK k (by simp [DOp.vars])) hs (tidy_look (Γ := Γ) _ _).on
  | get k i =>
    intro r s' e
    obtain ⟨p, s1, e1, e2⟩ := M.bind_ok_inv e
    obtain ⟨rfl, hn, hp⟩ := read_ok e1
    cases p with
    | none => exact Balanced.same hw _ _ _ e2
    | some p => exact Balanced.same hw _ _ _ e2
  | asSlice k t => exact onVec_zero (hK k (by simp [DOp.vars])) hs (tidy_look (Γ := Γ) _ _).on
  | iter k => exact onVec_zero (hK k (by simp [DOp.vars])) hs (tidy_look (Γ := Γ) _ _).on

end Dync
