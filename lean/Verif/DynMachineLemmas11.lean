import Verif.DynMachineLemmas10

/-! Every operation, and every program. -/

namespace Dync

section
variable {U V : Type} {Γ : TyEnv U} {t tb : TyId} {w : World U} {o : Outside U} {cfg : Cfg} {vt : TyId → V}
  {k j : Nat} [HasDrop U V] [HasClone U V] [TableLaw V] {slots : DSlots V} {vars : YVars}

theorem ydrop_step (H : YHolds Γ slots w vars o) :
    InStepY Γ ((DOp.drop k).exec Γ cfg vt (slots, w)) ((DOp.drop k).step Γ cfg (vars, o)) := by
  simp only [DOp.exec, DOp.step]
  have J := H.var k
  rcases hk : slots k with _ | a <;> rcases hv : vars k with _ | y <;> rw [hk, hv] at J
  · exact H.same _
  · exact J.elim
  · exact J.elim
  have h := useUp_step (m := (do a.drop cfg; pure .done : M (World U) Obs)) (q := (do y.drop Γ; pure .done : M (Outside U) Obs)) H hk
    fun F O W => InStep.map (item_drop (cfg := cfg) W J) fun _ _ _ _ h => ⟨rfl, h⟩
  have e1 : (do DOp.clearVar k; onWorld (a.drop cfg); pure .done : M (DSlots V × World U) Obs) (slots, w) =
      (do DOp.clearVar k; onWorld (do a.drop cfg; pure .done) : M (DSlots V × World U) Obs) (slots, w) := by
    simp only [DOp.clearVar, M.bind_run, M.modify_run, onWorld_run]
    rcases a.drop cfg w with ⟨r, w'⟩
    cases r <;> rfl
  have e2 : (do YOp.moveOut k; aside (y.drop Γ); return .done : M (YVars × Outside U) Obs) (vars, o) =
      (do YOp.moveOut k; aside (do y.drop Γ; pure .done) : M (YVars × Outside U) Obs) (vars, o) := by
    simp only [YOp.moveOut, aside, M.bind_run, M.modify_run, M.zoom_run]
    rcases y.drop Γ o with ⟨r, w'⟩
    cases r <;> rfl
  simp only
  rw [e1, e2]
  exact h

theorem yclone_step (H : YHolds Γ slots w vars o) :
    InStepY Γ ((DOp.clone k j).exec Γ cfg vt (slots, w)) ((DOp.clone k j).step Γ cfg (vars, o)) := by
  simp only [DOp.exec, DOp.step]
  have J := H.var k
  rcases hk : slots k with _ | a <;> rcases hv : vars k with _ | y <;> rw [hk, hv] at J
  · exact H.same _
  · exact J.elim
  · exact J.elim
  exact ycreate_step H fun F O W => item_clone W J

theorem yconsume_step (H : YHolds Γ slots w vars o) :
    InStepY Γ ((DOp.consume k t).exec Γ cfg vt (slots, w)) ((DOp.consume k t).step Γ cfg (vars, o)) := by
  simp only [DOp.exec, DOp.step]
  have J := H.var k
  rcases hk : slots k with _ | a <;> rcases hv : vars k with _ | y <;> rw [hk, hv] at J
  · exact H.same _
  · exact J.elim
  · exact J.elim
  exact useUp_step H hk fun F O W => item_consume W J

theorem dyn_step {op : DOp} (H : YHolds Γ slots w vars o) (ht : op.IsTyped Γ) (htab : ∀ t, Tab Γ t (vt t)) :
    InStepY Γ (op.exec Γ cfg vt (slots, w)) (op.step Γ cfg (vars, o)) := by
  cases op with
  | withType k t => exact ycreate_step H fun F O W => withType_makes W (htab t)
  | withCapacity k t n => exact ycreate_step H fun F O W => withCapacity_makes W (htab t) n
  | fromVec k t xs => exact ycreate_step H fun F O W => fromVec_makes W (htab t) ht.2
  | fromSlice k t xs => exact ycreate_step H fun F O W => fromSlice_makes W (htab t) ht.1
  | withSize k t n x => exact ycreate_step H fun F O W => withSize_makes W (htab t) ht.1 ht.2
  | newBox k t x => exact ycreate_step H fun F O W => newBox_makes W (htab t) ht
  | newSmall k t x => exact ycreate_step H fun F O W => newSmall_makes W (htab t) ht
  | drop k => exact ydrop_step H
  | clone k j => exact yclone_step H
  | consume k t => exact yconsume_step H
  | roundTrip k t => exact roundTrip_step H (htab t)
  | append k j => exact append_step H
  | pushAs k t x => exact yonVec_step H fun F O tb c x hc ht' h0 C => pushAs_method C ht
  | pushCloned k j i => exact pushCloned_step H
  | pushBox k j => exact pushBox_step H
  | resize k t n x => exact yonVec_step H fun F O tb c x hc ht' h0 C => resize_method C ht' ht
  | fill k t x => exact yonVec_step H fun F O tb c x hc ht' h0 C => fill_method C
  | clear k => exact yonVec_step H fun F O tb c x hc ht' h0 C => clear_method C ht'
  | rotateLeft k n => exact yonVec_step H fun F O tb c x hc ht' h0 C => rotateLeft_method C n
  | rotateRight k n => exact yonVec_step H fun F O tb c x hc ht' h0 C => rotateRight_method C n
  | swap k a b => exact yonVec_step H fun F O tb c x hc ht' h0 C => swap_method C a b
  | setAs k t i x => exact yonVec_step H fun F O tb c x hc ht' h0 C => setAs_method C ht
  | cloneIntoVec k t => exact yonVec_step H fun F O tb c x hc ht' h0 C => cloneIntoVec_method C
  | cloneValue k i j => exact cloneValue_step H
  | cloneSmall k i j => exact cloneSmall_step H
  | assign k i j => exact yassign_step H
  | cloneFrom k i j i' => exact cloneFrom_step H
  | swapValues k i j i' => exact swapValues_step H
  | len k => exact yonVec_step H fun F O tb c x hc ht' h0 C => look_method C (len_agrees H.wf C.is)
  | typeId k => exact yonVec_step H fun F O tb c x hc ht' h0 C => look_method C (typeId_agrees H.wf C.is)
  | getAs k t i => exact yonVec_step H fun F O tb c x hc ht' h0 C => look_method C (getAs_agrees H.wf C.is i)
  | get k i => exact get_step H
  | asSlice k t => exact yonVec_step H fun F O tb c x hc ht' h0 C => look_method C (asSlice_agrees H.wf C.is)
  | iter k => exact yonVec_step H fun F O tb c x hc ht' h0 C => look_method C (iter_agrees H.wf C.is)

/-- Catching the panic of a call. -/
theorem dyn_caught {m : M (DSlots V × World U) Obs} {q : M (YVars × Outside U) Obs} {s : DSlots V × World U} {x : YVars × Outside U}
    (h : InStepY Γ (m s) (q x)) :
    InStep (fun a s b x => a = b ∧ YHolds Γ s.1 s.2 x.1 x.2) (fun _ _ => False) (m.caught s) (q.caught x) := by
  unfold M.caught
  rcases hq : q x with ⟨r, x'⟩
  rw [hq] at h
  cases r with
  | ok b => obtain ⟨a, s', h1, rfl, h2⟩ := h; simp only [h1, hq]; exact .ok ⟨rfl, h2⟩
  | panic z => obtain ⟨a, s', h1, h2⟩ := h; simp only [h1, hq]; exact .ok ⟨rfl, h2⟩
  | ub => rcases h3 : m s with ⟨r', s'⟩; rw [h3] at h; cases h; simp only [hq, h3]; exact .ub
  | abort => rcases h3 : m s with ⟨r', s'⟩; rw [h3] at h; cases h; simp only [hq, h3]; exact .abort

theorem dyn_run (htab : ∀ t, Tab Γ t (vt t)) (ops : List DOp) : ∀ {slots : DSlots V} {w : World U} {vars : YVars} {o : Outside U},
    YHolds Γ slots w vars o → (∀ op ∈ ops, op.IsTyped Γ) →
    InStep (fun a s b x => a = b ∧ YHolds Γ s.1 s.2 x.1 x.2) (fun _ _ => False) (runCaughtD Γ cfg vt ops (slots, w))
      (stepsCaught Γ cfg ops (vars, o)) := by
  induction ops with
  | nil => intro slots w vars o H _; exact .ok ⟨rfl, H⟩
  | cons op ops ih =>
    intro slots w vars o H ht
    refine InStep.bind (dyn_caught (dyn_step H (ht op (List.mem_cons_self ..)) htab)) (fun a s b x h => ?_) (fun _ _ h => h)
    obtain ⟨rfl, H1⟩ := h
    refine InStep.bind (ih H1 fun op h => ht op (List.mem_cons_of_mem _ h)) (fun a' s' b' x' h' => ?_) (fun _ _ h => h)
    obtain ⟨rfl, H2⟩ := h'
    exact .ok ⟨rfl, H2⟩

end
end Dync
