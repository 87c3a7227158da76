import Verif.OwnStep3
/-!
# Helper lemmas: whole programs
-/
namespace Dync
variable {U V : Type} {Γ : TyEnv (Ledger U)} {S : Values Γ} {cfg : Cfg} {vt : TyId → V}
variable [HasDrop (Ledger U) V] [HasClone (Ledger U) V]
variable {K : Nat} {s : DSlots V × World (Ledger U)}

theorem NoUb.caught {σ α : Type} {m : M σ α} {s : σ} {Q : α → σ → Prop} {E : σ → Prop} (h : NoUb m s Q E) :
    NoUb m.caught s (fun o s' => (∀ a, o = some a → Q a s') ∧ (o = none → E s')) (fun _ => False) := by
  unfold NoUb M.caught at *
  rcases hm : m s with ⟨_ | _ | _ | _, s'⟩ <;> simp only [hm] at h ⊢
  · exact ⟨by rintro _ ⟨⟩; exact h, by rintro ⟨⟩⟩
  · exact ⟨by rintro _ ⟨⟩, fun _ => h⟩

theorem runCaughtD_own (A : Acct Γ S) (T : ∀ t, Tab Γ t (vt t)) (ops : List DOp) (hK : ∀ op ∈ ops, ∀ k ∈ op.vars, k < K) (s : DSlots V × World (Ledger U))
    (D : DSafe Γ S s.1 s.2.heap) (ho : SafeAlong Γ S cfg vt ops s) :
    SeenAlong Γ S cfg vt ops s ∧
    NoUb (runCaughtD Γ cfg vt ops) s (fun _ s' => Stepped Γ S K s (passedAlong Γ cfg vt ops s) s') (fun _ => False) := by
  induction ops generalizing s with
  | nil => exact ⟨trivial, NoUb.pure (Stepped.refl D K [])⟩
  | cons op ops ih =>
    have h1 := (DOp.exec_own (K := K) A T D op (hK op (by simp)) ho.1).caught
    have step : ∀ o s', (op.exec Γ cfg vt).caught s = (.ok o, s') → Stepped Γ S K s (op.passed s.1) s' ∧ ∀ r, o = some r → op.Seen S s.1 r := by
      intro o s' e
      rw [NoUb, e] at h1
      cases o with
      | none => exact ⟨h1.2 rfl, by rintro _ ⟨⟩⟩
      | some o => exact ⟨(h1.1 o rfl).1, by rintro _ ⟨⟩; exact (h1.1 o rfl).2⟩
    have ih' := fun s' => ih (fun op h => hK op (by simp [h])) s'
    constructor
    · intro o s' e
      exact ⟨(step o s' e).2, (ih' s' (step o s' e).1.safe (ho.2 o s' e)).1⟩
    · have h2 : NoUb (op.exec Γ cfg vt).caught s (fun o s' => (op.exec Γ cfg vt).caught s = (.ok o, s')) (fun _ => False) := by
        unfold NoUb at h1 ⊢
        rcases hm : (op.exec Γ cfg vt).caught s with ⟨_ | _ | _ | _, s'⟩
        · rfl
        all_goals (rw [hm] at h1; first | exact h1 | trivial)
      unfold runCaughtD
      refine NoUb.bind h2 ?_
      intro o s1 e
      obtain ⟨h3, -⟩ := step o s1 e
      refine NoUb.bind (ih' s1 h3.safe (ho.2 o s1 e)).2 ?_
      intro os s2 h4
      refine NoUb.pure ⟨h4.safe, ?_⟩
      intro a
      have e1 := h3.own a
      have e2 := h4.own a
      simp only [passedAlong, e, List.count_append] at e1 e2 ⊢
      omega

/-- Fewer variables hold fewer values. -/
theorem live_mono (s : DSlots V) {K L : Nat} (h : K ≤ L) (a : Obj) : (DSlots.live K s).count a ≤ (DSlots.live L s).count a := by
  induction h with
  | refl => exact Nat.le_refl _
  | step _ ih =>
    unfold DSlots.live at ih ⊢
    rw [List.range_succ, List.flatMap_append, List.count_append]
    omega

theorem Quiet.ledger {Γ : TyEnv U} {S : Values Γ} {t : TyId} (h : Quiet Γ S t) : Quiet Γ.ledger S.ledger t := by
  intro x l hx
  obtain ⟨u', e⟩ := h x l.user hx
  exact ⟨⟨u', l.born, l.dead ++ [(t, x)]⟩, by simp [TyEnv.ledger, TyEnv.ledgerDrop, TyEnv.ledgerUser, M.bind_run, M.modify_run, M.zoom_run, e]⟩

end Dync
