import Verif.LedgerSim
import Verif.Props.HistoryDynPanic
/-!
# Properties: every value is owned by exactly one place until it is dropped
-/
namespace Dync
variable {U V : Type} [HasDrop (Ledger U) V] [HasClone (Ledger U) V] {Γ : TyEnv U} {N K : Nat} {s s' : DState}
  {cfg : Cfg} {vt : TyId → V} {u u' : U} {os : List (Option Obs)} {ops : List DOp} {l l' : Ledger U}

/-! ### The ledger does not change the program -/

theorem ledger_wellTyped {op : DOp} (h : op.WellTyped Γ) : op.WellTyped Γ.ledger := by
  cases op <;> exact h

theorem ledger_supported {op : DOp} (h : op.Supported Γ N s) : op.Supported Γ.ledger N s := by
  cases op <;> exact h

theorem ledger_catchable {op : DOp} (h : op.Catchable Γ cfg s) : op.Catchable Γ.ledger cfg s := by
  cases op <;> exact h

theorem ledger_quiet (h : Γ.QuietDrop) : Γ.ledger.QuietDrop := by
  intro t x l
  obtain ⟨u', hu⟩ := h t x l.user
  have := ledger_drop_sim (Γ := Γ) t x l
  simp only [forget] at this
  rw [hu] at this
  rcases hd : Γ.ledger.drop t x l with ⟨r, l'⟩
  rw [hd] at this
  cases this
  exact ⟨l', rfl⟩

theorem ledger_catchableOps (h : CatchableDOps Γ cfg N ops (s, l.user)) : CatchableDOps Γ.ledger cfg N ops (s, l) := by
  induction ops generalizing s l with
  | nil => trivial
  | cons op ops ih =>
    obtain ⟨h1, h2, h3⟩ := h
    refine ⟨ledger_supported h1, ?_, ?_⟩
    · rintro o ⟨s', l'⟩ hs
      have := dstep_sim (Γ := Γ) op (s, l)
      rw [hs] at this
      exact ih (h2 _ _ this)
    · rintro y ⟨s', l'⟩ hs
      have := dstep_sim (Γ := Γ) op (s, l)
      rw [hs] at this
      exact ⟨ledger_catchable (h3 _ _ this).1, ih (h3 _ _ this).2⟩

theorem M.caught_sim {σ τ α : Type} {π : σ → τ} {m : M σ α} {m' : M τ α} (h : Sim π m m') : Sim π m.caught m'.caught := by
  intro s
  have h1 := h s
  rcases hm : m s with ⟨r, s1⟩
  rw [hm] at h1
  cases r <;> simp only [M.caught, hm, h1]

theorem ledger_specCaught_sim : Sim forget2 (specCaughtD Γ.ledger ops) (specCaughtD Γ ops) := by
  induction ops with
  | nil => exact Sim.pure
  | cons op ops ih => exact (M.caught_sim (dstep_sim op)).bind fun _ => ih.bind fun _ => Sim.pure

/-- On plain values: what is dropped or held is what was passed in or cloned. -/
theorem spec_conserves (hK : ∀ op ∈ ops, ∀ k ∈ op.vars, k < K)
    (h : specCaughtD Γ.ledger ops (s, l) = (.ok os, (s', l'))) (a : Obj) :
    total a K (s', l') = total a K (s, l) + ((givenDOps Γ ops (s, l.user)).count a : Nat) := by
  induction ops generalizing s l os with
  | nil => cases h; simp [givenDOps]
  | cons op ops ih =>
    obtain ⟨o, ⟨s1, l1⟩, h1, h2⟩ := M.bind_ok_inv h
    obtain ⟨os1, q, h4, h3⟩ := M.bind_ok_inv h2
    cases h3
    have e2 := ih (fun o ho => hK o (List.mem_cons_of_mem _ ho)) h4
    have hsim := M.caught_sim (dstep_sim (Γ := Γ) op) (s, l)
    rw [h1] at hsim
    have e0 : ((op.spec Γ).caught (s, l.user)).2 = (s1, l1.user) := congrArg Prod.snd hsim
    have e1 : total a K (s1, l1) = total a K (s, l) + ((op.given s).count a : Nat) := by
      rcases M.caught_ok_inv h1 with ⟨o', rfl, h0⟩ | ⟨rfl, y, h0⟩
      · exact dstep_total op (hK op (by simp)) h0 caught_ok
      · exact dstep_total op (hK op (by simp)) h0 caught_panic
    simp only [givenDOps, e0, List.count_append]
    omega

theorem spec_conserves_perm (hK : ∀ op ∈ ops, ∀ k ∈ op.vars, k < K)
    (h : specCaughtD Γ.ledger ops (s, l) = (.ok os, (s', l'))) (hs : ∀ k, s k = none) (hb : l.born = []) (hd : l.dead = []) :
    (l'.dead ++ s'.live K).Perm (givenDOps Γ ops (s, l.user) ++ l'.born) := by
  rw [List.perm_iff_count]
  intro a
  have := spec_conserves hK h a
  have e0 : DState.cnt a K s = 0 := by
    clear hK h this
    induction K with
    | zero => rfl
    | succ K ih => simp only [DState.cnt, ih, hs, cntO]; rfl
  have e1 := DState.live_count (a := a) K s'
  simp only [total, Ledger.net, hb, hd, List.count_nil, e0] at this
  simp only [List.count_append]
  omega

/-- A program uses finitely many variables. -/
theorem dops_bound (ops : List DOp) : ∃ K, ∀ op ∈ ops, ∀ k ∈ op.vars, k < K := by
  induction ops with
  | nil => exact ⟨0, by simp⟩
  | cons op ops ih =>
    obtain ⟨K, hK⟩ := ih
    refine ⟨max K (op.vars.foldr max 0 + 1), ?_⟩
    intro o ho k hk
    rcases List.mem_cons.1 ho with rfl | ho
    · have : ∀ (xs : List Nat), k ∈ xs → k ≤ xs.foldr max 0 := by
        intro xs
        induction xs with
        | nil => simp
        | cons x xs ih =>
          intro h
          rcases List.mem_cons.1 h with rfl | h
          · simp only [List.foldr_cons]; omega
          · have := ih h; simp only [List.foldr_cons]; omega
      have := this _ hk
      omega
    · have := hK o ho k hk; omega

/-! ### C55 -/

/-- In every program over `VecDyn` containers and owned untyped values, with panics in `Clone` code caught
at any operation, no value is lost or duplicated: the values whose destructor ran, together with those the
variables still hold, are exactly (as a multiset) the values passed in by value together with those made
by `Clone`. Recording this does not change what the program sees or what user code does. -/
theorem C55_vecdyn_values_conserved (u : U)
    (hvt : ∀ t, LawfulDrop Γ.ledger t (vt t) ∧ LawfulClone Γ.ledger t (vt t)) (hq : Γ.QuietDrop)
    (hwt : ∀ op ∈ ops, op.WellTyped Γ) (hK : ∀ op ∈ ops, ∀ k ∈ op.vars, k < K)
    (hca : CatchableDOps Γ cfg N ops (fun _ => none, u))
    (hspec : specCaughtD Γ ops (fun _ => none, u) = (.ok os, (s', u'))) :
    ∃ slots' h' l', runCaughtD Γ.ledger cfg vt ops ((fun _ => none), ⟨Heap.empty, .start u⟩) = (.ok os, (slots', ⟨h', l'⟩)) ∧
      DInv Γ.ledger N slots' h' s' ∧ l'.user = u' ∧
      (l'.dead ++ s'.live K).Perm (givenDOps Γ ops (fun _ => none, u) ++ l'.born) := by
  have hsim := ledger_specCaught_sim (Γ := Γ) (ops := ops) ((fun _ => none), Ledger.start u)
  rcases hl : specCaughtD Γ.ledger ops ((fun _ => none), Ledger.start u) with ⟨r, s1, l1⟩
  rw [hl] at hsim
  simp only [forget2, Ledger.start] at hsim
  rw [hspec] at hsim
  cases hsim
  obtain ⟨slots', h', hrun, I⟩ := C54_vecdyn_caught_history (cfg := cfg) (w := ⟨Heap.empty, .start u⟩) hvt (ledger_quiet hq)
    (dhistory_start Γ.ledger N) (fun op ho => ledger_wellTyped (hwt op ho)) (ledger_catchableOps (l := .start u) hca) hl
  exact ⟨slots', h', l1, hrun, I, rfl, spec_conserves_perm hK hl (fun _ => rfl) rfl rfl⟩

/-- No value is dropped more often than it was passed in or cloned, in no program. What is missing:
destructors that panic, and the panics that are not `Catchable`. -/
theorem C17_vecdyn_history_partial (u : U)
    (hvt : ∀ t, LawfulDrop Γ.ledger t (vt t) ∧ LawfulClone Γ.ledger t (vt t)) (hq : Γ.QuietDrop)
    (hwt : ∀ op ∈ ops, op.WellTyped Γ) (hca : CatchableDOps Γ cfg N ops (fun _ => none, u))
    (hspec : specCaughtD Γ ops (fun _ => none, u) = (.ok os, (s', u'))) :
    ∃ slots' h' l', runCaughtD Γ.ledger cfg vt ops ((fun _ => none), ⟨Heap.empty, .start u⟩) = (.ok os, (slots', ⟨h', l'⟩)) ∧
      ∀ a, l'.dead.count a ≤ (givenDOps Γ ops (fun _ => none, u)).count a + l'.born.count a := by
  obtain ⟨K, hK⟩ := dops_bound ops
  obtain ⟨slots', h', l', hrun, -, -, hp⟩ := C55_vecdyn_values_conserved (cfg := cfg) u hvt hq hwt hK hca hspec
  refine ⟨slots', h', l', hrun, fun a => ?_⟩
  have := hp.count_eq a
  simp only [List.count_append] at this
  omega

/-- At the end of a program that has dropped or consumed all its variables every value that was passed in
or cloned was dropped exactly once and no memory is left. -/
theorem C18_vecdyn_history_values_partial (u : U)
    (hvt : ∀ t, LawfulDrop Γ.ledger t (vt t) ∧ LawfulClone Γ.ledger t (vt t)) (hq : Γ.QuietDrop)
    (hwt : ∀ op ∈ ops, op.WellTyped Γ) (hK : ∀ op ∈ ops, ∀ k ∈ op.vars, k < K)
    (hca : CatchableDOps Γ cfg N ops (fun _ => none, u))
    (hspec : specCaughtD Γ ops (fun _ => none, u) = (.ok os, (fun _ => none, u'))) :
    ∃ slots' h' l', runCaughtD Γ.ledger cfg vt ops ((fun _ => none), ⟨Heap.empty, .start u⟩) = (.ok os, (slots', ⟨h', l'⟩)) ∧
      l'.dead.Perm (givenDOps Γ ops (fun _ => none, u) ++ l'.born) ∧ ∀ i, h'.live i = none := by
  obtain ⟨slots', h', l', hrun, I, -, hp⟩ := C55_vecdyn_values_conserved (cfg := cfg) u hvt hq hwt hK hca hspec
  refine ⟨slots', h', l', hrun, ?_, fun i => ?_⟩
  · have : (DState.live K fun _ => none) = [] := by simp [DState.live]
    rw [this, List.append_nil] at hp
    exact hp
  · cases hl : h'.live i with
    | none => rfl
    | some l =>
      obtain ⟨k, hk⟩ := I.owned i l hl
      rw [I.empty (k := k) rfl] at hk
      cases hk

/-! ### The example program -/

theorem Ex.ledgerVT_lawful (t : TyId) : LawfulDrop Ex.quietEnv.ledger t (CloneVTable.build Ex.quietEnv.ledger t) ∧
    LawfulClone Ex.quietEnv.ledger t (CloneVTable.build Ex.quietEnv.ledger t) :=
  ⟨lawfulDrop_of rfl, lawfulClone_of rfl rfl rfl⟩

theorem Ex.cprog_vars : ∀ op ∈ Ex.cprog, ∀ k ∈ op.vars, k < 5 := by decide

example := C55_vecdyn_values_conserved (cfg := ⟨true⟩) [] Ex.ledgerVT_lawful Ex.quietEnv_quiet Ex.cprog_typed
  Ex.cprog_vars Ex.cprog_catchable Ex.cprog_result
example := C17_vecdyn_history_partial (cfg := ⟨true⟩) [] Ex.ledgerVT_lawful Ex.quietEnv_quiet Ex.cprog_typed
  Ex.cprog_catchable Ex.cprog_result
example := C18_vecdyn_history_values_partial (cfg := ⟨true⟩) [] Ex.ledgerVT_lawful Ex.quietEnv_quiet Ex.cprog_typed
  Ex.cprog_vars Ex.cprog_catchable Ex.cprog_result
/-- The example passes values in and clones some. -/
example : (givenDOps Ex.quietEnv Ex.cprog (fun _ => none, [])).length = 7 ∧
    (specCaughtD Ex.quietEnv.ledger Ex.cprog ((fun _ => none), Ledger.start [])).2.2.born.length = 6 := by decide

end Dync
