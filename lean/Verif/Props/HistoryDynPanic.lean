import Verif.HistoryDynPanic
import Verif.Props.HistoryDyn
/-!
# Properties of programs over `VecDyn` containers and owned values that catch panics
-/
namespace Dync
variable {U V : Type} [HasDrop U V] [HasClone U V] {Γ : TyEnv U} {N : Nat} {slots : DSlots V} {s s' : DState}
  {cfg : Cfg} {vt : TyId → V} {w : World U} {u u' : U} {os : List (Option Obs)} {ops : List DOp}

theorem M.caught_ok_inv {σ α : Type} {m : M σ α} {q q' : σ} {o : Option α} (h : m.caught q = (.ok o, q')) :
    (∃ a, o = some a ∧ m q = (.ok a, q')) ∨ (o = none ∧ ∃ y, m q = (.panic y, q')) := by
  simp only [M.caught] at h
  rcases hm : m q with ⟨r, q1⟩
  rw [hm] at h
  cases r with
  | ok a => cases h; exact .inl ⟨a, rfl, rfl⟩
  | panic y => cases h; exact .inr ⟨rfl, y, rfl⟩
  | ub => cases h
  | abort => cases h

/-- Every program over `VecDyn` containers, boxed and inline untyped values in which every operation is
wrapped in `catch_unwind` sees exactly what it sees with plain `Vec<T>`s, `Box<T>`s and `T`s: the same
operations panic, the same calls of user code are made in the same order (also the destructors run while
unwinding), and the final state holds exactly the plain values. `Clone` code may panic at any call. -/
theorem C54_vecdyn_caught_history (hvt : ∀ t, LawfulDrop Γ t (vt t) ∧ LawfulClone Γ t (vt t)) (hq : Γ.QuietDrop)
    (I : DInv Γ N slots w.heap s) (hwt : ∀ op ∈ ops, op.WellTyped Γ)
    (hca : CatchableDOps Γ cfg N ops (s, w.user)) (hspec : specCaughtD Γ ops (s, w.user) = (.ok os, (s', u'))) :
    ∃ slots' h', runCaughtD Γ cfg vt ops (slots, w) = (.ok os, (slots', ⟨h', u'⟩)) ∧ DInv Γ N slots' h' s' := by
  induction ops generalizing slots s w os with
  | nil => cases hspec; exact ⟨slots, w.heap, rfl, I⟩
  | cons op ops ih =>
    obtain ⟨o, ⟨s1, u1⟩, h1, h2⟩ := M.bind_ok_inv hspec
    obtain ⟨os1, q, h4, h3⟩ := M.bind_ok_inv h2
    cases h3
    have hwt' : ∀ o ∈ ops, o.WellTyped Γ := fun o ho => hwt o (List.mem_cons_of_mem _ ho)
    rcases M.caught_ok_inv h1 with ⟨o', rfl, h0⟩ | ⟨rfl, y, h0⟩
    · obtain ⟨slots1, h1', hrun1, I1⟩ := dstep_ok (cfg := cfg) (vt := vt) op hvt I (hwt op (by simp)) hca.1 h0
      obtain ⟨slots2, h2', hrun2, I2⟩ := ih (w := ⟨h1', u1⟩) I1 hwt' (hca.2.1 _ _ h0) h4
      exact ⟨slots2, h2', by simp only [runCaughtD, M.bind_run, M.caught, hrun1, hrun2, M.pure_run], I2⟩
    · obtain ⟨hc, hca'⟩ := hca.2.2 _ _ h0
      obtain ⟨y', slots1, h1', hrun1, I1⟩ := dstep_panic (cfg := cfg) (vt := vt) op hvt hq I (hwt op (by simp)) hca.1 hc h0
      obtain ⟨slots2, h2', hrun2, I2⟩ := ih (w := ⟨h1', u1⟩) I1 hwt' hca' h4
      exact ⟨slots2, h2', by simp only [runCaughtD, M.bind_run, M.caught, hrun1, hrun2, M.pure_run], I2⟩

/-- After any program with caught panics every container in a variable is a usable vector of its type, in
a block of its own, and if all variables are empty no heap block is left. What is missing: the panics that
are not `Catchable` and destructors that panic. -/
theorem C45_vecdyn_history_partial (u : U) (hvt : ∀ t, LawfulDrop Γ t (vt t) ∧ LawfulClone Γ t (vt t))
    (hq : Γ.QuietDrop) (hwt : ∀ op ∈ ops, op.WellTyped Γ) (hca : CatchableDOps Γ cfg N ops (fun _ => none, u))
    (hspec : specCaughtD Γ ops (fun _ => none, u) = (.ok os, (s', u'))) :
    ∃ slots' h', runCaughtD Γ cfg vt ops ((fun _ => none), ⟨Heap.empty, u⟩) = (.ok os, (slots', ⟨h', u'⟩)) ∧
      (∀ k c, slots' k = some (.vec c) → ∃ t es, s' k = some (.vec t es) ∧ Repr Γ h' t es c.data) ∧
      (∀ k k' i, ownedPtr (slots' k) = some i → ownedPtr (slots' k') = some i → k = k') ∧
      ((∀ k, s' k = none) → ∀ i, h'.live i = none) := by
  obtain ⟨slots', h', hrun, I⟩ := C54_vecdyn_caught_history (cfg := cfg) (w := ⟨Heap.empty, u⟩) hvt hq (dhistory_start Γ N)
    hwt hca hspec
  refine ⟨slots', h', hrun, fun k c hc => ?_, I.inj, fun he i => ?_⟩
  · have := I.ok k
    rw [hc] at this
    rcases hs : s' k with _ | ⟨t, es⟩ | _ | _ <;> rw [hs] at this
    · exact this.elim
    · exact ⟨t, es, rfl, this.1⟩
    · exact this.elim
    · exact this.elim
  · cases hl : h'.live i with
    | none => rfl
    | some l =>
      obtain ⟨k, hk⟩ := I.owned i l hl
      rw [I.empty (k := k) (he k)] at hk
      cases hk

/-! ### An example program -/

/-- The example types with destructors that only log. -/
def Ex.quietEnv : TyEnv Ex.Log := { Ex.env with drop := fun t x => M.modify fun l => l ++ [.dropped t x] }

theorem Ex.quietEnv_quiet : Ex.quietEnv.QuietDrop := fun t x u => ⟨u ++ [.dropped t x], rfl⟩

/-- Words (type 7), one of which cannot be cloned, and strings (type 10). -/
def Ex.cprog : List DOp :=
  [.withType 0 7, .pushAs 0 7 g1, .pushAs 0 7 g2, .pushAs 0 7 badClone, .cloneIntoVec 0 7, .get 0 5, .fromSlice 1 7 [g1, badClone, g2],
   .withSize 1 7 3 badClone, .resize 0 7 5 badClone, .fill 0 7 badClone, .cloneValue 0 2 2, .cloneValue 0 1 2, .cloneFrom 2 0 0 2,
   .newSmall 3 7 badClone, .clone 3 4, .assign 0 7 3, .swap 0 0 9, .swapValues 0 9 2 0, .setAs 0 7 4 g1, .getAs 0 7 3, .pushCloned 0 2 0,
   .asSlice 0 7, .drop 0, .drop 2, .drop 3]

theorem Ex.cprog_typed : ∀ op ∈ Ex.cprog, op.WellTyped Ex.quietEnv := by
  simp only [Ex.cprog, List.forall_mem_cons, DOp.WellTyped, List.not_mem_nil, false_implies, implies_true, and_true, true_and]
  decide

theorem CatchableDOps.returns {op : DOp} {o : Obs} {q1 q : DState × U} (h : op.Supported Γ N q.1)
    (hs : op.spec Γ q = (.ok o, q1)) (hr : CatchableDOps Γ cfg N ops q1) : CatchableDOps Γ cfg N (op :: ops) q :=
  ⟨h, (fun o' s' h' => by rw [hs] at h'; cases h'; exact hr), (fun y s' h' => by rw [hs] at h'; cases h')⟩

theorem CatchableDOps.panics {op : DOp} {y : Why} {q1 q : DState × U} (h : op.Supported Γ N q.1)
    (hs : op.spec Γ q = (.panic y, q1)) (hc : op.Catchable Γ cfg q.1) (hr : CatchableDOps Γ cfg N ops q1) :
    CatchableDOps Γ cfg N (op :: ops) q :=
  ⟨h, (fun o' s' h' => by rw [hs] at h'; cases h'), (fun y' s' h' => by rw [hs] at h'; cases h'; exact ⟨hc, hr⟩)⟩

theorem Ex.cprog_catchable : CatchableDOps Ex.quietEnv ⟨true⟩ 20 Ex.cprog (fun _ => none, []) := by
  have r7 : Room Ex.quietEnv 7 (4 * 20 + 16) := by unfold Room; decide
  have hi : ∀ s k i, DState.IndexOk Ex.quietEnv ⟨true⟩ s k i := fun s k i t es _ => .inl rfl
  repeat' first
    | refine CatchableDOps.panics ?_ rfl ?_ ?_
    | refine CatchableDOps.returns ?_ rfl ?_
  all_goals first
    | exact trivial
    | exact r7
    | exact hi _ _ _
    | exact ⟨hi _ _ _, hi _ _ _⟩
    | exact ⟨by decide, hi _ _ _, hi _ _ _⟩
    | exact ⟨by decide, r7⟩
    | (intro es h; exact absurd (SItem.vec.inj (Option.some.inj h)).1 (by decide))
    | (intro es h; cases h; decide)
    | (intro es h; cases h; unfold Op.Supported.Odd; decide)
    | (intro t h; cases h; decide)
    | (intro t es h; exact SItem.noConfusion (Option.some.inj h))
    | (intro t es h h'; cases h; unfold Op.Supported.Odd; decide)

def Ex.cprogObs : List (Option Obs) :=
  match (specCaughtD Ex.quietEnv Ex.cprog (fun _ => none, [])).1 with
  | .ok os => os
  | _ => []
def Ex.cprogLog : Ex.Log := (specCaughtD Ex.quietEnv Ex.cprog (fun _ => none, [])).2.2

theorem Ex.cprog_result :
    specCaughtD Ex.quietEnv Ex.cprog (fun _ => none, []) = (.ok Ex.cprogObs, (fun _ => none, Ex.cprogLog)) := by
  refine Prod.ext rfl (Prod.ext ?_ rfl)
  funext k
  match k with
  | 0 | 1 | 2 | 3 | 4 => rfl
  | k + 5 => rfl

example : Ex.cprogObs.length = 25 ∧ (Ex.cprogObs.filter Option.isNone).length = 14 ∧ Ex.cprogLog.length = 17 := ⟨rfl, rfl, rfl⟩

theorem Ex.quietVT_lawful (t : TyId) : LawfulDrop Ex.quietEnv t (CloneVTable.build Ex.quietEnv t) ∧
    LawfulClone Ex.quietEnv t (CloneVTable.build Ex.quietEnv t) :=
  ⟨lawfulDrop_of rfl, lawfulClone_of rfl rfl rfl⟩

example := C54_vecdyn_caught_history (cfg := ⟨true⟩) (w := ⟨Heap.empty, []⟩) Ex.quietVT_lawful Ex.quietEnv_quiet
  (dhistory_start Ex.quietEnv 20) Ex.cprog_typed Ex.cprog_catchable Ex.cprog_result
example := C45_vecdyn_history_partial (cfg := ⟨true⟩) [] Ex.quietVT_lawful Ex.quietEnv_quiet Ex.cprog_typed
  Ex.cprog_catchable Ex.cprog_result

end Dync
