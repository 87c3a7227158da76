import Verif.Props.InPlaceDyn
/-!
# C95 Growing a container is amortised: no more room than twice what was needed

The capacity of a container after a program is the one it had before, or at most twice the number of elements that the
last call that changed it had to make room for (or eight, for a few small elements).
-/
namespace Dync
open Place
variable {U V : Type} {Γ : TyEnv U} {cfg : Cfg}

/-! ### `VecCopy` -/

section
variable {vt : V} {slots slots' : Slots V} {w w' : World U} {s : XState}

/-- The first call of a program, and the rest. -/
theorem runCaught_cons {op : Op} {ops : List Op} {os : List (Option Obs)} (he : runCaught Γ cfg vt (op :: ops) (slots, w) = (.ok os, (slots', w'))) :
    ∃ r slots1 w1 os1, op.exec Γ cfg vt (slots, w) = (r, (slots1, w1)) ∧ r ≠ .ub ∧ r ≠ .abort ∧
      runCaught Γ cfg vt ops (slots1, w1) = (.ok os1, (slots', w')) := by
  unfold runCaught at he
  rcases bind_inv he (by intro h; cases h) (by intro h; cases h) with ⟨o, ⟨slots1, w1⟩, e1, he⟩ | ⟨y, -, h⟩
  · rcases bind_inv he (by intro h; cases h) (by intro h; cases h) with ⟨os1, ⟨slots2, w2⟩, e2, he⟩ | ⟨y, -, h⟩
    · cases he
      rcases hx : op.exec Γ cfg vt (slots, w) with ⟨q, s1⟩
      have e1 : (match op.exec Γ cfg vt (slots, w) with
        | (.ok o, s') => ((.ok (some o), s') : Res (Option Obs) × (Slots V × World U))
        | (.panic _, s') => (.ok none, s')
        | (.ub, s') => (.ub, s')
        | (.abort, s') => (.abort, s')) = (.ok o, (slots1, w1)) := e1
      rw [hx] at e1
      cases q with
      | ub => cases e1
      | abort => cases e1
      | ok _ => cases e1; exact ⟨_, _, _, _, rfl, (by intro h; cases h), (by intro h; cases h), e2⟩
      | panic _ => cases e1; exact ⟨_, _, _, _, rfl, (by intro h; cases h), (by intro h; cases h), e2⟩
    · cases h
  · cases h

/-- A program with caught panics that does not assign a new container to variable `k`, and after which the container
has content: its capacity is what it was before the program, if no call changed it; and otherwise it is larger, and not
larger than twice the number of elements that the last such call had to make room for, or eight. -/
theorem C95_bounded {k n' cap' : Nat} {os : List (Option Obs)} (ops : List Op) (H : s.Holds Γ slots w.heap) (ht : ∀ op ∈ ops, op.Typed Γ)
    (hc : ∀ op ∈ ops, ¬ op.Creates k) (he : runCaught Γ cfg vt ops (slots, w) = (.ok os, (slots', w'))) (hk : heldBy slots' k = some (n', cap')) :
    ∃ n cap, heldBy slots k = some (n, cap) ∧ (growths Γ cfg vt k ops (slots, w) = [] ∧ cap' = cap ∨
      ∃ m need, (growths Γ cfg vt k ops (slots, w)).getLast? = some (m, need) ∧ 2 * cap ≤ cap' ∧ cap' ≤ max (2 * need) 8) := by
  induction ops generalizing s slots w os with
  | nil => cases he; exact ⟨_, _, hk, .inl ⟨rfl, rfl⟩⟩
  | cons op ops ih =>
    have ht' : ∀ o ∈ ops, o.Typed Γ := fun o h => ht o (List.mem_cons_of_mem _ h)
    have hc' : ∀ o ∈ ops, ¬ o.Creates k := fun o h => hc o (List.mem_cons_of_mem _ h)
    obtain ⟨r, slots1, w1, os1, e1, hr, ha, e2⟩ := runCaught_cons he
    obtain ⟨s1, H1⟩ := exec_holds H (ht op List.mem_cons_self) e1 hr
    obtain ⟨n1, cap1, hk1, hcap1⟩ := ih H1 ht' hc' e2
    obtain ⟨n, cap, h1, -, -, hcap⟩ := C95_step H (ht op List.mem_cons_self) (hc op List.mem_cons_self) e1 hr hk1
    refine ⟨n, cap, h1, ?_⟩
    have hg : growths Γ cfg vt k (op :: ops) (slots, w) =
        (if cap = cap1 then [] else [(n, op.needs n n1)]) ++ growths Γ cfg vt k ops (slots1, w1) := by
      show (match (op.exec Γ cfg vt (slots, w)).1 with | .ub | .abort => [] | _ => _) = _
      rw [e1]
      cases r with
      | ub => exact absurd rfl hr
      | abort => exact absurd rfl ha
      | ok _ => dsimp only; rw [h1, hk1]
      | panic _ => dsimp only; rw [h1, hk1]
    rw [hg]
    by_cases hcc : cap = cap1
    · subst hcc
      rw [if_pos rfl, List.nil_append]
      exact hcap1
    · rw [if_neg hcc]
      obtain ⟨h2, h3, h4⟩ := hcap.resolve_left (fun e => hcc e.symm)
      rcases hcap1 with ⟨g1, rfl⟩ | ⟨m, need, g1, g2, g3⟩
      · exact .inr ⟨_, _, by rw [g1]; rfl, h2, h4⟩
      · exact .inr ⟨m, need, by rw [List.getLast?_append, g1]; rfl, by omega, g3⟩

end

/-! ### `VecDyn` -/

section
variable [HasDrop U V] [HasClone U V] {vt : TyId → V} {slots slots' : DSlots V} {w w' : World U} {vars : YVars} {o : Outside U}

theorem runCaughtD_cons {op : DOp} {ops : List DOp} {os : List (Option Obs)} (he : runCaughtD Γ cfg vt (op :: ops) (slots, w) = (.ok os, (slots', w'))) :
    ∃ r slots1 w1 os1, op.exec Γ cfg vt (slots, w) = (r, (slots1, w1)) ∧ r ≠ .ub ∧ r ≠ .abort ∧
      runCaughtD Γ cfg vt ops (slots1, w1) = (.ok os1, (slots', w')) := by
  unfold runCaughtD at he
  rcases bind_inv he (by intro h; cases h) (by intro h; cases h) with ⟨o, ⟨slots1, w1⟩, e1, he⟩ | ⟨y, -, h⟩
  · rcases bind_inv he (by intro h; cases h) (by intro h; cases h) with ⟨os1, ⟨slots2, w2⟩, e2, he⟩ | ⟨y, -, h⟩
    · cases he
      rcases hx : op.exec Γ cfg vt (slots, w) with ⟨q, s1⟩
      unfold M.caught at e1
      dsimp only at e1
      rw [hx] at e1
      cases q with
      | ub => cases e1
      | abort => cases e1
      | ok _ => cases e1; exact ⟨_, _, _, _, rfl, (by intro h; cases h), (by intro h; cases h), e2⟩
      | panic _ => cases e1; exact ⟨_, _, _, _, rfl, (by intro h; cases h), (by intro h; cases h), e2⟩
    · cases h
  · cases h

/-- The same for `VecDyn`, with arbitrary user code. -/
theorem C95_vecdyn_bounded {k n' cap' : Nat} {os : List (Option Obs)} (ops : List DOp) (H : YHolds Γ slots w vars o) (ht : ∀ op ∈ ops, op.IsTyped Γ)
    (htab : ∀ t, Tab Γ t (vt t)) (hc : ∀ op ∈ ops, ¬ op.Creates k)
    (he : runCaughtD Γ cfg vt ops (slots, w) = (.ok os, (slots', w'))) (hk : dynHolding slots' k = some (n', cap')) :
    ∃ n cap, dynHolding slots k = some (n, cap) ∧ (dynGrowths Γ cfg vt k ops (slots, w) = [] ∧ cap' = cap ∨
      ∃ m need, (dynGrowths Γ cfg vt k ops (slots, w)).getLast? = some (m, need) ∧ 2 * cap ≤ cap' ∧ cap' ≤ max (2 * need) 8) := by
  induction ops generalizing vars o slots w os with
  | nil => cases he; exact ⟨_, _, hk, .inl ⟨rfl, rfl⟩⟩
  | cons op ops ih =>
    have ht' : ∀ o ∈ ops, o.IsTyped Γ := fun o h => ht o (List.mem_cons_of_mem _ h)
    have hc' : ∀ o ∈ ops, ¬ o.Creates k := fun o h => hc o (List.mem_cons_of_mem _ h)
    obtain ⟨r, slots1, w1, os1, e1, hr, ha, e2⟩ := runCaughtD_cons he
    have hs := C71_step (cfg := cfg) H (ht op List.mem_cons_self) htab
    obtain ⟨vars1, o1, H1⟩ : ∃ vars1 o1, YHolds Γ slots1 w1 vars1 o1 := by
      rw [e1] at hs
      rcases hst : op.step Γ cfg (vars, o) with ⟨q, vars1, o1⟩
      rw [hst] at hs
      cases q with
      | ok a => exact ⟨_, _, hs.2⟩
      | panic y => exact ⟨_, _, hs.2⟩
      | ub => exact absurd hs hr
      | abort => exact absurd hs ha
    obtain ⟨n1, cap1, hk1, hcap1⟩ := ih H1 ht' hc' e2
    obtain ⟨n, cap, h1, -, -, hcap⟩ := C95_vecdyn_step H (ht op List.mem_cons_self) htab (hc op List.mem_cons_self) e1 hr ha hk1
    refine ⟨n, cap, h1, ?_⟩
    have hg : dynGrowths Γ cfg vt k (op :: ops) (slots, w) =
        (if cap = cap1 then [] else [(n, op.needs n1)]) ++ dynGrowths Γ cfg vt k ops (slots1, w1) := by
      show (match (op.exec Γ cfg vt (slots, w)).1 with | .ub | .abort => [] | _ => _) = _
      rw [e1]
      cases r with
      | ub => exact absurd rfl hr
      | abort => exact absurd rfl ha
      | ok _ => dsimp only; rw [h1, hk1]
      | panic _ => dsimp only; rw [h1, hk1]
    rw [hg]
    by_cases hcc : cap = cap1
    · subst hcc
      rw [if_pos rfl, List.nil_append]
      exact hcap1
    · rw [if_neg hcc]
      obtain ⟨h2, h3, h4⟩ := hcap.resolve_left (fun e => hcc e.symm)
      rcases hcap1 with ⟨g1, rfl⟩ | ⟨m, need, g1, g2, g3⟩
      · exact .inr ⟨_, _, by rw [g1]; rfl, h2, h4⟩
      · exact .inr ⟨m, need, by rw [List.getLast?_append, g1]; rfl, by omega, g3⟩

end

/-! ### Examples -/

namespace Ex

/-- Two pushes onto three elements with capacity 4, all elements removed, room for 9 reserved, a refused push, an index
out of bounds (a panic). -/
def grown : List Op := [.pushAs 7 2 a1, .pushAs 7 2 a2, .clear 7, .reserve 7 9, .pushAs 7 4 (a1 ++ a2), .get 7 3]

theorem grown_growths : growths env ⟨true⟩ () 7 grown (slots123, world 2 4) = [(4, 5), (0, 9)] := by decide +kernel

theorem grown_typed : ∀ op ∈ grown, op.Typed env := by
  simp only [grown, List.forall_mem_cons]
  exact ⟨⟨typed 2 (by decide), by decide⟩, ⟨typed 2 (by decide), by decide⟩, trivial, trivial, ⟨typed 4 (by decide), by decide⟩, trivial, (fun _ h => by cases h)⟩

/-- After this program the capacity is 16: four times what it was, and less than twice nine. -/
theorem grown_runs : ∃ os slots' w', runCaught env ⟨true⟩ () grown (slots123, world 2 4) = (.ok os, (slots', w')) ∧
    heldBy slots' 7 = some (0, 16) := by
  refine ⟨_, _, _, rfl, ?_⟩; decide +kernel

example : ∃ os slots' w' n cap m need, runCaught env ⟨true⟩ () grown (slots123, world 2 4) = (.ok os, (slots', w')) ∧
    heldBy slots' 7 = some (n, cap) ∧ (growths env ⟨true⟩ () 7 grown (slots123, world 2 4)).getLast? = some (m, need) ∧ cap ≤ max (2 * need) 8 := by
  obtain ⟨os, slots', w', h, hk⟩ := grown_runs
  obtain ⟨n, cap, h1, h2⟩ := C95_bounded grown m123_holds grown_typed
    (by simp only [grown, List.forall_mem_cons]; exact ⟨id, id, id, id, id, id, (fun _ h => by cases h)⟩) h hk
  rcases h2 with ⟨g, -⟩ | ⟨m, need, g, -, g2⟩
  · rw [grown_growths] at g; cases g
  · exact ⟨os, slots', w', _, _, m, need, h, hk, g, g2⟩

/-- After the program of `Ex.dynPushes` it is 16 as well. -/
theorem dynPushes_runs : ∃ os slots' w', runCaughtD env ⟨true⟩ cloneVT dynPushes (slots3, world 7 4) = (.ok os, (slots', w')) ∧
    dynHolding slots' 3 = some (5, 16) ∧ os[3]? = some none := by
  refine ⟨[some .done, some .done, some .done, none, some .done], _, _, Prod.ext (y := (_, (_, _))) ?_ rfl, ?_, ?_⟩ <;> decide +kernel

example : ∃ os slots' w' n cap m need, runCaughtD env ⟨true⟩ cloneVT dynPushes (slots3, world 7 4) = (.ok os, (slots', w')) ∧
    dynHolding slots' 3 = some (n, cap) ∧ (dynGrowths env ⟨true⟩ cloneVT 3 dynPushes (slots3, world 7 4)).getLast? = some (m, need) ∧ cap ≤ max (2 * need) 8 := by
  obtain ⟨os, slots', w', h, hk, -⟩ := dynPushes_runs
  obtain ⟨n, cap, h1, h2⟩ := C95_vecdyn_bounded dynPushes vars3_holds dynPushes_typed tab
    (by simp only [dynPushes, List.forall_mem_cons]; exact ⟨id, id, id, id, id, (fun _ h => by cases h)⟩) h hk
  rcases h2 with ⟨g, -⟩ | ⟨m, need, g, -, g2⟩
  · rw [dynPushes_growths] at g; cases g
  · exact ⟨os, slots', w', _, _, m, need, h, hk, g, g2⟩

end Ex

end Dync
