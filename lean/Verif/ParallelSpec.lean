import Verif.Parallel
import Verif.HeldViewsSpec
/-!
# Specification: every thread has its own lists

A thread alone, with a list for every view it owns and for every shared view.
-/
namespace Dync
variable {U V : Type}

/-- The program only reads. -/
def SProg.Reads : SProg → Prop
  | .skip | .get _ | .getAs _ _ | .iter | .asSlice _ => True
  | .seq p q | .split _ p q => p.Reads ∧ q.Reads
  | .sub _ p | .chunks _ p => p.Reads
  | _ => False

/-- What a thread does with lists; `sh` are the shared ones. -/
def TProg.plain (n : Nat) (sh : Lists) : TProg → M Lists (List (Option (List Read)))
  | stop => pure []
  | own p next => do
    let o ← (p.plain n).caught
    let os ← (next o).plain n sh
    pure (o :: os)
  | look k p next => do
    let o ← (match sh k with | none => pure [] | some (t, es) => M.lift (p.plain t es).1 : M Lists (List Read)).caught
    let os ← (next o).plain n sh
    pure (o :: os)

/-- The program is one for C85, whatever the thread sees: values have the size of their type, numbers are in range, shared views
are only read. -/
def TProg.Fits (Γ : TyEnv U) (cfg : Cfg) (n : Nat) (τ sh : Nat → Option (TyId × Nat)) : TProg → Prop
  | stop => True
  | own p next => p.Sized Γ ∧ p.InRange Γ cfg n τ ∧ ∀ o, (next o).Fits Γ cfg n τ sh
  | look k p next => p.Reads ∧ (∀ t m, sh k = some (t, m) → p.InRange cfg (Γ.size t)) ∧ ∀ o, (next o).Fits Γ cfg n τ sh

/-- The lists when all threads have ended. -/
def afterAll (owner : Nat → Option Nat) (σ : Lists) (P : Nat → TProg) (n : Nat) : Lists := fun k =>
  match owner k with
  | none => σ k
  | some i => ((P i).plain n (given owner none σ) (given owner (some i) σ)).2 k

end Dync
