import Verif.Threads
import Verif.Safety
/-!
# Programs that decide what to do next

The programs of `Whole`, `Safety` and `Threads` are lists of steps. Here a program chooses every step from what its
earlier steps have shown, and it may go on forever; `play` runs its first `n` steps. This models no code in /repo, but the
programs that use it; every step is one of `WOp.exec` (src/vec_dyn.rs, src/value.rs, src/slice.rs) or `POp.exec`
(src/vec_copy.rs, src/slice_copy.rs).
-/
namespace Dync
variable {S U V H F : Type}

/-- A program: its next step, given what its steps have shown so far (`none`: a caught panic); no step: it has
ended. -/
abbrev Chooser (α β : Type) := List (Option β) → Option α

/-- The first steps of a program over `VecDyn` and values that has seen `seen`; the result is all it has seen then. -/
def WOp.play [HasDrop U V] [HasClone U V] [HasEqFx U V] [HasHashFx U H V] [HasFmtFx U F V] (Γ : TyEnv U) (cfg : Cfg)
    (K : Formatting F) (vt : TyId → V) (p : Chooser (WOp U V H F) (WObs H F)) :
    Nat → List (Option (WObs H F)) → M (DSlots V × World U) (List (Option (WObs H F)))
  | 0, seen => pure seen
  | n + 1, seen =>
    match p seen with
    | none => pure seen
    | some c => do
      let o ← (c.exec Γ cfg K vt).caught
      play Γ cfg K vt p n (seen ++ [o])

/-- The first steps of a program over `VecCopy`. -/
def POp.play (Γ : TyEnv U) (cfg : Cfg) (vt : V) (p : Chooser POp (List Read)) :
    Nat → List (Option (List Read)) → M (Slots V × World U) (List (Option (List Read)))
  | 0, seen => pure seen
  | n + 1, seen =>
    match p seen with
    | none => pure seen
    | some c => do
      let o ← (c.exec Γ cfg vt).caught
      play Γ cfg vt p n (seen ++ [o])

/-- Several threads, each with a program of its own that decides from what this thread has seen. They take turns in the
order of the list; a thread that has ended lets its turn pass. -/
def playThreads [HasDrop (TLS S) V] [HasClone (TLS S) V] [HasEqFx (TLS S) V] [HasHashFx (TLS S) H V] [HasFmtFx (TLS S) F V]
    (Γ : TyEnv (TLS S)) (cfg : Cfg) (K : Formatting F) (vt : TyId → V) (p : Nat → Chooser (WOp (TLS S) V H F) (WObs H F)) :
    List Nat → (Nat → List (Option (WObs H F))) → M (DSlots V × World (TLS S)) (Nat → List (Option (WObs H F)))
  | [], seen => pure seen
  | i :: rest, seen =>
    match p i (seen i) with
    | none => playThreads Γ cfg K vt p rest seen
    | some c => do
      M.modify fun s => (s.1, { s.2 with user := s.2.user.switch i })
      let o ← (c.exec Γ cfg K vt).caught
      playThreads Γ cfg K vt p rest fun j => if j = i then seen j ++ [o] else seen j

end Dync
