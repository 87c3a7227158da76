import Verif.Interactive
import Verif.WholeSpec
import Verif.CopyWholeSpec
/-!
# Specification of programs that decide what to do next

The same programs on the machines of `WholeSpec` and `CopyWholeSpec`.
-/
namespace Dync
variable {U V H F : Type}

/-- The first steps of a program on the machine of C79. -/
def WOp.plays (Γ : TyEnv U) (cfg : Cfg) (Φ : UserFns U H F) (K : Formatting F) (p : Chooser (WOp U V H F) (WObs H F)) :
    Nat → List (Option (WObs H F)) → M (YVars × Outside U) (List (Option (WObs H F)))
  | 0, seen => pure seen
  | n + 1, seen =>
    match p seen with
    | none => pure seen
    | some c => do
      let o ← (c.step Γ cfg Φ K).caught
      plays Γ cfg Φ K p n (seen ++ [o])

/-- The steps the program takes are in the range of C75. -/
def WOp.PlayDescribed (Γ : TyEnv U) (cfg : Cfg) (Φ : UserFns U H F) (K : Formatting F) (p : Chooser (WOp U V H F) (WObs H F)) :
    Nat → List (Option (WObs H F)) → YVars × Outside U → Prop
  | 0, _, _ => True
  | n + 1, seen, s => ∀ c, p seen = some c → c.Described Γ cfg s.1 ∧
    ∀ o s', (c.step Γ cfg Φ K).caught s = (.ok o, s') → PlayDescribed Γ cfg Φ K p n (seen ++ [o]) s'

/-- How the first steps of a program end on the machine of C82: what it has seen, and the state; `none`: it is
undefined. -/
def POp.plays (Γ : TyEnv U) (cfg : Cfg) (p : Chooser POp (List Read)) :
    Nat → List (Option (List Read)) → XState → Option (List (Option (List Read)) × XState)
  | 0, seen, s => some (seen, s)
  | n + 1, seen, s =>
    match p seen with
    | none => some (seen, s)
    | some c =>
      match c.step Γ cfg s with
      | (.ok rs, s') => plays Γ cfg p n (seen ++ [some rs]) s'
      | (.panic, s') => plays Γ cfg p n (seen ++ [none]) s'
      | (.ub, _) => none

/-- The steps the program takes are in the range of C74. -/
def POp.PlayDescribed (Γ : TyEnv U) (cfg : Cfg) (p : Chooser POp (List Read)) : Nat → List (Option (List Read)) → XState → Prop
  | 0, _, _ => True
  | n + 1, seen, s => ∀ c, p seen = some c → c.Described Γ cfg s ∧
    match c.step Γ cfg s with
    | (.ok rs, s') => PlayDescribed Γ cfg p n (seen ++ [some rs]) s'
    | (.panic, s') => PlayDescribed Γ cfg p n (seen ++ [none]) s'
    | (.ub, _) => True

end Dync
