import Verif.ThreadsSpec
/-!
# Specification: schedules that differ in the order of calls which do not conflict

Threads may hand containers to each other and share them in any way. Two turns conflict if they are of one thread or
one of them writes a variable that the other one uses.
-/
namespace Dync
variable {S V H F : Type}

/-- A turn: a thread and the call it makes. -/
abbrev Turn (S V H F : Type) := Nat × WOp (TLS S) V H F

/-- Two turns whose order matters. -/
def Conflict (x y : Turn S V H F) : Prop :=
  x.1 = y.1 ∨ ∃ k, k ∈ x.2.writes ∧ (k ∈ y.2.writes ∨ k ∈ y.2.reads) ∨ k ∈ x.2.reads ∧ k ∈ y.2.writes

/-- The same turns in another order, in which turns that conflict come in the same order. Turns get different
numbers, so that it is known which is which. -/
def SameConflicts (xs ys : List (Turn S V H F)) : Prop :=
  ∃ l l' : List (Nat × Turn S V H F), l'.Perm l ∧ (l.map Prod.fst).Nodup ∧ l.map Prod.snd = xs ∧ l'.map Prod.snd = ys ∧
    ∀ a b, List.Sublist [a, b] l → Conflict a.2 b.2 → List.Sublist [a, b] l'

/-- One turn on the machine of C79. -/
def Turn.step (Γ : TyEnv (TLS S)) (cfg : Cfg) (Φ : UserFns (TLS S) H F) (K : Formatting F) (x : Turn S V H F) :
    M (YVars × Outside (TLS S)) (Option (WObs H F)) := ⟨fun s =>
  (x.2.step Γ cfg Φ K).caught (s.1, { s.2 with user := s.2.user.switch x.1 })⟩

/-- All turns of a schedule on the machine of C79. -/
def stepTurns (Γ : TyEnv (TLS S)) (cfg : Cfg) (Φ : UserFns (TLS S) H F) (K : Formatting F) :
    List (Turn S V H F) → M (YVars × Outside (TLS S)) (List (Nat × Option (WObs H F)))
  | [] => pure []
  | x :: xs => do
    let o ← x.step Γ cfg Φ K
    let os ← stepTurns Γ cfg Φ K xs
    pure ((x.1, o) :: os)

/-- The steps are in the range of C75 when they are run. -/
def TurnsDescribed (Γ : TyEnv (TLS S)) (cfg : Cfg) (Φ : UserFns (TLS S) H F) (K : Formatting F) :
    List (Turn S V H F) → YVars × Outside (TLS S) → Prop
  | [], _ => True
  | x :: xs, s => x.2.Described Γ cfg s.1 ∧ ∀ o s', x.step Γ cfg Φ K s = (.ok o, s') → TurnsDescribed Γ cfg Φ K xs s'

/-- The same state but for the thread that ran last. -/
structure SameBut (s s' : YVars × Outside (TLS S)) : Prop where
  vars : s.1 = s'.1
  leaked : s.2.leaked = s'.2.leaked
  store : s.2.user.store = s'.2.user.store

end Dync
