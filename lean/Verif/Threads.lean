import Verif.Whole
/-!
# Programs of several threads

Threads take turns in any order; one turn is one call of the library, with its panic caught. The containers and
values of all threads live in one heap. User code (`Drop`, `Clone`, `PartialEq`, `Hash`, `Debug`) may keep state in
thread-local variables.

Simplified: a call is one atomic step. What a call does inside touches only the memory of the containers it is
called on (C76), the allocator and the state of user code.
-/
namespace Dync
variable {S U V H F α : Type}

/-- The state of user code: one store for each thread, and the thread that runs. -/
structure TLS (S : Type) where
  current : Nat
  store : Nat → S

/-- Code that works on the store of the thread that runs it. -/
def inThread (m : M S α) : M (TLS S) α :=
  M.zoom (fun x => x.store x.current) (fun s x => { x with store := fun j => if j = x.current then s else x.store j }) m

/-- The scheduler runs thread `i`. -/
def TLS.switch (i : Nat) (x : TLS S) : TLS S := { x with current := i }

namespace DOp

/-- Variables that a call uses through `&mut`, by value, or assigns to. -/
def writes : DOp → List Nat
  | withType k _ | withCapacity k _ _ | fromVec k _ _ | fromSlice k _ _ | withSize k _ _ _ | newBox k _ _
  | newSmall k _ _ | drop k | consume k _ | roundTrip k _ | pushAs k _ _ | resize k _ _ _ | fill k _ _ | clear k
  | rotateLeft k _ | rotateRight k _ | swap k _ _ | setAs k _ _ _ => [k]
  | clone _ j | cloneValue _ _ j | cloneSmall _ _ j => [j]
  | pushCloned k _ _ | cloneFrom k _ _ _ => [k]
  | append k j | pushBox k j | assign k _ j | swapValues k _ j _ => [k, j]
  | cloneIntoVec _ _ | len _ | typeId _ | getAs _ _ _ | get _ _ | asSlice _ _ | iter _ => []

/-- Variables that a call only uses through `&`. -/
def reads : DOp → List Nat
  | clone k _ | cloneValue k _ _ | cloneSmall k _ _ => [k]
  | pushCloned _ j _ | cloneFrom _ _ j _ => [j]
  | cloneIntoVec k _ | len k | typeId k | getAs k _ _ | get k _ | asSlice k _ | iter k => [k]
  | _ => []

end DOp

namespace WOp

/-- Variables that a step uses through `&mut`, by value, or assigns to. -/
def writes : WOp U V H F → List Nat
  | op d => d.writes
  | view k _ | check k _ | upcast k _ => [k]
  | typeFrom _ j => [j]
  | _ => []

/-- Variables that a step only uses through `&`. -/
def reads : WOp U V H F → List Nat
  | op d => d.reads
  | typeFrom k _ | hash k _ | hashAt k _ _ | fmt k _ | fmtAt k _ _ => [k]
  | eq k j | eqAt k _ j _ => [k, j]
  | _ => []

end WOp

variable [HasDrop (TLS S) V] [HasClone (TLS S) V] [HasEqFx (TLS S) V] [HasHashFx (TLS S) H V] [HasFmtFx (TLS S) F V]

/-- Threads run in the order of the list: thread `i` makes the call `c`. What they see is recorded. -/
def runThreads (Γ : TyEnv (TLS S)) (cfg : Cfg) (K : Formatting F) (vt : TyId → V) :
    List (Nat × WOp (TLS S) V H F) → M (DSlots V × World (TLS S)) (List (Nat × Option (WObs H F)))
  | [] => pure []
  | (i, c) :: rest => do
    M.modify fun s => (s.1, { s.2 with user := s.2.user.switch i })
    let o ← (c.exec Γ cfg K vt).caught
    let os ← runThreads Γ cfg K vt rest
    pure ((i, o) :: os)

/-- What thread `i` does in a schedule, or what it sees. -/
def ofThread (i : Nat) (xs : List (Nat × α)) : List α := (xs.filter fun x => x.1 == i).map (·.2)

end Dync
