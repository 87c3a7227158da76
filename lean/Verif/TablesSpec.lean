import Verif.Tables
/-!
# Specification of table ownership

`Accounted s lost`: the live table boxes are exactly those of the containers and values in scope and the
`lost` ones, each counted once.  `losses` says, from the operations and their outcomes alone, how many tables
a program loses.
-/
namespace Dync
variable {τ U : Type}

/-- The tables of the containers and values in scope. -/
def TState.owned (s : TState τ U) : List Nat := s.owners.filterMap id

/-- The live boxes are those of the owners and the lost ones; no two of them are the same. -/
structure Accounted (s : TState τ U) (lost : List Nat) : Prop where
  nodup : (s.owned ++ lost).Nodup
  live : ∀ i, (s.tabs.live i).isSome ↔ i ∈ s.owned ++ lost
  bound : ∀ i ∈ s.owned ++ lost, i < s.tabs.next

/-- How many tables an operation loses, given its outcome: one if the destructor of an element panics while
a `VecDyn` or an owned value is destroyed, or if cloning or converting the table panics while an owned value
is upcast. -/
def TOp.losses : TOp U → Res Unit → Nat
  | dropDyn _ _, .panic _ => 1
  | upcastVal _, .panic _ => 1
  | push false _ _, .panic _ => 1
  | assign _ _, .panic _ => 1
  | _, _ => 0

/-- How many tables a program loses. -/
def totalLosses (ops : List (TOp U)) (outcomes : List (Res Unit)) : Nat := (List.zipWith TOp.losses ops outcomes).sum

/-- Tables are never changed: a table that existed before is gone or still the same, and no box of the past
is used again. -/
def TablesKept (s s' : TState τ U) : Prop :=
  s.tabs.next ≤ s'.tabs.next ∧ ∀ i, i < s.tabs.next → s'.tabs.live i = none ∨ s'.tabs.live i = s.tabs.live i

/-- Nothing exists yet. -/
def TState.start (u : U) : TState τ U := ⟨⟨0, fun _ => none⟩, [], u⟩

end Dync
