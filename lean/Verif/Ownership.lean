import Verif.NoUb
import Verif.SafetySlice2
import Verif.HistoryDynPanic
/-!
# Specification: who owns which value in programs over `VecDyn`, `BoxValue` and `SmallValue`

The programs are those of `HistoryDyn`, with every panic caught, here without the restrictions made
there: any sizes and indices, any user code (destructors and `Clone` may panic at any call).
-/
namespace Dync
variable {U V : Type}

/-- The values a variable holds, each with its type. -/
def Item.objs : Item V → List Obj
  | .vec c => Dync.objs c.elementTypeId (chunks c.data.elem.numBytes c.data.mem)
  | .box v => [(v.type_id, v.bytes.bytes)]
  | .small v => [(v.type_id, v.bytes.bytes)]

/-- The values held by the variables below `K`. -/
def DSlots.live (K : Nat) (s : DSlots V) : List Obj := (List.range K).flatMap fun k => ((s k).map Item.objs).getD []

/-- A destructor that returns for every value of the type. -/
def Quiet (Γ : TyEnv U) (S : Values Γ) (t : TyId) : Prop := ∀ x u, S.valid t x → ∃ u', Γ.drop t x u = (.ok (), u')

/-- What else is known about the tables built for a type, for instance about functions other than destructors
and `Clone`. It is kept by everything that keeps tables. -/
class TableLaw (V : Type) where
  law : TyId → V → Prop

/-- By default nothing. -/
instance (priority := low) TableLaw.nothing : TableLaw V := ⟨fun _ _ => True⟩

/-- The table holds the functions built for type `t` (src/traits.rs:170-221). -/
structure Tab [HasDrop U V] [HasClone U V] [TableLaw V] (Γ : TyEnv U) (t : TyId) (vt : V) : Prop where
  drop : HasDrop.dropFn vt = dropBytes Γ t
  clone : HasClone.cloneFn vt = cloneBytes Γ t
  cloneFrom : HasClone.cloneFromFn vt = cloneFromBytes Γ t
  cloneIntoRaw : HasClone.cloneIntoRawFn vt = cloneIntoRawBytes Γ t
  law : TableLaw.law t vt

namespace DOp

/-- Values passed by value to a method on the container in variable `k`. -/
def toVec (s : DSlots V) (k : Nat) (x : Obj) : List Obj :=
  match s k with
  | some (.vec _) => [x]
  | _ => []

/-- A value written to element `i` of the container in variable `k`. -/
def toElem (s : DSlots V) (k i : Nat) (x : Obj) : List Obj :=
  match s k with
  | some (.vec c) => if i < c.len then [x] else []
  | _ => []

/-- The values that are passed by value to an operation. A variable without container takes nothing; the
right-hand side of `*c.get_mut_as(i)? = x` is made after the place was found. -/
def passed (s : DSlots V) : DOp → List Obj
  | .fromVec _ t xs => xs.map (Prod.mk t)
  | .withSize _ t _ x => [(t, x)]
  | .newBox _ t x => [(t, x)]
  | .newSmall _ t x => [(t, x)]
  | .pushAs k t x => toVec s k (t, x)
  | .resize k t _ x => toVec s k (t, x)
  | .fill k t x => toVec s k (t, x)
  | .setAs k t i x => toElem s k i (t, x)
  | _ => []

/-- What an operation shows to the program is a value of the type it claims. -/
def Seen {W : Type} {Γ : TyEnv W} (S : Values Γ) (s : DSlots V) : DOp → Obs → Prop
  | .getAs _ t _, .elem b => S.valid t b
  | .asSlice _ t, .elems bs => ∀ b ∈ bs, S.valid t b
  | .cloneIntoVec _ t, .elems bs => ∀ b ∈ bs, S.valid t b
  | .get _ _, .value t b => S.valid t b
  | .iter k, .elems bs => ∀ c, s k = some (.vec c) → ∀ b ∈ bs, S.valid c.elementTypeId b
  | _, _ => True

/-- What the theorem asks of an operation in the state in which it is executed. Arguments are values of
their type. No type argument is `()`. Indices do not wrap around in release mode. `clear` and `resize`: no
destructor of an element panics. `push` of a `BoxValue` of the container's element type: its alignment
is 1. -/
def Safe {W : Type} (Γ : TyEnv W) (S : Values Γ) (cfg : Cfg) (s : DSlots V) : DOp → Prop
  | .fromVec _ t xs | .fromSlice _ t xs => ∀ x ∈ xs, S.valid t x
  | .withSize _ t _ x => S.valid t x
  | .newBox _ t x | .newSmall _ t x | .pushAs _ t x | .fill _ t x | .setAs _ t _ x => t ≠ Γ.unitTy ∧ S.valid t x
  | .consume _ t | .roundTrip _ t | .cloneIntoVec _ t => t ≠ Γ.unitTy
  | .resize _ t _ x => t ≠ Γ.unitTy ∧ S.valid t x ∧ Quiet Γ S t
  | .pushBox k j => ∀ c v, s k = some (.vec c) → s j = some (.box v) → v.type_id = c.elementTypeId → v.alignment = 1
  | .clear k => ∀ c, s k = some (.vec c) → Quiet Γ S c.elementTypeId
  | .rotateLeft _ n | .rotateRight _ n => Fits Γ cfg n
  | .swap _ a b => Fits Γ cfg a ∧ Fits Γ cfg b
  | .pushCloned _ _ i | .get _ i | .cloneValue _ i _ | .cloneSmall _ i _ | .assign _ i _ => Fits Γ cfg i
  | .cloneFrom _ i _ i' | .swapValues _ i _ i' => Fits Γ cfg i ∧ Fits Γ cfg i'
  | _ => True

/-- The operations that the Rust type checker accepts: arguments are values of their type. -/
def Typed (Γ : TyEnv U) (S : Values Γ) : DOp → Prop
  | .fromVec _ t xs | .fromSlice _ t xs => ∀ x ∈ xs, S.valid t x
  | .withSize _ t _ x | .newBox _ t x | .newSmall _ t x | .pushAs _ t x | .resize _ t _ x | .fill _ t x | .setAs _ t _ x => S.valid t x
  | _ => True

end DOp

section
variable [HasDrop U V] [HasClone U V]

/-- Each operation is `Safe` in the state in which it is executed. -/
def SafeAlong (Γ : TyEnv U) (S : Values Γ) (cfg : Cfg) (vt : TyId → V) : List DOp → DSlots V × World U → Prop
  | [], _ => True
  | op :: ops, s => op.Safe Γ S cfg s.1 ∧
    ∀ o s', (op.exec Γ cfg vt).caught s = (.ok o, s') → SafeAlong Γ S cfg vt ops s'

/-- Each operation that returns shows the program nothing but values. -/
def SeenAlong (Γ : TyEnv U) (S : Values Γ) (cfg : Cfg) (vt : TyId → V) : List DOp → DSlots V × World U → Prop
  | [], _ => True
  | op :: ops, s => ∀ o s', (op.exec Γ cfg vt).caught s = (.ok o, s') →
    (∀ r, o = some r → op.Seen S s.1 r) ∧ SeenAlong Γ S cfg vt ops s'

/-- The values passed to the operations of a program. -/
def passedAlong (Γ : TyEnv U) (cfg : Cfg) (vt : TyId → V) : List DOp → DSlots V × World U → List Obj
  | [], _ => []
  | op :: ops, s => op.passed s.1 ++ passedAlong Γ cfg vt ops ((op.exec Γ cfg vt).caught s).2

end

/-- A program, started without variables, has no undefined behaviour, sees nothing but values, and at
its end no value was destroyed or is owned by a variable more often than it was passed in or cloned:
`dead` are the values whose destructor was called, `born` the results of `clone`. -/
structure OwnsValues (Γ : TyEnv U) (S : Values Γ) (cfg : Cfg) (vt : TyId → V) [HasDrop (Ledger U) V] [HasClone (Ledger U) V]
    (ops : List DOp) (u : U) : Prop where
  defined : (runCaughtD Γ.ledger cfg vt ops ((fun _ => none), ⟨Heap.empty, .start u⟩)).1 ≠ .ub
  seen : SeenAlong Γ.ledger S.ledger cfg vt ops ((fun _ => none), ⟨Heap.empty, .start u⟩)
  once : ∀ os slots' h' l', runCaughtD Γ.ledger cfg vt ops ((fun _ => none), ⟨Heap.empty, .start u⟩) = (.ok os, (slots', ⟨h', l'⟩)) →
    ∀ K a, l'.dead.count a + (DSlots.live K slots').count a ≤
      l'.born.count a + (passedAlong Γ.ledger cfg vt ops ((fun _ => none), ⟨Heap.empty, .start u⟩)).count a

end Dync
