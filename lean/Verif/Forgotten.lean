import Verif.Ownership
/-!
# Specification: what programs forget without a panic

Converting a container or a value to a wrong type (`into_vec`, `downcast`) returns `None`, and the argument, which
was moved in, is forgotten: its values are not dropped, and the block of a box is not freed.
-/
namespace Dync
variable {U V : Type}

/-- The type of the values in a variable. -/
def Item.ty : Item V → TyId
  | .vec c => c.elementTypeId
  | .box v => v.type_id
  | .small v => v.type_id

/-- The values that a conversion of a variable to a wrong type forgets: `into_vec`, `downcast`. -/
def DOp.forgets (s : DSlots V) : DOp → List Obj
  | .consume k t => match s k with
    | some b => if b.ty = t then [] else b.objs
    | none => []
  | .roundTrip k t => match s k with
    | some (.vec c) => if c.elementTypeId = t then [] else (Item.vec c).objs
    | _ => []
  | _ => []

/-- The block that a conversion of a box to a wrong type forgets. -/
def DOp.forgetsBlock (s : DSlots V) : DOp → Nat
  | .consume k t => match s k with
    | some (.box v) => if v.type_id = t ∨ v.bytes.ptr = none then 0 else 1
    | _ => 0
  | _ => 0

section
variable [HasDrop U V] [HasClone U V]

/-- The values forgotten by a program. -/
def forgottenAlong (Γ : TyEnv U) (cfg : Cfg) (vt : TyId → V) : List DOp → DSlots V × World U → List Obj
  | [], _ => []
  | op :: ops, s => op.forgets s.1 ++ forgottenAlong Γ cfg vt ops ((op.exec Γ cfg vt).caught s).2

/-- The number of blocks forgotten by a program. -/
def forgottenBlocksAlong (Γ : TyEnv U) (cfg : Cfg) (vt : TyId → V) : List DOp → DSlots V × World U → Nat
  | [], _ => 0
  | op :: ops, s => op.forgetsBlock s.1 + forgottenBlocksAlong Γ cfg vt ops ((op.exec Γ cfg vt).caught s).2
end

/-- No offset into a container that is written to wraps around, which can happen in release builds only. -/
def DOp.Bounded (Γ : TyEnv U) (cfg : Cfg) : DOp → Prop
  | .rotateLeft _ n | .rotateRight _ n => Fits Γ cfg n
  | .swap _ i j => Fits Γ cfg i ∧ Fits Γ cfg j
  | .assign _ i _ => Fits Γ cfg i
  | .cloneFrom _ i _ _ => Fits Γ cfg i
  | .swapValues _ i _ i' => Fits Γ cfg i ∧ Fits Γ cfg i'
  | _ => True

end Dync
