/-!
# Auto traits of the container types

Model of when Rust considers the types of dync `Send`/`Sync`: the fields of each struct, the rules by
which auto traits are inferred from fields, and the explicit `unsafe impl`s, which replace the inference
for the struct they are given for.
-/
namespace Dync.SendSync

/-- What the `unsafe impl`s know about the table type `V`: which `Has*` traits it implements, and
whether the table itself is `Send`/`Sync` (a tuple struct of function pointers is both). -/
structure Table where
  hasDrop : Bool
  hasSend : Bool
  hasSync : Bool
  send : Bool := true
  sync : Bool := true

/-- The types occurring as fields. `adt` is a struct or enum without explicit impls; `sealed s y` is a
struct with explicit impls, `s`/`y` being whether their where clauses are met. -/
inductive RTy where
  | scalar
  | rawPtr
  | table
  | ref (t : RTy)
  | refMut (t : RTy)
  | boxed (t : RTy)
  | adt (fields : List RTy)
  | sealed (send sync : Bool)

mutual
/-- `T: Send` (the rules of the Rust reference: `&T` is `Send` iff `T` is `Sync`, raw pointers are not). -/
def send (V : Table) : RTy → Bool
  | .scalar => true
  | .rawPtr => false
  | .table => V.send
  | .ref t => sync V t
  | .refMut t => send V t
  | .boxed t => send V t
  | .adt fs => sendAll V fs
  | .sealed s _ => s
def sendAll (V : Table) : List RTy → Bool
  | [] => true
  | t :: ts => send V t && sendAll V ts
/-- `T: Sync`. -/
def sync (V : Table) : RTy → Bool
  | .scalar => true
  | .rawPtr => false
  | .table => V.sync
  | .ref t => sync V t
  | .refMut t => sync V t
  | .boxed t => sync V t
  | .adt fs => syncAll V fs
  | .sealed _ y => y
def syncAll (V : Table) : List RTy → Bool
  | [] => true
  | t :: ts => sync V t && syncAll V ts
end

/-- `[MaybeUninit<u8>]`. -/
def bytes : RTy := .scalar
/-- src/elem.rs:127-136: a `TypeId` and two `usize`. -/
def elemInfo : RTy := .adt [.scalar, .scalar, .scalar]
/-- src/vtable.rs:38-45. -/
def vtableRef : RTy := .adt [.ref .table, .boxed .table]
/-- src/vec_void.rs:15-24. -/
def vecVoid : RTy := .adt [.rawPtr, .scalar, .scalar, elemInfo]
/-- src/vec_copy.rs:54-63. -/
def vecCopy : RTy := .adt [vecVoid, .boxed .table]
/-- src/slice_copy.rs:19-27. -/
def sliceCopy : RTy := .adt [.ref bytes, elemInfo, vtableRef]
/-- src/slice_copy.rs:382-390. -/
def sliceCopyMut : RTy := .adt [.refMut bytes, elemInfo, vtableRef]

/-- The public types holding elements. -/
inductive Kind where
  | vecCopy | vecDyn | value | sliceCopy | sliceCopyMut | slice | sliceMut
  | copyValueRef | copyValueMut | valueRef | valueMut
deriving DecidableEq

/-- The type of each kind. The explicit impls: src/vec_dyn.rs:146-147, src/value.rs:299-300 (`Value`),
src/value.rs:414-415 (by macro for the four references, 451-452, 466, 626), src/slice.rs:330-331, 745-746.
`VecCopy`, `SliceCopy` and `SliceCopyMut` have none. -/
def Kind.ty (V : Table) : Kind → RTy
  | .vecCopy => SendSync.vecCopy
  | .sliceCopy => SendSync.sliceCopy
  | .sliceCopyMut => SendSync.sliceCopyMut
  | .vecDyn | .value | .slice | .sliceMut | .valueRef | .valueMut =>
    .sealed (V.hasDrop && V.hasSend) (V.hasDrop && V.hasSync)
  | .copyValueRef | .copyValueMut => .sealed V.hasSend V.hasSync

end Dync.SendSync
