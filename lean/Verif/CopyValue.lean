import Verif.VecVoid
/-!
# `src/copy_value.rs`, `src/meta.rs`, `src/vtable.rs` (references to untyped `Copy` values)

`VTableRef` (src/vtable.rs:38-64) is `Ref(&V)` or `Box(Box<V>)`; `as_ref`, `take` and `into_owned`
all give the table itself (by reference, by move or by `Clone` of the table), so a `VTableRef<V>` is
modelled by the table `V`.  The heap blocks of boxed virtual tables are not modelled.
-/
namespace Dync
variable {U V σ τ α : Type}

/-- `CopyValueRef<V>` (src/copy_value.rs:131-140) and `CopyValueMut<V>` (216-224). `bytes` is the
content of the referenced memory. -/
structure CopyValue (V : Type) where
  bytes : Bytes
  type_id : TyId
  alignment : Nat
  vtable : V
deriving DecidableEq, Repr

namespace CopyValue

/-- `CopyValueRef::new` (src/copy_value.rs:145-155), `CopyValueMut::new` (229-239). `x` is the
memory image of the referenced `T`; `vt` is `V::build_vtable()`. -/
def new (Γ : TyEnv U) (t : TyId) (vt : V) (x : Bytes) : CopyValue V := ⟨x, t, Γ.align t, vt⟩

/-- `size` (src/copy_value.rs:14-16). -/
def size (v : CopyValue V) : Nat := v.bytes.length

/-- `downcast` (src/copy_value.rs:178-181, 289-292) through `downcast_with` (36-44) and
`Bytes::from_bytes` (src/bytes.rs:99-102, asserts the length). -/
def downcast (Γ : TyEnv U) (t : TyId) (v : CopyValue V) : M σ (Option Bytes) :=
  if v.type_id = t then do
    M.assert (v.bytes.length == Γ.size t)
    pure (some v.bytes)
  else pure none

/-- `upcast` (src/copy_value.rs:184-194, 294-305), `upcast_ref` (197-208). `f` is `U::from`. -/
def upcast {W : Type} (f : V → W) (v : CopyValue V) : CopyValue W :=
  ⟨v.bytes, v.type_id, v.alignment, f v.vtable⟩

/-- `CopyValueMut::copy` (src/copy_value.rs:269-276): the state is the referent of `self`. -/
def copy (other : CopyValue V) : M (CopyValue V) (Option Unit) := do
  let self ← M.get
  if self.type_id = other.type_id then do
    let b ← M.lift (sliceCopyFrom self.bytes other.bytes)
    M.set { self with bytes := b }
    pure (some ())
  else pure none

/-- `CopyValueMut::swap` (src/copy_value.rs:280-285): the state is the pair of referents. -/
def swap : M (CopyValue V × CopyValue V) Unit := do
  let (self, other) ← M.get
  if self.type_id = other.type_id then do
    let (a, b) ← M.lift (sliceSwapWith self.bytes other.bytes)
    M.set ({ self with bytes := a }, { other with bytes := b })
    M.assert (self.alignment == other.alignment)
  else pure ()

end CopyValue

/-- `Meta<V>` (src/meta.rs:19-22). -/
structure Meta (V : Type) where
  elem : ElemInfo
  vtable : V
deriving DecidableEq, Repr

/-- `Meta::from(CopyValueRef)` (src/meta.rs:54-66), also `ValueRef` (25-37) and `ValueMut` (40-52). -/
def Meta.ofValue (bytes : Bytes) (type_id : TyId) (alignment : Nat) (vt : V) : Meta V :=
  ⟨⟨type_id, bytes.length / alignment, alignment⟩, vt⟩

/-! ### Iterating over mutable elements -/

/-- `for x in xs.iter_mut() { body(x) }`: every element is visited in order with write access;
after a panic the elements visited so far keep their new value. -/
def visitMut (body : M (τ × σ) Unit) : List τ → σ → Res Unit × (List τ × σ)
  | [], s => (.ok (), ([], s))
  | x :: xs, s =>
    match body (x, s) with
    | (.ok _, (x', s')) =>
      match visitMut body xs s' with
      | (r, (xs', s'')) => (r, (x' :: xs', s''))
    | (.panic w, (x', s')) => (.panic w, (x' :: xs, s'))
    | (.ub, (x', s')) => (.ub, (x' :: xs, s'))
    | (.abort, (x', s')) => (.abort, (x' :: xs, s'))

/-- `visitMut` as a computation on a list held in the state. -/
def forEachMut (body : M (τ × σ) Unit) : M (List τ × σ) Unit := ⟨fun s => visitMut body s.1 s.2⟩

end Dync
