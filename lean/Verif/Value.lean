import Verif.Traits
/-!
# `src/value.rs`: owned and borrowed untyped values

`ManuallyDrop` fields are plain fields; who drops them is written out.  The heap block of the boxed
virtual table (`Ptr<V>`) is not modelled.
-/
namespace Dync
variable {U V W B α : Type}

/-- `MaybeUninit<usize>` (src/value.rs:97-106, `SmallValue`): eight bytes stored in place. -/
structure SmallBytes where
  bytes : Bytes
deriving DecidableEq, Repr

/-- `GetBytesRef`, `GetBytesMut` and `DropAsAligned` (src/copy_value.rs:49-60). -/
class ByteBuf (B : Type) where
  get : B → Bytes
  set : Bytes → B → B
  dropAsAligned : {U : Type} → Nat → B → M (World U) Unit

/-- `Box::<[MaybeUninit<u8>]>::drop_as_aligned` (src/copy_value.rs:77-94): the block is freed as a
slice of `len / align_of::<T>()` elements of the selected type `T`. -/
def BoxBytes.dropAsAligned (alignment : Nat) (b : BoxBytes) : M (World U) Unit :=
  evalAlign alignment fun T => worldHeap (dealloc b.ptr ⟨b.bytes.length / T.align * T.size, T.align⟩)

/-- Dropping a `Box<[MaybeUninit<u8>]>` the ordinary way (as at the end of src/vec_dyn.rs:431-441): as bytes, with alignment 1. -/
def BoxBytes.dropPlain (b : BoxBytes) : M (World U) Unit :=
  worldHeap (dealloc b.ptr ⟨b.bytes.length, 1⟩)

/- src/copy_value.rs:62-94. -/
instance : ByteBuf BoxBytes := ⟨BoxBytes.bytes, fun x b => { b with bytes := x }, BoxBytes.dropAsAligned⟩
/- src/copy_value.rs:96-113. -/
instance : ByteBuf SmallBytes := ⟨SmallBytes.bytes, fun x _ => ⟨x⟩, fun _ _ => pure ()⟩

/-- `Value<B, V>` (src/value.rs:97-106). -/
structure Value (B V : Type) where
  bytes : B
  type_id : TyId
  alignment : Nat
  vtable : V
deriving DecidableEq, Repr

/-- `BoxValue<V>` (src/value.rs:109). -/
abbrev BoxValue (V : Type) := Value BoxBytes V
/-- `SmallValue<V>` (src/value.rs:108). -/
abbrev SmallValue (V : Type) := Value SmallBytes V

/-- `ValueRef<V>` (src/value.rs:455-464) and `ValueMut<V>` (615-624): same fields as the `Copy`
references, content of the referenced memory in `bytes`. -/
abbrev ValueRef (V : Type) := CopyValue V

namespace Value
variable [ByteBuf B]

/-- `as_ref` (src/value.rs:280-287), `From<&Value> for ValueRef` (482-495), and the referent of
`as_mut` (289-296). -/
def asRef (v : Value B V) : ValueRef V := ⟨ByteBuf.get v.bytes, v.type_id, v.alignment, v.vtable⟩

/-- `as_mut` (src/value.rs:289-296): the caller runs `m` on the mutable reference. -/
def asMut (m : M (ValueRef V) α) : M (Value B V) α := ⟨fun v =>
  let out := m v.asRef
  (out.1, { v with bytes := ByteBuf.set out.2.bytes v.bytes })⟩

/-- `impl Drop for Value` (src/value.rs:323-335). -/
def drop [HasDrop U V] (v : Value B V) : M (World U) Unit := do
  worldUser (HasDrop.dropFn v.vtable (ByteBuf.get v.bytes))
  ByteBuf.dropAsAligned v.alignment v.bytes

/-- `impl PartialEq for Value` (src/value.rs:337-349). -/
def eq [HasPartialEq V] (a b : Value B V) : Res Bool :=
  if a.type_id ≠ b.type_id then .ok false
  else HasPartialEq.eqFn a.vtable (ByteBuf.get a.bytes) (ByteBuf.get b.bytes)

/-- `impl Hash for Value` (src/value.rs:353-360). -/
def hash [HasHash V] (v : Value B V) : Res (List UInt8) := HasHash.hashFn v.vtable (ByteBuf.get v.bytes)

/-- `impl Debug for Value` (src/value.rs:302-307). -/
def fmt [HasDebug V] (v : Value B V) : Res String := HasDebug.fmtFn v.vtable (ByteBuf.get v.bytes)

/-- `is::<T>` (src/copy_value.rs:31-33). -/
def is (t : TyId) (v : Value B V) : Bool := v.type_id == t

/-- `upcast` (src/value.rs:158-179, 236-258). `f` is `U::from`. -/
def upcast (f : V → W) (v : Value B V) : Value B W := ⟨v.bytes, v.type_id, v.alignment, f v.vtable⟩

/-- `into_raw_parts` (src/value.rs:185-196, 264-275). -/
def intoRawParts (v : Value B V) : B × TyId × Nat × V := (v.bytes, v.type_id, v.alignment, v.vtable)

/-- `from_raw_parts` (src/value.rs:142-155, 220-233). -/
def fromRawParts (bytes : B) (type_id : TyId) (alignment : Nat) (vt : V) : Value B V :=
  ⟨bytes, type_id, alignment, vt⟩

end Value

namespace ValueRef

/-- `PartialEq` of references (src/value.rs:434-446). -/
def eq [HasPartialEq V] (a b : ValueRef V) : Res Bool :=
  if a.type_id ≠ b.type_id then .ok false
  else HasPartialEq.eqFn a.vtable a.bytes b.bytes

/-- `Hash` of references (src/value.rs:417-424). -/
def hash [HasHash V] (a : ValueRef V) : Res (List UInt8) := HasHash.hashFn a.vtable a.bytes

/-- `Debug` of references (src/value.rs:426-431). -/
def fmt [HasDebug V] (a : ValueRef V) : Res String := HasDebug.fmtFn a.vtable a.bytes

/-- `clone_value` (src/value.rs:526-536, 693-703). -/
def cloneValue [HasClone U V] (v : ValueRef V) : M (World U) (BoxValue V) := do
  let b ← HasClone.cloneFn v.vtable v.bytes
  pure ⟨b, v.type_id, v.alignment, v.vtable⟩

/-- `clone_small_value` (src/value.rs:546-565, 713-732): clones into an uninitialised `usize`. -/
def cloneSmallValue [HasClone U V] (v : ValueRef V) : M (World U) (SmallValue V) := ⟨fun w =>
  match HasClone.cloneIntoRawFn v.vtable v.bytes (List.replicate 8 none, w.user) with
  | (.ok _, (b, u)) => (.ok ⟨⟨b⟩, v.type_id, v.alignment, v.vtable⟩, { w with user := u })
  | (.panic y, (_, u)) => (.panic y, { w with user := u })
  | (.ub, (_, u)) => (.ub, { w with user := u })
  | (.abort, (_, u)) => (.abort, { w with user := u })⟩

/-- `ValueMut::swap` (src/value.rs:648-653): the state is the pair of referents. -/
def swap : M (ValueRef V × ValueRef V) Unit := do
  let (self, other) ← M.get
  if self.type_id = other.type_id then do
    let (a, b) ← M.lift (sliceSwapWith self.bytes other.bytes)
    M.set ({ self with bytes := a }, { other with bytes := b })
  else pure ()

/-- `ValueMut::assign` (src/value.rs:655-660): swap with `value`, which is dropped at the end of the
scope (also when `swap` panics). -/
def assign [ByteBuf B] [HasDrop U V] (value : Value B V) : M (ValueRef V × World U) Unit := ⟨fun s =>
  let out := swap (s.1, value.asRef)
  let value' : Value B V := { value with bytes := ByteBuf.set out.2.2.bytes value.bytes }
  let fin := M.thenDrop (M.lift out.1) value'.drop s.2
  (fin.1, (out.2.1, fin.2))⟩

/-- `ValueMut::clone_from_other` (src/value.rs:665-686): `none` stands for
`Err(MismatchedTypes { .. })`. -/
def cloneFromOther [HasClone U V] (other : ValueRef V) : M (ValueRef V × World U) (Option Unit) := do
  let self ← getSelf
  if self.type_id = other.type_id then do
    M.zoom (fun s => (s.1.bytes, s.2.user))
      (fun t s => ({ s.1 with bytes := t.1 }, { s.2 with user := t.2 }))
      (HasClone.cloneFromFn self.vtable other.bytes)
    pure (some ())
  else pure none

/-- `From<CopyValueRef> for ValueRef<(DropFn, V)>` (src/value.rs:841-851), `CopyValueMut` (830-839). -/
def ofCopy (v : CopyValue V) : ValueRef (DropFn U × V) :=
  ⟨v.bytes, v.type_id, v.alignment, (dropCopy, v.vtable)⟩

end ValueRef

namespace BoxValue

/-- `BoxValue::new` (src/value.rs:200-211). `vt` is `V::build_vtable()`. -/
def new (Γ : TyEnv U) (t : TyId) (vt : V) (x : Bytes) : M (World U) (BoxValue V) := do
  let b ← boxNew Γ t x
  pure ⟨b, t, Γ.align t, vt⟩

/-- `impl Clone for BoxValue` (src/value.rs:316-321). -/
def clone [HasClone U V] (v : BoxValue V) : M (World U) (BoxValue V) := ValueRef.cloneValue v.asRef

/-- `BoxValue::downcast` (src/value.rs:367-386): the result is the `Box<T>` (address and content).
The value is in a `ManuallyDrop`, so on a mismatch neither its content nor its block is released. -/
def downcast (t : TyId) (v : BoxValue V) : M (World U) (Option BoxBytes) :=
  if Value.is t v then pure (some v.bytes) else pure none

end BoxValue

namespace SmallValue

/-- `SmallValue::try_new` (src/value.rs:113-125) with `try_into_usize` (src/bytes.rs:117-128): exact
size match. The argument is in a `ManuallyDrop`, so on failure it is not dropped. -/
def tryNew (Γ : TyEnv U) (t : TyId) (vt : V) (x : Bytes) : M (World U) (Option (SmallValue V)) :=
  if Γ.size t = 8 then pure (some ⟨⟨x⟩, t, Γ.align t, vt⟩) else pure none

/-- `SmallValue::new` (src/value.rs:128-133). -/
def new (Γ : TyEnv U) (t : TyId) (vt : V) (x : Bytes) : M (World U) (SmallValue V) := do
  match ← tryNew Γ t vt x with
  | some v => pure v
  | none => M.panic .unwrapNone

/-- `impl Clone for SmallValue` (src/value.rs:309-314). -/
def clone [HasClone U V] (v : SmallValue V) : M (World U) (SmallValue V) :=
  ValueRef.cloneSmallValue v.asRef

/-- `SmallValue::downcast` (src/value.rs:390-409) with `try_from_usize` (src/bytes.rs:132-139). -/
def downcast (Γ : TyEnv U) (t : TyId) (v : SmallValue V) : M (World U) (Option Bytes) :=
  if Value.is t v then
    if Γ.size t = 8 then pure (some v.bytes.bytes) else pure none
  else pure none

end SmallValue
end Dync
