import Verif.VecDyn
/-!
# Comparison, hashing and formatting with arbitrary user code

`Traits`, `Value` and `VecDyn` take `PartialEq`, `Hash` and `Debug` of the element type as total
functions.  Here the same functions of the crate are modelled again with user code that may panic, keep
state of its own, feed a hasher or a formatter, and report a formatting error.  The containers and values
are only borrowed by these functions; the heap is not involved, so the state is that of the user code,
with the hasher or formatter in front.

Simplified: the `drop` entry of the tables is left out (see `Traits`), and user code does not change the
element it is given through a shared reference.
-/
namespace Dync
variable {U H F V B σ α β : Type}

/-- `fmt::Result`. -/
inductive FmtRes where
  | ok
  | err
deriving DecidableEq

/-- User code of every element type: `PartialEq::eq`, `Hash::hash` into a hasher with state `H`, and
`Debug::fmt` into a formatter with state `F`. -/
structure UserFns (U H F : Type) where
  eq : TyId → Bytes → Bytes → M U Bool
  hash : TyId → Bytes → M (H × U) Unit
  fmt : TyId → Bytes → M (F × U) FmtRes

/-! ### Table entries -/

/-- `PartialEqBytes::eq_bytes` (src/traits.rs:80-85) with the size asserts of `Bytes::from_bytes`
(src/bytes.rs:94-102). -/
def eqBytesFx (Γ : TyEnv U) (Φ : UserFns U H F) (t : TyId) (a b : Bytes) : M U Bool := do
  M.assert (a.length == Γ.size t)
  M.assert (b.length == Γ.size t)
  Φ.eq t a b

/-- `HashBytes::hash_bytes` (src/traits.rs:87-93). -/
def hashBytesFx (Γ : TyEnv U) (Φ : UserFns U H F) (t : TyId) (a : Bytes) : M (H × U) Unit := do
  M.assert (a.length == Γ.size t)
  Φ.hash t a

/-- `DebugBytes::fmt_bytes` (src/traits.rs:95-104). -/
def fmtBytesFx (Γ : TyEnv U) (Φ : UserFns U H F) (t : TyId) (a : Bytes) : M (F × U) FmtRes := do
  M.assert (a.length == Γ.size t)
  Φ.fmt t a

/-- `HasPartialEq` (src/traits.rs:132-134). -/
class HasEqFx (U : outParam Type) (V : Type) where
  eqFn : V → Bytes → Bytes → M U Bool
/-- `HasHash` (src/traits.rs:128-130), for hashers with state `H`. -/
class HasHashFx (U : outParam Type) (H : outParam Type) (V : Type) where
  hashFn : V → Bytes → M (H × U) Unit
/-- `HasDebug` (src/traits.rs:138-140), for formatters with state `F`. -/
class HasFmtFx (U : outParam Type) (F : outParam Type) (V : Type) where
  fmtFn : V → Bytes → M (F × U) FmtRes

/-- `PartialEqVTable` and `EqVTable` (src/traits.rs:156-159). -/
structure EqTableFx (U : Type) where
  eq : Bytes → Bytes → M U Bool
/-- `HashVTable` (src/traits.rs:160-161). -/
structure HashTableFx (U H : Type) where
  hash : Bytes → M (H × U) Unit
/-- `DebugVTable` (src/traits.rs:162-163). -/
structure FmtTableFx (U F : Type) where
  fmt : Bytes → M (F × U) FmtRes

/-- `build_vtable` of `PartialEqVTable` and `EqVTable` (src/traits.rs:187-197). -/
def EqTableFx.build (Γ : TyEnv U) (Φ : UserFns U H F) (t : TyId) : EqTableFx U := ⟨eqBytesFx Γ Φ t⟩
/-- `build_vtable` of `HashVTable` (src/traits.rs:198-203). -/
def HashTableFx.build (Γ : TyEnv U) (Φ : UserFns U H F) (t : TyId) : HashTableFx U H := ⟨hashBytesFx Γ Φ t⟩
/-- `build_vtable` of `DebugVTable` (src/traits.rs:204-209). -/
def FmtTableFx.build (Γ : TyEnv U) (Φ : UserFns U H F) (t : TyId) : FmtTableFx U F := ⟨fmtBytesFx Γ Φ t⟩

instance : HasEqFx U (EqTableFx U) := ⟨EqTableFx.eq⟩
instance : HasHashFx U H (HashTableFx U H) := ⟨HashTableFx.hash⟩
instance : HasFmtFx U F (FmtTableFx U F) := ⟨FmtTableFx.fmt⟩

/- The `(DropFn, V)` tables of values forward to the inner table (src/value.rs:74-95). -/
instance [HasEqFx U V] : HasEqFx U (DropFn U × V) := ⟨fun v => HasEqFx.eqFn v.2⟩
instance [HasHashFx U H V] : HasHashFx U H (DropFn U × V) := ⟨fun v => HasHashFx.hashFn v.2⟩
instance [HasFmtFx U F V] : HasFmtFx U F (DropFn U × V) := ⟨fun v => HasFmtFx.fmtFn v.2⟩

/-! ### Values and references -/

namespace Value
variable [ByteBuf B]

/-- `impl PartialEq for Value` (src/value.rs:337-349). -/
def eqFx [HasEqFx U V] (a b : Value B V) : M U Bool :=
  if a.type_id ≠ b.type_id then pure false
  else HasEqFx.eqFn a.vtable (ByteBuf.get a.bytes) (ByteBuf.get b.bytes)

/-- `impl Hash for Value` (src/value.rs:353-360). -/
def hashFx [HasHashFx U H V] (v : Value B V) : M (H × U) Unit :=
  HasHashFx.hashFn v.vtable (ByteBuf.get v.bytes)

/-- `impl Debug for Value` (src/value.rs:302-307). -/
def fmtFx [HasFmtFx U F V] (v : Value B V) : M (F × U) FmtRes :=
  HasFmtFx.fmtFn v.vtable (ByteBuf.get v.bytes)

end Value

namespace ValueRef

/-- `PartialEq` of `ValueRef`, `ValueMut`, `CopyValueRef` and `CopyValueMut` (src/value.rs:434-446). -/
def eqFx [HasEqFx U V] (a b : ValueRef V) : M U Bool :=
  if a.type_id ≠ b.type_id then pure false
  else HasEqFx.eqFn a.vtable a.bytes b.bytes

/-- `Hash` of references (src/value.rs:417-424). -/
def hashFx [HasHashFx U H V] (a : ValueRef V) : M (H × U) Unit := HasHashFx.hashFn a.vtable a.bytes

/-- `Debug` of references (src/value.rs:426-431). -/
def fmtFx [HasFmtFx U F V] (a : ValueRef V) : M (F × U) FmtRes := HasFmtFx.fmtFn a.vtable a.bytes

end ValueRef

/-! ### Containers and slices -/

/-- `xs.zip(ys).all(|(this, that)| this == that)` (src/vec_dyn.rs:126-129, src/slice.rs:33-36). -/
def zipAll [HasEqFx U V] : List (ValueRef V) → List (ValueRef V) → M U Bool
  | a :: as, b :: bs => do if ← ValueRef.eqFx a b then zipAll as bs else pure false
  | _, _ => pure true

/-- What std's formatting machinery does with a `Formatter`: `write_str`, the alternate flag, and the
formatter seen by an entry of a pretty-printed list (`PadAdapter`). -/
structure Formatting (F : Type) where
  write : String → M F FmtRes
  pretty : F → Bool
  wrap : F → F
  unwrap : F → F

/-- Run something on the formatter only. -/
def onFmt (m : M F α) : M (F × U) α := ⟨fun s => ((m s.1).1, ((m s.1).2, s.2))⟩

/-- `?` on a `fmt::Result`. -/
def andThen (m k : M σ FmtRes) : M σ FmtRes := do
  match ← m with
  | .ok => k
  | .err => pure .err

/-- `DebugInner::entry` of std. -/
def debugEntryFx (K : Formatting F) (hasFields : Bool) (entry : M (F × U) FmtRes) : M (F × U) FmtRes := do
  let s ← M.get
  if K.pretty s.1 then
    andThen (if hasFields then pure .ok else onFmt (K.write "\n")) (do
      M.modify fun s => (K.wrap s.1, s.2)
      let r ← andThen entry (onFmt (K.write ",\n"))
      M.modify fun s => (K.unwrap s.1, s.2)
      pure r)
  else
    andThen (if hasFields then onFmt (K.write ", ") else pure .ok) entry

/-- `DebugList::entries` of std: once an entry has failed the others are not formatted. -/
def debugEntriesFx (K : Formatting F) : Bool → FmtRes → List (M (F × U) FmtRes) → M (F × U) FmtRes
  | _, r, [] => pure r
  | hasFields, .ok, e :: es => do
    let r ← debugEntryFx K hasFields e
    debugEntriesFx K true r es
  | _, .err, _ :: es => debugEntriesFx K true .err es

/-- `f.debug_list().entries(..).finish()` of std. -/
def debugListFx (K : Formatting F) (entries : List (M (F × U) FmtRes)) : M (F × U) FmtRes := do
  let r ← onFmt (K.write "[")
  andThen (debugEntriesFx K false r entries) (onFmt (K.write "]"))

namespace VecDyn

/-- `impl PartialEq for VecDyn` (src/vec_dyn.rs:124-130). -/
def eqFx [HasEqFx U V] (a b : VecDyn V) : M U Bool := do
  let xs ← a.iter
  let ys ← b.iter
  zipAll xs ys

/-- `impl Hash for VecDyn` (src/vec_dyn.rs:134-138). -/
def hashFx [HasHashFx U H V] (self : VecDyn V) : M (H × U) Unit := do
  let xs ← self.iter
  M.forEach xs ValueRef.hashFx

/-- `impl Debug for VecDyn` (src/vec_dyn.rs:140-144). -/
def fmtFx [HasFmtFx U F V] (K : Formatting F) (self : VecDyn V) : M (F × U) FmtRes := do
  let xs ← self.iter
  debugListFx K (xs.map ValueRef.fmtFx)

end VecDyn

namespace SliceDyn

/-- `PartialEq` for `Slice` (src/slice.rs:31-37) and `SliceMut` (346-353). -/
def eqFx [HasEqFx U V] (a b : SliceCopy V) : M U Bool := do
  let xs ← a.iter
  let ys ← b.iter
  zipAll xs ys

/-- `Debug` for `Slice` (src/slice.rs:39-43) and `SliceMut` (355-359). -/
def fmtFx [HasFmtFx U F V] (K : Formatting F) (self : SliceCopy V) : M (F × U) FmtRes := do
  let xs ← self.iter
  debugListFx K (xs.map ValueRef.fmtFx)

end SliceDyn

end Dync
