import Verif.VecCopy
/-!
# `src/traits.rs`, the boxed parts of `src/bytes.rs`, and the builtin virtual tables

A function pointer of a virtual table is a Lean function.  `&mut [u8]` arguments whose content is
changed (`clone_from`, `clone_into_raw`) are the first component of the state.
-/
namespace Dync
variable {U V : Type}

/-- `Box<[MaybeUninit<u8>]>` (src/traits.rs:21, src/bytes.rs:104-115): address and content. The length is that of `bytes`. -/
structure BoxBytes where
  ptr : Ptr
  bytes : Bytes
deriving DecidableEq, Repr

/-- `DropFn` (src/traits.rs:112). -/
abbrev DropFn (U : Type) := Bytes → M U Unit
/-- `CloneFn` (src/traits.rs:106): allocates the result. -/
abbrev CloneFn (U : Type) := Bytes → M (World U) BoxBytes
/-- `CloneFromFn` (src/traits.rs:107): argument `src`, state `dst`. -/
abbrev CloneFromFn (U : Type) := Bytes → M (Bytes × U) Unit
/-- `CloneIntoRawFn` (src/traits.rs:108): argument `src`, state `dst`. -/
abbrev CloneIntoRawFn (U : Type) := Bytes → M (Bytes × U) Unit
/-- `EqFn` (src/traits.rs:109). -/
abbrev EqFn := Bytes → Bytes → Res Bool
/-- `HashFn` (src/traits.rs:110): the data fed to the hasher. -/
abbrev HashFn := Bytes → Res (List UInt8)
/-- `FmtFn` (src/traits.rs:111): the text written to the formatter. -/
abbrev FmtFn := Bytes → Res String

/-! ### Byte versions of the builtin traits -/

/-- User code running next to a byte slice held in the state (the bodies of src/traits.rs:49-103). -/
def userPart {α : Type} (m : M U α) : M (Bytes × U) α := M.zoom Prod.snd (fun u s => (s.1, u)) m

/-- `DropBytes::drop_bytes` (src/traits.rs:49-55): `from_bytes_mut` asserts the length. -/
def dropBytes (Γ : TyEnv U) (t : TyId) : DropFn U := fun bytes => do
  M.assert (bytes.length == Γ.size t)
  Γ.drop t bytes

/-- `Box::new(value)` followed by `box_into_box_bytes` (src/bytes.rs:104-110). -/
def boxNew (Γ : TyEnv U) (t : TyId) (x : Bytes) : M (World U) BoxBytes := do
  let p ← worldHeap (allocM (Γ.layout t))
  pure ⟨p, x⟩

/-- `CloneBytes::clone_bytes` (src/traits.rs:59-62). -/
def cloneBytes (Γ : TyEnv U) (t : TyId) : CloneFn U := fun src => do
  M.assert (src.length == Γ.size t)
  let b ← worldUser (Γ.clone t src)
  boxNew Γ t b

/-- `CloneBytes::clone_from_bytes` (src/traits.rs:64-68). -/
def cloneFromBytes (Γ : TyEnv U) (t : TyId) : CloneFromFn U := fun src => do
  M.assert (src.length == Γ.size t)
  let (dst, _) ← M.get
  M.assert (dst.length == Γ.size t)
  Γ.cloneFrom t src

/-- `CloneBytes::clone_into_raw_bytes` (src/traits.rs:70-76). If `dst` has another length,
`copy_from_slice` panics and the clone is dropped while unwinding. -/
def cloneIntoRawBytes (Γ : TyEnv U) (t : TyId) : CloneIntoRawFn U := fun src => do
  M.assert (src.length == Γ.size t)
  let cloned ← userPart (Γ.clone t src)
  let (dst, _) ← M.get
  if dst.length = cloned.length then M.modify fun s => (cloned, s.2)
  else do
    M.unwindDrop (userPart (Γ.drop t cloned))
    M.panic .lenMismatch

/-- `PartialEqBytes::eq_bytes` (src/traits.rs:81-84). -/
def eqBytes (Γ : TyEnv U) (t : TyId) : EqFn := fun a b =>
  if a.length = Γ.size t then
    if b.length = Γ.size t then .ok (Γ.eq t a b) else .panic .assertion
  else .panic .assertion

/-- `HashBytes::hash_bytes` (src/traits.rs:89-92). -/
def hashBytes (Γ : TyEnv U) (t : TyId) : HashFn := fun a =>
  if a.length = Γ.size t then .ok (Γ.hash t a) else .panic .assertion

/-- `DebugBytes::fmt_bytes` (src/traits.rs:97-103). -/
def fmtBytes (Γ : TyEnv U) (t : TyId) : FmtFn := fun a =>
  if a.length = Γ.size t then .ok (Γ.fmt t a) else .panic .assertion

/-! ### `Has*` traits -/

/-- `HasDrop` (src/traits.rs:116-118). -/
class HasDrop (U : outParam Type) (V : Type) where
  dropFn : V → DropFn U
/-- `HasClone` (src/traits.rs:122-126). -/
class HasClone (U : outParam Type) (V : Type) where
  cloneFn : V → CloneFn U
  cloneFromFn : V → CloneFromFn U
  cloneIntoRawFn : V → CloneIntoRawFn U
/-- `HasHash` (src/traits.rs:128-130). -/
class HasHash (V : Type) where
  hashFn : V → HashFn
/-- `HasPartialEq` (src/traits.rs:132-134). -/
class HasPartialEq (V : Type) where
  eqFn : V → EqFn
/-- `HasDebug` (src/traits.rs:138-140). -/
class HasDebug (V : Type) where
  fmtFn : V → FmtFn

/-! ### Builtin tables: structs (src/traits.rs:152-167), `build_vtable` (170-221), accessors (223-282) -/

/-- `DropVTable` (src/traits.rs:152-153). -/
structure DropVTable (U : Type) where
  drop : DropFn U
/-- `CloneVTable` (src/traits.rs:154-155). -/
structure CloneVTable (U : Type) where
  drop : DropFn U
  clone : CloneFn U
  cloneFrom : CloneFromFn U
  cloneIntoRaw : CloneIntoRawFn U
/-- `PartialEqVTable` (src/traits.rs:156-157). -/
structure PartialEqVTable (U : Type) where
  drop : DropFn U
  eq : EqFn
/-- `EqVTable` (src/traits.rs:158-159). -/
structure EqVTable (U : Type) where
  drop : DropFn U
  eq : EqFn
/-- `HashVTable` (src/traits.rs:160-161). -/
structure HashVTable (U : Type) where
  drop : DropFn U
  hash : HashFn
/-- `DebugVTable` (src/traits.rs:162-163). -/
structure DebugVTable (U : Type) where
  drop : DropFn U
  fmt : FmtFn
/-- `SendVTable` (src/traits.rs:164-165). -/
structure SendVTable (U : Type) where
  drop : DropFn U
/-- `SyncVTable` (src/traits.rs:166-167). -/
structure SyncVTable (U : Type) where
  drop : DropFn U

/-- src/traits.rs:170-174. -/
def DropVTable.build (Γ : TyEnv U) (t : TyId) : DropVTable U := ⟨dropBytes Γ t⟩
/-- src/traits.rs:176-185. -/
def CloneVTable.build (Γ : TyEnv U) (t : TyId) : CloneVTable U :=
  ⟨dropBytes Γ t, cloneBytes Γ t, cloneFromBytes Γ t, cloneIntoRawBytes Γ t⟩
/-- src/traits.rs:187-191. -/
def PartialEqVTable.build (Γ : TyEnv U) (t : TyId) : PartialEqVTable U := ⟨dropBytes Γ t, eqBytes Γ t⟩
/-- src/traits.rs:193-197. -/
def EqVTable.build (Γ : TyEnv U) (t : TyId) : EqVTable U := ⟨dropBytes Γ t, eqBytes Γ t⟩
/-- src/traits.rs:199-203. -/
def HashVTable.build (Γ : TyEnv U) (t : TyId) : HashVTable U := ⟨dropBytes Γ t, hashBytes Γ t⟩
/-- src/traits.rs:217-221. -/
def DebugVTable.build (Γ : TyEnv U) (t : TyId) : DebugVTable U := ⟨dropBytes Γ t, fmtBytes Γ t⟩
/-- src/traits.rs:205-209. -/
def SendVTable.build (Γ : TyEnv U) (t : TyId) : SendVTable U := ⟨dropBytes Γ t⟩
/-- src/traits.rs:211-215. -/
def SyncVTable.build (Γ : TyEnv U) (t : TyId) : SyncVTable U := ⟨dropBytes Γ t⟩

/- `impl_has_drop!` (src/traits.rs:223-244). -/
instance : HasDrop U (DropVTable U) := ⟨DropVTable.drop⟩
instance : HasDrop U (CloneVTable U) := ⟨CloneVTable.drop⟩
instance : HasDrop U (PartialEqVTable U) := ⟨PartialEqVTable.drop⟩
instance : HasDrop U (EqVTable U) := ⟨EqVTable.drop⟩
instance : HasDrop U (HashVTable U) := ⟨HashVTable.drop⟩
instance : HasDrop U (DebugVTable U) := ⟨DebugVTable.drop⟩
instance : HasDrop U (SendVTable U) := ⟨SendVTable.drop⟩
instance : HasDrop U (SyncVTable U) := ⟨SyncVTable.drop⟩
/- src/traits.rs:246-256. -/
instance : HasClone U (CloneVTable U) := ⟨CloneVTable.clone, CloneVTable.cloneFrom, CloneVTable.cloneIntoRaw⟩
/- src/traits.rs:258-262. -/
instance : HasHash (HashVTable U) := ⟨HashVTable.hash⟩
/- src/traits.rs:264-274. -/
instance : HasPartialEq (PartialEqVTable U) := ⟨PartialEqVTable.eq⟩
instance : HasPartialEq (EqVTable U) := ⟨EqVTable.eq⟩
/- src/traits.rs:278-282. -/
instance : HasDebug (DebugVTable U) := ⟨DebugVTable.fmt⟩

/- The tuple table `(DropFn, V)`: `HasDrop` (src/value.rs:49-54), forwarding impls (59-95),
`build_vtable` (src/vtable.rs:25-30). -/
instance : HasDrop U (DropFn U × V) := ⟨Prod.fst⟩
instance [HasClone U V] : HasClone U (DropFn U × V) :=
  ⟨fun v => HasClone.cloneFn v.2, fun v => HasClone.cloneFromFn v.2, fun v => HasClone.cloneIntoRawFn v.2⟩
instance [HasHash V] : HasHash (DropFn U × V) := ⟨fun v => HasHash.hashFn v.2⟩
instance [HasPartialEq V] : HasPartialEq (DropFn U × V) := ⟨fun v => HasPartialEq.eqFn v.2⟩
instance [HasDebug V] : HasDebug (DropFn U × V) := ⟨fun v => HasDebug.fmtFn v.2⟩
/-- `<(DropFn, V) as VTable<T>>::build_vtable` (src/vtable.rs:25-30); `vt` is `V::build_vtable()`. -/
def pairBuild (Γ : TyEnv U) (t : TyId) (vt : V) : DropFn U × V := (dropBytes Γ t, vt)
/-- `drop_copy` (src/value.rs:829). -/
def dropCopy : DropFn U := fun _ => pure ()

end Dync
