import Verif.SliceCopy
/-!
# `src/vec_copy.rs`
-/
namespace Dync

/-- `VecCopy<V>` (src/vec_copy.rs:52-62). The `Box` around the virtual table is not modelled. -/
structure VecCopy (V : Type) where
  data : VecVoid
  vtable : V
deriving DecidableEq, Repr

namespace VecCopy
variable {U V α : Type}

/-- Call a `VecVoid` method on `self.data` (src/vec_copy.rs:58). -/
def onData (m : M (VecVoid × World U) α) : M (VecCopy V × World U) α :=
  M.zoom (fun s => (s.1.data, s.2)) (fun t s => ({ s.1 with data := t.1 }, t.2)) m

/-- Drop glue of `VecCopy` (src/vec_copy.rs:52-62): drops `data`. -/
def drop (cfg : Cfg) (self : VecCopy V) : M (World U) Unit := self.data.drop cfg

/-! ### Constructors -/

/-- `from_vec` / `from_vec_non_copy` (src/vec_copy.rs:134-157). `vt` is `V::build_vtable()`. If the
assertion fails, the argument `vec` is dropped while unwinding. -/
def fromVec (Γ : TyEnv U) (t : TyId) (vt : V) (vec : RVec) : M (World U) (VecCopy V) := do
  let _ ← withLocal vec (RVec.dropTyped Γ t) (M.assert (Γ.size t != 0))
  let data ← VecVoid.fromVec Γ t vec
  pure ⟨data, vt⟩

/-- `with_type` / `with_type_non_copy` (src/vec_copy.rs:68-84). -/
def withType (Γ : TyEnv U) (t : TyId) (vt : V) : M (World U) (VecCopy V) :=
  fromVec Γ t vt (RVec.new (Γ.layout t))

/-- `with_capacity` / `with_capacity_non_copy` (src/vec_copy.rs:89-104). -/
def withCapacity (Γ : TyEnv U) (t : TyId) (vt : V) (n : Nat) : M (World U) (VecCopy V) := do
  let vec ← RVec.withCapacity (Γ.layout t) n
  fromVec Γ t vt vec

/-- `with_size` (src/vec_copy.rs:116-121) for `Copy` elements: `vec![def; n]` has capacity `n`. -/
def withSize (Γ : TyEnv U) (t : TyId) (vt : V) (n : Nat) (x : Bytes) : M (World U) (VecCopy V) := do
  let vec ← RVec.withCapacity (Γ.layout t) n
  fromVec Γ t vt { vec with len := n, bytes := (List.replicate n x).flatten }

/-- `from_slice` (src/vec_copy.rs:161-168). -/
def fromSlice (Γ : TyEnv U) (t : TyId) (vt : V) (s : List Bytes) : M (World U) (VecCopy V) := do
  let vec ← RVec.withCapacity (Γ.layout t) s.length
  let (_, vec) ← withLocal vec (RVec.dropTyped Γ t)
    (RVec.extendFromSlice (Γ.layout t) s.length s.flatten)
  fromVec Γ t vt vec

/-- `with_type_from` (src/vec_copy.rs:186-200). -/
def withTypeFrom (m : Meta V) : M (World U) (VecCopy V) := do
  let data ← evalAlign m.elem.alignment fun T => do
    let v ← RVec.withCapacity T m.elem.size
    VecVoid.fromVecOverride T v m.elem
  pure ⟨data, m.vtable⟩

/-- `From<&VecCopy> for Meta` (src/meta.rs:108-116). -/
def toMeta (self : VecCopy V) : Meta V := ⟨self.data.elem, self.vtable⟩

/-- `from_raw_parts` (src/vec_copy.rs:212-214). -/
def fromRawParts (data : VecVoid) (vt : V) : VecCopy V := ⟨data, vt⟩
/-- `into_raw_parts` (src/vec_copy.rs:221-224). -/
def intoRawParts (self : VecCopy V) : VecVoid × V := (self.data, self.vtable)

/-- `upcast` / `upcast_with` (src/vec_copy.rs:230-247). -/
def upcast {W : Type} (f : V → W) (self : VecCopy V) : VecCopy W := ⟨self.data, f self.vtable⟩

/-- `derive(Clone)` on `VecCopy` (src/vec_copy.rs:52). -/
def clone (cfg : Cfg) (self : VecCopy V) : M (World U) (VecCopy V) := do
  let d ← self.data.clone cfg
  pure ⟨d, self.vtable⟩

/-! ### Type checks and accessors -/

/-- `element_type_id` (src/vec_copy.rs:373-375). -/
def elementTypeId (self : VecCopy V) : TyId := self.data.elem.type_id
/-- `len` (src/vec_copy.rs:379-381). -/
def len (self : VecCopy V) : Nat := self.data.len
/-- `is_empty` (src/vec_copy.rs:385-387). -/
def isEmpty (self : VecCopy V) : Bool := self.data.len == 0
/-- `capacity` (src/vec_copy.rs:391-393). -/
def capacity (self : VecCopy V) : Nat := self.data.cap
/-- `element_size` (src/vec_copy.rs:911-914). -/
def elementSize (self : VecCopy V) : Nat := self.data.elem.numBytes

/-- `check_ref` / `check_mut` (src/vec_copy.rs:348-365). -/
def checkRef (t : TyId) (self : VecCopy V) : Option (VecCopy V) :=
  if t ≠ self.elementTypeId then none else some self

/-- `check` (src/vec_copy.rs:337-343) consumes `self`: it is dropped on a mismatch. -/
def check (cfg : Cfg) (t : TyId) (self : VecCopy V) : M (World U) (Option (VecCopy V)) :=
  if t ≠ self.elementTypeId then do
    self.drop cfg
    pure none
  else pure (some self)

/-! ### Operations -/

/-- `reserve` (src/vec_copy.rs:251-253). -/
def reserve (Γ : TyEnv U) (cfg : Cfg) (n : Nat) : M (VecCopy V × World U) Unit :=
  onData (VecVoid.reserve Γ cfg n)

/-- `clear` (src/vec_copy.rs:292-294). -/
def clear (Γ : TyEnv U) (cfg : Cfg) : M (VecCopy V × World U) Unit := onData (VecVoid.clear Γ cfg)

/-- `push_as` (src/vec_copy.rs:322-332). On a mismatch the closure, and the element it captured, is
dropped. -/
def pushAs (Γ : TyEnv U) (cfg : Cfg) (t : TyId) (x : Bytes) : M (VecCopy V × World U) (Option Unit) := do
  let self ← getSelf
  match self.checkRef t with
  | none => do
    onWorld (worldUser (Γ.drop t x))
    pure none
  | some _ => do
    onData (VecVoid.applyUnchecked Γ cfg t (RVec.pushOwned Γ t x))
    pure (some ())

/-- `resize` (src/vec_copy.rs:263-275). -/
def resize (Γ : TyEnv U) (cfg : Cfg) (t : TyId) (newLen : Nat) (value : Bytes) :
    M (VecCopy V × World U) (Option Unit) := do
  let self ← getSelf
  match self.checkRef t with
  | none => pure none
  | some _ =>
    if self.len ≤ newLen then do
      let diff := newLen - self.len
      onData (VecVoid.reserve Γ cfg diff)
      M.repeatN diff (do let _ ← pushAs Γ cfg t value; pure ())
      pure (some ())
    else do
      onData (VecVoid.truncate Γ cfg newLen)
      pure (some ())

/-- `as_slice_as` (src/vec_copy.rs:463-467), `as_slice_as_unchecked` (476-478), `iter_as` (408-410). -/
def asSliceAs {σ : Type} (Γ : TyEnv U) (t : TyId) (self : VecCopy V) : M σ (Option (List Bytes)) :=
  match self.checkRef t with
  | none => pure none
  | some s => do
    let es ← M.lift (typedSlice (Γ.size t) s.len s.data.mem)
    pure (some es)

/-- `as_mut_slice_as` (src/vec_copy.rs:483-487), `iter_mut_as` (415-417): the caller runs `m` on the
typed mutable slice. -/
def asMutSliceAs (Γ : TyEnv U) (t : TyId) (m : M (List Bytes × World U) α) :
    M (VecCopy V × World U) (Option α) := do
  let self ← getSelf
  match self.checkRef t with
  | none => pure none
  | some s => do
    let es ← M.lift (typedSlice (Γ.size t) s.len s.data.mem)
    let a ← (⟨fun s =>
      let out := m (es, s.2)
      (out.1, ({ s.1 with data := { s.1.data with mem := splice s.1.data.mem 0 out.2.1.flatten } },
        out.2.2))⟩ : M (VecCopy V × World U) α)
    pure (some a)

/-- `fill` (src/vec_copy.rs:309-314) for `Copy` elements. -/
def fill (Γ : TyEnv U) (t : TyId) (x : Bytes) : M (VecCopy V × World U) (Option Unit) :=
  asMutSliceAs Γ t (forEachMut (M.modify fun s => (x, s.2)))

/-- `append_copy_to_vec` (src/vec_copy.rs:422-431): the new content of `vec`. Growth of the `Vec` is
std's business and not modelled here. -/
def appendCopyToVec {σ : Type} (Γ : TyEnv U) (t : TyId) (vec : List Bytes) (self : VecCopy V) :
    M σ (Option (List Bytes)) := do
  match ← self.asSliceAs Γ t with
  | none => pure none
  | some es => pure (some (vec ++ es))

/-- `copy_into_vec` (src/vec_copy.rs:435-443). -/
def copyIntoVec {σ : Type} (Γ : TyEnv U) (t : TyId) (self : VecCopy V) : M σ (Option (List Bytes)) :=
  self.appendCopyToVec Γ t []

/-- `into_vec` (src/vec_copy.rs:453-457) and `From<VecCopy> for Option<Vec>` (953-961). -/
def intoVec (Γ : TyEnv U) (cfg : Cfg) (t : TyId) (self : VecCopy V) : M (World U) (Option RVec) := do
  match ← self.check cfg t with
  | none => pure none
  | some s => do
    let v ← s.data.intoVecUnchecked cfg Γ t
    pure (some v)

/-- `get_as` (src/vec_copy.rs:491-496), `get_ref_as` (500-505): asserts the index before the type
check. -/
def getAs {σ : Type} (Γ : TyEnv U) (t : TyId) (i : Nat) (self : VecCopy V) : M σ (Option Bytes) := do
  M.assert (i < self.len)
  match self.checkRef t with
  | none => pure none
  | some s =>
    if (i + 1) * Γ.size t ≤ s.data.mem.length then
      pure (some ((s.data.mem.drop (i * Γ.size t)).take (Γ.size t)))
    else M.ub

/-- `get_mut_as` (src/vec_copy.rs:509-514), followed by the caller's use `m` of the reference. -/
def getMutAs (Γ : TyEnv U) (t : TyId) (i : Nat) (m : M (Bytes × World U) α) :
    M (VecCopy V × World U) (Option α) := do
  let self ← getSelf
  M.assert (i < self.len)
  match self.checkRef t with
  | none => pure none
  | some s =>
    if (i + 1) * Γ.size t ≤ s.data.mem.length then do
      let a ← (⟨fun s =>
        let out := m ((s.1.data.mem.drop (i * Γ.size t)).take (Γ.size t), s.2)
        (out.1, ({ s.1 with data := { s.1.data with
          mem := splice s.1.data.mem (i * Γ.size t) out.2.1 } }, out.2.2))⟩ : M (VecCopy V × World U) α)
      pure (some a)
    else M.ub

/-- `append` (src/vec_copy.rs:520-527). `buf` is kept next to the user state. -/
def append (Γ : TyEnv U) (cfg : Cfg) : M (VecCopy V × World (VecCopy V × U)) (Option Unit) := do
  let self ← getSelf
  let (_, w) ← M.get
  let buf := w.user.1
  if buf.elementTypeId = self.elementTypeId then do
    M.zoom (fun s => (s.1.data, (⟨s.2.heap, (s.2.user.1.data, s.2.user.2)⟩ : World (VecVoid × U))))
      (fun t s => ({ s.1 with data := t.1 },
        ⟨t.2.heap, ({ s.2.user.1 with data := t.2.user.1 }, t.2.user.2)⟩))
      (VecVoid.append Γ cfg)
    pure (some ())
  else pure none

/-- `rotate_left` (src/vec_copy.rs:542-544). -/
def rotateLeft (Γ : TyEnv U) (cfg : Cfg) (mid : Nat) : M (VecCopy V × World U) Unit :=
  onData (VecVoid.rotateLeft Γ cfg mid)
/-- `rotate_right` (src/vec_copy.rs:559-561). -/
def rotateRight (Γ : TyEnv U) (cfg : Cfg) (k : Nat) : M (VecCopy V × World U) Unit :=
  onData (VecVoid.rotateRight Γ cfg k)

/-! ### Value API -/

/-- The value reference built from element bytes (src/vec_copy.rs:575-584). -/
def valueOf (self : VecCopy V) (bytes : Bytes) : CopyValue V :=
  ⟨bytes, self.elementTypeId, self.data.elem.alignment, self.vtable⟩

/-- `get_ref` (src/vec_copy.rs:569-585). The bounds check is a `debug_assert!`; the address is
computed with a raw pointer. Reading memory that is not part of the content is undefined behaviour. -/
def getRef {σ : Type} (cfg : Cfg) (i : Nat) (self : VecCopy V) : M σ (CopyValue V) := do
  debugAssert cfg (i < self.len)
  let nb := self.data.elem.numBytes
  let off ← umul cfg i nb
  if off + nb ≤ self.data.mem.length then pure (self.valueOf ((self.data.mem.drop off).take nb))
  else M.ub

/-- `get_mut` (src/vec_copy.rs:589-603), followed by the caller's use `m` of the value. -/
def getMut (cfg : Cfg) (i : Nat) (m : M (CopyValue V × World U) α) : M (VecCopy V × World U) α := do
  let self ← getSelf
  debugAssert cfg (i < self.len)
  let nb := self.data.elem.numBytes
  let off ← umul cfg i nb
  if off + nb ≤ self.data.mem.length then
    ⟨fun s =>
      let out := m (s.1.valueOf ((s.1.data.mem.drop off).take nb), s.2)
      (out.1, ({ s.1 with data := { s.1.data with
        mem := splice s.1.data.mem off out.2.1.bytes } }, out.2.2))⟩
  else M.ub

/-- `iter` (src/vec_copy.rs:621-630). -/
def iter {σ : Type} (self : VecCopy V) : M σ (List (CopyValue V)) := do
  let cs ← self.data.byteChunks
  pure (cs.map self.valueOf)

/-- `iter_mut` (src/vec_copy.rs:649-662): the caller runs `body` on every value in order. -/
def iterMut (body : M (CopyValue V × World U) Unit) : M (VecCopy V × World U) Unit := do
  let self ← getSelf
  let cs ← self.data.byteChunks
  ⟨fun s =>
    let out := visitMut body (cs.map self.valueOf) s.2
    (out.1, ({ s.1 with data := { s.1.data with
      mem := splice s.1.data.mem 0 (out.2.1.map (·.bytes)).flatten } }, out.2.2))⟩

/-- `push` (src/vec_copy.rs:677-685): asserts the size before the type check. -/
def push {W : Type} (Γ : TyEnv U) (cfg : Cfg) (value : CopyValue W) :
    M (VecCopy V × World U) (Option Unit) := do
  let self ← getSelf
  M.assert (value.size == self.elementSize)
  if value.type_id = self.elementTypeId then do
    onData (VecVoid.push Γ cfg value.bytes)
    pure (some ())
  else pure none

/-- `as_slice` (src/vec_copy.rs:688-701). -/
def asSlice (self : VecCopy V) : Res (SliceCopy V) :=
  self.data.bytes.map fun b => SliceCopy.fromRawParts b self.data.elem self.vtable

/-- `as_mut_slice` (src/vec_copy.rs:704-717): the caller runs `m` on the slice. -/
def asMutSlice (m : M (SliceCopy V) α) : M (VecCopy V × World U) α := do
  let self ← getSelf
  let b ← M.lift self.data.bytes
  ⟨fun s =>
    let out := m (SliceCopy.fromRawParts b self.data.elem self.vtable)
    (out.1, ({ s.1 with data := { s.1.data with mem := splice s.1.data.mem 0 out.2.data } }, s.2))⟩

/-- `copy_from_slice` (src/vec_copy.rs:282-288). -/
def copyFromSlice (Γ : TyEnv U) (cfg : Cfg) (t : TyId) (src : List Bytes) :
    M (VecCopy V × World U) (Option Unit) :=
  asMutSlice (SliceCopy.copyFromSlice Γ cfg t src)

/-- `ElementBytesMut::swap` for `VecCopy` (src/lib.rs:225-245 with src/vec_copy.rs:920-926). The
trait is crate-private; users reach it through `as_mut_slice().swap(i, j)`. -/
def swap (cfg : Cfg) (i j : Nat) : M (VecCopy V × World U) Unit := asMutSlice (SliceCopy.swap cfg i j)

/-- `Extend<CopyValueRef>` (src/vec_copy.rs:777-788). `hint` is `iter.size_hint().0`. -/
def extend (Γ : TyEnv U) (cfg : Cfg) (hint : Nat) (values : List (CopyValue V)) :
    M (VecCopy V × World U) Unit := do
  reserve Γ cfg hint
  M.forEach values fun value => do
    let self ← getSelf
    M.assert (value.size == self.elementSize)
    M.assert (value.type_id == self.elementTypeId)
    onData (VecVoid.push Γ cfg value.bytes)

/-- `FromIterator<CopyValueRef>` (src/vec_copy.rs:756-775). `hint` is the size hint of the iterator
after its first item. If a call panics, `data` is dropped while unwinding. -/
def fromIter (Γ : TyEnv U) (cfg : Cfg) (hint : Nat) (values : List (CopyValue V)) :
    M (World U) (VecCopy V) :=
  match values with
  | [] => M.panic .unwrapNone
  | next :: rest => do
    let data ← withTypeFrom (Meta.ofValue next.bytes next.type_id next.alignment next.vtable)
    let (_, data) ← withLocal data (VecCopy.drop cfg) (do
      let _ ← push Γ cfg next
      extend Γ cfg hint rest)
    pure data

/-- `get_unchecked_ref` (src/vec_copy.rs:817-820): `unsafe`, no check at all. -/
def getUncheckedRef {σ : Type} (Γ : TyEnv U) (t : TyId) (i : Nat) (self : VecCopy V) : M σ Bytes :=
  if (i + 1) * Γ.size t ≤ self.data.mem.length then
    pure ((self.data.mem.drop (i * Γ.size t)).take (Γ.size t))
  else M.ub

end VecCopy
end Dync
