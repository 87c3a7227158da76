import Verif.Elem
/-!
# `src/vec_void.rs`, and the `VecVoid` byte accessors of `src/vec_copy.rs` and `src/lib.rs`

Products `len * size` and `cap * size` of a vector's own fields are computed on `Nat`: they are
bounded by the size of its allocation. Products with a caller-supplied number use `umul`.
-/
namespace Dync

/-- `VecVoid` (src/vec_void.rs:15-24). `mem` is the initialised memory `ptr` points to. -/
structure VecVoid where
  ptr : Ptr
  len : Nat
  cap : Nat
  elem : ElemInfo
  mem : Bytes
deriving DecidableEq, Repr

namespace VecVoid
variable {U V α : Type}

/-- `into_valid_vec` (src/vec_void.rs:103-114). -/
def intoValidVec (T : Layout) : M (RVec × World U) Unit := do
  let v ← getSelf
  if v.cap = 0 then RVec.reserve T 1 else pure ()

/-- `VecVoid::from_vec::<T>` (src/vec_void.rs:121-129). The vector is in a `ManuallyDrop`. -/
def fromVec (Γ : TyEnv V) (t : TyId) (v : RVec) : M (World U) VecVoid := do
  let (_, v) ← withLocal v noDrop (intoValidVec (Γ.layout t))
  pure ⟨v.ptr, v.len, v.cap, ElemInfo.new Γ t, v.bytes⟩

/-- `VecVoid::default()` (src/vec_void.rs:77-82): `from_vec(Vec::<()>::new())`, see
`default_eq_fromVec`. -/
def default (Γ : TyEnv V) : VecVoid := ⟨none, 0, usizeMax, ElemInfo.new Γ Γ.unitTy, []⟩

/-- `from_vec_override::<T>` (src/vec_void.rs:146-169). `velem` is `ElemInfo::new::<T>()`.
The vector is in a `ManuallyDrop` before the assertions. -/
def fromVecOverride {σ : Type} (T : Layout) (v : RVec) (elem : ElemInfo) : M σ VecVoid := do
  let velemSize := T.size / T.align
  M.assert (T.align == elem.alignment)
  M.assert (elem.size ≤ v.cap)
  if elem.size = 0 then M.panic .divZero else
  M.assert (v.len * velemSize % elem.size == 0)
  let len := v.len * velemSize / elem.size
  M.assert (v.cap * velemSize % elem.size == 0)
  let cap := v.cap * velemSize / elem.size
  pure ⟨v.ptr, len, cap, elem, v.bytes⟩

/-- `aligned_vec_unchecked::<T>` / `into_aligned_vec_unchecked::<T>` (src/vec_void.rs:353-374). -/
def alignedVec {σ : Type} (cfg : Cfg) (T : Layout) (self : VecVoid) : M σ RVec := do
  debugAssert cfg (T.size == self.elem.alignment)
  debugAssert cfg (T.align == self.elem.alignment)
  let len := self.len * self.elem.size
  let cap := self.cap * self.elem.size
  RVec.fromRawParts T self.ptr len cap self.mem

/-- `into_vec_unchecked::<T>` (src/vec_void.rs:384-389). -/
def intoVecUnchecked {σ : Type} (cfg : Cfg) (Γ : TyEnv V) (t : TyId) (self : VecVoid) :
    M σ RVec := do
  debugAssert cfg (Γ.size t == self.elem.numBytes)
  debugAssert cfg (Γ.align t == self.elem.alignment)
  RVec.fromRawParts (Γ.layout t) self.ptr self.len self.cap self.mem

/-- `apply_aligned_unchecked::<T>` (src/vec_void.rs:174-184). `mem::take` leaves the default value
in `self`; the local `v` is dropped if `f` panics; `from_vec_override` forgets it if it panics. -/
def applyAligned (Γ : TyEnv V) (cfg : Cfg) (T : Layout) (f : M (RVec × World U) α) :
    M (VecVoid × World U) α := do
  let self ← getSelf
  let origElem := self.elem
  setSelf (default Γ)
  let v ← alignedVec cfg T self
  let (out, v) ← onWorld (withLocal v (RVec.dropBuf T) f)
  let new ← fromVecOverride T v origElem
  setSelf new
  pure out

/-- `apply_unchecked::<T>` (src/vec_void.rs:189-198). -/
def applyUnchecked (Γ : TyEnv U) (cfg : Cfg) (t : TyId) (f : M (RVec × World U) α) :
    M (VecVoid × World U) α := do
  let self ← getSelf
  setSelf (default Γ)
  let v ← intoVecUnchecked cfg Γ t self
  let (out, v) ← onWorld (withLocal v (RVec.dropTyped Γ t) f)
  let new ← onWorld (fromVec Γ t v)
  setSelf new
  pure out

/-- `impl Clone for VecVoid` (src/vec_void.rs:27-56). The aliasing vector `v` is a `ManuallyDrop`. -/
def clone (cfg : Cfg) (self : VecVoid) : M (World U) VecVoid :=
  evalAlign self.elem.alignment fun T => do
    let v ← alignedVec cfg T self
    let newV ← RVec.withCapacity T v.cap
    let (_, newV) ← withLocal newV (RVec.dropBuf T) (RVec.cloneFrom T v)
    fromVecOverride T newV self.elem

/-- `VecVoid::clear` (src/vec_void.rs:201-211). -/
def clear (Γ : TyEnv V) (cfg : Cfg) : M (VecVoid × World U) Unit := do
  let self ← getSelf
  evalAlign self.elem.alignment fun T => applyAligned Γ cfg T (RVec.clear T)

/-- `VecVoid::reserve` (src/vec_void.rs:215-226). -/
def reserve (Γ : TyEnv V) (cfg : Cfg) (additional : Nat) : M (VecVoid × World U) Unit := do
  let self ← getSelf
  evalAlign self.elem.alignment fun T =>
    let size := self.elem.size
    applyAligned Γ cfg T (do
      let n ← umul cfg additional size
      RVec.reserve T n)

/-- `VecVoid::truncate` (src/vec_void.rs:229-240). -/
def truncate (Γ : TyEnv V) (cfg : Cfg) (newLen : Nat) : M (VecVoid × World U) Unit := do
  let self ← getSelf
  evalAlign self.elem.alignment fun T =>
    let size := self.elem.size
    applyAligned Γ cfg T (do
      let n ← umul cfg newLen size
      RVec.truncate T n)

/-- Exchange the roles of the object a method works on and one kept in the user state (for the nested closures of `append`,
src/vec_void.rs:243-261). -/
def swapRoles {σ τ : Type} (m : M (τ × World (σ × U)) α) : M (σ × World (τ × U)) α :=
  M.zoom (fun s => (s.2.user.1, ⟨s.2.heap, (s.1, s.2.user.2)⟩))
    (fun t _ => (t.2.user.1, ⟨t.2.heap, (t.1, t.2.user.2)⟩)) m

/-- `VecVoid::append` (src/vec_void.rs:243-261). `other` is kept next to the user state. -/
def append (Γ : TyEnv V) (cfg : Cfg) : M (VecVoid × World (VecVoid × U)) Unit := do
  let self ← getSelf
  let (_, w) ← M.get
  let other := w.user.1
  M.assert (self.elem.type_id == other.elem.type_id)
  debugAssert cfg (self.elem.alignment == other.elem.alignment)
  debugAssert cfg (self.elem.size == other.elem.size)
  evalAlign self.elem.alignment fun T =>
    applyAligned Γ cfg T
      (swapRoles (applyAligned Γ cfg T
        (swapRoles (do
          let (_, w) ← M.get
          let source := w.user.1
          let source ← RVec.append T source
          M.modify fun s => (s.1, ⟨s.2.heap, (source, s.2.user.2)⟩)))))

/-- `VecVoid::push` (src/vec_void.rs:264-279): reads *one* `T` from the start of `val` and pushes
it. Reading past the end of `val` is undefined behaviour. -/
def push (Γ : TyEnv V) (cfg : Cfg) (val : Bytes) : M (VecVoid × World U) Unit := do
  let self ← getSelf
  evalAlign self.elem.alignment fun T =>
    applyAligned Γ cfg T (
      if T.size ≤ val.length then RVec.push T (val.take T.size) else M.ub)

/-- `VecVoid::resize_with` (src/vec_void.rs:284-313). `init` works on the `num_bytes` bytes starting
at the old length (the first state component). -/
def resizeWith (Γ : TyEnv V) (cfg : Cfg) (len : Nat) (init : M (Bytes × World U) Unit) :
    M (VecVoid × World U) Unit := do
  let self ← getSelf
  evalAlign self.elem.alignment fun T =>
    let size := self.elem.size
    let numBytes := self.elem.numBytes
    applyAligned Γ cfg T (do
      let v ← getSelf
      let origLen := v.len
      let n ← umul cfg len size
      RVec.resizeWith T n (List.replicate T.size (some 0))
      let v ← getSelf
      -- `&mut v[orig_len..]`, then a byte slice of `num_bytes` bytes from there
      if v.len < origLen then M.panic .index else
      if v.bytes.length < origLen * T.size + numBytes then M.ub else
      M.zoom (fun s => ((s.1.bytes.drop (origLen * T.size)).take numBytes, s.2))
        (fun t s => ({ s.1 with bytes := splice s.1.bytes (origLen * T.size) t.1 }, t.2)) init)

/-- `VecVoid::rotate_left` (src/vec_void.rs:316-328). -/
def rotateLeft (Γ : TyEnv V) (cfg : Cfg) (n : Nat) : M (VecVoid × World U) Unit := do
  let self ← getSelf
  evalAlignLimited self.elem.alignment fun T =>
    let size := self.elem.size
    applyAligned Γ cfg T (do
      let k ← umul cfg n size
      RVec.rotateLeft T k)

/-- `VecVoid::rotate_right` (src/vec_void.rs:331-343). -/
def rotateRight (Γ : TyEnv V) (cfg : Cfg) (n : Nat) : M (VecVoid × World U) Unit := do
  let self ← getSelf
  evalAlignLimited self.elem.alignment fun T =>
    let size := self.elem.size
    applyAligned Γ cfg T (do
      let k ← umul cfg n size
      RVec.rotateRight T k)

/-- `impl Drop for VecVoid` (src/vec_void.rs:392-401): frees the buffer. -/
def drop (cfg : Cfg) (self : VecVoid) : M (World U) Unit :=
  evalAlign self.elem.alignment fun T => do
    let v ← alignedVec cfg T self
    v.dropBuf T

/-! ### Byte access -/

/-- `<VecVoid as ElementBytes>::bytes` (src/vec_copy.rs:894-901), also the slices built in
`byte_chunks_mut` (862-865), `bytes_mut` (905-910), `VecCopy::as_slice`/`as_mut_slice` (688-717). -/
def bytes (self : VecVoid) : Res Bytes :=
  if self.len * self.elem.numBytes ≤ self.mem.length then
    .ok (self.mem.take (self.len * self.elem.numBytes))
  else .ub

/-- `byte_chunks` (src/vec_copy.rs:845-848) and `byte_chunks_mut` (860-867). -/
def byteChunks {σ : Type} (self : VecVoid) : M σ (List Bytes) := do
  let bs ← M.lift self.bytes
  M.lift (chunksExact self.elem.numBytes bs)

end VecVoid

/-- `ElementBytes::index_byte_range` (src/lib.rs:197-199). -/
def indexByteRange {σ : Type} (cfg : Cfg) (elementSize i : Nat) : M σ (Nat × Nat) := do
  let a ← umul cfg i elementSize
  let i1 ← uadd cfg i 1
  let b ← umul cfg i1 elementSize
  pure (a, b)

/-- `ElementBytes::index_byte_slice` (src/lib.rs:203-205). -/
def indexByteSlice {σ : Type} (cfg : Cfg) (elementSize : Nat) (bytes : Bytes) (i : Nat) :
    M σ Bytes := do
  let (a, b) ← indexByteRange cfg elementSize i
  M.lift (sliceIndex bytes a b)

/-- `ElementBytesMut::swap` (src/lib.rs:225-245) on the byte slice of a container. -/
def swapBytes {σ : Type} (cfg : Cfg) (elementSize : Nat) (bytes : Bytes) (i j : Nat) :
    M σ Bytes := do
  if i = j then pure bytes else
  let (ra, rb) ← indexByteRange cfg elementSize 0
  if i < j then do
    let (la, lb) ← indexByteRange cfg elementSize i
    let m ← umul cfg elementSize j
    let (l, r) ← M.lift (sliceSplitAt bytes m)
    let ls ← M.lift (sliceIndex l la lb)
    let rs ← M.lift (sliceIndex r ra rb)
    let (ls', rs') ← M.lift (sliceSwapWith ls rs)
    pure (splice l la ls' ++ splice r ra rs')
  else do
    let (la, lb) ← indexByteRange cfg elementSize j
    let m ← umul cfg elementSize i
    let (l, r) ← M.lift (sliceSplitAt bytes m)
    let ls ← M.lift (sliceIndex l la lb)
    let rs ← M.lift (sliceIndex r ra rb)
    let (ls', rs') ← M.lift (sliceSwapWith ls rs)
    pure (splice l la ls' ++ splice r ra rs')

/-- `VecVoid::get_bytes` (src/vec_copy.rs:871-875) and `get_bytes_mut` (884-887). -/
def VecVoid.getBytes {σ : Type} (cfg : Cfg) (self : VecVoid) (i : Nat) : M σ Bytes := do
  debugAssert cfg (i < self.len)
  let bs ← M.lift self.bytes
  indexByteSlice cfg self.elem.numBytes bs i

end Dync
