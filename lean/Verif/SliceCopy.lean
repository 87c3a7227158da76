import Verif.CopyValue
/-!
# `src/slice_copy.rs` and `src/index_slice.rs`

`SliceCopy` and `SliceCopyMut` have the same fields; both are modelled by `SliceCopy`. `data` is the
content of the referenced memory. Methods with `&mut self` are computations whose state is the slice.
Methods that hand out a mutable sub-view take the computation `m` the caller runs on that view.
-/
namespace Dync
variable {U V σ α : Type}

/-- Rust's range types accepted by `subslice` (the implementations in src/index_slice.rs:10-60). -/
inductive Rng where
  | range (start stop : Nat)          -- `a..b`
  | rangeTo (stop : Nat)              -- `..b`
  | rangeFrom (start : Nat)           -- `a..`
  | full                              -- `..`
  | inclusive (start stop : Nat)      -- `a..=b`
  | toInclusive (stop : Nat)          -- `..=b`
deriving DecidableEq, Repr

/-- `ScaleRange::scale_range` (src/index_slice.rs:10-60), one impl per range type. -/
def Rng.scale (cfg : Cfg) (scale : Nat) : Rng → M σ Rng
  | .range a b => do let a' ← umul cfg a scale; let b' ← umul cfg b scale; pure (.range a' b')
  | .rangeTo b => do let b' ← umul cfg b scale; pure (.rangeTo b')
  | .rangeFrom a => do let a' ← umul cfg a scale; pure (.rangeFrom a')
  | .full => pure .full
  | .inclusive a b => do let a' ← umul cfg a scale; let b' ← umul cfg b scale; pure (.inclusive a' b')
  | .toInclusive b => do let b' ← umul cfg b scale; pure (.toInclusive b')

/-- The half-open index interval of a range indexing a slice of length `n` (std `SliceIndex`):
`a..=b` is `a..b+1` (panics if `b = usize::MAX`). -/
def Rng.bounds (n : Nat) : Rng → Res (Nat × Nat)
  | .range a b => .ok (a, b)
  | .rangeTo b => .ok (0, b)
  | .rangeFrom a => .ok (a, n)
  | .full => .ok (0, n)
  | .inclusive a b => if b = usizeMax then .panic .index else .ok (a, b + 1)
  | .toInclusive b => if b = usizeMax then .panic .index else .ok (0, b + 1)

/-- `SliceCopy<V>` (src/slice_copy.rs:18-27) and `SliceCopyMut<V>` (382-390). -/
structure SliceCopy (V : Type) where
  data : Bytes
  elem : ElemInfo
  vtable : V
deriving DecidableEq, Repr

/-- `slice::from_raw_parts(ptr as *const T, n)` (src/slice_copy.rs:220) where `mem` is the initialised memory at `ptr`: the
list of element images. -/
def typedSlice (size n : Nat) (mem : Bytes) : Res (List Bytes) :=
  if n * size ≤ mem.length then .ok ((List.range n).map fun i => (mem.drop (i * size)).take size)
  else .ub

namespace SliceCopy

/-- `from_slice` / `from_slice_non_copy` (src/slice_copy.rs:32-55, 394-417). -/
def fromSlice (Γ : TyEnv U) (t : TyId) (vt : V) (s : List Bytes) : SliceCopy V :=
  ⟨s.flatten, ElemInfo.new Γ t, vt⟩

/-- `upcast` / `upcast_with` (src/slice_copy.rs:98-117, 463-482). -/
def upcast {W : Type} (f : V → W) (s : SliceCopy V) : SliceCopy W := ⟨s.data, s.elem, f s.vtable⟩

/-- `into_raw_parts` (src/slice_copy.rs:68-71, 426-429). -/
def intoRawParts (s : SliceCopy V) : Bytes × ElemInfo × V := (s.data, s.elem, s.vtable)
/-- `from_raw_parts` (src/slice_copy.rs:83-93, 441-451). -/
def fromRawParts (data : Bytes) (elem : ElemInfo) (vt : V) : SliceCopy V := ⟨data, elem, vt⟩

/-- `reborrow`, `reborrow_mut` (src/slice_copy.rs:136-142, 511-529), `From<SliceCopyMut>` (820-838). -/
def reborrow (s : SliceCopy V) : SliceCopy V := ⟨s.data, s.elem, s.vtable⟩

/-- `check` (src/slice_copy.rs:124-130, 499-505). -/
def check (t : TyId) (s : SliceCopy V) : Option (SliceCopy V) :=
  if t ≠ s.elem.type_id then none else some s

/-- `len` (src/slice_copy.rs:156-159, 543-546). -/
def len (cfg : Cfg) (s : SliceCopy V) : M σ Nat := do
  if cfg.debug then
    if s.elem.numBytes = 0 then M.panic .divZero else M.assert (s.data.length % s.elem.numBytes == 0)
  else pure ()
  if s.elem.numBytes = 0 then M.panic .divZero else
  pure (s.data.length / s.elem.numBytes)

/-- `is_empty` (src/slice_copy.rs:163-165, 550-552). -/
def isEmpty (s : SliceCopy V) : Bool := s.data.isEmpty

/-- `as_slice::<T>` (src/slice_copy.rs:218-221) and `iter_as` (186-188). -/
def asSlice (Γ : TyEnv U) (cfg : Cfg) (t : TyId) (s : SliceCopy V) : M σ (Option (List Bytes)) :=
  match s.check t with
  | none => pure none
  | some s => do
    let n ← s.len cfg
    let es ← M.lift (typedSlice (Γ.size t) n s.data)
    pure (some es)

/-- `SliceCopyMut::as_slice::<T>` (src/slice_copy.rs:598-602) and `iter_as` (568-570): calls `len`
before the type check. The caller runs `m` on the typed mutable slice. -/
def asSliceMut (Γ : TyEnv U) (cfg : Cfg) (t : TyId) (m : M (List Bytes) α) :
    M (SliceCopy V) (Option α) := do
  let self ← M.get
  let n ← self.len cfg
  match self.check t with
  | none => pure none
  | some _ => do
    let es ← M.lift (typedSlice (Γ.size t) n self.data)
    let a ← (⟨fun s => ((m es).1, { s with data := splice s.data 0 (m es).2.flatten })⟩ : M (SliceCopy V) α)
    pure (some a)

/-- `append_copy_to_vec` (src/slice_copy.rs:193-201, 575-582): the new content of `vec`. Growth of
the `Vec` is std's business and not modelled here. -/
def appendCopyToVec (Γ : TyEnv U) (cfg : Cfg) (t : TyId) (vec : List Bytes) (s : SliceCopy V) :
    M σ (Option (List Bytes)) := do
  match ← s.asSlice Γ cfg t with
  | none => pure none
  | some es => pure (some (vec ++ es))

/-- `copy_into_vec` (src/slice_copy.rs:204-213, 585-594). -/
def copyIntoVec (Γ : TyEnv U) (cfg : Cfg) (t : TyId) (s : SliceCopy V) : M σ (Option (List Bytes)) :=
  s.appendCopyToVec Γ cfg t []

/-- `get_as::<T>(i)` (src/slice_copy.rs:225-229): asserts the index before the type check. -/
def getAs (Γ : TyEnv U) (cfg : Cfg) (t : TyId) (i : Nat) (s : SliceCopy V) : M σ (Option Bytes) := do
  let n ← s.len cfg
  M.assert (i < n)
  match s.check t with
  | none => pure none
  | some s =>
    if (i + 1) * Γ.size t ≤ s.data.length then pure (some ((s.data.drop (i * Γ.size t)).take (Γ.size t)))
    else M.ub

/-- `SliceCopyMut::get_as::<T>(i)` (src/slice_copy.rs:606-610), followed by the write `*r = x`. -/
def setAs (Γ : TyEnv U) (cfg : Cfg) (t : TyId) (i : Nat) (x : Bytes) : M (SliceCopy V) (Option Unit) := do
  let self ← M.get
  let n ← self.len cfg
  M.assert (i < n)
  match self.check t with
  | none => pure none
  | some _ =>
    if (i + 1) * Γ.size t ≤ self.data.length then do
      M.set { self with data := splice self.data (i * Γ.size t) x }
      pure (some ())
    else M.ub

/-- The value reference built from element bytes (src/slice_copy.rs:251-260 and the other users of
`from_raw_parts`). -/
def valueOf (s : SliceCopy V) (bytes : Bytes) : CopyValue V :=
  ⟨bytes, s.elem.type_id, s.elem.alignment, s.vtable⟩

/-- `iter` (src/slice_copy.rs:251-260), `into_iter` (264-273), via `byte_chunks` (350-352). -/
def iter (s : SliceCopy V) : M σ (List (CopyValue V)) := do
  let cs ← M.lift (chunksExact s.elem.numBytes s.data)
  pure (cs.map s.valueOf)

/-- `SliceCopyMut::iter` (src/slice_copy.rs:658-668) and `into_iter` (672-681): the caller runs
`body` on every value in order. -/
def iterMut (body : M (CopyValue V × σ) Unit) : M (SliceCopy V × σ) Unit := do
  let (self, _) ← M.get
  let cs ← M.lift (chunksExact self.elem.numBytes self.data)
  ⟨fun s =>
    let out := visitMut body (cs.map self.valueOf) s.2
    (out.1, ({ s.1 with data := splice s.1.data 0 (out.2.1.map (·.bytes)).flatten }, out.2.2))⟩

/-- `chunks_exact` (src/slice_copy.rs:276-284, 684-692). -/
def chunksExact (cfg : Cfg) (k : Nat) (s : SliceCopy V) : M σ (List (SliceCopy V)) := do
  let n ← umul cfg s.elem.numBytes k
  let cs ← M.lift (Dync.chunksExact n s.data)
  pure (cs.map fun d => fromRawParts d s.elem s.vtable)

/-- `chunks_exact_mut` (src/slice_copy.rs:695-703): the caller runs `body` on every chunk in order. -/
def chunksExactMut (cfg : Cfg) (k : Nat) (body : M (SliceCopy V × σ) Unit) : M (SliceCopy V × σ) Unit := do
  let (self, _) ← M.get
  let n ← umul cfg self.elem.numBytes k
  let cs ← M.lift (Dync.chunksExact n self.data)
  ⟨fun s =>
    let out := visitMut body (cs.map fun d => fromRawParts d self.elem self.vtable) s.2
    (out.1, ({ s.1 with data := splice s.1.data 0 (out.2.1.map (·.data)).flatten }, out.2.2))⟩

/-- `split_at` (src/slice_copy.rs:286-299). -/
def splitAt (cfg : Cfg) (mid : Nat) (s : SliceCopy V) : M σ (SliceCopy V × SliceCopy V) := do
  let n ← umul cfg mid s.elem.numBytes
  let (l, r) ← M.lift (sliceSplitAt s.data n)
  pure (fromRawParts l s.elem s.vtable, fromRawParts r s.elem s.vtable)

/-- `SliceCopyMut::split_at` (src/slice_copy.rs:705-718): the caller runs `m` on both halves. -/
def splitAtMut (cfg : Cfg) (mid : Nat) (m : M (SliceCopy V × SliceCopy V) α) : M (SliceCopy V) α := do
  let self ← M.get
  let n ← umul cfg mid self.elem.numBytes
  let (l, r) ← M.lift (sliceSplitAt self.data n)
  ⟨fun s =>
    let out := m (fromRawParts l s.elem s.vtable, fromRawParts r s.elem s.vtable)
    (out.1, { s with data := out.2.1.data ++ out.2.2.data })⟩

/-- `get` (src/slice_copy.rs:303-315, 722-734). -/
def get (cfg : Cfg) (i : Nat) (s : SliceCopy V) : M σ (CopyValue V) := do
  if cfg.debug then do
    let n ← s.len cfg
    M.assert (i < n)
  else pure ()
  let b ← indexByteSlice cfg s.elem.numBytes s.data i
  pure (s.valueOf b)

/-- `SliceCopyMut::get_mut` (src/slice_copy.rs:738-753): the caller runs `m` on the value. -/
def getMut (cfg : Cfg) (i : Nat) (m : M (CopyValue V) α) : M (SliceCopy V) α := do
  let self ← M.get
  if cfg.debug then do
    let n ← self.len cfg
    M.assert (i < n)
  else pure ()
  let (a, b) ← indexByteRange cfg self.elem.numBytes i
  let bs ← M.lift (sliceIndex self.data a b)
  ⟨fun s =>
    let out := m (s.valueOf bs)
    (out.1, { s with data := splice s.data a out.2.bytes })⟩

/-- `subslice` (src/slice_copy.rs:319-328, 757-766), `into_subslice` (332-342). -/
def subslice (cfg : Cfg) (r : Rng) (s : SliceCopy V) : M σ (SliceCopy V) := do
  let r ← r.scale cfg s.elem.numBytes
  let (a, b) ← M.lift (r.bounds s.data.length)
  let d ← M.lift (sliceIndex s.data a b)
  pure ⟨d, s.elem, s.vtable⟩

/-- `subslice_mut` (src/slice_copy.rs:770-780), `into_subslice` (784-794): the caller runs `m` on the
view. -/
def subsliceMut (cfg : Cfg) (r : Rng) (m : M (SliceCopy V) α) : M (SliceCopy V) α := do
  let self ← M.get
  let r ← r.scale cfg self.elem.numBytes
  let (a, b) ← M.lift (r.bounds self.data.length)
  let d ← M.lift (sliceIndex self.data a b)
  ⟨fun s =>
    let out := m ⟨d, s.elem, s.vtable⟩
    (out.1, { s with data := splice s.data a out.2.data })⟩

/-- `SliceCopyMut::swap` (src/slice_copy.rs:455-457). -/
def swap (cfg : Cfg) (i j : Nat) : M (SliceCopy V) Unit := do
  let self ← M.get
  let d ← swapBytes cfg self.elem.numBytes self.data i j
  M.set { self with data := d }

/-- `SliceCopyMut::copy_from_slice` (src/slice_copy.rs:490-494). -/
def copyFromSlice (Γ : TyEnv U) (cfg : Cfg) (t : TyId) (src : List Bytes) :
    M (SliceCopy V) (Option Unit) :=
  asSliceMut Γ cfg t (do
    let dst ← M.get
    let new ← M.lift (sliceCopyFrom dst src)
    M.set new)

/-- `SliceCopyMut::rotate_left` (src/slice_copy.rs:626-628). -/
def rotateLeft (cfg : Cfg) (mid : Nat) : M (SliceCopy V) Unit := do
  let self ← M.get
  let n ← umul cfg mid self.elem.numBytes
  let d ← M.lift (sliceRotateLeft self.data n)
  M.set { self with data := d }

/-- `SliceCopyMut::rotate_right` (src/slice_copy.rs:644-646). -/
def rotateRight (cfg : Cfg) (k : Nat) : M (SliceCopy V) Unit := do
  let self ← M.get
  let n ← umul cfg k self.elem.numBytes
  let d ← M.lift (sliceRotateRight self.data n)
  M.set { self with data := d }

end SliceCopy
end Dync
