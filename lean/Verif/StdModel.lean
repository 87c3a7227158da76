import Verif.Rust
/-!
# The part of `std` used by `dync`

Bytes, the type environment, the global allocator, `Vec<T>` and slice methods.  These are not in
`/repo`; they are the recorded assumptions about the standard library (DESIGN.md, section 3).
-/
namespace Dync

/-- `MaybeUninit<u8>`; `none` is an uninitialised byte. -/
abbrev Byte := Option UInt8
/-- A byte slice `[MaybeUninit<u8>]`; also the memory image of one value. -/
abbrev Bytes := List Byte
/-- A Rust type, identified by its `TypeId`. -/
abbrev TyId := Nat

/-- The Rust types of a program: their layout and the user code attached to them.
`U` is the state user code may read and change (drop counters, heaps of nested objects, ...).
Values of type `t` are represented by their memory image (`size t` bytes).
User code may panic.  `PartialEq`, `Hash` and `Debug` are modelled as total functions. -/
structure TyEnv (U : Type) where
  /-- `size_of::<T>()` -/
  size : TyId → Nat
  /-- `align_of::<T>()` -/
  align : TyId → Nat
  align_pow : ∀ t, ∃ k, k ≤ 29 ∧ align t = 2 ^ k
  align_dvd : ∀ t, align t ∣ size t
  size_le : ∀ t, size t ≤ isizeMax
  /-- the unit type `()` -/
  unitTy : TyId
  unit_size : size unitTy = 0
  unit_align : align unitTy = 1
  /-- drop glue of `T` (`ptr::drop_in_place`) -/
  drop : TyId → Bytes → M U Unit
  /-- `T::clone(&self) -> T` -/
  clone : TyId → Bytes → M U Bytes
  clone_len : ∀ {t b u b' u'}, clone t b u = (.ok b', u') → b'.length = size t
  /-- `T::clone_from(&mut self, src)`; the referent of `&mut self` is the first state component -/
  cloneFrom : TyId → Bytes → M (Bytes × U) Unit
  cloneFrom_len : ∀ {t src d u r d' u'}, cloneFrom t src (d, u) = (r, (d', u')) →
    d.length = size t → d'.length = size t
  /-- `T::eq` -/
  eq : TyId → Bytes → Bytes → Bool
  /-- `T::hash`: the bytes it feeds to the hasher -/
  hash : TyId → Bytes → List UInt8
  /-- `T::fmt` (`Debug`) -/
  fmt : TyId → Bytes → String

/-- `std::alloc::Layout`. -/
structure Layout where
  size : Nat
  align : Nat
deriving DecidableEq, Repr

/-- The layout of one `T`. -/
abbrev TyEnv.layout {U : Type} (Γ : TyEnv U) (t : TyId) : Layout := ⟨Γ.size t, Γ.align t⟩

/-! ### Allocator -/

/-- The global allocator: which blocks are live, and with which layout they were allocated. -/
structure Heap where
  next : Nat
  live : Nat → Option Layout

/-- Pointer to the start of a block, or a dangling (never dereferenced) pointer. -/
abbrev Ptr := Option Nat

namespace Heap
/-- The heap without any live block. -/
def empty : Heap := ⟨0, fun _ => none⟩
/-- `alloc(layout)`: a fresh block; nothing is allocated for size 0. Allocation failure is not
modelled. -/
def alloc (l : Layout) (h : Heap) : Ptr × Heap :=
  if l.size = 0 then (none, h)
  else (some h.next, ⟨h.next + 1, fun i => if i = h.next then some l else h.live i⟩)
/-- Remove a block from the live set. -/
def free (i : Nat) (h : Heap) : Heap := ⟨h.next, fun j => if j = i then none else h.live j⟩
end Heap

/-- Global machine state outside of the object a method works on. -/
structure World (U : Type) where
  heap : Heap
  user : U

/-- Run a computation on the heap part of the world. -/
def onHeap {U σ α : Type} (m : M Heap α) : M (σ × World U) α :=
  M.zoom (fun s => s.2.heap) (fun h s => (s.1, { s.2 with heap := h })) m
/-- Run user code. -/
def onUser {U σ α : Type} (m : M U α) : M (σ × World U) α :=
  M.zoom (fun s => s.2.user) (fun u s => (s.1, { s.2 with user := u })) m

/-- Run a computation that only touches the world. -/
def onWorld {U σ α : Type} (m : M (World U) α) : M (σ × World U) α :=
  M.zoom (fun s => s.2) (fun w s => (s.1, w)) m
/-- Run a heap computation in the world. -/
def worldHeap {U α : Type} (m : M Heap α) : M (World U) α :=
  M.zoom (fun w => w.heap) (fun h w => { w with heap := h }) m
/-- Run user code in the world. -/
def worldUser {U α : Type} (m : M U α) : M (World U) α :=
  M.zoom (fun w => w.user) (fun u w => { w with user := u }) m
/-- The object a method works on. -/
def getSelf {U σ : Type} : M (σ × World U) σ := ⟨fun s => (.ok s.1, s)⟩
/-- Overwrite the object a method works on (without dropping the old one). -/
def setSelf {U σ : Type} (x : σ) : M (σ × World U) Unit := ⟨fun s => (.ok (), (x, s.2))⟩

/-- Run `m` on a local variable with initial value `x`. The final value of the variable is
returned. If `m` panics, the variable is dropped by `d` while unwinding (a second panic aborts). -/
def withLocal {U τ α : Type} (x : τ) (d : τ → M (World U) Unit) (m : M (τ × World U) α) :
    M (World U) (α × τ) := ⟨fun w =>
  match m (x, w) with
  | (.ok a, (x', w')) => (.ok (a, x'), w')
  | (.panic why, (x', w')) =>
    match d x' w' with
    | (.ok _, w'') => (.panic why, w'')
    | (.panic _, w'') => (.abort, w'')
    | (.ub, w'') => (.ub, w'')
    | (.abort, w'') => (.abort, w'')
  | (.ub, (_, w')) => (.ub, w')
  | (.abort, (_, w')) => (.abort, w')⟩

/-- Destructor of a `ManuallyDrop` local: does nothing. -/
def noDrop {U τ : Type} (_ : τ) : M (World U) Unit := pure ()

/-- `dealloc(ptr, layout)`. Undefined behaviour unless `ptr` is a live block that was allocated
with exactly this layout. Nothing happens for size 0. -/
def dealloc (p : Ptr) (l : Layout) : M Heap Unit := ⟨fun h =>
  if l.size = 0 then (.ok (), h)
  else match p with
    | none => (.ub, h)
    | some i => if h.live i = some l then (.ok (), h.free i) else (.ub, h)⟩

/-- `alloc` as a computation. -/
def allocM (l : Layout) : M Heap Ptr := ⟨fun h => (.ok (h.alloc l).1, (h.alloc l).2)⟩

/-- `realloc`: the old block (with its layout) is given up for a new one. -/
def realloc (p : Ptr) (old new : Layout) : M Heap Ptr := do
  dealloc p old
  allocM new

/-! ### `Vec<T>`

The layout `T` of the element type is passed explicitly. -/

/-- `std::vec::Vec<T>`: `bytes` is the memory image of the `len` initialised elements. -/
structure RVec where
  ptr : Ptr
  len : Nat
  cap : Nat
  bytes : Bytes
deriving DecidableEq, Repr

namespace RVec
variable {U : Type}

/-- `Vec::new()`; the capacity of a vector of zero-sized elements is `usize::MAX`. -/
def new (T : Layout) : RVec := ⟨none, 0, if T.size = 0 then usizeMax else 0, []⟩

/-- `Vec::with_capacity(n)` allocates exactly `n` elements. -/
def withCapacity (T : Layout) (n : Nat) : M (World U) RVec := ⟨fun w =>
  if T.size = 0 then (.ok (new T), w)
  else if n * T.size + (T.align - 1) ≤ isizeMax then
    (.ok ⟨(w.heap.alloc ⟨n * T.size, T.align⟩).1, 0, n, []⟩,
      { w with heap := (w.heap.alloc ⟨n * T.size, T.align⟩).2 })
  else (.panic .capacity, w)⟩

/-- `RawVec::MIN_NON_ZERO_CAP`. -/
def minNonZeroCap (elemSize : Nat) : Nat :=
  if elemSize = 1 then 8 else if elemSize ≤ 1024 then 4 else 1

/-- The capacity chosen by `RawVec::grow_amortized`. -/
def grownCap (T : Layout) (cap required : Nat) : Nat :=
  max (minNonZeroCap T.size) (max (cap * 2) required)

/-- `RawVec::grow_amortized(len, additional)`. -/
def grow (T : Layout) (additional : Nat) : M (RVec × World U) Unit := do
  let (v, _) ← M.get
  if T.size = 0 then M.panic .capacity else
  let required := v.len + additional
  if usizeMax < required then M.panic .capacity else
  let cap := grownCap T v.cap required
  if isizeMax < cap * T.size + (T.align - 1) then M.panic .capacity else
  let p ← onHeap (realloc v.ptr ⟨v.cap * T.size, T.align⟩ ⟨cap * T.size, T.align⟩)
  M.modify fun s => ({ s.1 with ptr := p, cap := cap }, s.2)

/-- `Vec::reserve(additional)`. -/
def reserve (T : Layout) (additional : Nat) : M (RVec × World U) Unit := do
  let (v, _) ← M.get
  if v.cap - v.len < additional then grow T additional else pure ()

/-- `Vec::push(value)`. -/
def push (T : Layout) (value : Bytes) : M (RVec × World U) Unit := do
  let (v, _) ← M.get
  if v.len = v.cap then grow T 1 else pure ()
  M.modify fun s => ({ s.1 with len := s.1.len + 1, bytes := s.1.bytes ++ value }, s.2)

/-- `Vec::push(value)` of a value with drop glue: if growing the buffer panics, `value` is dropped while
unwinding. -/
def pushOwned (Γ : TyEnv U) (t : TyId) (value : Bytes) : M (RVec × World U) Unit :=
  M.onUnwind (push (Γ.layout t) value) (onWorld (worldUser (Γ.drop t value)))

/-- `Vec::truncate(n)` for elements without drop glue. -/
def truncate (T : Layout) (n : Nat) : M (RVec × World U) Unit :=
  M.modify fun s =>
    if s.1.len < n then s else ({ s.1 with len := n, bytes := s.1.bytes.take (n * T.size) }, s.2)

/-- `Vec::clear()` for elements without drop glue. -/
def clear (T : Layout) : M (RVec × World U) Unit := truncate T 0

/-- `Vec::extend_from_slice(slice)` for `Copy` elements; `n` elements with image `bs`. -/
def extendFromSlice (T : Layout) (n : Nat) (bs : Bytes) : M (RVec × World U) Unit := do
  reserve T n
  M.modify fun s => ({ s.1 with len := s.1.len + n, bytes := s.1.bytes ++ bs }, s.2)

/-- `Vec::clone_from(&src)` for `Copy` elements: `clear` and `extend_from_slice`. -/
def cloneFrom (T : Layout) (src : RVec) : M (RVec × World U) Unit := do
  clear T
  extendFromSlice T src.len src.bytes

/-- `Vec::append(&mut other)`: moves all elements of `other` to `self`. -/
def append (T : Layout) (other : RVec) : M (RVec × World U) RVec := do
  reserve T other.len
  M.modify fun s =>
    ({ s.1 with len := s.1.len + other.len, bytes := s.1.bytes ++ other.bytes }, s.2)
  pure { other with len := 0, bytes := [] }

/-- `Vec::resize_with(n, f)` with a constant `f` producing the image `dflt`. -/
def resizeWith (T : Layout) (n : Nat) (dflt : Bytes) : M (RVec × World U) Unit := do
  let (v, _) ← M.get
  if v.len < n then do
    reserve T (n - v.len)
    M.modify fun s =>
      ({ s.1 with len := n, bytes := s.1.bytes ++ (List.replicate (n - v.len) dflt).flatten }, s.2)
  else truncate T n

/-- Dropping the buffer of a `Vec<T>` (not its elements). -/
def dropBuf (T : Layout) (v : RVec) : M (World U) Unit :=
  worldHeap (dealloc v.ptr ⟨v.cap * T.size, T.align⟩)

/-- `Vec::from_raw_parts(ptr, len, cap)` where `mem` is the initialised memory at `ptr`.
Undefined behaviour if fewer than `len` elements are initialised. A wrong capacity or alignment
shows up as undefined behaviour when the vector is reallocated or dropped. -/
def fromRawParts {σ : Type} (T : Layout) (ptr : Ptr) (len cap : Nat) (mem : Bytes) : M σ RVec :=
  if len * T.size ≤ mem.length then pure ⟨ptr, len, cap, mem.take (len * T.size)⟩ else M.ub

/-- The elements of a `Vec<T>` as a list of memory images. -/
def elems (size : Nat) (v : RVec) : List Bytes :=
  (List.range v.len).map fun i => (v.bytes.drop (i * size)).take size

/-- Dropping a `Vec<T>`: its elements in order, then its buffer. If an element's destructor panics
the remaining elements and the buffer are still dropped while unwinding. -/
def dropTyped (Γ : TyEnv U) (t : TyId) (v : RVec) : M (World U) Unit :=
  M.thenDrop (M.dropEach (v.elems (Γ.size t)) fun b => worldUser (Γ.drop t b))
    (v.dropBuf (Γ.layout t))

end RVec

/-! ### Slice methods -/

/-- `slice[a..b]`. -/
def sliceIndex {α : Type} (l : List α) (a b : Nat) : Res (List α) :=
  if a ≤ b ∧ b ≤ l.length then .ok ((l.take b).drop a) else .panic .index

/-- Write `new` at `a..a+new.length` (the effect of writing through `&mut slice[a..]`). -/
def splice {α : Type} (l : List α) (a : Nat) (new : List α) : List α :=
  l.take a ++ new ++ l.drop (a + new.length)

/-- `slice.split_at(mid)`. -/
def sliceSplitAt {α : Type} (l : List α) (mid : Nat) : Res (List α × List α) :=
  if mid ≤ l.length then .ok (l.take mid, l.drop mid) else .panic .assertion

/-- The chunks of `slice.chunks_exact(n)` for `n > 0`; a shorter remainder is skipped. -/
def chunks {α : Type} (n : Nat) (l : List α) : List (List α) :=
  if _h : 0 < n ∧ n ≤ l.length then l.take n :: chunks n (l.drop n) else []
termination_by l.length
decreasing_by simp; omega

/-- `slice.chunks_exact(n)`; panics for `n = 0`. -/
def chunksExact {α : Type} (n : Nat) (l : List α) : Res (List (List α)) :=
  if n = 0 then .panic .zeroChunk else .ok (chunks n l)

/-- `slice.rotate_left(mid)`. -/
def sliceRotateLeft {α : Type} (l : List α) (mid : Nat) : Res (List α) :=
  if mid ≤ l.length then .ok (l.drop mid ++ l.take mid) else .panic .assertion

/-- `slice.rotate_right(k)`. -/
def sliceRotateRight {α : Type} (l : List α) (k : Nat) : Res (List α) :=
  if k ≤ l.length then .ok (l.drop (l.length - k) ++ l.take (l.length - k)) else .panic .assertion

/-- `dst.copy_from_slice(src)`: the new content of `dst`. -/
def sliceCopyFrom {α : Type} (dst src : List α) : Res (List α) :=
  if dst.length = src.length then .ok src else .panic .lenMismatch

/-- `a.swap_with_slice(b)`: the new contents of `a` and `b`. -/
def sliceSwapWith {α : Type} (a b : List α) : Res (List α × List α) :=
  if a.length = b.length then .ok (b, a) else .panic .lenMismatch

/-- `Vec::<T>::rotate_left(mid)` (by elements). -/
def RVec.rotateLeft {U : Type} (T : Layout) (mid : Nat) : M (RVec × World U) Unit := do
  let (v, _) ← M.get
  if mid ≤ v.len then
    M.modify fun s => ({ s.1 with
      bytes := s.1.bytes.drop (mid * T.size) ++ s.1.bytes.take (mid * T.size) }, s.2)
  else M.panic .assertion

/-- `Vec::<T>::rotate_right(k)` (by elements). -/
def RVec.rotateRight {U : Type} (T : Layout) (k : Nat) : M (RVec × World U) Unit := do
  let (v, _) ← M.get
  if k ≤ v.len then
    M.modify fun s => ({ s.1 with
      bytes := s.1.bytes.drop ((v.len - k) * T.size) ++ s.1.bytes.take ((v.len - k) * T.size) }, s.2)
  else M.panic .assertion

end Dync
