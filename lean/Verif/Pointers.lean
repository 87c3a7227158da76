import Verif.Safety
/-!
# Views as pointers

In `SliceCopy.lean` a view is the bytes it refers to, and a mutable part of a view is copied out and written back. Here
the same functions work on addresses: a view is a pointer with a length into one shared memory, and parts of it are
pointers into the same memory. Every access is recorded with the alignment that Rust requires for it: that of `T` for
references to `T` and `[T]`, 1 for bytes.
-/
namespace Dync
variable {U V α β : Type}

/-- An access to memory. -/
structure Access where
  addr : Nat
  len : Nat
  align : Nat
  write : Bool
deriving DecidableEq

/-- Memory, and the accesses so far. -/
structure Mem where
  byte : Nat → Byte
  log : List Access

namespace Mem

/-- The `n` bytes from address `a` on. -/
def read (m : Mem) (a n : Nat) : Bytes := (List.range n).map fun i => m.byte (a + i)

/-- Overwrite the bytes from address `a` on. -/
def write (m : Mem) (a : Nat) (bs : Bytes) : Mem :=
  { m with byte := fun i => if a ≤ i then bs[i - a]?.getD (m.byte i) else m.byte i }

/-- Read through a reference. -/
def load (a n align : Nat) : M Mem Bytes := ⟨fun m => (.ok (m.read a n), { m with log := m.log ++ [⟨a, n, align, false⟩] })⟩

/-- Write through a reference. -/
def store (a : Nat) (bs : Bytes) (align : Nat) : M Mem Unit :=
  ⟨fun m => (.ok (), { m.write a bs with log := m.log ++ [⟨a, bs.length, align, true⟩] })⟩

end Mem

/-- `SliceCopyMut<V>` (src/slice_copy.rs:382-390): `data` is a pointer and a number of bytes. -/
structure PtrView (V : Type) where
  addr : Nat
  len : Nat
  elem : ElemInfo
  vtable : V

namespace PtrView

/-- `&mut data[a..b]`. -/
def range (v : PtrView V) (a b : Nat) : Res (PtrView V) :=
  if a ≤ b ∧ b ≤ v.len then .ok { v with addr := v.addr + a, len := b - a } else .panic .index

/-- `data.split_at_mut(mid)`. -/
def cut (v : PtrView V) (mid : Nat) : Res (PtrView V × PtrView V) :=
  if mid ≤ v.len then .ok ({ v with len := mid }, { v with addr := v.addr + mid, len := v.len - mid }) else .panic .assertion

/-- `data.chunks_exact_mut(n)`. -/
def chunks (v : PtrView V) (n : Nat) : Res (List (PtrView V)) :=
  if n = 0 then .panic .zeroChunk else .ok ((List.range (v.len / n)).map fun c => { v with addr := v.addr + c * n, len := n })

/-- `len` (src/slice_copy.rs:543-546). -/
def count (cfg : Cfg) (v : PtrView V) : M Mem Nat := do
  if cfg.debug then
    if v.elem.numBytes = 0 then M.panic .divZero else M.assert (v.len % v.elem.numBytes == 0)
  else pure ()
  if v.elem.numBytes = 0 then M.panic .divZero else
  pure (v.len / v.elem.numBytes)

/-- The bytes of element `i` in `get` and `get_mut` (src/slice_copy.rs:722-753). -/
def elemAt (cfg : Cfg) (i : Nat) (v : PtrView V) : M Mem (PtrView V) := do
  if cfg.debug then do
    let n ← v.count cfg
    M.assert (i < n)
  else pure ()
  let (a, b) ← indexByteRange cfg v.elem.numBytes i
  M.lift (v.range a b)

/-- `Bytes::from_bytes` (src/bytes.rs:99-102) on the bytes of an element, which reads a `T`. -/
def readAs (Γ : TyEnv U) (t : TyId) (v : PtrView V) : M Mem Bytes := do
  M.assert (v.len == Γ.size t)
  Mem.load v.addr (Γ.size t) (Γ.align t)

/-- `Bytes::from_bytes_mut` (src/bytes.rs:81-84), followed by `*r = f(*r)`. -/
def changeAs (Γ : TyEnv U) (t : TyId) (f : Bytes → Bytes) (v : PtrView V) : M Mem Unit := do
  M.assert (v.len == Γ.size t)
  let b ← Mem.load v.addr (Γ.size t) (Γ.align t)
  Mem.store v.addr (f b) (Γ.align t)

/-- The elements of the typed slice of length `n` at the start of the view (src/slice_copy.rs:218-221, 598-602). -/
def readSlice (Γ : TyEnv U) (t : TyId) (n : Nat) (v : PtrView V) : M Mem (List Bytes) := do
  let bs ← Mem.load v.addr (n * Γ.size t) (Γ.align t)
  M.lift (typedSlice (Γ.size t) n bs)

/-- Exchange the bytes of two views: `swap_with_slice`. -/
def exchange (a b : PtrView V) : M Mem Unit :=
  if a.len = b.len then do
    let x ← Mem.load a.addr a.len 1
    let y ← Mem.load b.addr b.len 1
    Mem.store a.addr y 1
    Mem.store b.addr x 1
  else M.panic .lenMismatch

/-- `ElementBytesMut::swap` (src/lib.rs:225-245). -/
def swap (cfg : Cfg) (i j : Nat) (v : PtrView V) : M Mem Unit := do
  if i = j then pure () else
  let (ra, rb) ← indexByteRange cfg v.elem.numBytes 0
  if i < j then do
    let (la, lb) ← indexByteRange cfg v.elem.numBytes i
    let m ← umul cfg v.elem.numBytes j
    let (l, r) ← M.lift (v.cut m)
    let ls ← M.lift (l.range la lb)
    let rs ← M.lift (r.range ra rb)
    exchange ls rs
  else do
    let (la, lb) ← indexByteRange cfg v.elem.numBytes j
    let m ← umul cfg v.elem.numBytes i
    let (l, r) ← M.lift (v.cut m)
    let ls ← M.lift (l.range la lb)
    let rs ← M.lift (r.range ra rb)
    exchange ls rs

/-- `rotate_left` (src/slice_copy.rs:626-628). -/
def rotateLeft (cfg : Cfg) (mid : Nat) (v : PtrView V) : M Mem Unit := do
  let n ← umul cfg mid v.elem.numBytes
  if n ≤ v.len then do
    let bs ← Mem.load v.addr v.len 1
    Mem.store v.addr (bs.drop n ++ bs.take n) 1
  else M.panic .assertion

/-- `rotate_right` (src/slice_copy.rs:644-646). -/
def rotateRight (cfg : Cfg) (k : Nat) (v : PtrView V) : M Mem Unit := do
  let n ← umul cfg k v.elem.numBytes
  if n ≤ v.len then do
    let bs ← Mem.load v.addr v.len 1
    Mem.store v.addr (bs.drop (v.len - n) ++ bs.take (v.len - n)) 1
  else M.panic .assertion

/-- Run `f` on one view after the other. -/
def inTurn (f : PtrView V → M Mem (List β)) : List (PtrView V) → M Mem (List β)
  | [] => pure []
  | v :: vs => do
    let a ← f v
    let b ← inTurn f vs
    pure (a ++ b)

end PtrView

/-- Run a program on a view, as a pointer; the result lists the values read. -/
def SProg.runAt (Γ : TyEnv U) (cfg : Cfg) : SProg → PtrView V → M Mem (List Read)
  | skip, _ => pure []
  | seq p q, v => do
    let a ← p.runAt Γ cfg v
    let b ← q.runAt Γ cfg v
    pure (a ++ b)
  | get i, v => do
    let e ← v.elemAt cfg i
    let b ← e.readAs Γ v.elem.type_id
    pure [(v.elem.type_id, b)]
  | getAs t i, v => do
    let n ← v.count cfg
    M.assert (i < n)
    if t ≠ v.elem.type_id then pure [] else do
    let b ← Mem.load (v.addr + i * Γ.size t) (Γ.size t) (Γ.align t)
    pure [(t, b)]
  | iter, v => do
    let cs ← M.lift (v.chunks v.elem.numBytes)
    PtrView.inTurn (fun c => do
      let b ← c.readAs Γ v.elem.type_id
      pure [(v.elem.type_id, b)]) cs
  | asSlice t, v =>
    if t ≠ v.elem.type_id then pure [] else do
    let n ← v.count cfg
    let es ← v.readSlice Γ t n
    pure (es.map fun e => (t, e))
  | setAs t i x, v => do
    let n ← v.count cfg
    M.assert (i < n)
    if t ≠ v.elem.type_id then pure [] else do
    Mem.store (v.addr + i * Γ.size t) x (Γ.align t)
    pure []
  | setValue i t x, v => do
    let e ← v.elemAt cfg i
    if v.elem.type_id = t then
      if e.len = x.length then do
        Mem.store e.addr x 1
        pure []
      else M.panic .lenMismatch
    else pure []
  | mapAll f, v => do
    let cs ← M.lift (v.chunks v.elem.numBytes)
    PtrView.inTurn (fun c => do
      c.changeAs Γ v.elem.type_id (f v.elem.type_id)
      pure []) cs
  | mapAs t f, v => do
    let n ← v.count cfg
    if t ≠ v.elem.type_id then pure [] else do
    let es ← v.readSlice Γ t n
    Mem.store v.addr (f es).flatten (Γ.align t)
    pure []
  | swap i j, v => do
    v.swap cfg i j
    pure []
  | rotateLeft n, v => do
    v.rotateLeft cfg n
    pure []
  | rotateRight n, v => do
    v.rotateRight cfg n
    pure []
  | copyFromSlice t xs, v => do
    let n ← v.count cfg
    if t ≠ v.elem.type_id then pure [] else
    if n = xs.length then do
      Mem.store v.addr xs.flatten (Γ.align t)
      pure []
    else M.panic .lenMismatch
  | sub r p, v => do
    let r ← r.scale cfg v.elem.numBytes
    let (a, b) ← M.lift (r.bounds v.len)
    let w ← M.lift (v.range a b)
    p.runAt Γ cfg w
  | split mid p q, v => do
    let n ← umul cfg mid v.elem.numBytes
    let (l, r) ← M.lift (v.cut n)
    let a ← p.runAt Γ cfg l
    let b ← q.runAt Γ cfg r
    pure (a ++ b)
  | chunks k p, v => do
    let n ← umul cfg v.elem.numBytes k
    let cs ← M.lift (v.chunks n)
    PtrView.inTurn (fun c => p.runAt Γ cfg c) cs

/-- `as_mut_slice` (src/vec_copy.rs:704-717) of a container whose buffer is at `addr`. -/
def VecCopy.ptrView (c : VecCopy V) (addr : Nat) : PtrView V := ⟨addr, c.data.len * c.data.elem.numBytes, c.data.elem, c.vtable⟩

/-! ### Specification -/

/-- The bytes a view refers to. -/
def PtrView.contents (v : PtrView V) (m : Mem) : SliceCopy V := ⟨m.read v.addr v.len, v.elem, v.vtable⟩

/-- The access is to the `n` bytes at `lo`, at an address with the required alignment. -/
structure Access.Within (lo n : Nat) (a : Access) : Prop where
  lower : lo ≤ a.addr
  upper : a.addr + a.len ≤ lo + n
  aligned : a.align ∣ a.addr

/-- The view is aligned for its elements. -/
structure PtrView.Ok (Γ : TyEnv U) (t : TyId) (v : PtrView V) : Prop where
  elem : v.elem = ElemInfo.new Γ t
  aligned : Γ.align t ∣ v.addr

/-- What an allocator promises: live blocks are aligned as requested, and do not overlap. `base` gives their addresses. -/
structure Placed (h : Heap) (base : Nat → Nat) : Prop where
  aligned : ∀ i l, h.live i = some l → l.align ∣ base i
  apart : ∀ i j k l, i ≠ j → h.live i = some k → h.live j = some l → base i + k.size ≤ base j ∨ base j + l.size ≤ base i

end Dync
