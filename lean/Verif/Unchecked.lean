import Verif.Pointers
/-!
# Unchecked access and raw bytes

The `unsafe` accessors of `VecCopy` and `VecDyn`, and those of the data that `into_raw_parts` returns, on addresses.
`VecDyn` forwards to `VecCopy` (src/vec_dyn.rs:587-606, 212-232).
-/
namespace Dync
variable {U V : Type}

/-- What code does with the memory of a container. A reference to an element is read, or replaced by a function of its old value. -/
inductive RawProg where
  | skip
  | seq (p q : RawProg)
  | getUnchecked (t : TyId) (i : Nat)                          -- `*v.get_unchecked_ref::<T>(i)`
  | changeUnchecked (t : TyId) (i : Nat) (f : Bytes → Bytes)   -- `let r = v.get_unchecked_mut::<T>(i); *r = f(*r)`
  | getBytes (i : Nat)                                         -- `data.get_bytes(i)`
  | changeBytes (i : Nat) (f : Bytes → Bytes)                  -- `data.get_bytes_mut(i)`
  | byteChunks                                                 -- `data.byte_chunks()`
  | changeChunks (f : Bytes → Bytes)                           -- `data.byte_chunks_mut()`
  | view (p : SProg)                                           -- `p` on `v.as_mut_slice()`

namespace VecVoid

/-- `bytes` and `bytes_mut` (src/vec_copy.rs:894-910) of data whose buffer is at `addr`. -/
def rawBytes (d : VecVoid) (addr : Nat) : PtrView Unit := ⟨addr, d.len * d.elem.numBytes, d.elem, ()⟩

/-- `get_bytes` (src/vec_copy.rs:871-875) and `get_bytes_mut` (884-887, with src/lib.rs:197-198, 216-219). -/
def rawElem (cfg : Cfg) (i : Nat) (d : VecVoid) (addr : Nat) : M Mem (PtrView Unit) := do
  debugAssert cfg (i < d.len)
  let (a, b) ← indexByteRange cfg d.elem.numBytes i
  M.lift ((d.rawBytes addr).range a b)

/-- `byte_chunks` (src/vec_copy.rs:845-848). -/
def rawChunks (d : VecVoid) (addr : Nat) : Res (List (PtrView Unit)) := (d.rawBytes addr).chunks d.elem.numBytes

/-- `byte_chunks_mut` (src/vec_copy.rs:860-867). The number of bytes is computed the other way round. -/
def rawChunksMut (cfg : Cfg) (d : VecVoid) (addr : Nat) : M Mem (List (PtrView Unit)) := do
  let n ← umul cfg d.elem.numBytes d.len
  M.lift ((⟨addr, n, d.elem, ()⟩ : PtrView Unit).chunks d.elem.numBytes)

end VecVoid

/-- Run a program on a container whose buffer is at `addr`; the result lists what was read. -/
def RawProg.runAt (Γ : TyEnv U) (cfg : Cfg) (c : VecCopy V) (addr : Nat) : RawProg → M Mem (List Read)
  | skip => pure []
  | seq p q => do
    let a ← p.runAt Γ cfg c addr
    let b ← q.runAt Γ cfg c addr
    pure (a ++ b)
  | getUnchecked t i => do              -- src/vec_copy.rs:817-820
    let b ← Mem.load (addr + i * Γ.size t) (Γ.size t) (Γ.align t)
    pure [(t, b)]
  | changeUnchecked t i f => do         -- src/vec_copy.rs:833-836
    let b ← Mem.load (addr + i * Γ.size t) (Γ.size t) (Γ.align t)
    Mem.store (addr + i * Γ.size t) (f b) (Γ.align t)
    pure []
  | getBytes i => do
    let e ← c.data.rawElem cfg i addr
    let b ← Mem.load e.addr e.len 1
    pure [(c.data.elem.type_id, b)]
  | changeBytes i f => do
    let e ← c.data.rawElem cfg i addr
    let b ← Mem.load e.addr e.len 1
    Mem.store e.addr (f b) 1
    pure []
  | byteChunks => do
    let cs ← M.lift (c.data.rawChunks addr)
    PtrView.inTurn (fun e => do
      let b ← Mem.load e.addr e.len 1
      pure [(c.data.elem.type_id, b)]) cs
  | changeChunks f => do
    let cs ← c.data.rawChunksMut cfg addr
    PtrView.inTurn (fun e => do
      let b ← Mem.load e.addr e.len 1
      Mem.store e.addr (f b) 1
      pure []) cs
  | view p => p.runAt Γ cfg (c.ptrView addr)

end Dync
