import Verif.HeldViews
import Verif.ViewDyn
/-!
# Several mutable views of non-`Copy` elements at once

The programs of `HeldViews` for `SliceMut`: any number of views is held, among them the parts of one view. Destructors and
`Clone` of the elements run while the other views are held, and may panic.

Views are pointers into one memory. What is done with a single view is modelled in `ViewDyn` on the bytes of the view; here
these bytes are read from the memory and written back. This is recorded as one read and one write of the whole view, an upper
bound of the accesses of the code and of the destructors and `Clone` of the elements.
-/
namespace Dync
variable {U V α : Type}

/-- Ways to get parts of a view that can be held at the same time. -/
inductive Cut where
  | split (mid : Nat)        -- `split_at(mid)`
  | chunks (k : Nat)         -- `chunks_exact_mut(k).collect::<Vec<_>>()`
  | values                   -- `iter().collect::<Vec<_>>()`
  | sub (r : Rng)            -- `subslice_mut(r)`

/-- The parts, as pointers. `SliceMut` forwards to `SliceCopyMut` (src/slice.rs:564-577, 600-612, 659-666); a `ValueMut` is a
view of one element here. -/
def Cut.parts (cfg : Cfg) (v : PtrView V) : Cut → M Mem (List (PtrView V))
  | split mid => do          -- src/slice_copy.rs:705-718
    let m ← umul cfg mid v.elem.numBytes
    let x ← M.lift (v.cut m)
    pure [x.1, x.2]
  | chunks k => do           -- src/slice_copy.rs:695-703
    let m ← umul cfg v.elem.numBytes k
    M.lift (v.chunks m)
  | values =>                -- src/slice_copy.rs:658-668
    M.lift (v.chunks v.elem.numBytes)
  | sub r => do              -- src/slice_copy.rs:770-780
    let r ← r.scale cfg v.elem.numBytes
    let x ← M.lift (r.bounds v.len)
    let w ← M.lift (v.range x.1 x.2)
    pure [w]

/-- Programs that hold views in numbered variables. New views go to the next free variables and are given up at the end of
the block `q`. -/
inductive KProg (U : Type) where
  | skip
  | seq (p q : KProg U)
  | on (i : Nat) (p : VProg U)                -- `p` on view `i`
  | swapValues (i a j b : Nat)                -- `i.get_mut(a).swap(&mut j.get_mut(b))`
  | cloneValue (i a j b : Nat)                -- `let x = j.get(b); i.get_mut(a).clone_from_other(x)`
  | cloneSlice (i j : Nat) (t : TyId)         -- `if let Some(xs) = j.reborrow().as_slice::<T>() { i.clone_from_slice(xs) }`
  | cut (i : Nat) (c : Cut) (q : KProg U)     -- `let (x, y, ..) = parts of i; q`

/-- Use a view: the bytes are those of the memory, before and afterwards. -/
def PtrView.lend (v : PtrView V) (m : M (SliceCopy V × World U) α) : M (Mem × World U) α := ⟨fun s =>
  let out := m (v.contents s.1, s.2)
  (out.1, ({ s.1.write v.addr out.2.1.data with
    log := s.1.log ++ [⟨v.addr, v.len, v.elem.alignment, false⟩, ⟨v.addr, out.2.1.data.length, v.elem.alignment, true⟩] }, out.2.2))⟩

/-- The value in a view of one element with the bytes `x` (src/slice.rs:614-627). -/
def PtrView.value (e : PtrView V) (x : Bytes) : ValueRef V := ⟨x, e.elem.type_id, e.elem.alignment, e.vtable⟩

/-- `ValueMut::swap` (src/value.rs:648-653). -/
def PtrView.swapRefs (e f : PtrView V) : M Mem Unit :=
  if e.elem.type_id = f.elem.type_id then PtrView.exchange e f else pure ()

/-- `let x = w.get(b); v.get_mut(a).clone_from_other(x)` (src/slice.rs:614-644, src/value.rs:662-686). -/
def PtrView.cloneValue [HasDrop U V] [HasClone U V] (cfg : Cfg) (v : PtrView V) (a : Nat) (w : PtrView V) (b : Nat) :
    M (Mem × World U) (List Read) := do
  let f ← SProg.onFst (w.elemAt cfg b)
  let x ← SProg.onFst (Mem.load f.addr f.len f.elem.alignment)
  let _ ← v.lend (M.share (SliceCopy.getMut cfg a) (ValueRef.cloneFromOther (f.value x)))
  pure []

/-- `if let Some(xs) = w.as_slice::<T>() { v.clone_from_slice(xs) }` (src/slice.rs:433-437, 173-176, 687-691). -/
def PtrView.cloneSlice [HasDrop U V] [HasClone U V] (Γ : TyEnv U) (cfg : Cfg) (t : TyId) (v w : PtrView V) :
    M (Mem × World U) (List Read) := do
  let x ← SProg.onFst (Mem.load w.addr w.len w.elem.alignment)
  match ← (⟨x, w.elem, w.vtable⟩ : SliceCopy V).asSlice Γ cfg t with
  | none => pure []
  | some xs => do
    let _ ← v.lend (SliceDyn.cloneFromSlice Γ cfg t xs)
    pure []

/-- Run a program that holds the views `ρ`, in variables below `n`. A program that names a view that is borrowed, or borrows
a view twice, is not accepted by Rust, and does nothing here. -/
def KProg.runAt [HasDrop U V] [HasClone U V] (Γ : TyEnv U) (cfg : Cfg) (vt : TyId → V) :
    KProg U → Nat → (Nat → Option (PtrView V)) → M (Mem × World U) (List Read)
  | skip, _, _ => pure []
  | seq p q, n, ρ => do
    let a ← p.runAt Γ cfg vt n ρ
    let b ← q.runAt Γ cfg vt n ρ
    pure (a ++ b)
  | on i p, _, ρ =>
    match ρ i with
    | none => pure []
    | some v => v.lend (p.exec Γ cfg vt)
  | swapValues i a j b, _, ρ =>
    if i = j then pure [] else
    match ρ i, ρ j with
    | some v, some w => SProg.onFst (do       -- src/slice.rs:630-644
      let e ← v.elemAt cfg a
      let f ← w.elemAt cfg b
      e.swapRefs f
      pure [])
    | _, _ => pure []
  | cloneValue i a j b, _, ρ =>
    if i = j then pure [] else
    match ρ i, ρ j with
    | some v, some w => v.cloneValue cfg a w b
    | _, _ => pure []
  | cloneSlice i j t, _, ρ =>
    if i = j then pure [] else
    match ρ i, ρ j with
    | some v, some w => v.cloneSlice Γ cfg t w
    | _, _ => pure []
  | cut i c q, n, ρ =>
    match ρ i with
    | none => pure []
    | some v => do
      let cs ← SProg.onFst (c.parts cfg v)
      q.runAt Γ cfg vt (n + cs.length) (opened ρ n i cs)

end Dync
