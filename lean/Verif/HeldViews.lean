import Verif.Pointers
/-!
# Several mutable views at once

`SProg` works on one view at a time. Here a program holds any number of mutable views: of different containers, and
the parts of a view that `split_at`, `chunks_exact_mut`, `iter` and `subslice_mut` hand out together. It uses them in any order and
exchanges values between them. While the parts of a view are held, the view itself is borrowed and cannot be used.

Views are pointers into one memory, as in `Pointers`.
-/
namespace Dync
variable {U V α : Type}

/-- Programs that hold views in numbered variables. New views go to the next free variables and are given up at the end of
the block `q`. -/
inductive HProg where
  | skip
  | seq (p q : HProg)
  | on (i : Nat) (p : SProg)                  -- `p` on view `i`
  | swapValues (i a j b : Nat)                -- `i.get_mut(a).swap(&mut j.get_mut(b))`
  | copyValue (i a j b : Nat)                 -- `i.get_mut(a).copy(j.get(b))`
  | split (i mid : Nat) (q : HProg)           -- `let (x, y) = i.split_at(mid); q`
  | chunks (i k : Nat) (q : HProg)            -- `let xs: Vec<_> = i.chunks_exact_mut(k).collect(); q`
  | values (i : Nat) (q : HProg)              -- `let xs: Vec<_> = i.iter().collect(); q`
  | sub (i : Nat) (r : Rng) (q : HProg)       -- `let x = i.subslice_mut(r); q`

/-- The variables while the parts `cs` of what is in variable `i` are held in variables `n`, `n + 1`, … -/
def opened (ρ : Nat → Option α) (n i : Nat) (cs : List α) : Nat → Option α :=
  fun k => if k = i then none else if k < n then ρ k else cs[k - n]?

/-- `CopyValueMut::swap` (src/copy_value.rs:280-285) of two values of the types of the elements `e` and `f`. -/
def PtrView.swapValue (e f : PtrView V) : M Mem Unit :=
  if e.elem.type_id = f.elem.type_id then do
    PtrView.exchange e f
    M.assert (e.elem.alignment == f.elem.alignment)
  else pure ()

/-- `CopyValueMut::copy` (src/copy_value.rs:269-276). -/
def PtrView.copyValue (e f : PtrView V) : M Mem Unit :=
  if e.elem.type_id = f.elem.type_id then
    if e.len = f.len then do
      let x ← Mem.load f.addr f.len 1
      Mem.store e.addr x 1
    else M.panic .lenMismatch
  else pure ()

/-- Run a program that holds the views `ρ`, in variables below `n`. A program that names a view that is borrowed, or borrows
a view twice, is not accepted by Rust, and does nothing here. A `CopyValueMut` is a view of one element here. -/
def HProg.runAt (Γ : TyEnv U) (cfg : Cfg) : HProg → Nat → (Nat → Option (PtrView V)) → M Mem (List Read)
  | skip, _, _ => pure []
  | seq p q, n, ρ => do
    let a ← p.runAt Γ cfg n ρ
    let b ← q.runAt Γ cfg n ρ
    pure (a ++ b)
  | on i p, _, ρ =>
    match ρ i with
    | none => pure []
    | some v => p.runAt Γ cfg v
  | swapValues i a j b, _, ρ =>
    if i = j then pure [] else
    match ρ i, ρ j with
    | some v, some w => do   -- src/slice_copy.rs:738-753
      let e ← v.elemAt cfg a
      let f ← w.elemAt cfg b
      e.swapValue f
      pure []
    | _, _ => pure []
  | copyValue i a j b, _, ρ =>
    if i = j then pure [] else
    match ρ i, ρ j with
    | some v, some w => do   -- src/slice_copy.rs:722-753
      let e ← v.elemAt cfg a
      let f ← w.elemAt cfg b
      e.copyValue f
      pure []
    | _, _ => pure []
  | split i mid q, n, ρ =>
    match ρ i with
    | none => pure []
    | some v => do           -- src/slice_copy.rs:705-718
      let m ← umul cfg mid v.elem.numBytes
      let (l, r) ← M.lift (v.cut m)
      q.runAt Γ cfg (n + 2) (opened ρ n i [l, r])
  | chunks i k q, n, ρ =>
    match ρ i with
    | none => pure []
    | some v => do           -- src/slice_copy.rs:695-703
      let m ← umul cfg v.elem.numBytes k
      let cs ← M.lift (v.chunks m)
      q.runAt Γ cfg (n + cs.length) (opened ρ n i cs)
  | values i q, n, ρ =>
    match ρ i with
    | none => pure []
    | some v => do           -- src/slice_copy.rs:658-668
      let cs ← M.lift (v.chunks v.elem.numBytes)
      q.runAt Γ cfg (n + cs.length) (opened ρ n i cs)
  | sub i r q, n, ρ =>
    match ρ i with
    | none => pure []
    | some v => do           -- src/slice_copy.rs:770-780
      let r ← r.scale cfg v.elem.numBytes
      let (a, b) ← M.lift (r.bounds v.len)
      let w ← M.lift (v.range a b)
      q.runAt Γ cfg (n + 1) (opened ρ n i [w])

end Dync
