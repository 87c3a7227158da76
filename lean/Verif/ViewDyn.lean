import Verif.VecDyn
import Verif.Safety
/-!
# Programs on mutable views of containers of non-`Copy` elements

What safe code can do with a `SliceMut`: besides reading, exchanging and rotating elements, it can run destructors
and `Clone` of the element type, and create values to assign. The programs are written on top of the model of
`SliceMut` (`SliceCopy.lean`, `VecDyn.lean`, `Value.lean`); what they read is recorded.
-/
namespace Dync
variable {U V σ τ ρ α : Type}

/-- A function `f` that hands a part of an object to its caller, where what the caller does with the part also works
on something else (the world, other views). -/
def M.share (f : M τ (Res α × ρ) → M σ (Res α × ρ)) (m : M (τ × ρ) α) : M (σ × ρ) α := ⟨fun s =>
  match f ⟨fun v => (.ok ((m (v, s.2)).1, (m (v, s.2)).2.2), (m (v, s.2)).2.1)⟩ s.1 with
  | (.ok (r, w), v) => (r, (v, w))
  | (.panic y, v) => (.panic y, (v, s.2))
  | (.ub, v) => (.ub, (v, s.2))
  | (.abort, v) => (.abort, (v, s.2))⟩

namespace SliceDyn

/-- `SliceMut::get_as::<T>(i)` (src/slice.rs:512-516), followed by the caller's use `m` of the reference. -/
def getAsMut (Γ : TyEnv U) (cfg : Cfg) (t : TyId) (i : Nat) (m : M (Bytes × World U) α) :
    M (SliceCopy V × World U) (Option α) := do
  let self ← getSelf
  let n ← self.len cfg
  M.assert (i < n)
  match self.check t with
  | none => pure none
  | some _ =>
    if (i + 1) * Γ.size t ≤ self.data.length then do
      let a ← (⟨fun s =>
        let out := m ((s.1.data.drop (i * Γ.size t)).take (Γ.size t), s.2)
        (out.1, ({ s.1 with data := splice s.1.data (i * Γ.size t) out.2.1 }, out.2.2))⟩ : M (SliceCopy V × World U) α)
      pure (some a)
    else M.ub

/-- `SliceMut::as_slice::<T>()` (src/slice.rs:504-508) and `iter_as` (497-499), followed by the caller's use `m` of
the typed mutable slice. -/
def asSliceMut (Γ : TyEnv U) (cfg : Cfg) (t : TyId) (m : M (List Bytes × World U) α) :
    M (SliceCopy V × World U) (Option α) := do
  let self ← getSelf
  let n ← self.len cfg
  match self.check t with
  | none => pure none
  | some _ => do
    let es ← M.lift (typedSlice (Γ.size t) n self.data)
    let a ← (⟨fun s =>
      let out := m (es, s.2)
      (out.1, ({ s.1 with data := splice s.1.data 0 out.2.1.flatten }, out.2.2))⟩ : M (SliceCopy V × World U) α)
    pure (some a)

end SliceDyn

/-- Reading and reordering elements of a view, without running code of their type. -/
inductive Look where
  | get (i : Nat)
  | getAs (t : TyId) (i : Nat)
  | iter
  | asSlice (t : TyId)
  | swap (i j : Nat)
  | rotateLeft (n : Nat)
  | rotateRight (n : Nat)

/-- As operations on views of `Copy` elements: the reads are made through the shared view `view.reborrow()`
(src/slice.rs:433-437, with `as_slice` 173-176, `get_as` 180-184, `iter` 206-215, `get` 245-257), which has the same fields as
`SliceCopy`; the others forward to `SliceCopyMut` (src/slice.rs:451-454, 532-552). -/
def Look.prog : Look → SProg
  | get i => .get i
  | getAs t i => .getAs t i
  | iter => .iter
  | asSlice t => .asSlice t
  | swap i j => .swap i j
  | rotateLeft n => .rotateLeft n
  | rotateRight n => .rotateRight n

/-- What safe code can do with a mutable view `SliceMut`. The values `x` to be stored are made when they are needed:
where `get_as` or `get_mut` panics, no value exists yet. -/
inductive VProg (U : Type) where
  | skip
  | seq (p q : VProg U)
  | look (l : Look)
  | setAs (t : TyId) (i : Nat) (x : Bytes)          -- `match view.get_as::<T>(i) { Some(r) => *r = x, None => drop(x) }`
  | edit (t : TyId) (m : M (List Bytes × U) Unit)   -- safe code on the typed mutable slice
  | assign (i : Nat) (t : TyId) (x : Bytes)         -- `view.get_mut(i).assign(BoxValue::new(x))`
  | cloneFrom (i : Nat) (t : TyId) (x : Bytes)      -- `view.get_mut(i).clone_from_other(value of type t)`
  | cloneFromAll (t : TyId) (x : Bytes)             -- the same for every `v` of `view.iter()`
  | cloneFromSlice (t : TyId) (xs : List Bytes)     -- `view.clone_from_slice(&xs)`
  | sub (r : Rng) (p : VProg U)                     -- `p` on `view.subslice_mut(r)`
  | split (mid : Nat) (p q : VProg U)               -- `p`, then `q`, on the parts of `view.split_at(mid)`
  | chunks (k : Nat) (p : VProg U)                  -- `p` on every view of `view.chunks_exact_mut(k)`

namespace VProg

/-- On the first of two views. -/
def onLeft (m : M (SliceCopy V × World U) α) : M ((SliceCopy V × SliceCopy V) × World U) α :=
  M.zoom (fun s => (s.1.1, s.2)) (fun a s => ((a.1, s.1.2), a.2)) m
/-- On the second of two views. -/
def onRight (m : M (SliceCopy V × World U) α) : M ((SliceCopy V × SliceCopy V) × World U) α :=
  M.zoom (fun s => (s.1.2, s.2)) (fun a s => ((s.1.1, a.1), a.2)) m
/-- On a view, next to a log. -/
def besideLog {β : Type} (m : M (SliceCopy V × World U) α) : M (SliceCopy V × (World U × List β)) α :=
  M.zoom (fun s => (s.1, s.2.1)) (fun a s => (a.1, (a.2, s.2.2))) m

/-- Run a program on a view; the result lists the values read. `vt` builds the tables of new values. -/
def exec [HasDrop U V] [HasClone U V] (Γ : TyEnv U) (cfg : Cfg) (vt : TyId → V) :
    VProg U → M (SliceCopy V × World U) (List Read)
  | skip => pure []
  | seq p q => do
    let a ← p.exec Γ cfg vt
    let b ← q.exec Γ cfg vt
    pure (a ++ b)
  | look l => SProg.onFst (l.prog.exec Γ cfg)
  | setAs t i x => do
    match ← SliceDyn.getAsMut Γ cfg t i (VecDyn.assignTyped Γ t x) with
    | some _ => pure []
    | none => do
      onWorld (worldUser (Γ.drop t x))
      pure []
  | edit t m => do
    let _ ← SliceDyn.asSliceMut Γ cfg t (M.zoom (fun s => (s.1, s.2.user)) (fun a s => (a.1, { s.2 with user := a.2 })) m)
    pure []
  | assign i t x => do
    M.share (SliceCopy.getMut cfg i) (do
      let v ← onWorld (BoxValue.new Γ t (vt t) x)
      ValueRef.assign v)
    pure []
  | cloneFrom i t x => do
    let _ ← M.share (SliceCopy.getMut cfg i) (ValueRef.cloneFromOther ⟨x, t, Γ.align t, vt t⟩)
    pure []
  | cloneFromAll t x => do
    SliceCopy.iterMut (do
      let _ ← ValueRef.cloneFromOther ⟨x, t, Γ.align t, vt t⟩
      pure ())
    pure []
  | cloneFromSlice t xs => do
    let _ ← SliceDyn.cloneFromSlice Γ cfg t xs
    pure []
  | sub r p => M.share (SliceCopy.subsliceMut cfg r) (p.exec Γ cfg vt)
  | split mid p q => M.share (SliceCopy.splitAtMut cfg mid) (do
    let a ← onLeft (p.exec Γ cfg vt)
    let b ← onRight (q.exec Γ cfg vt)
    pure (a ++ b))
  | chunks k p => M.zoom (fun s => (s.1, (s.2, []))) (fun a _ => (a.1, a.2.1)) (do
    SliceCopy.chunksExactMut cfg k (do
      let a ← besideLog (p.exec Γ cfg vt)
      M.modify fun s => (s.1, (s.2.1, s.2.2 ++ a)))
    return (← M.get).2.2)

end VProg

/-- `VecDyn::as_mut_slice` (src/vec_dyn.rs:561-568): `m` on the view, and on the world. -/
def VecDyn.onView (m : M (SliceCopy V × World U) α) : M (VecDyn V × World U) α := ⟨fun s =>
  match VecCopy.asMutSlice ⟨fun v => (.ok ((m (v, s.2)).1, (m (v, s.2)).2.2), (m (v, s.2)).2.1)⟩ s with
  | (.ok (r, w), v) => (r, (v.1, w))
  | (.panic y, v) => (.panic y, v)
  | (.ub, v) => (.ub, v)
  | (.abort, v) => (.abort, v)⟩

end Dync
