import Verif.Safety
import Verif.HistoryDynPanic
/-!
# `Extend` and `FromIterator` for `VecCopy` with arbitrary iterators

In `VecCopy` and `Safety` an iterator is the list of its items. Here it is user code: asking it for its size hint or for
the next item and dropping it may change the state of the user's code and may panic.
-/
namespace Dync
variable {U V : Type}

/-- An iterator over values with erased types. Its own state is part of the state of the user's code. An item is given
by its type and its bytes. -/
structure Iter (U : Type) where
  /-- `size_hint().0` -/
  hint : M U Nat
  next : M U (Option (TyId × Bytes))
  /-- the destructor of the iterator -/
  drop : M U Unit

namespace VecCopy

/-- One round of the loop of `extend` (src/vec_copy.rs:783-785). -/
def extendItem (Γ : TyEnv U) (cfg : Cfg) (value : CopyValue V) : M (VecCopy V × World U) Unit := do
  let self ← getSelf
  M.assert (value.size == self.elementSize)
  M.assert (value.type_id == self.elementTypeId)
  onData (VecVoid.push Γ cfg value.bytes)

/-- The loop of `extend` (src/vec_copy.rs:782-786). The iterator is asked for at most `n` items; for an iterator that
ends this is no restriction (`C84_bound`), with one that never ends `extend` does not return. -/
def extendLoop (Γ : TyEnv U) (cfg : Cfg) (vt : V) (it : Iter U) : Nat → M (VecCopy V × World U) Unit
  | 0 => pure ()
  | n + 1 => do
    match ← onWorld (worldUser it.next) with
    | none => pure ()
    | some v =>
      extendItem Γ cfg (CopyValue.new Γ v.1 vt v.2)
      extendLoop Γ cfg vt it n

/-- `Extend<CopyValueRef>` (src/vec_copy.rs:777-788). The call of `into_iter` comes first and is left out. The iterator is
dropped at the end of the loop, or while unwinding. -/
def extendFrom (Γ : TyEnv U) (cfg : Cfg) (vt : V) (it : Iter U) (n : Nat) : M (VecCopy V × World U) Unit :=
  M.thenDrop (do
    let hint ← onWorld (worldUser it.hint)
    reserve Γ cfg hint
    extendLoop Γ cfg vt it n) (onWorld (worldUser it.drop))

/-- `FromIterator<CopyValueRef>` (src/vec_copy.rs:756-775); `n` bounds the items after the first one. If a call before
`extend` panics, `data` is dropped before `iter` while unwinding; `extend` owns `iter`, so that it is dropped there. -/
def collectFrom (Γ : TyEnv U) (cfg : Cfg) (vt : V) (it : Iter U) (n : Nat) : M (World U) (VecCopy V) := do
  let next ← (do
    match ← worldUser it.next with
    | none => M.panic .unwrapNone
    | some v => pure (CopyValue.new Γ v.1 vt v.2) : M (World U) (CopyValue V)).onUnwind (worldUser it.drop)
  let data ← (withTypeFrom (Meta.ofValue next.bytes next.type_id next.alignment next.vtable)).onUnwind (worldUser it.drop)
  let (_, data) ← (withLocal data (VecCopy.drop cfg) (push Γ cfg next)).onUnwind (worldUser it.drop)
  let (_, data) ← withLocal data (VecCopy.drop cfg) (extendFrom Γ cfg vt it n)
  pure data

end VecCopy

/-- Steps of a program over `VecCopy` containers that also uses such iterators. -/
inductive IOp (U : Type) where
  | op (o : POp)
  | extendFrom (k : Nat) (it : Iter U) (n : Nat)    -- `k.extend(it)`
  | collectFrom (k : Nat) (it : Iter U) (n : Nat)   -- `k = it.collect()`

/-- Run a step; the result lists the values read. -/
def IOp.exec (Γ : TyEnv U) (cfg : Cfg) (vt : V) : IOp U → M (Slots V × World U) (List Read)
  | op o => o.exec Γ cfg vt
  | extendFrom k it n => do
    let _ ← Op.onSlot k (do
      VecCopy.extendFrom Γ cfg vt it n
      return .done)
    pure []
  | collectFrom k it n => do
    let c ← onWorld (VecCopy.collectFrom Γ cfg vt it n)
    Op.assign cfg k c
    pure []

/-- Run a program, catching every panic (`none`). -/
def IOp.runAll (Γ : TyEnv U) (cfg : Cfg) (vt : V) : List (IOp U) → M (Slots V × World U) (List (Option (List Read)))
  | [] => pure []
  | c :: cs => do
    let r ← (c.exec Γ cfg vt).caught
    let rs ← runAll Γ cfg vt cs
    pure (r :: rs)

end Dync
