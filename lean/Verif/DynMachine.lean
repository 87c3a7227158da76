import Verif.Machine
import Verif.Ownership
/-!
# Specification: what every program over `VecDyn`, `BoxValue` and `SmallValue` does, without any restriction

`DOp.spec` (`Verif/HistoryDyn.lean`) says what the operations do on plain typed values; the implementation
does the same only under the restrictions of `DOp.Supported`. Here a machine on element lists and
capacities says what the operations really do, for every element type, every number and every index, in
both build modes, and for arbitrary user code (`Clone` and `Drop` may panic at any call): which user code
is called on which values in which order, what the program sees, what the variables hold afterwards, which
values and blocks are lost, and which calls are undefined behaviour or abort the process.
-/
namespace Dync
variable {U V α : Type}

/-! ### State -/

/-- What is outside of the variables: the number of blocks that no variable owns, and the state of the user
code. -/
@[ext] structure Outside (U : Type) where
  leaked : Nat
  user : U

/-- What a variable holds. A container comes with the type that its virtual table was built for: it is the
element type unless the content was lost. -/
inductive YItem where
  | vec (table : TyId) (x : XVec)
  | box (t : TyId) (x : Bytes)
  | small (t : TyId) (x : Bytes)

/-- The variables of a program. -/
abbrev YVars := Nat → Option YItem

/-- Run user code. -/
def call (m : M U α) : M (Outside U) α := M.zoom Outside.user (fun u s => { s with user := u }) m

/-- `n` blocks are leaked. -/
def leak (n : Nat) : M (Outside U) Unit := M.modify fun s => { s with leaked := s.leaked + n }

/-- `n` blocks are leaked if `m` panics. -/
def leaking (n : Nat) (m : M (Outside U) α) : M (Outside U) α := ⟨fun s =>
  match m s with
  | (.panic y, s') => (.panic y, { s' with leaked := s'.leaked + n })
  | r => r⟩

/-- Run something that does not change the first part of the state. -/
def aside {σ : Type} (m : M (Outside U) α) : M (σ × Outside U) α := M.zoom Prod.snd (fun o s => (s.1, o)) m

/-- Drop the elements of a typed vector or slice: all of them, also if a destructor panics. -/
def dropAll (Γ : TyEnv U) (t : TyId) (es : List Bytes) : M (Outside U) Unit := call (M.dropEach es (Γ.drop t))

/-- The block of a `Box<T>`, if there is one. -/
def boxBlock (Γ : TyEnv U) (t : TyId) : Nat := if Γ.size t = 0 then 0 else 1

/-! ### Values and containers as a whole -/

/-- Dropping what a variable holds. The destructor of a container stops at the first panic and leaks the
buffer; a container whose content was lost cannot be dropped without a panic. A box whose content panics in
its destructor is leaked. -/
def YItem.drop (Γ : TyEnv U) : YItem → M (Outside U) Unit
  | .vec _ (.vec t es _) => leaking 1 (M.forEach es fun e => call (Γ.drop t e))
  | .vec _ (.unit _) => M.panic .zeroChunk
  | .box t x => leaking (boxBlock Γ t) (call (Γ.drop t x))
  | .small t x => call (Γ.drop t x)

/-- `Clone`. If a clone panics, the clones made so far are lost. -/
def YItem.clone (Γ : TyEnv U) : YItem → M (Outside U) YItem
  | .vec b (.vec t es cap) => do return .vec b (.vec t (← call (M.mapEach es (Γ.clone t))) cap)
  | .vec _ (.unit _) => M.panic .divZero
  | .box t x => do return .box t (← call (Γ.clone t x))
  | .small t x => do return .small t (← call (Γ.clone t x))

/-- Convert to the typed value and drop that. A conversion to a wrong type frees the buffer of a container
without dropping its elements, and forgets a box with its block. -/
def YItem.consume (Γ : TyEnv U) (t : TyId) : YItem → M (Outside U) Obs
  | .vec _ (.vec t' es _) => if t = t' then do dropAll Γ t es; return .done else return .refused
  | .vec _ (.unit n) => if t = Γ.unitTy then do dropAll Γ t (List.replicate n []); return .done else return .refused
  | .box t' x => if t = t' then do call (Γ.drop t x); return .done else do leak (boxBlock Γ t'); return .refused
  | .small t' x => if t = t' then do call (Γ.drop t x); return .done else return .refused

/-- A vector with room for `n` elements can be allocated. -/
def HasRoom (Γ : TyEnv U) (t : TyId) (n : Nat) : Prop := Γ.size t = 0 ∨ n * Γ.size t + (Γ.align t - 1) ≤ isizeMax
instance (Γ : TyEnv U) (t : TyId) (n : Nat) : Decidable (HasRoom Γ t n) := inferInstanceAs (Decidable (_ ∨ _))

/-- A `Vec<T>` with capacity `n` becomes a container. Zero-sized elements are rejected, and dropped. -/
def wrapVec (Γ : TyEnv U) (t : TyId) (es : List Bytes) (n : Nat) : M (Outside U) YItem :=
  if Γ.size t = 0 then do
    M.unwindDrop (dropAll Γ t es)
    M.panic .assertion
  else return .vec t (.vec t es (if n = 0 then leastCap (Γ.size t) else n))

/-! ### Methods of a container -/

/-- A method that runs no user code. -/
def XVec.plain (f : XVec → After) : M (XVec × Outside U) Obs := ⟨fun s =>
  (match (f s.1).out with
    | .ok o => .ok o
    | .panic => .panic .index
    | .ub => .ub,
   ((f s.1).now, { s.2 with leaked := s.2.leaked + if (f s.1).leak then 1 else 0 }))⟩

/-- The content is lost. -/
def lose : M (XVec × Outside U) α := do
  M.modify fun s => (.unit 0, s.2)
  M.panic .capacity

/-- `m` runs while the content is outside of the container: it is lost if `m` panics. -/
def losing (m : M (Outside U) α) : M (XVec × Outside U) α := ⟨fun s =>
  match m s.2 with
  | (.panic y, o) => (.panic y, (.unit 0, o))
  | (r, o) => (r, (s.1, o))⟩

/-- The argument `x` is refused: it is dropped. -/
def refuse (Γ : TyEnv U) (t : TyId) (x : Bytes) : M (XVec × Outside U) Obs := do
  aside (call (Γ.drop t x))
  return .refused

/-- `push_as::<T>(x)`. If there is no room, `x` and all elements are dropped, and the content is lost. -/
def XVec.dynPushAs (Γ : TyEnv U) (t : TyId) (x : Bytes) : M (XVec × Outside U) Obs := do
  match (← M.get).1 with
  | .vec t' es cap =>
    if t = t' then
      match growth (Γ.size t) (Γ.align t) 1 cap es.length 1 with
      | .keep => do M.modify fun s => (.vec t (es ++ [x]) cap, s.2); return .done
      | .grown c => do M.modify fun s => (.vec t (es ++ [x]) c, s.2); return .done
      | _ => do
        aside (M.unwindDrop (call (Γ.drop t x)))
        aside (M.unwindDrop (dropAll Γ t es))
        lose
    else refuse Γ t x
  | .unit n =>
    if t = Γ.unitTy then
      if n = usizeMax then do
        aside (M.unwindDrop (call (Γ.drop t x)))
        aside (M.unwindDrop (dropAll Γ t (List.replicate n [])))
        lose
      else do M.modify fun s => (.unit (n + 1), s.2); return .done
    else refuse Γ t x

/-- A place that a reference points to: the type of the content, the type its virtual table was built for,
and the content. -/
structure Place where
  ty : TyId
  table : TyId
  bytes : Bytes

/-- Clone the content of a place. The function of the table checks the length. -/
def Place.clone (Γ : TyEnv U) (p : Place) : M (Outside U) Bytes :=
  if p.ty = p.table then call (Γ.clone p.ty p.bytes) else M.panic .assertion

/-- `push_cloned` of the content of a place. If the clone panics or there is no room for it, the content of
the container is lost. -/
def XVec.dynPushCloned (Γ : TyEnv U) (p : Place) : M (XVec × Outside U) Obs := do
  match (← M.get).1 with
  | .vec t es cap =>
    if t = p.ty then
      match growth (Γ.align t) (Γ.align t) (perElem Γ t) cap es.length (perElem Γ t) with
      | .full => lose
      | .torn => do
        let _ ← losing (call (Γ.clone t p.bytes))
        aside (leak 1)
        lose
      | .keep => do
        let c ← losing (call (Γ.clone t p.bytes))
        M.modify fun s => (.vec t (es ++ [c]) cap, s.2)
        return .done
      | .grown cap' => do
        let c ← losing (call (Γ.clone t p.bytes))
        M.modify fun s => (.vec t (es ++ [c]) cap', s.2)
        return .done
    else return .refused
  | .unit _ => if p.ty = Γ.unitTy then lose else return .refused

/-- `push` of a boxed value of type `t`: the block of the box is freed as a block of alignment 1. -/
def XVec.dynPush (Γ : TyEnv U) (t : TyId) (x : Bytes) : M (XVec × Outside U) Obs := do
  match (← M.get).1 with
  | .vec t' es cap =>
    if t = t' then (if Γ.align t = 1 then XVec.plain (XVec.push Γ t x) else M.ub)
    else do
      aside ((YItem.box t x).drop Γ)
      return .refused
  | .unit _ =>
    if t = Γ.unitTy then M.ub
    else do
      aside ((YItem.box t x).drop Γ)
      return .refused

/-- The body of `resize::<T>(n, x)`. -/
def XVec.dynResizeBody (Γ : TyEnv U) (cfg : Cfg) (t : TyId) (n : Nat) (x : Bytes) : M (XVec × Outside U) Obs := do
  match (← M.get).1 with
  | .vec t' es cap =>
    if t = t' then
      if es.length ≤ n then do
        let _ ← XVec.plain (XVec.reserve Γ cfg (n - es.length))
        M.repeatN (n - es.length) (do
          let c ← aside (call (Γ.clone t x))
          let _ ← XVec.dynPushAs Γ t c
          pure ())
        return .done
      else do
        M.forEach (es.drop n) fun e => aside (call (Γ.drop t e))
        M.modify fun s => (.vec t (es.take n) cap, s.2)
        return .done
    else return .refused
  | .unit m =>
    if t = Γ.unitTy then (if m ≤ n then lose else M.panic .zeroChunk) else return .refused

/-- `resize::<T>(n, x)`: `x` is dropped at the end in any case. -/
def XVec.dynResize (Γ : TyEnv U) (cfg : Cfg) (t : TyId) (n : Nat) (x : Bytes) : M (XVec × Outside U) Obs :=
  M.thenDrop (dynResizeBody Γ cfg t n x) (aside (call (Γ.drop t x)))

/-- `for v in slice.iter_mut() { *v = x.clone() }` on the elements `es`: what is in the slice afterwards. -/
def fillAll (Γ : TyEnv U) (t : TyId) (x : Bytes) : M (List Bytes × Outside U) Unit := ⟨fun s =>
  let out := TVec.fill Γ t x s.1 s.2.user
  (out.1, (out.2.1, { s.2 with user := out.2.2 }))⟩

/-- `fill::<T>(x)`: every element is replaced by a clone of `x`, and `x` is dropped. -/
def XVec.dynFill (Γ : TyEnv U) (t : TyId) (x : Bytes) : M (XVec × Outside U) Obs :=
  M.thenDrop (do
    match (← M.get).1 with
    | .vec t' es cap =>
      if t = t' then do
        (⟨fun s => let out := fillAll Γ t x (es, s.2)
          (out.1, (.vec t out.2.1 cap, out.2.2))⟩ : M (XVec × Outside U) Unit)
        return .done
      else return .refused
    | .unit n =>
      if t = Γ.unitTy then do
        (⟨fun s => let out := fillAll Γ t x (List.replicate n [], s.2)
          (out.1, (.unit n, out.2.2))⟩ : M (XVec × Outside U) Unit)
        return .done
      else return .refused) (aside (call (Γ.drop t x)))

/-- `clear()`: if a destructor panics, the container stays as it is, with the elements destroyed so far. -/
def XVec.dynClear (Γ : TyEnv U) : M (XVec × Outside U) Obs := do
  match (← M.get).1 with
  | .vec t es cap => do
    M.forEach es fun e => aside (call (Γ.drop t e))
    M.modify fun s => (.vec t [] cap, s.2)
    return .done
  | .unit _ => M.panic .zeroChunk

/-- `*get_mut_as::<T>(i)? = x`: the old element is dropped; `x` is stored even if that panics. -/
def XVec.dynSetAs (Γ : TyEnv U) (t : TyId) (i : Nat) (x : Bytes) : M (XVec × Outside U) Obs := do
  match (← M.get).1 with
  | .vec t' es cap =>
    if h : i < es.length then
      if t = t' then do
        M.modify fun s => (.vec t (es.set i x) cap, s.2)
        aside (call (Γ.drop t es[i]))
        return .done
      else refuse Γ t x
    else M.panic .index
  | .unit n =>
    if i < n then
      if t = Γ.unitTy then do
        aside (call (Γ.drop t []))
        return .done
      else refuse Γ t x
    else M.panic .index

/-- Look at `clone_into_vec::<T>()`, and drop it. -/
def XVec.dynCloneIntoVec (Γ : TyEnv U) (t : TyId) : M (XVec × Outside U) Obs := do
  match (← M.get).1 with
  | .vec t' es _ =>
    if t = t' then do
      let cs ← aside (call (DSpec.clones Γ t es))
      aside (dropAll Γ t cs)
      return .elems cs
    else return .refused
  | .unit n =>
    if t = Γ.unitTy then do
      let cs ← aside (call (DSpec.clones Γ t (List.replicate n [])))
      aside (dropAll Γ t cs)
      return .elems cs
    else return .refused

/-! ### Places -/

/-- The byte offset of element `i` in `len` elements of `size` bytes: checked in debug builds; in release
builds it is computed modulo `2^64`, and only the bounds of the buffer are checked. `none`: it panics. -/
def offset (cfg : Cfg) (size len i : Nat) : Option Nat :=
  if cfg.debug then (if i < len then some (i * size) else none)
  else if i * size % 2 ^ 64 + size ≤ len * size then some (i * size % 2 ^ 64) else none

/-- The place `(k, i)`: element `i` of a container, or the content of a value. -/
def YItem.at (Γ : TyEnv U) (cfg : Cfg) (i : Nat) : YItem → Option Place
  | .vec b (.vec t es _) =>
    (offset cfg (Γ.size t) es.length i).map fun a => ⟨t, b, (es.flatten.drop a).take (Γ.size t)⟩
  | .vec b (.unit n) => if cfg.debug = true ∧ (n ≤ i ∨ 2 ^ 64 ≤ i + 1) then none else some ⟨Γ.unitTy, b, []⟩
  | .box t x => some ⟨t, t, x⟩
  | .small t x => some ⟨t, t, x⟩

/-- Overwrite the place `(k, i)`. -/
def YItem.store (Γ : TyEnv U) (cfg : Cfg) (i : Nat) (b : Bytes) : YItem → YItem
  | .vec d (.vec t es cap) =>
    match offset cfg (Γ.size t) es.length i with
    | some a => .vec d (.vec t (cut (Γ.size t) es.length (es.flatten.take a ++ b ++ es.flatten.drop (a + Γ.size t))) cap)
    | none => .vec d (.vec t es cap)
  | .vec d (.unit n) => .vec d (.unit n)
  | .box t _ => .box t b
  | .small t _ => .small t b

/-! ### Operations of programs -/

namespace YOp

/-- Assign to a variable. What it held is dropped; the assignment happens even if that panics. -/
def assign (Γ : TyEnv U) (k : Nat) (a : YItem) : M (YVars × Outside U) Obs := ⟨fun s =>
  match s.1 k with
  | none => (.ok .done, (Slots.put s.1 k (some a), s.2))
  | some old => ((old.drop Γ s.2).1.map fun _ => .done, (Slots.put s.1 k (some a), (old.drop Γ s.2).2))⟩

/-- Make something and assign it. -/
def create (Γ : TyEnv U) (k : Nat) (m : M (Outside U) YItem) : M (YVars × Outside U) Obs := do
  assign Γ k (← aside m)

/-- Move out of variable `k`. -/
def moveOut (k : Nat) : M (YVars × Outside U) Unit := M.modify fun s => (Slots.put s.1 k none, s.2)

/-- A method of the container in variable `k`. -/
def onVec (k : Nat) (m : M (XVec × Outside U) Obs) : M (YVars × Outside U) Obs := ⟨fun s =>
  match s.1 k with
  | some (.vec b x) => ((m (x, s.2)).1, (Slots.put s.1 k (some (.vec b (m (x, s.2)).2.1)), (m (x, s.2)).2.2))
  | _ => (.ok .absent, s)⟩

/-- A method that only looks. -/
def look (Γ : TyEnv U) (k : Nat) (typed : TyId → List Bytes → Out) (unit : Nat → Out) : M (YVars × Outside U) Obs :=
  onVec k (XVec.plain fun x => x.look Γ typed unit)

/-- The place `(k, i)`. `none`: the variable is empty. -/
def read (Γ : TyEnv U) (cfg : Cfg) (k i : Nat) : M (YVars × Outside U) (Option Place) := ⟨fun s =>
  match s.1 k with
  | none => (.ok none, s)
  | some a =>
    match a.at Γ cfg i with
    | some p => (.ok (some p), s)
    | none => (.panic .index, s)⟩

/-- Overwrite the place `(k, i)`. -/
def write (Γ : TyEnv U) (cfg : Cfg) (k i : Nat) (b : Bytes) : M (YVars × Outside U) Unit :=
  M.modify fun s => (Slots.put s.1 k ((s.1 k).map (YItem.store Γ cfg i b)), s.2)

/-- `append` of the container in `j` to that in `k`. -/
def append (Γ : TyEnv U) (k j : Nat) : M (YVars × Outside U) Obs := ⟨fun s =>
  if k = j then (.ok .absent, s) else
  match s.1 k, s.1 j with
  | some (.vec b (.vec t es cap)), some (.vec b' (.vec t' es' cap')) =>
    if t = t' then
      match growth (Γ.align t) (Γ.align t) (perElem Γ t) cap es.length (es'.length * perElem Γ t) with
      | .keep => (.ok .done,
        (Slots.put (Slots.put s.1 k (some (.vec b (.vec t (es ++ es') cap)))) j (some (.vec b' (.vec t [] cap'))), s.2))
      | .grown c => (.ok .done,
        (Slots.put (Slots.put s.1 k (some (.vec b (.vec t (es ++ es') c)))) j (some (.vec b' (.vec t [] cap'))), s.2))
      | .full => (.panic .capacity,
        (Slots.put (Slots.put s.1 k (some (.vec b (.unit 0)))) j (some (.vec b' (.unit 0))), s.2))
      | .torn => (.panic .capacity,
        (Slots.put (Slots.put s.1 k (some (.vec b (.unit 0)))) j (some (.vec b' (.vec t [] cap'))),
          { s.2 with leaked := s.2.leaked + 1 }))
    else (.ok .refused, s)
  | some (.vec b (.unit _)), some (.vec b' (.unit _)) =>
    (.panic .capacity, (Slots.put (Slots.put s.1 k (some (.vec b (.unit 0)))) j (some (.vec b' (.unit 0))), s.2))
  | some (.vec _ _), some (.vec _ _) => (.ok .refused, s)
  | _, _ => (.ok .absent, s)⟩

/-- `place.assign(value)` with the value `a` of type `t` with content `x` moved out of variable `j`: the contents
are exchanged if the types agree; then the value is dropped with what it holds. -/
def assignPlace (Γ : TyEnv U) (cfg : Cfg) (k i j : Nat) (t : TyId) (x : Bytes) (mk : TyId → Bytes → YItem) :
    M (YVars × Outside U) Obs := do
  match ← read Γ cfg k i with
  | none => return .absent
  | some p =>
    moveOut j
    if p.ty = t then do
      write Γ cfg k i x
      aside ((mk t p.bytes).drop Γ)
      return .done
    else do
      aside ((mk t x).drop Γ)
      return .done

end YOp

/-- What an operation does. -/
def DOp.step (Γ : TyEnv U) (cfg : Cfg) : DOp → M (YVars × Outside U) Obs
  | withType k t => YOp.create Γ k (wrapVec Γ t [] 0)
  | withCapacity k t n => YOp.create Γ k (if HasRoom Γ t n then wrapVec Γ t [] n else M.panic .capacity)
  | fromVec k t xs => YOp.create Γ k (if HasRoom Γ t xs.length then wrapVec Γ t xs xs.length else M.panic .capacity)
  | fromSlice k t xs => YOp.create Γ k (
      if HasRoom Γ t xs.length then do wrapVec Γ t (← call (DSpec.clones Γ t xs)) xs.length else M.panic .capacity)
  | withSize k t n x => YOp.create Γ k (
      if HasRoom Γ t n then do wrapVec Γ t (← call (DSpec.vecOf Γ t n x)) n
      else do
        M.unwindDrop (call (Γ.drop t x))
        M.panic .capacity)
  | newBox k t x => YOp.create Γ k (pure (.box t x))
  | newSmall k t x => YOp.create Γ k (if Γ.size t = 8 then pure (.small t x) else M.panic .unwrapNone)
  | drop k => ⟨fun s =>
    match s.1 k with
    | none => (.ok .absent, s)
    | some a => (do YOp.moveOut k; aside (a.drop Γ); return .done : M (YVars × Outside U) Obs) s⟩
  | clone k j => ⟨fun s =>
    match s.1 k with
    | none => (.ok .absent, s)
    | some a => YOp.create Γ j (a.clone Γ) s⟩
  | consume k t => ⟨fun s =>
    match s.1 k with
    | none => (.ok .absent, s)
    | some a => (do YOp.moveOut k; aside (a.consume Γ t) : M (YVars × Outside U) Obs) s⟩
  | roundTrip k t => ⟨fun s =>
    match s.1 k with
    | some (.vec _ (.vec t' _ _)) => if t = t' then (.ok .done, s) else (.ok .refused, (Slots.put s.1 k none, s.2))
    | some (.vec _ (.unit n)) =>
      if t = Γ.unitTy then (do
          YOp.moveOut k
          aside (M.unwindDrop (dropAll Γ t (List.replicate n [])))
          M.panic .assertion : M (YVars × Outside U) Obs) s
      else (.ok .refused, (Slots.put s.1 k none, s.2))
    | _ => (.ok .absent, s)⟩
  | append k j => YOp.append Γ k j
  | pushAs k t x => YOp.onVec k (XVec.dynPushAs Γ t x)
  | pushCloned k j i => do
    if k = j then return .absent
    match ← YOp.read Γ cfg j i with
    | none => return .absent
    | some p => YOp.onVec k (XVec.dynPushCloned Γ p)
  | pushBox k j => ⟨fun s =>
    match s.1 k, s.1 j with
    | some (.vec _ _), some (.box t x) => (do YOp.moveOut j; YOp.onVec k (XVec.dynPush Γ t x) : M (YVars × Outside U) Obs) s
    | _, _ => (.ok .absent, s)⟩
  | resize k t n x => YOp.onVec k (XVec.dynResize Γ cfg t n x)
  | fill k t x => YOp.onVec k (XVec.dynFill Γ t x)
  | clear k => YOp.onVec k (XVec.dynClear Γ)
  | rotateLeft k n => YOp.onVec k (XVec.plain (XVec.rotateLeft Γ cfg n))
  | rotateRight k n => YOp.onVec k (XVec.plain (XVec.rotateRight Γ cfg n))
  | swap k i j => YOp.onVec k (XVec.plain (XVec.swap Γ cfg i j))
  | setAs k t i x => YOp.onVec k (XVec.dynSetAs Γ t i x)
  | cloneIntoVec k t => YOp.onVec k (XVec.dynCloneIntoVec Γ t)
  | cloneValue k i j => do
    match ← YOp.read Γ cfg k i with
    | none => return .absent
    | some p => YOp.create Γ j (do return .box p.ty (← p.clone Γ))
  | cloneSmall k i j => do
    match ← YOp.read Γ cfg k i with
    | none => return .absent
    | some p => YOp.create Γ j (do
        let c ← p.clone Γ
        if Γ.size p.ty = 8 then return .small p.ty c
        else do
          M.unwindDrop (call (Γ.drop p.ty c))
          M.panic .lenMismatch)
  | assign k i j => ⟨fun s =>
    if k = j then (.ok .absent, s) else
    match s.1 k, s.1 j with
    | some _, some (.box t x) => YOp.assignPlace Γ cfg k i j t x .box s
    | some _, some (.small t x) => YOp.assignPlace Γ cfg k i j t x .small s
    | _, _ => (.ok .absent, s)⟩
  | cloneFrom k i j i' => do
    if k = j then return .absent
    match ← YOp.read Γ cfg j i' with
    | none => return .absent
    | some p =>
      match ← YOp.read Γ cfg k i with
      | none => return .absent
      | some d =>
        if d.ty = p.ty then
          if d.ty = d.table then ⟨fun s =>
            let out := Γ.cloneFrom d.ty p.bytes (d.bytes, s.2.user)
            (out.1.map fun _ => .done, (YOp.write Γ cfg k i out.2.1 (s.1, { s.2 with user := out.2.2 })).2)⟩
          else M.panic .assertion
        else return .refused
  | swapValues k i j i' => do
    if k = j then return .absent
    match ← YOp.read Γ cfg k i with
    | none => return .absent
    | some p =>
      match ← YOp.read Γ cfg j i' with
      | none => return .absent
      | some q => do
        if p.ty = q.ty then do
          YOp.write Γ cfg k i q.bytes
          YOp.write Γ cfg j i' p.bytes
          return .done
        else return .done
  | len k => YOp.look Γ k (fun _ es => .ok (.num es.length)) (fun n => .ok (.num n))
  | typeId k => YOp.look Γ k (fun t _ => .ok (.num t)) (fun _ => .ok (.num Γ.unitTy))
  | getAs k t i => YOp.look Γ k
      (fun t' es => if h : i < es.length then .ok (if t = t' then .elem es[i] else .refused) else .panic)
      (fun n => if i < n then .ok (if t = Γ.unitTy then .elem [] else .refused) else .panic)
  | get k i => do
    match ← YOp.read Γ cfg k i with
    | none => return .absent
    | some p => return .value p.ty p.bytes
  | asSlice k t => YOp.look Γ k
      (fun t' es => .ok (if t = t' then .elems es else .refused))
      (fun n => .ok (if t = Γ.unitTy then .elems (List.replicate n []) else .refused))
  | iter k => YOp.look Γ k (fun _ es => .ok (.elems es)) (fun _ => .panic)

/-- The programs the Rust type checker accepts: a value passed as a `T` is the image of a `T`, and lengths are
numbers of type `usize`. -/
def DOp.IsTyped (Γ : TyEnv U) : DOp → Prop
  | .fromVec _ t xs | .fromSlice _ t xs => xs.length ≤ usizeMax ∧ ∀ x ∈ xs, x.length = Γ.size t
  | .withSize _ t n x => n ≤ usizeMax ∧ x.length = Γ.size t
  | .newBox _ t x | .newSmall _ t x | .pushAs _ t x | .resize _ t _ x | .fill _ t x | .setAs _ t _ x => x.length = Γ.size t
  | _ => True

/-- A program with caught panics (`none` is a caught panic). -/
def stepsCaught (Γ : TyEnv U) (cfg : Cfg) : List DOp → M (YVars × Outside U) (List (Option Obs))
  | [] => pure []
  | op :: ops => do
    let o ← (op.step Γ cfg).caught
    let os ← stepsCaught Γ cfg ops
    pure (o :: os)

/-! ### What it means that an implementation state is a machine state -/

section
variable [HasDrop U V] [HasClone U V] [TableLaw V]

/-- The implementation holds `a` in a variable where the machine holds `b`. -/
def YItem.Is (Γ : TyEnv U) (h : Heap) (a : Item V) (b : YItem) : Prop :=
  match a, b with
  | .vec c, .vec t x => x.Is Γ h c.data ∧ Tab Γ t c.vtable ∧ 0 < Γ.size t ∧ ∀ t' es cap, x = .vec t' es cap → t' = t
  | .box v, .box t x => IsBox Γ h t x v ∧ Tab Γ t v.vtable
  | .small v, .small t x => IsSmall Γ t x v ∧ Tab Γ t v.vtable
  | _, _ => False

/-- The variables hold exactly what the machine says, the user code is in the same state, different variables
own different blocks, and all other live blocks are the leaked ones. -/
structure YHolds (Γ : TyEnv U) (slots : DSlots V) (w : World U) (vars : YVars) (o : Outside U) : Prop where
  user : w.user = o.user
  wf : w.heap.WF
  none_iff : ∀ k, slots k = none ↔ vars k = none
  is : ∀ k a b, slots k = some a → vars k = some b → YItem.Is Γ w.heap a b
  inj : ∀ k k' a a' i, slots k = some a → slots k' = some a' → a.ptr = some i → a'.ptr = some i → k = k'
  leaks : ∃ L : List Nat, L.Nodup ∧ L.length = o.leaked ∧ (∀ i ∈ L, w.heap.live i ≠ none) ∧
    (∀ i ∈ L, ∀ k a, slots k = some a → a.ptr ≠ some i) ∧
    ∀ i l, w.heap.live i = some l → i ∈ L ∨ ∃ k a, slots k = some a ∧ a.ptr = some i

/-- The implementation, in the state `s`, ends as the machine does: with the same result in a corresponding
state, with a panic in a corresponding state, with undefined behaviour, or with an abort. -/
def EndsAs (Γ : TyEnv U) (impl : Res α × (DSlots V × World U)) (mach : Res α × (YVars × Outside U)) : Prop :=
  match mach with
  | (.ok r, (vars, o)) => impl.1 = .ok r ∧ YHolds Γ impl.2.1 impl.2.2 vars o
  | (.panic _, (vars, o)) => (∃ y, impl.1 = .panic y) ∧ YHolds Γ impl.2.1 impl.2.2 vars o
  | (.ub, _) => impl.1 = .ub
  | (.abort, _) => impl.1 = .abort

end
end Dync
