import Verif.Rust
/-!
# Ownership of virtual tables

Every container and owned value of the crate holds its virtual table in a box of its own (`Ptr` is `Box`,
src/vtable.rs:3); a view or reference holds a `VTableRef`, which borrows a table or owns a box.  The other
modules treat tables as plain values.  This one models only the tables: which boxes are created, cloned,
moved out of and freed by each function, and in which order relative to the rest of the function.

The rest of a function (what it does to element bytes) is a parameter `d` that runs arbitrary code and may
panic.  Building, cloning and converting a table is arbitrary user code that may panic; destroying one is
not observed beyond its box being freed, and does not panic.
-/
namespace Dync
variable {τ U α β : Type}

/-- The boxes of virtual tables: `Ptr<V>` is `Box<V>` (src/vtable.rs:2-3). -/
structure Tabs (τ : Type) where
  next : Nat
  live : Nat → Option τ

/-- All tables, the table owned by each container or value in scope (`none`: moved away or destroyed), and
the user state. -/
structure TState (τ U : Type) where
  tabs : Tabs τ
  owners : List (Option Nat)
  user : U

/-- Code that does not touch tables: it returns (`some`) or panics (`none`). -/
abbrev Data (U α : Type) := U → Option α × U

/-- User code of tables: `VTable::build_vtable` (src/vtable.rs:15-17), `Clone::clone`, `From::from`. -/
structure TabFns (τ U : Type) where
  build : Data U τ
  clone : τ → Data U τ
  conv : τ → Data U τ

/-- Run such code. -/
def runData (d : Data U α) : M (TState τ U) α := ⟨fun s =>
  match d s.user with
  | (some a, u) => (.ok a, { s with user := u })
  | (none, u) => (.panic .user, { s with user := u })⟩

/-- `Ptr::new(v)` (e.g. src/vec_copy.rs:155). -/
def newBox (v : τ) : M (TState τ U) Nat := ⟨fun s =>
  (.ok s.tabs.next, { s with tabs := ⟨s.tabs.next + 1, fun i => if i = s.tabs.next then some v else s.tabs.live i⟩ })⟩

/-- Looking at the table behind a pointer. -/
def readBox (i : Nat) : M (TState τ U) τ := ⟨fun s =>
  match s.tabs.live i with
  | some v => (.ok v, s)
  | none => (.ub, s)⟩

/-- Freeing the box, after its content was destroyed or moved out. -/
def freeBox (i : Nat) : M (TState τ U) Unit := ⟨fun s =>
  match s.tabs.live i with
  | some _ => (.ok (), { s with tabs := { s.tabs with live := fun j => if j = i then none else s.tabs.live j } })
  | none => (.ub, s)⟩

/-- `(*table).clone()`. -/
def cloneTable (F : TabFns τ U) (i : Nat) : M (TState τ U) τ := do
  let v ← readBox i
  runData (F.clone v)

/-- `Ptr::clone(&table)`, `Ptr::from((*table).clone())`. -/
def cloneBox (F : TabFns τ U) (i : Nat) : M (TState τ U) Nat := do
  let v ← cloneTable F i
  newBox v

/-! ### `VTableRef` (src/vtable.rs:37-103) -/

/-- `VTableRef` (src/vtable.rs:37-45). -/
inductive TRef where
  | ref (i : Nat)
  | box (i : Nat)
deriving DecidableEq

namespace TRef

/-- `as_ref` (src/vtable.rs:95-103): the table referred to. -/
def id : TRef → Nat
  | ref i => i
  | box i => i

/-- `take` (src/vtable.rs:49-55). -/
def take (F : TabFns τ U) : TRef → M (TState τ U) τ
  | ref i => cloneTable F i
  | box i => do
    let v ← readBox i
    freeBox i
    pure v

/-- `into_owned` (src/vtable.rs:58-64). -/
def intoOwned (F : TabFns τ U) : TRef → M (TState τ U) Nat
  | ref i => cloneBox F i
  | box i => pure i

/-- The derived `Clone` (src/vtable.rs:37). -/
def clone (F : TabFns τ U) : TRef → M (TState τ U) TRef
  | ref i => pure (ref i)
  | box i => do
    let j ← cloneBox F i
    pure (box j)

/-- Drop glue of `VTableRef` (src/vtable.rs:37-45). -/
def drop : TRef → M (TState τ U) Unit
  | ref _ => pure ()
  | box i => freeBox i

end TRef

/-! ### Containers and owned values -/

/-- A new owner is bound to a new variable. -/
def bindOwner (i : Nat) : M (TState τ U) Unit := M.modify fun s => { s with owners := s.owners ++ [some i] }

/-- Every constructor: `VecCopy::from_vec_non_copy` (src/vec_copy.rs:143-157) with its callers,
`SmallValue::try_new` (src/value.rs:113-127), `BoxValue::new` (200-212). The data comes first. -/
def create (F : TabFns τ U) (d : Data U Unit) : M (TState τ U) Nat := do
  runData d
  let v ← runData F.build
  newBox v

/-- `clone_with` (src/vec_copy.rs:797-802), `#[derive(Clone)]` of `VecCopy`, `clone_value`
(src/value.rs:526-536, 693-703), `clone_small_value` (546-565, 713-732): the data comes first. -/
def cloneOwned (F : TabFns τ U) (d : Data U Unit) (i : Nat) : M (TState τ U) Nat := do
  let _ ← readBox i
  runData d
  cloneBox F i

/-- `with_type_from` (src/vec_copy.rs:186-200, src/vec_dyn.rs:193-200): if the allocation panics the
`Meta` is dropped. -/
def withTypeFromRef (F : TabFns τ U) (d : Data U Unit) (r : TRef) : M (TState τ U) Nat := do
  M.onUnwind (runData d) r.drop
  r.intoOwned F

/-- `VecCopy::upcast_with` (src/vec_copy.rs:239-247), `VecDyn::upcast` (src/vec_dyn.rs:243-254): `self` is
dropped on every exit. -/
def upcastVec (F : TabFns τ U) (i : Nat) : M (TState τ U) Nat :=
  M.thenDrop (do
    let v ← cloneTable F i
    let w ← runData (F.conv v)
    newBox w) (freeBox i)

/-- `SmallValue::upcast` (src/value.rs:158-179), `BoxValue::upcast` (236-258): `self` is in a
`ManuallyDrop`, the old table is dropped at the end. -/
def upcastVal (F : TabFns τ U) (i : Nat) : M (TState τ U) Nat := do
  let v ← cloneTable F i
  let w ← runData (F.conv v)
  let j ← newBox w
  freeBox i
  pure j

/-- Drop glue of `VecCopy` (src/vec_copy.rs:52-62): the buffer, then the table. -/
def dropCopyVec (i : Nat) : M (TState τ U) Unit := freeBox i

/-- `Drop for VecDyn` (src/vec_dyn.rs:84-99) and `Drop for Value` (src/value.rs:323-335): the destructors of
the elements (`d`), then the table. -/
def dropDynOwner (d : Data U Unit) (i : Nat) : M (TState τ U) Unit := do
  let _ ← readBox i
  runData d
  freeBox i

/-- `VecCopy::into_vec` (src/vec_copy.rs:453-457), `VecDyn::into_vec` (src/vec_dyn.rs:353-360), `downcast` of
owned values (src/value.rs:367-409): the data is moved out or leaked, the table is dropped. -/
def dissolve (i : Nat) : M (TState τ U) Unit := freeBox i

/-- `VecDyn::push` (src/vec_dyn.rs:431-441): the value is taken apart and its table dropped before the bytes
are pushed (`d`); a value of another type is dropped. -/
def pushOwned (same : Bool) (d : Data U Unit) (i : Nat) : M (TState τ U) Unit :=
  if same then do
    freeBox i
    runData d
  else dropDynOwner d i

/-- `ValueMut::assign` (src/value.rs:655-660): after the swap, which does not panic, `value` is dropped; `d` is
its destructor. -/
def assignOwned (d : Data U Unit) (i : Nat) : M (TState τ U) Unit := dropDynOwner d i

/-- `from_dyn!` (src/lib.rs:89-99) on a container with another table: `downcast().ok()` drops the box, then
`unwrap` panics. -/
def fromDynOwned (found : Bool) (i : Nat) : M (TState τ U) Nat :=
  if found then pure i else do
    freeBox i
    M.panic .unwrapNone

/-! ### Views and references -/

/-- What a program does with a view or reference. -/
inductive VP (U : Type) where
  /-- it goes out of scope -/
  | drop
  /-- any method that reads the table and works on bytes -/
  | use (d : Data U Unit) (k : VP U)
  /-- `reborrow`, `subslice`, `get`, `iter`, `split_at`, `chunks_exact`: a view that borrows the table
  (src/slice_copy.rs:134-142, 246-346, 509-530, 595-797), used by `p` -/
  | sub (d : Data U Unit) (p k : VP U)
  /-- `upcast_ref`, `upcast_mut`, `CopyValueMut::upcast` (src/value.rs:588-599, 773-784,
  src/copy_value.rs:201-212, 294-306) -/
  | upRef (p k : VP U)
  /-- `upcast` (src/slice_copy.rs:98-117, 463-482, src/value.rs:574-585, 760-770, src/copy_value.rs:187-198)
  and the conversions to references with `(DropFn, V)` (src/value.rs:829-853) -/
  | up (k : VP U)
  /-- `Clone` of views -/
  | dup (p k : VP U)
  /-- `into_subslice`, `into_raw_parts` with `from_raw_parts`, `into_dyn!`, `From<ValueMut> for ValueRef`
  (src/slice_copy.rs:330-342, 782-794): the table is moved -/
  | move (d : Data U Unit) (k : VP U)
  /-- `into_iter` over `n` elements (src/slice_copy.rs:262-273, 671-681, src/slice.rs:218-228, 580-590) -/
  | each (n : Nat) (p : VP U)
  /-- `with_type_from(view)` -/
  | own (d : Data U Unit)
  /-- `clone_value`, `clone_small_value` -/
  | cloneOwn (d : Data U Unit) (k : VP U)
  /-- `from_dyn!` with another table (src/lib.rs:100-117) -/
  | fail

namespace VP

/-- Run a view program on a view. On a panic the view is dropped while unwinding. -/
def run (F : TabFns τ U) : VP U → TRef → M (TState τ U) Unit
  | drop, r => r.drop
  | use d k, r => do
    M.onUnwind (do let _ ← readBox r.id; runData d) r.drop
    run F k r
  | sub d p k, r => do
    M.onUnwind (do let _ ← readBox r.id; runData d; run F p (.ref r.id)) r.drop
    run F k r
  | upRef p k, r => do
    M.onUnwind (do
      let v ← cloneTable F r.id
      let w ← runData (F.conv v)
      let j ← newBox w
      run F p (.box j)) r.drop
    run F k r
  | up k, r => do
    let v ← r.take F
    let w ← runData (F.conv v)
    let j ← newBox w
    run F k (.box j)
  | dup p k, r => do
    M.onUnwind (do
      let c ← r.clone F
      run F p c) r.drop
    run F k r
  | move d k, r => do
    M.onUnwind (runData d) r.drop
    run F k r
  | each n p, r =>
    M.thenDrop (M.repeatN n (do
      let c ← r.clone F
      run F p c)) r.drop
  | own d, r => do
    let i ← withTypeFromRef F d r
    bindOwner i
  | cloneOwn d k, r => do
    M.onUnwind (do
      let i ← cloneOwned F d r.id
      bindOwner i) r.drop
    run F k r
  | fail, r => do
    r.drop
    M.panic .unwrapNone

end VP

/-! ### Programs -/

/-- Operations of a program with containers and values in numbered variables. -/
inductive TOp (U : Type) where
  /-- a constructor -/
  | create (d : Data U Unit)
  /-- `clone` of the owner in a variable -/
  | clone (k : Nat) (d : Data U Unit)
  /-- `with_type_from(&owner)` -/
  | typeFrom (k : Nat) (d : Data U Unit)
  /-- `upcast` of a container -/
  | upcastVec (k : Nat)
  /-- `upcast` of an owned value -/
  | upcastVal (k : Nat)
  /-- a `VecCopy` goes out of scope -/
  | dropCopy (k : Nat)
  /-- a `VecDyn` or an owned value goes out of scope -/
  | dropDyn (k : Nat) (d : Data U Unit)
  /-- `into_vec`, `downcast` -/
  | dissolve (k : Nat)
  /-- a boxed value is pushed to a container -/
  | push (same : Bool) (k : Nat) (d : Data U Unit)
  /-- an owned value is assigned to an element -/
  | assign (k : Nat) (d : Data U Unit)
  /-- `into_raw_parts` and `from_raw_parts`, `into_dyn!` and `from_dyn!`; not `found`: another table -/
  | roundTrip (found : Bool) (k : Nat)
  /-- a method that only works on bytes and reads the table -/
  | use (k : Nat) (d : Data U Unit)
  /-- a view or reference that borrows the table of the owner -/
  | view (k : Nat) (p : VP U)
  /-- `From<&Value> for ValueRef` (src/value.rs:482-495), which clones the table -/
  | valueRef (k : Nat) (p : VP U)
  /-- a view or reference made from typed data, with a table of its own (`SliceCopy::from_slice`
  src/slice_copy.rs:44-55, `ValueRef::new` src/value.rs:466-480, and the mutable and `Copy` versions) -/
  | newView (p : VP U)

/-- A resulting owner, if there is one, is bound to a new variable. -/
def bindResult : Option Nat → M (TState τ U) Unit
  | some j => bindOwner j
  | none => pure ()

/-- The operation on the owner in variable `k`, which is moved away; nothing happens if the variable is
empty. A new owner is bound to a new variable. -/
def consume (k : Nat) (f : Nat → M (TState τ U) (Option Nat)) : M (TState τ U) Unit := ⟨fun s =>
  match s.owners[k]? with
  | some (some i) =>
    (f i >>= bindResult) { s with owners := s.owners.set k none }
  | _ => (.ok (), s)⟩

/-- The operation borrows the owner in variable `k`. -/
def borrow (k : Nat) (f : Nat → M (TState τ U) Unit) : M (TState τ U) Unit := ⟨fun s =>
  match s.owners[k]? with
  | some (some i) => f i s
  | _ => (.ok (), s)⟩

/-- Run one operation. -/
def TOp.run (F : TabFns τ U) : TOp U → M (TState τ U) Unit
  | create d => do
    let i ← Dync.create F d
    bindOwner i
  | clone k d => borrow k fun i => do
    let j ← cloneOwned F d i
    bindOwner j
  | typeFrom k d => borrow k fun i => do
    let j ← withTypeFromRef F d (.ref i)
    bindOwner j
  | upcastVec k => consume k fun i => do
    let j ← Dync.upcastVec F i
    pure (some j)
  | upcastVal k => consume k fun i => do
    let j ← Dync.upcastVal F i
    pure (some j)
  | dropCopy k => consume k fun i => do
    dropCopyVec i
    pure none
  | dropDyn k d => consume k fun i => do
    dropDynOwner d i
    pure none
  | dissolve k => consume k fun i => do
    Dync.dissolve i
    pure none
  | push same k d => consume k fun i => do
    pushOwned same d i
    pure none
  | assign k d => consume k fun i => do
    assignOwned d i
    pure none
  | roundTrip found k => consume k fun i => do
    let j ← fromDynOwned found i
    pure (some j)
  | use k d => borrow k fun i => do
    let _ ← readBox i
    runData d
  | view k p => borrow k fun i => p.run F (.ref i)
  | valueRef k p => borrow k fun i => do
    let j ← cloneBox F i
    p.run F (.box j)
  | newView p => do
    let v ← runData F.build
    let j ← newBox v
    p.run F (.box j)

/-- Run operations one after the other, catching panics; the outcomes are collected. The program ends
early only if the process is aborted or has undefined behaviour. -/
def TOp.runAll (F : TabFns τ U) : List (TOp U) → TState τ U → List (Res Unit) × TState τ U
  | [], s => ([], s)
  | op :: ops, s =>
    match op.run F s with
    | (.ub, s') => ([.ub], s')
    | (.abort, s') => ([.abort], s')
    | (r, s') =>
      let out := runAll F ops s'
      (r :: out.1, out.2)

end Dync
