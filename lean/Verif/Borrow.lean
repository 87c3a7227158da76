/-!
# Lifetimes of the safe functions that hand out views

Every safe public function of the crate that returns a reference or a view is listed with the
lifetimes of its parameters and of its result, as written in /repo.  Elided lifetimes are resolved by
Rust's elision rules (`Sig.outVars`).

A *path* is the list of references to follow from a parameter to the memory of the elements, outermost
first: `&self` on `SliceMut<'a, V>` is `[(shared, elided), (unique, 'a)]`, `self` on `Slice<'a, V>` is
`[(shared, 'a)]`, an owned container has the empty path.  The virtual table reached through a view is
protected by the same lifetimes.  Functions that return no borrowed data (`len`, `clone`, ...),
`unsafe` functions and crate-private functions are not listed.  Generic parameters and trait bounds are
left out: they carry no lifetimes here.
-/
namespace Dync.Borrow

/-- Kind of a reference. -/
inductive Access where
  | shared
  | unique
deriving DecidableEq, Repr

/-- A lifetime as written in the source. -/
inductive Life where
  | named (name : String)
  | elided
deriving DecidableEq, Repr

/-- Lifetimes of the references to follow to reach the memory. -/
abbrev Path := List (Access × Life)

/-- A function signature. `refSelf`: the first parameter is `&self` or `&mut self`. `src`: the
parameter whose memory is handed out. `outs`: the references in the result. `bounds`: declared
bounds `'a: 'b`. -/
structure Sig where
  name : String
  params : List Path
  refSelf : Bool
  src : Nat
  outs : Path
  bounds : List (Life × Life)
deriving DecidableEq, Repr

/-- Lifetime variables after elision: every elided parameter lifetime gets its own variable. -/
inductive Var where
  | named (name : String)
  | anon (param pos : Nat)
deriving DecidableEq, Repr

/-- The variable of the lifetime at position `pos` of parameter `param`. -/
def Life.var (param pos : Nat) : Life → Var
  | .named a => .named a
  | .elided => .anon param pos

/-- The parameters with their lifetime variables. -/
def Sig.paramVars (s : Sig) : List (List (Access × Var)) :=
  s.params.mapIdx fun i p => p.mapIdx fun j al => (al.1, al.2.var i j)

/-- Rust's rule for elided lifetimes in the result: that of `&self`, else the only lifetime of the
parameters, else an error. -/
def Sig.elidedOut (s : Sig) : Option Var :=
  if s.refSelf then (s.paramVars.head?.bind List.head?).map Prod.snd
  else match s.paramVars.flatten with
    | [v] => some v.2
    | _ => none

/-- The references of the result with their lifetime variables; `none` if elision fails. -/
def Sig.outVars (s : Sig) : Option (List (Access × Var)) :=
  s.outs.mapM fun al => match al.2 with
    | .named a => some (al.1, .named a)
    | .elided => s.elidedOut.map fun v => (al.1, v)

/-- The path to the memory handed out. -/
def Sig.srcPath (s : Sig) : List (Access × Var) := (s.paramVars[s.src]?).getD []

/-- The safe functions returning references or views; file and line at each. -/
def api : List Sig :=
  [
    -- src/copy_value.rs:144
    ⟨"CopyValueRef::new", [[(.shared, .named "'a")]], false, 0, [(.shared, .named "'a")], []⟩,
    -- src/copy_value.rs:182
    ⟨"CopyValueRef::downcast", [[(.shared, .named "'a")]], false, 0, [(.shared, .named "'a")], []⟩,
    -- src/copy_value.rs:188
    ⟨"CopyValueRef::upcast", [[(.shared, .named "'a")]], false, 0, [(.shared, .named "'a")], []⟩,
    -- src/copy_value.rs:201
    ⟨"CopyValueRef::upcast_ref", [[(.shared, .elided), (.shared, .named "'a")]], true, 0, [(.shared, .elided)], []⟩,
    -- src/copy_value.rs:229
    ⟨"CopyValueMut::new", [[(.unique, .named "'a")]], false, 0, [(.unique, .named "'a")], []⟩,
    -- src/copy_value.rs:269
    ⟨"CopyValueMut::copy", [[(.unique, .named "'a")], [(.shared, .named "'a")]], false, 0, [(.unique, .named "'a")], []⟩,
    -- src/copy_value.rs:289
    ⟨"CopyValueMut::downcast", [[(.unique, .named "'a")]], false, 0, [(.unique, .named "'a")], []⟩,
    -- src/copy_value.rs:295
    ⟨"CopyValueMut::upcast", [[(.unique, .elided), (.unique, .named "'a")]], true, 0, [(.unique, .elided)], []⟩,
    -- src/copy_value.rs:311
    ⟨"<CopyValueRef<'a, V> as From<CopyValueMut<'a, V>>>::from", [[(.unique, .named "'a")]], false, 0, [(.shared, .named "'a")], []⟩,
    -- src/meta.rs:26
    ⟨"<Meta<VTableRef<'a, V>> as From<ValueRef<'a, V>>>::from", [[(.shared, .named "'a")]], false, 0, [(.shared, .named "'a")], []⟩,
    -- src/meta.rs:41
    ⟨"<Meta<VTableRef<'a, V>> as From<ValueMut<'a, V>>>::from", [[(.unique, .named "'a")]], false, 0, [(.shared, .named "'a")], []⟩,
    -- src/meta.rs:55
    ⟨"<Meta<VTableRef<'a, V>> as From<CopyValueRef<'a, V>>>::from", [[(.shared, .named "'a")]], false, 0, [(.shared, .named "'a")], []⟩,
    -- src/meta.rs:69
    ⟨"<Meta<VTableRef<'a, V>> as From<SliceCopy<'a, V>>>::from", [[(.shared, .named "'a")]], false, 0, [(.shared, .named "'a")], []⟩,
    -- src/meta.rs:79
    ⟨"<Meta<VTableRef<'a, V>> as From<SliceCopyMut<'a, V>>>::from", [[(.unique, .named "'a")]], false, 0, [(.shared, .named "'a")], []⟩,
    -- src/meta.rs:90
    ⟨"<Meta<VTableRef<'a, V>> as From<Slice<'a, V>>>::from", [[(.shared, .named "'a")]], false, 0, [(.shared, .named "'a")], []⟩,
    -- src/meta.rs:98
    ⟨"<Meta<VTableRef<'a, V>> as From<SliceMut<'a, V>>>::from", [[(.unique, .named "'a")]], false, 0, [(.shared, .named "'a")], []⟩,
    -- src/meta.rs:105
    ⟨"<Meta<VTableRef<'a, V>> as From<&'a VecCopy<V>>>::from", [[(.shared, .named "'a")]], false, 0, [(.shared, .named "'a")], []⟩,
    -- src/slice.rs:48
    ⟨"Slice::from_slice", [[(.shared, .elided)]], false, 0, [(.shared, .named "'a")], []⟩,
    -- src/slice.rs:64
    ⟨"Slice::into_raw_parts", [[(.shared, .named "'a")]], false, 0, [(.shared, .named "'a"), (.shared, .named "'a")], []⟩,
    -- src/slice.rs:93
    ⟨"Slice::upcast", [[(.shared, .named "'a")]], false, 0, [(.shared, .named "'a")], []⟩,
    -- src/slice.rs:106
    ⟨"Slice::check", [[(.shared, .elided), (.shared, .named "'a")]], true, 0, [(.shared, .elided)], []⟩,
    -- src/slice.rs:118
    ⟨"Slice::reborrow", [[(.shared, .elided), (.shared, .named "'a")]], true, 0, [(.shared, .elided)], []⟩,
    -- src/slice.rs:165
    ⟨"Slice::iter_as", [[(.shared, .elided), (.shared, .named "'a")]], true, 0, [(.shared, .elided)], []⟩,
    -- src/slice.rs:173
    ⟨"Slice::as_slice", [[(.shared, .elided), (.shared, .named "'a")]], true, 0, [(.shared, .elided)], []⟩,
    -- src/slice.rs:180
    ⟨"Slice::get_as", [[(.shared, .elided), (.shared, .named "'a")], []], true, 0, [(.shared, .elided)], []⟩,
    -- src/slice.rs:206
    ⟨"Slice::iter", [[(.shared, .elided), (.shared, .named "'a")]], true, 0, [(.shared, .elided)], []⟩,
    -- src/slice.rs:219
    ⟨"Slice::into_iter", [[(.shared, .named "'a")]], false, 0, [(.shared, .named "'a")], []⟩,
    -- src/slice.rs:231
    ⟨"Slice::chunks_exact", [[(.shared, .elided), (.shared, .named "'a")], []], true, 0, [(.shared, .elided)], []⟩,
    -- src/slice.rs:238
    ⟨"Slice::split_at", [[(.shared, .elided), (.shared, .named "'a")], []], true, 0, [(.shared, .elided), (.shared, .elided)], []⟩,
    -- src/slice.rs:245
    ⟨"Slice::get", [[(.shared, .elided), (.shared, .named "'a")], []], true, 0, [(.shared, .elided)], []⟩,
    -- src/slice.rs:261
    ⟨"Slice::subslice", [[(.shared, .elided), (.shared, .named "'a")], []], true, 0, [(.shared, .elided)], []⟩,
    -- src/slice.rs:272
    ⟨"Slice::into_subslice", [[(.shared, .named "'a")], []], false, 0, [(.shared, .named "'a")], []⟩,
    -- src/slice.rs:296
    ⟨"Slice::append_clone_to_vec", [[(.shared, .elided), (.shared, .named "'a")], [(.unique, .named "'b")]], true, 1, [(.unique, .named "'b")], []⟩,
    -- src/slice.rs:325
    ⟨"<Slice<'a, V> as From<&'a [T]>>::from", [[(.shared, .named "'a")]], false, 0, [(.shared, .named "'a")], []⟩,
    -- src/slice.rs:364
    ⟨"SliceMut::from_slice", [[(.unique, .named "'a")]], false, 0, [(.unique, .named "'a")], []⟩,
    -- src/slice.rs:380
    ⟨"SliceMut::into_raw_parts", [[(.unique, .named "'a")]], false, 0, [(.shared, .named "'a"), (.shared, .named "'a")], []⟩,
    -- src/slice.rs:409
    ⟨"SliceMut::upcast", [[(.unique, .named "'a")]], false, 0, [(.unique, .named "'a")], []⟩,
    -- src/slice.rs:421
    ⟨"SliceMut::check", [[(.unique, .elided), (.unique, .named "'a")]], true, 0, [(.unique, .elided)], []⟩,
    -- src/slice.rs:433
    ⟨"SliceMut::reborrow", [[(.shared, .elided), (.unique, .named "'a")]], true, 0, [(.shared, .elided)], []⟩,
    -- src/slice.rs:443
    ⟨"SliceMut::reborrow_mut", [[(.unique, .elided), (.unique, .named "'a")]], true, 0, [(.unique, .elided)], []⟩,
    -- src/slice.rs:497
    ⟨"SliceMut::iter_as", [[(.unique, .elided), (.unique, .named "'a")]], true, 0, [(.unique, .elided)], []⟩,
    -- src/slice.rs:504
    ⟨"SliceMut::as_slice", [[(.unique, .elided), (.unique, .named "'a")]], true, 0, [(.unique, .elided)], []⟩,
    -- src/slice.rs:512
    ⟨"SliceMut::get_as", [[(.unique, .elided), (.unique, .named "'a")], []], true, 0, [(.unique, .elided)], []⟩,
    -- src/slice.rs:564
    ⟨"SliceMut::iter", [[(.unique, .elided), (.unique, .named "'a")]], true, 0, [(.unique, .elided)], []⟩,
    -- src/slice.rs:581
    ⟨"SliceMut::into_iter", [[(.unique, .named "'a")]], false, 0, [(.unique, .named "'a")], []⟩,
    -- src/slice.rs:593
    ⟨"SliceMut::chunks_exact", [[(.shared, .elided), (.unique, .named "'a")], []], true, 0, [(.shared, .elided)], []⟩,
    -- src/slice.rs:600
    ⟨"SliceMut::chunks_exact_mut", [[(.unique, .elided), (.unique, .named "'a")], []], true, 0, [(.unique, .elided)], []⟩,
    -- src/slice.rs:607
    ⟨"SliceMut::split_at", [[(.unique, .elided), (.unique, .named "'a")], []], true, 0, [(.unique, .elided), (.unique, .elided)], []⟩,
    -- src/slice.rs:614
    ⟨"SliceMut::get", [[(.shared, .elided), (.unique, .named "'a")], []], true, 0, [(.shared, .elided)], []⟩,
    -- src/slice.rs:630
    ⟨"SliceMut::get_mut", [[(.unique, .elided), (.unique, .named "'a")], []], true, 0, [(.unique, .elided)], []⟩,
    -- src/slice.rs:648
    ⟨"SliceMut::subslice", [[(.shared, .elided), (.unique, .named "'a")], []], true, 0, [(.shared, .elided)], []⟩,
    -- src/slice.rs:659
    ⟨"SliceMut::subslice_mut", [[(.unique, .elided), (.unique, .named "'a")], []], true, 0, [(.unique, .elided)], []⟩,
    -- src/slice.rs:670
    ⟨"SliceMut::into_subslice", [[(.unique, .named "'a")], []], false, 0, [(.unique, .named "'a")], []⟩,
    -- src/slice.rs:687
    ⟨"SliceMut::clone_from_slice", [[(.unique, .elided), (.unique, .named "'a")], [(.shared, .elided)]], true, 0, [(.unique, .elided)], []⟩,
    -- src/slice.rs:696
    ⟨"SliceMut::append_clone_to_vec", [[(.shared, .elided), (.unique, .named "'a")], [(.unique, .named "'b")]], true, 1, [(.unique, .named "'b")], []⟩,
    -- src/slice.rs:724
    ⟨"<SliceMut<'a, V> as From<&'a mut [T]>>::from", [[(.unique, .named "'a")]], false, 0, [(.unique, .named "'a")], []⟩,
    -- src/slice.rs:731
    ⟨"<Slice<'a, V> as From<SliceMut<'a, V>>>::from", [[(.unique, .named "'a")]], false, 0, [(.shared, .named "'a")], []⟩,
    -- src/slice.rs:740
    ⟨"<Slice<'b, V> as From<&'b SliceMut<'a, V>>>::from", [[(.shared, .named "'b"), (.unique, .named "'a")]], false, 0, [(.shared, .named "'b")], [(.named "'a", .named "'b")]⟩,
    -- src/slice_copy.rs:32
    ⟨"SliceCopy::from_slice", [[(.shared, .elided)]], false, 0, [(.shared, .named "'a")], []⟩,
    -- src/slice_copy.rs:69
    ⟨"SliceCopy::into_raw_parts", [[(.shared, .named "'a")]], false, 0, [(.shared, .named "'a"), (.shared, .named "'a")], []⟩,
    -- src/slice_copy.rs:100
    ⟨"SliceCopy::upcast", [[(.shared, .named "'a")]], false, 0, [(.shared, .named "'a")], []⟩,
    -- src/slice_copy.rs:124
    ⟨"SliceCopy::check", [[(.shared, .elided), (.shared, .named "'a")]], true, 0, [(.shared, .elided)], []⟩,
    -- src/slice_copy.rs:136
    ⟨"SliceCopy::reborrow", [[(.shared, .elided), (.shared, .named "'a")]], true, 0, [(.shared, .elided)], []⟩,
    -- src/slice_copy.rs:186
    ⟨"SliceCopy::iter_as", [[(.shared, .elided), (.shared, .named "'a")]], true, 0, [(.shared, .elided)], []⟩,
    -- src/slice_copy.rs:193
    ⟨"SliceCopy::append_copy_to_vec", [[(.shared, .elided), (.shared, .named "'a")], [(.unique, .named "'b")]], true, 1, [(.unique, .named "'b")], []⟩,
    -- src/slice_copy.rs:218
    ⟨"SliceCopy::as_slice", [[(.shared, .elided), (.shared, .named "'a")]], true, 0, [(.shared, .elided)], []⟩,
    -- src/slice_copy.rs:225
    ⟨"SliceCopy::get_as", [[(.shared, .elided), (.shared, .named "'a")], []], true, 0, [(.shared, .elided)], []⟩,
    -- src/slice_copy.rs:251
    ⟨"SliceCopy::iter", [[(.shared, .elided), (.shared, .named "'a")]], true, 0, [(.shared, .elided)], []⟩,
    -- src/slice_copy.rs:264
    ⟨"SliceCopy::into_iter", [[(.shared, .named "'a")]], false, 0, [(.shared, .named "'a")], []⟩,
    -- src/slice_copy.rs:276
    ⟨"SliceCopy::chunks_exact", [[(.shared, .elided), (.shared, .named "'a")], []], true, 0, [(.shared, .elided)], []⟩,
    -- src/slice_copy.rs:286
    ⟨"SliceCopy::split_at", [[(.shared, .elided), (.shared, .named "'a")], []], true, 0, [(.shared, .elided), (.shared, .elided)], []⟩,
    -- src/slice_copy.rs:303
    ⟨"SliceCopy::get", [[(.shared, .elided), (.shared, .named "'a")], []], true, 0, [(.shared, .elided)], []⟩,
    -- src/slice_copy.rs:319
    ⟨"SliceCopy::subslice", [[(.shared, .elided), (.shared, .named "'a")], []], true, 0, [(.shared, .elided)], []⟩,
    -- src/slice_copy.rs:332
    ⟨"SliceCopy::into_subslice", [[(.shared, .named "'a")], []], false, 0, [(.shared, .named "'a")], []⟩,
    -- src/slice_copy.rs:373
    ⟨"<SliceCopy<'a, V> as From<&'a [T]>>::from", [[(.shared, .named "'a")]], false, 0, [(.shared, .named "'a")], []⟩,
    -- src/slice_copy.rs:395
    ⟨"SliceCopyMut::from_slice", [[(.unique, .named "'a")]], false, 0, [(.unique, .named "'a")], []⟩,
    -- src/slice_copy.rs:427
    ⟨"SliceCopyMut::into_raw_parts", [[(.unique, .named "'a")]], false, 0, [(.unique, .named "'a"), (.shared, .named "'a")], []⟩,
    -- src/slice_copy.rs:464
    ⟨"SliceCopyMut::upcast", [[(.unique, .named "'a")]], false, 0, [(.unique, .named "'a")], []⟩,
    -- src/slice_copy.rs:490
    ⟨"SliceCopyMut::copy_from_slice", [[(.unique, .elided), (.unique, .named "'a")], [(.shared, .elided)]], true, 0, [(.unique, .elided)], []⟩,
    -- src/slice_copy.rs:499
    ⟨"SliceCopyMut::check", [[(.unique, .elided), (.unique, .named "'a")]], true, 0, [(.unique, .elided)], []⟩,
    -- src/slice_copy.rs:511
    ⟨"SliceCopyMut::reborrow", [[(.shared, .elided), (.unique, .named "'a")]], true, 0, [(.shared, .elided)], []⟩,
    -- src/slice_copy.rs:523
    ⟨"SliceCopyMut::reborrow_mut", [[(.unique, .elided), (.unique, .named "'a")]], true, 0, [(.unique, .elided)], []⟩,
    -- src/slice_copy.rs:567
    ⟨"SliceCopyMut::iter_as", [[(.unique, .elided), (.unique, .named "'a")]], true, 0, [(.unique, .elided)], []⟩,
    -- src/slice_copy.rs:574
    ⟨"SliceCopyMut::append_copy_to_vec", [[(.shared, .elided), (.unique, .named "'a")], [(.unique, .named "'b")]], true, 1, [(.unique, .named "'b")], []⟩,
    -- src/slice_copy.rs:598
    ⟨"SliceCopyMut::as_slice", [[(.unique, .elided), (.unique, .named "'a")]], true, 0, [(.unique, .elided)], []⟩,
    -- src/slice_copy.rs:606
    ⟨"SliceCopyMut::get_as", [[(.unique, .elided), (.unique, .named "'a")], []], true, 0, [(.unique, .elided)], []⟩,
    -- src/slice_copy.rs:658
    ⟨"SliceCopyMut::iter", [[(.unique, .elided), (.unique, .named "'a")]], true, 0, [(.unique, .elided)], []⟩,
    -- src/slice_copy.rs:672
    ⟨"SliceCopyMut::into_iter", [[(.unique, .named "'a")]], false, 0, [(.unique, .named "'a")], []⟩,
    -- src/slice_copy.rs:684
    ⟨"SliceCopyMut::chunks_exact", [[(.shared, .elided), (.unique, .named "'a")], []], true, 0, [(.shared, .elided)], []⟩,
    -- src/slice_copy.rs:695
    ⟨"SliceCopyMut::chunks_exact_mut", [[(.unique, .elided), (.unique, .named "'a")], []], true, 0, [(.unique, .elided)], []⟩,
    -- src/slice_copy.rs:705
    ⟨"SliceCopyMut::split_at", [[(.unique, .elided), (.unique, .named "'a")], []], true, 0, [(.unique, .elided), (.unique, .elided)], []⟩,
    -- src/slice_copy.rs:722
    ⟨"SliceCopyMut::get", [[(.shared, .elided), (.unique, .named "'a")], []], true, 0, [(.shared, .elided)], []⟩,
    -- src/slice_copy.rs:738
    ⟨"SliceCopyMut::get_mut", [[(.unique, .elided), (.unique, .named "'a")], []], true, 0, [(.unique, .elided)], []⟩,
    -- src/slice_copy.rs:757
    ⟨"SliceCopyMut::subslice", [[(.shared, .elided), (.unique, .named "'a")], []], true, 0, [(.shared, .elided)], []⟩,
    -- src/slice_copy.rs:770
    ⟨"SliceCopyMut::subslice_mut", [[(.unique, .elided), (.unique, .named "'a")], []], true, 0, [(.unique, .elided)], []⟩,
    -- src/slice_copy.rs:784
    ⟨"SliceCopyMut::into_subslice", [[(.unique, .named "'a")], []], false, 0, [(.unique, .named "'a")], []⟩,
    -- src/slice_copy.rs:822
    ⟨"<SliceCopyMut<'a, V> as From<&'a mut [T]>>::from", [[(.unique, .named "'a")]], false, 0, [(.unique, .named "'a")], []⟩,
    -- src/slice_copy.rs:829
    ⟨"<SliceCopy<'a, V> as From<SliceCopyMut<'a, V>>>::from", [[(.unique, .named "'a")]], false, 0, [(.shared, .named "'a")], []⟩,
    -- src/slice_copy.rs:840
    ⟨"<SliceCopy<'b, V> as From<&'b SliceCopyMut<'a, V>>>::from", [[(.shared, .named "'b"), (.unique, .named "'a")]], false, 0, [(.shared, .named "'b")], [(.named "'a", .named "'b")]⟩,
    -- src/value.rs:280
    ⟨"Value::as_ref", [[(.shared, .elided)]], true, 0, [(.shared, .elided)], []⟩,
    -- src/value.rs:289
    ⟨"Value::as_mut", [[(.unique, .elided)]], true, 0, [(.unique, .elided)], []⟩,
    -- src/value.rs:471
    ⟨"ValueRef::new", [[(.shared, .named "'a")]], false, 0, [(.shared, .named "'a")], []⟩,
    -- src/value.rs:490
    ⟨"<ValueRef<'a, V> as From<&'a Value<B, V>>>::from", [[(.shared, .named "'a")]], false, 0, [(.shared, .named "'a")], []⟩,
    -- src/value.rs:571
    ⟨"ValueRef::downcast", [[(.shared, .named "'a")]], false, 0, [(.shared, .named "'a")], []⟩,
    -- src/value.rs:577
    ⟨"ValueRef::upcast", [[(.shared, .named "'a")]], false, 0, [(.shared, .named "'a")], []⟩,
    -- src/value.rs:590
    ⟨"ValueRef::upcast_ref", [[(.shared, .elided), (.shared, .named "'a")]], true, 0, [(.shared, .elided)], []⟩,
    -- src/value.rs:605
    ⟨"ValueRef::reborrow", [[(.shared, .elided), (.shared, .named "'a")]], true, 0, [(.shared, .elided)], []⟩,
    -- src/value.rs:631
    ⟨"ValueMut::new", [[(.unique, .named "'a")]], false, 0, [(.unique, .named "'a")], []⟩,
    -- src/value.rs:756
    ⟨"ValueMut::downcast", [[(.unique, .named "'a")]], false, 0, [(.unique, .named "'a")], []⟩,
    -- src/value.rs:763
    ⟨"ValueMut::upcast", [[(.unique, .named "'a")]], false, 0, [(.unique, .named "'a")], []⟩,
    -- src/value.rs:777
    ⟨"ValueMut::upcast_mut", [[(.unique, .elided), (.unique, .named "'a")]], true, 0, [(.unique, .elided)], []⟩,
    -- src/value.rs:790
    ⟨"ValueMut::reborrow", [[(.shared, .elided), (.unique, .named "'a")]], true, 0, [(.shared, .elided)], []⟩,
    -- src/value.rs:800
    ⟨"ValueMut::reborrow_mut", [[(.unique, .elided), (.unique, .named "'a")]], true, 0, [(.unique, .elided)], []⟩,
    -- src/value.rs:816
    ⟨"<ValueRef<'a, V> as From<ValueMut<'a, V>>>::from", [[(.unique, .named "'a")]], false, 0, [(.shared, .named "'a")], []⟩,
    -- src/value.rs:833
    ⟨"<ValueMut<'a, (DropFn, V)> as From<CopyValueMut<'a, V>>>::from", [[(.unique, .named "'a")]], false, 0, [(.unique, .named "'a")], []⟩,
    -- src/value.rs:845
    ⟨"<ValueRef<'a, (DropFn, V)> as From<CopyValueRef<'a, V>>>::from", [[(.shared, .named "'a")]], false, 0, [(.shared, .named "'a")], []⟩,
    -- src/vec_copy.rs:263
    ⟨"VecCopy::resize", [[(.unique, .elided)], [], []], true, 0, [(.unique, .elided)], []⟩,
    -- src/vec_copy.rs:282
    ⟨"VecCopy::copy_from_slice", [[(.unique, .elided)], [(.shared, .elided)]], true, 0, [(.unique, .elided)], []⟩,
    -- src/vec_copy.rs:309
    ⟨"VecCopy::fill", [[(.unique, .elided)], []], true, 0, [(.unique, .elided)], []⟩,
    -- src/vec_copy.rs:322
    ⟨"VecCopy::push_as", [[(.unique, .elided)], []], true, 0, [(.unique, .elided)], []⟩,
    -- src/vec_copy.rs:348
    ⟨"VecCopy::check_ref", [[(.shared, .elided)]], true, 0, [(.shared, .elided)], []⟩,
    -- src/vec_copy.rs:359
    ⟨"VecCopy::check_mut", [[(.unique, .elided)]], true, 0, [(.unique, .elided)], []⟩,
    -- src/vec_copy.rs:408
    ⟨"VecCopy::iter_as", [[(.shared, .elided)]], true, 0, [(.shared, .elided)], []⟩,
    -- src/vec_copy.rs:415
    ⟨"VecCopy::iter_mut_as", [[(.unique, .elided)]], true, 0, [(.unique, .elided)], []⟩,
    -- src/vec_copy.rs:422
    ⟨"VecCopy::append_copy_to_vec", [[(.shared, .elided)], [(.unique, .named "'a")]], true, 1, [(.unique, .named "'a")], []⟩,
    -- src/vec_copy.rs:463
    ⟨"VecCopy::as_slice_as", [[(.shared, .elided)]], true, 0, [(.shared, .elided)], []⟩,
    -- src/vec_copy.rs:483
    ⟨"VecCopy::as_mut_slice_as", [[(.unique, .elided)]], true, 0, [(.unique, .elided)], []⟩,
    -- src/vec_copy.rs:500
    ⟨"VecCopy::get_ref_as", [[(.shared, .elided)], []], true, 0, [(.shared, .elided)], []⟩,
    -- src/vec_copy.rs:509
    ⟨"VecCopy::get_mut_as", [[(.unique, .elided)], []], true, 0, [(.unique, .elided)], []⟩,
    -- src/vec_copy.rs:520
    ⟨"VecCopy::append", [[(.unique, .elided)], [(.unique, .elided)]], true, 0, [(.unique, .elided)], []⟩,
    -- src/vec_copy.rs:569
    ⟨"VecCopy::get_ref", [[(.shared, .elided)], []], true, 0, [(.shared, .elided)], []⟩,
    -- src/vec_copy.rs:589
    ⟨"VecCopy::get_mut", [[(.unique, .elided)], []], true, 0, [(.unique, .elided)], []⟩,
    -- src/vec_copy.rs:621
    ⟨"VecCopy::iter", [[(.shared, .elided)]], true, 0, [(.shared, .elided)], []⟩,
    -- src/vec_copy.rs:649
    ⟨"VecCopy::iter_mut", [[(.unique, .elided)]], true, 0, [(.unique, .elided)], []⟩,
    -- src/vec_copy.rs:677
    ⟨"VecCopy::push", [[(.unique, .elided)], [(.shared, .elided)]], true, 0, [(.unique, .elided)], []⟩,
    -- src/vec_copy.rs:688
    ⟨"VecCopy::as_slice", [[(.shared, .elided)]], true, 0, [(.shared, .elided)], []⟩,
    -- src/vec_copy.rs:704
    ⟨"VecCopy::as_mut_slice", [[(.unique, .elided)]], true, 0, [(.unique, .elided)], []⟩,
    -- src/vec_copy.rs:845
    ⟨"VecVoid::byte_chunks", [[(.shared, .elided)]], true, 0, [(.shared, .elided)], []⟩,
    -- src/vec_copy.rs:871
    ⟨"VecVoid::get_bytes", [[(.shared, .elided)], []], true, 0, [(.shared, .elided)], []⟩,
    -- src/vec_dyn.rs:235
    ⟨"VecDyn::vtable", [[(.shared, .elided)]], true, 0, [(.shared, .elided)], []⟩,
    -- src/vec_dyn.rs:275
    ⟨"VecDyn::push_as", [[(.unique, .elided)], []], true, 0, [(.unique, .elided)], []⟩,
    -- src/vec_dyn.rs:291
    ⟨"VecDyn::check_ref", [[(.shared, .elided)]], true, 0, [(.shared, .elided)], []⟩,
    -- src/vec_dyn.rs:298
    ⟨"VecDyn::check_mut", [[(.unique, .elided)]], true, 0, [(.unique, .elided)], []⟩,
    -- src/vec_dyn.rs:335
    ⟨"VecDyn::iter_as", [[(.shared, .elided)]], true, 0, [(.shared, .elided)], []⟩,
    -- src/vec_dyn.rs:343
    ⟨"VecDyn::iter_mut_as", [[(.unique, .elided)]], true, 0, [(.unique, .elided)], []⟩,
    -- src/vec_dyn.rs:366
    ⟨"VecDyn::as_slice_as", [[(.shared, .elided)]], true, 0, [(.shared, .elided)], []⟩,
    -- src/vec_dyn.rs:373
    ⟨"VecDyn::as_mut_slice_as", [[(.unique, .elided)]], true, 0, [(.unique, .elided)], []⟩,
    -- src/vec_dyn.rs:379
    ⟨"VecDyn::get_ref_as", [[(.shared, .elided)], []], true, 0, [(.shared, .elided)], []⟩,
    -- src/vec_dyn.rs:385
    ⟨"VecDyn::get_mut_as", [[(.unique, .elided)], []], true, 0, [(.unique, .elided)], []⟩,
    -- src/vec_dyn.rs:393
    ⟨"VecDyn::append", [[(.unique, .elided)], [(.unique, .elided)]], true, 0, [(.unique, .elided)], []⟩,
    -- src/vec_dyn.rs:431
    ⟨"VecDyn::push", [[(.unique, .elided)], []], true, 0, [(.unique, .elided)], []⟩,
    -- src/vec_dyn.rs:452
    ⟨"VecDyn::push_cloned", [[(.unique, .elided)], [(.shared, .elided)]], true, 0, [(.unique, .elided)], []⟩,
    -- src/vec_dyn.rs:475
    ⟨"VecDyn::get", [[(.shared, .elided)], []], true, 0, [(.shared, .elided)], []⟩,
    -- src/vec_dyn.rs:495
    ⟨"VecDyn::iter", [[(.shared, .elided)]], true, 0, [(.shared, .elided)], []⟩,
    -- src/vec_dyn.rs:509
    ⟨"VecDyn::get_mut", [[(.unique, .elided)], []], true, 0, [(.unique, .elided)], []⟩,
    -- src/vec_dyn.rs:538
    ⟨"VecDyn::iter_mut", [[(.unique, .elided)]], true, 0, [(.unique, .elided)], []⟩,
    -- src/vec_dyn.rs:553
    ⟨"VecDyn::as_slice", [[(.shared, .elided)]], true, 0, [(.shared, .elided)], []⟩,
    -- src/vec_dyn.rs:561
    ⟨"VecDyn::as_mut_slice", [[(.unique, .elided)]], true, 0, [(.unique, .elided)], []⟩,
    -- src/vec_dyn.rs:676
    ⟨"VecDyn::resize", [[(.unique, .elided)], [], []], true, 0, [(.unique, .elided)], []⟩,
    -- src/vec_dyn.rs:705
    ⟨"VecDyn::fill", [[(.unique, .elided)], []], true, 0, [(.unique, .elided)], []⟩,
    -- src/vec_dyn.rs:717
    ⟨"VecDyn::append_cloned_to_vec", [[(.shared, .elided)], [(.unique, .named "'a")]], true, 1, [(.unique, .named "'a")], []⟩,
    -- src/vec_dyn.rs:772
    ⟨"<Meta<VTableRef<'a, V>> as From<&'a VecDyn<V>>>::from", [[(.shared, .named "'a")]], false, 0, [(.shared, .named "'a")], []⟩,
    -- src/vtable.rs:69
    ⟨"<VTableRef<'a, V> as std::ops::Deref>::deref", [[(.shared, .elided), (.shared, .named "'a")]], true, 0, [(.shared, .elided)], []⟩,
    -- src/vtable.rs:76
    ⟨"<VTableRef<'a, V> as From<&'a V>>::from", [[(.shared, .named "'a")]], false, 0, [(.shared, .named "'a")], []⟩,
    -- src/vtable.rs:83
    ⟨"<VTableRef<'a, V> as From<Box<V>>>::from", [[]], false, 0, [(.shared, .named "'a")], []⟩,
    -- src/vtable.rs:97
    ⟨"<VTableRef<'a, V> as AsRef<V>>::as_ref", [[(.shared, .elided), (.shared, .named "'a")]], true, 0, [(.shared, .elided)], []⟩ ]

end Dync.Borrow
