import Verif.Convert
import Verif.Numeric
import Verif.Props.DeriveCompile
/-!
# The crate's own tests, run on the model

This file proves no property (but uses C63 for the macros). It runs the model on the programs in the test modules of `/repo`, in the
doc comments, in `tests/soundness.rs` and in `examples/convert.rs`, and checks that the model does what
these programs assert. It is a check of the transcription: a model that disagreed with one of them would
not be a model of this code. Every program is run with and without debug assertions. After each one no
block may be left on the heap and no `Rc` may have an owner, so that the destructors are checked as well.

Left out are the programs that need random numbers or a clock (`downcast_value_mut`, `examples/cache.rs`),
that only run with `10^5` elements or more (`large_sizes_test`, `large_sizes_clone`; C01 is the general
statement), and floating point conversion (`convert_float_test`; `num_traits` is a parameter of the model).
Constants are replaced by labels where their value plays no role: floating point numbers, strings and the
contents of an `Rc`.
-/
namespace Dync.RepoTests
open Dync

/-! ### The types of the tests -/

/-- User state: the number of owners of every `Rc` allocation. -/
abbrev Counts := List Nat

/-- 0 `()`, 1 `u8`, 2 `i16`, 3 `i32`, 4 `u32`, 5 `f32`, 6 `f64`, 7 `usize`, 8 `[f32; 3]`, 9 `[f64; 3]`,
10 `Foo { a: u8, b: i64, c: f32 }`, 11 `Rc<u8>`, 12 `Rc<i16>`, 13 `Rc<i32>`, 14 `Rc<String>`, 15 `Rc<Foo>`,
16 `LargeAlign`, 17 `[u32; 3]`, 18 `u64`, 19 `Rc<f64>`, 20 `&str`, 21 `Rc<&str>`, 22 `Rc<[u8; 3]>`. -/
def size : TyId → Nat
  | 1 => 1 | 2 => 2 | 3 => 4 | 4 => 4 | 5 => 4 | 6 => 8 | 7 => 8 | 8 => 12 | 9 => 24 | 10 => 16
  | 11 => 8 | 12 => 8 | 13 => 8 | 14 => 8 | 15 => 8 | 16 => 256 | 17 => 12 | 18 => 8 | 19 => 8
  | 20 => 16 | 21 => 8 | 22 => 8 | _ => 0
def align : TyId → Nat
  | 2 => 2 | 3 => 4 | 4 => 4 | 5 => 4 | 6 => 8 | 7 => 8 | 8 => 4 | 9 => 8 | 10 => 8
  | 11 => 8 | 12 => 8 | 13 => 8 | 14 => 8 | 15 => 8 | 16 => 256 | 17 => 4 | 18 => 8 | 19 => 8
  | 20 => 8 | 21 => 8 | 22 => 8 | _ => 1

/-- The types that are an `Rc`. -/
def isRc (t : TyId) : Bool := [11, 12, 13, 14, 15, 19, 21, 22].contains t

/-- An `Rc`: the allocation it points to, and (for equality) the label of what is stored there. -/
def rc (id label : UInt8) : Bytes := some id :: some label :: List.replicate 6 (some 0)
/-- Which allocation. -/
def rcId (b : Bytes) : Nat := ((b.head?.getD none).getD 0).toNat
/-- A value of `k` bytes with the label `n`, little-endian. -/
def le (k n : Nat) : Bytes := (List.range k).map fun i => some (UInt8.ofNat (n / 256 ^ i))

def drop (t : TyId) (b : Bytes) : M Counts Unit := ⟨fun u =>
  if isRc t then
    if 0 < u.getD (rcId b) 0 then (.ok (), u.set (rcId b) (u.getD (rcId b) 0 - 1))
    -- a reference count below zero: dropped twice
    else (.ub, u)
  else (.ok (), u)⟩

def clone (t : TyId) (b : Bytes) : M Counts Bytes := ⟨fun u =>
  if b.length = size t then
    if isRc t then (.ok b, u.set (rcId b) (u.getD (rcId b) 0 + 1)) else (.ok b, u)
  else (.ub, u)⟩

theorem clone_len {t : TyId} {b : Bytes} {u : Counts} {b' : Bytes} {u' : Counts}
    (h : clone t b u = (.ok b', u')) : b'.length = size t := by
  simp only [clone] at h
  split at h
  · split at h <;> (cases h; assumption)
  · cases h

/-- `Rc` has no `clone_from` of its own: `*self = source.clone()`. -/
def cloneFrom (t : TyId) (src : Bytes) : M (Bytes × Counts) Unit := ⟨fun s =>
  match clone t src s.2 with
  | (.ok b, u) => ((drop t s.1 u).1, (b, (drop t s.1 u).2))
  | (.panic w, u) => (.panic w, (s.1, u))
  | (.ub, u) => (.ub, (s.1, u))
  | (.abort, u) => (.abort, (s.1, u))⟩

/-- The types of the tests. -/
def env : TyEnv Counts where
  size := size
  align := align
  align_pow := by
    intro t
    match t with
    | 0 | 1 => exact ⟨0, by decide, rfl⟩
    | 2 => exact ⟨1, by decide, rfl⟩
    | 3 | 4 | 5 | 8 | 17 => exact ⟨2, by decide, rfl⟩
    | 6 | 7 | 9 | 10 | 11 | 12 | 13 | 14 | 15 | 18 | 19 | 20 | 21 | 22 => exact ⟨3, by decide, rfl⟩
    | 16 => exact ⟨8, by decide, rfl⟩
    | n + 23 => exact ⟨0, by decide, rfl⟩
  align_dvd := by
    intro t
    match t with
    | 0 | 1 | 2 | 3 | 4 | 5 | 6 | 7 | 8 | 9 | 10 | 11 | 12 | 13 | 14 | 15 | 16 | 17 | 18 | 19 | 20 | 21 | 22 => decide
    | n + 23 => simp [align]
  size_le := by
    intro t
    match t with
    | 0 | 1 | 2 | 3 | 4 | 5 | 6 | 7 | 8 | 9 | 10 | 11 | 12 | 13 | 14 | 15 | 16 | 17 | 18 | 19 | 20 | 21 | 22 => decide
    | n + 23 => simp [size]
  unitTy := 0
  unit_size := rfl
  unit_align := rfl
  drop := drop
  clone := clone
  clone_len := clone_len
  cloneFrom := cloneFrom
  cloneFrom_len := by
    intro t src d u r d' u' h hd
    simp only [cloneFrom] at h
    rcases hcl : clone t src u with ⟨rc, uc⟩
    rw [hcl] at h
    cases rc with
    | ok b => cases h; exact clone_len hcl
    | panic y => cases h; exact hd
    | ub => cases h; exact hd
    | abort => cases h; exact hd
  eq := fun t a b => if isRc t then a.getD 1 none == b.getD 1 none else a == b
  hash := fun t a => if isRc t then [(a.getD 1 none).getD 0] else a.map fun b => b.getD 0
  fmt := fun _ a => toString ((a.head?.getD none).getD 0).toNat

/-- `AllTraitVTable`, `ValVTable`, `FloatTraitVTable`: a table with every trait. -/
structure AllVT where
  drop : DropFn Counts
  clone : CloneFn Counts
  cloneFrom : CloneFromFn Counts
  cloneIntoRaw : CloneIntoRawFn Counts
  eq : EqFn
  hash : HashFn
  fmt : FmtFn
instance : HasDrop Counts AllVT := ⟨AllVT.drop⟩
instance : HasClone Counts AllVT := ⟨AllVT.clone, AllVT.cloneFrom, AllVT.cloneIntoRaw⟩
instance : HasPartialEq AllVT := ⟨AllVT.eq⟩
instance : HasHash AllVT := ⟨AllVT.hash⟩
instance : HasDebug AllVT := ⟨AllVT.fmt⟩
/-- `build_vtable`. -/
def vt (t : TyId) : AllVT :=
  ⟨dropBytes env t, cloneBytes env t, cloneFromBytes env t, cloneIntoRawBytes env t, eqBytes env t, hashBytes env t,
    fmtBytes env t⟩

/-! ### Writing the tests -/

/-- A test program: it answers whether its assertions hold. -/
abbrev Test := Cfg → M (World Counts) Bool

/-- The world before a test: nothing on the heap, no `Rc`. -/
def start : World Counts := ⟨Heap.empty, List.replicate 16 0⟩

/-- Nothing is left: every block was freed and no `Rc` has an owner. -/
def clean (w : World Counts) : Bool :=
  (List.range w.heap.next).all (fun i => (w.heap.live i).isNone) && w.user.all (· == 0)

/-- The assertions hold, in both builds, and nothing is left behind. -/
def Passes (p : Test) : Bool :=
  [true, false].all fun d => match p ⟨d⟩ start with
    | (.ok b, w) => b && clean w
    | _ => false

/-- `#[should_panic]`. -/
def Panics (p : Test) : Bool :=
  [true, false].all fun d => match p ⟨d⟩ start with
    | (.panic _, w) => clean w
    | _ => false

/-- `vec![...]` of values that are not `Rc`s. -/
def mkVec (t : TyId) (es : List Bytes) : M (World Counts) RVec := do
  let v ← RVec.withCapacity (env.layout t) es.length
  pure { v with len := es.length, bytes := es.flatten }
/-- `Rc::new`. -/
def newRc (b : Bytes) : M (World Counts) Bytes := do
  worldUser (M.modify fun u => u.set (rcId b) 1)
  pure b
/-- `vec![...].into_iter().map(Rc::new).collect()`, then `.clone()`: both vectors. -/
def mkRcs (t : TyId) (es : List Bytes) : M (World Counts) (RVec × RVec) := do
  let v ← mkVec t es
  M.forEach es fun b => worldUser (M.modify fun u => u.set (rcId b) 2)
  let w ← mkVec t es
  pure (v, w)
/-- The end of the scope of a `Vec<T>`. -/
def dropVec (t : TyId) (v : RVec) : M (World Counts) Unit := RVec.dropTyped env t v
/-- The end of the scope of a `T`. -/
def dropVal (t : TyId) (b : Bytes) : M (World Counts) Unit := worldUser (env.drop t b)
/-- The elements of a `Vec<T>`. -/
def elems (t : TyId) (v : RVec) : List Bytes := v.elems (size t)
/-- `Rc::strong_count`. -/
def strong (b : Bytes) : M (World Counts) Nat := do
  let w ← M.get
  pure (w.user.getD (rcId b) 0)

/-- Call a method on a local `VecCopy`. -/
def onCopy {V α : Type} (cfg : Cfg) (v : VecCopy V) (m : M (VecCopy V × World Counts) α) :
    M (World Counts) (α × VecCopy V) := withLocal v (VecCopy.drop cfg) m
/-- Call a method on a local `VecDyn`. -/
def onDyn {V α : Type} [HasDrop Counts V] (cfg : Cfg) (v : VecDyn V) (m : M (VecDyn V × World Counts) α) :
    M (World Counts) (α × VecDyn V) := withLocal v (VecDyn.drop cfg) m
/-- `into_vec().unwrap()`, compared with the elements it should have, and dropped. -/
def intoVecIs {V : Type} (cfg : Cfg) (t : TyId) (v : VecCopy V) (es : List Bytes) : M (World Counts) Bool := do
  match ← VecCopy.intoVec env cfg t v with
  | none => pure false
  | some r => do
    dropVec t r
    pure (elems t r == es && r.len == es.length)
/-- The result of `clone_into_vec`, compared and dropped. -/
def clonedIs (t : TyId) (r : Option (List Bytes)) (es : List Bytes) : M (World Counts) Bool :=
  match r with
  | none => pure false
  | some l => do
    M.forEach l (dropVal t)
    pure (l == es)

/-! ### `src/elem.rs`, `src/vec_void.rs`, `src/vtable.rs` -/

/-- `elem::tests::info_struct` (src/elem.rs:159-171). -/
example : ElemInfo.new env 4 = ⟨4, 1, 4⟩ ∧ (ElemInfo.new env 4).numBytes = 4 := by decide

/-- `vec_void::tests::rotate` (src/vec_void.rs:408-418). -/
def voidRotate : Test := fun cfg => do
  let r ← mkVec 4 [le 4 1, le 4 2, le 4 3]
  let v ← VecVoid.fromVec env 4 r
  let (_, v) ← withLocal v (VecVoid.drop cfg) (VecVoid.rotateLeft env cfg 2)
  let c ← v.clone cfg
  let a ← VecVoid.intoVecUnchecked cfg env 4 c
  let (_, v) ← withLocal v (VecVoid.drop cfg) (VecVoid.rotateRight env cfg 1)
  let c ← v.clone cfg
  let b ← VecVoid.intoVecUnchecked cfg env 4 c
  dropVec 4 a
  dropVec 4 b
  v.drop cfg
  pure (elems 4 a == [le 4 3, le 4 1, le 4 2] && elems 4 b == [le 4 2, le 4 3, le 4 1])
example : Passes voidRotate := by decide +kernel

/-- `vec_void::tests::clone_from` (src/vec_void.rs:421-429). -/
def voidCloneFrom : Test := fun cfg => do
  let r ← mkVec 4 [le 4 1, le 4 2, le 4 3]
  let a ← VecVoid.fromVec env 4 r
  let b ← VecVoid.fromVec env 4 (RVec.new (env.layout 4))
  let (_, b) ← withLocal b (VecVoid.drop cfg) (VecVoid.cloneFrom env cfg a)
  b.drop cfg
  a.drop cfg
  pure (a.len == b.len && a.elem == b.elem && a.ptr != b.ptr)
example : Passes voidCloneFrom := by decide +kernel

/-- `vtable::tests::box_vtable` (src/vtable.rs:111-119). -/
example :
    let fromBox := TableRef.ofBox ()
    let boxVtable := TableRef.box ()
    TableRef.eq (fun _ _ => true) fromBox boxVtable = true ∧ fromBox.intoOwned id = () ∧ boxVtable.take id = () := by
  decide

/-! ### `src/vec_copy.rs` -/

/-- `initialization_test` (src/vec_copy.rs:981-999). -/
def copyInit : Test := fun cfg => do
  let a ← VecCopy.withType env 5 ()
  let b ← VecCopy.withTypeFrom a.toMeta
  let c ← VecCopy.withCapacity env 5 () 4
  a.drop cfg
  b.drop cfg
  c.drop cfg
  pure ([a, b, c].all fun v => v.len == 0 && v.elementTypeId == 5)
example : Passes copyInit := by decide +kernel

/-- `resize` (src/vec_copy.rs:1003-1021). -/
def copyResize : Test := fun cfg => do
  let a ← VecCopy.withType env 5 ()
  let (_, a) ← onCopy cfg a (VecCopy.resize env cfg 5 3 (le 4 1))
  let xs ← M.mapEach [0, 1, 2] fun i => a.getAs env 5 i
  let n := a.len
  let (_, a) ← onCopy cfg a (VecCopy.resize env cfg 5 2 (le 4 1))
  let ys ← M.mapEach [0, 1] fun i => a.getAs env 5 i
  a.drop cfg
  pure (n == 3 && xs.all (· == some (le 4 1)) && a.len == 2 && ys.all (· == some (le 4 1)))
example : Passes copyResize := by decide +kernel

/-- `zero_size_with_type_test` (src/vec_copy.rs:1025-1027). -/
example : Panics (fun _ => (do let _ ← VecCopy.withType env 0 (); pure true)) := by decide +kernel
/-- `zero_size_with_capacity_test` (src/vec_copy.rs:1031-1033). -/
example : Panics (fun _ => (do let _ ← VecCopy.withCapacity env 0 () 2; pure true)) := by decide +kernel
/-- `zero_size_from_vec_test` (src/vec_copy.rs:1037-1039). -/
example : Panics (fun _ => (do let r ← mkVec 0 [[], [], []]; let _ ← VecCopy.fromVec env 0 () r; pure true)) := by
  decide +kernel
/-- `zero_size_with_size_test` (src/vec_copy.rs:1043-1045). -/
example : Panics (fun _ => (do let _ ← VecCopy.withSize env 0 () 3 []; pure true)) := by decide +kernel
/-- `zero_size_from_slice_test` (src/vec_copy.rs:1049-1052). -/
example : Panics (fun _ => (do let _ ← VecCopy.fromSlice env 0 () [[], [], []]; pure true)) := by decide +kernel
/-- `zero_size_copy_from_slice_test` (src/vec_copy.rs:1056-1060). -/
def copyZeroCopyFrom : Test := fun cfg => do
  let a ← VecCopy.withSize env 3 () 0 (le 4 1)
  let (_, a) ← onCopy cfg a (VecCopy.copyFromSlice env cfg 0 [[], [], []])
  a.drop cfg
  pure true
example : Passes copyZeroCopyFrom := by decide +kernel

/-- From a `Vec` and back, by `copy_into_vec` and by `into_vec`. -/
def copyIntegrity (t : TyId) (es : List Bytes) : Test := fun cfg => do
  let r ← mkVec t es
  let buf ← VecCopy.fromVec env t () r
  let c ← buf.copyIntoVec env t
  let b ← intoVecIs cfg t buf es
  pure (c == some es && b)
/-- `data_integrity_u8_test`, `..._i16_test`, `..._i32_test`, `..._f32_test`, `..._f64_test`,
`from_empty_vec_test` (src/vec_copy.rs:1063-1125, 1162-1172), and the examples of `from_vec` (128-132). -/
example : Passes (copyIntegrity 1 ([1, 3, 4, 1, 2].map (le 1))) := by decide +kernel
example : Passes (copyIntegrity 1 ([1, 3, 4, 1, 2, 52, 1, 3, 41, 23, 2].map (le 1))) := by decide +kernel
example : Passes (copyIntegrity 2 ([1, 65533, 1002, 65305, 32].map (le 2))) := by decide +kernel
example : Passes (copyIntegrity 2 ([1, 65533, 1002, 65305, 32, 42, 65413, 4].map (le 2))) := by decide +kernel
example : Passes (copyIntegrity 3 ([1, 4294967293, 1002, 4294967065, 32].map (le 4))) := by decide +kernel
example : Passes (copyIntegrity 3 ([1, 4294967293, 1002, 4294967065, 32, 42, 4294967173].map (le 4))) := by decide +kernel
example : Passes (copyIntegrity 5 ([1, 2, 3, 4, 5, 6].map (le 4))) := by decide +kernel
example : Passes (copyIntegrity 6 ([1, 2, 3, 4, 5, 6, 7].map (le 8))) := by decide +kernel
example : Passes (copyIntegrity 4 []) := by decide +kernel
example : Passes (copyIntegrity 10 []) := by decide +kernel

/-- `from_struct_test` (src/vec_copy.rs:1175-1192). -/
def copyStruct : Test := fun cfg => do
  let f1 := le 16 3
  let f2 := le 16 33
  let r ← mkVec 10 [f1, f2]
  let buf ← VecCopy.fromVec env 10 () r
  let a ← buf.getAs env 10 0
  let b ← buf.getAs env 10 1
  let c ← intoVecIs cfg 10 buf [f1, f2]
  pure (a == some f1 && b == some f2 && c)
example : Passes copyStruct := by decide +kernel

/-- `iter_test` (src/vec_copy.rs:1195-1209). -/
def copyIter (t : TyId) (es : List Bytes) : Test := fun cfg => do
  let r ← mkVec t es
  let buf ← VecCopy.fromVec env t () r
  let xs ← buf.asSliceAs env t
  buf.drop cfg
  pure (xs == some es)
example : Passes (copyIter 5 ([1, 2, 3, 4, 5].map (le 4))) := by decide +kernel
example : Passes (copyIter 1 ([1, 3, 4, 1, 2, 4, 128, 32].map (le 1))) := by decide +kernel

/-- `wrong_type_test` (src/vec_copy.rs:1224-1236). -/
def copyWrongType : Test := fun cfg => do
  let es := [1, 2, 3, 4, 5].map (le 4)
  let r ← mkVec 5 es
  let buf ← VecCopy.fromVec env 5 () r
  let a ← buf.copyIntoVec env 5
  let b ← buf.copyIntoVec env 6
  let c ← buf.asSliceAs env 6
  let (d, buf) ← onCopy cfg buf (VecCopy.asMutSliceAs env 1 (pure ()))
  let e ← buf.asSliceAs env 8
  let f ← buf.getAs env 3 0
  let g ← buf.getAs env 3 1
  let (h, buf) ← onCopy cfg buf (VecCopy.getMutAs env 3 2 (pure ()))
  buf.drop cfg
  pure (a == some es && b.isNone && c.isNone && d.isNone && e.isNone && f.isNone && g.isNone && h.isNone)
example : Passes copyWrongType := by decide +kernel

/-- `push_test` (src/vec_copy.rs:1240-1260). -/
def copyPush : Test := fun cfg => do
  let r ← mkVec 5 ([1, 2, 3].map (le 4))
  let buf ← VecCopy.fromVec env 5 () r
  let a ← buf.asSliceAs env 5
  let (x, buf) ← onCopy cfg buf (VecCopy.pushAs env cfg 5 (le 4 42))
  let b ← buf.asSliceAs env 5
  let (y, buf) ← onCopy cfg buf (VecCopy.pushAs env cfg 5 (le 4 11))
  let c ← buf.asSliceAs env 5
  buf.drop cfg
  pure (x.isSome && y.isSome && a == some ([1, 2, 3].map (le 4)) && b == some ([1, 2, 3, 42].map (le 4)) &&
    c == some ([1, 2, 3, 42, 11].map (le 4)))
example : Passes copyPush := by decide +kernel

/-- `vecvoid_byte_chunks_test` (src/vec_copy.rs:1264-1277), `vecvoid_byte_getters` (1281-1297). -/
def copyBytes : Test := fun cfg => do
  let r ← mkVec 5 ([1, 2, 3, 4, 5].map (le 4))
  let v ← VecVoid.fromVec env 5 r
  let cs ← v.byteChunks
  v.drop cfg
  let r ← mkVec 3 ([1, 2, 3, 4].map (le 4))
  let w ← VecVoid.fromVec env 3 r
  let gs ← M.mapEach [0, 1, 2, 3] fun i => w.getBytes cfg i
  w.drop cfg
  pure (cs == [1, 2, 3, 4, 5].map (le 4) && gs == [1, 2, 3, 4].map (le 4))
example : Passes copyBytes := by decide +kernel

/-- `append_test` (src/vec_copy.rs:1301-1314). -/
def appendTo {V : Type} (cfg : Cfg) (a b : VecCopy V) : M (World Counts) (VecCopy V × VecCopy V) := ⟨fun w =>
  match VecCopy.append env cfg (a, ⟨w.heap, (b, w.user)⟩) with
  | (.ok (some _), s) => (.ok (s.1, s.2.user.1), ⟨s.2.heap, s.2.user.2⟩)
  | (_, s) => (.ub, ⟨s.2.heap, s.2.user.2⟩)⟩
def copyAppend : Test := fun cfg => do
  let buf ← VecCopy.withType env 5 ()
  let r ← mkVec 5 ([1, 2, 3, 4, 5].map (le 4))
  let other ← VecCopy.fromVec env 5 () r
  let (buf, other) ← appendTo cfg buf other
  let es ← buf.asSliceAs env 5
  buf.drop cfg
  other.drop cfg
  pure (other.isEmpty && es == some ([1, 2, 3, 4, 5].map (le 4)))
example : Passes copyAppend := by decide +kernel

/-- `extend_and_collect` (src/vec_copy.rs:1318-1326). -/
def copyExtend : Test := fun cfg => do
  let buf ← VecCopy.withType env 5 ()
  let r ← mkVec 5 ([1, 2, 3].map (le 4))
  let other ← VecCopy.fromVec env 5 () r
  let vs ← other.iter
  let (_, buf) ← onCopy cfg buf (VecCopy.extend env cfg 3 vs)
  let buf2 ← VecCopy.fromIter env cfg 2 vs
  let a ← buf.asSliceAs env 5
  let b ← buf2.asSliceAs env 5
  buf2.drop cfg
  other.drop cfg
  buf.drop cfg
  pure (a.isSome && a == b)
example : Passes copyExtend := by decide +kernel

/-- `dynamic_vtables` (src/vec_copy.rs:1331-1344). -/
def copyDynamic : Test := fun cfg => do
  let buf ← VecCopy.withType env 1 ()
  let buf := Convert.vecIntoDyn (VT := fun _ => Unit) (k := 0) buf
  let (_, buf) ← onCopy cfg buf (VecCopy.push env cfg (CopyValue.new env 1 () (le 1 1)))
  let (_, buf) ← onCopy cfg buf (VecCopy.push env cfg (CopyValue.new env 1 () (le 1 100)))
  let (_, buf) ← onCopy cfg buf (VecCopy.push env cfg (CopyValue.new env 1 () (le 1 23)))
  intoVecIs cfg 1 buf ([1, 100, 23].map (le 1))
example : Passes copyDynamic := by decide +kernel

/-- The examples in the documentation of `with_size` and `fill` (src/vec_copy.rs:110-113, 302-306). -/
def copyDocs : Test := fun cfg => do
  let buf ← VecCopy.withSize env 7 () 8 (le 8 42)
  let a ← intoVecIs cfg 7 buf (List.replicate 8 (le 8 42))
  let r ← mkVec 1 ([1, 3, 4, 1, 2].map (le 1))
  let buf ← VecCopy.fromVec env 1 () r
  let (_, buf) ← onCopy cfg buf (VecCopy.fill env 1 (le 1 0))
  let b ← intoVecIs cfg 1 buf (List.replicate 5 (le 1 0))
  pure (a && b)
example : Passes copyDocs := by decide +kernel

/-- The examples of `rotate_left` and `rotate_right` (src/vec_copy.rs:536-539, 553-556). -/
def copyRotate : Test := fun cfg => do
  let r ← mkVec 4 ([1, 2, 3, 4, 5].map (le 4))
  let buf ← VecCopy.fromVec env 4 () r
  let (_, buf) ← onCopy cfg buf (VecCopy.rotateLeft env cfg 3)
  let a ← intoVecIs cfg 4 buf ([4, 5, 1, 2, 3].map (le 4))
  let r ← mkVec 4 ([1, 2, 3, 4, 5].map (le 4))
  let buf ← VecCopy.fromVec env 4 () r
  let (_, buf) ← onCopy cfg buf (VecCopy.rotateRight env cfg 3)
  let b ← intoVecIs cfg 4 buf ([3, 4, 5, 1, 2].map (le 4))
  pure (a && b)
example : Passes copyRotate := by decide +kernel

/-- The examples of `iter` and `iter_mut` (src/vec_copy.rs:613-618, 640-646). -/
def copyIterMut : Test := fun cfg => do
  let r ← mkVec 5 ([1, 2, 3, 4, 5].map (le 4))
  let buf ← VecCopy.fromVec env 5 () r
  let vs ← buf.iter
  let xs ← M.mapEach vs fun v => v.downcast env 5
  let (_, buf) ← onCopy cfg buf (VecCopy.iterMut (do
    let _ ← M.zoom Prod.fst (fun v s => (v, s.2)) (CopyValue.copy (CopyValue.new env 5 () (le 4 100)))
    pure ()))
  let b ← intoVecIs cfg 5 buf (List.replicate 5 (le 4 100))
  pure (xs == [1, 2, 3, 4, 5].map (fun n => some (le 4 n)) && b)
example : Passes copyIterMut := by decide +kernel

/-- `tests/soundness.rs`, `alignment` (10-16). -/
def soundness : Test := fun cfg => do
  let x ← VecCopy.withType env 16 ()
  let (_, x) ← onCopy cfg x (VecCopy.pushAs env cfg 16 (le 256 0))
  let e ← x.getAs env 16 0
  x.drop cfg
  pure (e == some (le 256 0))
example : Passes soundness := by decide +kernel

/-! ### `src/slice_copy.rs` -/

/-- Run a mutable view on a `Vec`'s elements. -/
def onSlice (t : TyId) (es : List Bytes) (m : M (SliceCopy Unit) Bool) : Res Bool × SliceCopy Unit :=
  m (SliceCopy.fromSlice env t () es)

/-- `iter_as` (src/slice_copy.rs:850-857). -/
def sliceIterAs (cfg : Cfg) : M (SliceCopy Unit) Bool := do
  let r ← SliceCopy.asSliceMut env cfg 5 (M.modify fun es => es.map fun e => le 4 ((e.getD 0 none).getD 0 + 1).toNat)
  pure r.isSome
example : ∀ d, (onSlice 5 ([1, 23, 0, 42, 11].map (le 4)) (sliceIterAs ⟨d⟩)).1 = .ok true ∧
    (onSlice 5 ([1, 23, 0, 42, 11].map (le 4)) (sliceIterAs ⟨d⟩)).2.data = ([2, 24, 1, 43, 12].map (le 4)).flatten := by
  decide +kernel

/-- `dynamic_vtables` (src/slice_copy.rs:862-881). -/
def sliceDynamic : Test := fun cfg => do
  let r ← mkVec 1 ([1, 100, 23].map (le 1))
  let buf ← VecCopy.fromVec env 1 () r
  let (_, buf) ← onCopy cfg buf (VecCopy.asMutSlice (SliceCopy.getMut cfg 1 (M.modify fun v =>
    { v with bytes := le 1 101 })))
  let a ← intoVecIs cfg 1 buf ([1, 101, 23].map (le 1))
  let r ← mkVec 1 ([1, 100, 23].map (le 1))
  let buf ← VecCopy.fromVec env 1 () r
  let slice ← M.lift buf.asSlice
  let slice := Convert.sliceIntoDyn (VT := fun _ => Unit) (k := 0) slice
  let xs ← M.mapEach [0, 1, 2] fun i => do
    let v ← slice.get cfg i
    v.downcast env 1
  buf.drop cfg
  pure (a && xs == [1, 100, 23].map (fun n => some (le 1 n)))
example : Passes sliceDynamic := by decide +kernel

/-- The examples of `rotate_left` and `rotate_right` (src/slice_copy.rs:619-623, 637-641). -/
example : ∀ d,
    (SliceCopy.rotateLeft ⟨d⟩ 3 (SliceCopy.fromSlice env 4 () ([1, 2, 3, 4, 5].map (le 4)))).2.data =
      ([4, 5, 1, 2, 3].map (le 4)).flatten ∧
    (SliceCopy.rotateRight ⟨d⟩ 3 (SliceCopy.fromSlice env 4 () ([1, 2, 3, 4, 5].map (le 4)))).2.data =
      ([3, 4, 5, 1, 2].map (le 4)).flatten := by
  decide +kernel

/-! ### `src/traits.rs` -/

/-- `drop` (src/traits.rs:290-300). -/
def traitsDrop : Test := fun cfg => do
  let vd ← VecCopy.withType env 4 (DropVTable.build env 4)
  let a ← intoVecIs cfg 4 vd []
  let r ← mkVec 4 ([1, 2].map (le 4))
  let vd ← VecCopy.fromVec env 4 (DropVTable.build env 4) r
  let b ← intoVecIs cfg 4 vd ([1, 2].map (le 4))
  pure (a && b)
example : Passes traitsDrop := by decide +kernel

/-- `clone` (src/traits.rs:303-310). -/
def traitsClone : Test := fun cfg => do
  let r ← mkVec 4 ([1, 2].map (le 4))
  let v ← VecCopy.fromVec env 4 (CloneVTable.build env 4) r
  let c ← VecDyn.clone cfg v
  let a ← intoVecIs cfg 4 v ([1, 2].map (le 4))
  let b ← intoVecIs cfg 4 c ([1, 2].map (le 4))
  pure (a && b)
example : Passes traitsClone := by decide +kernel

/-- `partial_eq` (src/traits.rs:313-321). -/
def traitsEq {V : Type} [HasDrop Counts V] [HasPartialEq V] (vt : V) : Test := fun cfg => do
  let r ← mkVec 3 ([1, 2].map (le 4))
  let a ← VecCopy.fromVec env 3 vt r
  let r ← mkVec 3 ([1, 2].map (le 4))
  let b ← VecCopy.fromVec env 3 vt r
  let e ← VecDyn.eq a b
  VecDyn.drop cfg a
  VecDyn.drop cfg b
  pure e
example : Passes (traitsEq (PartialEqVTable.build env 3)) := by decide +kernel
example : Passes (traitsEq (EqVTable.build env 3)) := by decide +kernel

/-- `hash` (src/traits.rs:324-337), `debug` (340-343). -/
def traitsHash : Test := fun cfg => do
  let r ← mkVec 3 ([1, 2].map (le 4))
  let a ← VecCopy.fromVec env 3 (HashVTable.build env 3) r
  let r ← mkVec 3 ([1, 2].map (le 4))
  let b ← VecCopy.fromVec env 3 (HashVTable.build env 3) r
  let x ← VecDyn.hash a
  let y ← VecDyn.hash b
  VecDyn.drop cfg a
  VecDyn.drop cfg b
  pure (x == y)
example : Passes traitsHash := by decide +kernel

/-! ### `src/value.rs` -/

/-- `BoxValue::new(Rc::new(x))`. -/
def boxRc (t : TyId) (b : Bytes) : M (World Counts) (BoxValue AllVT) := do
  let b ← newRc b
  BoxValue.new env t (vt t) b
/-- `Rc::clone` of a referenced `Rc`. -/
def rcClone (t : TyId) (b : Bytes) : M (World Counts) Bytes := worldUser (env.clone t b)
/-- The end of the scope of a `Box<T>`. -/
def dropBox (t : TyId) (b : BoxBytes) : M (World Counts) Unit := do
  dropVal t b.bytes
  worldHeap (dealloc b.ptr (env.layout t))

/-- `compare_values_with_different_types`, `compare_value_ref_with_different_types`,
`compare_value_mut_with_different_types` (src/value.rs:870-888). -/
def valueCompare : Test := fun _ => do
  let a ← boxRc 21 (rc 0 5)
  let b ← boxRc 14 (rc 1 5)
  let x ← M.lift (Value.eq a b)
  let y ← M.lift (ValueRef.eq a.asRef b.asRef)
  a.drop
  b.drop
  pure (!x && !y)
example : Passes valueCompare := by decide +kernel

/-- `HashSet::insert`: whether the value is new; the set is a list, and hashes decide first. -/
def insert {B : Type} [ByteBuf B] (x : Value B AllVT) (s : List (Value B AllVT)) :
    M (World Counts) (Bool × List (Value B AllVT)) := do
  let hx ← M.lift (Value.hash x)
  let found ← M.mapEach s fun y => do
    let hy ← M.lift (Value.hash y)
    let e ← M.lift (Value.eq y x)
    pure (hx == hy && e)
  if found.any id then do
    -- the key is dropped
    x.drop
    pure (false, s)
  else pure (true, s ++ [x])
/-- `HashSet::contains`. -/
def contains {B : Type} [ByteBuf B] (x : Value B AllVT) (s : List (Value B AllVT)) : M (World Counts) Bool := do
  let hx ← M.lift (Value.hash x)
  let found ← M.mapEach s fun y => do
    let hy ← M.lift (Value.hash y)
    let e ← M.lift (Value.eq y x)
    pure (hx == hy && e)
  pure (found.any id)

/-- `values_with_different_types_in_a_hash_set` (src/value.rs:891-907). -/
def valueSets : Test := fun _ => do
  let a ← boxRc 21 (rc 0 5)
  let b ← BoxValue.new env 7 (vt 7) (le 8 5)
  let c ← BoxValue.new env 20 (vt 20) (le 16 5)
  let a1 ← BoxValue.clone a
  let (_, s) ← insert a1 []
  let (_, s) ← insert b s
  let a2 ← BoxValue.clone a
  let (_, t) ← insert a2 []
  let (_, t) ← insert c t
  let both ← M.mapEach s fun x => contains x t
  let first ← M.mapEach s fun x => M.lift (Value.eq x a)
  M.forEach s Value.drop
  M.forEach t Value.drop
  a.drop
  pure (both == [true, false] && first == [true, false])
example : Passes valueSets := by decide +kernel

/-- `value_equality` (src/value.rs:910-923). -/
def valueEquality : Test := fun _ => do
  let a ← boxRc 14 (rc 0 5)
  let b ← boxRc 14 (rc 1 5)
  let c ← BoxValue.clone b
  let b' ← BoxValue.clone b
  match ← BoxValue.downcast 14 b' with
  | none => pure false
  | some cRc => do
    let d0 ← rcClone 14 cRc.bytes
    let d ← BoxValue.new env 14 (vt 14) d0
    let es ← M.mapEach [b, c, d] fun x => M.lift (Value.eq a x)
    d.drop
    dropBox 14 cRc
    c.drop
    b.drop
    a.drop
    pure (es.all id)
example : Passes valueEquality := by decide +kernel

/-- `unaligned_box_value` (src/value.rs:926-932). -/
def valueUnaligned : Test := fun _ => do
  let v ← BoxValue.new env 8 (vt 8) (le 12 0)
  let c ← BoxValue.clone v
  match ← BoxValue.downcast 8 c with
  | none => pure false
  | some b => do
    dropBox 8 b
    v.drop
    pure (b.bytes == le 12 0)
example : Passes valueUnaligned := by decide +kernel

/-- `clone_test`, `clone_small_test` (src/value.rs:936-946). -/
def valueClone : Test := fun _ => do
  let v ← boxRc 11 (rc 0 1)
  let c ← BoxValue.clone v
  let a ← M.lift (Value.eq v c)
  c.drop
  v.drop
  let x ← newRc (rc 1 1)
  let v ← SmallValue.new env 11 (vt 11) x
  let c ← SmallValue.clone v
  let b ← M.lift (Value.eq v c)
  c.drop
  v.drop
  pure (a && b)
example : Passes valueClone := by decide +kernel

/-- `copy_value_to_value_convert` (src/value.rs:950-956). -/
def valueConvert : Test := fun cfg => do
  let r ← mkVec 4 ([1, 2, 3].map (le 4))
  let v ← VecCopy.fromVec env 4 () r
  let c ← v.getRef cfg 1
  let val : ValueRef (DropFn Counts × Unit) := ValueRef.ofCopy c
  let x ← val.downcast env 4
  v.drop cfg
  pure (x == some (le 4 2))
example : Passes valueConvert := by decide +kernel

/-! ### `src/vec_dyn.rs` -/

/-- `vec_rc` of the next two tests. -/
def sevenRcs : List Bytes := [rc 0 1, rc 1 23, rc 2 2, rc 3 42, rc 4 23, rc 5 1, rc 6 99]

/-- `clone_from_test` (src/vec_dyn.rs:871-897). -/
def dynHashSet : Test := fun cfg => do
  let (vecRc, r) ← mkRcs 13 sevenRcs
  let buf ← VecCopy.fromVec env 13 (vt 13) r
  let vs ← buf.iter
  let c0 ← ValueRef.cloneValue (vs.getD 0 (CopyValue.new env 13 (vt 13) []))
  let (i0, s) ← insert c0 []
  let c1 ← ValueRef.cloneValue (vs.getD 1 (CopyValue.new env 13 (vt 13) []))
  let (i1, s) ← insert c1 s
  let c2 ← ValueRef.cloneValue (vs.getD 2 (CopyValue.new env 13 (vt 13) []))
  let (i2, s) ← insert c2 s
  let c3 ← ValueRef.cloneValue (vs.getD 3 (CopyValue.new env 13 (vt 13) []))
  let (i3, s) ← insert c3 s
  let x4 ← rcClone 13 (rc 4 23)
  let b4 ← BoxValue.new env 13 (vt 13) x4
  let (i4, s) ← insert b4 s
  let x5 ← rcClone 13 (rc 5 1)
  let b5 ← BoxValue.new env 13 (vt 13) x5
  let (i5, s) ← insert b5 s
  let found ← M.mapEach [1, 23, 2, 42, 99] fun n => do
    let b ← boxRc 13 (rc 7 n)
    let f ← contains b s
    b.drop
    pure f
  M.forEach s Value.drop
  VecDyn.drop cfg buf
  dropVec 13 vecRc
  pure ([i0, i1, i2, i3, i4, i5] == [true, true, true, true, false, false] && s.length == 4 &&
    found == [true, true, true, true, false])
example : Passes dynHashSet := by decide +kernel

/-- `clone_from_small_test` (src/vec_dyn.rs:900-926). -/
def dynHashSetSmall : Test := fun cfg => do
  let (vecRc, r) ← mkRcs 13 sevenRcs
  let buf ← VecCopy.fromVec env 13 (vt 13) r
  let vs ← buf.iter
  let c0 ← ValueRef.cloneSmallValue (vs.getD 0 (CopyValue.new env 13 (vt 13) []))
  let (i0, s) ← insert c0 []
  let c1 ← ValueRef.cloneSmallValue (vs.getD 1 (CopyValue.new env 13 (vt 13) []))
  let (i1, s) ← insert c1 s
  let c2 ← ValueRef.cloneSmallValue (vs.getD 2 (CopyValue.new env 13 (vt 13) []))
  let (i2, s) ← insert c2 s
  let c3 ← ValueRef.cloneSmallValue (vs.getD 3 (CopyValue.new env 13 (vt 13) []))
  let (i3, s) ← insert c3 s
  let x4 ← rcClone 13 (rc 4 23)
  let b4 ← SmallValue.new env 13 (vt 13) x4
  let (i4, s) ← insert b4 s
  let x5 ← rcClone 13 (rc 5 1)
  let b5 ← SmallValue.new env 13 (vt 13) x5
  let (i5, s) ← insert b5 s
  let found ← M.mapEach [1, 23, 2, 42, 99] fun n => do
    let x ← newRc (rc 7 n)
    let b ← SmallValue.new env 13 (vt 13) x
    let f ← contains b s
    b.drop
    pure f
  M.forEach s Value.drop
  VecDyn.drop cfg buf
  dropVec 13 vecRc
  pure ([i0, i1, i2, i3, i4, i5] == [true, true, true, true, false, false] && s.length == 4 &&
    found == [true, true, true, true, false])
example : Passes dynHashSetSmall := by decide +kernel

/-- `iter` (src/vec_dyn.rs:929-946): the reference counts of every `Rc`. -/
def dynIter : Test := fun cfg => do
  let rcs := [rc 0 1, rc 1 23, rc 2 2, rc 3 42, rc 4 11]
  let (vec, r) ← mkRcs 13 rcs
  let buf ← VecCopy.fromVec env 13 (vt 13) r
  let orig ← newRc (rc 5 100)
  let x ← rcClone 13 orig
  let n0 ← strong x
  let vs ← buf.iter
  let (_, x) ← withLocal (CopyValue.new env 13 (vt 13) x) (fun v => dropVal 13 v.bytes)
    (M.forEach vs fun v => do
      let r ← ValueRef.cloneFromOther v
      M.assert r.isSome)
  let n1 ← strong orig
  let n2 ← strong x.bytes
  let n3 ← M.mapEach rcs strong
  let e := env.eq 13 x.bytes (rc 9 11)
  dropVal 13 x.bytes
  dropVal 13 orig
  VecDyn.drop cfg buf
  let n4 ← M.mapEach rcs strong
  dropVec 13 vec
  pure (n0 == 2 && n1 == 1 && n2 == 3 && n3 == [2, 2, 2, 2, 3] && e && n4 == [1, 1, 1, 1, 1])
example : Passes dynIter := by decide +kernel

/-- `initialization_test` (src/vec_dyn.rs:950-965). -/
def dynInit : Test := fun cfg => do
  let a ← VecCopy.withType env 11 (vt 11)
  let b ← VecCopy.withTypeFrom a.toMeta
  let c ← VecCopy.withCapacity env 11 (vt 11) 4
  VecDyn.drop cfg a
  VecDyn.drop cfg b
  VecDyn.drop cfg c
  pure ([a, b, c].all fun v => v.len == 0 && v.elementTypeId == 11)
example : Passes dynInit := by decide +kernel

/-- `resize` (src/vec_dyn.rs:969-989). -/
def dynResize : Test := fun cfg => do
  let a ← VecCopy.withType env 11 (vt 11)
  let x ← newRc (rc 0 1)
  let (p, a) ← onDyn cfg a (VecDyn.resize env cfg 11 3 x)
  let n := a.len
  let xs ← M.mapEach [0, 1, 2] fun i => a.getAs env 11 i
  let y ← newRc (rc 1 1)
  let (q, a) ← onDyn cfg a (VecDyn.resize env cfg 11 2 y)
  let ys ← M.mapEach [0, 1] fun i => a.getAs env 11 i
  VecDyn.drop cfg a
  pure (p.isSome && q.isSome && n == 3 && a.len == 2 &&
    (xs ++ ys).all fun o => match o with | some e => env.eq 11 e (rc 9 1) | none => false)
example : Passes dynResize := by decide +kernel

/-- From a `Vec` of `Rc`s, by `clone_into_vec` and by `into_vec`. -/
def dynIntegrity (t : TyId) (es : List Bytes) : Test := fun cfg => do
  let (vec, r) ← mkRcs t es
  let buf ← VecCopy.fromVec env t (vt t) r
  let l ← VecDyn.cloneIntoVec env t buf
  let a ← clonedIs t l es
  let b ← intoVecIs cfg t buf es
  dropVec t vec
  pure (a && b)
/-- `data_integrity_u8_test`, `..._i16_test`, `..._i32_test`, `from_empty_vec_test`, `from_strings_test`
(src/vec_dyn.rs:992-1043, 1109-1124, 1142-1169), with distinct labels. -/
example : Passes (dynIntegrity 11 [rc 0 1, rc 1 3, rc 2 4, rc 3 1, rc 4 2]) := by decide +kernel
example : Passes (dynIntegrity 11 [rc 0 1, rc 1 3, rc 2 4, rc 3 1, rc 4 2, rc 5 52, rc 6 1, rc 7 3, rc 8 41, rc 9 23,
    rc 10 2]) := by decide +kernel
example : Passes (dynIntegrity 12 [rc 0 1, rc 1 3, rc 2 10, rc 3 31, rc 4 32, rc 5 42, rc 6 123, rc 7 4]) := by
  decide +kernel
example : Passes (dynIntegrity 13 [rc 0 1, rc 1 3, rc 2 10, rc 3 31, rc 4 32, rc 5 42, rc 6 123]) := by decide +kernel
example : Passes (dynIntegrity 14 [rc 0 1, rc 1 2, rc 2 3, rc 3 4, rc 4 5, rc 5 6]) := by decide +kernel
example : Passes (dynIntegrity 13 []) := by decide +kernel
example : Passes (dynIntegrity 14 []) := by decide +kernel
example : Passes (dynIntegrity 15 []) := by decide +kernel

/-- `f32x3_push_clone_from_empty` (src/vec_dyn.rs:1047-1100), its five parts. -/
def pushOnto (t : TyId) (buf : VecDyn AllVT) (x : Bytes) : Test := fun cfg => do
  let (_, buf) ← onDyn cfg buf (VecDyn.pushCloned env cfg (CopyValue.new env t (vt t) x))
  let l ← VecDyn.cloneIntoVec env t buf
  let a ← clonedIs t l [x]
  VecDyn.drop cfg buf
  pure a
def dynPushEmpty : Test := fun cfg => do
  -- triplet of u32
  let buf ← VecCopy.fromVec env 17 (vt 17) (RVec.new (env.layout 17))
  let a ← pushOnto 17 buf (le 12 2) cfg
  -- triplet of f64
  let buf ← VecCopy.fromVec env 9 (vt 9) (RVec.new (env.layout 9))
  let b ← pushOnto 9 buf (le 24 2) cfg
  -- with capacity
  let r ← RVec.withCapacity (env.layout 9) 2
  let buf ← VecCopy.fromVec env 9 (vt 9) r
  let c ← pushOnto 9 buf (le 24 2) cfg
  -- cloned empty
  let buf ← VecCopy.fromVec env 9 (vt 9) (RVec.new (env.layout 9))
  let buf2 ← VecDyn.clone cfg buf
  let d ← pushOnto 9 buf2 (le 24 2) cfg
  VecDyn.drop cfg buf
  -- empty from type
  let buf ← VecCopy.fromVec env 9 (vt 9) (RVec.new (env.layout 9))
  let s ← M.lift buf.asSlice
  let buf2 ← VecCopy.withTypeFrom s.toMeta
  let e ← pushOnto 9 buf2 (le 24 2) cfg
  VecDyn.drop cfg buf
  pure (a && b && c && d && e)
example : Passes dynPushEmpty := by decide +kernel

/-- `from_struct_test` (src/vec_dyn.rs:1127-1139). -/
def dynStruct : Test := fun cfg => do
  let (vec, r) ← mkRcs 15 [rc 0 3, rc 1 33]
  let buf ← VecCopy.fromVec env 15 (vt 15) r
  let a ← buf.getAs env 15 0
  let b ← buf.getAs env 15 1
  let c ← intoVecIs cfg 15 buf [rc 0 3, rc 1 33]
  dropVec 15 vec
  pure (a == some (rc 0 3) && b == some (rc 1 33) && c)
example : Passes dynStruct := by decide +kernel

/-- `wrong_type_test` (src/vec_dyn.rs:1197-1208), `iter_test` (1172-1181). -/
def dynWrongType : Test := fun cfg => do
  let es := [rc 0 1, rc 1 23, rc 2 2, rc 3 42, rc 4 11]
  let (vec, r) ← mkRcs 11 es
  let buf ← VecCopy.fromVec env 11 (vt 11) r
  let l ← VecDyn.cloneIntoVec env 11 buf
  let a ← clonedIs 11 l es
  let b ← VecDyn.cloneIntoVec env 19 buf
  let c ← buf.asSliceAs env 19
  let (d, buf) ← onDyn cfg buf (VecCopy.asMutSliceAs env 19 (pure ()))
  let e ← buf.asSliceAs env 22
  let f ← buf.getAs env 13 1
  let (g, buf) ← onDyn cfg buf (VecCopy.getMutAs env 13 2 (pure ()))
  let h ← buf.asSliceAs env 11
  VecDyn.drop cfg buf
  dropVec 11 vec
  pure (a && b.isNone && c.isNone && d.isNone && e.isNone && f.isNone && g.isNone && h == some es)
example : Passes dynWrongType := by decide +kernel

/-- `push_test` (src/vec_dyn.rs:1212-1235). -/
def dynPush : Test := fun cfg => do
  let es := [rc 0 1, rc 1 23, rc 2 2]
  let (vec, r) ← mkRcs 11 es
  let buf ← VecCopy.fromVec env 11 (vt 11) r
  let a ← buf.asSliceAs env 11
  let x ← newRc (rc 3 42)
  let (p, buf) ← onDyn cfg buf (VecCopy.pushAs env cfg 11 x)
  let b ← buf.asSliceAs env 11
  let y ← newRc (rc 4 11)
  let (q, buf) ← onDyn cfg buf (VecCopy.pushAs env cfg 11 y)
  let (o, buf) ← onDyn cfg buf (VecCopy.pushAs env cfg 20 (le 16 7))
  let c ← buf.asSliceAs env 11
  VecDyn.drop cfg buf
  dropVec 11 vec
  pure (p.isSome && q.isSome && o.isNone && a == some es && b == some (es ++ [rc 3 42]) &&
    c == some (es ++ [rc 3 42, rc 4 11]))
example : Passes dynPush := by decide +kernel

/-- `append_test` (src/vec_dyn.rs:1239-1252). -/
def dynAppend : Test := fun cfg => do
  let buf ← VecCopy.withType env 11 (vt 11)
  let es := [rc 0 1, rc 1 23, rc 2 2, rc 3 42, rc 4 11]
  let (data, r) ← mkRcs 11 es
  let other ← VecCopy.fromVec env 11 (vt 11) r
  let (buf, other) ← appendTo cfg buf other
  let xs ← buf.asSliceAs env 11
  VecDyn.drop cfg other
  VecDyn.drop cfg buf
  dropVec 11 data
  pure (other.isEmpty && xs == some es)
example : Passes dynAppend := by decide +kernel

/-- `dynamic_vtables_assignment` (src/vec_dyn.rs:1255-1275). The table type has number 5 (any number). The
container keeps its destructors while it has a dynamic table. -/
def dynDynamic : Test := fun cfg => do
  let buf ← VecCopy.withType env 1 (vt 1)
  let buf := Convert.vecIntoDyn (VT := fun _ => AllVT) (k := 5) buf
  let v1 ← BoxValue.new env 1 (vt 1) (le 1 1)
  let (_, buf) ← withLocal buf noDrop (VecDyn.push env cfg v1)
  let v2 ← BoxValue.new env 1 (vt 1) (le 1 100)
  let (_, buf) ← withLocal buf noDrop (VecDyn.push env cfg v2)
  let v3 ← BoxValue.new env 1 (vt 1) (le 1 23)
  let (_, buf) ← withLocal buf noDrop (VecDyn.push env cfg v3)
  let v4 ← BoxValue.new env 4 (vt 4) (le 4 2)
  let (o, buf) ← withLocal buf noDrop (VecDyn.push env cfg v4)
  let buf ← Convert.vecFromDyn cfg 5 buf
  let a ← intoVecIs cfg 1 buf ([1, 100, 23].map (le 1))
  pure (o.isNone && a)
example : Passes dynDynamic := by decide +kernel

/-- `clone_test` (src/vec_dyn.rs:1279-1282). -/
def dynClone : Test := fun cfg => do
  let x ← newRc (rc 0 1)
  let buf ← VecDyn.withSize env 11 (vt 11) 3 x
  let c ← VecDyn.clone cfg buf
  let e ← VecDyn.eq buf c
  VecDyn.drop cfg c
  VecDyn.drop cfg buf
  pure e
example : Passes dynClone := by decide +kernel

/-- `print_debug` (src/vec_dyn.rs:1312-1315), `hash` (1318-1330). -/
def dynDebug : Test := fun cfg => do
  let r ← mkVec 3 ([1, 2, 3].map (le 4))
  let v ← VecCopy.fromVec env 3 (vt 3) r
  let s ← VecDyn.fmt v
  let h ← VecDyn.hash v
  let w ← VecDyn.clone cfg v
  let k ← VecDyn.hash w
  VecDyn.drop cfg w
  VecDyn.drop cfg v
  pure (s == "[1, 2, 3]" && h == k)
example : Passes dynDebug := by decide +kernel

/-- `fill` (src/vec_dyn.rs:1333-1338). -/
def dynFill : Test := fun cfg => do
  let v ← VecDyn.fromSlice env 4 (vt 4) ([1, 2, 3].map (le 4))
  let (o, v) ← onDyn cfg v (VecDyn.fill env 4 (le 4 4))
  let a ← intoVecIs cfg 4 v ([4, 4, 4].map (le 4))
  pure (o.isSome && a)
example : Passes dynFill := by decide +kernel

/-- The container of the remaining tests. -/
def oneTwoThree : M (World Counts) (VecDyn AllVT) := do
  let r ← mkVec 4 ([1, 2, 3].map (le 4))
  VecCopy.fromVec env 4 (vt 4) r

/-- `unsafe_api` (src/vec_dyn.rs:1341-1347). -/
def dynUnsafe : Test := fun cfg => do
  let v ← oneTwoThree
  let a ← v.getUncheckedRef env 4 1
  let b ← v.getUncheckedRef env 4 2
  VecDyn.drop cfg v
  pure (a == le 4 2 && b == le 4 3)
example : Passes dynUnsafe := by decide +kernel

/-- `as_slice` (src/vec_dyn.rs:1350-1364). -/
def dynAsSlice : Test := fun cfg => do
  let v ← oneTwoThree
  let s := SliceCopy.fromSlice env 4 (vt 4) ([1, 2, 3].map (le 4))
  let t ← M.lift v.asSlice
  let e ← SliceDyn.eq s t
  let xs ← v.asSliceAs env 4
  VecDyn.drop cfg v
  pure (e && xs == some ([1, 2, 3].map (le 4)))
example : Passes dynAsSlice := by decide +kernel

/-- `get` (src/vec_dyn.rs:1367-1372). -/
def dynGet : Test := fun cfg => do
  let v ← oneTwoThree
  let x ← VecDyn.get cfg 0 v
  let a ← M.lift (ValueRef.eq x (CopyValue.new env 4 (vt 4) (le 4 1)))
  let (b, v) ← onDyn cfg v (VecDyn.getMut cfg 1 (do
    let y ← getSelf
    M.lift (ValueRef.eq y (CopyValue.new env 4 (vt 4) (le 4 2)))))
  VecDyn.drop cfg v
  pure (a && b)
example : Passes dynGet := by decide +kernel

/-- `push_cloned` (src/vec_dyn.rs:1375-1384). -/
def dynPushCloned : Test := fun cfg => do
  let v ← oneTwoThree
  let (_, v) ← onDyn cfg v (VecDyn.pushCloned env cfg (CopyValue.new env 4 (vt 4) (le 4 4)))
  let (o, v) ← onDyn cfg v (VecDyn.pushCloned env cfg (CopyValue.new env 18 (vt 18) (le 8 4)))
  let a ← intoVecIs cfg 4 v ([1, 2, 3, 4].map (le 4))
  pure (o.isNone && a)
example : Passes dynPushCloned := by decide +kernel

/-- `rotate` (src/vec_dyn.rs:1387-1394). -/
def dynRotate : Test := fun cfg => do
  let v ← oneTwoThree
  let (_, v) ← onDyn cfg v (VecCopy.rotateLeft env cfg 2)
  let c ← VecDyn.clone cfg v
  let a ← intoVecIs cfg 4 c ([3, 1, 2].map (le 4))
  let (_, v) ← onDyn cfg v (VecCopy.rotateRight env cfg 1)
  let c ← VecDyn.clone cfg v
  let b ← intoVecIs cfg 4 c ([2, 3, 1].map (le 4))
  VecDyn.drop cfg v
  pure (a && b)
example : Passes dynRotate := by decide +kernel

/-- `element_size`, `check`, `clear`, `upcast` (src/vec_dyn.rs:1397-1419, 1431-1436). -/
def dynMisc : Test := fun cfg => do
  let v ← oneTwoThree
  let c ← VecDyn.clone cfg v
  let a ← VecDyn.check cfg 4 c
  let c' ← VecDyn.clone cfg v
  let b ← VecDyn.check cfg 3 c'
  match a with
  | none => pure false
  | some a => do
    VecDyn.drop cfg a
    let n := v.len
    let r := v.checkRef 4
    let r' := v.checkRef 3
    let (_, w) ← onDyn cfg v (VecDyn.clear env cfg)
    let up : VecDyn (DropVTable Counts) := VecCopy.upcast (fun t => ⟨t.drop⟩) w
    VecDyn.drop cfg up
    pure (b.isNone && r.isSome && r'.isNone && v.elementSize == 4 && n == 3 && w.len == 0)
example : Passes dynMisc := by decide +kernel

/-! ### `examples/convert.rs` -/

/-- `examples/convert.rs` (8-35): upcast, clone, downcast, reference count 2 (`u` still owns one). -/
def exampleConvert : Test := fun _ => do
  let v ← boxRc 13 (rc 0 32)
  let u : BoxValue (CloneVTable Counts) := Value.upcast (fun t => ⟨t.drop, t.clone, t.cloneFrom, t.cloneIntoRaw⟩) v
  let w ← BoxValue.clone u
  match ← BoxValue.downcast 13 w with
  | none => pure false
  | some b => do
    let n ← strong b.bytes
    dropBox 13 b
    u.drop
    pure (n == 2)
example : Passes exampleConvert := by decide +kernel

/-! ### The uses of the macros

What the macros make of the traits that the crate defines in its tests, examples and benches has to compile. -/

section
open Derive

/-- A supertrait. -/
def sup (path : List String) : Bound := .trait false false (plain path)

/-- `Clone + PartialEq + Eq + std::hash::Hash + std::fmt::Debug` -/
def allSups : List Bound :=
  [sup ["Clone"], sup ["PartialEq"], sup ["Eq"], sup ["std", "hash", "Hash"], sup ["std", "fmt", "Debug"]]
/-- `Clone + PartialEq + std::fmt::Debug` -/
def floatSups : List Bound := [sup ["Clone"], sup ["PartialEq"], sup ["std", "fmt", "Debug"]]

/-- The macro accepts the trait and what it makes of it compiles. -/
def MacroWorks (it : ItemTrait) : Prop :=
  ∃ o, dyncTrait it = some o ∧ Compiles [it] (fun _ => o) (fun it k => Writes it k ∨ k = .partialEq ∧ Writes it .eq)

theorem macroWorks {it : ItemTrait} (hn : GoodName it.ident) (hg : it.hasGenerics = false) (hw : it.hasWhere = false)
    (hself : ¬ Writes it (.custom it.ident)) (he : Writes it .eq → Writes it .partialEq) : MacroWorks it := by
  obtain ⟨o, h, hi⟩ := C63_dync_trait hn hg hw hself
  exact ⟨o, h, hi.2 he⟩

-- `AllTrait` (src/vec_dyn.rs:784-785)
example : MacroWorks ⟨"AllTrait", allSups, false, false⟩ :=
  macroWorks (by unfold GoodName; decide) rfl rfl (by decide) (by decide)
-- `FloatTrait` (src/vec_dyn.rs:792-793)
example : MacroWorks ⟨"FloatTrait", floatSups, false, false⟩ :=
  macroWorks (by unfold GoodName; decide) rfl rfl (by decide) (by decide)
-- `Val` (src/value.rs:861-862)
example : MacroWorks ⟨"Val", allSups ++ [.lifetime], false, false⟩ :=
  macroWorks (by unfold GoodName; decide) rfl rfl (by decide) (by decide)
-- `Float` (src/value.rs:865-866)
example : MacroWorks ⟨"Float", floatSups ++ [.lifetime], false, false⟩ :=
  macroWorks (by unfold GoodName; decide) rfl rfl (by decide) (by decide)
-- `HTValue` (examples/cache.rs:25-26)
example : MacroWorks ⟨"HTValue", allSups, false, false⟩ :=
  macroWorks (by unfold GoodName; decide) rfl rfl (by decide) (by decide)
-- `DynClone` (benches/type_erasure.rs:11-12)
example : MacroWorks ⟨"DynClone", [sup ["Clone"]], false, false⟩ :=
  macroWorks (by unfold GoodName; decide) rfl rfl (by decide) (by decide)

/-- `ValBase` (examples/convert.rs:15). -/
def valBase : ItemTrait := ⟨"ValBase", floatSups, false, false⟩
/-- `Val` (examples/convert.rs:19). -/
def valTrait : ItemTrait :=
  ⟨"Val", [sup ["ValBase"], sup ["PartialEq"], sup ["Eq"], sup ["std", "hash", "Hash"], sup ["std", "fmt", "Debug"]], false, false⟩

/-- The two traits do not inherit from each other. -/
def valHeight (k : Trait) : Nat :=
  if k = .custom "Val" then 3 else if k = .custom "ValBase" then 2 else if k = .eq then 1 else 0

theorem valMod : GoodMod [valBase, valTrait] := by
  have hb : ∀ k, Writes valBase k → valHeight k < 2 := by
    intro k h
    cases k <;> simp [Writes, valBase, floatSups, sup, spelling, plain] at h ⊢ <;> first | decide | skip
    rcases h with rfl | rfl <;> decide
  have hv : ∀ k, Writes valTrait k → valHeight k < 3 := by
    intro k h
    cases k <;> simp [Writes, valTrait, sup, spelling, plain] at h ⊢ <;> first | decide | skip
    rcases h with rfl | rfl | rfl <;> decide
  have hlt : ∀ a b, Sup [valBase, valTrait] a b → valHeight b < valHeight a := by
    rintro a b (⟨it, hit, rfl, hw, hc⟩ | ⟨rfl, rfl⟩)
    · simp only [List.mem_cons, List.not_mem_nil, or_false] at hit
      rcases hit with rfl | rfl
      · exact hb b hw
      · exact hv b hw
    · decide
  refine ⟨?_, by decide, fun a ha => ?_⟩
  · intro it hit
    simp only [List.mem_cons, List.not_mem_nil, or_false] at hit
    rcases hit with rfl | rfl <;> (unfold GoodName; decide)
  · have : ∀ b, Relation.TransGen (Sup [valBase, valTrait]) a b → valHeight b < valHeight a := by
      intro b hb
      induction hb with
      | single h => exact hlt _ _ h
      | tail _ h ih => exact Nat.lt_trans (hlt _ _ h) ih
    exact Nat.lt_irrefl _ (this a ha)

-- the module of `examples/convert.rs:13-21`
example : ∃ N F, (∀ n ≥ N, dyncMod n [valBase, valTrait] = some ([valBase, valTrait].map F)) ∧
    Compiles [valBase, valTrait] F (fun it k => Relation.TransGen (Sup [valBase, valTrait]) (.custom it.ident) k) := by
  obtain ⟨N, F, h, hi⟩ := C63_dync_mod valMod
  refine ⟨N, F, h, hi.2 ⟨⟨?_, ?_, ?_⟩, ?_⟩⟩ <;> decide

-- and a `Val` can be upcast to a `ValBase` there
example : ∃ a b, dyncMod 100 [valBase, valTrait] = some [a, b] ∧ ⟨false, "ValBaseVTable"⟩ ∈ b.convs.map Conv.dst :=
  ⟨_, _, rfl, by decide⟩

end

end Dync.RepoTests
