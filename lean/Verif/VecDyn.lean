import Verif.Value
/-!
# `src/vec_dyn.rs` and `src/slice.rs`

`VecDyn<V>` is `ManuallyDrop<VecCopy<V>>` (src/vec_dyn.rs:75-80) and `Slice`/`SliceMut` wrap
`SliceCopy`/`SliceCopyMut` (src/slice.rs:20-27, 337-342): the data is that of the wrapped type.  What
differs is which user code (`drop`, `clone`, ...) runs; methods that only delegate are those of the
wrapped type:

* `with_type`, `with_capacity`, `from_vec`, `with_type_from`, `from_raw_parts`, `into_raw_parts`,
  `upcast` (149-255), `push_as` (275-278), accessors (309-345), `into_vec` (351-361), `as_slice_as`,
  `as_mut_slice_as`, `get_ref_as`, `get_mut_as` (366-387), `append` (393-397), `rotate_*` (405-417),
  `iter` (495-505), `iter_mut` (538-550), `as_slice`, `as_mut_slice` (553-568) are the functions of
  `VecCopy`;
* the methods of `Slice` and `SliceMut` other than the ones below are those of `SliceCopy`.
-/
namespace Dync
variable {U V W σ α : Type}

/-- `VecDyn<V>` (src/vec_dyn.rs:75-80). -/
abbrev VecDyn (V : Type) := VecCopy V

/-! ### `Vec<T>` functions that run user code -/

/-- `Vec::extend_from_slice` for elements that are cloned: the vector already has the capacity.
After a panic of `clone` the vector holds the clones made so far. -/
def RVec.extendClone (Γ : TyEnv U) (t : TyId) (src : List Bytes) : M (RVec × World U) Unit :=
  M.forEach src fun x => do
    let c ← onWorld (worldUser (Γ.clone t x))
    RVec.push (Γ.layout t) c

/-- The loop of `vec![value; n]` (`Vec::extend_with`): `n - 1` clones, then `value` itself; `value` is
dropped if `n = 0` or if a clone panics. The vector already has the capacity. -/
def RVec.extendWith (Γ : TyEnv U) (t : TyId) (n : Nat) (value : Bytes) : M (RVec × World U) Unit :=
  match n with
  | 0 => onWorld (worldUser (Γ.drop t value))
  | n + 1 => ⟨fun s =>
      match M.repeatN n (do let c ← onWorld (worldUser (Γ.clone t value)); RVec.push (Γ.layout t) c) s with
      | (.ok _, s') => RVec.push (Γ.layout t) value s'
      | (.panic y, s') =>
        match onWorld (worldUser (Γ.drop t value)) s' with
        | (.ok _, s'') => (.panic y, s'')
        | (.panic _, s'') => (.abort, s'')
        | (.ub, s'') => (.ub, s'')
        | (.abort, s'') => (.abort, s'')
      | (.ub, s') => (.ub, s')
      | (.abort, s') => (.abort, s')⟩

/-- Comparing two sequences of value references with `zip` and `all` (src/vec_dyn.rs:126-129, src/slice.rs:33-36, 348-351). -/
def eqZip [HasPartialEq V] : List (ValueRef V) → List (ValueRef V) → Res Bool
  | a :: as, b :: bs =>
    match ValueRef.eq a b with
    | .ok true => eqZip as bs
    | .ok false => .ok false
    | .panic y => .panic y
    | .ub => .ub
    | .abort => .abort
  | _, _ => .ok true

/-- Feeding a sequence of value references to a hasher (src/vec_dyn.rs:135-137). -/
def hashAll [HasHash V] : List (ValueRef V) → Res (List UInt8)
  | [] => .ok []
  | a :: as =>
    match ValueRef.hash a with
    | .ok h => (hashAll as).map (h ++ ·)
    | .panic y => .panic y
    | .ub => .ub
    | .abort => .abort

/-- The entries of `debug_list` (src/vec_dyn.rs:143, src/slice.rs:42). -/
def fmtAll [HasDebug V] : List (ValueRef V) → Res (List String)
  | [] => .ok []
  | a :: as =>
    match ValueRef.fmt a with
    | .ok h => (fmtAll as).map (h :: ·)
    | .panic y => .panic y
    | .ub => .ub
    | .abort => .abort

/-- `DebugList::entry` of std without the alternate flag: text so far and `has_fields`. -/
def debugEntry (f : String × Bool) (entry : String) : String × Bool :=
  (f.1 ++ (if f.2 then ", " else "") ++ entry, true)

/-- `f.debug_list().entries(..).finish()` without the alternate flag. -/
def debugList (entries : List String) : String := (entries.foldl debugEntry ("[", false)).1 ++ "]"

namespace VecDyn

/-- `impl Drop for VecDyn` (src/vec_dyn.rs:84-99). A panicking destructor ends the loop: the
remaining elements and the buffer are not released. -/
def drop [HasDrop U V] (cfg : Cfg) (self : VecDyn V) : M (World U) Unit := do
  let cs ← self.data.byteChunks
  M.forEach cs fun b => worldUser (HasDrop.dropFn self.vtable b)
  self.data.drop cfg

/-- The loop body of `clone` (src/vec_dyn.rs:110-114) on a pair `(src, dst)`. -/
def cloneInto [HasClone U V] (vt : V) : M ((Bytes × Bytes) × World U) Unit := ⟨fun s =>
  match HasClone.cloneIntoRawFn vt s.1.1 (s.1.2, s.2.user) with
  | (r, (d, u)) => (r, ((s.1.1, d), { s.2 with user := u }))⟩

/-- `impl Clone for VecDyn` (src/vec_dyn.rs:101-122) with `clone_with` (src/vec_copy.rs:797-802).
`new_data` is a `VecVoid`: if a clone panics its buffer is freed but no element of it is dropped. -/
def clone [HasClone U V] (cfg : Cfg) (self : VecDyn V) : M (World U) (VecDyn V) := do
  let newData ← self.data.clone cfg
  let (_, newData) ← withLocal newData (VecVoid.drop cfg) (do
    let src ← self.data.byteChunks
    let new ← getSelf
    let dst ← new.byteChunks
    ⟨fun s =>
      let out := visitMut (cloneInto self.vtable) (src.zip dst) s.2
      (out.1, ({ s.1 with mem := splice s.1.mem 0 (out.2.1.map Prod.snd).flatten }, out.2.2))⟩)
  pure ⟨newData, self.vtable⟩

/-- `impl PartialEq for VecDyn` (src/vec_dyn.rs:124-130). -/
def eq [HasPartialEq V] (a b : VecDyn V) : M σ Bool := do
  let xs ← a.iter
  let ys ← b.iter
  M.lift (eqZip xs ys)

/-- `impl Hash for VecDyn` (src/vec_dyn.rs:134-138). -/
def hash [HasHash V] (self : VecDyn V) : M σ (List UInt8) := do
  let xs ← self.iter
  M.lift (hashAll xs)

/-- `impl Debug for VecDyn` (src/vec_dyn.rs:140-144). -/
def fmt [HasDebug V] (self : VecDyn V) : M σ String := do
  let xs ← self.iter
  M.lift ((fmtAll xs).map debugList)

/-- `clear` (src/vec_dyn.rs:258-267). -/
def clear [HasDrop U V] (Γ : TyEnv U) (cfg : Cfg) : M (VecDyn V × World U) Unit := do
  let self ← getSelf
  let cs ← self.data.byteChunks
  M.forEach cs fun b => onWorld (worldUser (HasDrop.dropFn self.vtable b))
  VecCopy.onData (VecVoid.clear Γ cfg)

/-- `check` (src/vec_dyn.rs:283-286) consumes `self`: it is dropped on a mismatch. -/
def check [HasDrop U V] (cfg : Cfg) (t : TyId) (self : VecDyn V) : M (World U) (Option (VecDyn V)) :=
  match self.checkRef t with
  | none => do VecDyn.drop cfg self; pure none
  | some _ => pure (some self)

/-- `push` (src/vec_dyn.rs:431-441). The box is dropped as a box of bytes at the end of the scope,
also when the inner `push` panics. On a mismatch `value` is dropped. -/
def push [HasDrop U W] (Γ : TyEnv U) (cfg : Cfg) (value : BoxValue W) :
    M (VecDyn V × World U) (Option Unit) := do
  let self ← getSelf
  if value.type_id = self.elementTypeId then do
    M.thenDrop (VecCopy.onData (VecVoid.push Γ cfg value.bytes.bytes)) (onWorld value.bytes.dropPlain)
    pure (some ())
  else do
    onWorld value.drop
    pure none

/-- `push_cloned` (src/vec_dyn.rs:452-471). -/
def pushCloned [HasClone U V] (Γ : TyEnv U) (cfg : Cfg) (value : ValueRef V) :
    M (VecDyn V × World U) (Option Unit) := do
  let self ← getSelf
  if self.elementTypeId = value.type_id then do
    VecCopy.onData (VecVoid.resizeWith Γ cfg (self.data.len + 1)
      (M.zoom (fun s => (s.1, s.2.user)) (fun t s => (t.1, { s.2 with user := t.2 }))
        (HasClone.cloneIntoRawFn self.vtable value.bytes)))
    pure (some ())
  else pure none

/-- `get` (src/vec_dyn.rs:475-489). -/
def get (cfg : Cfg) (i : Nat) (self : VecDyn V) : M σ (ValueRef V) := do
  debugAssert cfg (i < self.len)
  let b ← self.data.getBytes cfg i
  pure (self.valueOf b)

/-- `get_mut` (src/vec_dyn.rs:509-528): the caller runs `m` on the value. -/
def getMut (cfg : Cfg) (i : Nat) (m : M (ValueRef V × World U) α) : M (VecDyn V × World U) α := do
  let self ← getSelf
  debugAssert cfg (i < self.len)
  let b ← self.data.getBytes cfg i
  let (a, _) ← indexByteRange cfg self.data.elem.numBytes i
  ⟨fun s =>
    let out := m (self.valueOf b, s.2)
    (out.1, ({ s.1 with data := { s.1.data with
      mem := splice s.1.data.mem a out.2.1.bytes } }, out.2.2))⟩

/-- `with_size` (src/vec_dyn.rs:614-621): `vec![def; n]` has capacity `n`; `def` is dropped if there is no
such vector. -/
def withSize (Γ : TyEnv U) (t : TyId) (vt : V) (n : Nat) (x : Bytes) : M (World U) (VecDyn V) := do
  let vec ← M.onUnwind (RVec.withCapacity (Γ.layout t) n) (worldUser (Γ.drop t x))
  let (_, vec) ← withLocal vec (RVec.dropTyped Γ t) (RVec.extendWith Γ t n x)
  VecCopy.fromVec Γ t vt vec

/-- `from_slice` (src/vec_dyn.rs:627-634) with `from_slice_non_copy` (src/vec_copy.rs:173-180). -/
def fromSlice (Γ : TyEnv U) (t : TyId) (vt : V) (s : List Bytes) : M (World U) (VecDyn V) := do
  let vec ← RVec.withCapacity (Γ.layout t) s.length
  let (_, vec) ← withLocal vec (RVec.dropTyped Γ t) (RVec.extendClone Γ t s)
  VecCopy.fromVec Γ t vt vec

/-- The body of `resize` (src/vec_dyn.rs:677-696); `value` is dropped by the caller `resize`. -/
def resizeBody [HasDrop U V] (Γ : TyEnv U) (cfg : Cfg) (t : TyId) (newLen : Nat) (value : Bytes) :
    M (VecDyn V × World U) (Option Unit) := do
  let self ← getSelf
  match self.checkRef t with
  | none => pure none
  | some _ =>
    if self.len ≤ newLen then do
      let diff := newLen - self.len
      VecCopy.onData (VecVoid.reserve Γ cfg diff)
      M.repeatN diff (do
        let c ← onWorld (worldUser (Γ.clone t value))
        let _ ← VecCopy.pushAs Γ cfg t c
        pure ())
      pure (some ())
    else do
      let cs ← self.data.byteChunks
      M.forEach (cs.drop newLen) fun b => onWorld (worldUser (HasDrop.dropFn self.vtable b))
      VecCopy.onData (VecVoid.truncate Γ cfg newLen)
      pure (some ())

/-- `resize` (src/vec_dyn.rs:676-697): the argument `value` is dropped on every path. -/
def resize [HasDrop U V] (Γ : TyEnv U) (cfg : Cfg) (t : TyId) (newLen : Nat) (value : Bytes) :
    M (VecDyn V × World U) (Option Unit) :=
  M.thenDrop (resizeBody Γ cfg t newLen value) (onWorld (worldUser (Γ.drop t value)))

/-- The assignment `*v = new`: the old value is dropped, then `new` is stored (also when the
destructor panics). -/
def assignTyped (Γ : TyEnv U) (t : TyId) (new : Bytes) : M (Bytes × World U) Unit := ⟨fun s =>
  let out := worldUser (Γ.drop t s.1) s.2
  (out.1, (new, out.2))⟩

/-- `fill` (src/vec_dyn.rs:705-710): the argument `def` is dropped on every path. -/
def fill (Γ : TyEnv U) (t : TyId) (x : Bytes) : M (VecDyn V × World U) (Option Unit) :=
  M.thenDrop
    (VecCopy.asMutSliceAs Γ t (forEachMut (do
      let c ← onWorld (worldUser (Γ.clone t x))
      assignTyped Γ t c)))
    (onWorld (worldUser (Γ.drop t x)))

/-- `append_cloned_to_vec` (src/vec_dyn.rs:717-727): the state is the content of the caller's `Vec`.
Growth of the `Vec` is std's business and not modelled here. -/
def appendClonedToVec (Γ : TyEnv U) (t : TyId) (self : VecDyn V) :
    M (List Bytes × World U) (Option Unit) := do
  match ← self.asSliceAs Γ t with
  | none => pure none
  | some es => do
    M.forEach es fun x => do
      let c ← onWorld (worldUser (Γ.clone t x))
      M.modify fun s => (s.1 ++ [c], s.2)
    pure (some ())

/-- `clone_into_vec` (src/vec_dyn.rs:731-739): if a clone panics the clones made so far are dropped
with the local vector. -/
def cloneIntoVec (Γ : TyEnv U) (t : TyId) (self : VecDyn V) : M (World U) (Option (List Bytes)) := do
  let (r, vec) ← withLocal [] (fun es => M.dropEach es fun b => worldUser (Γ.drop t b))
    (appendClonedToVec Γ t self)
  match r with
  | none => pure none
  | some _ => pure (some vec)

end VecDyn

/-! ### `src/slice.rs` -/

namespace SliceDyn

/-- `PartialEq` for `Slice` (src/slice.rs:31-37) and `SliceMut` (346-353). -/
def eq [HasPartialEq V] (a b : SliceCopy V) : M σ Bool := do
  let xs ← a.iter
  let ys ← b.iter
  M.lift (eqZip xs ys)

/-- `Debug` for `Slice` (src/slice.rs:39-43) and `SliceMut` (355-359). -/
def fmt [HasDebug V] (self : SliceCopy V) : M σ String := do
  let xs ← self.iter
  M.lift ((fmtAll xs).map debugList)

/-- `append_clone_to_vec` (src/slice.rs:296-303, 696-702): the state is the content of the caller's
`Vec`. -/
def appendCloneToVec (Γ : TyEnv U) (cfg : Cfg) (t : TyId) (self : SliceCopy V) :
    M (List Bytes × World U) (Option Unit) := do
  match ← self.asSlice Γ cfg t with
  | none => pure none
  | some es => do
    M.forEach es fun x => do
      let c ← onWorld (worldUser (Γ.clone t x))
      M.modify fun s => (s.1 ++ [c], s.2)
    pure (some ())

/-- `clone_into_vec` (src/slice.rs:307-315, 706-714). -/
def cloneIntoVec (Γ : TyEnv U) (cfg : Cfg) (t : TyId) (self : SliceCopy V) :
    M (World U) (Option (List Bytes)) := do
  let (r, vec) ← withLocal [] (fun es => M.dropEach es fun b => worldUser (Γ.drop t b))
    (appendCloneToVec Γ cfg t self)
  match r with
  | none => pure none
  | some _ => pure (some vec)

/-- `<[T]>::clone_from_slice`: the state is the destination and the user state; every element is
updated in order by `clone_from`. -/
def cloneFromTyped (Γ : TyEnv U) (t : TyId) (src : List Bytes) : M (List Bytes × U) Unit := ⟨fun s =>
  if s.1.length = src.length then
    let out := visitMut (⟨fun p =>
      match Γ.cloneFrom t p.1.2 (p.1.1, p.2) with
      | (r, (d, u)) => (r, ((d, p.1.2), u))⟩ : M ((Bytes × Bytes) × U) Unit) (s.1.zip src) s.2
    (out.1, (out.2.1.map Prod.fst, out.2.2))
  else (.panic .lenMismatch, s)⟩

/-- `SliceMut::clone_from_slice` (src/slice.rs:687-691) through `SliceMut::as_slice` (504-508), which
calls `len` before the type check. -/
def cloneFromSlice (Γ : TyEnv U) (cfg : Cfg) (t : TyId) (src : List Bytes) :
    M (SliceCopy V × World U) (Option Unit) := do
  let self ← getSelf
  let n ← self.len cfg
  match self.check t with
  | none => pure none
  | some _ => do
    let es ← M.lift (typedSlice (Γ.size t) n self.data)
    (⟨fun s =>
      let out := cloneFromTyped Γ t src (es, s.2.user)
      (out.1, ({ s.1 with data := splice s.1.data 0 out.2.1.flatten }, { s.2 with user := out.2.2 }))⟩
        : M (SliceCopy V × World U) Unit)
    pure (some ())

end SliceDyn
end Dync
