import Verif.VecDyn
/-!
# Table code that panics

The functions of the crate that build, clone or convert a virtual table once more, now with that step as user
code: it may do anything to the user state and may panic (`V::build_vtable`, `V::clone`, `U::from`).  What else
the function holds at that moment is released or leaked as Rust does: a `VecVoid` in a half-built struct is
dropped, anything in a `ManuallyDrop` is not.  The boxes of the tables themselves are the subject of `Tables`.
-/
namespace Dync
variable {U V W B : Type}

namespace VecCopy

/-- `from_vec` / `from_vec_non_copy` (src/vec_copy.rs:134-157): the table is built after the data; if that
panics the `VecVoid` is dropped. -/
def fromVecT (Γ : TyEnv U) (cfg : Cfg) (t : TyId) (build : M U V) (vec : RVec) : M (World U) (VecCopy V) := do
  let _ ← withLocal vec (RVec.dropTyped Γ t) (M.assert (Γ.size t != 0))
  let data ← VecVoid.fromVec Γ t vec
  let vt ← M.onUnwind (worldUser build) (data.drop cfg)
  pure ⟨data, vt⟩

/-- `with_type` / `with_type_non_copy` (src/vec_copy.rs:68-84). -/
def withTypeT (Γ : TyEnv U) (cfg : Cfg) (t : TyId) (build : M U V) : M (World U) (VecCopy V) :=
  fromVecT Γ cfg t build (RVec.new (Γ.layout t))

/-- `with_capacity` / `with_capacity_non_copy` (src/vec_copy.rs:89-104). -/
def withCapacityT (Γ : TyEnv U) (cfg : Cfg) (t : TyId) (build : M U V) (n : Nat) : M (World U) (VecCopy V) := do
  let vec ← RVec.withCapacity (Γ.layout t) n
  fromVecT Γ cfg t build vec

/-- `with_size` (src/vec_copy.rs:116-121) for `Copy` elements. -/
def withSizeT (Γ : TyEnv U) (cfg : Cfg) (t : TyId) (build : M U V) (n : Nat) (x : Bytes) :
    M (World U) (VecCopy V) := do
  let vec ← RVec.withCapacity (Γ.layout t) n
  fromVecT Γ cfg t build { vec with len := n, bytes := (List.replicate n x).flatten }

/-- `from_slice` (src/vec_copy.rs:161-168). -/
def fromSliceT (Γ : TyEnv U) (cfg : Cfg) (t : TyId) (build : M U V) (s : List Bytes) :
    M (World U) (VecCopy V) := do
  let vec ← RVec.withCapacity (Γ.layout t) s.length
  let (_, vec) ← withLocal vec (RVec.dropTyped Γ t)
    (RVec.extendFromSlice (Γ.layout t) s.length s.flatten)
  fromVecT Γ cfg t build vec

/-- `with_type_from` (src/vec_copy.rs:186-200) for a table that is borrowed: `into_owned` clones it after the
data is made. -/
def withTypeFromT (cfg : Cfg) (clone : V → M U V) (m : Meta V) : M (World U) (VecCopy V) := do
  let data ← evalAlign m.elem.alignment fun T => do
    let v ← RVec.withCapacity T m.elem.size
    VecVoid.fromVecOverride T v m.elem
  let vt ← M.onUnwind (worldUser (clone m.vtable)) (data.drop cfg)
  pure ⟨data, vt⟩

/-- `upcast` / `upcast_with` (src/vec_copy.rs:230-247): `self.data` is moved into the result before the table is
cloned and converted. `VecDyn::upcast` (src/vec_dyn.rs:243-254) calls it on the `VecCopy` taken out of the
`ManuallyDrop`, so on a panic no element is dropped either. -/
def upcastT (cfg : Cfg) (clone : V → M U V) (conv : V → M U W) (self : VecCopy V) : M (World U) (VecCopy W) := do
  let vt ← M.onUnwind (worldUser (clone self.vtable >>= conv)) (self.data.drop cfg)
  pure ⟨self.data, vt⟩

/-- `derive(Clone)` on `VecCopy` (src/vec_copy.rs:52): the data first, then the table. -/
def cloneT (cfg : Cfg) (clone : V → M U V) (self : VecCopy V) : M (World U) (VecCopy V) := do
  let d ← self.data.clone cfg
  let vt ← M.onUnwind (worldUser (clone self.vtable)) (d.drop cfg)
  pure ⟨d, vt⟩

end VecCopy

namespace VecDyn

/-- `impl Clone for VecDyn` (src/vec_dyn.rs:101-122) with `clone_with` (src/vec_copy.rs:797-802): the table is
cloned after all elements; `data` is a `VecVoid`. -/
def cloneT [HasClone U V] (cfg : Cfg) (clone : V → M U V) (self : VecDyn V) : M (World U) (VecDyn V) := do
  let newData ← self.data.clone cfg
  let (_, newData) ← withLocal newData (VecVoid.drop cfg) (do
    let src ← self.data.byteChunks
    let new ← getSelf
    let dst ← new.byteChunks
    ⟨fun s =>
      let out := visitMut (cloneInto self.vtable) (src.zip dst) s.2
      (out.1, ({ s.1 with mem := splice s.1.mem 0 (out.2.1.map Prod.snd).flatten }, out.2.2))⟩)
  let vt ← M.onUnwind (worldUser (clone self.vtable)) (newData.drop cfg)
  pure ⟨newData, vt⟩

/-- `with_size` (src/vec_dyn.rs:614-621). -/
def withSizeT (Γ : TyEnv U) (cfg : Cfg) (t : TyId) (build : M U V) (n : Nat) (x : Bytes) :
    M (World U) (VecDyn V) := do
  let vec ← M.onUnwind (RVec.withCapacity (Γ.layout t) n) (worldUser (Γ.drop t x))
  let (_, vec) ← withLocal vec (RVec.dropTyped Γ t) (RVec.extendWith Γ t n x)
  VecCopy.fromVecT Γ cfg t build vec

/-- `from_slice` (src/vec_dyn.rs:627-634) with `from_slice_non_copy` (src/vec_copy.rs:173-180). -/
def fromSliceT (Γ : TyEnv U) (cfg : Cfg) (t : TyId) (build : M U V) (s : List Bytes) : M (World U) (VecDyn V) := do
  let vec ← RVec.withCapacity (Γ.layout t) s.length
  let (_, vec) ← withLocal vec (RVec.dropTyped Γ t) (RVec.extendClone Γ t s)
  VecCopy.fromVecT Γ cfg t build vec

end VecDyn

/-! ### Owned values: everything is in a `ManuallyDrop` when the table code runs -/

/-- `BoxValue::new` (src/value.rs:200-211): the value is boxed before the table is built. -/
def BoxValue.newT (Γ : TyEnv U) (t : TyId) (build : M U V) (x : Bytes) : M (World U) (BoxValue V) := do
  let b ← boxNew Γ t x
  let vt ← worldUser build
  pure ⟨b, t, Γ.align t, vt⟩

/-- `SmallValue::try_new` (src/value.rs:113-125): the table is built only if the value fits. -/
def SmallValue.tryNewT (Γ : TyEnv U) (t : TyId) (build : M U V) (x : Bytes) :
    M (World U) (Option (SmallValue V)) :=
  if Γ.size t = 8 then do
    let vt ← worldUser build
    pure (some ⟨⟨x⟩, t, Γ.align t, vt⟩)
  else pure none

/-- `SmallValue::upcast`, `BoxValue::upcast` (src/value.rs:158-179, 236-258). -/
def Value.upcastT (clone : V → M U V) (conv : V → M U W) (v : Value B V) : M (World U) (Value B W) := do
  let vt ← worldUser (clone v.vtable >>= conv)
  pure ⟨v.bytes, v.type_id, v.alignment, vt⟩

/-- `clone_value` (src/value.rs:526-536, 693-703): the table is cloned after the element, whose box is in a
`ManuallyDrop`. -/
def ValueRef.cloneValueT [HasClone U V] (clone : V → M U V) (v : ValueRef V) : M (World U) (BoxValue V) := do
  let b ← HasClone.cloneFn v.vtable v.bytes
  let vt ← worldUser (clone v.vtable)
  pure ⟨b, v.type_id, v.alignment, vt⟩

/-- `clone_small_value` (src/value.rs:546-565, 713-732): the clone is in a `MaybeUninit`. -/
def ValueRef.cloneSmallValueT [HasClone U V] (clone : V → M U V) (v : ValueRef V) : M (World U) (SmallValue V) := do
  let b : Bytes ← ⟨fun w =>
    match HasClone.cloneIntoRawFn v.vtable v.bytes (List.replicate 8 none, w.user) with
    | (.ok _, (b, u)) => (.ok b, { w with user := u })
    | (.panic y, (_, u)) => (.panic y, { w with user := u })
    | (.ub, (_, u)) => (.ub, { w with user := u })
    | (.abort, (_, u)) => (.abort, { w with user := u })⟩
  let vt ← worldUser (clone v.vtable)
  pure ⟨⟨b⟩, v.type_id, v.alignment, vt⟩

/-! ### With table code that does nothing but return, these are the functions of the other modules -/

section plain
variable (Γ : TyEnv U) (cfg : Cfg) (t : TyId) (vt : V)

/-- A step of table code that just returns. -/
theorem onUnwind_user_pure (d : M (World U) Unit) : M.onUnwind (worldUser (pure vt : M U V)) d = pure vt := rfl

theorem VecCopy.fromVecT_pure (vec : RVec) :
    VecCopy.fromVecT Γ cfg t (pure vt) vec = VecCopy.fromVec Γ t vt vec := by
  simp only [VecCopy.fromVecT, VecCopy.fromVec, onUnwind_user_pure, pure_bind]
theorem VecCopy.withTypeT_pure : VecCopy.withTypeT Γ cfg t (pure vt) = VecCopy.withType Γ t vt :=
  VecCopy.fromVecT_pure ..
theorem VecCopy.withCapacityT_pure (n : Nat) :
    VecCopy.withCapacityT Γ cfg t (pure vt) n = VecCopy.withCapacity Γ t vt n := by
  simp only [VecCopy.withCapacityT, VecCopy.withCapacity, VecCopy.fromVecT_pure]
theorem VecCopy.withSizeT_pure (n : Nat) (x : Bytes) :
    VecCopy.withSizeT Γ cfg t (pure vt) n x = VecCopy.withSize Γ t vt n x := by
  simp only [VecCopy.withSizeT, VecCopy.withSize, VecCopy.fromVecT_pure]
theorem VecCopy.fromSliceT_pure (s : List Bytes) :
    VecCopy.fromSliceT Γ cfg t (pure vt) s = VecCopy.fromSlice Γ t vt s := by
  simp only [VecCopy.fromSliceT, VecCopy.fromSlice, VecCopy.fromVecT_pure]
theorem VecCopy.withTypeFromT_pure (m : Meta V) :
    VecCopy.withTypeFromT (U := U) cfg pure m = VecCopy.withTypeFrom m := by
  simp only [VecCopy.withTypeFromT, VecCopy.withTypeFrom, onUnwind_user_pure, pure_bind]
theorem VecCopy.upcastT_pure (f : V → W) (c : VecCopy V) :
    VecCopy.upcastT (U := U) cfg pure (fun v => pure (f v)) c = pure (c.upcast f) := by
  simp only [VecCopy.upcastT, pure_bind, onUnwind_user_pure]; rfl
theorem VecCopy.cloneT_pure (c : VecCopy V) :
    VecCopy.cloneT (U := U) cfg pure c = VecCopy.clone cfg c := by
  simp only [VecCopy.cloneT, VecCopy.clone, onUnwind_user_pure, pure_bind]
theorem VecDyn.cloneT_pure [HasClone U V] (c : VecDyn V) :
    VecDyn.cloneT (U := U) cfg pure c = VecDyn.clone cfg c := by
  simp only [VecDyn.cloneT, VecDyn.clone, onUnwind_user_pure, pure_bind]
theorem VecDyn.withSizeT_pure (n : Nat) (x : Bytes) :
    VecDyn.withSizeT Γ cfg t (pure vt) n x = VecDyn.withSize Γ t vt n x := by
  simp only [VecDyn.withSizeT, VecDyn.withSize, VecCopy.fromVecT_pure]
theorem VecDyn.fromSliceT_pure (s : List Bytes) :
    VecDyn.fromSliceT Γ cfg t (pure vt) s = VecDyn.fromSlice Γ t vt s := by
  simp only [VecDyn.fromSliceT, VecDyn.fromSlice, VecCopy.fromVecT_pure]
theorem BoxValue.newT_pure (x : Bytes) : BoxValue.newT Γ t (pure vt) x = BoxValue.new Γ t vt x := by
  simp only [BoxValue.newT, BoxValue.new, show (worldUser (pure _ : M U V)) = pure _ from rfl, pure_bind]
theorem SmallValue.tryNewT_pure (x : Bytes) :
    SmallValue.tryNewT Γ t (pure vt) x = SmallValue.tryNew Γ t vt x := rfl
theorem Value.upcastT_pure (f : V → W) (v : Value B V) :
    Value.upcastT (U := U) pure (fun v => pure (f v)) v = pure (v.upcast f) := rfl
theorem ValueRef.cloneValueT_pure [HasClone U V] (v : ValueRef V) :
    ValueRef.cloneValueT (U := U) pure v = ValueRef.cloneValue v := by
  simp only [ValueRef.cloneValueT, ValueRef.cloneValue, show (worldUser (pure _ : M U V)) = pure _ from rfl, pure_bind]
theorem ValueRef.cloneSmallValueT_pure [HasClone U V] (v : ValueRef V) :
    ValueRef.cloneSmallValueT (U := U) pure v = ValueRef.cloneSmallValue v := by
  apply M.ext'
  intro w
  simp only [ValueRef.cloneSmallValueT, ValueRef.cloneSmallValue, M.bind_run]
  rcases HasClone.cloneIntoRawFn v.vtable v.bytes (List.replicate 8 none, w.user) with ⟨r, b, u⟩
  cases r <;> rfl

end plain
end Dync
