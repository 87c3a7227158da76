import Verif.VecCopyLemmas
/-!
# The growing functions over an arbitrary capacity policy of `Vec`

`std` documents that `Vec::reserve`, `push` and `with_capacity` leave room for *at least* the requested
number of elements; which capacity they choose is unspecified and may change. `StdModel.lean` fixes what
the current implementation does (`RVec.grownCap`, exact `with_capacity`). Here the functions of dync that
make a vector grow or allocate are written once more over an arbitrary choice that keeps the documented
promise, to find out which results hold for every such choice. `…P_std` shows that the two models are the
same function when the choice is the one of `StdModel.lean`.

As in `StdModel.lean` an allocation that does not fit into `isize::MAX` bytes panics, and allocation
failure is not modelled.
-/
namespace Dync

/-- How a standard library chooses capacities: anything that keeps the documented promise. The choice may
depend on the whole state of the heap. -/
structure VecPolicy where
  /-- new capacity of a vector of the given layout and capacity that must hold the given number of elements -/
  grow : Heap → Layout → Nat → Nat → Nat
  /-- capacity of `with_capacity(n)` -/
  initial : Heap → Layout → Nat → Nat
  grow_ge : ∀ h T cap need, need ≤ grow h T cap need
  initial_ge : ∀ h T n, n ≤ initial h T n

/-- The choices of the current standard library, as fixed in `StdModel.lean`. -/
def VecPolicy.std : VecPolicy :=
  ⟨fun _ T cap need => RVec.grownCap T cap need, fun _ _ n => n,
    fun _ T cap need => RVec.le_grownCap T cap need, fun _ _ n => Nat.le_refl n⟩

namespace RVec
variable {U : Type}

/-- `Vec::with_capacity(n)`, see `RVec.withCapacity`. -/
def withCapacityP (P : VecPolicy) (T : Layout) (n : Nat) : M (World U) RVec := ⟨fun w =>
  if T.size = 0 then (.ok (new T), w)
  else
    let k := P.initial w.heap T n
    if k * T.size + (T.align - 1) ≤ isizeMax then
      (.ok ⟨(w.heap.alloc ⟨k * T.size, T.align⟩).1, 0, k, []⟩,
        { w with heap := (w.heap.alloc ⟨k * T.size, T.align⟩).2 })
    else (.panic .capacity, w)⟩

/-- `RawVec::grow_amortized`, see `RVec.grow`. -/
def growP (P : VecPolicy) (T : Layout) (additional : Nat) : M (RVec × World U) Unit := do
  let (v, w) ← M.get
  if T.size = 0 then M.panic .capacity else
  let required := v.len + additional
  if usizeMax < required then M.panic .capacity else
  let cap := P.grow w.heap T v.cap required
  if isizeMax < cap * T.size + (T.align - 1) then M.panic .capacity else
  let p ← onHeap (realloc v.ptr ⟨v.cap * T.size, T.align⟩ ⟨cap * T.size, T.align⟩)
  M.modify fun s => ({ s.1 with ptr := p, cap := cap }, s.2)

/-- `Vec::reserve(additional)`, see `RVec.reserve`. -/
def reserveP (P : VecPolicy) (T : Layout) (additional : Nat) : M (RVec × World U) Unit := do
  let (v, _) ← M.get
  if v.cap - v.len < additional then growP P T additional else pure ()

/-- `Vec::push(value)`, see `RVec.push`. -/
def pushP (P : VecPolicy) (T : Layout) (value : Bytes) : M (RVec × World U) Unit := do
  let (v, _) ← M.get
  if v.len = v.cap then growP P T 1 else pure ()
  M.modify fun s => ({ s.1 with len := s.1.len + 1, bytes := s.1.bytes ++ value }, s.2)

/-- `Vec::push(value)` of a value with drop glue, see `RVec.pushOwned`. -/
def pushOwnedP (P : VecPolicy) (Γ : TyEnv U) (t : TyId) (value : Bytes) : M (RVec × World U) Unit :=
  M.onUnwind (pushP P (Γ.layout t) value) (onWorld (worldUser (Γ.drop t value)))

/-- `Vec::extend_from_slice(slice)`, see `RVec.extendFromSlice`. -/
def extendFromSliceP (P : VecPolicy) (T : Layout) (n : Nat) (bs : Bytes) : M (RVec × World U) Unit := do
  reserveP P T n
  M.modify fun s => ({ s.1 with len := s.1.len + n, bytes := s.1.bytes ++ bs }, s.2)

/-- `Vec::clone_from(&src)`, see `RVec.cloneFrom`. -/
def cloneFromP (P : VecPolicy) (T : Layout) (src : RVec) : M (RVec × World U) Unit := do
  clear T
  extendFromSliceP P T src.len src.bytes

/-- `Vec::append(&mut other)`, see `RVec.append`. -/
def appendP (P : VecPolicy) (T : Layout) (other : RVec) : M (RVec × World U) RVec := do
  reserveP P T other.len
  M.modify fun s =>
    ({ s.1 with len := s.1.len + other.len, bytes := s.1.bytes ++ other.bytes }, s.2)
  pure { other with len := 0, bytes := [] }

end RVec

namespace VecVoid
variable {U V α : Type}

/-- `into_valid_vec` (src/vec_void.rs:103-114). -/
def intoValidVecP (P : VecPolicy) (T : Layout) : M (RVec × World U) Unit := do
  let v ← getSelf
  if v.cap = 0 then RVec.reserveP P T 1 else pure ()

/-- `VecVoid::from_vec::<T>` (src/vec_void.rs:121-129). -/
def fromVecP (P : VecPolicy) (Γ : TyEnv V) (t : TyId) (v : RVec) : M (World U) VecVoid := do
  let (_, v) ← withLocal v noDrop (intoValidVecP P (Γ.layout t))
  pure ⟨v.ptr, v.len, v.cap, ElemInfo.new Γ t, v.bytes⟩

/-- `apply_unchecked::<T>` (src/vec_void.rs:189-198). -/
def applyUncheckedP (P : VecPolicy) (Γ : TyEnv U) (cfg : Cfg) (t : TyId) (f : M (RVec × World U) α) :
    M (VecVoid × World U) α := do
  let self ← getSelf
  setSelf (default Γ)
  let v ← intoVecUnchecked cfg Γ t self
  let (out, v) ← onWorld (withLocal v (RVec.dropTyped Γ t) f)
  let new ← onWorld (fromVecP P Γ t v)
  setSelf new
  pure out

/-- `impl Clone for VecVoid` (src/vec_void.rs:27-56). -/
def cloneP (P : VecPolicy) (cfg : Cfg) (self : VecVoid) : M (World U) VecVoid :=
  evalAlign self.elem.alignment fun T => do
    let v ← alignedVec cfg T self
    let newV ← RVec.withCapacityP P T v.cap
    let (_, newV) ← withLocal newV (RVec.dropBuf T) (RVec.cloneFromP P T v)
    fromVecOverride T newV self.elem

/-- `VecVoid::reserve` (src/vec_void.rs:215-226). -/
def reserveP (P : VecPolicy) (Γ : TyEnv V) (cfg : Cfg) (additional : Nat) : M (VecVoid × World U) Unit := do
  let self ← getSelf
  evalAlign self.elem.alignment fun T =>
    let size := self.elem.size
    applyAligned Γ cfg T (do
      let n ← umul cfg additional size
      RVec.reserveP P T n)

/-- `VecVoid::append` (src/vec_void.rs:243-261). -/
def appendP (P : VecPolicy) (Γ : TyEnv V) (cfg : Cfg) : M (VecVoid × World (VecVoid × U)) Unit := do
  let self ← getSelf
  let (_, w) ← M.get
  let other := w.user.1
  M.assert (self.elem.type_id == other.elem.type_id)
  debugAssert cfg (self.elem.alignment == other.elem.alignment)
  debugAssert cfg (self.elem.size == other.elem.size)
  evalAlign self.elem.alignment fun T =>
    applyAligned Γ cfg T
      (swapRoles (applyAligned Γ cfg T
        (swapRoles (do
          let (_, w) ← M.get
          let source := w.user.1
          let source ← RVec.appendP P T source
          M.modify fun s => (s.1, ⟨s.2.heap, (source, s.2.user.2)⟩)))))

end VecVoid

namespace VecCopy
variable {U V α : Type}

/-- `from_vec` / `from_vec_non_copy` (src/vec_copy.rs:134-157). -/
def fromVecP (P : VecPolicy) (Γ : TyEnv U) (t : TyId) (vt : V) (vec : RVec) : M (World U) (VecCopy V) := do
  let _ ← withLocal vec (RVec.dropTyped Γ t) (M.assert (Γ.size t != 0))
  let data ← VecVoid.fromVecP P Γ t vec
  pure ⟨data, vt⟩

/-- `with_type` / `with_type_non_copy` (src/vec_copy.rs:68-84). -/
def withTypeP (P : VecPolicy) (Γ : TyEnv U) (t : TyId) (vt : V) : M (World U) (VecCopy V) :=
  fromVecP P Γ t vt (RVec.new (Γ.layout t))

/-- `with_capacity` / `with_capacity_non_copy` (src/vec_copy.rs:89-104). -/
def withCapacityP (P : VecPolicy) (Γ : TyEnv U) (t : TyId) (vt : V) (n : Nat) : M (World U) (VecCopy V) := do
  let vec ← RVec.withCapacityP P (Γ.layout t) n
  fromVecP P Γ t vt vec

/-- `with_size` (src/vec_copy.rs:116-121). -/
def withSizeP (P : VecPolicy) (Γ : TyEnv U) (t : TyId) (vt : V) (n : Nat) (x : Bytes) : M (World U) (VecCopy V) := do
  let vec ← RVec.withCapacityP P (Γ.layout t) n
  fromVecP P Γ t vt { vec with len := n, bytes := (List.replicate n x).flatten }

/-- `from_slice` (src/vec_copy.rs:161-168). -/
def fromSliceP (P : VecPolicy) (Γ : TyEnv U) (t : TyId) (vt : V) (s : List Bytes) : M (World U) (VecCopy V) := do
  let vec ← RVec.withCapacityP P (Γ.layout t) s.length
  let (_, vec) ← withLocal vec (RVec.dropTyped Γ t)
    (RVec.extendFromSliceP P (Γ.layout t) s.length s.flatten)
  fromVecP P Γ t vt vec

/-- `with_type_from` (src/vec_copy.rs:186-200). -/
def withTypeFromP (P : VecPolicy) (m : Meta V) : M (World U) (VecCopy V) := do
  let data ← evalAlign m.elem.alignment fun T => do
    let v ← RVec.withCapacityP P T m.elem.size
    VecVoid.fromVecOverride T v m.elem
  pure ⟨data, m.vtable⟩

/-- `derive(Clone)` on `VecCopy` (src/vec_copy.rs:52). -/
def cloneP (P : VecPolicy) (cfg : Cfg) (self : VecCopy V) : M (World U) (VecCopy V) := do
  let d ← self.data.cloneP P cfg
  pure ⟨d, self.vtable⟩

/-- `reserve` (src/vec_copy.rs:251-253). -/
def reserveP (P : VecPolicy) (Γ : TyEnv U) (cfg : Cfg) (n : Nat) : M (VecCopy V × World U) Unit :=
  onData (VecVoid.reserveP P Γ cfg n)

/-- `push_as` (src/vec_copy.rs:322-332). -/
def pushAsP (P : VecPolicy) (Γ : TyEnv U) (cfg : Cfg) (t : TyId) (x : Bytes) :
    M (VecCopy V × World U) (Option Unit) := do
  let self ← getSelf
  match self.checkRef t with
  | none => do
    onWorld (worldUser (Γ.drop t x))
    pure none
  | some _ => do
    onData (VecVoid.applyUncheckedP P Γ cfg t (RVec.pushOwnedP P Γ t x))
    pure (some ())

/-- `resize` (src/vec_copy.rs:263-275). -/
def resizeP (P : VecPolicy) (Γ : TyEnv U) (cfg : Cfg) (t : TyId) (newLen : Nat) (value : Bytes) :
    M (VecCopy V × World U) (Option Unit) := do
  let self ← getSelf
  match self.checkRef t with
  | none => pure none
  | some _ =>
    if self.len ≤ newLen then do
      let diff := newLen - self.len
      onData (VecVoid.reserveP P Γ cfg diff)
      M.repeatN diff (do let _ ← pushAsP P Γ cfg t value; pure ())
      pure (some ())
    else do
      onData (VecVoid.truncate Γ cfg newLen)
      pure (some ())

/-- `append` (src/vec_copy.rs:520-527). -/
def appendP (P : VecPolicy) (Γ : TyEnv U) (cfg : Cfg) : M (VecCopy V × World (VecCopy V × U)) (Option Unit) := do
  let self ← getSelf
  let (_, w) ← M.get
  let buf := w.user.1
  if buf.elementTypeId = self.elementTypeId then do
    M.zoom (fun s => (s.1.data, (⟨s.2.heap, (s.2.user.1.data, s.2.user.2)⟩ : World (VecVoid × U))))
      (fun t s => ({ s.1 with data := t.1 },
        ⟨t.2.heap, ({ s.2.user.1 with data := t.2.user.1 }, t.2.user.2)⟩))
      (VecVoid.appendP P Γ cfg)
    pure (some ())
  else pure none

end VecCopy

/-! ### With the current standard library's choices this is the model used everywhere else -/

section std
variable {U V α : Type}

theorem RVec.withCapacityP_std (T : Layout) (n : Nat) :
    RVec.withCapacityP (U := U) .std T n = RVec.withCapacity T n := rfl
theorem RVec.growP_std (T : Layout) (n : Nat) : RVec.growP (U := U) .std T n = RVec.grow T n := rfl
theorem RVec.reserveP_std (T : Layout) (n : Nat) : RVec.reserveP (U := U) .std T n = RVec.reserve T n := rfl
theorem RVec.pushP_std (T : Layout) (x : Bytes) : RVec.pushP (U := U) .std T x = RVec.push T x := rfl
theorem VecVoid.fromVecP_std (Γ : TyEnv V) (t : TyId) (v : RVec) :
    VecVoid.fromVecP (U := U) .std Γ t v = VecVoid.fromVec Γ t v := rfl
theorem VecVoid.cloneP_std (cfg : Cfg) (v : VecVoid) :
    VecVoid.cloneP (U := U) .std cfg v = VecVoid.clone cfg v := rfl
theorem VecVoid.reserveP_std (Γ : TyEnv V) (cfg : Cfg) (n : Nat) :
    VecVoid.reserveP (U := U) .std Γ cfg n = VecVoid.reserve Γ cfg n := rfl
theorem VecVoid.appendP_std (Γ : TyEnv V) (cfg : Cfg) :
    VecVoid.appendP (U := U) .std Γ cfg = VecVoid.append Γ cfg := rfl

theorem VecCopy.resizeP_std (Γ : TyEnv U) (cfg : Cfg) (t : TyId) (n : Nat) (x : Bytes) :
    VecCopy.resizeP (V := V) .std Γ cfg t n x = VecCopy.resize Γ cfg t n x := rfl
theorem VecCopy.pushAsP_std (Γ : TyEnv U) (cfg : Cfg) (t : TyId) (x : Bytes) :
    VecCopy.pushAsP (V := V) .std Γ cfg t x = VecCopy.pushAs Γ cfg t x := rfl
theorem VecCopy.appendP_std (Γ : TyEnv U) (cfg : Cfg) :
    VecCopy.appendP (V := V) .std Γ cfg = VecCopy.append Γ cfg := rfl
theorem VecCopy.reserveP_std (Γ : TyEnv U) (cfg : Cfg) (n : Nat) :
    VecCopy.reserveP (V := V) .std Γ cfg n = VecCopy.reserve Γ cfg n := rfl
theorem VecCopy.cloneP_std (cfg : Cfg) (c : VecCopy V) :
    VecCopy.cloneP (U := U) .std cfg c = VecCopy.clone cfg c := rfl
theorem VecCopy.withTypeFromP_std (m : Meta V) :
    VecCopy.withTypeFromP (U := U) .std m = VecCopy.withTypeFrom m := rfl
theorem VecCopy.fromSliceP_std (Γ : TyEnv U) (t : TyId) (vt : V) (xs : List Bytes) :
    VecCopy.fromSliceP .std Γ t vt xs = VecCopy.fromSlice Γ t vt xs := rfl
theorem VecCopy.withCapacityP_std (Γ : TyEnv U) (t : TyId) (vt : V) (n : Nat) :
    VecCopy.withCapacityP .std Γ t vt n = VecCopy.withCapacity Γ t vt n := rfl
theorem VecCopy.withSizeP_std (Γ : TyEnv U) (t : TyId) (vt : V) (n : Nat) (x : Bytes) :
    VecCopy.withSizeP .std Γ t vt n x = VecCopy.withSize Γ t vt n x := rfl

end std

end Dync
