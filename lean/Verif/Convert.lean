import Verif.VecVoidLemmas4
import Verif.VecDyn
/-!
# Conversions: `Clone::clone_from` of raw parts, dynamic tables, table references, `Meta`

* `VecVoid::clone_from` (src/vec_void.rs:58-73).
* The `into_dyn!`/`from_dyn!` macros (src/lib.rs:66-185): which invocations expand, and what the
  expanded functions do.
* `VTableRef` (src/vtable.rs:38-97) with its two variants kept apart.
* `Meta` conversions (src/meta.rs:24-116) from every kind of view.
-/
namespace Dync
variable {U V α : Type}

/-- `VecVoid::clone_from` (src/vec_void.rs:58-73). The alias of `source` is a `ManuallyDrop`. The
element information of `source` is not looked at (except for its chunk count), and `self` keeps its
own. -/
def VecVoid.cloneFrom (Γ : TyEnv V) (cfg : Cfg) (source : VecVoid) : M (VecVoid × World U) Unit := do
  let self ← getSelf
  evalAlign self.elem.alignment fun T => do
    let src ← VecVoid.alignedVec cfg T source
    VecVoid.applyAligned Γ cfg T (RVec.cloneFrom T src)

/-! ### Dynamic tables -/

/-- `Box<dyn Trait>` / `&dyn Trait` (src/lib.rs:69-185) where the trait is `Downcast`: the concrete table type `k` and a
table of that type. `VT k` are the tables of type `k`. -/
abbrev DynTable (VT : TyId → Type) := (k : TyId) × VT k

namespace Convert
variable {VT : TyId → Type}

/-- The function made by `into_dyn![VecDyn<dyn Trait>]` and `into_dyn![VecCopy<dyn Trait>]`
(src/lib.rs:148-160): `into_raw_parts`, unsize the table, `from_raw_parts`. -/
def vecIntoDyn {k : TyId} (vec : VecCopy (VT k)) : VecCopy (DynTable VT) :=
  let (data, vtable) := vec.intoRawParts
  VecCopy.fromRawParts data ⟨k, vtable⟩

/-- The function made by `into_dyn![Slice<dyn Trait>]` and its siblings (src/lib.rs:161-184). -/
def sliceIntoDyn {k : TyId} (s : SliceCopy (VT k)) : SliceCopy (DynTable VT) :=
  let (data, elem, vtable) := (s.data, s.elem, s.vtable)
  ⟨data, elem, ⟨k, vtable⟩⟩

/-- `Box<dyn Trait>::downcast::<V>()` of the crate `downcast-rs`, as called in src/lib.rs:69-123. -/
def downcastTable (k : TyId) (d : DynTable VT) : Option (VT k) :=
  if h : d.1 = k then some (h ▸ d.2) else none

/-- The function made by `from_dyn![VecDyn<dyn Trait as V>]` and `from_dyn![VecCopy<dyn Trait as V>]`
(src/lib.rs:88-100): if the table is of another type, `unwrap` panics and the local `data` (a
`VecVoid`, whose drop frees the buffer but runs no destructor) is dropped while unwinding. -/
def vecFromDyn (cfg : Cfg) (k : TyId) (vec : VecCopy (DynTable VT)) : M (World U) (VecCopy (VT k)) := do
  let (data, vtable) := vec.intoRawParts
  match downcastTable k vtable with
  | some updated => pure (VecCopy.fromRawParts data updated)
  | none => do
    M.unwindDrop (data.drop cfg)
    M.panic .unwrapNone

end Convert

/-! ### Table references -/

/-- `VTableRef<'a, V>` (src/vtable.rs:38-46). -/
inductive TableRef (V : Type) where
  | ref (v : V)
  | box (v : V)
deriving DecidableEq

namespace TableRef

/-- `take` (src/vtable.rs:50-56). `cl` is `V::clone`. -/
def take (cl : V → V) : TableRef V → V
  | ref v => cl v
  | box v => v

/-- `into_owned` (src/vtable.rs:58-65). -/
def intoOwned (cl : V → V) : TableRef V → V
  | ref v => cl v
  | box v => v

/-- `AsRef::as_ref` (src/vtable.rs:96-103), `Deref::deref` (69-74). -/
def asRef : TableRef V → V
  | ref v => v
  | box v => v

/-- `derive(Clone)` (src/vtable.rs:37): a reference is copied, a box is cloned. -/
def clone (cl : V → V) : TableRef V → TableRef V
  | ref v => ref v
  | box v => box (cl v)

/-- `derive(PartialEq)` (src/vtable.rs:37): the variants are compared first. -/
def eq (beq : V → V → Bool) : TableRef V → TableRef V → Bool
  | ref a, ref b => beq a b
  | box a, box b => beq a b
  | _, _ => false

/-- `From<&V>` (src/vtable.rs:76-81). -/
def ofRef (v : V) : TableRef V := ref v
/-- `From<Box<V>>` (src/vtable.rs:83-88). -/
def ofBox (v : V) : TableRef V := box v

end TableRef

/-! ### `Meta` of a view -/

/-- `Meta::from` of a slice (src/meta.rs:68-104: `SliceCopy`, `SliceCopyMut`, `Slice`, `SliceMut`). -/
def SliceCopy.toMeta (s : SliceCopy V) : Meta V := ⟨s.elem, s.vtable⟩

/-- `Meta::from` of a value reference (src/meta.rs:24-66). -/
def CopyValue.toMeta (v : CopyValue V) : Meta V := Meta.ofValue v.bytes v.type_id v.alignment v.vtable

end Dync
