import Verif.Props.Derive
import Verif.Props.VecDyn
/-!
# C35, C37: changing the virtual table of a container
-/
namespace Dync
open Derive
variable {U V W : Type} {Γ : TyEnv U} {cfg : Cfg} {t : TyId} {es : List Bytes} {h : Heap}

/-- **C35**: upcasting a container keeps its elements, element type, length, capacity and buffer. -/
theorem C35_veccopy_upcast {c : VecCopy V} (R : Repr Γ h t es c.data) (f : V → W) :
    Repr Γ h t es (c.upcast f).data ∧ (c.upcast f).vtable = f c.vtable ∧ (c.upcast f).elementTypeId = t ∧
      (c.upcast f).len = es.length ∧ (c.upcast f).capacity = c.capacity ∧ (c.upcast f).data.ptr = c.data.ptr :=
  ⟨R, rfl, R.type_id, R.len, rfl, rfl⟩

/-- **C35**: upcasting a slice keeps its elements. -/
theorem C35_slice_upcast {s : SliceCopy V} (R : SRepr Γ t es s) (f : V → W) :
    SRepr Γ t es (s.upcast f) ∧ (s.upcast f).vtable = f s.vtable :=
  ⟨⟨R.data, R.each, R.elem, R.pos, R.bound⟩, rfl⟩

/-- **C35**: if both tables are tables of the element type, dropping the upcast container does exactly
what dropping the original would do, for any behaviour of the destructors. -/
theorem C35_vecdyn_upcast_drop [HasDrop U V] [HasDrop U W] {c : VecDyn V} {w : World U} (R : Repr Γ w.heap t es c.data)
    {f : V → W} (hl : LawfulDrop Γ t c.vtable) (hl' : LawfulDrop Γ t (f c.vtable)) :
    VecDyn.drop cfg (VecCopy.upcast f c) w = VecDyn.drop cfg c w := by
  unfold VecDyn.drop
  show (c.data.byteChunks >>= _).run w = (c.data.byteChunks >>= _).run w
  rw [M.bind_ok (VecCopy.byteChunks_ok R w), M.bind_ok (VecCopy.byteChunks_ok R w)]
  have : ∀ b ∈ es, (worldUser (HasDrop.dropFn (VecCopy.upcast f c).vtable b) : M (World U) Unit) =
      worldUser (HasDrop.dropFn c.vtable b) := by
    intro b hb
    have e1 := hl b (R.each b hb)
    have e2 := hl' b (R.each b hb)
    show worldUser (HasDrop.dropFn (f c.vtable) b) = _
    rw [e1, e2]
  rw [forEach_congr this]
  rfl

/-- **C35**: upcasting and iterating gives the same values with the new table. -/
theorem C35_veccopy_upcast_iter {σ : Type} {c : VecCopy V} (R : Repr Γ h t es c.data) (f : V → W) (s : σ) :
    (c.upcast f).iter s = (.ok (es.map fun e => ⟨e, t, Γ.align t, f c.vtable⟩), s) := by
  have := VecCopy.iter_ok (c := c.upcast f) R s
  rw [this]
  rfl

example := C35_veccopy_upcast Ex.c123_repr (fun _ => 7)
example := C35_veccopy_upcast_iter Ex.c123_repr (fun _ => 7) ()
example := C35_slice_upcast (Γ := Ex.env) (t := 2) (es := [Ex.a1, Ex.a2]) (s := SliceCopy.fromSlice Ex.env 2 () [Ex.a1, Ex.a2])
  ⟨rfl, by decide, rfl, by decide, by decide⟩ (fun _ => 7)

/-! ### Meaning of the generated tables -/

/-- The functions that can be put into a table. -/
inductive Fn (U : Type) where
  | drop (f : DropFn U) | clone (f : CloneFn U) | cloneFrom (f : CloneFromFn U) | cloneIntoRaw (f : CloneIntoRawFn U)
  | eq (f : EqFn) | hash (f : HashFn) | fmt (f : FmtFn)

/-- What `<T as dync::traits::XBytes>::x_bytes` denotes for `T = t` (src/traits.rs:49-103). -/
def denote (Γ : TyEnv U) (t : TyId) (b : BytesFn) : Option (Fn U) :=
  if b = ⟨⟨true, "DropBytes"⟩, "drop_bytes"⟩ then some (.drop (dropBytes Γ t))
  else if b = ⟨⟨true, "CloneBytes"⟩, "clone_bytes"⟩ then some (.clone (cloneBytes Γ t))
  else if b = ⟨⟨true, "CloneBytes"⟩, "clone_from_bytes"⟩ then some (.cloneFrom (cloneFromBytes Γ t))
  else if b = ⟨⟨true, "CloneBytes"⟩, "clone_into_raw_bytes"⟩ then some (.cloneIntoRaw (cloneIntoRawBytes Γ t))
  else if b = ⟨⟨true, "PartialEqBytes"⟩, "eq_bytes"⟩ then some (.eq (eqBytes Γ t))
  else if b = ⟨⟨true, "HashBytes"⟩, "hash_bytes"⟩ then some (.hash (hashBytes Γ t))
  else if b = ⟨⟨true, "DebugBytes"⟩, "fmt_bytes"⟩ then some (.fmt (fmtBytes Γ t))
  else none

/-- The fields, in order, of the table `build_vtable::<t>()` of a std trait. -/
def stdBuild (Γ : TyEnv U) (t : TyId) : Trait → Option (List (Fn U))
  | .drop => let v := DropVTable.build Γ t; some [.drop v.drop]
  | .clone => let v := CloneVTable.build Γ t; some [.drop v.drop, .clone v.clone, .cloneFrom v.cloneFrom, .cloneIntoRaw v.cloneIntoRaw]
  | .partialEq => let v := PartialEqVTable.build Γ t; some [.drop v.drop, .eq v.eq]
  | .eq => let v := EqVTable.build Γ t; some [.drop v.drop, .eq v.eq]
  | .hash => let v := HashVTable.build Γ t; some [.drop v.drop, .hash v.hash]
  | .debug => let v := DebugVTable.build Γ t; some [.drop v.drop, .fmt v.fmt]
  | .send => let v := SendVTable.build Γ t; some [.drop v.drop]
  | .sync => let v := SyncVTable.build Γ t; some [.drop v.drop]
  | .custom _ => none

theorem builtinTable_denote (Γ : TyEnv U) (t : TyId) (k : Trait) :
    (builtinTable k).bind (fun l => l.mapM (denote Γ t)) = stdBuild Γ t k := by
  cases k <;> simp [builtinTable, stdBuild, denote, DropVTable.build, CloneVTable.build, PartialEqVTable.build,
    EqVTable.build, HashVTable.build, DebugVTable.build, SendVTable.build, SyncVTable.build]

/-- **C37**, in terms of functions: for every element type, the conversion generated for a trait of a
module into the table of a std trait it inherits from yields exactly the table `build_vtable` of that
std trait would have built for the element type. -/
theorem C37_upcast_to_std {items : List ItemTrait} (hg : GoodMod items) :
    ∃ N F, (∀ n ≥ N, dyncMod n items = some (items.map F)) ∧ ∀ it ∈ items, ∀ k, (∀ s, k ≠ .custom s) →
      InheritsMod items it k → ∃ c ∈ (F it).convs, c.dst = ⟨true, stdTable k⟩ ∧
        ∀ (U : Type) (Γ : TyEnv U) (t : TyId), ((F it).convert c (F it).build).bind (fun l => l.mapM (denote Γ t)) = stdBuild Γ t k := by
  obtain ⟨N, F, hn, hF⟩ := C37_dync_mod hg
  refine ⟨N, F, hn, fun it hit k hk hi => ?_⟩
  obtain ⟨c, hc, hd, hconv⟩ := (hF it hit).1 k hk hi
  refine ⟨c, hc, hd, fun U Γ t => ?_⟩
  rw [hconv]
  exact builtinTable_denote Γ t k

example := C37_upcast_to_std Ex.goodMod

end Dync
