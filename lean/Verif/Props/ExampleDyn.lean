import Verif.Props.Example
import Verif.DynLemmas
/-!
# Concrete values with destructors, for the examples and counterexamples
-/
namespace Dync.Ex
open Dync

/-- Two `String`-like values (type 10, 24 bytes). -/
def s1 : Bytes := some 1 :: List.replicate 23 (some 0)
def s2 : Bytes := some 2 :: List.replicate 23 (some 0)
/-- Values of type 7 (8 bytes): an ordinary one, one whose destructor panics, one whose `clone` panics. -/
def g1 : Bytes := some 1 :: List.replicate 7 (some 0)
def g2 : Bytes := some 2 :: List.replicate 7 (some 0)
def badDrop : Bytes := some 255 :: List.replicate 7 (some 0)
def badClone : Bytes := some 254 :: List.replicate 7 (some 0)

/-- A boxed value of type `t` living in block 0. -/
def box {V : Type} (t : TyId) (x : Bytes) (vt : V) : BoxValue V := ⟨⟨some 0, x⟩, t, align t, vt⟩
/-- The world with that block. -/
def boxWorld (t : TyId) : World Log := ⟨oneHeap ⟨size t, align t⟩, []⟩

theorem box_isBox {V : Type} {t : TyId} {x : Bytes} {vt : V} (hx : x.length = size t) (hp : 0 < size t) :
    IsBox env (boxWorld t).heap t x (box t x vt) :=
  ⟨rfl, rfl, rfl, hx, .inr ⟨hp, 0, rfl, rfl⟩⟩

theorem boxWorld_wf (t : TyId) : (boxWorld t).heap.WF := oneHeap_wf _

/-- An inline value. -/
def small {V : Type} (t : TyId) (x : Bytes) (vt : V) : SmallValue V := ⟨⟨x⟩, t, align t, vt⟩

theorem small_isSmall {V : Type} {t : TyId} {x : Bytes} {vt : V} (hx : x.length = size t) (h8 : size t = 8) :
    IsSmall env t x (small t x vt) := ⟨rfl, rfl, rfl, hx, h8⟩

/-- A reference to a value. -/
def ref {V : Type} (t : TyId) (x : Bytes) (vt : V) : ValueRef V := ⟨x, t, align t, vt⟩

theorem ref_isRef {V : Type} {t : TyId} {x : Bytes} {vt : V} (hx : x.length = size t) :
    IsRef env t x (ref t x vt) := ⟨rfl, rfl, rfl, hx⟩

/-- The tables built for type `t`. -/
abbrev cloneVT (t : TyId) : CloneVTable Log := CloneVTable.build env t
abbrev eqVT (t : TyId) : PartialEqVTable Log := PartialEqVTable.build env t
abbrev hashVT (t : TyId) : HashVTable Log := HashVTable.build env t
abbrev dropVT (t : TyId) : DropVTable Log := DropVTable.build env t

theorem cloneVT_drop (t : TyId) : LawfulDrop env t (cloneVT t) := lawfulDrop_of rfl
theorem cloneVT_clone (t : TyId) : LawfulClone env t (cloneVT t) := lawfulClone_of rfl rfl rfl
theorem eqVT_eq (t : TyId) : LawfulEq env t (eqVT t) := lawfulEq_of rfl
theorem eqVT_drop (t : TyId) : LawfulDrop env t (eqVT t) := lawfulDrop_of rfl
theorem hashVT_hash (t : TyId) : LawfulHash env t (hashVT t) := lawfulHash_of rfl
theorem dropVT_drop (t : TyId) : LawfulDrop env t (dropVT t) := lawfulDrop_of rfl

/-- The environment with a type 2 whose `==` is never true (like `f32` on NaN). -/
def nanEnv : TyEnv Log := { env with eq := fun _ _ _ => false }

/-- A table with equality and hashing (as the derive macro would generate it). -/
structure EqHashVT where
  eq : EqFn
  hash : HashFn
instance : HasPartialEq EqHashVT := ⟨EqHashVT.eq⟩
instance : HasHash EqHashVT := ⟨EqHashVT.hash⟩
def eqHashVT (t : TyId) : EqHashVT := ⟨eqBytes env t, hashBytes env t⟩
theorem eqHashVT_eq (t : TyId) : LawfulEq env t (eqHashVT t) := lawfulEq_of rfl
theorem eqHashVT_hash (t : TyId) : LawfulHash env t (eqHashVT t) := lawfulHash_of rfl

end Dync.Ex
