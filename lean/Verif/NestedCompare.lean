import Verif.Nested
import Verif.Compare
/-!
# Comparing, hashing and printing containers of containers

`PartialEq`, `Hash` and `Debug` of a `VecDyn` (src/vec_dyn.rs:124-144) are user code from the point of view of the container
around it. They are given here for the containers of `Verif/Nested.lean`, level by level.
-/
namespace Dync
variable {U H F : Type}

namespace Nest

/-- The user code of the level below has run. -/
def setUser {W : Type} (s : Nest W) (u : W) : Nest W := ⟨s.pool, ⟨s.world.heap, u⟩⟩

end Nest

/-- The container `c` with the table `v`. `Nested.lean` has containers whose table has entries for `Drop` and `Clone`; the
table of a container that can be compared, hashed or printed has further entries, which `with_type::<T>` builds for the
same `T` (src/vec_dyn.rs:152-160). They are added here when they are used. -/
def VecDyn.withTable {V V' : Type} (c : VecDyn V) (v : V') : VecDyn V' := ⟨c.data, v⟩

/-- `impl PartialEq for VecDyn` (src/vec_dyn.rs:124-130), `impl Hash for VecDyn` (134-138) and `impl Debug for VecDyn`
(140-144), for containers in the pool with elements of type `t` whose own code is `Φ`. An image of no container is no
value. -/
def UserFns.nest {W : Type} (K : Formatting F) (Γ : TyEnv W) (Φ : UserFns W H F) (t : TyId) : UserFns (Nest W) H F where
  eq _ a b := ⟨fun s =>
    match s.pool a, s.pool b with
    | some c, some d =>
      let q := VecDyn.eqFx (c.withTable (EqTableFx.build Γ Φ t)) (d.withTable (EqTableFx.build Γ Φ t)) s.world.user
      (q.1, s.setUser q.2)
    | _, _ => (.ub, s)⟩
  hash _ a := ⟨fun s =>
    match s.2.pool a with
    | some c =>
      let q := VecDyn.hashFx (c.withTable (HashTableFx.build Γ Φ t)) (s.1, s.2.world.user)
      (q.1, (q.2.1, s.2.setUser q.2.2))
    | none => (.ub, s)⟩
  fmt _ a := ⟨fun s =>
    match s.2.pool a with
    | some c =>
      let q := VecDyn.fmtFx K (c.withTable (FmtTableFx.build Γ Φ t)) (s.1, s.2.world.user)
      (q.1, (q.2.1, s.2.setUser q.2.2))
    | none => (.ub, s)⟩

/-- `PartialEq`, `Hash` and `Debug` of the values at depth `n`: the user's at depth 0, those of `src/vec_dyn.rs:124-144`
above. -/
def UserFns.depth (K : Formatting F) (Γ : TyEnv U) (N : Nesting U) (Φ : UserFns U H F) (t : TyId) : (n : Nat) → UserFns (Depth U n) H F
  | 0 => Φ
  | n + 1 => UserFns.nest K (Γ.depth N n) (UserFns.depth K Γ N Φ t n) (depthTy t n)

/-- The user's own code has run. -/
def Depth.setBase : {n : Nat} → Depth U n → U → Depth U n
  | 0, _, u => u
  | _ + 1, s, u => Nest.setUser s (Depth.setBase (Nest.world s).user u)

/-! ### Specification: nested lists -/

/-- Compare two lists element by element up to the end of the shorter one, until a comparison is not `true`. -/
def allPairs {A S : Type} (f : A → A → M S Bool) : List A → List A → M S Bool
  | x :: xs, y :: ys => do if ← f x y then allPairs f xs ys else pure false
  | _, _ => pure true

/-- Comparing nested lists. -/
def eqTree (Φ : UserFns U H F) (t : TyId) : (n : Nat) → Tree n → Tree n → M U Bool
  | 0, x, y => Φ.eq t x y
  | n + 1, xs, ys => allPairs (A := Tree n) (eqTree Φ t n) xs ys

/-- The values in a nested list, from left to right. -/
def leaves : (n : Nat) → Tree n → List Bytes
  | 0, x => [x]
  | n + 1, ts => (show List (Tree n) from ts).flatMap (leaves n)

/-- Printing nested lists, each of them as `std` prints a list. -/
def fmtTree (K : Formatting F) (Φ : UserFns U H F) (t : TyId) : (n : Nat) → Tree n → M (F × U) FmtRes
  | 0, x => Φ.fmt t x
  | n + 1, ts => debugListFx K ((show List (Tree n) from ts).map (fmtTree K Φ t n))

end Dync
