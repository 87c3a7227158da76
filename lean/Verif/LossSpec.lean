import Verif.DynMachine
/-!
# Specification: which calls lose the content of a container

Calls move the buffer out of a container while they work on it. If they panic then, what is left is an empty container of `()`.
-/
namespace Dync
variable {U V : Type}

/-- A container with `len` elements of type `t` and room for `cap` cannot take `n` more: the buffer would be larger than the largest
allocation. -/
def TooLarge (Γ : TyEnv U) (t : TyId) (cap len n : Nat) : Prop :=
  cap < len + n ∧ isizeMax < max (2 * cap) (len + n) * Γ.size t + (Γ.align t - 1)

/-- It cannot take `n` more elements, or the larger buffer does not consist of whole elements. -/
def NoGrowth (Γ : TyEnv U) (t : TyId) (cap len n : Nat) : Prop := TooLarge Γ t cap len n ∨ BadGrowth Γ t cap (len + n)

/-- The calls that lose the content of the container in variable `k`, if the variables are `var`. -/
inductive Loses (Γ : TyEnv U) (var : Nat → Option XVec) (k : Nat) : Op → Prop
  | reserve (t : TyId) (es : List Bytes) (cap n : Nat) : var k = some (.vec t es cap) → NoGrowth Γ t cap es.length n → Loses Γ var k (.reserve k n)
  | resize (t : TyId) (es : List Bytes) (cap n : Nat) (x : Bytes) : var k = some (.vec t es cap) → es.length ≤ n →
      NoGrowth Γ t cap es.length (n - es.length) → Loses Γ var k (.resize k t n x)
  | pushAs (t : TyId) (es : List Bytes) (cap : Nat) (x : Bytes) : var k = some (.vec t es cap) → TooLarge Γ t cap es.length 1 →
      Loses Γ var k (.pushAs k t x)
  /-- untyped values whose size is not their alignment cannot be pushed -/
  | push (t : TyId) (es : List Bytes) (cap : Nat) (x : Bytes) : var k = some (.vec t es cap) →
      Γ.size t ≠ Γ.align t ∨ TooLarge Γ t cap es.length 1 → Loses Γ var k (.push k t x)
  | append (t : TyId) (es es' : List Bytes) (cap cap' j : Nat) : k ≠ j → var k = some (.vec t es cap) → var j = some (.vec t es' cap') →
      NoGrowth Γ t cap es.length es'.length → Loses Γ var k (.append k j)
  /-- the container that is appended is lost with the one it is appended to -/
  | appended (t : TyId) (es es' : List Bytes) (cap cap' j : Nat) : k ≠ j → var k = some (.vec t es cap) → var j = some (.vec t es' cap') →
      TooLarge Γ t cap' es'.length es.length → Loses Γ var k (.append j k)
  /-- rotation by more than the length -/
  | rotateLeft (t : TyId) (es : List Bytes) (cap n : Nat) : var k = some (.vec t es cap) → Γ.align t ≤ 8192 → es.length < n →
      Loses Γ var k (.rotateLeft k n)
  | rotateRight (t : TyId) (es : List Bytes) (cap n : Nat) : var k = some (.vec t es cap) → Γ.align t ≤ 8192 → es.length < n →
      Loses Γ var k (.rotateRight k n)

/-- The call that panics after it has emptied the container in variable `k`: that container is appended to one whose larger buffer does
not consist of whole elements. -/
inductive Empties (Γ : TyEnv U) (var : Nat → Option XVec) (k : Nat) : Op → Prop
  | append (t : TyId) (es es' : List Bytes) (cap cap' j : Nat) : k ≠ j → var k = some (.vec t es cap) → var j = some (.vec t es' cap') →
      BadGrowth Γ t cap' (es'.length + es.length) → Empties Γ var k (.append j k)

/-! ### `VecDyn` -/

/-- The calls that lose the content of the `VecDyn` in variable `k`, if the variables are `vars` and the user code is in the state `u`. -/
inductive DLoses (Γ : TyEnv U) (cfg : Cfg) (vars : YVars) (u : U) (k : Nat) : DOp → Prop
  | pushAs (b t : TyId) (es : List Bytes) (cap : Nat) (x : Bytes) : vars k = some (.vec b (.vec t es cap)) →
      TooLarge Γ t cap es.length 1 → DLoses Γ cfg vars u k (.pushAs k t x)
  /-- there is no room, or the clone panics -/
  | pushCloned (b : TyId) (es : List Bytes) (cap j i : Nat) (a : YItem) (p : Place) : k ≠ j →
      vars k = some (.vec b (.vec p.ty es cap)) → vars j = some a → a.at Γ cfg i = some p →
      NoGrowth Γ p.ty cap es.length 1 ∨ (∃ y, (Γ.clone p.ty p.bytes u).1 = .panic y) → DLoses Γ cfg vars u k (.pushCloned k j i)
  | pushBox (b t : TyId) (es : List Bytes) (cap j : Nat) (x : Bytes) : vars k = some (.vec b (.vec t es cap)) → vars j = some (.box t x) →
      Γ.size t ≠ Γ.align t ∨ TooLarge Γ t cap es.length 1 → DLoses Γ cfg vars u k (.pushBox k j)
  | resize (b t : TyId) (es : List Bytes) (cap n : Nat) (x : Bytes) : vars k = some (.vec b (.vec t es cap)) → es.length ≤ n →
      NoGrowth Γ t cap es.length (n - es.length) → DLoses Γ cfg vars u k (.resize k t n x)
  | append (b b' t : TyId) (es es' : List Bytes) (cap cap' j : Nat) : k ≠ j → vars k = some (.vec b (.vec t es cap)) →
      vars j = some (.vec b' (.vec t es' cap')) → NoGrowth Γ t cap es.length es'.length → DLoses Γ cfg vars u k (.append k j)
  | appended (b b' t : TyId) (es es' : List Bytes) (cap cap' j : Nat) : k ≠ j → vars k = some (.vec b (.vec t es cap)) →
      vars j = some (.vec b' (.vec t es' cap')) → TooLarge Γ t cap' es'.length es.length → DLoses Γ cfg vars u k (.append j k)
  | rotateLeft (b t : TyId) (es : List Bytes) (cap n : Nat) : vars k = some (.vec b (.vec t es cap)) → Γ.align t ≤ 8192 → es.length < n →
      DLoses Γ cfg vars u k (.rotateLeft k n)
  | rotateRight (b t : TyId) (es : List Bytes) (cap n : Nat) : vars k = some (.vec b (.vec t es cap)) → Γ.align t ≤ 8192 → es.length < n →
      DLoses Γ cfg vars u k (.rotateRight k n)

/-- The call that panics after it has emptied the `VecDyn` in variable `k`. -/
inductive DEmpties (Γ : TyEnv U) (vars : YVars) (k : Nat) : DOp → Prop
  | append (b b' t : TyId) (es es' : List Bytes) (cap cap' j : Nat) : k ≠ j → vars k = some (.vec b (.vec t es cap)) →
      vars j = some (.vec b' (.vec t es' cap')) → BadGrowth Γ t cap' (es'.length + es.length) → DEmpties Γ vars k (.append j k)

/-- No product of a number of elements and their size wraps around. -/
def DOp.Countable (Γ : TyEnv U) (cfg : Cfg) (vars : YVars) : DOp → Prop
  | .rotateLeft k n | .rotateRight k n | .resize k _ n _ =>
    ∀ b t es cap, vars k = some (.vec b (.vec t es cap)) → NoWrap cfg (n * Γ.size t)
  | _ => True

/-! ### `VecCopy`: numbers -/

/-- No product of a number of elements and their size wraps around: it fits into `usize`, or the build checks it. -/
def Op.Countable (Γ : TyEnv U) (cfg : Cfg) (var : Nat → Option XVec) : Op → Prop
  | .reserve k n | .rotateLeft k n | .rotateRight k n | .resize k _ n _ =>
    ∀ t es cap, var k = some (.vec t es cap) → NoWrap cfg (n * Γ.size t)
  | _ => True

end Dync
