import Verif.HeldDyn
import Verif.HeldViewsSpec
import Verif.ViewDynSpec
/-!
# Specification: several mutable views of non-`Copy` elements at once are separate lists

As `HeldViewsSpec`: every view a program holds is a list of its own. Besides the lists there is what is outside of them: the
state of user code, which sees every destructor and every call of `Clone`, and the number of leaked blocks.
-/
namespace Dync
variable {U V α : Type}

/-- The parts of a list, what is before them and what is behind them; `none` if there is a panic instead. -/
def Cut.plain (es : List Bytes) : Cut → Option (List Bytes × List (List Bytes) × List Bytes)
  | split mid => if mid ≤ es.length then some ([], [es.take mid, es.drop mid], []) else none
  | chunks k => if k = 0 then none else some ([], pieces k es, es.drop (es.length / k * k))
  | values => some ([], es.map fun e => [e], [])
  | sub r =>
    if r.lo ≤ r.hi es.length ∧ r.hi es.length ≤ es.length then
      some (es.take r.lo, [(es.take (r.hi es.length)).drop r.lo], es.drop (r.hi es.length))
    else none

/-- The lengths of the parts of a list of length `m`. -/
def Cut.sizes (m : Nat) : Cut → Option (List Nat)
  | split mid => if mid ≤ m then some [mid, m - mid] else none
  | chunks k => if k = 0 then none else some (List.replicate (m / k) k)
  | values => some (List.replicate m 1)
  | sub r => if r.lo ≤ r.hi m ∧ r.hi m ≤ m then some [r.hi m - r.lo] else none

/-- Run `b` on list `i`. -/
def atList (i : Nat) (t : TyId) (es : List Bytes) (b : M (List Bytes × Outside U) α) : M (Lists × Outside U) α := ⟨fun s =>
  let out := b (es, s.2)
  (out.1, (Slots.put s.1 i (some (t, out.2.1)), out.2.2))⟩

/-- Run `q` with the lists `parts` in new variables; afterwards variable `i` has the elements of the parts, with `pre` before
and `post` behind them. -/
def withParts (n i : Nat) (t : TyId) (pre : List Bytes) (parts : List (List Bytes)) (post : List Bytes)
    (q : M (Lists × Outside U) α) : M (Lists × Outside U) α := ⟨fun s =>
  let out := q (opened s.1 n i (parts.map fun es => (t, es)), s.2)
  (out.1, (fun k => if k = i then some (t, pre ++ gather out.2.1 n parts.length ++ post) else if k < n then out.2.1 k else none,
    out.2.2))⟩

/-- What a program does with separate lists. -/
def KProg.plain (Γ : TyEnv U) : KProg U → Nat → M (Lists × Outside U) (List Read)
  | skip, _ => pure []
  | seq p q, n => do
    let a ← p.plain Γ n
    let b ← q.plain Γ n
    pure (a ++ b)
  | on i p, _ => ⟨fun s =>
    match s.1 i with
    | none => (.ok [], s)
    | some (t, es) => atList i t es (p.plain Γ t) s⟩
  | swapValues i a j b, _ => ⟨fun s =>
    if i = j then (.ok [], s) else
    match s.1 i, s.1 j with
    | some (t, es), some (t', fs) =>
      if h : a < es.length ∧ b < fs.length then
        (.ok [], (if t = t' then Slots.put (Slots.put s.1 i (some (t, es.set a fs[b]))) j (some (t', fs.set b es[a])) else s.1, s.2))
      else (.panic .index, s)
    | _, _ => (.ok [], s)⟩
  | cloneValue i a j b, _ => ⟨fun s =>
    if i = j then (.ok [], s) else
    match s.1 i, s.1 j with
    | some (t, es), some (t', fs) =>
      if h : b < fs.length then atList i t es ((VProg.cloneFrom a t' fs[b]).plain Γ t) s else (.panic .index, s)
    | _, _ => (.ok [], s)⟩
  | cloneSlice i j t', _ => ⟨fun s =>
    if i = j then (.ok [], s) else
    match s.1 i, s.1 j with
    | some (t, es), some (u, fs) =>
      if t' = u then atList i t es ((VProg.cloneFromSlice t' fs).plain Γ t) s else (.ok [], s)
    | _, _ => (.ok [], s)⟩
  | cut i c q, n => ⟨fun s =>
    match s.1 i with
    | none => (.ok [], s)
    | some (t, es) =>
      match c.plain es with
      | none => (.panic .index, s)
      | some (pre, parts, post) => withParts n i t pre parts post (q.plain Γ (n + parts.length)) s⟩

/-- What the program supplies as values of a type has the size of that type. -/
def KProg.Sized (Γ : TyEnv U) : KProg U → Prop
  | .seq p q => p.Sized Γ ∧ q.Sized Γ
  | .on _ p => p.Sized Γ
  | .cut _ _ q => q.Sized Γ
  | _ => True

/-- The numbers are in the range of C74. -/
def Cut.InRange (cfg : Cfg) (n : Nat) : Cut → Prop
  | .split mid => NoWrap cfg (mid * n)
  | .chunks k => n * k ≤ usizeMax
  | .values => True
  | .sub r => (r.halfOpen ∨ n = 1) ∧ NoWrap cfg (r.lo * n) ∧ NoWrap cfg (r.hi 0 * n)

/-- The numbers in the program are in the range of C75, for views with the types and lengths `τ`. -/
def KProg.InRange (Γ : TyEnv U) (cfg : Cfg) : KProg U → Nat → (Nat → Option (TyId × Nat)) → Prop
  | .skip, _, _ => True
  | .seq p q, n, τ => p.InRange Γ cfg n τ ∧ q.InRange Γ cfg n τ
  | .on i p, _, τ => ∀ t m, τ i = some (t, m) → p.InRange cfg (Γ.size t)
  | .swapValues i a j b, _, τ | .cloneValue i a j b, _, τ =>
    (∀ t m, τ i = some (t, m) → NoWrap cfg ((a + 1) * Γ.size t)) ∧ (∀ t m, τ j = some (t, m) → NoWrap cfg ((b + 1) * Γ.size t))
  | .cloneSlice _ _ _, _, _ => True
  | .cut i c q, n, τ => ∀ t m, τ i = some (t, m) →
    c.InRange cfg (Γ.size t) ∧ ∀ ks, c.sizes m = some ks → q.InRange Γ cfg (n + ks.length) (opened τ n i (ks.map fun k => (t, k)))

/-- The program may change view `k`: it names it, and not only to clone from it. -/
def KProg.Changes : KProg U → Nat → Prop
  | .skip, _ => False
  | .seq p q, k => p.Changes k ∨ q.Changes k
  | .on i _, k => k = i
  | .swapValues i _ j _, k => k = i ∨ k = j
  | .cloneValue i _ _ _, k | .cloneSlice i _ _, k => k = i
  | .cut i _ q, k => k = i ∨ q.Changes k

/-- No code of the element type runs: values are read and exchanged. -/
def VProg.Moves : VProg U → Prop
  | .skip | .look _ => True
  | .seq p q | .split _ p q => p.Moves ∧ q.Moves
  | .sub _ p | .chunks _ p => p.Moves
  | _ => False

/-- The same for several views. -/
def KProg.Moves : KProg U → Prop
  | .skip | .swapValues _ _ _ _ => True
  | .seq p q => p.Moves ∧ q.Moves
  | .on _ p => p.Moves
  | .cut _ _ q => q.Moves
  | _ => False

/-- How often `x` of type `t` is in a list. -/
def among (l : Option (TyId × List Bytes)) (t : TyId) (x : Bytes) : Nat :=
  match l with
  | some (t', es) => if t' = t then es.count x else 0
  | none => 0

/-- How often `x` of type `t` is in the lists in the variables below `n`. -/
def howMany (σ : Lists) (n : Nat) (t : TyId) (x : Bytes) : Nat := ((List.range n).map fun k => among (σ k) t x).sum

/-- The views have tables for the types of their elements. -/
def Tabled [HasClone U V] (Γ : TyEnv U) (ρ : Nat → Option (PtrView V)) (σ : Lists) : Prop :=
  ∀ k v t es, ρ k = some v → σ k = some (t, es) → LawfulClone Γ t v.vtable

end Dync
