import Verif.HeldViews
import Verif.ViewSpec
/-!
# Specification: several mutable views at once are separate lists

Every view a program holds is a list of its own. The parts of a view are new lists, and when they are given up, they are put
together again. So nothing that happens to one view can change another one.
-/
namespace Dync
variable {U V : Type}

/-- The views a program holds: the type and the elements of each one. -/
abbrev Lists := Nat → Option (TyId × List Bytes)

/-- The elements in the `m` variables from `n` on, put together. -/
def gather (σ : Lists) (n m : Nat) : List Bytes := ((List.range m).map fun c => (σ (n + c)).elim [] Prod.snd).flatten

/-- Run `q` with the lists `parts` in new variables; afterwards variable `i` has the elements of the parts, with `pre` before
and `post` behind them. -/
def inParts {α : Type} (n i : Nat) (t : TyId) (pre : List Bytes) (parts : List (List Bytes)) (post : List Bytes) (q : M Lists α) :
    M Lists α := ⟨fun σ =>
  let out := q (opened σ n i (parts.map fun es => (t, es)))
  (out.1, fun k => if k = i then some (t, pre ++ gather out.2 n parts.length ++ post) else if k < n then out.2 k else none)⟩

/-- What a program does with separate lists. -/
def HProg.plain : HProg → Nat → M Lists (List Read)
  | skip, _ => pure []
  | seq p q, n => do
    let a ← p.plain n
    let b ← q.plain n
    pure (a ++ b)
  | on i p, _ => ⟨fun σ =>
    match σ i with
    | none => (.ok [], σ)
    | some (t, es) => ((p.plain t es).1, Slots.put σ i (some (t, (p.plain t es).2)))⟩
  | swapValues i a j b, _ => ⟨fun σ =>
    if i = j then (.ok [], σ) else
    match σ i, σ j with
    | some (t, es), some (t', fs) =>
      if h : a < es.length ∧ b < fs.length then
        (.ok [], if t = t' then Slots.put (Slots.put σ i (some (t, es.set a fs[b]))) j (some (t', fs.set b es[a])) else σ)
      else (.panic .index, σ)
    | _, _ => (.ok [], σ)⟩
  | copyValue i a j b, _ => ⟨fun σ =>
    if i = j then (.ok [], σ) else
    match σ i, σ j with
    | some (t, es), some (t', fs) =>
      if h : a < es.length ∧ b < fs.length then
        (.ok [], if t = t' then Slots.put σ i (some (t, es.set a fs[b])) else σ)
      else (.panic .index, σ)
    | _, _ => (.ok [], σ)⟩
  | split i mid q, n => ⟨fun σ =>
    match σ i with
    | none => (.ok [], σ)
    | some (t, es) =>
      if mid ≤ es.length then inParts n i t [] [es.take mid, es.drop mid] [] (q.plain (n + 2)) σ else (.panic .index, σ)⟩
  | chunks i k q, n => ⟨fun σ =>
    match σ i with
    | none => (.ok [], σ)
    | some (t, es) =>
      if k = 0 then (.panic .index, σ)
      else inParts n i t [] (pieces k es) (es.drop (es.length / k * k)) (q.plain (n + es.length / k)) σ⟩
  | values i q, n => ⟨fun σ =>
    match σ i with
    | none => (.ok [], σ)
    | some (t, es) => inParts n i t [] (es.map fun e => [e]) [] (q.plain (n + es.length)) σ⟩
  | sub i r q, n => ⟨fun σ =>
    match σ i with
    | none => (.ok [], σ)
    | some (t, es) =>
      if r.lo ≤ r.hi es.length ∧ r.hi es.length ≤ es.length then
        inParts n i t (es.take r.lo) [(es.take (r.hi es.length)).drop r.lo] (es.drop (r.hi es.length)) (q.plain (n + 1)) σ
      else (.panic .index, σ)⟩

/-- What the program writes as a value of a type has the size of that type. -/
def HProg.Sized (Γ : TyEnv U) : HProg → Prop
  | .seq p q => p.Sized Γ ∧ q.Sized Γ
  | .on _ p => ∀ t, p.Sized Γ t
  | .split _ _ q | .chunks _ _ q | .values _ q | .sub _ _ q => q.Sized Γ
  | _ => True

/-- The types and numbers of elements of lists. -/
def shape (σ : Lists) : Nat → Option (TyId × Nat) := fun k => (σ k).map fun x => (x.1, x.2.length)

/-- The numbers in the program are in the range of C74, for views with the types and lengths `τ`. -/
def HProg.InRange (Γ : TyEnv U) (cfg : Cfg) : HProg → Nat → (Nat → Option (TyId × Nat)) → Prop
  | .skip, _, _ => True
  | .seq p q, n, τ => p.InRange Γ cfg n τ ∧ q.InRange Γ cfg n τ
  | .on i p, _, τ => ∀ t m, τ i = some (t, m) → p.InRange cfg (Γ.size t)
  | .swapValues i a j b, _, τ | .copyValue i a j b, _, τ =>
    (∀ t m, τ i = some (t, m) → NoWrap cfg ((a + 1) * Γ.size t)) ∧ (∀ t m, τ j = some (t, m) → NoWrap cfg ((b + 1) * Γ.size t))
  | .split i mid q, n, τ => ∀ t m, τ i = some (t, m) →
    NoWrap cfg (mid * Γ.size t) ∧ (mid ≤ m → q.InRange Γ cfg (n + 2) (opened τ n i [(t, mid), (t, m - mid)]))
  | .chunks i k q, n, τ => ∀ t m, τ i = some (t, m) →
    Γ.size t * k ≤ usizeMax ∧ (k ≠ 0 → q.InRange Γ cfg (n + m / k) (opened τ n i (List.replicate (m / k) (t, k))))
  | .values i q, n, τ => ∀ t m, τ i = some (t, m) → q.InRange Γ cfg (n + m) (opened τ n i (List.replicate m (t, 1)))
  | .sub i r q, n, τ => ∀ t m, τ i = some (t, m) →
    (r.halfOpen ∨ Γ.size t = 1) ∧ NoWrap cfg (r.lo * Γ.size t) ∧ NoWrap cfg (r.hi 0 * Γ.size t) ∧
      (r.lo ≤ r.hi m ∧ r.hi m ≤ m → q.InRange Γ cfg (n + 1) (opened τ n i [(t, r.hi m - r.lo)]))

/-- The program names view `k`. -/
def HProg.Uses : HProg → Nat → Prop
  | .skip, _ => False
  | .seq p q, k => p.Uses k ∨ q.Uses k
  | .on i _, k => k = i
  | .swapValues i _ j _, k | .copyValue i _ j _, k => k = i ∨ k = j
  | .split i _ q, k | .chunks i _ q, k | .values i q, k | .sub i _ q, k => k = i ∨ q.Uses k

/-- The byte at address `x` belongs to the view. -/
def PtrView.Covers (v : PtrView V) (x : Nat) : Prop := v.addr ≤ x ∧ x < v.addr + v.len

/-- The views `ρ`, in variables below `n`, do not overlap, are aligned, and the memory has the elements `σ` there. -/
structure HeldAt (Γ : TyEnv U) (n : Nat) (m : Mem) (ρ : Nat → Option (PtrView V)) (σ : Lists) : Prop where
  fresh : ∀ k, n ≤ k → ρ k = none
  none_iff : ∀ k, ρ k = none ↔ σ k = none
  view : ∀ k v t es, ρ k = some v → σ k = some (t, es) → v.Ok Γ t ∧ SRepr Γ t es (v.contents m)
  apart : ∀ i j v w, i ≠ j → ρ i = some v → ρ j = some w → ∀ x, ¬ (v.Covers x ∧ w.Covers x)

end Dync
