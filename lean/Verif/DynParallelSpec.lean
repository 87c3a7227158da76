import Verif.DynParallel
import Verif.ParallelSpec
import Verif.HeldDynSpec
/-!
# Specification: every thread has its own lists, non-`Copy` elements

A thread alone, with a list for every view it owns and for every shared view, and the state of user code in this thread.
-/
namespace Dync
variable {U V : Type}

/-- Read a list. -/
def lookPlain (p : SProg) : Option (TyId × List Bytes) → M (Lists × Outside U) (List Read)
  | none => pure []
  | some (t, es) => M.lift (p.plain t es).1

/-- Run `q` of the type and the elements of a shared list on list `i`. -/
def clonePlain (i : Nat) (q : TyId → TyId → List Bytes → M (List Bytes × Outside U) (List Read)) (sh : Option (TyId × List Bytes)) :
    M (Lists × Outside U) (List Read) := ⟨fun s =>
  match s.1 i, sh with
  | some (t, es), some (t', fs) => atList i t es (q t t' fs) s
  | _, _ => (.ok [], s)⟩

/-- What a thread does with lists; `sh` are the shared ones. -/
def DTProg.plain (Γ : TyEnv U) (n : Nat) (sh : Lists) : DTProg U → M (Lists × Outside U) (List (Option (List Read)))
  | stop => pure []
  | own p next => do
    let o ← (p.plain Γ n).caught
    let os ← (next o).plain Γ n sh
    pure (o :: os)
  | look k p next => do
    let o ← (lookPlain p (sh k)).caught
    let os ← (next o).plain Γ n sh
    pure (o :: os)
  | cloneValue i a k b next => do
    let o ← (clonePlain i (fun t t' fs => if h : b < fs.length then (VProg.cloneFrom a t' fs[b]).plain Γ t else M.panic .index) (sh k)).caught
    let os ← (next o).plain Γ n sh
    pure (o :: os)
  | cloneSlice i k t1 next => do
    let o ← (clonePlain i (fun t t' fs => if t1 = t' then (VProg.cloneFromSlice t1 fs).plain Γ t else pure []) (sh k)).caught
    let os ← (next o).plain Γ n sh
    pure (o :: os)

/-- The program is one for C86, whatever the thread sees: values have the size of their type, numbers are in range, shared views
are only read. -/
def DTProg.Fits (Γ : TyEnv U) (cfg : Cfg) (n : Nat) (τ sh : Nat → Option (TyId × Nat)) : DTProg U → Prop
  | stop => True
  | own p next => p.Sized Γ ∧ p.InRange Γ cfg n τ ∧ ∀ o, (next o).Fits Γ cfg n τ sh
  | look k p next => p.Reads ∧ (∀ t m, sh k = some (t, m) → p.InRange cfg (Γ.size t)) ∧ ∀ o, (next o).Fits Γ cfg n τ sh
  | cloneValue i a k b next => (∀ t m, τ i = some (t, m) → NoWrap cfg ((a + 1) * Γ.size t)) ∧
    (∀ t m, sh k = some (t, m) → NoWrap cfg ((b + 1) * Γ.size t)) ∧ ∀ o, (next o).Fits Γ cfg n τ sh
  | cloneSlice _ _ _ next => ∀ o, (next o).Fits Γ cfg n τ sh

/-- What thread `i` does alone, with lists; `u` is the state of user code in the thread. -/
def soloPlain (Γ : TyEnv U) (owner : Nat → Option Nat) (σ : Lists) (P : Nat → DTProg U) (n : Nat) (u : Nat → U) (i : Nat) :
    Res (List (Option (List Read))) × (Lists × Outside U) :=
  (P i).plain Γ n (given owner none σ) (given owner (some i) σ, ⟨0, u i⟩)

/-- The lists when all threads have ended. -/
def dynAfterAll (Γ : TyEnv U) (owner : Nat → Option Nat) (σ : Lists) (P : Nat → DTProg U) (n : Nat) (u : Nat → U) : Lists := fun k =>
  match owner k with
  | none => σ k
  | some i => (soloPlain Γ owner σ P n u i).2.1 k

/-- From `h` to `h'` as many blocks were leaked as from `l` to `l'`; all blocks that were there are still there, and no others are. -/
def LeaksBlocks (h h' : Heap) (l l' : Nat) : Prop :=
  h'.WF ∧ h.next ≤ h'.next ∧ ∃ lost : List Nat, lost.Nodup ∧ l' = l + lost.length ∧ (∀ i ∈ lost, h.next ≤ i ∧ h'.live i ≠ none) ∧
    ∀ i, i ∉ lost → h'.live i = h.live i

end Dync
