import Verif.Iterators
import Verif.CopyWholeSpec
import Verif.DynMachine
/-!
# Specification of `extend` and `collect` with arbitrary iterators

The machine of `CopyWholeSpec`, together with the state of the user's code. The relation `Pulls` says what a loop over an
iterator that stops at the first wrong item may do.
-/
namespace Dync
variable {U V : Type}

/-- Append the items of an iterator, until it ends; an item of another type is a panic. -/
def XVec.pull (Γ : TyEnv U) (it : Iter U) : Nat → M (XVec × Outside U) Unit
  | 0 => pure ()
  | n + 1 => do
    match ← aside (call it.next) with
    | none => pure ()
    | some v =>
      let s ← M.get
      if v.1 = s.1.ty Γ then
        let _ ← XVec.plain (XVec.push Γ v.1 v.2)
        pull Γ it n
      else M.panic .assertion

/-- `extend`: make room for what the iterator promises, append its items, drop it. -/
def XVec.extendFrom (Γ : TyEnv U) (cfg : Cfg) (it : Iter U) (n : Nat) : M (XVec × Outside U) Unit :=
  M.thenDrop (do
    let hint ← aside (call it.hint)
    let _ ← XVec.plain (XVec.reserve Γ cfg hint)
    XVec.pull Γ it n) (aside (call it.drop))

/-- Work on a new container. If that panics, the container is dropped. -/
def onNew (x : XVec) (m : M (XVec × Outside U) Unit) : M (Outside U) XVec := ⟨fun o =>
  ((m (x, o)).1.map fun _ => (m (x, o)).2.1, (m (x, o)).2.2)⟩

/-- `collect`: no item and items without size are refused. -/
def XVec.collectFrom (Γ : TyEnv U) (cfg : Cfg) (it : Iter U) (n : Nat) : M (Outside U) XVec := do
  let x ← (do
    match ← call it.next with
    | none => M.panic .unwrapNone
    | some v =>
      if Γ.size v.1 = 0 then M.panic .divZero
      else onNew (.vec v.1 [] 1) (do let _ ← XVec.plain (XVec.push Γ v.1 v.2); pure ())).onUnwind (call it.drop)
  onNew x (XVec.extendFrom Γ cfg it n)

namespace IOp

/-- What a step does to the variables, the lost blocks and the state of the user's code. -/
def step (Γ : TyEnv U) (cfg : Cfg) : IOp U → M ((Nat → Option XVec) × Outside U) (List Read)
  | op o => ⟨fun s =>
    let r := o.step Γ cfg ⟨s.1, s.2.leaked⟩
    (match r.1 with
      | .ok rs => .ok rs
      | .panic => .panic .index
      | .ub => .ub, (r.2.var, { s.2 with leaked := r.2.leaked }))⟩
  | extendFrom k it n => ⟨fun s =>
    match s.1 k with
    | none => (.ok [], s)
    | some x =>
      let r := XVec.extendFrom Γ cfg it n (x, s.2)
      (r.1.map fun _ => [], (Slots.put s.1 k (some r.2.1), r.2.2))⟩
  | collectFrom k it n => do
    let x ← aside (XVec.collectFrom Γ cfg it n)
    M.modify fun s => (Slots.put s.1 k (some x), s.2)
    pure []

/-- The programs the Rust type checker accepts: the items of an iterator have the size of their type. -/
def Accepted (Γ : TyEnv U) : IOp U → Prop
  | op o => o.Accepted Γ
  | extendFrom _ it _ | collectFrom _ it _ => ∀ u v u', it.next u = (.ok (some v), u') → v.2.length = Γ.size v.1

/-- The numbers in a program on a view are in the range of C74. -/
def Described (Γ : TyEnv U) (cfg : Cfg) (s : (Nat → Option XVec) × Outside U) : IOp U → Prop
  | op o => o.Described Γ cfg ⟨s.1, s.2.leaked⟩
  | _ => True

/-- A program with caught panics. -/
def steps (Γ : TyEnv U) (cfg : Cfg) : List (IOp U) → M ((Nat → Option XVec) × Outside U) (List (Option (List Read)))
  | [] => pure []
  | c :: cs => do
    let r ← (c.step Γ cfg).caught
    let rs ← steps Γ cfg cs
    pure (r :: rs)

def AllDescribed (Γ : TyEnv U) (cfg : Cfg) : List (IOp U) → (Nat → Option XVec) × Outside U → Prop
  | [], _ => True
  | c :: cs, s => c.Described Γ cfg s ∧ ∀ r s', (c.step Γ cfg).caught s = (.ok r, s') → AllDescribed Γ cfg cs s'

end IOp

/-- The variables hold the containers of the machine, the user's code is in the same state, and all other live blocks
are the lost ones. -/
def IHolds (Γ : TyEnv U) (s : Slots V × World U) (t : (Nat → Option XVec) × Outside U) : Prop :=
  s.2.user = t.2.user ∧ XState.Holds Γ s.1 s.2.heap ⟨t.1, t.2.leaked⟩

/-- The implementation ends as the machine does. -/
def IEnds {α : Type} (Γ : TyEnv U) (impl : Res α × (Slots V × World U)) (mach : Res α × ((Nat → Option XVec) × Outside U)) : Prop :=
  match mach with
  | (.ok r, t) => impl.1 = .ok r ∧ IHolds Γ impl.2 t
  | (.panic _, t) => (∃ y, impl.1 = .panic y) ∧ IHolds Γ impl.2 t
  | (.ub, _) => impl.1 = .ub
  | (.abort, _) => impl.1 = .abort

/-- How a loop over an iterator ends. -/
inductive PullEnd where
  | done    -- the iterator has ended, or the bound is reached
  | panic   -- the iterator panicked, or its last item was of another type; the items before are there
  | lost    -- there was no room for the last item, and the content is lost
deriving DecidableEq

/-- A loop over an iterator that appends items of type `t`: in state `u`, at most `n` items, the items of type `t` that it
got, how it ended and in which state. The iterator is not asked again after its end, its panic, or a wrong item. -/
inductive Pulls (it : Iter U) (t : TyId) : Nat → U → List Bytes → PullEnd → U → Prop
  | bound {u} : Pulls it t 0 u [] .done u
  | ended {n u u'} : it.next u = (.ok none, u') → Pulls it t (n + 1) u [] .done u'
  | panicked {n u y u'} : it.next u = (.panic y, u') → Pulls it t (n + 1) u [] .panic u'
  | other {n u v u'} : it.next u = (.ok (some v), u') → v.1 ≠ t → Pulls it t (n + 1) u [] .panic u'
  | noRoom {n u x u'} : it.next u = (.ok (some (t, x)), u') → Pulls it t (n + 1) u [x] .lost u'
  | more {n u x u' xs e u''} : it.next u = (.ok (some (t, x)), u') → Pulls it t n u' xs e u'' → Pulls it t (n + 1) u (x :: xs) e u''

/-- The same for `extend`, which first asks for the size hint and makes room. -/
inductive Extending (it : Iter U) (t : TyId) (n : Nat) (u : U) : List Bytes → PullEnd → U → Prop
  | hintPanics {y u'} : it.hint u = (.panic y, u') → Extending it t n u [] .panic u'
  | tooMuch {k u'} : it.hint u = (.ok k, u') → Extending it t n u [] .lost u'
  | pulls {k u' xs e u''} : it.hint u = (.ok k, u') → Pulls it t n u' xs e u'' → Extending it t n u xs e u''

/-- The iterator ends or panics, asked at most `n` times. -/
def Iter.EndsWithin (it : Iter U) : Nat → U → Prop
  | 0, _ => False
  | n + 1, u => ∀ v u', it.next u = (.ok (some v), u') → it.EndsWithin n u'

/-- The iterator yields exactly the values `vs` and does not panic. -/
def Iter.Yields (it : Iter U) : List (TyId × Bytes) → U → Prop
  | [], u => ∃ u', it.next u = (.ok none, u')
  | v :: vs, u => ∃ u', it.next u = (.ok (some v), u') ∧ it.Yields vs u'

/-- The code of the iterator is defined: it returns or panics. -/
structure SafeIter (it : Iter U) : Prop where
  hint : ∀ u, (it.hint u).1 ≠ .ub ∧ (it.hint u).1 ≠ .abort
  next : ∀ u, (it.next u).1 ≠ .ub ∧ (it.next u).1 ≠ .abort
  drop : ∀ u, (it.drop u).1 ≠ .ub ∧ (it.drop u).1 ≠ .abort

end Dync
