/-!
# Rust execution model

Outcomes of a Rust computation, a state monad in which the state survives a panic, and `usize`
arithmetic.  Nothing in this file models a particular function of `/repo`; it fixes the meaning of
the language constructs the code uses.
-/
namespace Dync

/-- Reasons for which a thread panics. -/
inductive Why where
  | assertion        -- `assert!`, `assert_eq!`, `debug_assert!`, asserts inside `std`
  | index            -- slice index / range out of bounds
  | overflow         -- arithmetic overflow (debug builds)
  | divZero          -- `x % 0`, `x / 0`
  | zeroChunk        -- `chunks_exact(0)`
  | lenMismatch      -- `copy_from_slice`, `swap_with_slice` on slices of different lengths
  | capacity         -- `Vec` capacity overflow
  | unreachable      -- `unreachable!`
  | unwrapNone       -- `unwrap`/`expect` on `None`
  | user             -- a panic raised by user code (`Clone`, `Drop`, ...)
deriving DecidableEq, Repr

/-- Outcome of a computation. `ub` is undefined behaviour; `abort` is a panic while unwinding. -/
inductive Res (α : Type) where
  | ok (a : α)
  | panic (w : Why)
  | ub
  | abort
deriving DecidableEq, Repr

/-- `Res` as a functor on results. -/
def Res.map {α β : Type} (f : α → β) : Res α → Res β
  | .ok a => .ok (f a)
  | .panic w => .panic w
  | .ub => .ub
  | .abort => .abort

/-- A computation over state `σ`. The state is returned for every outcome, in particular after a
panic: this is what code running later (after `catch_unwind`, or destructors) can observe. -/
structure M (σ α : Type) : Type where
  run : σ → Res α × σ

instance {σ α : Type} : CoeFun (M σ α) (fun _ => σ → Res α × σ) := ⟨M.run⟩

namespace M
variable {σ τ α β : Type}

protected def pure (a : α) : M σ α := ⟨fun s => (.ok a, s)⟩

protected def bind (x : M σ α) (f : α → M σ β) : M σ β := ⟨fun s =>
  match x s with
  | (.ok a, s') => f a s'
  | (.panic w, s') => (.panic w, s')
  | (.ub, s') => (.ub, s')
  | (.abort, s') => (.abort, s')⟩

instance : Monad (M σ) where
  pure := M.pure
  bind := M.bind

/-- `panic!`. -/
def panic (w : Why) : M σ α := ⟨fun s => (.panic w, s)⟩
/-- Undefined behaviour. -/
def ub : M σ α := ⟨fun s => (.ub, s)⟩
def get : M σ σ := ⟨fun s => (.ok s, s)⟩
def set (s : σ) : M σ Unit := ⟨fun _ => (.ok (), s)⟩
def modify (f : σ → σ) : M σ Unit := ⟨fun s => (.ok (), f s)⟩
/-- Lift a pure outcome. -/
def lift (r : Res α) : M σ α := ⟨fun s => (r, s)⟩
/-- `assert!(b)`. -/
def assert (b : Bool) : M σ Unit := if b then pure () else panic .assertion
/-- Run a computation on a part of the state. -/
def zoom (get : σ → τ) (set : τ → σ → σ) (m : M τ α) : M σ α := ⟨fun s => ((m (get s)).1, set (m (get s)).2 s)⟩

/-- `for x in xs { body(x) }`. -/
def forEach (xs : List α) (body : α → M σ Unit) : M σ Unit :=
  match xs with
  | [] => pure ()
  | x :: xs => body x >>= fun _ => forEach xs body

/-- Evaluate `f` on every element in order, collecting results. -/
def mapEach (xs : List α) (f : α → M σ β) : M σ (List β) :=
  match xs with
  | [] => pure []
  | x :: xs => f x >>= fun y => mapEach xs f >>= fun ys => pure (y :: ys)

/-- `for _ in 0..n { body }`. -/
def repeatN (n : Nat) (body : M σ Unit) : M σ Unit :=
  match n with
  | 0 => pure ()
  | n + 1 => body >>= fun _ => repeatN n body

/-- A destructor `d` that runs because the frame holding it unwinds after outcome `r`.
A panic inside it aborts the process. -/
def unwindDrop (d : M σ Unit) : M σ Unit := ⟨fun s =>
  match d s with
  | (.panic _, s') => (.abort, s')
  | r => r⟩

/-- Run `m`; if it panics, the destructor `d` runs while unwinding. -/
def onUnwind (m : M σ α) (d : M σ Unit) : M σ α := ⟨fun s =>
  match m s with
  | (.panic w, s') =>
    match unwindDrop d s' with
    | (.ok _, s'') => (.panic w, s'')
    | (.panic _, s'') => (.abort, s'')
    | (.ub, s'') => (.ub, s'')
    | (.abort, s'') => (.abort, s'')
  | r => r⟩

/-- Run `m`, then the destructor `d` on every exit path. If `m` panicked, `d` runs while unwinding:
the panic of `m` is resumed afterwards and a panic of `d` aborts the process. -/
def thenDrop (m : M σ α) (d : M σ Unit) : M σ α := ⟨fun s =>
  match m s with
  | (.ok a, s') =>
    match d s' with
    | (.ok _, s'') => (.ok a, s'')
    | (.panic w, s'') => (.panic w, s'')
    | (.ub, s'') => (.ub, s'')
    | (.abort, s'') => (.abort, s'')
  | (.panic w, s') =>
    match d s' with
    | (.ok _, s'') => (.panic w, s'')
    | (.panic _, s'') => (.abort, s'')
    | (.ub, s'') => (.ub, s'')
    | (.abort, s'') => (.abort, s'')
  | (.ub, s') => (.ub, s')
  | (.abort, s') => (.abort, s')⟩

/-- Drop glue of a slice: the elements in order. If one destructor panics the remaining elements are
still dropped while unwinding. -/
def dropEach (xs : List α) (drop : α → M σ Unit) : M σ Unit :=
  match xs with
  | [] => pure ()
  | x :: xs => thenDrop (drop x) (dropEach xs drop)

@[simp] theorem pure_run (a : α) (s : σ) : (pure a : M σ α) s = (.ok a, s) := rfl
@[simp] theorem bind_run (x : M σ α) (f : α → M σ β) (s : σ) :
    (x >>= f) s = match x s with
      | (.ok a, s') => f a s'
      | (.panic w, s') => (.panic w, s')
      | (.ub, s') => (.ub, s')
      | (.abort, s') => (.abort, s') := rfl
@[simp] theorem panic_run (w : Why) (s : σ) : (panic w : M σ α) s = (.panic w, s) := rfl
@[simp] theorem ub_run (s : σ) : (ub : M σ α) s = (.ub, s) := rfl
@[simp] theorem get_run (s : σ) : (get : M σ σ) s = (.ok s, s) := rfl
@[simp] theorem set_run (s t : σ) : (set t : M σ Unit) s = (.ok (), t) := rfl
@[simp] theorem modify_run (f : σ → σ) (s : σ) : (modify f) s = (.ok (), f s) := rfl
@[simp] theorem lift_run (r : Res α) (s : σ) : (lift r : M σ α) s = (r, s) := rfl
@[simp] theorem assert_true_run (s : σ) : (assert true : M σ Unit) s = (.ok (), s) := rfl
@[simp] theorem assert_false_run (s : σ) :
    (assert false : M σ Unit) s = (.panic .assertion, s) := rfl
@[simp] theorem zoom_run (g : σ → τ) (st : τ → σ → σ) (m : M τ α) (s : σ) :
    zoom g st m s = ((m (g s)).1, st (m (g s)).2 s) := rfl

theorem bind_ok {x : M σ α} {f : α → M σ β} {s s' : σ} {a : α} (h : x s = (.ok a, s')) :
    (x >>= f) s = f a s' := by simp [h]
theorem bind_panic {x : M σ α} {f : α → M σ β} {s s' : σ} {w : Why} (h : x s = (.panic w, s')) :
    (x >>= f) s = (.panic w, s') := by simp [h]
theorem bind_ub {x : M σ α} {f : α → M σ β} {s s' : σ} (h : x s = (.ub, s')) :
    (x >>= f) s = (.ub, s') := by simp [h]
theorem bind_abort {x : M σ α} {f : α → M σ β} {s s' : σ} (h : x s = (.abort, s')) :
    (x >>= f) s = (.abort, s') := by simp [h]

theorem thenDrop_ok {m : M σ α} {d : M σ Unit} {s s' s'' : σ} {a : α} (h : m s = (.ok a, s'))
    (hd : d s' = (.ok (), s'')) : thenDrop m d s = (.ok a, s'') := by simp [thenDrop, h, hd]
theorem thenDrop_panic {m : M σ α} {d : M σ Unit} {s s' s'' : σ} {w : Why} (h : m s = (.panic w, s'))
    (hd : d s' = (.ok (), s'')) : thenDrop m d s = (.panic w, s'') := by simp [thenDrop, h, hd]

theorem ext' {x y : M σ α} (h : ∀ s, x s = y s) : x = y := by
  cases x; cases y; congr; funext s; exact h s

instance : LawfulMonad (M σ) := LawfulMonad.mk'
  (id_map := by
    intro α x; apply M.ext'; intro s
    show (match x s with | (.ok a, s') => _ | (.panic w, s') => _ | (.ub, s') => _ | (.abort, s') => _) = x s
    rcases h : x s with ⟨r, s'⟩; cases r <;> rfl)
  (pure_bind := by intros; rfl)
  (bind_assoc := by
    intro α β γ x f g; apply M.ext'; intro s
    simp only [bind_run]
    rcases x s with ⟨r, s'⟩; cases r <;> rfl)

@[simp] theorem forEach_nil (body : α → M σ Unit) : forEach [] body = pure () := rfl
@[simp] theorem forEach_cons (x : α) (xs : List α) (body : α → M σ Unit) :
    forEach (x :: xs) body = (body x >>= fun _ => forEach xs body) := rfl
@[simp] theorem mapEach_nil (f : α → M σ β) : mapEach [] f = pure [] := rfl
@[simp] theorem mapEach_cons (x : α) (xs : List α) (f : α → M σ β) :
    mapEach (x :: xs) f = (f x >>= fun y => mapEach xs f >>= fun ys => pure (y :: ys)) := rfl

@[simp] theorem dropEach_nil (d : α → M σ Unit) : dropEach [] d = pure () := rfl
@[simp] theorem dropEach_cons (x : α) (xs : List α) (d : α → M σ Unit) :
    dropEach (x :: xs) d = thenDrop (d x) (dropEach xs d) := rfl

theorem forEach_append (xs ys : List α) (body : α → M σ Unit) :
    forEach (xs ++ ys) body = (forEach xs body >>= fun _ => forEach ys body) := by
  induction xs with
  | nil => rfl
  | cons x xs ih => simp only [List.cons_append, forEach_cons, ih, bind_assoc]

end M

/-! ### `usize` -/

/-- `usize::MAX` on a 64-bit target. -/
def usizeMax : Nat := 18446744073709551615
/-- `isize::MAX` on a 64-bit target. -/
def isizeMax : Nat := 9223372036854775807

/-- Build profile. `debug = true`: `debug_assertions` and `overflow-checks` on (dev profile);
`false`: both off (release profile). -/
structure Cfg where
  debug : Bool
deriving DecidableEq, Repr

/-- `a * b` on `usize`: panics on overflow in debug builds, wraps modulo 2^64 in release builds. -/
def umul {σ : Type} (cfg : Cfg) (a b : Nat) : M σ Nat :=
  if a * b ≤ usizeMax then pure (a * b)
  else if cfg.debug then M.panic .overflow
  else pure (a * b % (usizeMax + 1))

/-- `a + b` on `usize`. -/
def uadd {σ : Type} (cfg : Cfg) (a b : Nat) : M σ Nat :=
  if a + b ≤ usizeMax then pure (a + b)
  else if cfg.debug then M.panic .overflow
  else pure ((a + b) % (usizeMax + 1))

/-- `debug_assert!(b)`. -/
def debugAssert {σ : Type} (cfg : Cfg) (b : Bool) : M σ Unit :=
  if cfg.debug then M.assert b else pure ()

theorem umul_ok {σ : Type} {cfg : Cfg} {a b : Nat} (h : a * b ≤ usizeMax) (s : σ) :
    umul cfg a b s = (.ok (a * b), s) := by simp [umul, h]
theorem uadd_ok {σ : Type} {cfg : Cfg} {a b : Nat} (h : a + b ≤ usizeMax) (s : σ) :
    uadd cfg a b s = (.ok (a + b), s) := by simp [uadd, h]
theorem debugAssert_ok {σ : Type} {cfg : Cfg} {b : Bool} (h : b = true) (s : σ) :
    debugAssert cfg b s = (.ok (), s) := by
  subst h; unfold debugAssert; split <;> rfl

end Dync
