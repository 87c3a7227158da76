import Verif.HeldViews
import Verif.HistoryDynPanic
/-!
# Threads that work on parts of containers, one byte at a time

In `Threads` a call is one step. Here threads are interleaved at every access to a byte of memory. Each thread holds mutable views
of its own, which may be parts of one container, and all threads may read the same shared views. `SliceCopyMut` and `SliceCopy` are
references to bytes and a table, and are `Send` and `Sync` if the table is.
-/
namespace Dync
variable {U V α β : Type}

/-! ### Computations as single accesses -/

/-- A computation as a sequence of accesses to single bytes of memory. -/
inductive Steps (α : Type) where
  | done (r : Res α)
  | load (a : Nat) (k : Byte → Steps α)
  | store (a : Nat) (b : Byte) (k : Steps α)

/-- The bytes of memory. -/
abbrev Store := Nat → Byte

/-- Overwrite a byte. -/
def Store.set (m : Store) (a : Nat) (b : Byte) : Store := fun x => if x = a then b else m x

/-- An access to one byte. -/
structure Touch where
  addr : Nat
  write : Bool
deriving DecidableEq

namespace Steps

/-- What the computation does if nothing else runs. -/
def alone : Steps α → Store → Res α × Store
  | done r, m => (r, m)
  | load a k, m => (k (m a)).alone m
  | store a b k, m => k.alone (m.set a b)

/-- The accesses it makes if nothing else runs. -/
def touches : Steps α → Store → List Touch
  | done _, _ => []
  | load a k, m => ⟨a, false⟩ :: (k (m a)).touches m
  | store a b k, m => ⟨a, true⟩ :: k.touches (m.set a b)

/-- The access it makes next. -/
def next : Steps α → Option Touch
  | done _ => none
  | load a _ => some ⟨a, false⟩
  | store a _ _ => some ⟨a, true⟩

/-- The computation carries out `c`: alone it has the same result and leaves the same memory, and it touches only bytes that `c`
accesses and writes only bytes that `c` writes. The order of the accesses, and how often a byte is accessed, is left open, so this
is any way in which `memcpy`, `rotate_left` and so on may be written. -/
def CarriesOut (s : Steps α) (c : M Mem α) : Prop :=
  ∀ m : Mem, s.alone m.byte = ((c m).1, (c m).2.byte) ∧ ∃ l, (c m).2.log = m.log ++ l ∧
    ∀ x ∈ s.touches m.byte, ∃ a ∈ l, a.addr ≤ x.addr ∧ x.addr < a.addr + a.len ∧ (x.write = true → a.write = true)

/-- Thread `i` makes its next access. -/
def turn (i : Nat) (x : (Nat → Steps α) × Store) : (Nat → Steps α) × Store :=
  match x.1 i with
  | done _ => x
  | load a k => (fun j => if j = i then k (x.2 a) else x.1 j, x.2)
  | store a b k => (fun j => if j = i then k else x.1 j, x.2.set a b)

/-- Threads make single accesses in the order of the list. -/
def interleave : List Nat → (Nat → Steps α) × Store → (Nat → Steps α) × Store
  | [], x => x
  | i :: is, x => interleave is (turn i x)

/-- Two threads are about to access the same byte, at least one of them to write it. -/
def Race (s t : Steps α) : Prop := ∃ x y, s.next = some x ∧ t.next = some y ∧ x.addr = y.addr ∧ (x.write = true ∨ y.write = true)

end Steps

/-! ### Threads -/

/-- What a thread does. Panics are caught; what comes next may depend on what the thread has seen. -/
inductive TProg where
  | stop
  | own (p : HProg) (next : Option (List Read) → TProg)            -- on its own mutable views
  | look (k : Nat) (p : SProg) (next : Option (List Read) → TProg) -- read the shared view `k`

/-- Run the program of a thread with its own views `ρ` and the shared views `sh`. Immutable views (src/slice_copy.rs:58-364) run
the same code as mutable ones. -/
def TProg.runAt (Γ : TyEnv U) (cfg : Cfg) (n : Nat) (ρ sh : Nat → Option (PtrView V)) : TProg → M Mem (List (Option (List Read)))
  | stop => pure []
  | own p next => do
    let o ← (p.runAt Γ cfg n ρ).caught
    let os ← (next o).runAt Γ cfg n ρ sh
    pure (o :: os)
  | look k p next => do
    let o ← (match sh k with | none => pure [] | some v => p.runAt Γ cfg v : M Mem (List Read)).caught
    let os ← (next o).runAt Γ cfg n ρ sh
    pure (o :: os)

/-- Who has which view: `owner k` is the thread that has view `k`, or `none` if the view is shared. -/
def given (owner : Nat → Option Nat) (who : Option Nat) (ρ : Nat → Option α) : Nat → Option α :=
  fun k => if owner k = who then ρ k else none

end Dync
