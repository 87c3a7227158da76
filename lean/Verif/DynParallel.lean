import Verif.HeldDyn
import Verif.Parallel
/-!
# Threads that work on parts of containers of non-`Copy` elements

As `Parallel`, for `SliceMut` and `Slice`: each thread holds mutable views of its own, all threads may read the same shared views
and clone from them. The destructors and `Clone` of the elements run in the threads.

Every thread has a `World` of its own: user code keeps its state in thread-local variables, and an allocator serves the threads
independently of each other.
-/
namespace Dync
variable {U V α : Type}

/-- What a thread does. Panics are caught; what comes next may depend on what the thread has seen. -/
inductive DTProg (U : Type) where
  | stop
  | own (p : KProg U) (next : Option (List Read) → DTProg U)            -- on its own mutable views
  | look (k : Nat) (p : SProg) (next : Option (List Read) → DTProg U)   -- read the shared view `k`
  | cloneValue (i a k b : Nat) (next : Option (List Read) → DTProg U)   -- clone element `b` of the shared view `k` into element `a` of view `i`
  | cloneSlice (i k : Nat) (t : TyId) (next : Option (List Read) → DTProg U) -- clone all elements of the shared view `k` into view `i`

/-- Read a shared view: `Slice` (src/slice.rs:173-289) has the fields of `SliceCopy` and the same code. -/
def lookAt (Γ : TyEnv U) (cfg : Cfg) (p : SProg) : Option (PtrView V) → M (Mem × World U) (List Read)
  | none => pure []
  | some v => SProg.onFst (p.runAt Γ cfg v)

/-- Clone between a view of the thread and a shared one. -/
def cloneAt (f : PtrView V → PtrView V → M (Mem × World U) (List Read)) : Option (PtrView V) → Option (PtrView V) → M (Mem × World U) (List Read)
  | some v, some w => f v w
  | _, _ => pure []

/-- Run the program of a thread with its own views `ρ` and the shared views `sh`. -/
def DTProg.runAt [HasDrop U V] [HasClone U V] (Γ : TyEnv U) (cfg : Cfg) (vt : TyId → V) (n : Nat) (ρ sh : Nat → Option (PtrView V)) :
    DTProg U → M (Mem × World U) (List (Option (List Read)))
  | stop => pure []
  | own p next => do
    let o ← (p.runAt Γ cfg vt n ρ).caught
    let os ← (next o).runAt Γ cfg vt n ρ sh
    pure (o :: os)
  | look k p next => do
    let o ← (lookAt Γ cfg p (sh k)).caught
    let os ← (next o).runAt Γ cfg vt n ρ sh
    pure (o :: os)
  | cloneValue i a k b next => do
    let o ← (cloneAt (fun v w => v.cloneValue cfg a w b) (ρ i) (sh k)).caught
    let os ← (next o).runAt Γ cfg vt n ρ sh
    pure (o :: os)
  | cloneSlice i k t next => do
    let o ← (cloneAt (fun v w => v.cloneSlice Γ cfg t w) (ρ i) (sh k)).caught
    let os ← (next o).runAt Γ cfg vt n ρ sh
    pure (o :: os)

/-- As a computation on the memory that starts with the thread in the state `w`. It returns how it ended and the new state. -/
def M.inWorld (c : M (Mem × World U) α) (w : World U) : M Mem (Res α × World U) := ⟨fun m =>
  let o := c (m, w)
  (.ok (o.1, o.2.2), o.2.1)⟩

end Dync
