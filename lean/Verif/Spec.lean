import Verif.VecCopy
/-!
# Specification vocabulary

What a user can say about containers, stated with plain lists: a container *represents* a list of
elements (`Repr`), heaps change only at the blocks an operation owns (`Realloc`), sizes stay below
the address-space limit (`Room`).  None of these definitions is used by the model.
-/
namespace Dync
variable {U : Type}

/-- Blocks beyond the allocation counter are not live. Holds initially and after every step. -/
def Heap.WF (h : Heap) : Prop := ∀ i, h.next ≤ i → h.live i = none

/-- `n` elements of type `t` fit into one allocation (`Layout::array::<T>(n)` succeeds). -/
def Room (Γ : TyEnv U) (t : TyId) (n : Nat) : Prop := n * Γ.size t + (Γ.align t - 1) ≤ isizeMax

/-- `v` is a healthy type-erased `Vec<T>` whose elements are exactly `es`: the bytes are the
concatenation of the elements' images, the bookkeeping is that of `T`, and the buffer is one live
heap block with the layout of an array of `cap` elements. -/
structure Repr (Γ : TyEnv U) (h : Heap) (t : TyId) (es : List Bytes) (v : VecVoid) : Prop where
  /-- element information is that of `t` -/
  type_id : v.elem.type_id = t
  chunks : v.elem.size * Γ.align t = Γ.size t
  align : v.elem.alignment = Γ.align t
  /-- `t` is not zero-sized -/
  pos : 0 < Γ.size t
  /-- memory = concatenation of the elements -/
  mem : v.mem = es.flatten
  each : ∀ e ∈ es, e.length = Γ.size t
  len : v.len = es.length
  len_le : v.len ≤ v.cap
  cap_pos : 0 < v.cap
  room : Room Γ t v.cap
  /-- the buffer is a live block of the right layout -/
  block : ∃ i, v.ptr = some i ∧ h.live i = some ⟨v.cap * Γ.size t, Γ.align t⟩

/-- The heap changed from `h` to `h'` only in that the block at `p` was kept or exchanged for a
fresh block at `p'`; all other blocks are untouched. -/
structure Realloc (h : Heap) (p : Ptr) (h' : Heap) (p' : Ptr) : Prop where
  wf : h'.WF
  next_le : h.next ≤ h'.next
  other : ∀ j, some j ≠ p → some j ≠ p' → h'.live j = h.live j
  old_dead : p' ≠ p → ∀ i, p = some i → h'.live i = none
  new_fresh : p' ≠ p → ∀ i, p' = some i → h.next ≤ i

/-- A `Vec<T>` (not type-erased) holding `es`; `Vec`s of capacity 0 own no block. -/
structure IsVec (Γ : TyEnv U) (h : Heap) (t : TyId) (es : List Bytes) (v : RVec) : Prop where
  bytes : v.bytes = es.flatten
  each : ∀ e ∈ es, e.length = Γ.size t
  len : v.len = es.length
  len_le : v.len ≤ v.cap
  room : Room Γ t v.cap
  block : (v.cap = 0 ∧ v.ptr = none) ∨
    0 < v.cap ∧ ∃ i, v.ptr = some i ∧ h.live i = some ⟨v.cap * Γ.size t, Γ.align t⟩

/-- The vector `v` in heap `h` became `v'` in heap `h'`, which holds `es'`: all blocks other than
the vector's own are untouched; the capacity did not shrink, stays in proportion to `need` (the
number of elements that had to fit), and nothing was reallocated if `need` fitted before. -/
structure Evolves (Γ : TyEnv U) (t : TyId) (need : Nat) (es' : List Bytes)
    (h : Heap) (v : VecVoid) (h' : Heap) (v' : VecVoid) : Prop where
  repr : Repr Γ h' t es' v'
  realloc : Realloc h v.ptr h' v'.ptr
  cap_le : v.cap ≤ v'.cap
  cap_bound : v'.cap ≤ max v.cap (max 8 (2 * need))
  stay : need ≤ v.cap → v'.ptr = v.ptr ∧ v'.cap = v.cap ∧ h' = h

/-- `s` is an untyped view of the elements `es` of type `t`. -/
structure SRepr {V : Type} (Γ : TyEnv U) (t : TyId) (es : List Bytes) (s : SliceCopy V) : Prop where
  data : s.data = es.flatten
  each : ∀ e ∈ es, e.length = Γ.size t
  elem : s.elem = ElemInfo.new Γ t
  pos : 0 < Γ.size t
  /-- no slice is larger than the address space (guaranteed by Rust for every slice) -/
  bound : es.length * Γ.size t ≤ isizeMax

/-- The one layout/capacity for which growing the chunk buffer goes wrong: 3-byte elements of
alignment 1 in a container of capacity exactly 1 that must grow to exactly 2. -/
def BadGrowth (Γ : TyEnv U) (t : TyId) (cap need : Nat) : Prop :=
  Γ.size t = 3 ∧ Γ.align t = 1 ∧ cap = 1 ∧ need = 2

/-- A product of `usize` numbers does not silently wrap around: either it fits, or the build checks
overflow. -/
def NoWrap (cfg : Cfg) (n : Nat) : Prop := cfg.debug = true ∨ n ≤ usizeMax

/-! ### Ranges -/

/-- First index selected by a range. -/
def Rng.lo : Rng → Nat
  | .range a _ => a
  | .rangeTo _ => 0
  | .rangeFrom a => a
  | .full => 0
  | .inclusive a _ => a
  | .toInclusive _ => 0

/-- One past the last index selected by a range in a slice of `n` elements. -/
def Rng.hi (n : Nat) : Rng → Nat
  | .range _ b => b
  | .rangeTo b => b
  | .rangeFrom _ => n
  | .full => n
  | .inclusive _ b => b + 1
  | .toInclusive b => b + 1

/-- `a..b`, `a..`, `..b`, `..` -/
def Rng.halfOpen : Rng → Prop
  | .inclusive _ _ => False
  | .toInclusive _ => False
  | _ => True

end Dync
