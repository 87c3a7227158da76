import Verif.SliceLemmas
/-!
# A concrete program used in the non-vacuity examples and counterexamples

User state is a log of the destructor and clone calls.
-/
namespace Dync.Ex
open Dync

/-- What user code reports. -/
inductive Event where
  | dropped (t : TyId) (b : Bytes)
  | cloned (t : TyId) (b : Bytes)
deriving DecidableEq

abbrev Log := List Event

/-- 0 `()`, 1 `u8`, 2 `u32`, 3 `[u8; 3]`, 4 `(u32, u32)`, 5 `u64`, 6 an over-aligned type,
7 a type whose destructor panics on a first byte 255 and whose `clone` panics on 254,
8 a zero-sized type with a destructor, 9 `(u64, u64)`,
10 a `String`-like type of size 24 and alignment 8. Types 0-6 and 9 are `Copy`. -/
def size : TyId → Nat
  | 1 => 1 | 2 => 4 | 3 => 3 | 4 => 8 | 5 => 8 | 6 => 16384 | 7 => 8 | 9 => 16 | 10 => 24 | _ => 0
def align : TyId → Nat
  | 2 => 4 | 4 => 4 | 5 => 8 | 6 => 16384 | 7 => 8 | 9 => 8 | 10 => 8 | _ => 1

def drop (t : TyId) (b : Bytes) : M Log Unit :=
  if t = 7 ∧ b.head? = some (some 255) then M.panic .user
  else if t < 7 ∨ t = 9 then pure ()
  else M.modify (· ++ [.dropped t b])

def clone (t : TyId) (b : Bytes) : M Log Bytes :=
  if b.length ≠ size t then M.ub
  else if t = 7 ∧ b.head? = some (some 254) then M.panic .user
  else do M.modify (· ++ [.cloned t b]); pure b

theorem clone_len {t : TyId} {b : Bytes} {u : Log} {b' : Bytes} {u' : Log}
    (h : clone t b u = (.ok b', u')) : b'.length = size t := by
  unfold clone at h
  split at h
  · cases h
  · split at h
    · cases h
    · rename_i h1 h2
      cases h
      simpa using h1

/-- `clone_from` as `*self = src.clone()`: the old value is dropped. -/
def cloneFrom (t : TyId) (src : Bytes) : M (Bytes × Log) Unit := do
  let b ← M.zoom Prod.snd (fun u s => (s.1, u)) (clone t src)
  M.modify fun s => (b, s.2 ++ [.dropped t s.1])

/-- The type environment. -/
def env : TyEnv Log where
  size := size
  align := align
  align_pow := by
    intro t; unfold align
    split
    · exact ⟨2, by decide, rfl⟩
    · exact ⟨2, by decide, rfl⟩
    · exact ⟨3, by decide, rfl⟩
    · exact ⟨14, by decide, rfl⟩
    · exact ⟨3, by decide, rfl⟩
    · exact ⟨3, by decide, rfl⟩
    · exact ⟨3, by decide, rfl⟩
    · exact ⟨0, by decide, rfl⟩
  align_dvd := by
    intro t
    match t with
    | 0 | 1 | 2 | 3 | 4 | 5 | 6 | 7 | 8 | 9 | 10 => decide
    | n + 11 => simp [align]
  size_le := by
    intro t
    match t with
    | 0 | 1 | 2 | 3 | 4 | 5 | 6 | 7 | 8 | 9 | 10 => decide
    | n + 11 => simp [size]
  unitTy := 0
  unit_size := rfl
  unit_align := rfl
  drop := drop
  clone := clone
  clone_len := clone_len
  cloneFrom := cloneFrom
  cloneFrom_len := by
    intro t src d u r d' u' h hd
    simp only [cloneFrom, M.bind_run, M.zoom_run, M.modify_run] at h
    rcases hcl : clone t src u with ⟨rc, uc⟩
    rw [hcl] at h
    cases rc with
    | ok b => cases h; exact clone_len hcl
    | panic y => cases h; exact hd
    | ub => cases h; exact hd
    | abort => cases h; exact hd
  eq := fun _ a b => a == b
  hash := fun _ a => a.map fun b => b.getD 0
  fmt := fun _ a => toString (a.map fun b => (b.getD 0).toNat)

/-- A heap with one live block, at address 0. -/
def oneHeap (l : Layout) : Heap := ⟨1, fun i => if i = 0 then some l else none⟩

theorem oneHeap_wf (l : Layout) : (oneHeap l).WF := by
  intro i hi
  simp only [oneHeap] at *
  have : i ≠ 0 := by omega
  simp [this]

/-- The type-erased vector with elements `es` and capacity `cap`, living in block 0. -/
def vec (t : TyId) (es : List Bytes) (cap : Nat) : VecVoid :=
  ⟨some 0, es.length, cap, ElemInfo.new env t, es.flatten⟩

/-- The world in which `vec t es cap` lives. -/
def world (t : TyId) (cap : Nat) : World Log := ⟨oneHeap ⟨cap * size t, align t⟩, []⟩

theorem vec_repr {t : TyId} {es : List Bytes} {cap : Nat} (hp : 0 < size t)
    (he : ∀ e ∈ es, e.length = size t) (hc : es.length ≤ cap) (h0 : 0 < cap) (hr : Room env t cap) :
    Repr env (world t cap).heap t es (vec t es cap) :=
  ⟨rfl, Nat.div_mul_cancel (env.align_dvd t), rfl, hp, rfl, he, rfl, hc, h0, hr, 0, rfl, rfl⟩

/-- Some `u32` values. -/
def a1 : Bytes := [some 1, some 0, some 0, some 0]
def a2 : Bytes := [some 2, some 0, some 0, some 0]
def a3 : Bytes := [some 3, some 0, some 0, some 0]

/-- A container holding `[1u32, 2, 3]` with capacity 4. -/
def c123 : VecCopy Unit := ⟨vec 2 [a1, a2, a3] 4, ()⟩

theorem c123_repr : Repr env (world 2 4).heap 2 [a1, a2, a3] c123.data :=
  vec_repr (by decide) (by decide) (by decide) (by decide) (by unfold Room; decide)

theorem w4_wf : (world 2 4).heap.WF := oneHeap_wf _

end Dync.Ex
