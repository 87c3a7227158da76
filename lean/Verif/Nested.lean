import Verif.DynMachineLemmas3
/-!
# Containers of containers

The element type of a `VecDyn` may be a `VecDyn` again, to any depth. Its `Drop` and `Clone` are then those of
`src/vec_dyn.rs`, and are user code from the point of view of the container around it. The type environment in which the
elements are containers is made from the one in which the elements of those containers are given.

A container that is stored in a buffer has a byte image (pointer, length, capacity, element information and table). Two
containers that exist at the same time have different images, since their buffers are different; so the image tells
which container it is, and the pool below maps images to containers. The image of a new container is arbitrary among
those that are not in use.
-/
namespace Dync
variable {U : Type}

/-- The state of the code of a level: the containers that exist there, by their byte images, and the world of their
elements. The buffers of each level have an address space of their own (in Rust they share one, but no block is used by
two levels). -/
structure Nest (U : Type) where
  pool : Bytes → Option (VecDyn (CloneVTable U))
  world : World U

namespace Nest

/-- The container with image `b` is `c` from now on. -/
def set (s : Nest U) (b : Bytes) (c : Option (VecDyn (CloneVTable U))) (w : World U) : Nest U :=
  ⟨fun x => if x = b then c else s.pool x, w⟩

/-- Drop glue of a `VecDyn` whose image is `b` (src/vec_dyn.rs:84-99). A value that does not exist (any more) cannot be
dropped. -/
def drop (cfg : Cfg) (b : Bytes) : M (Nest U) Unit := ⟨fun s =>
  match s.pool b with
  | none => (.ub, s)
  | some c => ((VecDyn.drop cfg c s.world).1, s.set b none (VecDyn.drop cfg c s.world).2)⟩

/-- A new container gets an image. The process ends if there is none left (the address space is used up). -/
def enter (len : Nat) (fresh : Nest U → Bytes) (c : VecDyn (CloneVTable U)) : M (Nest U) Bytes := ⟨fun s =>
  if (fresh s).length = len ∧ (s.pool (fresh s)).isNone then (.ok (fresh s), s.set (fresh s) (some c) s.world)
  else (.abort, s)⟩

/-- `Clone` of a `VecDyn` whose image is `b` (src/vec_dyn.rs:101-122). -/
def clone (cfg : Cfg) (len : Nat) (fresh : Nest U → Bytes) (b : Bytes) : M (Nest U) Bytes := ⟨fun s =>
  match s.pool b with
  | none => (.ub, s)
  | some c =>
    match VecDyn.clone cfg c s.world with
    | (.ok c', w) => enter len fresh c' ⟨s.pool, w⟩
    | (.panic y, w) => (.panic y, ⟨s.pool, w⟩)
    | (.ub, w) => (.ub, ⟨s.pool, w⟩)
    | (.abort, w) => (.abort, ⟨s.pool, w⟩)⟩

/-- `Clone::clone_from` of a `VecDyn`: `impl Clone for VecDyn` (src/vec_dyn.rs:101-122) does not define it, so it is
`*self = source.clone()`; the assignment drops the old value and stores the new one also if that panics. -/
def cloneFrom (cfg : Cfg) (len : Nat) (fresh : Nest U → Bytes) (src : Bytes) : M (Bytes × Nest U) Unit := ⟨fun s =>
  match clone cfg len fresh src s.2 with
  | (.ok b, s') => ((drop cfg s.1 s').1, (b, (drop cfg s.1 s').2))
  | (.panic y, s') => (.panic y, (s.1, s'))
  | (.ub, s') => (.ub, (s.1, s'))
  | (.abort, s') => (.abort, (s.1, s'))⟩

theorem clone_len {cfg : Cfg} {len : Nat} {fresh : Nest U → Bytes} {b b' : Bytes} {s s' : Nest U}
    (h : clone cfg len fresh b s = (.ok b', s')) : b'.length = len := by
  unfold clone at h
  dsimp only at h
  split at h
  · cases h
  · split at h
    · unfold enter at h
      dsimp only at h
      split at h
      · rename_i hc; cases h; exact hc.1
      · cases h
    · cases h
    · cases h
    · cases h

/-- The type of the containers of a level. -/
abbrev ty : TyId := 1

end Nest

/-- The size of a `VecDyn` in words (src/vec_dyn.rs:75-80, src/vec_copy.rs:52-62, src/vec_void.rs:13-23; it depends on
the compiler, and on whether the table is in a box), the build mode, and how images are chosen. -/
structure Nesting (U : Type) where
  cfg : Cfg
  words : Nat
  pos : 0 < words
  small : 8 * words ≤ isizeMax
  /-- state of the code at depth `n`, and the image for a new container -/
  fresh : {W : Type} → Nest W → Bytes

/-- The environment whose type `1` is the type of containers with elements of the environment `Γ`. Only `Drop` and
`Clone` are given here: `PartialEq`, `Hash` and `Debug` of containers are in `Verif/NestedCompare.lean`. -/
def TyEnv.nest (N : Nesting U) {W : Type} (Γ : TyEnv W) : TyEnv (Nest W) where
  size t := if t = Nest.ty then 8 * N.words else 0
  align t := if t = Nest.ty then 8 else 1
  align_pow t := by
    by_cases h : t = Nest.ty
    · exact ⟨3, by decide, by rw [if_pos h]⟩
    · exact ⟨0, by decide, by rw [if_neg h]⟩
  align_dvd t := by
    by_cases h : t = Nest.ty
    · rw [if_pos h, if_pos h]; exact Nat.dvd_mul_right 8 _
    · rw [if_neg h, if_neg h]; exact Nat.dvd_refl 1 |>.trans (by decide)
  size_le t := by
    by_cases h : t = Nest.ty
    · rw [if_pos h]; exact N.small
    · rw [if_neg h]; exact Nat.zero_le _
  unitTy := 0
  unit_size := rfl
  unit_align := rfl
  drop t b := if t = Nest.ty then Nest.drop N.cfg b else pure ()
  clone t b := if t = Nest.ty then Nest.clone N.cfg (8 * N.words) N.fresh b else pure []
  clone_len := by
    intro t b u b' u' h
    by_cases ht : t = Nest.ty
    · rw [if_pos ht] at h ⊢; exact Nest.clone_len h
    · rw [if_neg ht] at h ⊢; cases h; rfl
  cloneFrom t b := if t = Nest.ty then Nest.cloneFrom N.cfg (8 * N.words) N.fresh b else pure ()
  cloneFrom_len := by
    intro t src d u r d' u' h hd
    by_cases ht : t = Nest.ty
    · rw [if_pos ht] at h
      unfold Nest.cloneFrom at h
      dsimp only at h
      split at h
      · rename_i hc
        cases h
        rw [if_pos ht]
        exact Nest.clone_len hc
      all_goals cases h; exact hd
    · rw [if_neg ht] at h; cases h; exact hd
  eq _ _ _ := true
  hash _ _ := []
  fmt _ _ := ""

/-- The state of the code at depth `n`: the user's at depth 0. -/
def Depth (U : Type) : Nat → Type
  | 0 => U
  | n + 1 => Nest (Depth U n)

/-- The state of the user's own code. -/
def Depth.base : {n : Nat} → Depth U n → U
  | 0, u => u
  | _ + 1, s => Depth.base (Nest.world s).user

/-- The environment of the values at depth `n`. -/
def TyEnv.depth (Γ : TyEnv U) (N : Nesting U) : (n : Nat) → TyEnv (Depth U n)
  | 0 => Γ
  | n + 1 => TyEnv.nest N (Γ.depth N n)

/-- The type of the values at depth `n`: `t` at depth 0, a container of values of depth `n` at depth `n + 1`. -/
def depthTy (t : TyId) : Nat → TyId
  | 0 => t
  | _ + 1 => Nest.ty

/-! ### Specification: nested lists -/

/-- A value at depth `n`: a list of values of depth `n - 1`, or a value of the user's type. -/
def Tree : Nat → Type
  | 0 => Bytes
  | n + 1 => List (Tree n)

/-- Dropping nested lists: the user's `Drop` on each of the values, from left to right, until one panics. -/
def dropTree (Γ : TyEnv U) (t : TyId) : (n : Nat) → Tree n → M U Unit
  | 0, x => Γ.drop t x
  | n + 1, ts => M.forEach (α := Tree n) ts (dropTree Γ t n)

/-- Cloning nested lists: the user's `Clone` on each of the values, from left to right, until one panics. -/
def cloneTree (Γ : TyEnv U) (t : TyId) : (n : Nat) → Tree n → M U (Tree n)
  | 0, x => Γ.clone t x
  | n + 1, ts => M.mapEach (α := Tree n) (β := Tree n) ts (cloneTree Γ t n)

/-- A container with its elements: their images and what they are. -/
abbrev Node (n : Nat) : Type := Bytes × List (Bytes × Tree n)

/-- The container as a value. -/
def Node.value {n : Nat} (p : Node n) : Bytes × Tree (n + 1) := (p.1, p.2.map Prod.snd)

/-- Variables of all levels below `n`. -/
def Vars (A : Nat → Type) : Nat → Type
  | 0 => Unit
  | n + 1 => List (A n) × Vars A n

/-- The same for each of the variables. -/
def Vars.map {A B : Nat → Type} (f : (n : Nat) → A n → B n) : {n : Nat} → Vars A n → Vars B n
  | 0, _ => ()
  | n + 1, (vs, below) => (vs.map (f n), Vars.map f below)

/-- No variables. -/
def Vars.none {A : Nat → Type} : (n : Nat) → Vars A n
  | 0 => ()
  | n + 1 => ([], Vars.none n)

/-- Values of all levels below `n`, as images and what they are. -/
abbrev Below : Nat → Type := Vars fun n => Bytes × Tree n

section
variable (Γ : TyEnv U) (t : TyId) (N : Nesting U)

/-- The containers `ns` are exactly those that exist in `s`: each of them has a buffer of its own, with the images of its
elements, and the table of its element type. If nothing has been leaked, all blocks of memory are such buffers. -/
structure Nodes (leaks : Bool) (n : Nat) (s : Nest (Depth U n)) (ns : List (Node n)) : Prop where
  is : ∀ p ∈ ns, p.1.length = 8 * N.words ∧ ∃ d, s.pool p.1 = some ⟨d, CloneVTable.build (Γ.depth N n) (depthTy t n)⟩ ∧
    Repr (Γ.depth N n) s.world.heap (depthTy t n) (p.2.map Prod.fst) d
  only : ∀ b c, s.pool b = some c → b ∈ ns.map Prod.fst
  nodup : (ns.map Prod.fst).Nodup
  apart : ∀ b b' c c', s.pool b = some c → s.pool b' = some c' → c.data.ptr = c'.data.ptr → b = b'
  blocks : leaks = false → ∀ i l, s.world.heap.live i = some l → ∃ b c, s.pool b = some c ∧ c.data.ptr = some i
  wf : s.world.heap.WF

/-- At depth `n` exactly the values `vs` exist (up to their order), each of them as an image and what it is; and every
container, buffer and value of the levels below is held by a variable (`held`), or belongs to exactly one of the
containers above, or has been leaked (`leaks`). -/
def Forest (leaks : Bool) : (n : Nat) → Depth U n → List (Bytes × Tree n) → Below n → Prop
  | 0, _, vs, _ => ∀ v ∈ vs, v.2 = v.1 ∧ v.1.length = Γ.size t
  | n + 1, s, vs, held => ∃ (ns : List (Node n)) (lost : List (Bytes × Tree n)), (ns.map Node.value).Perm vs ∧
      Nodes Γ t N leaks n s ns ∧ (leaks = false → lost = []) ∧
      Forest leaks n (Nest.world s).user ((lost ++ held.1) ++ ns.flatMap Prod.snd) held.2

end

/-! ### Programs -/

/-- What a program does with its variables at depth `n`. Variables are numbered at each depth, a new one comes first. An
action on variables that the program does not have does nothing. -/
inductive Act : Nat → Type
  /-- a new value of the user's type -/
  | value (x : Bytes) : Act 0
  /-- `drop` of a variable -/
  | drop {n : Nat} (i : Nat) : Act n
  /-- a clone of a variable -/
  | clone {n : Nat} (i : Nat) : Act n
  /-- a new container: `VecDyn::with_type` -/
  | new {n : Nat} : Act (n + 1)
  /-- a new container with room for `k` elements: `VecDyn::with_capacity` -/
  | room {n : Nat} (k : Nat) : Act (n + 1)
  /-- move the variable `j` of the depth below into the container in the variable `i`: `push_as` -/
  | push {n : Nat} (i j : Nat) : Act (n + 1)
  /-- take the container in the variable `i` apart: `into_vec`, and a new variable for each of the elements -/
  | take {n : Nat} (i : Nat) : Act (n + 1)
  /-- move the first `k` variables of the depth below (or all of them, if they are fewer) into a `Vec` and make a container of
  it: `from_vec` -/
  | pack {n : Nat} (k : Nat) : Act (n + 1)
  /-- a clone of the element `k` of the container in the variable `i`: `get_ref_as` -/
  | pick {n : Nat} (i k : Nat) : Act (n + 1)
  /-- `mem::swap` of the element `k` of the container in the variable `i` and the variable `j` of the depth below:
  `get_mut_as` -/
  | swap {n : Nat} (i k j : Nat) : Act (n + 1)
  /-- `clear` of the container in the variable `i` -/
  | clear {n : Nat} (i : Nat) : Act (n + 1)
  /-- move the elements of the container in the variable `j` to the end of the one in the variable `i`: `append`. The
  elements are containers here (`append` of containers with the user's values is the subject of C08 and C71). -/
  | append {n : Nat} (i j : Nat) : Act (n + 2)
  /-- `rotate_left` or `rotate_right` by `k` of the container in the variable `i`, after the program has asserted that `k` is
  at most the length (a larger `k` is the subject of C36). The elements are containers here. -/
  | rotate {n : Nat} (left : Bool) (i k : Nat) : Act (n + 2)
  /-- an action at the depth below -/
  | inner {n : Nat} (a : Act n) : Act (n + 1)

namespace Nest

/-- `VecDyn::with_type` (src/vec_dyn.rs:152-161, src/vec_copy.rs:68-84). -/
def new (len : Nat) (fresh : Nest U → Bytes) (Γ : TyEnv U) (t : TyId) : M (Nest U) Bytes := ⟨fun s =>
  match VecCopy.withType Γ t (CloneVTable.build Γ t) s.world with
  | (.ok c, w) => enter len fresh c ⟨s.pool, w⟩
  | (.panic y, w) => (.panic y, ⟨s.pool, w⟩)
  | (.ub, w) => (.ub, ⟨s.pool, w⟩)
  | (.abort, w) => (.abort, ⟨s.pool, w⟩)⟩

/-- `VecDyn::with_capacity` (src/vec_dyn.rs:165-174, src/vec_copy.rs:88-104). The process ends if the buffer would have to
be larger than the address space (in Rust that is a panic). -/
def room (len : Nat) (fresh : Nest U → Bytes) (Γ : TyEnv U) (t : TyId) (k : Nat) : M (Nest U) Bytes := ⟨fun s =>
  if k * Γ.size t + (Γ.align t - 1) ≤ isizeMax then
    match VecCopy.withCapacity Γ t (CloneVTable.build Γ t) k s.world with
    | (.ok c, w) => enter len fresh c ⟨s.pool, w⟩
    | (.panic y, w) => (.panic y, ⟨s.pool, w⟩)
    | (.ub, w) => (.ub, ⟨s.pool, w⟩)
    | (.abort, w) => (.abort, ⟨s.pool, w⟩)
  else (.abort, s)⟩

/-- `VecDyn::push_as` (src/vec_dyn.rs:275-278) of the value with image `x` on the container with image `b`. The length and
perhaps the buffer change, so the image does. The process ends if the buffer would have to become larger than the
address space (in Rust that is a panic, after which the value is dropped; it cannot happen before the memory is used
up). -/
def push (cfg : Cfg) (len : Nat) (fresh : Nest U → Bytes) (Γ : TyEnv U) (t : TyId) (b x : Bytes) : M (Nest U) Bytes := ⟨fun s =>
  match s.pool b with
  | none => (.ub, s)
  | some c =>
    if max 8 (max (2 * c.data.cap) (c.data.len + 1)) * Γ.size t + (Γ.align t - 1) ≤ isizeMax then
      match VecCopy.pushAs Γ cfg t x (c, s.world) with
      | (.ok _, (c', w)) => enter len fresh c' (s.set b none w)
      | (.panic y, (c', w)) => (.panic y, s.set b (some c') w)
      | (.ub, (c', w)) => (.ub, s.set b (some c') w)
      | (.abort, (c', w)) => (.abort, s.set b (some c') w)
    else (.abort, s)⟩

/-- `VecDyn::into_vec` (src/vec_dyn.rs:351-361) on the container with image `b`. The elements are moved out of the `Vec`, and
then its buffer is freed (`IntoIter` of the standard library). -/
def take (cfg : Cfg) (Γ : TyEnv U) (t : TyId) (b : Bytes) : M (Nest U) (List Bytes) := ⟨fun s =>
  match s.pool b with
  | none => (.ub, s)
  | some c =>
    match (VecCopy.intoVec Γ cfg t c s.world) with
    | (.ok (some v), w) => match v.dropBuf (Γ.layout t) w with
      | (.ok _, w') => (.ok (v.elems (Γ.size t)), s.set b none w')
      | (.panic y, w') => (.panic y, s.set b none w')
      | (.ub, w') => (.ub, s.set b none w')
      | (.abort, w') => (.abort, s.set b none w')
    | (.ok none, w) => (.panic .unwrapNone, s.set b none w)
    | (.panic y, w) => (.panic y, s.set b none w)
    | (.ub, w) => (.ub, s.set b none w)
    | (.abort, w) => (.abort, s.set b none w)⟩

/-- `VecDyn::from_vec` (src/vec_dyn.rs:178-187, src/vec_copy.rs:134-160) of a `Vec` that the program has made with room for
exactly these elements. The process ends if the `Vec` would have to be larger than the address space. -/
def pack (len : Nat) (fresh : Nest U → Bytes) (Γ : TyEnv U) (t : TyId) (xs : List Bytes) : M (Nest U) Bytes := ⟨fun s =>
  if xs.length * Γ.size t + (Γ.align t - 1) ≤ isizeMax then
    match RVec.withCapacity (Γ.layout t) xs.length s.world with
    | (.ok v, w) => match VecCopy.fromVec Γ t (CloneVTable.build Γ t) { v with len := xs.length, bytes := xs.flatten } w with
      | (.ok c, w') => enter len fresh c ⟨s.pool, w'⟩
      | (.panic y, w') => (.panic y, ⟨s.pool, w'⟩)
      | (.ub, w') => (.ub, ⟨s.pool, w'⟩)
      | (.abort, w') => (.abort, ⟨s.pool, w'⟩)
    | (.panic y, w) => (.panic y, ⟨s.pool, w⟩)
    | (.ub, w) => (.ub, ⟨s.pool, w⟩)
    | (.abort, w) => (.abort, ⟨s.pool, w⟩)
  else (.abort, s)⟩

/-- `VecDyn::get_ref_as` (src/vec_dyn.rs:379-381) on the container with image `b`, and a clone of the element. -/
def pick (Γ : TyEnv U) (t : TyId) (b : Bytes) (k : Nat) : M (Nest U) Bytes := ⟨fun s =>
  match s.pool b with
  | none => (.ub, s)
  | some c =>
    match VecCopy.getAs Γ t k c s.world with
    | (.ok (some x), w) => ((Γ.clone t x w.user).1, ⟨s.pool, ⟨w.heap, (Γ.clone t x w.user).2⟩⟩)
    | (.ok none, w) => (.panic .unwrapNone, ⟨s.pool, w⟩)
    | (.panic y, w) => (.panic y, ⟨s.pool, w⟩)
    | (.ub, w) => (.ub, ⟨s.pool, w⟩)
    | (.abort, w) => (.abort, ⟨s.pool, w⟩)⟩

/-- `VecDyn::get_mut_as` (src/vec_dyn.rs:385-387) on the container with image `b`, and `mem::swap` of the element and a value
with image `x`. Pointer, length and capacity do not change, and so the image of the container does not. -/
def swap (Γ : TyEnv U) (t : TyId) (b : Bytes) (k : Nat) (x : Bytes) : M (Nest U) Bytes := ⟨fun s =>
  match s.pool b with
  | none => (.ub, s)
  | some c =>
    match VecCopy.getMutAs Γ t k (⟨fun e => (.ok e.1, (x, e.2))⟩ : M (Bytes × World U) Bytes) (c, s.world) with
    | (.ok (some y), (c', w)) => (.ok y, s.set b (some c') w)
    | (.ok none, (c', w)) => (.panic .unwrapNone, s.set b (some c') w)
    | (.panic y, (c', w)) => (.panic y, s.set b (some c') w)
    | (.ub, (c', w)) => (.ub, s.set b (some c') w)
    | (.abort, (c', w)) => (.abort, s.set b (some c') w)⟩

/-- `VecDyn::clear` (src/vec_dyn.rs:258-267) of the container with image `b`. The length changes, so the image does; if a
destructor panics, the container keeps its length. -/
def clear (cfg : Cfg) (len : Nat) (fresh : Nest U → Bytes) (Γ : TyEnv U) (b : Bytes) : M (Nest U) Bytes := ⟨fun s =>
  match s.pool b with
  | none => (.ub, s)
  | some c =>
    match VecDyn.clear Γ cfg (c, s.world) with
    | (.ok _, (c', w)) => enter len fresh c' (s.set b none w)
    | (.panic y, (c', w)) => (.panic y, s.set b (some c') w)
    | (.ub, (c', w)) => (.ub, s.set b (some c') w)
    | (.abort, (c', w)) => (.abort, s.set b (some c') w)⟩

/-- `VecDyn::append` (src/vec_dyn.rs:393-397) of the container with image `b'` to the one with image `b`. The lengths and
perhaps a buffer change, so the images do. The process ends if the buffer would have to become larger than the address
space, as for `push`. -/
def append (cfg : Cfg) (len : Nat) (fresh : Nest U → Bytes) (Γ : TyEnv U) (b b' : Bytes) (t : TyId) : M (Nest U) (Bytes × Bytes) := ⟨fun s =>
  match s.pool b, s.pool b' with
  | some c, some c' =>
    if max 8 (max (2 * c.data.cap) (c.data.len + c'.data.len)) * Γ.size t + (Γ.align t - 1) ≤ isizeMax then
      match VecCopy.append Γ cfg (c, ⟨s.world.heap, (c', s.world.user)⟩) with
      | (.ok (some _), (c, w)) =>
        match enter len fresh c (s.set b none ⟨w.heap, w.user.2⟩) with
        | (.ok x, s') =>
          match enter len fresh w.user.1 (s'.set b' none s'.world) with
          | (.ok y, s') => (.ok (x, y), s')
          | (_, s') => (.abort, s')
        | (_, s') => (.abort, s')
      | (.ok none, (c, w)) => (.panic .unwrapNone, (s.set b (some c) s.world).set b' (some w.user.1) ⟨w.heap, w.user.2⟩)
      | (.panic y, (c, w)) => (.panic y, (s.set b (some c) s.world).set b' (some w.user.1) ⟨w.heap, w.user.2⟩)
      | (.ub, (c, w)) => (.ub, (s.set b (some c) s.world).set b' (some w.user.1) ⟨w.heap, w.user.2⟩)
      | (.abort, (c, w)) => (.abort, (s.set b (some c) s.world).set b' (some w.user.1) ⟨w.heap, w.user.2⟩)
    else (.abort, s)
  | _, _ => (.ub, s)⟩

/-- `VecDyn::rotate_left` (src/vec_dyn.rs:405-407) or `rotate_right` (src/vec_dyn.rs:415-417) of the container with image `b`,
after `assert!(k <= v.len())` in the program. Pointer, length and capacity do not change, and so the image does not. -/
def rotate (cfg : Cfg) (left : Bool) (Γ : TyEnv U) (b : Bytes) (k : Nat) : M (Nest U) Unit := ⟨fun s =>
  match s.pool b with
  | none => (.ub, s)
  | some c =>
    if k ≤ VecCopy.len c then
      let out := (if left then VecCopy.rotateLeft Γ cfg k else VecCopy.rotateRight Γ cfg k) (c, s.world)
      (out.1, s.set b (some out.2.1) out.2.2)
    else (.panic .assertion, s)⟩

end Nest

/-- Specification: a list rotated by `k` places. -/
def rotated {α : Type} (left : Bool) (k : Nat) (l : List α) : List α :=
  if left then l.drop k ++ l.take k else l.drop (l.length - k) ++ l.take (l.length - k)

/-- What an action does with the images in the variables and the state of the code. -/
def Act.run (Γ : TyEnv U) (t : TyId) (N : Nesting U) : {n : Nat} → Act n → M (Vars (fun _ => Bytes) (n + 1) × Depth U n) Unit
  | _, .value x => ⟨fun ((vs, low), s) => if x.length = Γ.size t then (.ok (), ((x :: vs, low), s)) else (.ok (), ((vs, low), s))⟩
  | n, .drop i => ⟨fun ((vs, low), s) =>
    match vs[i]? with
    | none => (.ok (), ((vs, low), s))
    | some b => (((Γ.depth N n).drop (depthTy t n) b s).1, ((vs.eraseIdx i, low), ((Γ.depth N n).drop (depthTy t n) b s).2))⟩
  | n, .clone i => ⟨fun ((vs, low), s) =>
    match vs[i]? with
    | none => (.ok (), ((vs, low), s))
    | some b =>
      match (Γ.depth N n).clone (depthTy t n) b s with
      | (.ok b', s') => (.ok (), ((b' :: vs, low), s'))
      | (.panic y, s') => (.panic y, ((vs, low), s'))
      | (.ub, s') => (.ub, ((vs, low), s'))
      | (.abort, s') => (.abort, ((vs, low), s'))⟩
  | n + 1, .new => ⟨fun ((vs, low), s) =>
    match Nest.new (8 * N.words) N.fresh (Γ.depth N n) (depthTy t n) s with
    | (.ok b, s') => (.ok (), ((b :: vs, low), s'))
    | (.panic y, s') => (.panic y, ((vs, low), s'))
    | (.ub, s') => (.ub, ((vs, low), s'))
    | (.abort, s') => (.abort, ((vs, low), s'))⟩
  | n + 1, .room k => ⟨fun ((vs, low), s) =>
    match Nest.room (8 * N.words) N.fresh (Γ.depth N n) (depthTy t n) k s with
    | (.ok b, s') => (.ok (), ((b :: vs, low), s'))
    | (.panic y, s') => (.panic y, ((vs, low), s'))
    | (.ub, s') => (.ub, ((vs, low), s'))
    | (.abort, s') => (.abort, ((vs, low), s'))⟩
  | n + 1, .push i j => ⟨fun ((vs, (us, low)), s) =>
    match vs[i]?, us[j]? with
    | some b, some x =>
      match Nest.push N.cfg (8 * N.words) N.fresh (Γ.depth N n) (depthTy t n) b x s with
      | (.ok b', s') => (.ok (), ((vs.set i b', (us.eraseIdx j, low)), s'))
      | (.panic y, s') => (.panic y, ((vs, (us.eraseIdx j, low)), s'))
      | (.ub, s') => (.ub, ((vs, (us.eraseIdx j, low)), s'))
      | (.abort, s') => (.abort, ((vs, (us.eraseIdx j, low)), s'))
    | _, _ => (.ok (), ((vs, (us, low)), s))⟩
  | n + 1, .take i => ⟨fun ((vs, (us, low)), s) =>
    match vs[i]? with
    | none => (.ok (), ((vs, (us, low)), s))
    | some b =>
      match Nest.take N.cfg (Γ.depth N n) (depthTy t n) b s with
      | (.ok es, s') => (.ok (), ((vs.eraseIdx i, (es ++ us, low)), s'))
      | (.panic y, s') => (.panic y, ((vs.eraseIdx i, (us, low)), s'))
      | (.ub, s') => (.ub, ((vs.eraseIdx i, (us, low)), s'))
      | (.abort, s') => (.abort, ((vs.eraseIdx i, (us, low)), s'))⟩
  | n + 1, .pack k => ⟨fun ((vs, (us, low)), s) =>
    match Nest.pack (8 * N.words) N.fresh (Γ.depth N n) (depthTy t n) (us.take k) s with
    | (.ok b, s') => (.ok (), ((b :: vs, (us.drop k, low)), s'))
    | (.panic y, s') => (.panic y, ((vs, (us.drop k, low)), s'))
    | (.ub, s') => (.ub, ((vs, (us.drop k, low)), s'))
    | (.abort, s') => (.abort, ((vs, (us.drop k, low)), s'))⟩
  | n + 1, .pick i k => ⟨fun ((vs, (us, low)), s) =>
    match vs[i]? with
    | none => (.ok (), ((vs, (us, low)), s))
    | some b =>
      match Nest.pick (Γ.depth N n) (depthTy t n) b k s with
      | (.ok x, s') => (.ok (), ((vs, (x :: us, low)), s'))
      | (.panic y, s') => (.panic y, ((vs, (us, low)), s'))
      | (.ub, s') => (.ub, ((vs, (us, low)), s'))
      | (.abort, s') => (.abort, ((vs, (us, low)), s'))⟩
  | n + 1, .swap i k j => ⟨fun ((vs, (us, low)), s) =>
    match vs[i]?, us[j]? with
    | some b, some x =>
      match Nest.swap (Γ.depth N n) (depthTy t n) b k x s with
      | (.ok y, s') => (.ok (), ((vs, (us.set j y, low)), s'))
      | (.panic y, s') => (.panic y, ((vs, (us, low)), s'))
      | (.ub, s') => (.ub, ((vs, (us, low)), s'))
      | (.abort, s') => (.abort, ((vs, (us, low)), s'))
    | _, _ => (.ok (), ((vs, (us, low)), s))⟩
  | n + 1, .clear i => ⟨fun ((vs, low), s) =>
    match vs[i]? with
    | none => (.ok (), ((vs, low), s))
    | some b =>
      match Nest.clear N.cfg (8 * N.words) N.fresh (Γ.depth N n) b s with
      | (.ok b', s') => (.ok (), ((vs.set i b', low), s'))
      | (.panic y, s') => (.panic y, ((vs, low), s'))
      | (.ub, s') => (.ub, ((vs, low), s'))
      | (.abort, s') => (.abort, ((vs, low), s'))⟩
  | n + 2, .append i j => ⟨fun ((vs, low), s) =>
    if i = j then (.ok (), ((vs, low), s))
    else match vs[i]?, vs[j]? with
    | some b, some b' =>
      match Nest.append N.cfg (8 * N.words) N.fresh (Γ.depth N (n + 1)) b b' (depthTy t (n + 1)) s with
      | (.ok (x, y), s') => (.ok (), (((vs.set i x).set j y, low), s'))
      | (.panic y, s') => (.panic y, ((vs, low), s'))
      | (.ub, s') => (.ub, ((vs, low), s'))
      | (.abort, s') => (.abort, ((vs, low), s'))
    | _, _ => (.ok (), ((vs, low), s))⟩
  | n + 2, .rotate left i k => ⟨fun ((vs, low), s) =>
    match vs[i]? with
    | none => (.ok (), ((vs, low), s))
    | some b => ((Nest.rotate N.cfg left (Γ.depth N (n + 1)) b k s).1, ((vs, low), (Nest.rotate N.cfg left (Γ.depth N (n + 1)) b k s).2))⟩
  | n + 1, .inner a => ⟨fun ((vs, low), s) =>
    ((a.run Γ t N (low, (Nest.world s).user)).1, ((vs, (a.run Γ t N (low, (Nest.world s).user)).2.1),
      (⟨Nest.pool s, ⟨(Nest.world s).heap, (a.run Γ t N (low, (Nest.world s).user)).2.2⟩⟩ : Nest (Depth U n))))⟩

/-- Specification: what an action does with nested lists and the state of the user's code. -/
def Act.spec (Γ : TyEnv U) (t : TyId) : {n : Nat} → Act n → M (Vars Tree (n + 1) × U) Unit
  | _, .value x => ⟨fun ((vs, low), u) => if x.length = Γ.size t then (.ok (), ((List.cons (α := Tree 0) x vs, low), u)) else (.ok (), ((vs, low), u))⟩
  | n, .drop i => ⟨fun ((vs, low), u) =>
    match vs[i]? with
    | none => (.ok (), ((vs, low), u))
    | some T => ((dropTree Γ t n T u).1, ((vs.eraseIdx i, low), (dropTree Γ t n T u).2))⟩
  | n, .clone i => ⟨fun ((vs, low), u) =>
    match vs[i]? with
    | none => (.ok (), ((vs, low), u))
    | some T =>
      match cloneTree Γ t n T u with
      | (.ok T', u') => (.ok (), ((T' :: vs, low), u'))
      | (.panic y, u') => (.panic y, ((vs, low), u'))
      | (.ub, u') => (.ub, ((vs, low), u'))
      | (.abort, u') => (.abort, ((vs, low), u'))⟩
  | n + 1, .new => ⟨fun ((vs, low), u) => (.ok (), ((List.cons (α := Tree (n + 1)) (List.nil (α := Tree n)) vs, low), u))⟩
  | n + 1, .room _ => ⟨fun ((vs, low), u) => (.ok (), ((List.cons (α := Tree (n + 1)) (List.nil (α := Tree n)) vs, low), u))⟩
  | n + 1, .push i j => ⟨fun ((vs, (us, low)), u) =>
    match vs[i]?, us[j]? with
    | some T, some x => (.ok (), ((vs.set i (List.append (α := Tree n) T [x]), (us.eraseIdx j, low)), u))
    | _, _ => (.ok (), ((vs, (us, low)), u))⟩
  | n + 1, .take i => ⟨fun ((vs, (us, low)), u) =>
    match vs[i]? with
    | none => (.ok (), ((vs, (us, low)), u))
    | some T => (.ok (), ((vs.eraseIdx i, (List.append (α := Tree n) T us, low)), u))⟩
  | n + 1, .pack k => ⟨fun ((vs, (us, low)), u) =>
    (.ok (), ((List.cons (α := Tree (n + 1)) (us.take k) vs, (us.drop k, low)), u))⟩
  | n + 1, .pick i k => ⟨fun ((vs, (us, low)), u) =>
    match vs[i]? with
    | none => (.ok (), ((vs, (us, low)), u))
    | some T =>
      match (show List (Tree n) from T)[k]? with
      | none => (.panic .assertion, ((vs, (us, low)), u))
      | some x =>
        match cloneTree Γ t n x u with
        | (.ok x', u') => (.ok (), ((vs, (x' :: us, low)), u'))
        | (.panic y, u') => (.panic y, ((vs, (us, low)), u'))
        | (.ub, u') => (.ub, ((vs, (us, low)), u'))
        | (.abort, u') => (.abort, ((vs, (us, low)), u'))⟩
  | n + 1, .swap i k j => ⟨fun ((vs, (us, low)), u) =>
    match vs[i]?, us[j]? with
    | some T, some x =>
      match (show List (Tree n) from T)[k]? with
      | none => (.panic .assertion, ((vs, (us, low)), u))
      | some y => (.ok (), ((vs.set i (List.set (α := Tree n) T k x), (us.set j y, low)), u))
    | _, _ => (.ok (), ((vs, (us, low)), u))⟩
  | n + 1, .clear i => ⟨fun ((vs, low), u) =>
    match vs[i]? with
    | none => (.ok (), ((vs, low), u))
    | some T => ((dropTree Γ t (n + 1) T u).1, ((vs.set i (List.nil (α := Tree n)), low), (dropTree Γ t (n + 1) T u).2))⟩
  | n + 2, .append i j => ⟨fun ((vs, low), u) =>
    if i = j then (.ok (), ((vs, low), u))
    else match vs[i]?, vs[j]? with
    | some T, some T' =>
      (.ok (), (((vs.set i (List.append (α := Tree (n + 1)) T T')).set j (List.nil (α := Tree (n + 1))), low), u))
    | _, _ => (.ok (), ((vs, low), u))⟩
  | n + 2, .rotate left i k => ⟨fun ((vs, low), u) =>
    match vs[i]? with
    | none => (.ok (), ((vs, low), u))
    | some T =>
      if k ≤ List.length (α := Tree (n + 1)) T then (.ok (), ((vs.set i (rotated (α := Tree (n + 1)) left k T), low), u))
      else (.panic .assertion, ((vs, low), u))⟩
  | n + 1, .inner a => ⟨fun ((vs, low), u) =>
    ((a.spec Γ t (low, u)).1, ((vs, (a.spec Γ t (low, u)).2.1), (a.spec Γ t (low, u)).2.2))⟩

/-- The action clears a container. -/
def Act.clears : {n : Nat} → Act n → Bool
  | _, .clear _ => true
  | _, .inner a => a.clears
  | _, _ => false

/-- When the program, run on nested lists from `q`, clears a container, the user's `Drop` does not panic. It may panic anywhere
else. -/
def ClearsCalmly (Γ : TyEnv U) (t : TyId) {n : Nat} : List (Act n) → Vars Tree (n + 1) × U → Prop
  | [], _ => True
  | a :: as, q => (a.clears = true → ∀ y, (a.spec Γ t q).1 ≠ .panic y) ∧ ClearsCalmly Γ t as (a.spec Γ t q).2

/-- A program: one action after the other. Panics are caught (`catch_unwind`), and the program sees them. -/
def runActs {σ : Type} {A : Type} (f : A → M σ Unit) : List A → σ → Res (List (Option Why)) × σ
  | [], s => (.ok [], s)
  | a :: as, s =>
    match f a s with
    | (.ok _, s') => match runActs f as s' with
      | (.ok rs, s2) => (.ok (none :: rs), s2)
      | (.panic y, s2) => (.panic y, s2)
      | (.ub, s2) => (.ub, s2)
      | (.abort, s2) => (.abort, s2)
    | (.panic y, s') => match runActs f as s' with
      | (.ok rs, s2) => (.ok (some y :: rs), s2)
      | (.panic y, s2) => (.panic y, s2)
      | (.ub, s2) => (.ub, s2)
      | (.abort, s2) => (.abort, s2)
    | (.ub, s') => (.ub, s')
    | (.abort, s') => (.abort, s')

/-- No container and no block of memory exists at any of the levels below `n`. -/
def Clean : (n : Nat) → Depth U n → Prop
  | 0, _ => True
  | n + 1, s => (∀ b, Nest.pool s b = none) ∧ (∀ i, (Nest.world s).heap.live i = none) ∧ Clean n (Nest.world s).user

/-- The memory of each level is in order. -/
def Depth.WF : (n : Nat) → Depth U n → Prop
  | 0, _ => True
  | n + 1, s => (Nest.world s).heap.WF ∧ Depth.WF n (Nest.world s).user

/-- The variables with images `vars` are the nested lists `trees`, and nothing else exists unless it was leaked. -/
def ActsAgree (Γ : TyEnv U) (t : TyId) (N : Nesting U) (leaks : Bool) (n : Nat) (s : Vars (fun _ => Bytes) (n + 1) × Depth U n)
    (q : Vars Tree (n + 1) × U) : Prop :=
  s.2.base = q.2 ∧ ∃ (v : Below (n + 1)) (lost : List (Bytes × Tree n)), v.map (fun _ => Prod.fst) = s.1 ∧ v.map (fun _ => Prod.snd) = q.1 ∧
    (leaks = false → lost = []) ∧ Forest Γ t N leaks n s.2 (lost ++ v.1) v.2

end Dync
