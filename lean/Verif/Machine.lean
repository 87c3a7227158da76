import Verif.History
/-!
# Specification: what every program over `VecCopy` containers does, without any restriction

`Op.spec` (`Verif/History.lean`) says what the operations do on plain vectors; the implementation does the
same only under the restrictions of `Op.Supported`. Here a machine on element lists and capacities says
what the operations really do, for every element type, every number and every index, in both build modes:
the growth of the buffers, the requests that are refused, the calls that lose the content of a container,
the buffers that are leaked, and the calls that are undefined behaviour.
-/
namespace Dync
variable {U V : Type}

/-- A container: element type, elements, capacity. `unit n` is what is left of a container whose content
was lost: it holds `n` values `()`. -/
inductive XVec where
  | vec (t : TyId) (es : List Bytes) (cap : Nat)
  | unit (n : Nat)

/-- The variables of a program and the number of buffers that no variable owns. -/
structure XState where
  var : Nat → Option XVec
  leaked : Nat

/-- How an operation ends. -/
inductive Out where
  | ok (o : Obs)
  | panic
  | ub
deriving DecidableEq

/-- A method: how it ends, the container afterwards, and whether its buffer is leaked. -/
structure After where
  out : Out
  now : XVec
  leak : Bool

/-- The method ends in a panic that loses the content of the container. -/
def After.lost : After := ⟨.panic, .unit 0, false⟩
/-- The method ends in a panic that loses the content of the container and leaks its buffer. -/
def After.leaked : After := ⟨.panic, .unit 0, true⟩
/-- The method changes nothing. -/
def After.same (x : XVec) (o : Out) : After := ⟨o, x, false⟩

/-! ### Arithmetic -/

/-- A product of two `usize` numbers: checked in debug builds (`none`: it panics), modulo `2^64` in
release builds. -/
def times (cfg : Cfg) (a b : Nat) : Option Nat :=
  if a * b < 2 ^ 64 then some (a * b) else if cfg.debug then none else some (a * b % 2 ^ 64)

/-- The number of units of its alignment that a value of type `t` consists of. -/
def perElem (Γ : TyEnv U) (t : TyId) : Nat := Γ.size t / Γ.align t

/-- The smallest capacity of a buffer of items of `u` bytes. -/
def leastCap (u : Nat) : Nat := if u = 1 then 8 else if u ≤ 1024 then 4 else 1

/-- The capacity to which a full buffer of `cap` items of `u` bytes grows that has to take `need`. -/
def nextCap (u cap need : Nat) : Nat := max (leastCap u) (max (2 * cap) need)

/-- What happens to a buffer that has to make room. -/
inductive Growth where
  | keep                    -- there is enough room
  | grown (cap : Nat)       -- it has a new capacity
  | full                    -- the request is larger than the address space
  | torn                    -- the new buffer does not consist of whole elements
deriving DecidableEq

/-- A buffer with room for `cap` elements holds `len` of them, each of `s` units of `u` bytes with alignment
`a`; `k` more units are requested. -/
def growth (u a s cap len k : Nat) : Growth :=
  if k ≤ (cap - len) * s then .keep
  else if isizeMax < nextCap u (cap * s) (len * s + k) * u + (a - 1) then .full
  else if nextCap u (cap * s) (len * s + k) % s = 0 then .grown (nextCap u (cap * s) (len * s + k) / s)
  else .torn

/-- Cut a byte string into `k` pieces of `n` bytes. -/
def cut (n k : Nat) (b : Bytes) : List Bytes := (List.range k).map fun i => (b.drop (i * n)).take n

/-! ### Methods -/

/-- Make room for `k` more units in a container (`none`: the number of units does not fit into `usize`),
then go on with the capacity. -/
def XVec.room (Γ : TyEnv U) (t : TyId) (len cap : Nat) (k : Option Nat) (next : Nat → After) : After :=
  match k with
  | none => .lost
  | some k =>
    match growth (Γ.align t) (Γ.align t) (perElem Γ t) cap len k with
    | .keep => next cap
    | .grown c => next c
    | .full => .lost
    | .torn => .leaked

/-- `reserve(n)`. -/
def XVec.reserve (Γ : TyEnv U) (cfg : Cfg) (n : Nat) : XVec → After
  | .vec t es cap => room Γ t es.length cap (times cfg n (perElem Γ t)) fun c => ⟨.ok .done, .vec t es c, false⟩
  | .unit _ => .lost

/-- `push_as::<T>(x)`. -/
def XVec.pushAs (Γ : TyEnv U) (t : TyId) (x : Bytes) : XVec → After
  | .vec t' es cap =>
    if t = t' then
      match growth (Γ.size t) (Γ.align t) 1 cap es.length 1 with
      | .keep => ⟨.ok .done, .vec t (es ++ [x]) cap, false⟩
      | .grown c => ⟨.ok .done, .vec t (es ++ [x]) c, false⟩
      | _ => .lost
    else .same (.vec t' es cap) (.ok .refused)
  | .unit n =>
    if t = Γ.unitTy then (if n = usizeMax then .lost else ⟨.ok .done, .unit (n + 1), false⟩)
    else .same (.unit n) (.ok .refused)

/-- `push` of an untyped value of type `t`: one unit is pushed, so it only works for elements of one unit. -/
def XVec.push (Γ : TyEnv U) (t : TyId) (x : Bytes) : XVec → After
  | .vec t' es cap =>
    if Γ.size t ≠ Γ.size t' then .same (.vec t' es cap) .panic
    else if t ≠ t' then .same (.vec t' es cap) (.ok .refused)
    else
      match growth (Γ.align t) (Γ.align t) (perElem Γ t) cap es.length 1 with
      | .full => .lost
      | .torn => .leaked
      | .keep => if perElem Γ t = 1 then ⟨.ok .done, .vec t (es ++ [x]) cap, false⟩ else .leaked
      | .grown c => if perElem Γ t = 1 then ⟨.ok .done, .vec t (es ++ [x]) c, false⟩ else .leaked
  | .unit n =>
    if Γ.size t ≠ 0 then .same (.unit n) .panic
    else if t ≠ Γ.unitTy then .same (.unit n) (.ok .refused)
    else ⟨.ub, .unit n, false⟩

/-- `resize::<T>(n, x)`. A number of new elements whose units are counted modulo `2^64` runs out of memory. -/
def XVec.resize (Γ : TyEnv U) (cfg : Cfg) (t : TyId) (n : Nat) (x : Bytes) : XVec → After
  | .vec t' es cap =>
    if t = t' then
      if es.length ≤ n then
        room Γ t es.length cap (times cfg (n - es.length) (perElem Γ t)) fun c =>
          if (n - es.length) * perElem Γ t < 2 ^ 64 then
            ⟨.ok .done, .vec t (es ++ List.replicate (n - es.length) x) c, false⟩
          else .lost
      else ⟨.ok .done, .vec t (es.take n) cap, false⟩
    else .same (.vec t' es cap) (.ok .refused)
  | .unit n => if t = Γ.unitTy then .lost else .same (.unit n) (.ok .refused)

/-- `clear()`. -/
def XVec.clear : XVec → After
  | .vec t _ cap => ⟨.ok .done, .vec t [] cap, false⟩
  | .unit _ => .lost

/-- `fill::<T>(x)`. -/
def XVec.fill (Γ : TyEnv U) (t : TyId) (x : Bytes) : XVec → After
  | .vec t' es cap =>
    if t = t' then ⟨.ok .done, .vec t (List.replicate es.length x) cap, false⟩ else .same (.vec t' es cap) (.ok .refused)
  | .unit n => .same (.unit n) (.ok (if t = Γ.unitTy then .done else .refused))

/-- `copy_from_slice::<T>(xs)`. -/
def XVec.copyFromSlice (t : TyId) (xs : List Bytes) : XVec → After
  | .vec t' es cap =>
    if t = t' then
      if xs.length = es.length then ⟨.ok .done, .vec t xs cap, false⟩ else .same (.vec t' es cap) .panic
    else .same (.vec t' es cap) (.ok .refused)
  | .unit n => .same (.unit n) .panic

/-- `rotate_left(n)`: there are versions for alignments up to 8192; the amount is counted in units. -/
def XVec.rotateLeft (Γ : TyEnv U) (cfg : Cfg) (n : Nat) : XVec → After
  | .vec t es cap =>
    if 8192 < Γ.align t then .same (.vec t es cap) .panic
    else
      match times cfg n (perElem Γ t) with
      | none => .lost
      | some k =>
        if k ≤ es.length * perElem Γ t then
          ⟨.ok .done, .vec t (cut (Γ.size t) es.length
            (es.flatten.drop (k * Γ.align t) ++ es.flatten.take (k * Γ.align t))) cap, false⟩
        else .lost
  | .unit _ => .lost

/-- `rotate_right(n)`. -/
def XVec.rotateRight (Γ : TyEnv U) (cfg : Cfg) (n : Nat) : XVec → After
  | .vec t es cap =>
    if 8192 < Γ.align t then .same (.vec t es cap) .panic
    else
      match times cfg n (perElem Γ t) with
      | none => .lost
      | some k =>
        if k ≤ es.length * perElem Γ t then
          ⟨.ok .done, .vec t (cut (Γ.size t) es.length
            (es.flatten.drop ((es.length * perElem Γ t - k) * Γ.align t) ++
              es.flatten.take ((es.length * perElem Γ t - k) * Γ.align t))) cap, false⟩
        else .lost
  | .unit _ => .lost

/-- The bytes `b` with the `n` bytes at `a` and those at `a'` exchanged. -/
def exchange (n a a' : Nat) (b : Bytes) : Bytes :=
  b.take a ++ (b.drop a').take n ++ (b.take a').drop (a + n) ++ (b.drop a).take n ++ b.drop (a' + n)

/-- `swap(i, j)`: nothing happens for equal indices. In release builds the byte offsets are counted modulo
`2^64`. -/
def XVec.swap (Γ : TyEnv U) (cfg : Cfg) (i j : Nat) : XVec → After
  | .vec t es cap =>
    if i = j then .same (.vec t es cap) (.ok .done)
    else if cfg.debug then
      if h : i < es.length ∧ j < es.length then ⟨.ok .done, .vec t ((es.set i es[j]).set j es[i]) cap, false⟩
      else .same (.vec t es cap) .panic
    else
      if min i j * Γ.size t % 2 ^ 64 + Γ.size t ≤ max i j * Γ.size t % 2 ^ 64 ∧
          max i j * Γ.size t % 2 ^ 64 + Γ.size t ≤ es.length * Γ.size t then
        ⟨.ok .done, .vec t (cut (Γ.size t) es.length
          (exchange (Γ.size t) (min i j * Γ.size t % 2 ^ 64) (max i j * Γ.size t % 2 ^ 64) es.flatten)) cap, false⟩
      else .same (.vec t es cap) .panic
  | .unit n =>
    .same (.unit n) (if i ≠ j ∧ cfg.debug ∧ 2 ^ 64 ≤ min i j + 1 then .panic else .ok .done)

/-- `*get_mut_as::<T>(i)? = x`. -/
def XVec.setAs (Γ : TyEnv U) (t : TyId) (i : Nat) (x : Bytes) : XVec → After
  | .vec t' es cap =>
    if i < es.length then
      if t = t' then ⟨.ok .done, .vec t (es.set i x) cap, false⟩ else .same (.vec t' es cap) (.ok .refused)
    else .same (.vec t' es cap) .panic
  | .unit n => .same (.unit n) (if i < n then .ok (if t = Γ.unitTy then .done else .refused) else .panic)

/-- `get_mut(i).copy(x)` with a value of type `t`: only debug builds check the index. -/
def XVec.setValue (Γ : TyEnv U) (cfg : Cfg) (i : Nat) (t : TyId) (x : Bytes) : XVec → After
  | .vec t' es cap =>
    if cfg.debug then
      if i < es.length then
        if t = t' then ⟨.ok .done, .vec t (es.set i x) cap, false⟩ else .same (.vec t' es cap) (.ok .refused)
      else .same (.vec t' es cap) .panic
    else if i * Γ.size t' % 2 ^ 64 + Γ.size t' ≤ es.length * Γ.size t' then
      if t = t' then
        ⟨.ok .done, .vec t (cut (Γ.size t) es.length (es.flatten.take (i * Γ.size t % 2 ^ 64) ++ x ++
          es.flatten.drop (i * Γ.size t % 2 ^ 64 + Γ.size t))) cap, false⟩
      else .same (.vec t' es cap) (.ok .refused)
    else ⟨.ub, .vec t' es cap, false⟩
  | .unit n => .same (.unit n)
    (if cfg.debug = true ∧ n ≤ i then .panic else .ok (if t = Γ.unitTy then .done else .refused))

/-- Replace every element through `iter_mut`. -/
def XVec.mapAll (f : Bytes → Bytes) : XVec → After
  | .vec t es cap => ⟨.ok .done, .vec t (es.map f) cap, false⟩
  | .unit n => .same (.unit n) .panic

/-- The methods that only look: the container stays as it is. -/
def XVec.look (Γ : TyEnv U) (x : XVec) (typed : TyId → List Bytes → Out) (unit : Nat → Out) : After :=
  match x with
  | .vec t es cap => .same (.vec t es cap) (typed t es)
  | .unit n => .same (.unit n) (unit n)

/-! ### Operations of programs -/

/-- Assign to a variable. -/
def XState.put (s : XState) (k : Nat) (x : Option XVec) : XState := { s with var := Slots.put s.var k x }

/-- Call a method on the container in variable `k`. -/
def XState.method (s : XState) (k : Nat) (f : XVec → After) : Out × XState :=
  match s.var k with
  | none => (.ok .absent, s)
  | some x => ((f x).out, ⟨Slots.put s.var k (some (f x).now), s.leaked + if (f x).leak then 1 else 0⟩)

/-- A new container in variable `k`, with `es` as content and room for `n` elements. -/
def XState.create (Γ : TyEnv U) (s : XState) (k : Nat) (t : TyId) (es : List Bytes) (n : Nat) : Out × XState :=
  if Γ.size t = 0 ∨ isizeMax < n * Γ.size t + (Γ.align t - 1) then (.panic, s)
  else (.ok .done, s.put k (some (.vec t es (if n = 0 then leastCap (Γ.size t) else n))))

/-- `append` of the container in `j` to that in `k`. -/
def XState.append (Γ : TyEnv U) (s : XState) (k j : Nat) : Out × XState :=
  if k = j then (.ok .absent, s) else
  match s.var k, s.var j with
  | some (.vec t es cap), some (.vec t' es' cap') =>
    if t = t' then
      match growth (Γ.align t) (Γ.align t) (perElem Γ t) cap es.length (es'.length * perElem Γ t) with
      | .keep => (.ok .done, (s.put k (some (.vec t (es ++ es') cap))).put j (some (.vec t [] cap')))
      | .grown c => (.ok .done, (s.put k (some (.vec t (es ++ es') c))).put j (some (.vec t [] cap')))
      | .full => (.panic, (s.put k (some (.unit 0))).put j (some (.unit 0)))
      | .torn => (.panic, ⟨Slots.put (Slots.put s.var k (some (.unit 0))) j (some (.vec t [] cap')), s.leaked + 1⟩)
    else (.ok .refused, s)
  | some (.unit _), some (.unit _) => (.panic, (s.put k (some (.unit 0))).put j (some (.unit 0)))
  | some _, some _ => (.ok .refused, s)
  | _, _ => (.ok .absent, s)

/-- What an operation does. -/
def Op.step (Γ : TyEnv U) (cfg : Cfg) (s : XState) : Op → Out × XState
  | withType k t => s.create Γ k t [] 0
  | withCapacity k t n => s.create Γ k t [] n
  | fromSlice k t xs => s.create Γ k t xs xs.length
  | drop k => match s.var k with
    | none => (.ok .absent, s)
    | some _ => (.ok .done, s.put k none)
  | clone k j => match s.var k with
    | none => (.ok .absent, s)
    | some (.vec t es cap) => (.ok .done, s.put j (some (.vec t es cap)))
    | some (.unit _) => (.panic, s)
  | append k j => s.append Γ k j
  | roundTrip k t => match s.var k with
    | none => (.ok .absent, s)
    | some (.vec t' es cap) => if t = t' then (.ok .done, s) else (.ok .refused, s.put k none)
    | some (.unit _) => (if t = Γ.unitTy then .panic else .ok .refused, s.put k none)
  | pushAs k t x => s.method k (XVec.pushAs Γ t x)
  | push k t x => s.method k (XVec.push Γ t x)
  | resize k t n x => s.method k (XVec.resize Γ cfg t n x)
  | reserve k n => s.method k (XVec.reserve Γ cfg n)
  | clear k => s.method k XVec.clear
  | fill k t x => s.method k (XVec.fill Γ t x)
  | copyFromSlice k t xs => s.method k (XVec.copyFromSlice t xs)
  | rotateLeft k n => s.method k (XVec.rotateLeft Γ cfg n)
  | rotateRight k n => s.method k (XVec.rotateRight Γ cfg n)
  | swap k i j => s.method k (XVec.swap Γ cfg i j)
  | setAs k t i x => s.method k (XVec.setAs Γ t i x)
  | setValue k i t x => s.method k (XVec.setValue Γ cfg i t x)
  | mapAll k f => s.method k (XVec.mapAll f)
  | len k => s.method k fun x => x.look Γ (fun _ es => .ok (.num es.length)) (fun n => .ok (.num n))
  | typeId k => s.method k fun x => x.look Γ (fun t _ => .ok (.num t)) (fun _ => .ok (.num Γ.unitTy))
  | getAs k t i => s.method k fun x => x.look Γ
      (fun t' es => if h : i < es.length then .ok (if t = t' then .elem es[i] else .refused) else .panic)
      (fun n => if i < n then .ok (if t = Γ.unitTy then .elem [] else .refused) else .panic)
  | get k i => s.method k fun x => x.look Γ
      (fun t es =>
        if cfg.debug then if h : i < es.length then .ok (.value t es[i]) else .panic
        else if i * Γ.size t % 2 ^ 64 + Γ.size t ≤ es.length * Γ.size t then
          .ok (.value t ((es.flatten.drop (i * Γ.size t % 2 ^ 64)).take (Γ.size t)))
        else .ub)
      (fun n => if cfg.debug = true ∧ n ≤ i then .panic else .ok (.value Γ.unitTy []))
  | asSlice k t => s.method k fun x => x.look Γ
      (fun t' es => .ok (if t = t' then .elems es else .refused))
      (fun n => .ok (if t = Γ.unitTy then .elems (List.replicate n []) else .refused))
  | iter k => s.method k fun x => x.look Γ (fun _ es => .ok (.elems es)) (fun _ => .panic)

/-- The programs the Rust type checker accepts: a value passed as a `T` is the image of a `T`, and every
`T` used with a `VecCopy` is a `Copy` type (dropping one does nothing). -/
def Op.Typed (Γ : TyEnv U) : Op → Prop
  | .withType _ t | .withCapacity _ t _ | .roundTrip _ t => Copyable t
  | .fromSlice _ t xs | .copyFromSlice _ t xs => Copyable t ∧ ∀ x ∈ xs, x.length = Γ.size t
  | .pushAs _ t x | .push _ t x | .resize _ t _ x | .fill _ t x | .setAs _ t _ x | .setValue _ _ t x =>
    Copyable t ∧ x.length = Γ.size t
  | .mapAll _ f => ∀ x, (f x).length = x.length
  | _ => True
where
  /-- a type without destructor -/
  Copyable (t : TyId) : Prop := ∀ b u, Γ.drop t b u = (.ok (), u)

/-- A program with caught panics: what it sees (`none` is a caught panic), and the final state. -/
def XState.run (Γ : TyEnv U) (cfg : Cfg) : List Op → XState → Option (List (Option Obs) × XState)
  | [], s => some ([], s)
  | op :: ops, s =>
    match op.step Γ cfg s with
    | (.ok o, s') => (run Γ cfg ops s').map fun p => (some o :: p.1, p.2)
    | (.panic, s') => (run Γ cfg ops s').map fun p => (none :: p.1, p.2)
    | (.ub, _) => none

/-- The start of a program: no variable holds anything. -/
def XState.start : XState := ⟨fun _ => none, 0⟩

/-! ### What it means that an implementation state is a machine state -/

/-- A container of units. -/
structure IsUnits (Γ : TyEnv U) (n : Nat) (v : VecVoid) : Prop where
  ptr : v.ptr = none
  len : v.len = n
  cap : v.cap = usizeMax
  elem : v.elem = ElemInfo.new Γ Γ.unitTy
  mem : v.mem = []

/-- The container `v` is the container `x`. -/
def XVec.Is (Γ : TyEnv U) (h : Heap) (v : VecVoid) : XVec → Prop
  | .vec t es cap => Repr Γ h t es v ∧ v.cap = cap
  | .unit n => IsUnits Γ n v

/-- The variables hold exactly the containers of the machine, different variables own different blocks,
and all other live blocks are the leaked ones. -/
structure XState.Holds (Γ : TyEnv U) (slots : Slots V) (h : Heap) (s : XState) : Prop where
  wf : h.WF
  none_iff : ∀ k, slots k = none ↔ s.var k = none
  is : ∀ k c x, slots k = some c → s.var k = some x → x.Is Γ h c.data
  inj : ∀ k k' c c' i, slots k = some c → slots k' = some c' → c.data.ptr = some i → c'.data.ptr = some i → k = k'
  leaks : ∃ L : List Nat, L.Nodup ∧ L.length = s.leaked ∧ (∀ i ∈ L, h.live i ≠ none) ∧
    (∀ i ∈ L, ∀ k c, slots k = some c → c.data.ptr ≠ some i) ∧
    ∀ i l, h.live i = some l → i ∈ L ∨ ∃ k c, slots k = some c ∧ c.data.ptr = some i

end Dync
