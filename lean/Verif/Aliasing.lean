import Verif.Pointers
/-!
# The aliasing rules for references

Rust lets the compiler assume that a `&mut` reference is the only way to its bytes while it is used, and that bytes behind a
`&` reference do not change, except inside an `UnsafeCell`. Which use of which reference breaks this is made precise by *Stacked
Borrows* (Jung et al., POPL 2020), the rules that Miri checks. Here memory carries, for every byte, the stack of the references that may
still be used, and every reference that the library makes and every access through one is checked against it: breaking a rule is
undefined behaviour.

Programs hold references to containers, to bytes (the views and value references of the library) and to typed values, shared and
exclusive, as many at a time as the borrow checker lets them.

Not modelled: protectors (a reference passed to a function must stay valid until the function returns), and the further
reborrow that happens when a reference is moved, which has the effect of `RefMethod.again`.
-/
namespace Dync
variable {U α : Type}

/-! ### Stacked Borrows -/

/-- What a reference may be used for. -/
inductive Perm where
  | unique      -- `&mut`
  | sharedRW    -- `&` inside an `UnsafeCell`
  | sharedRO    -- `&`
deriving DecidableEq

/-- A reference in the stack of a byte. -/
structure Borrow where
  tag : Nat
  perm : Perm
deriving DecidableEq

/-- The references to a byte that may be used, the youngest first. -/
abbrev Borrows := List Borrow

namespace Borrows

/-- Read through reference `t`: exclusive references younger than `t` end. `none` if `t` is no longer there. -/
def read (t : Nat) : Borrows → Option Borrows
  | [] => none
  | i :: s =>
    if i.tag = t then some (i :: s)
    else (read t s).map fun s' => if i.perm = .unique then s' else i :: s'

/-- As `write`; also, whether all references from the top down to `t` may write as well. -/
def writeAux (t : Nat) : Borrows → Option (Borrows × Bool)
  | [] => none
  | i :: s =>
    if i.tag = t ∧ i.perm ≠ .sharedRO then some (i :: s, i.perm = .sharedRW)
    else (writeAux t s).map fun (s', b) => if b = true ∧ i.perm = .sharedRW then (i :: s', true) else (s', false)

/-- Write through reference `t`: all younger references end, but for those directly above a shared reference to a cell that are
shared references to the cell too. -/
def write (t : Nat) (s : Borrows) : Option Borrows := (writeAux t s).map (·.1)

/-- As `insert`; also, whether `new` is still to be put on top of the result. -/
def insertAux (t new : Nat) : Borrows → Option (Borrows × Bool)
  | [] => none
  | i :: s =>
    if i.tag = t ∧ i.perm ≠ .sharedRO then
      if i.perm = .unique then some (⟨new, .sharedRW⟩ :: i :: s, false) else some (i :: s, true)
    else (insertAux t new s).map fun (s', b) =>
      if b = true then if i.perm = .sharedRW then (i :: s', true) else (i :: ⟨new, .sharedRW⟩ :: s', false)
      else (i :: s', false)

/-- Make a shared reference `new` to a cell from `t`: it is put next to the reference it is made from, and nothing ends. -/
def insert (t new : Nat) (s : Borrows) : Option Borrows :=
  (insertAux t new s).map fun (s', b) => if b = true then ⟨new, .sharedRW⟩ :: s' else s'

/-- Make the reference `new` from reference `t`. Making a shared reference to a cell from one that may only read is an error
(`strict`, as in Stacked Borrows), or gives a reference that may only read (as in Tree Borrows, the more lenient proposal). -/
def retag (strict : Bool) (p : Perm) (t new : Nat) (s : Borrows) : Option Borrows :=
  match p with
  | .unique => (write t s).map (⟨new, .unique⟩ :: ·)
  | .sharedRO => (read t s).map (⟨new, .sharedRO⟩ :: ·)
  | .sharedRW =>
    match insert t new s with
    | some s' => some s'
    | none => if strict then none else (read t s).map (⟨new, .sharedRO⟩ :: ·)

end Borrows

/-- Which rules hold. Without `on`, memory is bytes and there is nothing to break. -/
structure Rules where
  on : Bool
  strict : Bool

/-- Memory, the references to every byte, and the next unused name of a reference. -/
structure AMem where
  byte : Nat → Byte
  stack : Nat → Borrows
  next : Nat

namespace AMem

/-- The `n` bytes from address `a` on. -/
def bytes (m : AMem) (a n : Nat) : Bytes := (List.range n).map fun k => m.byte (a + k)

/-- Apply the rule `op` to the stacks of the `n` bytes from address `a` on; `op` is given the position of the byte. -/
def rule (R : Rules) (a n : Nat) (op : Nat → Borrows → Option Borrows) : M AMem Unit :=
  ⟨fun m =>
    if R.on = false then (.ok (), m) else
    if ∀ k < n, (op k (m.stack (a + k))).isSome then
      (.ok (), { m with stack := fun b => if a ≤ b ∧ b < a + n then (op (b - a) (m.stack b)).getD [] else m.stack b })
    else (.ub, m)⟩

/-- Make a reference to the `n` bytes from address `a` on from the reference `t`; `p` says for which use, byte by byte. -/
def retag (R : Rules) (p : Nat → Perm) (t a n : Nat) : M AMem Nat := do
  let m ← M.get
  rule R a n (fun k => Borrows.retag R.strict (p k) t m.next)
  M.modify fun m => { m with next := m.next + 1 }
  pure m.next

/-- Read through reference `t`. -/
def load (R : Rules) (t a n : Nat) : M AMem Bytes := do
  rule R a n (fun _ => Borrows.read t)
  let m ← M.get
  pure (m.bytes a n)

/-- Write `n` bytes through reference `t`. -/
def store (R : Rules) (t a n : Nat) (x : Bytes) : M AMem Unit := do
  rule R a n (fun _ => Borrows.write t)
  M.modify fun m => { m with byte := fun b => if a ≤ b ∧ b < a + n then x[b - a]?.getD (m.byte b) else m.byte b }

end AMem

/-! ### What programs hold -/

/-- What a reference is to. -/
inductive Referent where
  | owner       -- a container: the pointer of `VecVoid`, or the box of a value
  | bytes       -- a view or value reference of the library: `[MaybeUninit<u8>]`
  | typed       -- `T` or `[T]`
deriving DecidableEq

/-- How a reference may be used at present. `frozen`: exclusive, but shared references made from it are held. -/
inductive Mode where
  | excl
  | frozen
  | shr
deriving DecidableEq

/-- A reference to `len` bytes at address `addr` that hold elements `elem`. -/
structure Handle where
  tag : Nat
  addr : Nat
  len : Nat
  elem : ElemInfo
  kind : Referent
  mode : Mode

/-- The methods that make references from references; for each there is a shared and an exclusive form. -/
inductive RefMethod where
  /-- `as_slice`, `as_mut_slice` of containers (src/vec_copy.rs:688-717, src/vec_dyn.rs:553-568) and `as_ref`, `as_mut` of
  values (src/value.rs:280-296). -/
  | view
  /-- `reborrow`, `reborrow_mut`, upcasts and the like (src/slice_copy.rs:122-128, 518-536): the reference `data` is copied. Also
  `&*r` in user code. -/
  | again
  /-- `get`, `get_mut` of `VecDyn` (src/vec_dyn.rs:475-528) and of views (src/slice_copy.rs:291-305, 722-753, src/slice.rs). -/
  | get (i : Nat)
  /-- `get_ref`, `get_mut` of `VecCopy` (src/vec_copy.rs:569-603). -/
  | getRef (i : Nat)
  /-- `iter`, `iter_mut`: `byte_chunks` (src/vec_copy.rs:845-867), `chunks_exact` (src/slice_copy.rs:337-340, 658-668). -/
  | iter
  /-- `subslice`, `subslice_mut` (src/slice_copy.rs:312-336, 757-796). -/
  | sub (r : Rng)
  /-- `split_at` (src/slice_copy.rs:273-287, 705-718). -/
  | split (mid : Nat)
  /-- `chunks_exact`, `chunks_exact_mut` (src/slice_copy.rs:259-271, 681-703). -/
  | chunks (k : Nat)
  /-- `as_slice_as`, `as_mut_slice_as` (src/vec_copy.rs:463-489), `as_slice` of views (src/slice_copy.rs:218-221, 598-602). -/
  | typed (t : TyId)
  /-- `get_ref_as`, `get_mut_as` (src/vec_copy.rs:499-514), `get_as` of views (src/slice_copy.rs:227-231, 608-612). -/
  | typedAt (t : TyId) (i : Nat)
  /-- `downcast` of value references (src/value.rs:563-566): `Bytes::from_bytes` (src/bytes.rs:99-102). The functions in
  virtual tables get their `&T` in the same way (src/traits.rs:49-103). -/
  | downcast (t : TyId)
  /-- `from_slice` (src/slice_copy.rs:29-52, 394-419) and `new` of value references (src/value.rs:467-478): `as_bytes`. -/
  | ofTyped

/-- What a method makes: perhaps a reference to everything on the way, and from that references to parts, given by
position and length. -/
structure Plan where
  via : Option Referent
  parts : List (Nat × Nat)
  kind : Referent

/-- `data[a..b]`. -/
def Handle.index (h : Handle) (a b : Nat) : Res Plan :=
  if a ≤ b ∧ b ≤ h.len then .ok ⟨some .bytes, [(a, b - a)], .bytes⟩ else .panic .index

/-- `data.chunks_exact(n)`. -/
def Handle.chunks (h : Handle) (n : Nat) : Res Plan :=
  if n = 0 then .panic .zeroChunk else .ok ⟨some .bytes, (List.range (h.len / n)).map fun c => (c * n, n), .bytes⟩

/-- `len`: that of a container is a field; views divide (src/slice_copy.rs:157-160, 543-546). -/
def Handle.count (cfg : Cfg) (h : Handle) : M AMem Nat :=
  if h.elem.numBytes = 0 then M.panic .divZero else do
  debugAssert cfg (h.kind = .owner || h.len % h.elem.numBytes == 0)
  pure (h.len / h.elem.numBytes)

/-- What a method makes of a reference (the lines cited at `RefMethod`). `none` if there is no such method. -/
def RefMethod.plan (Γ : TyEnv U) (cfg : Cfg) (h : Handle) : RefMethod → M AMem (Option Plan)
  | view => pure (if h.kind = .owner then some ⟨none, [(0, h.len)], .bytes⟩ else none)
  | again => pure (if h.kind = .owner then none else some ⟨none, [(0, h.len)], h.kind⟩)
  | get i =>
    if h.kind = .typed then pure none else do
    let n ← h.count cfg
    debugAssert cfg (i < n)
    let (a, b) ← indexByteRange cfg h.elem.numBytes i
    let p ← M.lift (h.index a b)
    pure (some p)
  | getRef i =>
    if h.kind ≠ .owner then pure none else do
    let n ← h.count cfg
    -- out of range, a release build goes on and the reference is undefined behaviour for that reason (C27); a panic here
    M.assert (i < n)
    pure (some ⟨none, [(i * h.elem.numBytes, h.elem.numBytes)], .bytes⟩)
  | iter =>
    if h.kind = .typed then pure none else do
    let p ← M.lift (h.chunks h.elem.numBytes)
    pure (some p)
  | sub r =>
    if h.kind ≠ .bytes then pure none else do
    let r ← r.scale cfg h.elem.numBytes
    let (a, b) ← M.lift (r.bounds h.len)
    let p ← M.lift (h.index a b)
    pure (some p)
  | split mid =>
    if h.kind ≠ .bytes then pure none else do
    let m ← umul cfg mid h.elem.numBytes
    M.assert (m ≤ h.len)
    pure (some ⟨some .bytes, [(0, m), (m, h.len - m)], .bytes⟩)
  | chunks k =>
    if h.kind ≠ .bytes then pure none else do
    let n ← umul cfg h.elem.numBytes k
    let p ← M.lift (h.chunks n)
    pure (some p)
  | typed t =>
    if h.kind = .typed then pure none else do
    if t ≠ h.elem.type_id then pure none else do
    let n ← h.count cfg
    pure (some ⟨if h.kind = .owner then none else some .bytes, [(0, n * Γ.size t)], .typed⟩)
  | typedAt t i =>
    if h.kind = .typed then pure none else do
    let n ← h.count cfg
    M.assert (i < n)
    if t ≠ h.elem.type_id then pure none else
    pure (some ⟨if h.kind = .owner then none else some .bytes, [(i * Γ.size t, Γ.size t)], .typed⟩)
  | downcast t =>
    if h.kind ≠ .bytes then pure none else do
    if t ≠ h.elem.type_id then pure none else do
    M.assert (h.len == Γ.size t)
    pure (some ⟨some .bytes, [(0, Γ.size t)], .typed⟩)
  | ofTyped => pure (if h.kind = .typed then some ⟨some .typed, [(0, h.len)], .bytes⟩ else none)

/-- For which use a reference to elements of type `t` of the given kind is made, byte by byte: `cells` tells which bytes of a type are
inside an `UnsafeCell`. -/
def refPerm (Γ : TyEnv U) (cells : TyId → Nat → Bool) (k : Referent) (excl : Bool) (t : TyId) (off : Nat) : Perm :=
  if excl then .unique else if k = .typed ∧ cells t (off % Γ.size t) = true then .sharedRW else .sharedRO

/-- The reference to everything that is made on the way, if there is one. -/
def Handle.way (Γ : TyEnv U) (cells : TyId → Nat → Bool) (R : Rules) (excl : Bool) (h : Handle) : Option Referent → M AMem Nat
  | none => pure h.tag
  | some k => AMem.retag R (refPerm Γ cells k excl h.elem.type_id) h.tag h.addr h.len

/-- Make a reference to a part of `h`, from the reference with tag `t`. -/
def Handle.part (Γ : TyEnv U) (cells : TyId → Nat → Bool) (R : Rules) (excl : Bool) (h : Handle) (k : Referent) (t : Nat)
    (x : Nat × Nat) : M AMem Handle := do
  let t ← AMem.retag R (refPerm Γ cells k excl h.elem.type_id) t (h.addr + x.1) x.2
  pure { h with tag := t, addr := h.addr + x.1, len := x.2, kind := k, mode := if excl then .excl else .shr }

/-- Make the references that a method makes. -/
def Handle.make (Γ : TyEnv U) (cells : TyId → Nat → Bool) (R : Rules) (excl : Bool) (h : Handle) (p : Plan) :
    M AMem (List Handle) := do
  let t ← h.way Γ cells R excl p.via
  M.mapEach p.parts (h.part Γ cells R excl p.kind t)

/-- Programs over references, which are held in numbered variables. New references go to the next variables and are given up at the
end of the block `q`. -/
inductive AProg where
  | skip
  | seq (p q : AProg)
  | attempt (p : AProg)                                  -- `catch_unwind`
  | look (i : Nat)                                       -- read all bytes
  | put (i : Nat) (f : Bytes → Bytes)                    -- change all bytes, through an exclusive reference
  | exchange (i j : Nat)                                 -- exchange the bytes: `swap` of values, `swap_with_slice`
  | copy (i j : Nat)                                     -- `copy_from_slice`
  | cell (i a : Nat) (x : Bytes)                         -- change bytes inside cells, through a shared typed reference
  | shared (i : Nat) (m : RefMethod) (q : AProg)            -- call the shared form of a method
  | exclusive (i : Nat) (m : RefMethod) (q : AProg)         -- call the exclusive form of a method

/-- All of the `n` bytes from position `a` on are inside cells. -/
def Handle.inCells (Γ : TyEnv U) (cells : TyId → Nat → Bool) (h : Handle) (a n : Nat) : Bool :=
  decide (a + n ≤ h.len) && (List.range n).all fun k => cells h.elem.type_id ((a + k) % Γ.size h.elem.type_id)

/-- The variables while references made from `h` in variable `i` are held. -/
def holding (env : List (Option Handle)) (i : Nat) (h : Option Handle) (hs : List Handle) : List (Option Handle) :=
  env.set i h ++ hs.map some

/-- Run a program. A program that uses a reference in a way the borrow checker rejects does nothing here. The result lists what was
read. -/
def AProg.run (Γ : TyEnv U) (cfg : Cfg) (cells : TyId → Nat → Bool) (R : Rules) :
    AProg → List (Option Handle) → M AMem (List Bytes)
  | skip, _ => pure []
  | seq p q, env => do
    let a ← p.run Γ cfg cells R env
    let b ← q.run Γ cfg cells R env
    pure (a ++ b)
  | attempt p, env => ⟨fun m =>
    match (p.run Γ cfg cells R env).run m with
    | (.panic _, m') => (.ok [], m')
    | r => r⟩
  | look i, env =>
    match env[i]? with
    | some (some h) => do
      let b ← AMem.load R h.tag h.addr h.len
      pure [b]
    | _ => pure []
  | put i f, env =>
    match env[i]? with
    | some (some h) =>
      if h.mode = .excl then do
        let b ← AMem.load R h.tag h.addr h.len
        AMem.store R h.tag h.addr h.len (f b)
        pure []
      else pure []
    | _ => pure []
  | exchange i j, env =>
    match env[i]?, env[j]? with
    | some (some g), some (some h) =>
      if i ≠ j ∧ g.mode = .excl ∧ h.mode = .excl then
        if g.len = h.len then do
          let x ← AMem.load R g.tag g.addr g.len
          let y ← AMem.load R h.tag h.addr h.len
          AMem.store R g.tag g.addr g.len y
          AMem.store R h.tag h.addr h.len x
          pure []
        else M.panic .lenMismatch
      else pure []
    | _, _ => pure []
  | copy i j, env =>
    match env[i]?, env[j]? with
    | some (some g), some (some h) =>
      if i ≠ j ∧ g.mode = .excl then
        if g.len = h.len then do
          let y ← AMem.load R h.tag h.addr h.len
          AMem.store R g.tag g.addr g.len y
          pure []
        else M.panic .lenMismatch
      else pure []
    | _, _ => pure []
  | cell i a x, env =>
    match env[i]? with
    | some (some h) =>
      if h.mode = .shr ∧ h.kind = .typed ∧ h.inCells Γ cells a x.length = true then do
        AMem.store R h.tag (h.addr + a) x.length x
        pure []
      else pure []
    | _ => pure []
  | shared i m q, env =>
    match env[i]? with
    | some (some h) => do
      match ← m.plan Γ cfg h with
      | none => pure []
      | some p =>
        let hs ← h.make Γ cells R false p
        q.run Γ cfg cells R (holding env i (some { h with mode := if h.mode = .excl then .frozen else h.mode }) hs)
    | _ => pure []
  | exclusive i m q, env =>
    match env[i]? with
    | some (some h) =>
      if h.mode = .excl then do
        match ← m.plan Γ cfg h with
        | none => pure []
        | some p =>
          let hs ← h.make Γ cells R true p
          q.run Γ cfg cells R (holding env i none hs)
      else pure []
    | _ => pure []

end Dync
