import Verif.VecCopyLemmas3
/-!
# Programs that use several `VecCopy` containers

A straight-line program over numbered variables, each holding at most one container (of any
element type). `Op.exec` runs an operation with the modelled implementation. `Op.spec` says what the
same operation does when the variables hold plain typed vectors `Vec<T>`, given by the element type
and the list of elements.
-/
namespace Dync
variable {U V : Type}

/-- What a program sees. -/
inductive Obs where
  | absent                              -- the variable holds nothing; nothing was done
  | done                                -- success without a value
  | refused                             -- `None`
  | elem (b : Bytes)                    -- one element
  | value (t : TyId) (b : Bytes)        -- one untyped value
  | elems (bs : List Bytes)             -- a slice of elements
  | num (n : Nat)
deriving DecidableEq

/-- Operations. `k`, `j` name variables, `t` is the type argument the program uses. -/
inductive Op where
  | withType (k : Nat) (t : TyId)
  | withCapacity (k : Nat) (t : TyId) (n : Nat)
  | fromSlice (k : Nat) (t : TyId) (xs : List Bytes)
  | drop (k : Nat)
  | clone (k j : Nat)                          -- `j = k.clone()`
  | append (k j : Nat)                         -- `k.append(&mut j)`
  | roundTrip (k : Nat) (t : TyId)             -- `k = VecCopy::from_vec(k.into_vec::<T>()?)`
  | pushAs (k : Nat) (t : TyId) (x : Bytes)
  | push (k : Nat) (t : TyId) (x : Bytes)      -- untyped push of a value of type `t`
  | resize (k : Nat) (t : TyId) (n : Nat) (x : Bytes)
  | reserve (k : Nat) (n : Nat)
  | clear (k : Nat)
  | fill (k : Nat) (t : TyId) (x : Bytes)
  | copyFromSlice (k : Nat) (t : TyId) (xs : List Bytes)
  | rotateLeft (k : Nat) (n : Nat)
  | rotateRight (k : Nat) (n : Nat)
  | swap (k : Nat) (i j : Nat)
  | setAs (k : Nat) (t : TyId) (i : Nat) (x : Bytes)     -- `*k.get_mut_as::<T>(i)? = x`
  | setValue (k : Nat) (i : Nat) (t : TyId) (x : Bytes)  -- `k.get_mut(i).copy(value of type t)`
  | mapAll (k : Nat) (f : Bytes → Bytes)                 -- write every element through `iter_mut`
  | len (k : Nat)
  | typeId (k : Nat)
  | getAs (k : Nat) (t : TyId) (i : Nat)
  | get (k : Nat) (i : Nat)
  | asSlice (k : Nat) (t : TyId)
  | iter (k : Nat)

/-- The variables of the program. -/
abbrev Slots (V : Type) := Nat → Option (VecCopy V)

/-- Assign to a variable without dropping its old content. -/
def Slots.put {β : Type} (s : Nat → Option β) (k : Nat) (c : Option β) : Nat → Option β :=
  fun i => if i = k then c else s i

/-- What an `Option`-returning method tells the program. -/
def Obs.ofUnit : Option Unit → Obs
  | some _ => .done
  | none => .refused

namespace Op

/-- Call a method on the container in variable `k`. -/
def onSlot (k : Nat) (m : M (VecCopy V × World U) Obs) : M (Slots V × World U) Obs := ⟨fun s =>
  match s.1 k with
  | none => (.ok .absent, s)
  | some c => ((m (c, s.2)).1, (Slots.put s.1 k (some (m (c, s.2)).2.1), (m (c, s.2)).2.2))⟩

/-- Move the container out of variable `k`; `m` uses it up. -/
def takeSlot (k : Nat) (m : VecCopy V → M (Slots V × World U) Obs) : M (Slots V × World U) Obs := ⟨fun s =>
  match s.1 k with
  | none => (.ok .absent, s)
  | some c => m c (Slots.put s.1 k none, s.2)⟩

/-- `variable k = c`: the old content is dropped. -/
def assign (cfg : Cfg) (k : Nat) (c : VecCopy V) : M (Slots V × World U) Unit := do
  let (slots, _) ← M.get
  match slots k with
  | none => pure ()
  | some old => onWorld (VecCopy.drop cfg old)
  M.modify fun s => (Slots.put s.1 k (some c), s.2)

/-- Run an operation with the implementation. `vt` is the virtual table given to new containers. -/
def exec (Γ : TyEnv U) (cfg : Cfg) (vt : V) : Op → M (Slots V × World U) Obs
  | withType k t => do
    let c ← onWorld (VecCopy.withType Γ t vt)
    assign cfg k c
    pure .done
  | withCapacity k t n => do
    let c ← onWorld (VecCopy.withCapacity Γ t vt n)
    assign cfg k c
    pure .done
  | fromSlice k t xs => do
    let c ← onWorld (VecCopy.fromSlice Γ t vt xs)
    assign cfg k c
    pure .done
  | drop k => takeSlot k fun c => do
    onWorld (VecCopy.drop cfg c)
    pure .done
  | clone k j => ⟨fun s =>
    match s.1 k with
    | none => (.ok .absent, s)
    | some c => (do
        let c' ← onWorld (VecCopy.clone cfg c)
        assign cfg j c'
        pure .done : M (Slots V × World U) Obs) s⟩
  | append k j => ⟨fun s =>
    if k = j then (.ok .absent, s) else    -- not expressible in Rust (two mutable borrows)
    match s.1 k, s.1 j with
    | some c, some b =>
      let out := VecCopy.append Γ cfg (c, (⟨s.2.heap, (b, s.2.user)⟩ : World (VecCopy V × U)))
      (out.1.map Obs.ofUnit, (Slots.put (Slots.put s.1 k (some out.2.1)) j (some out.2.2.user.1),
        ⟨out.2.2.heap, out.2.2.user.2⟩))
    | _, _ => (.ok .absent, s)⟩
  | roundTrip k t => takeSlot k fun c => do
    match ← onWorld (VecCopy.intoVec Γ cfg t c) with
    | none => pure .refused
    | some v => do
      let c' ← onWorld (VecCopy.fromVec Γ t vt v)
      assign cfg k c'
      pure .done
  | pushAs k t x => onSlot k do return Obs.ofUnit (← VecCopy.pushAs Γ cfg t x)
  | push k t x => onSlot k do return Obs.ofUnit (← VecCopy.push Γ cfg (CopyValue.new Γ t vt x))
  | resize k t n x => onSlot k do return Obs.ofUnit (← VecCopy.resize Γ cfg t n x)
  | reserve k n => onSlot k do VecCopy.reserve Γ cfg n; return .done
  | clear k => onSlot k do VecCopy.clear Γ cfg; return .done
  | fill k t x => onSlot k do return Obs.ofUnit (← VecCopy.fill Γ t x)
  | copyFromSlice k t xs => onSlot k do return Obs.ofUnit (← VecCopy.copyFromSlice Γ cfg t xs)
  | rotateLeft k n => onSlot k do VecCopy.rotateLeft Γ cfg n; return .done
  | rotateRight k n => onSlot k do VecCopy.rotateRight Γ cfg n; return .done
  | swap k i j => onSlot k do VecCopy.swap cfg i j; return .done
  | setAs k t i x => onSlot k do
    return Obs.ofUnit (← VecCopy.getMutAs Γ t i (M.modify fun s => (x, s.2)))
  | setValue k i t x => onSlot k do
    return Obs.ofUnit (← VecCopy.getMut cfg i
      (M.zoom Prod.fst (fun v s => (v, s.2)) (do
        let self ← M.get
        CopyValue.copy (CopyValue.new Γ t self.vtable x))))
  | mapAll k f => onSlot k do
    VecCopy.iterMut (M.modify fun s => ({ s.1 with bytes := f s.1.bytes }, s.2))
    return .done
  | len k => onSlot k do return .num (← getSelf).len
  | typeId k => onSlot k do return .num (← getSelf).elementTypeId
  | getAs k t i => onSlot k do
    match ← VecCopy.getAs Γ t i (← getSelf) with
    | none => return .refused
    | some b => return .elem b
  | get k i => onSlot k do
    let v ← VecCopy.getRef cfg i (← getSelf)
    return .value v.type_id v.bytes
  | asSlice k t => onSlot k do
    match ← VecCopy.asSliceAs Γ t (← getSelf) with
    | none => return .refused
    | some bs => return .elems bs
  | iter k => onSlot k do return .elems ((← VecCopy.iter (← getSelf)).map (·.bytes))

/-! ### Specification -/

/-- A program state as seen with plain typed vectors. -/
abbrev VState := Nat → Option (TyId × List Bytes)

/-- An operation that replaces the elements of variable `k`; `none` means that the same operation on
a `Vec<T>` panics (or cannot be written). -/
def specOn (s : VState) (k : Nat) (f : TyId → List Bytes → Option (Obs × List Bytes)) : Option (Obs × VState) :=
  match s k with
  | none => some (.absent, s)
  | some (t, es) =>
    match f t es with
    | none => none
    | some (o, es') => some (o, Slots.put s k (some (t, es')))

/-- The operation on plain typed vectors. A wrong type argument is refused without effect. -/
def spec (Γ : TyEnv U) : Op → VState → Option (Obs × VState)
  | withType k t, s => some (.done, Slots.put s k (some (t, [])))
  | withCapacity k t _, s => some (.done, Slots.put s k (some (t, [])))
  | fromSlice k t xs, s => some (.done, Slots.put s k (some (t, xs)))
  | drop k, s => match s k with
    | none => some (.absent, s)
    | some _ => some (.done, Slots.put s k none)
  | clone k j, s => match s k with
    | none => some (.absent, s)
    | some x => some (.done, Slots.put s j (some x))
  | append k j, s =>
    if k = j then some (.absent, s) else
    match s k, s j with
    | some (t, es), some (t', es') =>
      if t = t' then some (.done, Slots.put (Slots.put s k (some (t, es ++ es'))) j (some (t, [])))
      else some (.refused, s)
    | _, _ => some (.absent, s)
  | roundTrip k t, s => match s k with
    | none => some (.absent, s)
    | some (t', es) => if t' = t then some (.done, Slots.put s k (some (t, es)))
      else some (.refused, Slots.put s k none)
  | pushAs k t x, s => specOn s k fun t' es => if t = t' then some (.done, es ++ [x]) else some (.refused, es)
  | push k t x, s => specOn s k fun t' es =>
    if t = t' then some (.done, es ++ [x]) else if Γ.size t = Γ.size t' then some (.refused, es) else none
  | resize k t n x, s => specOn s k fun t' es =>
    if t = t' then some (.done, es.take n ++ List.replicate (n - es.length) x) else some (.refused, es)
  | reserve k _, s => specOn s k fun _ es => some (.done, es)
  | clear k, s => specOn s k fun _ _ => some (.done, [])
  | fill k t x, s => specOn s k fun t' es =>
    if t = t' then some (.done, List.replicate es.length x) else some (.refused, es)
  | copyFromSlice k t xs, s => specOn s k fun t' es =>
    if t = t' then (if xs.length = es.length then some (.done, xs) else none) else some (.refused, es)
  | rotateLeft k n, s => specOn s k fun _ es =>
    if n ≤ es.length then some (.done, es.drop n ++ es.take n) else none
  | rotateRight k n, s => specOn s k fun _ es =>
    if n ≤ es.length then some (.done, es.drop (es.length - n) ++ es.take (es.length - n)) else none
  | swap k i j, s => specOn s k fun _ es =>
    if h : i < es.length ∧ j < es.length then some (.done, (es.set i es[j]).set j es[i]) else none
  | setAs k t i x, s => specOn s k fun t' es =>
    if i < es.length then (if t = t' then some (.done, es.set i x) else some (.refused, es)) else none
  | setValue k i t x, s => specOn s k fun t' es =>
    if i < es.length then (if t = t' then some (.done, es.set i x) else some (.refused, es)) else none
  | mapAll k f, s => specOn s k fun _ es => some (.done, es.map f)
  | len k, s => specOn s k fun _ es => some (.num es.length, es)
  | typeId k, s => specOn s k fun t' es => some (.num t', es)
  | getAs k t i, s => specOn s k fun t' es =>
    if h : i < es.length then (if t = t' then some (.elem es[i], es) else some (.refused, es)) else none
  | get k i, s => specOn s k fun t' es =>
    if h : i < es.length then some (.value t' es[i], es) else none
  | asSlice k t, s => specOn s k fun t' es => if t = t' then some (.elems es, es) else some (.refused, es)
  | iter k, s => specOn s k fun _ es => some (.elems es, es)

/-- Programs are well-typed: a value passed as a `T` is the image of a `T`, and every `T` used with a
`VecCopy` is a `Copy` type (dropping one does nothing) of non-zero size. -/
def WellTyped (Γ : TyEnv U) : Op → Prop
  | withType _ t => Plain t
  | withCapacity _ t _ => Plain t
  | fromSlice _ t xs => Plain t ∧ ∀ x ∈ xs, x.length = Γ.size t
  | pushAs _ t x => Plain t ∧ x.length = Γ.size t
  | push _ t x => Plain t ∧ x.length = Γ.size t
  | resize _ t _ x => Plain t ∧ x.length = Γ.size t
  | fill _ t x => Plain t ∧ x.length = Γ.size t
  | copyFromSlice _ t xs => Plain t ∧ ∀ x ∈ xs, x.length = Γ.size t
  | setAs _ t _ x => Plain t ∧ x.length = Γ.size t
  | setValue _ _ t x => Plain t ∧ x.length = Γ.size t
  | mapAll _ f => ∀ x, (f x).length = x.length
  | _ => True
where
  /-- a `Copy` type of non-zero size -/
  Plain (t : TyId) : Prop := 0 < Γ.size t ∧ ∀ b u, Γ.drop t b u = (.ok (), u)

/-- Restrictions of the implementation that a `Vec<T>` does not have, given the state before the
operation: at most `N` elements are ever requested in one container and `4 * N + 16` of them fit into
an allocation; untyped `push` needs size = alignment; rotation needs alignment ≤ 8192; and containers
of 3-byte elements of alignment 1 may not be grown to exactly two elements by `reserve`, `resize` or
`append`. -/
def Supported (Γ : TyEnv U) (N : Nat) (s : VState) : Op → Prop
  | withType _ t => Room Γ t (4 * N + 16)
  | withCapacity _ t n => n ≤ N ∧ Room Γ t (4 * N + 16)
  | fromSlice _ t xs => xs.length ≤ N ∧ Room Γ t (4 * N + 16)
  | append k j => ∀ t es t' es', s k = some (t, es) → s j = some (t', es') → t = t' →
      es.length + es'.length ≤ N ∧ ¬ Odd t (es.length + es'.length)
  | pushAs k t _ => ∀ es, s k = some (t, es) → es.length + 1 ≤ N
  | push k t _ => ∀ es, s k = some (t, es) → es.length + 1 ≤ N ∧ Γ.size t = Γ.align t
  | resize k t n _ => ∀ es, s k = some (t, es) → n ≤ N ∧ ¬ Odd t n
  | reserve k n => ∀ t es, s k = some (t, es) → es.length + n ≤ N ∧ ¬ Odd t (es.length + n)
  | rotateLeft k _ => ∀ t es, s k = some (t, es) → Γ.align t ≤ 8192
  | rotateRight k _ => ∀ t es, s k = some (t, es) → Γ.align t ≤ 8192
  | _ => True
where
  /-- the layout and size for which growing may fail -/
  Odd (t : TyId) (need : Nat) : Prop := Γ.size t = 3 ∧ Γ.align t = 1 ∧ need = 2

end Op

/-- Run a program with the implementation, collecting what it sees. -/
def runOps (Γ : TyEnv U) (cfg : Cfg) (vt : V) : List Op → M (Slots V × World U) (List Obs)
  | [] => pure []
  | op :: ops => do
    let o ← op.exec Γ cfg vt
    let os ← runOps Γ cfg vt ops
    pure (o :: os)

/-- Run a program on plain typed vectors; `none` if a `Vec` operation panics. -/
def specOps (Γ : TyEnv U) : List Op → Op.VState → Option (List Obs × Op.VState)
  | [], s => some ([], s)
  | op :: ops, s =>
    match op.spec Γ s with
    | none => none
    | some (o, s') =>
      match specOps Γ ops s' with
      | none => none
      | some (os, s'') => some (o :: os, s'')

/-- Every operation of the program is supported in the state in which it is executed. -/
def SupportedOps (Γ : TyEnv U) (N : Nat) : List Op → Op.VState → Prop
  | [], _ => True
  | op :: ops, s => op.Supported Γ N s ∧ ∀ o s', op.spec Γ s = some (o, s') → SupportedOps Γ N ops s'

/-! ### Programs that catch panics -/

/-- Run a program in which every operation is wrapped in `catch_unwind`; `none` is a caught panic. -/
def runCaught (Γ : TyEnv U) (cfg : Cfg) (vt : V) : List Op → M (Slots V × World U) (List (Option Obs))
  | [] => pure []
  | op :: ops => do
    let o ← (⟨fun s => match op.exec Γ cfg vt s with
      | (.ok o, s') => (.ok (some o), s')
      | (.panic _, s') => (.ok none, s')
      | (.ub, s') => (.ub, s')
      | (.abort, s') => (.abort, s')⟩ : M (Slots V × World U) (Option Obs))
    let os ← runCaught Γ cfg vt ops
    pure (o :: os)

/-- The same program on plain typed vectors: an operation that panics changes nothing. -/
def specCaught (Γ : TyEnv U) : List Op → Op.VState → List (Option Obs) × Op.VState
  | [], s => ([], s)
  | op :: ops, s =>
    match op.spec Γ s with
    | none => (none :: (specCaught Γ ops s).1, (specCaught Γ ops s).2)
    | some (o, s') => (some o :: (specCaught Γ ops s').1, (specCaught Γ ops s').2)

/-- Out-of-range arguments for which the implementation does not behave like a panic without effect:
rotations (the container is lost) and swapping an index with itself (nothing happens). -/
def Op.Catchable (s : Op.VState) : Op → Prop
  | .rotateLeft k n => ∀ t es, s k = some (t, es) → n ≤ es.length
  | .rotateRight k n => ∀ t es, s k = some (t, es) → n ≤ es.length
  | .swap k i j => ∀ t es, s k = some (t, es) → i = j → i < es.length
  | _ => True

/-- Every operation is supported and catchable in the state in which it is executed. -/
def CatchableOps (Γ : TyEnv U) (N : Nat) : List Op → Op.VState → Prop
  | [], _ => True
  | op :: ops, s => op.Supported Γ N s ∧ op.Catchable s ∧
    (op.spec Γ s = none → CatchableOps Γ N ops s) ∧
    ∀ o s', op.spec Γ s = some (o, s') → CatchableOps Γ N ops s'

/-- The implementation state holds exactly the vectors of the specification state: every variable
represents its vector, different variables own different blocks, and every live heap block belongs
to a variable. -/
structure HInv (Γ : TyEnv U) (N : Nat) (slots : Slots V) (h : Heap) (s : Op.VState) : Prop where
  wf : h.WF
  none_iff : ∀ k, slots k = none ↔ s k = none
  repr : ∀ k c t es, slots k = some c → s k = some (t, es) → Repr Γ h t es c.data ∧
    c.data.cap ≤ 2 * N + 8 ∧ Room Γ t (4 * N + 16)
  inj : ∀ k k' c c', slots k = some c → slots k' = some c' → c.data.ptr = c'.data.ptr → k = k'
  owned : ∀ i l, h.live i = some l → ∃ k c, slots k = some c ∧ c.data.ptr = some i

end Dync
