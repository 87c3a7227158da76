import Verif.History
import Verif.SpecDyn
/-!
# Programs that use several `VecDyn` containers and owned untyped values

A straight-line program over numbered variables, each holding at most one `VecDyn`, `BoxValue` or
`SmallValue` of any element type. `DOp.exec` runs an operation with the modelled implementation,
`DOp.spec` runs it on plain typed values: `Vec<T>`, `Box<T>` and `T`. Both run the user's `Clone` and
`Drop` code, which is arbitrary.
-/
namespace Dync
variable {U V : Type}

/-- What a variable holds: implementation side. -/
inductive Item (V : Type) where
  | vec (c : VecDyn V)
  | box (v : BoxValue V)
  | small (v : SmallValue V)

/-- What a variable holds: a `Vec<T>`, a `Box<T>` or a `T`. -/
inductive SItem where
  | vec (t : TyId) (es : List Bytes)
  | box (t : TyId) (x : Bytes)
  | small (t : TyId) (x : Bytes)
deriving DecidableEq

/-- Operations. `k`, `j` name variables, `t` is the type argument, `x`/`xs` are typed values the
program passes by value (`fromSlice`: by reference). A *place* `(k, i)` is the element `i` of the
container in variable `k`, or the content of the value in variable `k` (then `i` is not used). -/
inductive DOp where
  | withType (k : Nat) (t : TyId)
  | withCapacity (k : Nat) (t : TyId) (n : Nat)
  | fromVec (k : Nat) (t : TyId) (xs : List Bytes)          -- `Vec` of exactly these elements
  | fromSlice (k : Nat) (t : TyId) (xs : List Bytes)
  | withSize (k : Nat) (t : TyId) (n : Nat) (x : Bytes)
  | newBox (k : Nat) (t : TyId) (x : Bytes)
  | newSmall (k : Nat) (t : TyId) (x : Bytes)
  | drop (k : Nat)
  | clone (k j : Nat)                                       -- `j = k.clone()`
  | consume (k : Nat) (t : TyId)          -- `drop(k.into_vec::<T>())`, `drop(k.downcast::<T>())`
  | roundTrip (k : Nat) (t : TyId)                          -- `k = from_vec(k.into_vec::<T>()?)`
  | append (k j : Nat)
  | pushAs (k : Nat) (t : TyId) (x : Bytes)
  | pushCloned (k : Nat) (j i : Nat)                        -- push a clone of the place `(j, i)`
  | pushBox (k j : Nat)                                     -- `k.push(j)`
  | resize (k : Nat) (t : TyId) (n : Nat) (x : Bytes)
  | fill (k : Nat) (t : TyId) (x : Bytes)
  | clear (k : Nat)
  | rotateLeft (k : Nat) (n : Nat)
  | rotateRight (k : Nat) (n : Nat)
  | swap (k : Nat) (a b : Nat)                              -- `k.as_mut_slice().swap(a, b)`
  | setAs (k : Nat) (t : TyId) (i : Nat) (x : Bytes)        -- `*k.get_mut_as::<T>(i)? = x`, place first
  | cloneIntoVec (k : Nat) (t : TyId)                       -- look at `k.clone_into_vec::<T>()`, drop it
  | cloneValue (k i j : Nat)                                -- `j = place.clone_value()`
  | cloneSmall (k i j : Nat)                                -- `j = place.clone_small_value()`
  | assign (k i j : Nat)                                    -- `place.assign(j)`
  | cloneFrom (k i j i' : Nat)                              -- `place.clone_from_other(place')`
  | swapValues (k i j i' : Nat)                             -- `place.swap(place')`
  | len (k : Nat)
  | typeId (k : Nat)
  | getAs (k : Nat) (t : TyId) (i : Nat)
  | get (k i : Nat)                                         -- type and bytes of a place
  | asSlice (k : Nat) (t : TyId)
  | iter (k : Nat)

/-- The variables of the program. -/
abbrev DSlots (V : Type) := Nat → Option (Item V)
/-- The variables as plain typed values. -/
abbrev DState := Nat → Option SItem

/-- Dropping what a variable holds. -/
def Item.drop [HasDrop U V] (cfg : Cfg) : Item V → M (World U) Unit
  | .vec c => VecDyn.drop cfg c
  | .box v => Value.drop v
  | .small v => Value.drop v

/-- The block a variable owns. -/
def Item.ptr : Item V → Ptr
  | .vec c => c.data.ptr
  | .box v => v.bytes.ptr
  | .small _ => none

/-- Dropping a `Box<T>`: the content, then the block (also when the destructor panics). -/
def dropTypedBox (Γ : TyEnv U) (t : TyId) (b : BoxBytes) : M (World U) Unit :=
  M.thenDrop (worldUser (Γ.drop t b.bytes)) (worldHeap (dealloc b.ptr (Γ.layout t)))

namespace DOp
variable [HasDrop U V] [HasClone U V]

/-- Call a method on the container in variable `k`. -/
def onVec (k : Nat) (m : M (VecDyn V × World U) Obs) : M (DSlots V × World U) Obs := ⟨fun s =>
  match s.1 k with
  | some (.vec c) => ((m (c, s.2)).1, (Slots.put s.1 k (some (.vec (m (c, s.2)).2.1)), (m (c, s.2)).2.2))
  | _ => (.ok .absent, s)⟩

/-- `variable k = a`: the old content is dropped; `a` is stored even if that panics. -/
def putItem (cfg : Cfg) (k : Nat) (a : Item V) : M (DSlots V × World U) Unit := ⟨fun s =>
  match s.1 k with
  | none => (.ok (), (Slots.put s.1 k (some a), s.2))
  | some old => ((old.drop cfg s.2).1, (Slots.put s.1 k (some a), (old.drop cfg s.2).2))⟩

/-- Create something and assign it to variable `k`. -/
def create (cfg : Cfg) (k : Nat) (m : M (World U) (Item V)) : M (DSlots V × World U) Obs := do
  let a ← onWorld m
  putItem cfg k a
  pure .done

/-- Move out of variable `k`. -/
def clearVar (k : Nat) : M (DSlots V × World U) Unit := M.modify fun s => (Slots.put s.1 k none, s.2)

/-- A reference to a place: `VecDyn::get`, `Value::as_ref`. `none`: the variable is empty. -/
def readRef (cfg : Cfg) (k i : Nat) : M (DSlots V × World U) (Option (ValueRef V)) := ⟨fun s =>
  match s.1 k with
  | none => (.ok none, s)
  | some (.vec c) => (((VecDyn.get cfg i c : M (World U) (ValueRef V)) s.2).1.map some, s)
  | some (.box v) => (.ok (some v.asRef), s)
  | some (.small v) => (.ok (some v.asRef), s)⟩

/-- A mutable reference to a place, used by `m`: `VecDyn::get_mut`, `Value::as_mut`. -/
def onMut (cfg : Cfg) (k i : Nat) (m : M (ValueRef V × World U) Obs) : M (DSlots V × World U) Obs := ⟨fun s =>
  match s.1 k with
  | none => (.ok .absent, s)
  | some (.vec c) =>
    let out := VecDyn.getMut cfg i m (c, s.2)
    (out.1, (Slots.put s.1 k (some (.vec out.2.1)), out.2.2))
  | some (.box v) =>
    let out := m (v.asRef, s.2)
    (out.1, (Slots.put s.1 k (some (.box { v with bytes := ByteBuf.set out.2.1.bytes v.bytes })), out.2.2))
  | some (.small v) =>
    let out := m (v.asRef, s.2)
    (out.1, (Slots.put s.1 k (some (.small { v with bytes := ByteBuf.set out.2.1.bytes v.bytes })), out.2.2))⟩

/-- A place is written by a reference that another reference was exchanged with. -/
def writeRef (cfg : Cfg) (k i : Nat) (b : Bytes) : M (DSlots V × World U) Obs :=
  onMut cfg k i (do M.modify fun s => ({ s.1 with bytes := b }, s.2); pure .done)

/-- `roundTrip` on the container. -/
def roundTripVec (Γ : TyEnv U) (cfg : Cfg) (vt : TyId → V) (k : Nat) (t : TyId) (c : VecDyn V) :
    M (DSlots V × World U) Obs := do
  match ← onWorld (VecCopy.intoVec Γ cfg t c) with
  | none => pure .refused
  | some v => create cfg k (do return .vec (← VecCopy.fromVec Γ t (vt t) v))

/-- Convert to the typed value and drop that. -/
def consumeItem (Γ : TyEnv U) (cfg : Cfg) (t : TyId) : Item V → M (World U) Obs
  | .vec c => do
    match ← VecCopy.intoVec Γ cfg t c with
    | none => pure .refused
    | some v => do RVec.dropTyped Γ t v; pure .done
  | .box v => do
    match ← BoxValue.downcast t v with
    | none => pure .refused
    | some b => do dropTypedBox Γ t b; pure .done
  | .small v => do
    match ← SmallValue.downcast Γ t v with
    | none => pure .refused
    | some x => do worldUser (Γ.drop t x); pure .done

/-- `Clone` of what a variable holds. -/
def cloneItem (cfg : Cfg) : Item V → M (World U) (Item V)
  | .vec c => do return .vec (← VecDyn.clone cfg c)
  | .box v => do return .box (← BoxValue.clone v)
  | .small v => do return .small (← SmallValue.clone v)

/-- `place.assign(value)` with the value moved out of a variable. -/
def assignItem (b : Item V) : M (ValueRef V × World U) Obs :=
  match b with
  | .vec _ => pure .absent
  | .box v => do ValueRef.assign v; pure .done
  | .small v => do ValueRef.assign v; pure .done

/-- Run an operation with the implementation. `vt t` is the virtual table built for type `t`. -/
def exec (Γ : TyEnv U) (cfg : Cfg) (vt : TyId → V) : DOp → M (DSlots V × World U) Obs
  | withType k t => create cfg k (do return .vec (← VecCopy.withType Γ t (vt t)))
  | withCapacity k t n => create cfg k (do return .vec (← VecCopy.withCapacity Γ t (vt t) n))
  | fromVec k t xs => create cfg k (do
      let v ← RVec.withCapacity (Γ.layout t) xs.length
      return .vec (← VecCopy.fromVec Γ t (vt t) { v with len := xs.length, bytes := xs.flatten }))
  | fromSlice k t xs => create cfg k (do return .vec (← VecDyn.fromSlice Γ t (vt t) xs))
  | withSize k t n x => create cfg k (do return .vec (← VecDyn.withSize Γ t (vt t) n x))
  | newBox k t x => create cfg k (do return .box (← BoxValue.new Γ t (vt t) x))
  | newSmall k t x => create cfg k (do return .small (← SmallValue.new Γ t (vt t) x))
  | drop k => ⟨fun s =>
    match s.1 k with
    | none => (.ok .absent, s)
    | some a => (do clearVar k; onWorld (a.drop cfg); pure .done : M (DSlots V × World U) Obs) s⟩
  | clone k j => ⟨fun s =>
    match s.1 k with
    | none => (.ok .absent, s)
    | some a => create cfg j (cloneItem cfg a) s⟩
  | consume k t => ⟨fun s =>
    match s.1 k with
    | none => (.ok .absent, s)
    | some a => (do clearVar k; onWorld (consumeItem Γ cfg t a) : M (DSlots V × World U) Obs) s⟩
  | roundTrip k t => ⟨fun s =>
    match s.1 k with
    | some (.vec c) => (do clearVar k; roundTripVec Γ cfg vt k t c : M (DSlots V × World U) Obs) s
    | _ => (.ok .absent, s)⟩
  | append k j => ⟨fun s =>
    if k = j then (.ok .absent, s) else    -- not expressible in Rust (two mutable borrows)
    match s.1 k, s.1 j with
    | some (.vec c), some (.vec b) =>
      let out := VecCopy.append Γ cfg (c, (⟨s.2.heap, (b, s.2.user)⟩ : World (VecCopy V × U)))
      (out.1.map Obs.ofUnit, (Slots.put (Slots.put s.1 k (some (.vec out.2.1))) j (some (.vec out.2.2.user.1)),
        ⟨out.2.2.heap, out.2.2.user.2⟩))
    | _, _ => (.ok .absent, s)⟩
  | pushAs k t x => onVec k do return Obs.ofUnit (← VecCopy.pushAs Γ cfg t x)
  | pushCloned k j i => do
    if k = j then return .absent
    match ← readRef cfg j i with
    | none => return .absent
    | some v => onVec k do return Obs.ofUnit (← VecDyn.pushCloned Γ cfg v)
  | pushBox k j => ⟨fun s =>
    match s.1 k, s.1 j with
    | some (.vec _), some (.box v) =>
      (do clearVar j; onVec k do return Obs.ofUnit (← VecDyn.push Γ cfg v) : M (DSlots V × World U) Obs) s
    | _, _ => (.ok .absent, s)⟩
  | resize k t n x => onVec k do return Obs.ofUnit (← VecDyn.resize Γ cfg t n x)
  | fill k t x => onVec k do return Obs.ofUnit (← VecDyn.fill Γ t x)
  | clear k => onVec k do VecDyn.clear Γ cfg; return .done
  | rotateLeft k n => onVec k do VecCopy.rotateLeft Γ cfg n; return .done
  | rotateRight k n => onVec k do VecCopy.rotateRight Γ cfg n; return .done
  | swap k a b => onVec k do VecCopy.swap cfg a b; return .done
  | setAs k t i x => onVec k do
    match ← VecCopy.getMutAs Γ t i (VecDyn.assignTyped Γ t x) with
    | some _ => return .done
    | none => do onWorld (worldUser (Γ.drop t x)); return .refused
  | cloneIntoVec k t => onVec k do
    match ← onWorld (VecDyn.cloneIntoVec Γ t (← getSelf)) with
    | none => return .refused
    | some es => do onWorld (worldUser (M.dropEach es (Γ.drop t))); return .elems es
  | cloneValue k i j => do
    match ← readRef cfg k i with
    | none => return .absent
    | some v => create cfg j (do return .box (← ValueRef.cloneValue v))
  | cloneSmall k i j => do
    match ← readRef cfg k i with
    | none => return .absent
    | some v => create cfg j (do return .small (← ValueRef.cloneSmallValue v))
  | assign k i j => ⟨fun s =>
    if k = j then (.ok .absent, s) else
    match s.1 k, s.1 j with
    | some _, some b =>
      match b with
      | .vec _ => (.ok .absent, s)
      | b => (do
          let _ ← readRef cfg k i       -- the place is evaluated before the value is moved
          clearVar j
          onMut cfg k i (assignItem b) : M (DSlots V × World U) Obs) s
    | _, _ => (.ok .absent, s)⟩
  | cloneFrom k i j i' => do
    if k = j then return .absent
    match ← readRef cfg j i' with
    | none => return .absent
    | some v => onMut cfg k i do return Obs.ofUnit (← ValueRef.cloneFromOther v)
  | swapValues k i j i' => do
    if k = j then return .absent
    match ← readRef cfg k i with
    | none => return .absent
    | some a =>
      match ← readRef cfg j i' with
      | none => return .absent
      | some b => do
        let (a', b') ← M.lift ((ValueRef.swap (a, b)).1.map fun _ => (ValueRef.swap (a, b)).2)
        let _ ← writeRef cfg k i a'.bytes
        writeRef cfg j i' b'.bytes
  | len k => onVec k do return .num (← getSelf).len
  | typeId k => onVec k do return .num (← getSelf).elementTypeId
  | getAs k t i => onVec k do
    match ← VecCopy.getAs Γ t i (← getSelf) with
    | none => return .refused
    | some b => return .elem b
  | get k i => do
    match ← readRef cfg k i with
    | none => return .absent
    | some v => return .value v.type_id v.bytes
  | asSlice k t => onVec k do
    match ← VecCopy.asSliceAs Γ t (← getSelf) with
    | none => return .refused
    | some bs => return .elems bs
  | iter k => onVec k do return .elems ((← VecCopy.iter (← getSelf)).map (·.bytes))

end DOp

/-! ### Specification: the same operation on typed values -/

/-- The element type. -/
def SItem.ty : SItem → TyId
  | .vec t _ => t
  | .box t _ => t
  | .small t _ => t

/-- Overwriting the element `i`, or the content. -/
def SItem.setAt (i : Nat) (b : Bytes) : SItem → SItem
  | .vec t es => .vec t (es.set i b)
  | .box t _ => .box t b
  | .small t _ => .small t b

/-- Dropping a `Vec<T>`, a `Box<T>` or a `T`. -/
def SItem.drop (Γ : TyEnv U) : SItem → M U Unit
  | .vec t es => M.dropEach es (Γ.drop t)
  | .box t x => Γ.drop t x
  | .small t x => Γ.drop t x

namespace DSpec

/-- Run user code. -/
def user {α : Type} (m : M U α) : M (DState × U) α := M.zoom Prod.snd (fun u s => (s.1, u)) m

/-- `variable k = a`. -/
def put (Γ : TyEnv U) (k : Nat) (a : SItem) : M (DState × U) Obs := ⟨fun s =>
  match s.1 k with
  | none => (.ok .done, (Slots.put s.1 k (some a), s.2))
  | some old => ((old.drop Γ s.2).1.map fun _ => .done, (Slots.put s.1 k (some a), (old.drop Γ s.2).2))⟩

/-- A method on the vector in variable `k`: element type, content and user state. -/
def methodVec (k : Nat) (f : TyId → M (List Bytes × U) Obs) : M (DState × U) Obs := ⟨fun s =>
  match s.1 k with
  | some (.vec t es) =>
    ((f t (es, s.2)).1, (Slots.put s.1 k (some (.vec t (f t (es, s.2)).2.1)), (f t (es, s.2)).2.2))
  | _ => (.ok .absent, s)⟩

/-- A pure method on the vector; `none` means that it panics. -/
def pureVec (k : Nat) (f : TyId → List Bytes → Option (Obs × List Bytes)) : M (DState × U) Obs :=
  methodVec k fun t => ⟨fun s =>
    match f t s.1 with
    | none => (.panic .index, s)
    | some (o, es) => (.ok o, (es, s.2))⟩

/-- The content of a place. `none`: empty variable. -/
def read (k i : Nat) : M (DState × U) (Option (TyId × Bytes)) := ⟨fun s =>
  match s.1 k with
  | none => (.ok none, s)
  | some (.vec t es) => if h : i < es.length then (.ok (some (t, es[i])), s) else (.panic .index, s)
  | some (.box t x) => (.ok (some (t, x)), s)
  | some (.small t x) => (.ok (some (t, x)), s)⟩

/-- Overwrite a place (without dropping anything). -/
def write (k i : Nat) (b : Bytes) : M (DState × U) Unit :=
  M.modify fun s => (Slots.put s.1 k ((s.1 k).map (SItem.setAt i b)), s.2)

/-- Move out of variable `k`. -/
def moveOut (k : Nat) : M (DState × U) Unit := M.modify fun s => (Slots.put s.1 k none, s.2)

/-- The argument `x` is refused and dropped. -/
def refuse (Γ : TyEnv U) (t : TyId) (x : Bytes) : M (List Bytes × U) Obs := do
  M.zoom Prod.snd (fun u s => (s.1, u)) (Γ.drop t x)
  pure .refused

/-- A `Vec` function on content and user state. -/
def tvec (f : List Bytes → U → Res Unit × (List Bytes × U)) : M (List Bytes × U) Obs := do
  (⟨fun s => f s.1 s.2⟩ : M (List Bytes × U) Unit)
  pure .done

/-- Clone a sequence of elements; if that panics the clones are dropped. -/
def clones (Γ : TyEnv U) (t : TyId) (xs : List Bytes) : M U (List Bytes) := ⟨fun u =>
  match TVec.extendClones Γ t xs [] u with
  | (.ok _, (es, u')) => (.ok es, u')
  | (.panic y, (es, u')) => (M.unwindDrop (M.dropEach es (Γ.drop t)) >>= fun _ => M.panic y) u'
  | (.ub, (_, u')) => (.ub, u')
  | (.abort, (_, u')) => (.abort, u')⟩

/-- `vec![x; n]`. -/
def vecOf (Γ : TyEnv U) (t : TyId) (n : Nat) (x : Bytes) : M U (List Bytes) :=
  match n with
  | 0 => do Γ.drop t x; pure []
  | n + 1 => ⟨fun u =>
    match TVec.pushClones Γ t x n [] u with
    | (.ok _, (es, u')) => (.ok (es ++ [x]), u')
    | (.panic y, (es, u')) => (M.unwindDrop (do Γ.drop t x; M.dropEach es (Γ.drop t)) >>= fun _ => M.panic y) u'
    | (.ub, (_, u')) => (.ub, u')
    | (.abort, (_, u')) => (.abort, u')⟩

/-- `Clone` of a `Vec<T>`, a `Box<T>` or a `T`. -/
def cloneS (Γ : TyEnv U) : SItem → M U SItem
  | .vec t es => do return .vec t (← clones Γ t es)
  | .box t x => do return .box t (← Γ.clone t x)
  | .small t x => do return .small t (← Γ.clone t x)

end DSpec

open DSpec in
/-- The operation on plain typed values. A wrong type argument is refused; a refused by-value argument
is dropped, and a variable consumed by a refused conversion is dropped. -/
def DOp.spec (Γ : TyEnv U) : DOp → M (DState × U) Obs
  | withType k t => put Γ k (.vec t [])
  | withCapacity k t _ => put Γ k (.vec t [])
  | fromVec k t xs => put Γ k (.vec t xs)
  | fromSlice k t xs => do put Γ k (.vec t (← user (clones Γ t xs)))
  | withSize k t n x => do put Γ k (.vec t (← user (vecOf Γ t n x)))
  | newBox k t x => put Γ k (.box t x)
  | newSmall k t x => put Γ k (.small t x)
  | drop k => ⟨fun s =>
    match s.1 k with
    | none => (.ok .absent, s)
    | some a => (do moveOut k; user (a.drop Γ); pure .done : M (DState × U) Obs) s⟩
  | clone k j => ⟨fun s =>
    match s.1 k with
    | none => (.ok .absent, s)
    | some a => (do put Γ j (← user (cloneS Γ a)) : M (DState × U) Obs) s⟩
  | consume k t => ⟨fun s =>
    match s.1 k with
    | none => (.ok .absent, s)
    | some a => (do
        moveOut k
        user (a.drop Γ)
        pure (if a.ty = t then .done else .refused) : M (DState × U) Obs) s⟩
  | roundTrip k t => ⟨fun s =>
    match s.1 k with
    | some (.vec t' es) =>
      if t' = t then (.ok .done, s)
      else (do moveOut k; user ((SItem.vec t' es).drop Γ); pure .refused : M (DState × U) Obs) s
    | _ => (.ok .absent, s)⟩
  | append k j => ⟨fun s =>
    if k = j then (.ok .absent, s) else
    match s.1 k, s.1 j with
    | some (.vec t es), some (.vec t' es') =>
      if t = t' then (.ok .done, (Slots.put (Slots.put s.1 k (some (.vec t (es ++ es')))) j (some (.vec t [])), s.2))
      else (.ok .refused, s)
    | _, _ => (.ok .absent, s)⟩
  | pushAs k t x => methodVec k fun t' =>
    if t = t' then (do M.modify fun s => (s.1 ++ [x], s.2); pure .done) else refuse Γ t x
  | pushCloned k j i => do
    if k = j then return .absent
    match ← read j i with
    | none => return .absent
    | some (t, x) => methodVec k fun t' =>
      if t = t' then tvec fun es u => TVec.extendClones Γ t [x] es u else pure .refused
  | pushBox k j => ⟨fun s =>
    match s.1 k, s.1 j with
    | some (.vec _ _), some (.box t x) =>
      (do moveOut j
          methodVec k fun t' =>
            if t = t' then (do M.modify fun s => (s.1 ++ [x], s.2); pure .done) else refuse Γ t x
        : M (DState × U) Obs) s
    | _, _ => (.ok .absent, s)⟩
  | resize k t n x => methodVec k fun t' =>
    if t = t' then
      tvec fun es u =>
        if es.length ≤ n then TVec.thenDropArg Γ t x (TVec.pushClones Γ t x (n - es.length) es u)
        else TVec.thenDropArg Γ t x
          ((M.dropEach (es.drop n) (Γ.drop t) u).1, (es.take n, (M.dropEach (es.drop n) (Γ.drop t) u).2))
    else refuse Γ t x
  | fill k t x => methodVec k fun t' =>
    if t = t' then tvec fun es u => TVec.thenDropArg Γ t x (TVec.fill Γ t x es u) else refuse Γ t x
  | clear k => methodVec k fun t => tvec fun es u =>
      ((M.dropEach es (Γ.drop t) u).1, ([], (M.dropEach es (Γ.drop t) u).2))
  | rotateLeft k n => pureVec k fun _ es =>
    if n ≤ es.length then some (.done, es.drop n ++ es.take n) else none
  | rotateRight k n => pureVec k fun _ es =>
    if n ≤ es.length then some (.done, es.drop (es.length - n) ++ es.take (es.length - n)) else none
  | swap k i j => pureVec k fun _ es =>
    if h : i < es.length ∧ j < es.length then some (.done, (es.set i es[j]).set j es[i]) else none
  | setAs k t i x => methodVec k fun t' => ⟨fun s =>
    if h : i < s.1.length then
      if t = t' then ((Γ.drop t s.1[i] s.2).1.map fun _ => .done, (s.1.set i x, (Γ.drop t s.1[i] s.2).2))
      else refuse Γ t x s
    else (.panic .index, s)⟩
  | cloneIntoVec k t => methodVec k fun t' => ⟨fun s =>
    if t = t' then
      ((clones Γ t s.1 >>= fun es => M.dropEach es (Γ.drop t) >>= fun _ => pure (Obs.elems es)) s.2).map id fun u => (s.1, u)
    else (.ok .refused, s)⟩
  | cloneValue k i j => do
    match ← read k i with
    | none => return .absent
    | some (t, x) => put Γ j (.box t (← user (Γ.clone t x)))
  | cloneSmall k i j => do
    match ← read k i with
    | none => return .absent
    | some (t, x) => put Γ j (.small t (← user (Γ.clone t x)))
  | assign k i j => ⟨fun s =>
    if k = j then (.ok .absent, s) else
    match s.1 k, s.1 j with
    | some _, some (.box t x) => assignPlace k i j t x s
    | some _, some (.small t x) => assignPlace k i j t x s
    | _, _ => (.ok .absent, s)⟩
  | cloneFrom k i j i' => do
    if k = j then return .absent
    match ← read j i' with
    | none => return .absent
    | some (t, x) =>
      match ← read k i with
      | none => return .absent
      | some (t', d) => ⟨fun s =>
        if t = t' then
          ((Γ.cloneFrom t x (d, s.2)).1.map fun _ => .done,
            (write k i (Γ.cloneFrom t x (d, s.2)).2.1 (s.1, (Γ.cloneFrom t x (d, s.2)).2.2)).2)
        else (.ok .refused, s)⟩
  | swapValues k i j i' => do
    if k = j then return .absent
    match ← read k i with
    | none => return .absent
    | some (t, x) =>
      match ← read j i' with
      | none => return .absent
      | some (t', x') => do
        if t = t' then do
          write k i x'
          write j i' x
          return .done
        else return .done
  | len k => pureVec k fun _ es => some (.num es.length, es)
  | typeId k => pureVec k fun t' es => some (.num t', es)
  | getAs k t i => pureVec k fun t' es =>
    if h : i < es.length then (if t = t' then some (.elem es[i], es) else some (.refused, es)) else none
  | get k i => do
    match ← read k i with
    | none => return .absent
    | some (t, x) => return .value t x
  | asSlice k t => pureVec k fun t' es => if t = t' then some (.elems es, es) else some (.refused, es)
  | iter k => pureVec k fun _ es => some (.elems es, es)
where
  /-- `*place = value`: the old content is dropped if the types agree, else the value. -/
  assignPlace (k i j : Nat) (t : TyId) (x : Bytes) : M (DState × U) Obs := do
    match ← read k i with
    | none => return .absent
    | some (t', old) =>
      if t = t' then do
        moveOut j
        write k i x
        user (Γ.drop t old)
        return .done
      else do
        moveOut j
        user (Γ.drop t x)
        return .done

/-- Programs are well-typed: a value passed as a `T` is the image of a `T`; types stored in a container
have non-zero size (containers refuse the others), types stored in a `SmallValue` are word-sized. -/
def DOp.WellTyped (Γ : TyEnv U) : DOp → Prop
  | withType _ t => 0 < Γ.size t
  | withCapacity _ t _ => 0 < Γ.size t
  | fromVec _ t xs => 0 < Γ.size t ∧ ∀ x ∈ xs, x.length = Γ.size t
  | fromSlice _ t xs => 0 < Γ.size t ∧ ∀ x ∈ xs, x.length = Γ.size t
  | withSize _ t _ x => 0 < Γ.size t ∧ x.length = Γ.size t
  | newBox _ t x => x.length = Γ.size t
  | newSmall _ t x => x.length = Γ.size t ∧ Γ.size t = 8
  | pushAs _ t x => x.length = Γ.size t
  | resize _ t _ x => x.length = Γ.size t
  | fill _ t x => x.length = Γ.size t
  | setAs _ t _ x => x.length = Γ.size t
  | _ => True

/-- The type of the place `(k, i)`, whatever the index. -/
def DState.tyAt (s : DState) (k : Nat) : Option TyId := (s k).map SItem.ty

/-- Restrictions of the implementation that the typed program does not have, given the state before the
operation: at most `N` elements are ever requested in one container and `4 * N + 16` of them fit into
an allocation; pushing a boxed value needs size 1; rotation needs alignment ≤ 8192; containers of
3-byte elements of alignment 1 may not be grown to exactly two elements by `resize`, `append` or
`push_cloned`; conversions to a typed value are only attempted with the right type (the others leak);
`clone_small_value` needs word-sized content. -/
def DOp.Supported (Γ : TyEnv U) (N : Nat) (s : DState) : DOp → Prop
  | withType _ t => Room Γ t (4 * N + 16)
  | withCapacity _ t n => n ≤ N ∧ Room Γ t (4 * N + 16)
  | fromVec _ t xs => xs.length ≤ N ∧ Room Γ t (4 * N + 16)
  | fromSlice _ t xs => xs.length ≤ N ∧ Room Γ t (4 * N + 16)
  | withSize _ t n _ => n ≤ N ∧ Room Γ t (4 * N + 16)
  | consume k t => ∀ a, s k = some a → a.ty = t
  | roundTrip k t => ∀ t' es, s k = some (.vec t' es) → t' = t
  | append k j => ∀ t es t' es', s k = some (.vec t es) → s j = some (.vec t' es') → t = t' →
      es.length + es'.length ≤ N ∧ ¬ Op.Supported.Odd Γ t (es.length + es'.length)
  | pushAs k t _ => ∀ es, s k = some (.vec t es) → es.length + 1 ≤ N
  | pushCloned k j _ => ∀ t es, s k = some (.vec t es) → s.tyAt j = some t →
      es.length + 1 ≤ N ∧ ¬ Op.Supported.Odd Γ t (es.length + 1)
  | pushBox k j => ∀ t es x, s k = some (.vec t es) → s j = some (.box t x) → es.length + 1 ≤ N ∧ Γ.size t = 1
  | resize k t n _ => ∀ es, s k = some (.vec t es) → n ≤ N ∧ ¬ Op.Supported.Odd Γ t n
  | rotateLeft k _ => ∀ t es, s k = some (.vec t es) → Γ.align t ≤ 8192
  | rotateRight k _ => ∀ t es, s k = some (.vec t es) → Γ.align t ≤ 8192
  | cloneSmall k _ _ => ∀ t, s.tyAt k = some t → Γ.size t = 8
  | _ => True

/-! ### Programs -/

/-- Run a program with the implementation, collecting what it sees. -/
def runDOps [HasDrop U V] [HasClone U V] (Γ : TyEnv U) (cfg : Cfg) (vt : TyId → V) :
    List DOp → M (DSlots V × World U) (List Obs)
  | [] => pure []
  | op :: ops => do
    let o ← op.exec Γ cfg vt
    let os ← runDOps Γ cfg vt ops
    pure (o :: os)

/-- Run a program on plain typed values. -/
def specDOps (Γ : TyEnv U) : List DOp → M (DState × U) (List Obs)
  | [] => pure []
  | op :: ops => do
    let o ← op.spec Γ
    let os ← specDOps Γ ops
    pure (o :: os)

/-- Every operation of the program is supported in the state in which it is executed. -/
def SupportedDOps (Γ : TyEnv U) (N : Nat) : List DOp → DState × U → Prop
  | [], _ => True
  | op :: ops, s => op.Supported Γ N s.1 ∧ ∀ o s', op.spec Γ s = (.ok o, s') → SupportedDOps Γ N ops s'

/-! ### What it means that an implementation state holds given typed values -/

/-- `a` holds the typed value `b`. -/
def ItemOk [HasDrop U V] [HasClone U V] (Γ : TyEnv U) (N : Nat) (h : Heap) : Item V → SItem → Prop
  | .vec c, .vec t es => Repr Γ h t es c.data ∧ c.data.cap ≤ 2 * N + 8 ∧ Room Γ t (4 * N + 16) ∧
      LawfulDrop Γ t c.vtable ∧ LawfulClone Γ t c.vtable
  | .box v, .box t x => IsBox Γ h t x v ∧ LawfulDrop Γ t v.vtable ∧ LawfulClone Γ t v.vtable
  | .small v, .small t x => IsSmall Γ t x v ∧ LawfulDrop Γ t v.vtable ∧ LawfulClone Γ t v.vtable
  | _, _ => False

/-- A variable holds the typed value `b`, or both are empty. -/
def OptOk [HasDrop U V] [HasClone U V] (Γ : TyEnv U) (N : Nat) (h : Heap) : Option (Item V) → Option SItem → Prop
  | none, none => True
  | some a, some b => ItemOk Γ N h a b
  | _, _ => False

/-- The block a variable owns. -/
def ownedPtr : Option (Item V) → Ptr
  | none => none
  | some a => a.ptr

/-- The implementation state holds exactly the values of the specification state, different variables
own different blocks, and every live heap block belongs to a variable. -/
structure DInv [HasDrop U V] [HasClone U V] (Γ : TyEnv U) (N : Nat) (slots : DSlots V) (h : Heap) (s : DState) :
    Prop where
  wf : h.WF
  ok : ∀ k, OptOk Γ N h (slots k) (s k)
  inj : ∀ k k' i, ownedPtr (slots k) = some i → ownedPtr (slots k') = some i → k = k'
  owned : ∀ i l, h.live i = some l → ∃ k, ownedPtr (slots k) = some i

end Dync
