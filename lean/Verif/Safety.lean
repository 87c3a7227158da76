import Verif.History
/-!
# Programs without restrictions

Programs over several `VecCopy` containers as in `History`, with more operations (construction from
other containers, `extend`, `collect`, and programs that work on mutable views of views), without
any restriction on sizes, indices or types, and with every panic caught. `reads` records each value
such a program gets to see, together with the type it sees it at.
-/
namespace Dync
variable {U V : Type}

/-- Which byte images are values of a type: for instance only `0` and `1` for `bool`, only valid
addresses for references. Safe code relies on never seeing anything else. -/
structure Values (Γ : TyEnv U) where
  valid : TyId → Bytes → Prop
  len : ∀ t b, valid t b → b.length = Γ.size t
  unit : valid Γ.unitTy []

/-- A value that was read: its type and its bytes. -/
abbrev Read := TyId × Bytes

/-- What safe code can do with a mutable view `SliceCopyMut`. -/
inductive SProg where
  | skip
  | seq (p q : SProg)
  | get (i : Nat)                                  -- read `view.get(i)`
  | getAs (t : TyId) (i : Nat)                     -- read `view.get_as::<T>(i)`
  | iter                                           -- read all values
  | asSlice (t : TyId)                             -- read the typed slice
  | setAs (t : TyId) (i : Nat) (x : Bytes)         -- `*view.get_as::<T>(i)? = x`
  | setValue (i : Nat) (t : TyId) (x : Bytes)      -- `view.get_mut(i).copy(value of type t)`
  | mapAll (f : TyId → Bytes → Bytes)              -- write every value through `iter`
  | mapAs (t : TyId) (f : List Bytes → List Bytes) -- safe code on the typed mutable slice
  | swap (i j : Nat)
  | rotateLeft (n : Nat)
  | rotateRight (n : Nat)
  | copyFromSlice (t : TyId) (xs : List Bytes)
  | sub (r : Rng) (p : SProg)                      -- `p` on `view.subslice_mut(r)`
  | split (mid : Nat) (p q : SProg)                -- `p`, then `q`, on the parts of `view.split_at(mid)`
  | chunks (k : Nat) (p : SProg)                   -- `p` on every view of `view.chunks_exact_mut(k)`

namespace SProg

/-- Run a computation on the first of two views. -/
def onFst {σ τ α : Type} (m : M σ α) : M (σ × τ) α := M.zoom Prod.fst (fun a s => (a, s.2)) m
/-- Run a computation on the second of two views. -/
def onSnd {σ τ α : Type} (m : M τ α) : M (σ × τ) α := M.zoom Prod.snd (fun b s => (s.1, b)) m

/-- Run a program on a view; the result lists the values read. -/
def exec (Γ : TyEnv U) (cfg : Cfg) : SProg → M (SliceCopy V) (List Read)
  | skip => pure []
  | seq p q => do
    let a ← p.exec Γ cfg
    let b ← q.exec Γ cfg
    pure (a ++ b)
  | get i => do
    let v ← (← M.get).get cfg i
    pure [(v.type_id, v.bytes)]
  | getAs t i => do
    match ← (← M.get).getAs Γ cfg t i with
    | none => pure []
    | some b => pure [(t, b)]
  | iter => do
    let vs ← (← M.get).iter
    pure (vs.map fun v => (v.type_id, v.bytes))
  | asSlice t => do
    match ← (← M.get).asSlice Γ cfg t with
    | none => pure []
    | some es => pure (es.map fun e => (t, e))
  | setAs t i x => do
    let _ ← SliceCopy.setAs Γ cfg t i x
    pure []
  | setValue i t x => do
    let _ ← SliceCopy.getMut cfg i (do
      let self ← M.get
      CopyValue.copy (CopyValue.new Γ t self.vtable x))
    pure []
  | mapAll f => do
    M.zoom (fun s => (s, ())) (fun s _ => s.1) (SliceCopy.iterMut
      (M.modify fun s => ({ s.1 with bytes := f s.1.type_id s.1.bytes }, s.2)))
    pure []
  | mapAs t f => do
    let _ ← SliceCopy.asSliceMut Γ cfg t (M.modify f)
    pure []
  | swap i j => do
    SliceCopy.swap cfg i j
    pure []
  | rotateLeft n => do
    SliceCopy.rotateLeft cfg n
    pure []
  | rotateRight n => do
    SliceCopy.rotateRight cfg n
    pure []
  | copyFromSlice t xs => do
    let _ ← SliceCopy.copyFromSlice Γ cfg t xs
    pure []
  | sub r p => SliceCopy.subsliceMut cfg r (p.exec Γ cfg)
  | split mid p q => SliceCopy.splitAtMut cfg mid (do
    let a ← onFst (p.exec Γ cfg)
    let b ← onSnd (q.exec Γ cfg)
    pure (a ++ b))
  | chunks k p => M.zoom (fun s => (s, [])) (fun s _ => s.1) (do
    SliceCopy.chunksExactMut cfg k (do
      let a ← onFst (p.exec Γ cfg)
      onSnd (M.modify fun log => log ++ a))
    return (← M.get).2)

end SProg

/-- Operations of a program. -/
inductive POp where
  | op (o : Op)
  | withSize (k : Nat) (t : TyId) (n : Nat) (x : Bytes)
  | withTypeFrom (k j : Nat)                        -- `k = VecCopy::with_type_from(&j)`
  | extend (k hint : Nat) (xs : List (TyId × Bytes))  -- any iterator of values, any size hint
  | collect (k hint : Nat) (xs : List (TyId × Bytes))
  | view (k : Nat) (p : SProg)                      -- `p` on `k.as_mut_slice()`

namespace POp

/-- What an operation of `History` lets the program see. -/
def seen (s : Slots V) : Op → Obs → List Read
  | .getAs _ t _, .elem b => [(t, b)]
  | .get _ _, .value t b => [(t, b)]
  | .asSlice _ t, .elems bs => bs.map fun b => (t, b)
  | .iter k, .elems bs => match s k with
    | some c => bs.map fun b => (c.elementTypeId, b)
    | none => []
  | _, _ => []

/-- Run an operation; the result lists the values read. -/
def exec (Γ : TyEnv U) (cfg : Cfg) (vt : V) : POp → M (Slots V × World U) (List Read)
  | op o => do
    let s ← M.get
    let r ← o.exec Γ cfg vt
    pure (seen s.1 o r)
  | withSize k t n x => do
    let c ← onWorld (VecCopy.withSize Γ t vt n x)
    Op.assign cfg k c
    pure []
  | withTypeFrom k j => ⟨fun s =>
    match s.1 j with
    | none => (.ok [], s)
    | some b => (do
        let c ← onWorld (VecCopy.withTypeFrom b.toMeta)
        Op.assign cfg k c
        pure [] : M (Slots V × World U) (List Read)) s⟩
  | extend k hint xs => do
    let _ ← Op.onSlot k (do
      VecCopy.extend Γ cfg hint (xs.map fun x => CopyValue.new Γ x.1 vt x.2)
      return .done)
    pure []
  | collect k hint xs => do
    let c ← onWorld (VecCopy.fromIter Γ cfg hint (xs.map fun x => CopyValue.new Γ x.1 vt x.2))
    Op.assign cfg k c
    pure []
  | view k p => ⟨fun s =>
    match s.1 k with
    | none => (.ok [], s)
    | some c =>
      let out := VecCopy.asMutSlice (p.exec Γ cfg) (c, s.2)
      (out.1, (Slots.put s.1 k (some out.2.1), out.2.2))⟩

end POp

/-- Run a program, catching every panic. The result lists, per operation, the values read, or `none`
for a caught panic. -/
def runAll (Γ : TyEnv U) (cfg : Cfg) (vt : V) : List POp → M (Slots V × World U) (List (Option (List Read)))
  | [] => pure []
  | o :: ops => do
    let r ← (⟨fun s => match o.exec Γ cfg vt s with
      | (.ok o, s') => (.ok (some o), s')
      | (.panic _, s') => (.ok none, s')
      | (.ub, s') => (.ub, s')
      | (.abort, s') => (.abort, s')⟩ : M (Slots V × World U) (Option (List Read)))
    let rs ← runAll Γ cfg vt ops
    pure (r :: rs)

end Dync
