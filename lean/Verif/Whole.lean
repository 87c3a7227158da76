import Verif.Compare
import Verif.HistoryDynPanic
import Verif.ViewDyn
/-!
# Whole programs over `VecDyn`, `BoxValue` and `SmallValue`

The operations of `HistoryDyn`, together with programs on mutable views (`ViewDyn`), comparison, hashing and
formatting with arbitrary user code (`Compare`), new containers of the type of another one, type checks by
value and conversions of tables. The values these functions return are what the program observes.

Simplified: the tables before and after a conversion have the same type `V`; a comparison, hash or format
call that panics shows nothing of the hasher or formatter.
-/
namespace Dync
variable {U V H F α : Type}

/-- One step of a program. -/
inductive WOp (U V H F : Type) where
  | op (d : DOp)
  | view (k : Nat) (p : VProg U)          -- `p` on `k.as_mut_slice()`
  | typeFrom (k j : Nat)                  -- `j = VecDyn::with_type_from(&k)`
  | check (k : Nat) (t : TyId)            -- `k = k.check::<T>()?`, moved out if refused
  | upcast (k : Nat) (f : V → V)          -- `k = k.upcast()`, where the new table is `f` of the old one
  | eq (k j : Nat)                        -- `k == j`
  | eqAt (k i j i' : Nat)                 -- `place == place`
  | hash (k : Nat) (h : H)                -- `k.hash(&mut h)`
  | hashAt (k i : Nat) (h : H)
  | fmt (k : Nat) (f : F)                 -- `write!(f, "{:?}", k)`
  | fmtAt (k i : Nat) (f : F)

/-- What a step shows. -/
inductive WObs (H F : Type) where
  | obs (o : Obs)
  | reads (rs : List Read)
  | bool (b : Bool)
  | hashed (h : H)
  | text (f : F) (r : FmtRes)

/-- Call user code with a hasher or formatter that starts as `a`. -/
def withTemp {A : Type} (a : A) (m : M (A × U) α) : M U (α × A) := ⟨fun u =>
  ((m (a, u)).1.map fun x => (x, (m (a, u)).2.1), (m (a, u)).2.2)⟩

/-- `upcast` of containers (src/vec_dyn.rs:243-254) and values (src/value.rs:158-177, 236-256). `f` is `V::clone` followed by
`From`. -/
def Item.upcast (f : V → V) : Item V → Item V
  | .vec c => .vec (VecCopy.upcast f c)
  | .box v => .box (Value.upcast f v)
  | .small v => .small (Value.upcast f v)

namespace WOp

/-- Nothing there to call the function on. -/
def absent {σ : Type} : M σ (WObs H F) := pure (.obs .absent)

/-- Run user code that returns something to look at. -/
def watch (g : α → WObs H F) (m : M U α) : M (DSlots V × World U) (WObs H F) := do
  return g (← onWorld (worldUser m))

/-- Look at a place (`readRef`). -/
def atPlace (cfg : Cfg) (k i : Nat) (m : ValueRef V → M (DSlots V × World U) (WObs H F)) :
    M (DSlots V × World U) (WObs H F) := do
  match ← DOp.readRef cfg k i with
  | none => absent
  | some v => m v

variable [HasDrop U V] [HasClone U V] [HasEqFx U V] [HasHashFx U H V] [HasFmtFx U F V]

/-- `==` on what two variables hold. -/
def eqItems : Item V → Item V → Option (M U Bool)
  | .vec a, .vec b => some (VecDyn.eqFx a b)
  | .box a, .box b => some (Value.eqFx a b)
  | .small a, .small b => some (Value.eqFx a b)
  | _, _ => none

/-- Hashing what a variable holds. -/
def hashItem : Item V → M (H × U) Unit
  | .vec a => VecDyn.hashFx a
  | .box a => Value.hashFx a
  | .small a => Value.hashFx a

/-- Formatting what a variable holds. -/
def fmtItem (K : Formatting F) : Item V → M (F × U) FmtRes
  | .vec a => VecDyn.fmtFx K a
  | .box a => Value.fmtFx a
  | .small a => Value.fmtFx a

/-- Run one step with the implementation. -/
def exec (Γ : TyEnv U) (cfg : Cfg) (K : Formatting F) (vt : TyId → V) : WOp U V H F → M (DSlots V × World U) (WObs H F)
  | op d => do return .obs (← d.exec Γ cfg vt)
  | view k p => ⟨fun s =>
    match s.1 k with
    | some (.vec c) =>
      let out := VecDyn.onView (p.exec Γ cfg vt) (c, s.2)
      (out.1.map .reads, (Slots.put s.1 k (some (.vec out.2.1)), out.2.2))
    | _ => absent s⟩
  | typeFrom k j => ⟨fun s =>
    match s.1 k with
    | some (.vec c) => (do
        return .obs (← DOp.create cfg j (do return .vec (← VecCopy.withTypeFrom c.toMeta))) : M (DSlots V × World U) (WObs H F)) s
    | _ => absent s⟩
  | check k t => ⟨fun s =>
    match s.1 k with
    | some (.vec c) => (do
        DOp.clearVar k
        match ← onWorld (VecDyn.check cfg t c) with
        | none => return .obs .refused
        | some c' => do
          M.modify fun s => (Slots.put s.1 k (some (.vec c')), s.2)
          return .obs .done : M (DSlots V × World U) (WObs H F)) s
    | _ => absent s⟩
  | upcast k f => ⟨fun s =>
    match s.1 k with
    | some a => (.ok (.obs .done), (Slots.put s.1 k (some (a.upcast f)), s.2))
    | none => absent s⟩
  | eq k j => ⟨fun s =>
    match s.1 k, s.1 j with
    | some a, some b =>
      match eqItems a b with
      | some m => watch .bool m s
      | none => absent s
    | _, _ => absent s⟩
  | eqAt k i j i' => atPlace cfg k i fun a => atPlace cfg j i' fun b => watch .bool (ValueRef.eqFx a b)
  | hash k h => ⟨fun s =>
    match s.1 k with
    | some a => watch (fun r => .hashed r.2) (withTemp h (hashItem a)) s
    | none => absent s⟩
  | hashAt k i h => atPlace cfg k i fun a => watch (fun r => .hashed r.2) (withTemp h (ValueRef.hashFx a))
  | fmt k f => ⟨fun s =>
    match s.1 k with
    | some a => watch (fun r => .text r.2 r.1) (withTemp f (fmtItem K a)) s
    | none => absent s⟩
  | fmtAt k i f => atPlace cfg k i fun a => watch (fun r => .text r.2 r.1) (withTemp f (ValueRef.fmtFx a))

/-- A program in which every step is wrapped in `catch_unwind`; `none` is a caught panic. -/
def runCaught (Γ : TyEnv U) (cfg : Cfg) (K : Formatting F) (vt : TyId → V) :
    List (WOp U V H F) → M (DSlots V × World U) (List (Option (WObs H F)))
  | [] => pure []
  | c :: ops => do
    let o ← (c.exec Γ cfg K vt).caught
    let os ← runCaught Γ cfg K vt ops
    pure (o :: os)

end WOp
end Dync
