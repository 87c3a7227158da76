import Verif.Whole
import Verif.DynMachine
import Verif.ViewDynSpec
/-!
# Specification of whole programs

The machine of `DynMachine`, with the further steps of `Whole`: programs on views are programs on the plain list
of elements, comparison, hashing and formatting are calls of the user's code on the elements.
-/
namespace Dync
variable {U V H F α : Type}

/-- Compare pairs until one of them differs. -/
def eqPairs (Φ : UserFns U H F) (t : TyId) : List (Bytes × Bytes) → M U Bool
  | [] => pure true
  | p :: ps => do if ← Φ.eq t p.1 p.2 then eqPairs Φ t ps else pure false

/-- `==` on what two variables hold; `none`: they are of different kinds. A container whose content was lost
cannot be compared. -/
def YItem.eq (Φ : UserFns U H F) : YItem → YItem → Option (M U Bool)
  | .vec _ (.vec t es _), .vec _ (.vec t' es' _) =>
    some (if t = t' then eqPairs Φ t (es.zip es') else pure (es.isEmpty || es'.isEmpty))
  | .vec _ _, .vec _ _ => some (M.panic .zeroChunk)
  | .box t x, .box t' y => some (if t = t' then Φ.eq t x y else pure false)
  | .small t x, .small t' y => some (if t = t' then Φ.eq t x y else pure false)
  | _, _ => none

/-- Hashing what a variable holds. -/
def YItem.hash (Φ : UserFns U H F) : YItem → M (H × U) Unit
  | .vec _ (.vec t es _) => M.forEach es (Φ.hash t)
  | .vec _ (.unit _) => M.panic .zeroChunk
  | .box t x => Φ.hash t x
  | .small t x => Φ.hash t x

/-- Formatting what a variable holds: a container as `Vec<T>` would be, with std's `debug_list`. -/
def YItem.fmt (Φ : UserFns U H F) (K : Formatting F) : YItem → M (F × U) FmtRes
  | .vec _ (.vec t es _) => debugListFx K (es.map (Φ.fmt t))
  | .vec _ (.unit _) => M.panic .zeroChunk
  | .box t x => Φ.fmt t x
  | .small t x => Φ.fmt t x

/-- `==` on places: the function of the first table checks the length. -/
def Place.eq (Φ : UserFns U H F) (p q : Place) : M U Bool :=
  if p.ty = q.ty then if p.ty = p.table then Φ.eq p.ty p.bytes q.bytes else M.panic .assertion else pure false
/-- Hashing the content of a place. -/
def Place.hash (Φ : UserFns U H F) (p : Place) : M (H × U) Unit :=
  if p.ty = p.table then Φ.hash p.ty p.bytes else M.panic .assertion
/-- Formatting the content of a place. -/
def Place.fmt (Φ : UserFns U H F) (p : Place) : M (F × U) FmtRes :=
  if p.ty = p.table then Φ.fmt p.ty p.bytes else M.panic .assertion

/-- The element type of a container; that of a container whose content was lost is `()`. -/
def XVec.elemTy (Γ : TyEnv U) : XVec → TyId
  | .vec t _ _ => t
  | .unit _ => Γ.unitTy

namespace WOp

/-- User code runs, and what it returns is looked at. -/
def see {σ : Type} (g : α → WObs H F) (m : M U α) : M (σ × Outside U) (WObs H F) := do return g (← aside (call m))

/-- Look at a place. -/
def seePlace (Γ : TyEnv U) (cfg : Cfg) (k i : Nat) (m : Place → M (YVars × Outside U) (WObs H F)) :
    M (YVars × Outside U) (WObs H F) := do
  match ← YOp.read Γ cfg k i with
  | none => absent
  | some p => m p

/-- The result of a program on a view of a container. -/
def viewed (k : Nat) (b t : TyId) (cap : Nat) (out : Res (List Read) × (List Bytes × Outside U)) (vars : YVars) :
    Res (WObs H F) × (YVars × Outside U) :=
  (out.1.map .reads, (Slots.put vars k (some (.vec b (.vec t out.2.1 cap))), out.2.2))

/-- What a step does. -/
def step (Γ : TyEnv U) (cfg : Cfg) (Φ : UserFns U H F) (K : Formatting F) : WOp U V H F → M (YVars × Outside U) (WObs H F)
  | op d => do return .obs (← d.step Γ cfg)
  | view k p => ⟨fun s =>
    match s.1 k with
    | some (.vec b (.vec t es cap)) => viewed k b t cap (p.plain Γ t (es, s.2)) s.1
    | some (.vec _ (.unit _)) => ((p.onUnits Γ cfg s.2).1.map .reads, (s.1, (p.onUnits Γ cfg s.2).2))
    | _ => absent s⟩
  | typeFrom k j => ⟨fun s =>
    match s.1 k with
    | some (.vec b (.vec t _ _)) => (do return .obs (← YOp.create Γ j (pure (.vec b (.vec t [] 1)))) : M (YVars × Outside U) (WObs H F)) s
    | some (.vec _ (.unit _)) => (.panic .divZero, s)
    | _ => absent s⟩
  | check k t => ⟨fun s =>
    match s.1 k with
    | some (.vec b x) =>
      if t = x.elemTy Γ then (.ok (.obs .done), s)
      else (do
        YOp.moveOut k
        aside ((YItem.vec b x).drop Γ)
        return .obs .refused : M (YVars × Outside U) (WObs H F)) s
    | _ => absent s⟩
  | upcast k _ => ⟨fun s =>
    match s.1 k with
    | some _ => (.ok (.obs .done), s)
    | none => absent s⟩
  | eq k j => ⟨fun s =>
    match s.1 k, s.1 j with
    | some a, some b =>
      match a.eq Φ b with
      | some m => see .bool m s
      | none => absent s
    | _, _ => absent s⟩
  | eqAt k i j i' => seePlace Γ cfg k i fun a => seePlace Γ cfg j i' fun b => see .bool (a.eq Φ b)
  | hash k h => ⟨fun s =>
    match s.1 k with
    | some a => see (fun r => .hashed r.2) (withTemp h (a.hash Φ)) s
    | none => absent s⟩
  | hashAt k i h => seePlace Γ cfg k i fun a => see (fun r => .hashed r.2) (withTemp h (a.hash Φ))
  | fmt k f => ⟨fun s =>
    match s.1 k with
    | some a => see (fun r => .text r.2 r.1) (withTemp f (a.fmt Φ K)) s
    | none => absent s⟩
  | fmtAt k i f => seePlace Γ cfg k i fun a => see (fun r => .text r.2 r.1) (withTemp f (a.fmt Φ))

/-- A program with caught panics. -/
def stepsCaught (Γ : TyEnv U) (cfg : Cfg) (Φ : UserFns U H F) (K : Formatting F) :
    List (WOp U V H F) → M (YVars × Outside U) (List (Option (WObs H F)))
  | [] => pure []
  | c :: ops => do
    let o ← (c.step Γ cfg Φ K).caught
    let os ← stepsCaught Γ cfg Φ K ops
    pure (o :: os)

/-- The programs the Rust type checker accepts, with conversions of tables that keep what they were built for. -/
def IsTyped [HasDrop U V] [HasClone U V] [TableLaw V] (Γ : TyEnv U) : WOp U V H F → Prop
  | op d => d.IsTyped Γ
  | view _ p => p.Sized Γ
  | upcast _ f => ∀ t v, Tab Γ t v → Tab Γ t (f v)
  | _ => True

/-- The numbers in a program on a view are in the range of C75. -/
def Described (Γ : TyEnv U) (cfg : Cfg) (vars : YVars) : WOp U V H F → Prop
  | view k p =>
    match vars k with
    | some (.vec _ (.vec t _ _)) => p.InRange cfg (Γ.size t)
    | _ => True
  | _ => True

/-- The same for all steps of a program. -/
def AllDescribed (Γ : TyEnv U) (cfg : Cfg) (Φ : UserFns U H F) (K : Formatting F) : List (WOp U V H F) → YVars × Outside U → Prop
  | [], _ => True
  | c :: ops, s => c.Described Γ cfg s.1 ∧
    ∀ o s', (c.step Γ cfg Φ K).caught s = (.ok o, s') → AllDescribed Γ cfg Φ K ops s'

end WOp

/-- Every table of type `t` known to the law runs the user code of `t` in `==`, `hash` and `fmt`. -/
structure RunsUserFns (V : Type) [TableLaw V] [HasEqFx U V] [HasHashFx U H V] [HasFmtFx U F V] (Γ : TyEnv U)
    (Φ : UserFns U H F) : Prop where
  eq : ∀ t (v : V), TableLaw.law t v → HasEqFx.eqFn v = eqBytesFx Γ Φ t
  hash : ∀ t (v : V), TableLaw.law t v → HasHashFx.hashFn v = hashBytesFx Γ Φ t
  fmt : ∀ t (v : V), TableLaw.law t v → HasFmtFx.fmtFn v = fmtBytesFx Γ Φ t

end Dync
