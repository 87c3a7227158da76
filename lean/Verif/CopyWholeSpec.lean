import Verif.Machine
import Verif.ViewSpec
/-!
# Specification of whole programs over `VecCopy` containers

The machine of `Machine.lean`, with the further operations of the programs of `Safety.lean`: `with_size`,
`with_type_from`, `extend`, `collect`, and programs on mutable views. A program on a view is a program on the plain
list of the elements (`SProg.plain`); on a container whose content was lost it is `SProg.onUnits`. What a step lets
the program see is a list of values with their types.
-/
namespace Dync
variable {U V : Type}

/-- How a step of a program ends. -/
inductive Ended where
  | ok (rs : List Read)
  | panic
  | ub
deriving DecidableEq

/-- The element type of a container; that of a container whose content was lost is `()`. -/
def XVec.ty (Γ : TyEnv U) : XVec → TyId
  | .vec t _ _ => t
  | .unit _ => Γ.unitTy

/-- Go on with `f`, unless the method did not return. -/
def After.next (a : After) (f : XVec → After) : After :=
  match a.out with
  | .ok _ => f a.now
  | _ => a

/-- Push untyped values one after the other; a value of another type is a panic that changes nothing more. -/
def XVec.pushAll (Γ : TyEnv U) : List (TyId × Bytes) → XVec → After
  | [], x => .same x (.ok .done)
  | v :: vs, x => if v.1 = x.ty Γ then (x.push Γ v.1 v.2).next (pushAll Γ vs) else .same x .panic

/-- `extend` with an iterator that yields `vs` and promised at least `hint` items. -/
def XVec.extend (Γ : TyEnv U) (cfg : Cfg) (hint : Nat) (vs : List (TyId × Bytes)) (x : XVec) : After :=
  (x.reserve Γ cfg hint).next (pushAll Γ vs)

/-- The container that `collect` works on: of the type of the first value, with room for one element; it takes that
value, then the others. -/
def XVec.collected (Γ : TyEnv U) (cfg : Cfg) (hint : Nat) (t : TyId) (x : Bytes) (vs : List (TyId × Bytes)) : After :=
  (XVec.push Γ t x (.vec t [] 1)).next (XVec.extend Γ cfg hint vs)

/-- `collect` into variable `k`: no value and values without size are refused. If a step panics, the unfinished
container is dropped, and the variable stays as it is. -/
def XState.collect (Γ : TyEnv U) (cfg : Cfg) (s : XState) (k hint : Nat) : List (TyId × Bytes) → Ended × XState
  | [] => (.panic, s)
  | v :: vs =>
    if Γ.size v.1 = 0 then (.panic, s)
    else
      let a := XVec.collected Γ cfg hint v.1 v.2 vs
      match a.out with
      | .ok _ => (.ok [], s.put k (some a.now))
      | .panic => (.panic, { s with leaked := s.leaked + if a.leak then 1 else 0 })
      | .ub => (.ub, s)

/-- What a program does on a view of a container whose content was lost; `none`: it panics. The view has elements of
type `()`, and everything that needs their number divides by their size, zero. -/
def SProg.onUnits (Γ : TyEnv U) (cfg : Cfg) : SProg → Option (List Read)
  | skip => some []
  | seq p q =>
    match p.onUnits Γ cfg, q.onUnits Γ cfg with
    | some a, some b => some (a ++ b)
    | _, _ => none
  | get _ => if cfg.debug then none else some [(Γ.unitTy, [])]
  | asSlice t => if t = Γ.unitTy then none else some []
  | setValue _ _ _ => if cfg.debug then none else some []
  | swap i j => if i ≠ j ∧ cfg.debug ∧ usizeMax ≤ min i j then none else some []
  | rotateLeft _ => some []
  | rotateRight _ => some []
  | sub (.inclusive _ _) _ => none
  | sub (.toInclusive _) _ => none
  | sub _ p => p.onUnits Γ cfg
  | split _ p q =>
    match p.onUnits Γ cfg, q.onUnits Γ cfg with
    | some a, some b => some (a ++ b)
    | _, _ => none
  | _ => none

/-- What the program sees of what an operation returns in state `s`. -/
def Op.reads (Γ : TyEnv U) (s : XState) : Op → Obs → List Read
  | .getAs _ t _, .elem b => [(t, b)]
  | .get _ _, .value t b => [(t, b)]
  | .asSlice _ t, .elems bs => bs.map fun b => (t, b)
  | .iter k, .elems bs => match s.var k with
    | some x => bs.map fun b => (x.ty Γ, b)
    | none => []
  | _, _ => []

/-- A step that lets the program see `rs`, if it returns. -/
def Out.ends (rs : Obs → List Read) : Out → Ended
  | .ok o => .ok (rs o)
  | .panic => .panic
  | .ub => .ub

/-- How a program on a plain slice ends. -/
def Ended.ofRes : Res (List Read) → Ended
  | .ok rs => .ok rs
  | _ => .panic

/-- How a program on a container without content ends. -/
def Ended.ofOption : Option (List Read) → Ended
  | some rs => .ok rs
  | none => .panic

namespace POp

/-- What a step does. -/
def step (Γ : TyEnv U) (cfg : Cfg) (s : XState) : POp → Ended × XState
  | op o => ((o.step Γ cfg s).1.ends (o.reads Γ s), (o.step Γ cfg s).2)
  | withSize k t n x => ((s.create Γ k t (List.replicate n x) n).1.ends fun _ => [], (s.create Γ k t (List.replicate n x) n).2)
  | withTypeFrom k j =>
    match s.var j with
    | none => (.ok [], s)
    | some (.vec t _ _) => (.ok [], s.put k (some (.vec t [] 1)))
    | some (.unit _) => (.panic, s)
  | extend k hint xs =>
    ((s.method k (XVec.extend Γ cfg hint xs)).1.ends fun _ => [], (s.method k (XVec.extend Γ cfg hint xs)).2)
  | collect k hint xs => s.collect Γ cfg k hint xs
  | view k p =>
    match s.var k with
    | none => (.ok [], s)
    | some (.vec t es cap) => (.ofRes (p.plain t es).1, s.put k (some (.vec t (p.plain t es).2 cap)))
    | some (.unit _) => (.ofOption (p.onUnits Γ cfg), s)

/-- The programs the Rust type checker accepts. -/
def Accepted (Γ : TyEnv U) : POp → Prop
  | op o => o.Typed Γ
  | withSize _ t n x => Op.Typed.Copyable Γ t ∧ n ≤ usizeMax ∧ x.length = Γ.size t
  | extend _ _ xs | collect _ _ xs => ∀ v ∈ xs, v.2.length = Γ.size v.1
  | view _ p => ∀ t, p.Sized Γ t
  | _ => True

/-- The numbers in a program on a view are in the range of C74. -/
def Described (Γ : TyEnv U) (cfg : Cfg) (s : XState) : POp → Prop
  | view k p =>
    match s.var k with
    | some (.vec t _ _) => p.InRange cfg (Γ.size t)
    | _ => True
  | _ => True

end POp

/-- A program with caught panics: what its steps see (`none` is a caught panic), and the final state; `none`: it is
undefined. -/
def XState.runAll (Γ : TyEnv U) (cfg : Cfg) : List POp → XState → Option (List (Option (List Read)) × XState)
  | [], s => some ([], s)
  | o :: ops, s =>
    match o.step Γ cfg s with
    | (.ok rs, s') => (runAll Γ cfg ops s').map fun p => (some rs :: p.1, p.2)
    | (.panic, s') => (runAll Γ cfg ops s').map fun p => (none :: p.1, p.2)
    | (.ub, _) => none

/-- All steps of a program are in the range of C74. -/
def XState.AllDescribed (Γ : TyEnv U) (cfg : Cfg) : List POp → XState → Prop
  | [], _ => True
  | o :: ops, s => o.Described Γ cfg s ∧ ((o.step Γ cfg s).1 ≠ .ub → AllDescribed Γ cfg ops (o.step Γ cfg s).2)

end Dync
