import Verif.ViewDyn
import Verif.ViewSpec
import Verif.SpecDyn
import Verif.DynMachine
/-!
# Specification: programs on `SliceMut` as programs on plain mutable slices

What the programs `VProg` (`Verif/ViewDyn.lean`) do on a plain `&mut [T]`: the state is the list of elements and what
is outside of it, that is the state of user code, which sees every destructor and every call of `Clone`, and the number
of leaked blocks. Every panic of a plain slice is `.panic .index`. What the same programs do on a container whose
content was lost is `VProg.onUnits`.
-/
namespace Dync
variable {U V α : Type}

/-- The same outcome: both return the same, or both panic (for whatever reason), or both fail alike. -/
def Res.Alike {α : Type} : Res α → Res α → Prop
  | .ok a, .ok b => a = b
  | .panic _, .panic _ => True
  | .ub, .ub => True
  | .abort, .abort => True
  | _, _ => False

namespace Plain

/-- Run `m` on the elements from `lo` to `hi`. -/
def part (lo hi : Nat) (m : M (List Bytes × U) α) : M (List Bytes × U) α := ⟨fun s =>
  if lo ≤ hi ∧ hi ≤ s.1.length then
    let out := m ((s.1.take hi).drop lo, s.2)
    (out.1, (s.1.take lo ++ out.2.1 ++ s.1.drop hi, out.2.2))
  else (.panic .index, s)⟩

/-- Run `p` on the elements before `mid`, then `q` on those from `mid` on. -/
def split (mid : Nat) (p q : M (List Bytes × U) (List α)) : M (List Bytes × U) (List α) := ⟨fun s =>
  if mid ≤ s.1.length then
    match p (s.1.take mid, s.2) with
    | (.ok a, (ls, u)) =>
      ((q (s.1.drop mid, u)).1.map (a ++ ·), (ls ++ (q (s.1.drop mid, u)).2.1, (q (s.1.drop mid, u)).2.2))
    | (r, (ls, u)) => (r, (ls ++ s.1.drop mid, u))
  else (.panic .index, s)⟩

/-- Run `m` on one piece after the other. -/
def each (m : M (List Bytes × U) (List α)) : List (List Bytes) → U → Res (List α) × (List (List Bytes) × U)
  | [], u => (.ok [], ([], u))
  | c :: cs, u =>
    match m (c, u) with
    | (.ok a, (c', u')) => ((each m cs u').1.map (a ++ ·), (c' :: (each m cs u').2.1, (each m cs u').2.2))
    | (r, (c', u')) => (r, (c' :: cs, u'))

/-- Run `m` on every whole piece of `k` elements. -/
def chunks (k : Nat) (m : M (List Bytes × U) (List α)) : M (List Bytes × U) (List α) := ⟨fun s =>
  if k = 0 then (.panic .index, s)
  else
    let out := each m (pieces k s.1) s.2
    (out.1, (out.2.1.flatten ++ s.1.drop (s.1.length / k * k), out.2.2))⟩

/-- `x` is destroyed; if its destructor does not return, `n` blocks are leaked. -/
def destroy (Γ : TyEnv U) (t : TyId) (n : Nat) (x : Bytes) : M (Outside U) Unit := ⟨fun o =>
  let out := Γ.drop t x o.user
  (out.1, ⟨o.leaked + (match out.1 with | .ok _ => 0 | _ => n), out.2⟩)⟩

/-- `v[i] = x`: the old element is destroyed, `x` is stored even if that panics. -/
def store (Γ : TyEnv U) (t : TyId) (n : Nat) (i : Nat) (x : Bytes) : M (List Bytes × Outside U) (List Read) := ⟨fun s =>
  if h : i < s.1.length then
    let out := destroy Γ t n s.1[i] s.2
    (out.1.map fun _ => [], (s.1.set i x, out.2))
  else (.panic .index, s)⟩

/-- `v[i]` is used somehow that panics if there is no such element, and `x` is destroyed. -/
def discard (Γ : TyEnv U) (t : TyId) (n : Nat) (i : Nat) (x : Bytes) : M (List Bytes × Outside U) (List Read) := ⟨fun s =>
  if i < s.1.length then
    let out := destroy Γ t n x s.2
    (out.1.map fun _ => [], (s.1, out.2))
  else (.panic .index, s)⟩

/-- `v[i].clone_from(&x)`. -/
def cloneFrom (Γ : TyEnv U) (t : TyId) (i : Nat) (x : Bytes) : M (List Bytes × Outside U) (List Read) := ⟨fun s =>
  if h : i < s.1.length then
    let out := Γ.cloneFrom t x (s.1[i], s.2.user)
    (out.1.map fun _ => [], (s.1.set i out.2.1, { s.2 with user := out.2.2 }))
  else (.panic .index, s)⟩

/-- `v.clone_from_slice(&xs)`. -/
def cloneFromSlice (Γ : TyEnv U) (t : TyId) (xs : List Bytes) : M (List Bytes × Outside U) (List Read) := ⟨fun s =>
  if s.1.length = xs.length then
    let out := TVec.cloneFrom Γ t s.1 xs s.2.user
    (out.1.map fun _ => [], (out.2.1, { s.2 with user := out.2.2 }))
  else (.panic .index, s)⟩

/-- Safe code on the slice. -/
def edit (m : M (List Bytes × U) Unit) : M (List Bytes × Outside U) (List Read) := ⟨fun s =>
  let out := m (s.1, s.2.user)
  (out.1.map fun _ => [], (out.2.1, { s.2 with user := out.2.2 }))⟩

end Plain

/-- What a program on views does on a plain slice of elements of type `t`. Values of another type find no place: they
are destroyed, and nothing happens to the elements. A value for `assign` comes in a box, which is leaked if the destructor
that runs in it does not return. -/
def VProg.plain (Γ : TyEnv U) (t : TyId) : VProg U → M (List Bytes × Outside U) (List Read)
  | skip => pure []
  | seq p q => do
    let a ← p.plain Γ t
    let b ← q.plain Γ t
    pure (a ++ b)
  | look l => SProg.onFst (l.prog.plain t)
  | setAs t' i x => if t' = t then Plain.store Γ t 0 i x else Plain.discard Γ t' 0 i x
  | edit t' m => if t' = t then Plain.edit m else pure []
  | assign i t' x => if t' = t then Plain.store Γ t (boxBlock Γ t) i x else Plain.discard Γ t' (boxBlock Γ t') i x
  | cloneFrom i t' x =>
    if t' = t then Plain.cloneFrom Γ t i x else ⟨fun s => if i < s.1.length then (.ok [], s) else (.panic .index, s)⟩
  | cloneFromAll t' x =>
    if t' = t then ⟨fun s => Plain.cloneFromSlice Γ t (List.replicate s.1.length x) s⟩ else pure []
  | cloneFromSlice t' xs => if t' = t then Plain.cloneFromSlice Γ t xs else pure []
  | sub r p => ⟨fun s => Plain.part r.lo (r.hi s.1.length) (p.plain Γ t) s⟩
  | split mid p q => Plain.split mid (p.plain Γ t) (q.plain Γ t)
  | chunks k p => Plain.chunks k (p.plain Γ t)

/-- What a program does on a view of a container whose content was lost, which says that it has elements of type `()`.
Elements of size zero cannot be counted: what counts them panics. Without overflow checks every index is answered with
`()`, and a value for any index is destroyed. Ranges are multiplied by zero: half-open ones give the same view, inclusive
ones panic. The state is what is outside, since there is nothing to change in the container. -/
def VProg.onUnits (Γ : TyEnv U) (cfg : Cfg) : VProg U → M (Outside U) (List Read)
  | skip => pure []
  | seq p q => do
    let a ← p.onUnits Γ cfg
    let b ← q.onUnits Γ cfg
    pure (a ++ b)
  | look (.get _) => if cfg.debug then M.panic .divZero else pure [(Γ.unitTy, [])]
  | look (.asSlice t) => if t = Γ.unitTy then M.panic .divZero else pure []
  | look (.swap i j) => if i ≠ j ∧ cfg.debug ∧ usizeMax ≤ min i j then M.panic .overflow else pure []
  | look (.rotateLeft _) => pure []
  | look (.rotateRight _) => pure []
  | assign _ t x => if cfg.debug then M.panic .divZero else do
    Plain.destroy Γ t (boxBlock Γ t) x
    pure []
  | cloneFrom _ t _ => if cfg.debug ∨ t = Γ.unitTy then M.panic .divZero else pure []
  | sub (.inclusive _ _) _ => M.panic .index
  | sub (.toInclusive _) _ => M.panic .index
  | sub _ p => p.onUnits Γ cfg
  | split _ p q => do
    let a ← p.onUnits Γ cfg
    let b ← q.onUnits Γ cfg
    pure (a ++ b)
  | _ => M.panic .divZero

/-- What the program supplies as values of a type has the size of that type, and its own code on typed slices keeps
the number of elements and their size. -/
def VProg.Sized (Γ : TyEnv U) : VProg U → Prop
  | .seq p q => p.Sized Γ ∧ q.Sized Γ
  | .setAs t _ x => x.length = Γ.size t
  | .edit t m => ∀ s, (∀ e ∈ s.1, e.length = Γ.size t) →
      (m s).2.1.length = s.1.length ∧ ∀ e ∈ (m s).2.1, e.length = Γ.size t
  | .assign _ t x => x.length = Γ.size t
  | .cloneFrom _ t x => x.length = Γ.size t
  | .cloneFromAll t x => x.length = Γ.size t
  | .sub _ p => p.Sized Γ
  | .split _ p q => p.Sized Γ ∧ q.Sized Γ
  | .chunks _ p => p.Sized Γ
  | _ => True

/-- The numbers in the program, as for `SProg.InRange`. -/
def VProg.InRange (cfg : Cfg) (n : Nat) : VProg U → Prop
  | .seq p q => p.InRange cfg n ∧ q.InRange cfg n
  | .look l => l.prog.InRange cfg n
  | .assign i _ _ => NoWrap cfg ((i + 1) * n)
  | .cloneFrom i _ _ => NoWrap cfg ((i + 1) * n)
  | .sub r p => (r.halfOpen ∨ n = 1) ∧ NoWrap cfg (r.lo * n) ∧ NoWrap cfg (r.hi 0 * n) ∧ p.InRange cfg n
  | .split mid p q => NoWrap cfg (mid * n) ∧ p.InRange cfg n ∧ q.InRange cfg n
  | .chunks k p => n * k ≤ usizeMax ∧ p.InRange cfg n
  | _ => True

end Dync
