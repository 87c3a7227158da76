import Verif.Safety
import Verif.Spec
/-!
# Specification: programs on mutable views as programs on plain mutable slices

What the programs `SProg` on untyped views (`Verif/Safety.lean`) do on a plain `&mut [T]`, written with lists of
elements. Every panic of a plain slice is `.panic .index`.
-/
namespace Dync
variable {U V : Type}

/-- The same outcome: both return the same, or both panic. -/
def Res.Agrees {α : Type} : Res α → Res α → Prop
  | .ok a, .ok b => a = b
  | .panic _, .panic _ => True
  | _, _ => False

/-- The pieces of `k` elements of a slice, without the rest. -/
def pieces (k : Nat) (es : List Bytes) : List (List Bytes) := (List.range (es.length / k)).map fun i => (es.drop (i * k)).take k

/-- Run `m` on one piece after the other. -/
def onPieces {α : Type} (m : M (List Bytes) (List α)) : List (List Bytes) → Res (List α) × List (List Bytes)
  | [] => (.ok [], [])
  | c :: cs =>
    match m c with
    | (.ok a, c') => ((onPieces m cs).1.map (a ++ ·), c' :: (onPieces m cs).2)
    | (r, c') => (r, c' :: cs)

/-- Run `p` on the elements from `lo` to `hi`. -/
def onPart {α : Type} (lo hi : Nat) (m : M (List Bytes) α) : M (List Bytes) α := ⟨fun es =>
  if lo ≤ hi ∧ hi ≤ es.length then
    let out := m ((es.take hi).drop lo)
    (out.1, es.take lo ++ out.2 ++ es.drop hi)
  else (.panic .index, es)⟩

/-- Run `p` on the elements before `mid`, then `q` on those from `mid` on. -/
def onSplit {α : Type} (mid : Nat) (p q : M (List Bytes) (List α)) : M (List Bytes) (List α) := ⟨fun es =>
  if mid ≤ es.length then
    match p (es.take mid) with
    | (.ok a, ls) => ((q (es.drop mid)).1.map (a ++ ·), ls ++ (q (es.drop mid)).2)
    | (r, ls) => (r, ls ++ es.drop mid)
  else (.panic .index, es)⟩

/-- Run `m` on every whole piece of `k` elements. -/
def onChunks {α : Type} (k : Nat) (m : M (List Bytes) (List α)) : M (List Bytes) (List α) := ⟨fun es =>
  if k = 0 then (.panic .index, es)
  else
    let out := onPieces m (pieces k es)
    (out.1, out.2.flatten ++ es.drop (es.length / k * k))⟩

/-- What a program on views does on a plain slice of elements of type `t`. Two differences to `std`: exchanging a
place with itself does nothing, even if there is no such place, and a typed access checks the index before the type. -/
def SProg.plain (t : TyId) : SProg → M (List Bytes) (List Read)
  | skip => pure []
  | seq p q => do
    let a ← p.plain t
    let b ← q.plain t
    pure (a ++ b)
  | get i => ⟨fun es => if h : i < es.length then (.ok [(t, es[i])], es) else (.panic .index, es)⟩
  | getAs t' i => ⟨fun es =>
    if h : i < es.length then (.ok (if t' = t then [(t, es[i])] else []), es) else (.panic .index, es)⟩
  | iter => ⟨fun es => (.ok (es.map fun e => (t, e)), es)⟩
  | asSlice t' => ⟨fun es => (.ok (if t' = t then es.map fun e => (t, e) else []), es)⟩
  | setAs t' i x => ⟨fun es =>
    if i < es.length then (.ok [], if t' = t then es.set i x else es) else (.panic .index, es)⟩
  | setValue i t' x => ⟨fun es =>
    if i < es.length then (.ok [], if t' = t then es.set i x else es) else (.panic .index, es)⟩
  | mapAll f => ⟨fun es => (.ok [], es.map (f t))⟩
  | mapAs t' f => ⟨fun es => (.ok [], if t' = t then f es else es)⟩
  | swap i j => ⟨fun es =>
    if i = j then (.ok [], es)
    else if h : i < es.length ∧ j < es.length then (.ok [], (es.set i es[j]).set j es[i]) else (.panic .index, es)⟩
  | rotateLeft n => ⟨fun es => if n ≤ es.length then (.ok [], es.drop n ++ es.take n) else (.panic .index, es)⟩
  | rotateRight n => ⟨fun es =>
    if n ≤ es.length then (.ok [], es.drop (es.length - n) ++ es.take (es.length - n)) else (.panic .index, es)⟩
  | copyFromSlice t' xs => ⟨fun es =>
    if t' = t then if xs.length = es.length then (.ok [], xs) else (.panic .index, es) else (.ok [], es)⟩
  | sub r p => ⟨fun es => onPart r.lo (r.hi es.length) (p.plain t) es⟩
  | split mid p q => onSplit mid (p.plain t) (q.plain t)
  | chunks k p => onChunks k (p.plain t)

/-- What the program writes as a value of a type has the size of that type. `t` is the type of the
elements. -/
def SProg.Sized (Γ : TyEnv U) (t : TyId) : SProg → Prop
  | .seq p q => p.Sized Γ t ∧ q.Sized Γ t
  | .setAs t' _ x => x.length = Γ.size t'
  | .setValue _ t' x => x.length = Γ.size t'
  | .mapAll f => ∀ e, e.length = Γ.size t → (f t e).length = Γ.size t
  | .mapAs t' f => ∀ es, (∀ e ∈ es, e.length = Γ.size t') → (f es).length = es.length ∧ ∀ e ∈ f es, e.length = Γ.size t'
  | .copyFromSlice t' xs => ∀ x ∈ xs, x.length = Γ.size t'
  | .sub _ p => p.Sized Γ t
  | .split _ p q => p.Sized Γ t ∧ q.Sized Γ t
  | .chunks _ p => p.Sized Γ t
  | _ => True

/-- The numbers in the program: in release builds, byte offsets of elements of `n` bytes do not exceed `usize::MAX`.
In both builds the size of a chunk does not, and ranges are half open unless elements are single bytes (see
`C24_chunks_exact_refuted`, `C25_refuted`). -/
def SProg.InRange (cfg : Cfg) (n : Nat) : SProg → Prop
  | .seq p q => p.InRange cfg n ∧ q.InRange cfg n
  | .get i => NoWrap cfg ((i + 1) * n)
  | .setValue i _ _ => NoWrap cfg ((i + 1) * n)
  | .swap i j => NoWrap cfg ((i + 1) * n) ∧ NoWrap cfg ((j + 1) * n)
  | .rotateLeft k => NoWrap cfg (k * n)
  | .rotateRight k => NoWrap cfg (k * n)
  | .sub r p => (r.halfOpen ∨ n = 1) ∧ NoWrap cfg (r.lo * n) ∧ NoWrap cfg (r.hi 0 * n) ∧ p.InRange cfg n
  | .split mid p q => NoWrap cfg (mid * n) ∧ p.InRange cfg n ∧ q.InRange cfg n
  | .chunks k p => n * k ≤ usizeMax ∧ p.InRange cfg n
  | _ => True

end Dync
