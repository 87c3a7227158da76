import Verif.Unchecked
import Verif.ViewSpec
/-!
# Specification: unchecked access and raw bytes on a plain list
-/
namespace Dync
variable {U V : Type}

/-- What the program does with a plain list of the elements. -/
def RawProg.plain (t : TyId) : RawProg → M (List Bytes) (List Read)
  | skip => pure []
  | seq p q => do
    let a ← p.plain t
    let b ← q.plain t
    pure (a ++ b)
  | getUnchecked _ i | getBytes i => ⟨fun es =>
    match es[i]? with
    | some e => (.ok [(t, e)], es)
    | none => (.panic .index, es)⟩
  | changeUnchecked _ i f | changeBytes i f => ⟨fun es =>
    match es[i]? with
    | some e => (.ok [], es.set i (f e))
    | none => (.panic .index, es)⟩
  | byteChunks => ⟨fun es => (.ok (es.map fun e => (t, e)), es)⟩
  | changeChunks f => ⟨fun es => (.ok [], es.map f)⟩
  | view p => ⟨fun es => p.plain t es⟩

/-- The contract in the documentation, for a container of `n` elements of type `t`: unchecked access with the type of the elements and
an index below the length, bytes replaced by those of a value. The rest is checked: other indices are in the range of C74. -/
def RawProg.Allowed (Γ : TyEnv U) (cfg : Cfg) (t : TyId) (n : Nat) : RawProg → Prop
  | skip | byteChunks => True
  | seq p q => p.Allowed Γ cfg t n ∧ q.Allowed Γ cfg t n
  | getUnchecked s i => s = t ∧ i < n
  | changeUnchecked s i f => s = t ∧ i < n ∧ ∀ b, b.length = Γ.size t → (f b).length = Γ.size t
  | getBytes i => NoWrap cfg ((i + 1) * Γ.size t)
  | changeBytes i f => NoWrap cfg ((i + 1) * Γ.size t) ∧ ∀ b, b.length = Γ.size t → (f b).length = Γ.size t
  | changeChunks f => ∀ b, b.length = Γ.size t → (f b).length = Γ.size t
  | view p => p.Sized Γ t ∧ p.InRange cfg (Γ.size t)

end Dync
