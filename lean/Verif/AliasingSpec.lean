import Verif.Aliasing
/-!
# Specification: programs and the memory they start in
-/
namespace Dync
variable {U : Type}

/-- The method is one that gives typed references without going through bytes, on containers. -/
def RefMethod.TypedOnly : RefMethod → Prop
  | .again | .typed _ | .typedAt _ _ => True
  | _ => False

/-- The program takes typed references only. -/
def AProg.TypedOnly : AProg → Prop
  | .seq p q => p.TypedOnly ∧ q.TypedOnly
  | .attempt p => p.TypedOnly
  | .shared _ m q | .exclusive _ m q => m.TypedOnly ∧ q.TypedOnly
  | _ => True

/-- The program holds containers of elements that have a size, in memory that no reference refers to. -/
structure OwnedOnly (Γ : TyEnv U) (env : List (Option Handle)) (m : AMem) : Prop where
  owner : ∀ h, some h ∈ env → h.kind = .owner ∧ h.mode = .excl
  elem : ∀ h, some h ∈ env → h.elem = ElemInfo.new Γ h.elem.type_id ∧ 0 < Γ.size h.elem.type_id
  apart : ∀ (i j : Nat) (g h : Handle), env[i]? = some (some g) → env[j]? = some (some h) → i ≠ j →
    g.addr + g.len ≤ h.addr ∨ h.addr + h.len ≤ g.addr
  mine : ∀ h, some h ∈ env → ∀ k < h.len, m.stack (h.addr + k) = [⟨h.tag, .unique⟩]
  none : ∀ b, (∀ h, some h ∈ env → ¬ (h.addr ≤ b ∧ b < h.addr + h.len)) → m.stack b = []
  fresh : ∀ h, some h ∈ env → h.tag < m.next

end Dync
