import Verif.ParallelLemmas
import Verif.PointersLemmas2
/-!
# Programs on views are made of loads and stores
-/
namespace Dync
variable {U V α β : Type} {Γ : TyEnv U} {cfg : Cfg} {w : Bool}

/-- Made of loads, and of stores if `w`. -/
inductive Accessing (w : Bool) : {α : Type} → M Mem α → Prop
  | lift {α : Type} (r : Res α) : Accessing w (M.lift r)
  | bind {α β : Type} {c : M Mem α} {g : α → M Mem β} (hc : Accessing w c) (hg : ∀ a, Accessing w (g a)) : Accessing w (c >>= g)
  | load (a n al : Nat) : Accessing w (Mem.load a n al)
  | store (a : Nat) (bs : Bytes) (al : Nat) (h : w = true) : Accessing w (Mem.store a bs al)

namespace Accessing

theorem doable {c : M Mem α} (h : Accessing w c) : Steps.Doable c := by
  induction h with
  | lift r => exact .lift r
  | bind _ _ ih1 ih2 => exact .bind ih1 ih2
  | load a n al => exact .load a n al
  | store a bs al _ => exact .store a bs al

/-- Without stores the memory stays as it is. -/
theorem reads {c : M Mem α} (h : Accessing w c) : w = false → ∀ m, (c m).2.byte = m.byte ∧ ∃ l, (c m).2.log = m.log ++ l ∧ ∀ a ∈ l, a.write = false := by
  induction h with
  | lift r => exact fun _ m => ⟨rfl, [], (List.append_nil _).symm, fun x h => by cases h⟩
  | @bind α β c g _ _ ih1 ih2 =>
    intro hw m
    obtain ⟨e, l, el, hl⟩ := ih1 hw m
    rcases h : c m with ⟨r, m1⟩
    rw [h] at e el
    cases r with
    | ok a =>
      rw [M.bind_ok h]
      obtain ⟨e', l', el', hl'⟩ := ih2 a hw m1
      refine ⟨e'.trans e, l ++ l', by rw [el', show m1.log = _ from el, List.append_assoc], fun x hx => ?_⟩
      exact (List.mem_append.1 hx).elim (hl x) (hl' x)
    | panic y => rw [M.bind_panic h]; exact ⟨e, l, el, hl⟩
    | ub => rw [M.bind_ub h]; exact ⟨e, l, el, hl⟩
    | abort => rw [M.bind_abort h]; exact ⟨e, l, el, hl⟩
  | load a n al =>
    refine fun _ m => ⟨rfl, _, rfl, fun x hx => ?_⟩
    rw [List.mem_singleton.1 hx]
  | store a bs al h => intro hw; rw [hw] at h; cases h

theorem pure (a : α) : Accessing w (Pure.pure a : M Mem α) := .lift (.ok a)
theorem panic (y : Why) : Accessing w (M.panic y : M Mem α) := .lift (.panic y)
theorem assert (b : Bool) : Accessing w (M.assert b : M Mem Unit) := by rw [M.assert_eq]; exact .lift _
theorem umul (a b : Nat) : Accessing w (Dync.umul cfg a b : M Mem Nat) := by rw [umul_eq]; exact .lift _
theorem indexByteRange (n i : Nat) : Accessing w (Dync.indexByteRange cfg n i : M Mem (Nat × Nat)) := by rw [indexByteRange_eq]; exact .lift _
theorem scale (n : Nat) (r : Rng) : Accessing w (r.scale cfg n : M Mem Rng) := by rw [scale_eq]; exact .lift _
theorem count (v : PtrView V) : Accessing w (v.count cfg) := by rw [count_eq]; exact .lift _
theorem elemAt (i : Nat) (v : PtrView V) : Accessing w (v.elemAt cfg i) := by rw [elemAt_eq]; exact .lift _
theorem ite {p : Prop} [Decidable p] {c d : M Mem α} (hc : Accessing w c) (hd : Accessing w d) : Accessing w (if p then c else d) := by
  split <;> assumption

theorem readAs (t : TyId) (v : PtrView V) : Accessing w (v.readAs Γ t) := .bind (.assert _) fun _ => .load ..
theorem changeAs (t : TyId) (f : Bytes → Bytes) (v : PtrView V) (h : w = true) : Accessing w (v.changeAs Γ t f) :=
  .bind (.assert _) fun _ => .bind (.load ..) fun _ => .store _ _ _ h
theorem readSlice (t : TyId) (n : Nat) (v : PtrView V) : Accessing w (v.readSlice Γ t n) := .bind (.load ..) fun _ => .lift _
theorem exchange (a b : PtrView V) (h : w = true) : Accessing w (a.exchange b) :=
  .ite (.bind (.load ..) fun _ => .bind (.load ..) fun _ => .bind (.store _ _ _ h) fun _ => .store _ _ _ h) (.panic _)

theorem swap (i j : Nat) (v : PtrView V) (h : w = true) : Accessing w (v.swap cfg i j) := by
  unfold PtrView.swap
  refine .ite (.pure _) (.bind (.indexByteRange ..) fun _ => .ite ?_ ?_) <;>
    exact .bind (.indexByteRange ..) fun _ => .bind (.umul ..) fun _ => .bind (.lift _) fun _ => .bind (.lift _) fun _ =>
      .bind (.lift _) fun _ => .exchange _ _ h

theorem rotateLeft (k : Nat) (v : PtrView V) (h : w = true) : Accessing w (v.rotateLeft cfg k) :=
  .bind (.umul ..) fun _ => .ite (.bind (.load ..) fun _ => .store _ _ _ h) (.panic _)
theorem rotateRight (k : Nat) (v : PtrView V) (h : w = true) : Accessing w (v.rotateRight cfg k) :=
  .bind (.umul ..) fun _ => .ite (.bind (.load ..) fun _ => .store _ _ _ h) (.panic _)

theorem inTurn {f : PtrView V → M Mem (List β)} (hf : ∀ v, Accessing w (f v)) (vs : List (PtrView V)) : Accessing w (PtrView.inTurn f vs) := by
  induction vs with
  | nil => exact .pure _
  | cons v vs ih => exact .bind (hf v) fun _ => .bind ih fun _ => .pure _

end Accessing

theorem SProg.made (p : SProg) : ∀ (v : PtrView V), (w = true ∨ p.Reads) → Accessing w (p.runAt Γ cfg v) := by
  induction p with
  | skip => exact fun _ _ => .pure _
  | seq p q ihp ihq =>
    exact fun v h => .bind (ihp v (h.imp_right (·.1))) fun _ => .bind (ihq v (h.imp_right (·.2))) fun _ => .pure _
  | get i => exact fun v _ => .bind (.elemAt ..) fun _ => .bind (.readAs ..) fun _ => .pure _
  | getAs t i =>
    exact fun v _ => .bind (.count _) fun _ => .bind (.assert _) fun _ => .ite (.pure _) (.bind (.load ..) fun _ => .pure _)
  | iter => exact fun v _ => .bind (.lift _) fun _ => .inTurn (fun _ => .bind (.readAs ..) fun _ => .pure _) _
  | asSlice t => exact fun v _ => .ite (.pure _) (.bind (.count _) fun _ => .bind (.readSlice ..) fun _ => .pure _)
  | setAs t i x =>
    exact fun v h => .bind (.count _) fun _ => .bind (.assert _) fun _ => .ite (.pure _)
      (.bind (.store _ _ _ (h.resolve_right fun h => h)) fun _ => .pure _)
  | setValue i t x =>
    exact fun v h => .bind (.elemAt ..) fun _ => .ite (.ite (.bind (.store _ _ _ (h.resolve_right fun h => h)) fun _ => .pure _) (.panic _)) (.pure _)
  | mapAll f =>
    exact fun v h => .bind (.lift _) fun _ => .inTurn (fun _ => .bind (.changeAs _ _ _ (h.resolve_right fun h => h)) fun _ => .pure _) _
  | mapAs t f =>
    exact fun v h => .bind (.count _) fun _ => .ite (.pure _) (.bind (.readSlice ..) fun _ =>
      .bind (.store _ _ _ (h.resolve_right fun h => h)) fun _ => .pure _)
  | swap i j => exact fun v h => .bind (.swap _ _ _ (h.resolve_right fun h => h)) fun _ => .pure _
  | rotateLeft n => exact fun v h => .bind (.rotateLeft _ _ (h.resolve_right fun h => h)) fun _ => .pure _
  | rotateRight n => exact fun v h => .bind (.rotateRight _ _ (h.resolve_right fun h => h)) fun _ => .pure _
  | copyFromSlice t xs =>
    exact fun v h => .bind (.count _) fun _ => .ite (.pure _) (.ite
      (.bind (.store _ _ _ (h.resolve_right fun h => h)) fun _ => .pure _) (.panic _))
  | sub r p ih => exact fun v h => .bind (.scale ..) fun _ => .bind (.lift _) fun _ => .bind (.lift _) fun _ => ih _ h
  | split mid p q ihp ihq =>
    exact fun v h => .bind (.umul ..) fun _ => .bind (.lift _) fun _ => .bind (ihp _ (h.imp_right (·.1))) fun _ =>
      .bind (ihq _ (h.imp_right (·.2))) fun _ => .pure _
  | chunks k p ih => exact fun v h => .bind (.umul ..) fun _ => .bind (.lift _) fun _ => .inTurn (fun _ => ih _ h) _

theorem HProg.made (p : HProg) : ∀ (n : Nat) (ρ : Nat → Option (PtrView V)), Accessing true (p.runAt Γ cfg n ρ) := by
  induction p with
  | skip => exact fun _ _ => .pure _
  | seq p q ihp ihq => exact fun n ρ => .bind (ihp n ρ) fun _ => .bind (ihq n ρ) fun _ => .pure _
  | on i p =>
    intro n ρ; simp only [HProg.runAt]
    cases ρ i with
    | none => exact .pure _
    | some v => exact p.made v (.inl rfl)
  | swapValues i a j b =>
    intro n ρ; simp only [HProg.runAt]
    refine .ite (.pure _) ?_
    cases ρ i with
    | none => exact .pure _
    | some v =>
      cases ρ j with
      | none => exact .pure _
      | some w =>
        refine .bind (.elemAt ..) fun e => .bind (.elemAt ..) fun f => .bind ?_ fun _ => .pure _
        exact .ite (.bind (.exchange _ _ rfl) fun _ => .assert _) (.pure _)
  | copyValue i a j b =>
    intro n ρ; simp only [HProg.runAt]
    refine .ite (.pure _) ?_
    cases ρ i with
    | none => exact .pure _
    | some v =>
      cases ρ j with
      | none => exact .pure _
      | some w =>
        refine .bind (.elemAt ..) fun e => .bind (.elemAt ..) fun f => .bind ?_ fun _ => .pure _
        exact .ite (.ite (.bind (.load ..) fun _ => .store _ _ _ rfl) (.panic _)) (.pure _)
  | split i mid q ih =>
    intro n ρ; simp only [HProg.runAt]
    cases ρ i with
    | none => exact .pure _
    | some v => exact .bind (.umul ..) fun _ => .bind (.lift _) fun _ => ih _ _
  | chunks i k q ih =>
    intro n ρ; simp only [HProg.runAt]
    cases ρ i with
    | none => exact .pure _
    | some v => exact .bind (.umul ..) fun _ => .bind (.lift _) fun _ => ih _ _
  | values i q ih =>
    intro n ρ; simp only [HProg.runAt]
    cases ρ i with
    | none => exact .pure _
    | some v => exact .bind (.lift _) fun _ => ih _ _
  | sub i r q ih =>
    intro n ρ; simp only [HProg.runAt]
    cases ρ i with
    | none => exact .pure _
    | some v => exact .bind (.scale ..) fun _ => .bind (.lift _) fun _ => .bind (.lift _) fun _ => ih _ _

/-- What a thread does can be carried out byte by byte. -/
theorem TProg.doable (p : TProg) {n : Nat} {ρ sh : Nat → Option (PtrView V)} : Steps.Doable (p.runAt Γ cfg n ρ sh) := by
  induction p with
  | stop => exact .pure _
  | own p next ih => exact .bind (p.made n ρ).doable.caught fun o => .bind (ih o) fun _ => .pure _
  | look k p next ih =>
    refine .bind (.caught ?_) fun o => .bind (ih o) fun _ => .pure _
    cases sh k with
    | none => exact .pure _
    | some v => exact (p.made (w := true) v (.inl rfl)).doable

end Dync
