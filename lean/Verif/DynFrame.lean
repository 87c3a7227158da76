import Verif.HistoryDyn
import Verif.HistoryLemmas
import Verif.Ledger
/-!
# Helper lemmas: variables that an operation does not name stay as they are
-/
namespace Dync
variable {U V α β : Type} [HasDrop U V] [HasClone U V] {Γ : TyEnv U} {cfg : Cfg} {vt : TyId → V} {k j i : Nat}

/-- Variable `j` stays as it is, however `m` ends. -/
def Spares (j : Nat) (m : M (DSlots V × World U) α) : Prop := ∀ s, (m s).2.1 j = s.1 j

namespace Spares
omit [HasDrop U V] [HasClone U V] in
theorem pure (x : α) : Spares j (Pure.pure x : M (DSlots V × World U) α) := fun _ => rfl
omit [HasDrop U V] [HasClone U V] in
theorem bind {m : M (DSlots V × World U) α} {f : α → M (DSlots V × World U) β} (h : Spares j m) (hf : ∀ x, Spares j (f x)) :
    Spares j (m >>= f) := by
  intro s
  simp only [M.bind_run]
  have h1 := h s
  rcases hm : m s with ⟨r, s1⟩
  rw [hm] at h1
  cases r with
  | ok x => exact (hf x s1).trans h1
  | panic y => exact h1
  | ub => exact h1
  | abort => exact h1
omit [HasDrop U V] [HasClone U V] in
theorem lift (r : Res α) : Spares j (M.lift r : M (DSlots V × World U) α) := fun _ => rfl
omit [HasDrop U V] [HasClone U V] in
theorem world (m : M (World U) α) : Spares j (onWorld m : M (DSlots V × World U) α) := fun s => by rw [onWorld_run]
omit [HasDrop U V] [HasClone U V] in
theorem onVec {m : M (VecDyn V × World U) Obs} (h : j ≠ k) : Spares j (DOp.onVec k m) := by
  intro s
  simp only [DOp.onVec]
  split
  · exact Slots.put_other _ _ h
  · rfl
omit [HasClone U V] in
theorem create {m : M (World U) (Item V)} (h : j ≠ k) : Spares j (DOp.create cfg k m) := by
  refine bind (world _) fun a => bind (fun s => ?_) fun _ => pure _
  simp only [DOp.putItem]
  split
  · exact Slots.put_other _ _ h
  · exact Slots.put_other _ _ h
omit [HasDrop U V] [HasClone U V] in
theorem clearVar (h : j ≠ k) : Spares j (DOp.clearVar k : M (DSlots V × World U) Unit) := fun s => by
  simp only [DOp.clearVar, M.modify_run]
  exact Slots.put_other _ _ h
omit [HasDrop U V] [HasClone U V] in
theorem readRef : Spares j (DOp.readRef cfg k i : M (DSlots V × World U) (Option (ValueRef V))) := by
  intro s
  simp only [DOp.readRef]
  split <;> rfl
omit [HasDrop U V] [HasClone U V] in
theorem onMut {m : M (ValueRef V × World U) Obs} (h : j ≠ k) : Spares j (DOp.onMut cfg k i m) := by
  intro s
  simp only [DOp.onMut]
  split
  · rfl
  · exact Slots.put_other _ _ h
  · exact Slots.put_other _ _ h
  · exact Slots.put_other _ _ h
end Spares

open Spares in
/-- However an operation ends, it changes only the variables it names. -/
theorem exec_spares {op : DOp} (h : j ∉ op.vars) : Spares j (op.exec Γ cfg vt) := by
  cases op with
  | drop k =>
    have h : j ≠ k := by simpa [DOp.vars] using h
    intro s
    simp only [DOp.exec]
    split
    · rfl
    · exact ((clearVar h).bind fun _ => (world _).bind fun _ => pure _) s
  | clone k k' =>
    have h : j ≠ k ∧ j ≠ k' := by simpa [DOp.vars] using h
    intro s
    simp only [DOp.exec]
    split
    · rfl
    · exact create h.2 s
  | consume k t =>
    have h : j ≠ k := by simpa [DOp.vars] using h
    intro s
    simp only [DOp.exec]
    split
    · rfl
    · exact ((clearVar h).bind fun _ => world _) s
  | roundTrip k t =>
    have h : j ≠ k := by simpa [DOp.vars] using h
    intro s
    simp only [DOp.exec]
    split
    · refine ((clearVar h).bind fun _ => (world _).bind fun r => ?_) s
      cases r with
      | none => exact pure _
      | some v => exact create h
    · rfl
  | append k k' =>
    have h : j ≠ k ∧ j ≠ k' := by simpa [DOp.vars] using h
    intro s
    simp only [DOp.exec]
    split
    · rfl
    · split
      · exact (Slots.put_other _ _ h.2).trans (Slots.put_other _ _ h.1)
      · rfl
  | pushCloned k k' i =>
    have h : j ≠ k ∧ j ≠ k' := by simpa [DOp.vars] using h
    simp only [DOp.exec]
    split
    · exact pure _
    · refine bind readRef fun r => ?_
      cases r with
      | none => exact pure _
      | some v => exact onVec h.1
  | pushBox k k' =>
    have h : j ≠ k ∧ j ≠ k' := by simpa [DOp.vars] using h
    intro s
    simp only [DOp.exec]
    split
    · exact ((clearVar h.2).bind fun _ => onVec h.1) s
    · rfl
  | cloneValue k i k' =>
    have h : j ≠ k ∧ j ≠ k' := by simpa [DOp.vars] using h
    refine bind readRef fun r => ?_
    cases r with
    | none => exact pure _
    | some v => exact create h.2
  | cloneSmall k i k' =>
    have h : j ≠ k ∧ j ≠ k' := by simpa [DOp.vars] using h
    refine bind readRef fun r => ?_
    cases r with
    | none => exact pure _
    | some v => exact create h.2
  | assign k i k' =>
    have h : j ≠ k ∧ j ≠ k' := by simpa [DOp.vars] using h
    intro s
    simp only [DOp.exec]
    split
    · rfl
    · split
      · split
        · rfl
        · exact (bind readRef fun _ => (clearVar h.2).bind fun _ => onMut h.1) s
      · rfl
  | cloneFrom k i k' i' =>
    have h : j ≠ k ∧ j ≠ k' := by simpa [DOp.vars] using h
    simp only [DOp.exec]
    split
    · exact pure _
    · refine bind readRef fun r => ?_
      cases r with
      | none => exact pure _
      | some v => exact onMut h.1
  | swapValues k i k' i' =>
    have h : j ≠ k ∧ j ≠ k' := by simpa [DOp.vars] using h
    simp only [DOp.exec]
    split
    · exact pure _
    · refine bind readRef fun r => ?_
      cases r with
      | none => exact pure _
      | some v =>
        refine bind readRef fun r => ?_
        cases r with
        | none => exact pure _
        | some v => exact bind (lift _) fun _ => bind (onMut h.1) fun _ => onMut h.2
  | get k i =>
    refine bind readRef fun r => ?_
    cases r with
    | none => exact pure _
    | some v => exact pure _
  | withType k t => exact create (by simpa [DOp.vars] using h)
  | withCapacity k t n => exact create (by simpa [DOp.vars] using h)
  | fromVec k t xs => exact create (by simpa [DOp.vars] using h)
  | fromSlice k t xs => exact create (by simpa [DOp.vars] using h)
  | withSize k t n x => exact create (by simpa [DOp.vars] using h)
  | newBox k t x => exact create (by simpa [DOp.vars] using h)
  | newSmall k t x => exact create (by simpa [DOp.vars] using h)
  | _ => exact onVec (by simpa [DOp.vars] using h)

/-- A program changes only the variables it names. -/
theorem run_spares (ops : List DOp) (h : ∀ op ∈ ops, j ∉ op.vars) : Spares j (runDOps Γ cfg vt ops) := by
  induction ops with
  | nil => exact Spares.pure _
  | cons op ops ih =>
    exact Spares.bind (exec_spares (h op (by simp))) fun _ => Spares.bind (ih fun op ho => h op (by simp [ho])) fun _ => Spares.pure _

end Dync
