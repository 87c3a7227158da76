import Verif.HistoryStep
import Verif.Props.VecCopy2
/-!
# Operations that panic on a `Vec` also panic on the untyped container, and change nothing
-/
namespace Dync
variable {U V : Type} {Γ : TyEnv U} {N : Nat} {slots : Slots V} {s : Op.VState} {cfg : Cfg} {vt : V}
  {w : World U}

theorem onSlot_panic {m : M (VecCopy V × World U) Obs} {f : TyId → List Bytes → Option (Obs × List Bytes)} {k : Nat}
    (I : HInv Γ N slots w.heap s) (hspec : Op.specOn s k f = none)
    (hm : ∀ c t es, s k = some (t, es) → f t es = none → Repr Γ w.heap t es c.data →
      ∃ y, m (c, w) = (.panic y, (c, w))) : ∃ y, Op.onSlot k m (slots, w) = (.panic y, (slots, w)) := by
  unfold Op.specOn at hspec
  cases hs : s k with
  | none => rw [hs] at hspec; cases hspec
  | some p =>
    obtain ⟨t, es⟩ := p
    rw [hs] at hspec
    simp only at hspec
    obtain ⟨c, hc, R, -, -⟩ := I.lookup hs
    cases hf : f t es with
    | some q => rw [hf] at hspec; cases hspec
    | none =>
      obtain ⟨y, hrun⟩ := hm c t es hs hf R
      refine ⟨y, ?_⟩
      simp only [Op.onSlot, hc, hrun]
      rw [← hc, Slots.put_self]

theorem step_panic (op : Op) (I : HInv Γ N slots w.heap s) (hwt : op.WellTyped Γ) (hca : op.Catchable s)
    (hd : cfg.debug = true) (hspec : op.spec Γ s = none) :
    ∃ y, op.exec Γ cfg vt (slots, w) = (.panic y, (slots, w)) := by
  cases op with
  | withType k t => cases hspec
  | withCapacity k t n => cases hspec
  | fromSlice k t xs => cases hspec
  | drop k => simp only [Op.spec] at hspec; split at hspec <;> cases hspec
  | clone k j => simp only [Op.spec] at hspec; split at hspec <;> cases hspec
  | append k j =>
    simp only [Op.spec] at hspec
    split at hspec
    · cases hspec
    · split at hspec
      · split at hspec <;> cases hspec
      · cases hspec
  | roundTrip k t =>
    simp only [Op.spec] at hspec
    split at hspec
    · cases hspec
    · split at hspec <;> cases hspec
  | pushAs k t x => exact onSlot_panic I hspec fun c t' es _ hf _ => by split at hf <;> cases hf
  | push k t x =>
    refine onSlot_panic I hspec fun c t' es _ hf R => ?_
    split at hf
    · cases hf
    · split at hf
      · cases hf
      · rename_i h1 h2
        refine ⟨.assertion, ?_⟩
        have := VecCopy.push_badSize (cfg := cfg) (v := CopyValue.new Γ t vt x) R (by rw [← hwt.2] at h2; exact h2)
        simp only [M.bind_run, this]
  | resize k t n x => exact onSlot_panic I hspec fun c t' es _ hf _ => by split at hf <;> cases hf
  | reserve k n => exact onSlot_panic (f := fun _ es => some (.done, es)) I hspec fun c t' es _ hf _ => by cases hf
  | clear k => exact onSlot_panic (f := fun _ es => some (.done, [])) I hspec fun c t' es _ hf _ => by cases hf
  | fill k t x => exact onSlot_panic I hspec fun c t' es _ hf _ => by split at hf <;> cases hf
  | copyFromSlice k t xs =>
    refine onSlot_panic I hspec fun c t' es _ hf R => ?_
    split at hf
    · rename_i ht
      subst ht
      split at hf
      · cases hf
      · rename_i hl
        have := (C45_veccopy_partial (W := V) (α := Unit) (cfg := cfg) (w := w) R).2.2.2.1 xs hl
        exact ⟨.lenMismatch, by simp only [M.bind_run, this]⟩
    · cases hf
  | rotateLeft k n =>
    refine onSlot_panic (f := fun _ es => if n ≤ es.length then some (.done, es.drop n ++ es.take n) else none) I hspec
      fun c t' es hs hf R => ?_
    rw [if_pos (hca t' es hs)] at hf
    cases hf
  | rotateRight k n =>
    refine onSlot_panic (f := fun _ es => if n ≤ es.length then
      some (.done, es.drop (es.length - n) ++ es.take (es.length - n)) else none) I hspec fun c t' es hs hf R => ?_
    rw [if_pos (hca t' es hs)] at hf
    cases hf
  | swap k i j =>
    refine onSlot_panic (f := fun _ es => if h : i < es.length ∧ j < es.length then
      some (.done, (es.set i es[j]).set j es[i]) else none) I hspec fun c t' es hs hf R => ?_
    by_cases h : i < es.length ∧ j < es.length
    · rw [dif_pos h] at hf; cases hf
    · have hne : i ≠ j := by
        intro e
        have := hca t' es hs e
        subst e
        exact h ⟨this, this⟩
      obtain ⟨y, hy⟩ := (C45_veccopy_partial (W := V) (α := Unit) (cfg := cfg) (w := w) R).2.2.2.2 i j hne (by omega)
        (.inl hd) (.inl hd)
      exact ⟨y, by simp only [M.bind_run, hy]⟩
  | setAs k t i x =>
    refine onSlot_panic (f := fun t' es => if i < es.length then
      (if t = t' then some (.done, es.set i x) else some (.refused, es)) else none) I hspec fun c t' es hs hf R => ?_
    by_cases h : i < es.length
    · rw [if_pos h] at hf; split at hf <;> cases hf
    · have := C27_veccopy_get_mut_as R (Nat.le_of_not_lt h) t (M.modify fun s => (x, s.2))
      exact ⟨.assertion, by simp only [M.bind_run, this]⟩
  | setValue k i t x =>
    refine onSlot_panic (f := fun t' es => if i < es.length then
      (if t = t' then some (.done, es.set i x) else some (.refused, es)) else none) I hspec fun c t' es hs hf R => ?_
    by_cases h : i < es.length
    · rw [if_pos h] at hf; split at hf <;> cases hf
    · have := (C27_veccopy_get_debug_partial R (Nat.le_of_not_lt h) hd
        (M.zoom Prod.fst (fun v s => (v, s.2)) (do
            let self ← M.get
            CopyValue.copy (CopyValue.new Γ t self.vtable x)))).2
      exact ⟨.assertion, by simp only [M.bind_run, this]⟩
  | mapAll k f => exact onSlot_panic (f := fun _ es => some (.done, es.map f)) I hspec fun c t' es _ hf _ => by cases hf
  | len k => exact onSlot_panic (f := fun _ es => some (.num es.length, es)) I hspec fun c t' es _ hf _ => by cases hf
  | typeId k => exact onSlot_panic (f := fun t es => some (.num t, es)) I hspec fun c t' es _ hf _ => by cases hf
  | getAs k t i =>
    refine onSlot_panic (f := fun t' es => if h : i < es.length then
      (if t = t' then some (.elem es[i], es) else some (.refused, es)) else none) I hspec fun c t' es hs hf R => ?_
    by_cases h : i < es.length
    · rw [dif_pos h] at hf; split at hf <;> cases hf
    · exact ⟨.assertion, by simp only [M.bind_run, getSelf_run, VecCopy.getAs_out R (Nat.le_of_not_lt h)]⟩
  | get k i =>
    refine onSlot_panic (f := fun t' es => if h : i < es.length then some (.value t' es[i], es) else none) I hspec
      fun c t' es hs hf R => ?_
    by_cases h : i < es.length
    · rw [dif_pos h] at hf; cases hf
    · exact ⟨.assertion, by simp only [M.bind_run, getSelf_run, VecCopy.getRef_out_debug R (Nat.le_of_not_lt h) hd]⟩
  | asSlice k t => exact onSlot_panic I hspec fun c t' es _ hf _ => by split at hf <;> cases hf
  | iter k => exact onSlot_panic (f := fun _ es => some (.elems es, es)) I hspec fun c t' es _ hf _ => by cases hf

end Dync
