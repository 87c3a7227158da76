import Verif.SafetySlice3
/-!
# Helper lemmas: `VecCopy` operations without size restrictions
-/
namespace Dync
variable {U V α : Type} {Γ : TyEnv U} {S : Values Γ} {t : TyId} {es : List Bytes} {c : VecCopy V} {w : World U} {cfg : Cfg}

/-- A method call on a container: as `Step`, for the raw data. -/
def CStep (Γ : TyEnv U) (S : Values Γ) (a b : VecCopy V × World U) : Prop := Step Γ S (a.1.data, a.2) (b.1.data, b.2)

theorem CStep.refl (g : Good Γ S w.heap c.data) (wf : w.heap.WF) : CStep Γ S (c, w) (c, w) := Step.refl g wf
theorem CStep.trans {a b d : VecCopy V × World U} (x : CStep Γ S a b) (y : CStep Γ S b d) : CStep Γ S a d := Step.trans x y
theorem CStep.good {a b : VecCopy V × World U} (x : CStep Γ S a b) : Good Γ S b.2.heap b.1.data := x.2.2
theorem CStep.wf {a b : VecCopy V × World U} (x : CStep Γ S a b) : b.2.heap.WF := x.1.wf

namespace VecCopy

theorem onData_runs {m : M (VecVoid × World U) α} {Q : α → VecCopy V × World U → Prop} {E : VecCopy V × World U → Prop}
    (h : Runs m (c.data, w) (fun a s => Q a ({ c with data := s.1 }, s.2)) (fun s => E ({ c with data := s.1 }, s.2))) :
    Runs (onData m) (c, w) Q E := Runs.zoom h

theorem checkRef_eq (t : TyId) (c : VecCopy V) : c.checkRef t = if t = c.data.elem.type_id then some c else none := by
  unfold checkRef elementTypeId
  by_cases h : t = c.data.elem.type_id <;> simp [h]

theorem pushAs_runs (g : Good Γ S w.heap c.data) (wf : w.heap.WF) (hc : CopyTy Γ t) {x : Bytes} (hx : S.valid t x) :
    Runs (pushAs Γ cfg t x) (c, w) (fun _ s => CStep Γ S (c, w) s) (fun s => CStep Γ S (c, w) s) := by
  unfold pushAs
  refine Runs.bind_ok (b := c) (s' := (c, w)) rfl ?_
  rw [checkRef_eq]
  by_cases h : t = c.data.elem.type_id
  · rw [if_pos h]
    refine Runs.bind (R := fun _ s => CStep Γ S (c, w) s) ?_ fun _ s h => h
    exact onData_runs ((VecVoid.pushTyped_runs g wf h.symm hc hx).mono (fun _ s h => h.1) fun s h => h)
  · rw [if_neg h]
    refine Runs.bind_ok (b := ()) (s' := (c, w)) ?_ (CStep.refl g wf)
    simp [onWorld, M.zoom_run, worldUser, hc x w.user]

theorem reserve_runs (g : Good Γ S w.heap c.data) (wf : w.heap.WF) (n : Nat) :
    Runs (reserve Γ cfg n) (c, w) (fun _ s => CStep Γ S (c, w) s ∧ ∃ t, TGood Γ S t s.2.heap s.1.data) (fun s => CStep Γ S (c, w) s) :=
  onData_runs ((VecVoid.reserve_runs g wf n).mono (fun _ s h => ⟨h.1, by obtain ⟨t, _, h'⟩ := h.2; exact ⟨t, h'⟩⟩) fun s h => h)

theorem clear_runs (g : Good Γ S w.heap c.data) (wf : w.heap.WF) :
    Runs (clear Γ cfg) (c, w) (fun _ s => CStep Γ S (c, w) s) (fun s => CStep Γ S (c, w) s) :=
  onData_runs (VecVoid.clear_runs g wf)

theorem rotate_fits (g : Good Γ S w.heap c.data) {n : Nat} (hf : Fits Γ cfg n) : NoWrap cfg (n * c.data.elem.size) := by
  obtain ⟨t, h⟩ := g.elem
  rw [h]
  rcases hf with hf | hf
  · exact .inl hf
  · refine .inr (Nat.le_trans ?_ (hf t))
    have h1 : (ElemInfo.new Γ t).size ≤ Γ.size t := Nat.div_le_self _ _
    calc n * (ElemInfo.new Γ t).size ≤ n * Γ.size t := Nat.mul_le_mul_left _ h1
      _ ≤ (n + 1) * Γ.size t := Nat.mul_le_mul_right _ (by omega)

theorem rotateLeft_runs (g : Good Γ S w.heap c.data) (wf : w.heap.WF) {n : Nat} (hf : Fits Γ cfg n) :
    Runs (rotateLeft Γ cfg n) (c, w) (fun _ s => CStep Γ S (c, w) s) (fun s => CStep Γ S (c, w) s) :=
  onData_runs (VecVoid.rotateLeft_runs g wf (rotate_fits g hf))
theorem rotateRight_runs (g : Good Γ S w.heap c.data) (wf : w.heap.WF) {n : Nat} (hf : Fits Γ cfg n) :
    Runs (rotateRight Γ cfg n) (c, w) (fun _ s => CStep Γ S (c, w) s) (fun s => CStep Γ S (c, w) s) :=
  onData_runs (VecVoid.rotateRight_runs g wf (rotate_fits g hf))

theorem resize_runs (g : Good Γ S w.heap c.data) (wf : w.heap.WF) (hc : CopyTy Γ t) {x : Bytes} (hx : S.valid t x) (n : Nat) :
    Runs (resize Γ cfg t n x) (c, w) (fun _ s => CStep Γ S (c, w) s) (fun s => CStep Γ S (c, w) s) := by
  unfold resize
  refine Runs.bind_ok (b := c) (s' := (c, w)) rfl ?_
  rw [checkRef_eq]
  by_cases h : t = c.data.elem.type_id
  · rw [if_pos h]
    simp only
    split
    · refine Runs.bind (R := fun _ s => CStep Γ S (c, w) s) ((reserve_runs g wf _).mono (fun _ s h => h.1) fun s h => h) ?_
      intro _ s hs
      refine Runs.bind (R := fun _ s => CStep Γ S (c, w) s) (Runs.repeatN ?_ _ hs) fun _ s h => h
      rintro ⟨c1, w1⟩ h1
      refine Runs.bind (R := fun _ s => CStep Γ S (c, w) s) ?_ fun _ s h => h
      exact (pushAs_runs h1.good h1.wf hc hx).mono (fun _ s h => h1.trans h) fun s h => h1.trans h
    · refine Runs.bind (R := fun _ s => CStep Γ S (c, w) s) (onData_runs (VecVoid.truncate_runs g wf _)) fun _ s h => h
  · rw [if_neg h]
    exact CStep.refl g wf

theorem TGood.not_unit {h : Heap} {v : VecVoid} (g : TGood Γ S t h v) : t ≠ Γ.unitTy := by
  obtain ⟨es, R, _⟩ := g
  rintro rfl
  have := R.pos
  rw [Γ.unit_size] at this
  omega

/-- Pushing a value of the right type to a container that is not lost. -/
theorem pushData_runs (g : Good Γ S w.heap c.data) (wf : w.heap.WF) {x : Bytes} (ht : t = c.data.elem.type_id) (hx : S.valid t x)
    (hu : t ≠ Γ.unitTy) :
    Runs (onData (VecVoid.push Γ cfg x)) (c, w) (fun _ s => CStep Γ S (c, w) s ∧ ∃ t, TGood Γ S t s.2.heap s.1.data)
      (fun s => CStep Γ S (c, w) s) := by
  have hpos : 0 < Γ.size t := by
    rcases g with ⟨t', es, R, _⟩ | u
    · have : t' = t := by rw [ht, R.type_id]
      rw [← this]; exact R.pos
    · exact absurd (by rw [ht, u.elem]; rfl) hu
  exact onData_runs ((VecVoid.push_runs g wf ht.symm hx hpos).mono (fun _ s h => ⟨h.1, t, h.2⟩) fun s h => h)

theorem push_runs {vt : V} (g : Good Γ S w.heap c.data) (wf : w.heap.WF) {x : Bytes} (hx : S.valid t x) (hu : t ≠ Γ.unitTy) :
    Runs (push Γ cfg (CopyValue.new Γ t vt x)) (c, w) (fun _ s => CStep Γ S (c, w) s ∧ (t = c.data.elem.type_id → ∃ t, TGood Γ S t s.2.heap s.1.data))
      (fun s => CStep Γ S (c, w) s) := by
  unfold push
  refine Runs.bind_ok (b := c) (s' := (c, w)) rfl ?_
  refine Runs.bind (R := fun _ s => s = (c, w)) (Runs.assert (fun _ => rfl) fun _ => CStep.refl g wf) ?_
  rintro _ s hs
  rw [hs]
  split
  · rename_i h
    exact Runs.bind (pushData_runs (cfg := cfg) g wf h hx hu) fun _ s h => ⟨h.1, fun _ => h.2⟩
  · rename_i h
    exact ⟨CStep.refl g wf, fun e => absurd e h⟩

theorem extend_runs {vt : V} (g : Good Γ S w.heap c.data) (wf : w.heap.WF) {xs : List (TyId × Bytes)}
    (hx : ∀ x ∈ xs, S.valid x.1 x.2) (hint : Nat) :
    Runs (extend Γ cfg hint (xs.map fun x => CopyValue.new Γ x.1 vt x.2)) (c, w) (fun _ s => CStep Γ S (c, w) s)
      (fun s => CStep Γ S (c, w) s) := by
  unfold extend
  refine Runs.bind (reserve_runs g wf hint) ?_
  intro _ s hs
  refine (Runs.forEach (P := fun s => CStep Γ S (c, w) s ∧ ∃ t, TGood Γ S t s.2.heap s.1.data) ?_ hs).mono (fun _ s h => h.1) fun s h => h
  rintro v hv ⟨c1, w1⟩ ⟨h1, t1, h2⟩
  obtain ⟨⟨t, x⟩, hm, rfl⟩ := List.mem_map.1 hv
  refine Runs.bind_ok (b := c1) (s' := (c1, w1)) rfl ?_
  refine Runs.bind (R := fun _ s => s = (c1, w1)) (Runs.assert (fun _ => rfl) fun _ => h1) ?_
  rintro _ s hs
  rw [hs]
  refine Runs.bind (R := fun _ s => s = (c1, w1) ∧ t = c1.data.elem.type_id) (Runs.assert (fun e => ⟨rfl, eq_of_beq e⟩) fun _ => h1) ?_
  rintro _ s ⟨hs, ht⟩
  rw [hs]
  have hu : t ≠ Γ.unitTy := by
    obtain ⟨es, R, hv⟩ := h2
    rw [ht, R.type_id]
    exact TGood.not_unit (S := S) ⟨es, R, hv⟩
  exact (pushData_runs h1.good h1.wf ht (hx _ hm) hu).mono (fun _ s h => ⟨h1.trans h.1, h.2⟩) fun s h => h1.trans h

theorem _root_.Dync.withCapacity_chunks {T : Layout} (hT : 0 < T.size) (wf : w.heap.WF) (n : Nat) :
    Runs (RVec.withCapacity T n) w
      (fun r w' => VGood T w'.heap r ∧ r.len = 0 ∧ r.bytes = [] ∧
        Moved w.heap none w'.heap r.ptr ∧ w'.user = w.user) (fun w' => w' = w) := by
  unfold RVec.withCapacity
  have hne : T.size ≠ 0 := by omega
  by_cases hr : n * T.size + (T.align - 1) ≤ isizeMax
  · refine Runs.of_ok (a := ⟨(w.heap.alloc ⟨n * T.size, T.align⟩).1, 0, n, []⟩)
      (s' := { w with heap := (w.heap.alloc ⟨n * T.size, T.align⟩).2 }) (by simp [hne, hr]) ⟨?_, rfl, rfl, ?_, rfl⟩
    · refine ⟨by simp, Nat.zero_le _, hr, ?_⟩
      rcases Nat.eq_zero_or_pos n with hn | hn
      · subst hn
        refine .inl ⟨rfl, ?_⟩
        simp [Heap.alloc]
      · have hal := Heap.alloc_live (h := w.heap) (l := ⟨n * T.size, T.align⟩) (Nat.mul_ne_zero (by omega) hne)
        exact .inr ⟨hn, _, hal.1, hal.2⟩
    · refine Moved.ofRealloc ?_ (Realloc.ofAlloc wf _)
      intro i hi _
      simp only at hi
      rcases Nat.eq_zero_or_pos n with hn | hn
      · subst hn; simp [Heap.alloc] at hi
      · have hal := Heap.alloc_live (h := w.heap) (l := ⟨n * T.size, T.align⟩) (Nat.mul_ne_zero (by omega) hne)
        rw [hal.1] at hi; cases hi; exact Nat.le_refl _
  · exact Runs.of_panic (y := .capacity) (s' := w) (by simp [hne, hr]) rfl

theorem withTypeFrom_runs {m : Meta V} (hm : m.elem = ElemInfo.new Γ t) (wf : w.heap.WF) :
    Runs (withTypeFrom m) w (fun c w' => New Γ S w c.data w' ∧ TGood Γ S t w'.heap c.data) (Kept w) := by
  unfold withTypeFrom
  rw [hm]
  refine Runs.bind (R := fun v w' => New Γ S w v w' ∧ TGood Γ S t w'.heap v) ?_ fun _ _ h => h
  simp only [ElemInfo.new, evalAlign_align]
  refine Runs.bind ((withCapacity_chunks (T := ⟨Γ.align t, Γ.align t⟩) (align_pos Γ t) wf _).mono (fun _ _ h => h)
    fun w' e => by rw [e]; exact Kept.refl wf) ?_
  rintro r w' ⟨h1, h2, h3, h4, h5⟩
  rcases Nat.eq_zero_or_pos (Γ.size t) with h0 | hpos
  · refine Runs.of_panic (y := .divZero) (s' := w') ?_ ⟨h4.drop, h5⟩
    simp [VecVoid.fromVecOverride, h0]
  · refine (fromVecOverride_runs (S := S) hpos (e := ⟨t, Γ.size t / Γ.align t, Γ.align t⟩) rfl h1 ?_).mono ?_ ?_
    · intro n _
      exact ⟨[], by rw [h3]; rfl, by simp⟩
    · rintro v s ⟨hs, k1, k2⟩
      rw [hs]
      exact ⟨⟨by rw [k2]; exact h4, h5, .inl ⟨t, k1⟩⟩, k1⟩
    · intro s hs
      rw [hs]
      exact ⟨h4.drop, h5⟩

theorem fromIter_runs {vt : V} (wf : w.heap.WF) {xs : List (TyId × Bytes)} (hx : ∀ x ∈ xs, S.valid x.1 x.2) (hint : Nat) :
    Runs (fromIter Γ cfg hint (xs.map fun x => CopyValue.new Γ x.1 vt x.2)) w (fun c w' => New Γ S w c.data w') (Kept w) := by
  cases xs with
  | nil => exact Kept.refl wf
  | cons x xs =>
    obtain ⟨t, x⟩ := x
    have hv := hx (t, x) (by simp)
    simp only [List.map_cons, fromIter]
    have hm : (Meta.ofValue x t (Γ.align t) vt).elem = ElemInfo.new Γ t := by
      simp only [Meta.ofValue, ElemInfo.new]
      rw [S.len t x hv]
    refine Runs.bind (withTypeFrom_runs (S := S) hm wf) ?_
    rintro c w1 ⟨⟨h1, h2, h3⟩, h4⟩
    refine Runs.bind (R := fun p w' => New Γ S w p.2.data w') (Runs.withLocal ?_) fun p w' h => h
    have key : Runs (do
        let _ ← push Γ cfg (CopyValue.new Γ t vt x)
        extend Γ cfg hint (xs.map fun x => CopyValue.new Γ x.1 vt x.2)) (c, w1) (fun _ s => CStep Γ S (c, w1) s) (fun s => CStep Γ S (c, w1) s) := by
      refine Runs.bind (push_runs (vt := vt) h3 h1.wf hv (TGood.not_unit h4)) ?_
      rintro _ ⟨c2, w2⟩ ⟨k1, _⟩
      exact (extend_runs k1.good k1.wf (fun y hy => hx y (by simp [hy])) hint).mono (fun _ s h => k1.trans h) fun s h => k1.trans h
    refine key.mono ?_ ?_
    · rintro _ s ⟨k1, k2, k3⟩
      exact ⟨h1.trans k1, k2.trans h2, k3⟩
    · rintro s ⟨k1, k2, k3⟩
      refine (VecVoid.drop_runs k3 k1.wf).mono ?_ fun _ h => h
      rintro _ w3 ⟨k4, k5⟩
      exact ⟨(h1.trans k1).trans k4, k5.trans (k2.trans h2)⟩

end VecCopy
end Dync
