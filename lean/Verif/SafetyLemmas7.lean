import Verif.SafetyLemmas6
/-!
# All programs: which are covered, and every step of a covered program
-/
namespace Dync
variable {U V α : Type} {Γ : TyEnv U} {S : Values Γ} {cfg : Cfg} {vt : V} {sl : Slots V} {w : World U}

/-- Operations of safe code: type arguments are `Copy` types, values written are values of their
type, closures turn values into values. Beyond that: indices of unchecked arithmetic do not wrap
around, the untyped accessors `get` / `get_mut` are used with debug assertions, and no `()` is
pushed as an untyped value. -/
def Op.Safe (Γ : TyEnv U) (S : Values Γ) (cfg : Cfg) : Op → Prop
  | .withType _ t => CopyTy Γ t
  | .withCapacity _ t _ => CopyTy Γ t
  | .fromSlice _ t xs => CopyTy Γ t ∧ ∀ x ∈ xs, S.valid t x
  | .roundTrip _ t => CopyTy Γ t
  | .pushAs _ t x => CopyTy Γ t ∧ S.valid t x
  | .push _ t x => S.valid t x ∧ t ≠ Γ.unitTy
  | .resize _ t _ x => CopyTy Γ t ∧ S.valid t x
  | .fill _ t x => S.valid t x
  | .copyFromSlice _ t xs => ∀ x ∈ xs, S.valid t x
  | .rotateLeft _ n => Fits Γ cfg n
  | .rotateRight _ n => Fits Γ cfg n
  | .swap _ i j => Fits Γ cfg i ∧ Fits Γ cfg j
  | .setAs _ t _ x => S.valid t x
  | .setValue _ _ t x => cfg.debug = true ∧ S.valid t x
  | .mapAll _ f => ∀ t b, S.valid t b → S.valid t (f b)
  | .get _ _ => cfg.debug = true
  | _ => True

/-- The same for all operations; in addition no view that ends inside an element is rotated. -/
def POp.Safe (Γ : TyEnv U) (S : Values Γ) (cfg : Cfg) : POp → Prop
  | .op o => o.Safe Γ S cfg
  | .withSize _ t _ x => CopyTy Γ t ∧ S.valid t x
  | .withTypeFrom _ _ => True
  | .extend _ _ xs => ∀ x ∈ xs, S.valid x.1 x.2
  | .collect _ _ xs => ∀ x ∈ xs, S.valid x.1 x.2
  | .view _ p => p.Ok Γ S cfg ∧ p.Whole false

/-- The postcondition of an operation. -/
theorem Op.exec_runs (o : Op) (ho : o.Safe Γ S cfg) (I : SOk Γ S (sl, w)) :
    Runs (o.exec Γ cfg vt) (sl, w) (fun r s => Seen S (POp.seen sl o r) ∧ SOk Γ S s) (fun s => SOk Γ S s) := by
  have wf : w.heap.WF := I.wf
  have done : ∀ {m : M (Slots V × World U) Obs}, (∀ r, POp.seen sl o r = []) →
      Runs m (sl, w) (fun _ s => SOk Γ S s) (fun s => SOk Γ S s) →
      Runs m (sl, w) (fun r s => Seen S (POp.seen sl o r) ∧ SOk Γ S s) (fun s => SOk Γ S s) := by
    intro m hn hr
    refine hr.mono ?_ fun _ h => h
    intro r s h
    rw [hn r]
    exact ⟨Seen.nil, h⟩
  cases o with
  | withType k t => exact done (fun _ => rfl) ((create_runs I k (VecCopy.withType_runs ho wf)).mono (fun _ _ h => h.2) fun _ h => h)
  | withCapacity k t n => exact done (fun _ => rfl) ((create_runs I k (VecCopy.withCapacity_runs ho wf n)).mono (fun _ _ h => h.2) fun _ h => h)
  | fromSlice k t xs => exact done (fun _ => rfl) ((create_runs I k (VecCopy.fromSlice_runs ho.1 wf ho.2)).mono (fun _ _ h => h.2) fun _ h => h)
  | drop k =>
    refine done (fun _ => rfl) (takeSlot_runs I k I ?_)
    intro c I' g
    refine Runs.bind (R := fun _ s => SOk Γ S s) (Runs.onWorld ((VecVoid.drop_runs g wf).mono ?_ fun _ h => h.elim)) fun _ _ h => h
    rintro _ w' ⟨m, _⟩
    exact I'.moved m
  | clone k j =>
    refine done (fun _ => rfl) ?_
    cases hk : sl k with
    | none => exact Runs.of_ok (a := .absent) (s' := (sl, w)) (by simp [Op.exec, hk]) I
    | some c =>
      have hc : Runs (VecCopy.clone cfg c) w (fun c' w' => New Γ S w c'.data w') (Kept w) :=
        Runs.bind (VecVoid.clone_runs (I.good k c hk) wf) fun _ _ h => h
      have := (create_runs (cfg := cfg) (b := Obs.done) I j hc).mono (E' := fun s => SOk Γ S s) (fun _ _ h => h.2) fun _ h => h
      unfold Runs at this ⊢
      simpa [Op.exec, hk] using this
  | append k j => exact done (fun _ => rfl) (append_slots_runs I k j)
  | roundTrip k t =>
    refine done (fun _ => rfl) (takeSlot_runs I k I ?_)
    intro c I' g
    refine Runs.bind (R := fun r s => s.1 = Slots.put sl k none ∧ match r with
      | none => SOk Γ S s
      | some v => s.2 = w ∧ (v.ptr = c.data.ptr) ∧ (Γ.size t = 0 ∨ VGood (Γ.layout t) w.heap v) ∧
          ∃ es : List Bytes, (0 < Γ.size t → v.bytes = es.flatten) ∧ ∀ e ∈ es, S.valid t e) ?_ ?_
    · refine Runs.onWorld ((intoVec_runs g wf t).mono ?_ fun _ h => h.elim)
      intro r w' h
      cases r with
      | none => exact ⟨rfl, I'.moved h⟩
      | some v => exact ⟨rfl, h⟩
    · rintro r ⟨sl', w'⟩ ⟨rfl, h⟩
      cases r with
      | none => exact h
      | some v =>
        obtain ⟨hw, hp, hg, es, hb, hv⟩ := h
        simp only at hw
        rw [hw]
        refine Runs.bind (R := fun c' s => SInv Γ S s.1 c'.data.ptr s.2.heap ∧ Good Γ S s.2.heap c'.data) ?_ ?_
        · refine Runs.onWorld ((VecCopy.fromVec_runs ho hg wf hb hv).mono ?_ ?_)
          · rintro c' w1 ⟨m, _, g'⟩
            rw [hp] at m
            exact ⟨I'.moved m, g'⟩
          · rintro w1 ⟨m, _⟩
            rw [hp] at m
            exact I'.moved m
        · rintro c' ⟨sl1, w1⟩ ⟨I1, g1⟩
          exact Runs.bind (R := fun _ s => SOk Γ S s) ((assign_runs I1 g1 k).mono (fun _ _ h => h) fun _ h => h.elim) fun _ _ h => h
  | pushAs k t x => exact done (fun _ => rfl) (onSlot_keeps I k fun c g => ret_runs (VecCopy.pushAs_runs g wf ho.1 ho.2))
  | push k t x =>
    exact done (fun _ => rfl) (onSlot_keeps I k fun c g => ret_runs ((VecCopy.push_runs g wf ho.1 ho.2).mono (fun _ _ h => h.1) fun _ h => h))
  | resize k t n x => exact done (fun _ => rfl) (onSlot_keeps I k fun c g => ret_runs (VecCopy.resize_runs g wf ho.1 ho.2 n))
  | reserve k n =>
    exact done (fun _ => rfl) (onSlot_keeps I k fun c g => seq_runs ((VecCopy.reserve_runs g wf n).mono (fun _ _ h => h.1) fun _ h => h))
  | clear k => exact done (fun _ => rfl) (onSlot_keeps I k fun c g => seq_runs (VecCopy.clear_runs g wf))
  | fill k t x => exact done (fun _ => rfl) (onSlot_keeps I k fun c g => ret_runs (VecCopy.fill_runs g wf ho))
  | copyFromSlice k t xs => exact done (fun _ => rfl) (onSlot_keeps I k fun c g => ret_runs (VecCopy.copyFromSlice_runs g wf ho))
  | rotateLeft k n => exact done (fun _ => rfl) (onSlot_keeps I k fun c g => seq_runs (VecCopy.rotateLeft_runs g wf ho))
  | rotateRight k n => exact done (fun _ => rfl) (onSlot_keeps I k fun c g => seq_runs (VecCopy.rotateRight_runs g wf ho))
  | swap k i j => exact done (fun _ => rfl) (onSlot_keeps I k fun c g => seq_runs (VecCopy.swap_runs g wf ho.1 ho.2))
  | setAs k t i x => exact done (fun _ => rfl) (onSlot_keeps I k fun c g => ret_runs (VecCopy.setAs_runs g wf ho))
  | setValue k i t x => exact done (fun _ => rfl) (onSlot_keeps I k fun c g => ret_runs (VecCopy.setValue_runs g wf ho.1 ho.2))
  | mapAll k f => exact done (fun _ => rfl) (onSlot_keeps I k fun c g => seq_runs (VecCopy.mapAll_runs g wf ho))
  | len k => exact done (fun _ => rfl) (onSlot_keeps I k fun c g => Runs.of_ok rfl (CStep.refl g wf))
  | typeId k => exact done (fun _ => rfl) (onSlot_keeps I k fun c g => Runs.of_ok rfl (CStep.refl g wf))
  | getAs k t i =>
    refine (onSlot_runs (P := fun _ r => ∀ b, r = .elem b → S.valid t b) I k ?_).mono ?_ fun _ h => h
    · intro c hk g
      refine Runs.bind_ok (b := c) (s' := (c, w)) rfl ?_
      refine Runs.bind ((VecCopy.getAs_runs g t i (c, w)).mono (fun _ _ h => h) fun s h => by rw [h]; exact CStep.refl g wf) ?_
      rintro r s ⟨hs, hr⟩
      rw [hs]
      cases r with
      | none => exact ⟨(fun b h => by cases h), CStep.refl g wf⟩
      | some b => exact ⟨(fun b' h => by cases h; exact hr b rfl), CStep.refl g wf⟩
    · rintro r s ⟨h | ⟨c, _, h⟩, hi⟩
      · rw [h]; exact ⟨Seen.nil, hi⟩
      · refine ⟨?_, hi⟩
        cases r <;> try exact Seen.nil
        intro x hx
        rw [List.mem_singleton.1 hx]
        exact h _ rfl
  | get k i =>
    refine (onSlot_runs (P := fun _ r => ∀ t b, r = .value t b → S.valid t b) I k ?_).mono ?_ fun _ h => h
    · intro c hk g
      refine Runs.bind_ok (b := c) (s' := (c, w)) rfl ?_
      refine Runs.bind ((VecCopy.getRef_runs g ho i (c, w)).mono (fun _ _ h => h) fun s h => by rw [h]; exact CStep.refl g wf) ?_
      rintro r s ⟨hs, hr⟩
      rw [hs]
      exact ⟨(fun t b h => by cases h; exact hr), CStep.refl g wf⟩
    · rintro r s ⟨h | ⟨c, _, h⟩, hi⟩
      · rw [h]; exact ⟨Seen.nil, hi⟩
      · refine ⟨?_, hi⟩
        cases r <;> try exact Seen.nil
        intro x hx
        rw [List.mem_singleton.1 hx]
        exact h _ _ rfl
  | asSlice k t =>
    refine (onSlot_runs (P := fun _ r => ∀ bs, r = .elems bs → ∀ b ∈ bs, S.valid t b) I k ?_).mono ?_ fun _ h => h
    · intro c hk g
      refine Runs.bind_ok (b := c) (s' := (c, w)) rfl ?_
      refine Runs.bind ((VecCopy.asSliceAs_runs g t (c, w)).mono (fun _ _ h => h) fun s h => by rw [h]; exact CStep.refl g wf) ?_
      rintro r s ⟨hs, hr⟩
      rw [hs]
      cases r with
      | none => exact ⟨(fun b h => by cases h), CStep.refl g wf⟩
      | some b => exact ⟨(fun b' h => by cases h; exact hr b rfl), CStep.refl g wf⟩
    · rintro r s ⟨h | ⟨c, _, h⟩, hi⟩
      · rw [h]; exact ⟨Seen.nil, hi⟩
      · refine ⟨?_, hi⟩
        cases r <;> try exact Seen.nil
        intro x hx
        obtain ⟨b, hb, rfl⟩ := List.mem_map.1 hx
        exact h _ rfl b hb
  | iter k =>
    refine (onSlot_runs (P := fun c r => ∀ bs, r = .elems bs → ∀ b ∈ bs, S.valid c.elementTypeId b) I k ?_).mono ?_ fun _ h => h
    · intro c hk g
      refine Runs.bind_ok (b := c) (s' := (c, w)) rfl ?_
      refine Runs.bind ((VecCopy.iter_runs g (c, w)).mono (fun _ _ h => h) fun s h => by rw [h]; exact CStep.refl g wf) ?_
      rintro r s ⟨hs, hr⟩
      rw [hs]
      refine ⟨?_, CStep.refl g wf⟩
      intro bs h b hb
      cases h
      obtain ⟨v, hv, rfl⟩ := List.mem_map.1 hb
      exact (hr v hv).2
    · rintro r s ⟨h | ⟨c, hc, h⟩, hi⟩
      · rw [h]; exact ⟨Seen.nil, hi⟩
      · refine ⟨?_, hi⟩
        cases r <;> try exact Seen.nil
        intro x hx
        simp only [POp.seen, hc] at hx
        obtain ⟨b, hb, rfl⟩ := List.mem_map.1 hx
        exact h _ rfl b hb

theorem POp.exec_runs (o : POp) (ho : o.Safe Γ S cfg) (I : SOk Γ S (sl, w)) :
    Runs (o.exec Γ cfg vt) (sl, w) (fun rs s => Seen S rs ∧ SOk Γ S s) (fun s => SOk Γ S s) := by
  have wf : w.heap.WF := I.wf
  cases o with
  | op o =>
    refine Runs.bind_ok (b := (sl, w)) (s' := (sl, w)) rfl ?_
    exact Runs.bind (o.exec_runs ho I) fun _ _ h => h
  | withSize k t n x =>
    exact (create_runs I k (VecCopy.withSize_runs ho.1 wf n ho.2)).mono (fun _ _ h => ⟨by rw [h.1]; exact Seen.nil, h.2⟩) fun _ h => h
  | withTypeFrom k j =>
    cases hj : sl j with
    | none => exact Runs.of_ok (a := []) (s' := (sl, w)) (by simp [POp.exec, hj]) ⟨Seen.nil, I⟩
    | some b =>
      obtain ⟨t, ht⟩ := (I.good j b hj).elem
      have hc : Runs (VecCopy.withTypeFrom b.toMeta) w (fun c' w' => New Γ S w c'.data w') (Kept w) :=
        (VecCopy.withTypeFrom_runs (t := t) ht wf).mono (fun _ _ h => h.1) fun _ h => h
      have := (create_runs (cfg := cfg) (b := ([] : List Read)) I k hc).mono (Q' := fun rs s => Seen S rs ∧ SOk Γ S s)
        (E' := fun s => SOk Γ S s) (fun _ _ h => ⟨by rw [h.1]; exact Seen.nil, h.2⟩) fun _ h => h
      unfold Runs at this ⊢
      simpa [POp.exec, hj] using this
  | extend k hint xs =>
    exact Runs.bind (onSlot_keeps I k fun c g => seq_runs (VecCopy.extend_runs g wf ho hint)) fun _ _ h => ⟨Seen.nil, h⟩
  | collect k hint xs =>
    exact (create_runs I k (VecCopy.fromIter_runs wf ho hint)).mono (fun _ _ h => ⟨by rw [h.1]; exact Seen.nil, h.2⟩) fun _ h => h
  | view k p =>
    cases hk : sl k with
    | none => exact Runs.of_ok (a := []) (s' := (sl, w)) (by simp [POp.exec, hk]) ⟨Seen.nil, I⟩
    | some c =>
      rcases (VecCopy.view_runs (I.good k c hk) wf p ho.1 ho.2).cases_on with ⟨a, s', e, hp, st⟩ | ⟨y, s', e, st⟩
      · exact Runs.of_ok (a := a) (s' := (Slots.put sl k (some s'.1), s'.2)) (by simp [POp.exec, hk, e]) ⟨hp, I.step hk st⟩
      · exact Runs.of_panic (y := y) (s' := (Slots.put sl k (some s'.1), s'.2)) (by simp [POp.exec, hk, e]) (I.step hk st)

theorem runAll_runs (ops : List POp) : ∀ (sl : Slots V) (w : World U), (∀ o ∈ ops, o.Safe Γ S cfg) → SOk Γ S (sl, w) →
    Runs (runAll Γ cfg vt ops) (sl, w) (fun out s => out.length = ops.length ∧ (∀ rs, some rs ∈ out → Seen S rs) ∧ SOk Γ S s)
      (fun _ => False) := by
  induction ops with
  | nil => intro sl w _ I; exact ⟨rfl, (fun _ h => by cases h), I⟩
  | cons o ops ih =>
    intro sl w ho I
    unfold runAll
    refine Runs.bind (R := fun r s => (∀ rs, r = some rs → Seen S rs) ∧ SOk Γ S s) ?_ ?_
    · rcases (o.exec_runs (vt := vt) (ho o (by simp)) I).cases_on with ⟨a, s', e, hp, I'⟩ | ⟨y, s', e, I'⟩
      · refine Runs.of_ok (a := some a) (s' := s') (by simp [e]) ⟨?_, I'⟩
        intro rs h
        cases h
        exact hp
      · exact Runs.of_ok (a := none) (s' := s') (by simp [e]) ⟨(fun rs h => by cases h), I'⟩
    · rintro r ⟨sl', w'⟩ ⟨hr, I'⟩
      refine Runs.bind (ih sl' w' (fun o h => ho o (by simp [h])) I') ?_
      rintro out s ⟨h1, h2, h3⟩
      refine ⟨by simp [h1], ?_, h3⟩
      intro rs hm
      rcases List.mem_cons.1 hm with h | h
      · exact hr rs h.symm
      · exact h2 rs h

end Dync
