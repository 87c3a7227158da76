import Verif.SafetyLemmas
/-!
# Helper lemmas: rotation, `append`, `clone`, `drop` without size restrictions
-/
namespace Dync
variable {U V α : Type} {Γ : TyEnv V} {S : Values Γ} {t : TyId} {es : List Bytes} {v : VecVoid} {w : World U} {cfg : Cfg}

theorem Good.elem {h : Heap} (g : Good Γ S h v) : ∃ t, v.elem = ElemInfo.new Γ t := by
  rcases g with ⟨t, es, R, _⟩ | u
  · exact ⟨t, R.elem_eq⟩
  · exact ⟨_, u.elem⟩

theorem Good.ptr_lt {h : Heap} (g : Good Γ S h v) (wf : h.WF) : ∀ i, v.ptr = some i → i < h.next := by
  intro i hi
  rcases g with ⟨t, es, R, _⟩ | u
  · exact R.ptr_lt wf i hi
  · rw [u.ptr] at hi; cases hi

theorem Good.frame {h h' : Heap} (g : Good Γ S h v) (hf : ∀ i, v.ptr = some i → h'.live i = h.live i) : Good Γ S h' v := by
  rcases g with ⟨t, es, R, hv⟩ | u
  · exact .inl ⟨t, es, R.frame hf, hv⟩
  · exact .inr u

theorem rotate_common (g : Good Γ S w.heap v) (wf : w.heap.WF) {F : Layout → M (RVec × World U) Unit}
    (hf : ∀ t, v.elem = ElemInfo.new Γ t → VGood ⟨Γ.align t, Γ.align t⟩ w.heap v.chunkView →
      Runs (F ⟨Γ.align t, Γ.align t⟩) (v.chunkView, w)
        (fun _ s => VGood ⟨Γ.align t, Γ.align t⟩ s.2.heap s.1 ∧ Moved w.heap v.ptr s.2.heap s.1.ptr ∧ s.2.user = w.user ∧
          ((∃ es, Repr Γ w.heap t es v ∧ ∀ e ∈ es, S.valid t e) → ∀ n, s.1.len = n * v.elem.size →
            ∃ es' : List Bytes, s.1.bytes = es'.flatten ∧ ∀ x ∈ es', S.valid t x))
        (fun s => s = (v.chunkView, w))) :
    Runs (evalAlignLimited v.elem.alignment fun T => VecVoid.applyAligned Γ cfg T (F T)) (v, w)
      (fun _ s => Step Γ S (v, w) s) (fun s => Step Γ S (v, w) s) := by
  obtain ⟨t, ht⟩ := g.elem
  have ha : v.elem.alignment = Γ.align t := by rw [ht]; rfl
  by_cases hl : Γ.align t ≤ 8192
  · have h1 := applyAligned_step (cfg := cfg) g wf hf
    rw [ha, evalAlign_align] at h1
    rw [ha, evalAlignLimited_align Γ t _ hl]
    exact h1.mono (fun _ _ h => h.1) fun _ h => h
  · rw [ha, evalAlignLimited_large Γ t _ (by omega)]
    exact Step.refl g wf

theorem rotate_bytes {T : Layout} {h : Heap} {r : RVec} (G : VGood T h r) (k : Nat) :
    VGood T h { r with bytes := r.bytes.drop k ++ r.bytes.take k } :=
  ⟨by rw [← G.bytes, List.length_append, List.length_drop, List.length_take]; omega, G.len_le, G.room, G.block⟩

theorem Repr.rotated {h : Heap} (R : Repr Γ h t es v) (hv : ∀ e ∈ es, S.valid t e) (n : Nat) :
    ∃ es' : List Bytes, v.mem.drop (n * v.elem.size * Γ.align t) ++ v.mem.take (n * v.elem.size * Γ.align t) = es'.flatten ∧
      ∀ x ∈ es', S.valid t x := by
  refine ⟨es.drop n ++ es.take n, ?_, ?_⟩
  · rw [Nat.mul_assoc, R.chunks, R.mem, take_flatten R.each, drop_flatten R.each, List.flatten_append]
  · intro x hx
    rcases List.mem_append.1 hx with h | h
    · exact hv x (List.mem_of_mem_drop h)
    · exact hv x (List.mem_of_mem_take h)

theorem VecVoid.rotateLeft_runs (g : Good Γ S w.heap v) (wf : w.heap.WF) {n : Nat} (hn : NoWrap cfg (n * v.elem.size)) :
    Runs (VecVoid.rotateLeft Γ cfg n) (v, w) (fun _ s => Step Γ S (v, w) s) (fun s => Step Γ S (v, w) s) := by
  unfold VecVoid.rotateLeft
  refine Runs.bind_ok (b := v) (s' := (v, w)) rfl ?_
  refine rotate_common g wf fun t _ G => ?_
  refine Runs.bind (R := fun k s => s = (v.chunkView, w) ∧ k = n * v.elem.size)
    (Runs.umul_nowrap hn (fun _ => ⟨rfl, rfl⟩) rfl) ?_
  rintro k _ ⟨rfl, rfl⟩
  unfold RVec.rotateLeft
  refine Runs.bind_ok rfl ?_
  simp only
  split
  · refine ⟨rotate_bytes G _, Moved.refl wf _, rfl, ?_⟩
    rintro ⟨es, R, hv⟩ _ _
    exact R.rotated hv n
  · exact rfl

theorem VecVoid.rotateRight_runs (g : Good Γ S w.heap v) (wf : w.heap.WF) {n : Nat} (hn : NoWrap cfg (n * v.elem.size)) :
    Runs (VecVoid.rotateRight Γ cfg n) (v, w) (fun _ s => Step Γ S (v, w) s) (fun s => Step Γ S (v, w) s) := by
  unfold VecVoid.rotateRight
  refine Runs.bind_ok (b := v) (s' := (v, w)) rfl ?_
  refine rotate_common g wf fun t _ G => ?_
  refine Runs.bind (R := fun k s => s = (v.chunkView, w) ∧ k = n * v.elem.size)
    (Runs.umul_nowrap hn (fun _ => ⟨rfl, rfl⟩) rfl) ?_
  rintro k _ ⟨rfl, rfl⟩
  unfold RVec.rotateRight
  refine Runs.bind_ok rfl ?_
  simp only
  split
  · refine ⟨rotate_bytes G _, Moved.refl wf _, rfl, ?_⟩
    rintro ⟨es, R, hv⟩ _ _
    have : v.chunkView.len - n * v.elem.size = (v.len - n) * v.elem.size := by
      simp only [VecVoid.chunkView, Nat.sub_mul]
    simp only [this]
    exact R.rotated hv (v.len - n)
  · exact rfl

/-! ### `append` -/

/-- Two owners at once. -/
structure Moved2 (h : Heap) (p q : Ptr) (h' : Heap) (p' q' : Ptr) : Prop where
  wf : h'.WF
  next_le : h.next ≤ h'.next
  other : ∀ j, j < h.next → some j ≠ p → some j ≠ q → h'.live j = h.live j
  ptr : ∀ i, p' = some i → p = some i ∨ h.next ≤ i
  ptr2 : ∀ i, q' = some i → q = some i ∨ h.next ≤ i
  dist : ∀ i, p' = some i → q' ≠ some i

theorem Moved2.drop {h h' : Heap} {p q p' q' : Ptr} (m : Moved2 h p q h' p' q') : Moved2 h p q h' none q' :=
  ⟨m.wf, m.next_le, m.other, (fun _ h => by cases h), m.ptr2, (fun _ h => by cases h)⟩

theorem Moved2.ofLeft {h h' : Heap} {p q p' : Ptr} (m : Moved h p h' p') (hq : ∀ i, q = some i → i < h.next)
    (hd : ∀ i, p = some i → q ≠ some i) : Moved2 h p q h' p' q := by
  refine ⟨m.wf, m.next_le, fun j hj h1 _ => m.other j hj h1, m.ptr, fun _ h => .inl h, ?_⟩
  intro i hi hq'
  rcases m.ptr i hi with h1 | h1
  · exact hd i h1 hq'
  · exact absurd (hq i hq') (by omega)

/-- What `append` may do. -/
def AppendPost (Γ : TyEnv V) (S : Values Γ) (v : VecVoid) (w : World (VecVoid × U)) (s : VecVoid × World (VecVoid × U)) : Prop :=
  Moved2 w.heap v.ptr w.user.1.ptr s.2.heap s.1.ptr s.2.user.1.ptr ∧ Good Γ S s.2.heap s.1 ∧
    Good Γ S s.2.heap s.2.user.1 ∧ s.2.user.2 = w.user.2

theorem VecVoid.append_runs {w : World (VecVoid × U)} (g : Good Γ S w.heap v) (g' : Good Γ S w.heap w.user.1) (wf : w.heap.WF)
    (hd : ∀ i, v.ptr = some i → w.user.1.ptr ≠ some i) :
    Runs (VecVoid.append Γ cfg) (v, w) (fun _ s => AppendPost Γ S v w s) (fun s => AppendPost Γ S v w s) := by
  have hrefl : AppendPost Γ S v w (v, w) := ⟨Moved2.ofLeft (Moved.refl wf _) (g'.ptr_lt wf) hd, g, g', rfl⟩
  unfold VecVoid.append
  refine Runs.bind_ok (b := v) (s' := (v, w)) rfl ?_
  refine Runs.bind_ok (b := (v, w)) (s' := (v, w)) rfl ?_
  refine Runs.bind (R := fun _ s => s = (v, w) ∧ v.elem.type_id = w.user.1.elem.type_id)
    (Runs.assert (fun e => ⟨rfl, by simpa using e⟩) fun _ => hrefl) ?_
  rintro _ _ ⟨rfl, hty⟩
  refine Runs.bind (R := fun _ s => s = (v, w)) (Runs.debugAssert (fun _ => rfl) fun _ _ => hrefl) ?_
  rintro _ _ rfl
  refine Runs.bind (R := fun _ s => s = (v, w)) (Runs.debugAssert (fun _ => rfl) fun _ _ => hrefl) ?_
  rintro _ _ rfl
  obtain ⟨h, o, u⟩ := w
  simp only at g g' wf hd hty hrefl
  rcases g with ⟨t, es, R, hv⟩ | ug
  · rcases g' with ⟨t', es', R', hv'⟩ | ug'
    · have : t' = t := by rw [← R.type_id, ← R'.type_id, hty]
      subst this
      have hsz : o.elem.size = v.elem.size := by rw [R.elem_eq, R'.elem_eq]
      rw [R.align, evalAlign_align]
      have ha := align_pos Γ t'
      have ovg := R'.chunkGood
      have vvg := R.chunkGood
      refine (applyAligned_runs (S := S)
        (Q := fun _ p w' => Moved2 h v.ptr o.ptr w'.heap p w'.user.1.ptr ∧ Good Γ S w'.heap w'.user.1 ∧ w'.user.2 = u)
        (E := fun w' => Moved2 h v.ptr o.ptr w'.heap none w'.user.1.ptr ∧ Good Γ S w'.heap w'.user.1 ∧ w'.user.2 = u) R ?_).mono ?_ ?_
      · -- the inner call, on the other vector
        refine Runs.zoom ?_
        simp only
        refine (applyAligned_runs (S := S) (w := (⟨h, (v.chunkView, u)⟩ : World (RVec × U)))
          (Q := fun _ p w' => p = o.ptr ∧ w'.user.2 = u ∧ VGood ⟨Γ.align t', Γ.align t'⟩ w'.heap w'.user.1 ∧
            Moved h v.ptr w'.heap w'.user.1.ptr ∧
            ∀ n, w'.user.1.len = n * v.elem.size → ∃ es' : List Bytes, w'.user.1.bytes = es'.flatten ∧ ∀ x ∈ es', S.valid t' x)
          (E := fun w' => w'.user = (v.chunkView, u) ∧ Moved h o.ptr w'.heap none) R' ?_).mono ?_ ?_
        · refine Runs.zoom ?_
          simp only
          refine Runs.bind_ok rfl ?_
          simp only
          refine Runs.bind (R := fun src s => src = { o.chunkView with len := 0, bytes := [] } ∧
              VGood ⟨Γ.align t', Γ.align t'⟩ s.2.heap s.1 ∧
              Moved h v.ptr s.2.heap s.1.ptr ∧ s.1.bytes = v.mem ++ o.mem ∧ s.2.user = (o.chunkView, u)) ?_ ?_
          · unfold RVec.append
            refine Runs.bind ((RVec.reserve_runs ha vvg wf o.chunkView.len).mono (fun _ _ h => h) fun s hs => ?_) ?_
            · subst hs
              have := RVec.dropBuf_runs (U := RVec × U) (w := ⟨h, (v.chunkView, u)⟩) ha ovg wf
              exact this.mono (fun _ w' hw => ⟨hw.2, hw.1⟩) fun _ h => h
            · rintro _ s ⟨h1, h2, h3, h4, h5, h6⟩
              refine ⟨rfl, h1.set (by rw [h3]; exact h5) ?_, h2, by simp only [h4]; rfl, h6⟩
              rw [List.length_append, h1.bytes, ovg.bytes, Nat.add_mul]
          · rintro src s ⟨rfl, h1, h2, h3, h4⟩
            refine ⟨?_, fun n hn => ⟨[], rfl, by simp⟩, rfl, by simp only [h4], h1, h2, ?_⟩
            · refine VGood.frame (h := h) (ovg.set (Nat.zero_le _) (by simp)) ?_
              intro i hi
              refine h2.other i (R'.ptr_lt wf i hi) ?_
              intro hv; exact hd i hv.symm hi
            · intro n hn
              refine ⟨es ++ es', by rw [h3, R.mem, R'.mem, List.flatten_append], ?_⟩
              intro x hx
              rcases List.mem_append.1 hx with hx | hx
              · exact hv x hx
              · exact hv' x hx
        · rintro _ ⟨o', w'⟩ ⟨h1, h2, h3, h4, h5, h6⟩
          refine ⟨h4, h6, ?_, .inl ⟨t', h1⟩, h3⟩
          simp only
          rw [h2]
          exact Moved2.ofLeft h5 (R'.ptr_lt wf) hd
        · rintro ⟨o', w'⟩ ⟨rfl, ⟨h1, h2⟩ | ⟨_, p, h1, h2, h3, h4, h5⟩⟩
          · simp only
            rw [h1]
            have hvg : VGood ⟨Γ.align t', Γ.align t'⟩ w'.heap v.chunkView := by
              refine vvg.frame ?_
              intro i hi
              exact h2.other i (R.ptr_lt wf i hi) (fun hx => hd i hi hx.symm)
            have := RVec.dropBuf_runs (U := VecVoid × U) (w := ⟨w'.heap, (VecVoid.default Γ, u)⟩) ha hvg h2.wf
            refine this.mono ?_ fun _ h => h
            rintro _ w2 ⟨m, hu⟩
            refine ⟨?_, by rw [hu]; exact .inr (UGood.default Γ), by rw [hu]⟩
            rw [hu]
            refine ⟨m.wf, Nat.le_trans h2.next_le m.next_le, ?_, (fun _ h => by cases h), (fun _ h => by cases h),
              (fun _ h => by cases h)⟩
            intro j hj hp hq
            rw [m.other j (Nat.lt_of_lt_of_le hj h2.next_le) hp, h2.other j hj hq]
          · simp only
            have := RVec.dropBuf_runs (U := VecVoid × U) (w := ⟨w'.heap, (VecVoid.default Γ, w'.user.2)⟩) ha h3 h4.wf
            refine this.mono ?_ fun _ h => h
            rintro _ w2 ⟨m, hu⟩
            refine ⟨?_, by rw [hu]; exact .inr (UGood.default Γ), by rw [hu]; exact h2⟩
            rw [hu]
            have mm := h4.trans m
            exact ⟨mm.wf, mm.next_le, fun j hj hp _ => mm.other j hj hp, (fun _ h => by cases h), (fun _ h => by cases h),
              (fun _ h => by cases h)⟩
      · rintro _ s ⟨h1, h2, h3, h4⟩
        exact ⟨h2, .inl ⟨t', h1⟩, h3, h4⟩
      · rintro ⟨v', w'⟩ ⟨rfl, ⟨h2, h3, h4⟩ | ⟨_, p, h2, h3, h4⟩⟩
        · exact ⟨h2, .inr (UGood.default Γ), h3, h4⟩
        · exact ⟨h2.drop, .inr (UGood.default Γ), h3, h4⟩
    · exfalso
      rw [R.type_id, ug'.elem] at hty
      have := R.pos
      rw [hty] at this
      simp [ElemInfo.new, Γ.unit_size] at this
  · have ug' : UGood Γ o := by
      rcases g' with ⟨t', es', R', hv'⟩ | ug'
      · exfalso
        rw [R'.type_id, ug.elem] at hty
        have := R'.pos
        rw [← hty] at this
        simp [ElemInfo.new, Γ.unit_size] at this
      · exact ug'
    rw [ug.elem]
    simp only [ElemInfo.new, evalAlign_align]
    have h1 : Γ.align Γ.unitTy ≤ 1 := by rw [Γ.unit_align]; exact Nat.le_refl _
    have vg := fun h => ug.chunkGood h ⟨Γ.align Γ.unitTy, Γ.align Γ.unitTy⟩ h1
    have og := fun h => ug'.chunkGood h ⟨Γ.align Γ.unitTy, Γ.align Γ.unitTy⟩ h1
    have ha := align_pos Γ Γ.unitTy
    refine (UGood.applyAligned (E := fun w' => w'.user = (VecVoid.default Γ, u) ∧ Moved h v.ptr w'.heap none) ug ?_).mono
      (fun _ _ h => h.elim) ?_
    · refine Runs.zoom ?_
      simp only
      refine (UGood.applyAligned (w := (⟨h, (v.chunkView, u)⟩ : World (RVec × U)))
        (E := fun w' => w'.user.2 = u ∧ VGood ⟨Γ.align Γ.unitTy, Γ.align Γ.unitTy⟩ w'.heap w'.user.1 ∧
            Moved h v.ptr w'.heap w'.user.1.ptr) ug' ?_).mono (fun _ _ h => h.elim) ?_
      · refine Runs.zoom ?_
        simp only
        refine Runs.bind_ok rfl ?_
        simp only
        refine Runs.bind (R := fun src s => VGood ⟨Γ.align Γ.unitTy, Γ.align Γ.unitTy⟩ s.2.heap s.1 ∧
            Moved h v.ptr s.2.heap s.1.ptr ∧ s.2.user = (o.chunkView, u)) ?_ ?_
        · unfold RVec.append
          refine Runs.bind ((RVec.reserve_runs ha (vg h) wf o.chunkView.len).mono (fun _ _ h => h) fun s hs => ?_) ?_
          · subst hs
            have := RVec.dropBuf_runs (U := RVec × U) (w := ⟨h, (v.chunkView, u)⟩) ha (og h) wf
            refine this.mono (fun _ w' hw => ?_) fun _ h => h
            rw [hw.2]
            refine ⟨rfl, vg _, ?_⟩
            have hm := hw.1
            rw [ug'.chunkView] at hm
            refine ⟨hm.wf, hm.next_le, fun j hj _ => hm.other j hj (by simp), fun i hi => .inl hi⟩
          · rintro _ s ⟨h1, h2, h3, h4, h5, h6⟩
            refine ⟨h1.set (by rw [h3]; exact h5) ?_, h2, h6⟩
            rw [List.length_append, h1.bytes, (og h).bytes, Nat.add_mul]
        · rintro src s ⟨h1, h2, h4⟩
          exact ⟨by simp only [h4], h1, h2⟩
      · rintro ⟨o', w'⟩ ⟨rfl, h2, h3, h4⟩
        have := RVec.dropBuf_runs (U := VecVoid × U) (w := ⟨w'.heap, (VecVoid.default Γ, w'.user.2)⟩) ha h3 h4.wf
        refine this.mono ?_ fun _ h => h
        rintro _ w2 ⟨m, hu⟩
        exact ⟨by rw [hu, ← h2], h4.trans m⟩
    · rintro ⟨v', w'⟩ ⟨rfl, h2, h3⟩
      refine ⟨?_, .inr (UGood.default Γ), by rw [h2]; exact .inr (UGood.default Γ), by rw [h2]⟩
      rw [h2]
      exact ⟨h3.wf, h3.next_le, fun j hj hp _ => h3.other j hj hp, (fun _ h => by cases h), (fun _ h => by cases h),
        (fun _ h => by cases h)⟩

end Dync
