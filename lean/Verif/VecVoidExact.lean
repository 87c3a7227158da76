import Verif.SafetyLemmas3
import Verif.NoUb
/-!
# Helper lemmas: what type-erased vectors contain after an operation, panicking or not

A container that was left behind by a failed call (`UGood`) counts as an empty container of its old type.
-/
namespace Dync
variable {U V α : Type} {Γ : TyEnv V} {t : TyId} {es B : List Bytes} {v : VecVoid} {w : World U} {cfg : Cfg}

/-- A container of type `t` with content `es`, or one that was left behind by a failed call. -/
def Cont (Γ : TyEnv V) (h : Heap) (t : TyId) (es : List Bytes) (v : VecVoid) : Prop :=
  Repr Γ h t es v ∨ (UGood Γ v ∧ es = [])

theorem Cont.ptr_lt {h : Heap} (g : Cont Γ h t es v) (wf : h.WF) : ∀ i, v.ptr = some i → i < h.next := by
  intro i hi
  rcases g with R | ⟨u, _⟩
  · exact R.ptr_lt wf i hi
  · rw [u.ptr] at hi; cases hi

theorem Cont.frame {h h' : Heap} (g : Cont Γ h t es v) (hf : ∀ i, v.ptr = some i → h'.live i = h.live i) : Cont Γ h' t es v := by
  rcases g with R | u
  · exact .inl (R.frame hf)
  · exact .inr u

theorem Cont.lost (h : Heap) (t : TyId) : Cont Γ h t [] (VecVoid.default Γ) := .inr ⟨UGood.default Γ, rfl⟩

/-- A method of a container: it owns its block before and after and holds nothing but elements of `B`. -/
def XStep (Γ : TyEnv V) (t : TyId) (B : List Bytes) (a b : VecVoid × World U) : Prop :=
  Moved a.2.heap a.1.ptr b.2.heap b.1.ptr ∧ b.2.user = a.2.user ∧ ∃ es', Cont Γ b.2.heap t es' b.1 ∧ Within es' B

theorem XStep.refl (g : Cont Γ w.heap t es v) (wf : w.heap.WF) (hB : Within es B) : XStep Γ t B (v, w) (v, w) :=
  ⟨Moved.refl wf _, rfl, es, g, hB⟩

theorem XStep.lost {a : VecVoid × World U} {w' : World U} (m : Moved a.2.heap a.1.ptr w'.heap none) (hu : w'.user = a.2.user) :
    XStep Γ t B a (VecVoid.default Γ, w') := ⟨m, hu, [], Cont.lost _ _, Within.nil _⟩

/-- `applyAligned`: `P` speaks about the new content, `Q` about the rest. -/
theorem applyAligned_list (R : Repr Γ w.heap t es v) {f : M (RVec × World U) α} {Q : α → Ptr → World U → Prop}
    {P : α → World U → List Bytes → Prop} {E : World U → Prop}
    (hf : NoUb f (v.chunkView, w) (fun a s => VGood ⟨Γ.align t, Γ.align t⟩ s.2.heap s.1 ∧
        (∀ n, s.1.len = n * v.elem.size → ∃ es' : List Bytes, s.1.bytes = es'.flatten ∧
          (∀ x ∈ es', x.length = Γ.size t) ∧ P a s.2 es') ∧ Q a s.1.ptr s.2)
      (fun s => NoUb (RVec.dropBuf ⟨Γ.align t, Γ.align t⟩ s.1) s.2 (fun _ w' => E w') (fun _ => True))) :
    NoUb (VecVoid.applyAligned Γ cfg ⟨Γ.align t, Γ.align t⟩ f) (v, w)
      (fun a s => (∃ es', Repr Γ s.2.heap t es' s.1 ∧ P a s.2 es') ∧ Q a s.1.ptr s.2)
      (fun s => s.1 = VecVoid.default Γ ∧ (E s.2 ∨ ∃ a p, Q a p s.2)) := by
  unfold VecVoid.applyAligned
  refine NoUb.bind_ok (b := v) (s' := (v, w)) rfl ?_
  refine NoUb.bind_ok (b := ()) (s' := (VecVoid.default Γ, w)) rfl ?_
  refine NoUb.bind_ok (R.alignedVec cfg _) ?_
  refine NoUb.bind (R := fun p s => s.1 = VecVoid.default Γ ∧ VGood ⟨Γ.align t, Γ.align t⟩ s.2.heap p.2 ∧
        (∀ n, p.2.len = n * v.elem.size → ∃ es' : List Bytes, p.2.bytes = es'.flatten ∧
          (∀ x ∈ es', x.length = Γ.size t) ∧ P p.1 s.2 es') ∧ Q p.1 p.2.ptr s.2)
    (NoUb.onWorld (NoUb.withLocal (hf.mono (fun a s h => ⟨rfl, h⟩) fun s h => h.mono (fun _ w' e => ⟨rfl, .inl e⟩)
      fun _ e => e))) ?_
  rintro ⟨a, r⟩ ⟨v0, w1⟩ ⟨h0, h1, h2, h3⟩
  simp only at h0 h1 h2 h3
  refine NoUb.bind ((fromVecOverride_list (P := P a w1) R.pos R.elem_eq h1 h2).noUb.mono (fun v' s h => h) fun s e => ?_) ?_
  · subst e; exact ⟨h0, .inr ⟨a, r.ptr, h3⟩⟩
  · rintro v' s ⟨rfl, h5, h6⟩
    exact ⟨h5, by simp only; rw [h6]; exact h3⟩

/-- `applyAligned` on a container that was left behind. -/
theorem UGood.applyAlignedN (u : UGood Γ v) {f : M (RVec × World U) α} {E : World U → Prop}
    (hf : NoUb f (⟨none, 0, 0, []⟩, w) (fun _ s => E s.2)
      (fun s => NoUb (RVec.dropBuf ⟨Γ.align Γ.unitTy, Γ.align Γ.unitTy⟩ s.1) s.2 (fun _ w' => E w') (fun _ => True))) :
    NoUb (VecVoid.applyAligned Γ cfg ⟨Γ.align Γ.unitTy, Γ.align Γ.unitTy⟩ f) (v, w) (fun _ _ => False)
      (fun s => s.1 = VecVoid.default Γ ∧ E s.2) := by
  have h0 : v.elem.size = 0 := by rw [u.elem]; simp [ElemInfo.new, Γ.unit_size]
  unfold VecVoid.applyAligned
  refine NoUb.bind_ok (b := v) (s' := (v, w)) rfl ?_
  refine NoUb.bind_ok (b := ()) (s' := (VecVoid.default Γ, w)) rfl ?_
  refine NoUb.bind_ok (u.alignedVec _) ?_
  rw [u.chunkView]
  refine NoUb.bind (R := fun p s => s.1 = VecVoid.default Γ ∧ E s.2)
    (NoUb.onWorld (NoUb.withLocal (hf.mono (fun a s h => ⟨rfl, h⟩) fun s h => h.mono (fun _ w' e => ⟨rfl, e⟩)
      fun _ e => e))) ?_
  rintro ⟨a, r⟩ ⟨v0, w1⟩ h1
  refine NoUb.bind (R := fun _ _ => False) ?_ (fun _ _ h => h.elim)
  unfold VecVoid.fromVecOverride
  refine NoUb.bind (R := fun _ s => s = (v0, w1)) (NoUb.assert (fun _ => rfl) fun _ => h1) ?_
  rintro _ s rfl
  refine NoUb.bind (R := fun _ s => s = (v0, w1)) (NoUb.assert (fun _ => rfl) fun _ => h1) ?_
  rintro _ s rfl
  rw [if_pos h0]
  exact h1

/-- A method built from `applyAligned` with a function on chunk vectors that does not touch the user state. -/
theorem applyAligned_x (g : Cont Γ w.heap t es v) (wf : w.heap.WF) {f : Layout → M (RVec × World U) α}
    (hf : ∀ t', v.elem = ElemInfo.new Γ t' → VGood ⟨Γ.align t', Γ.align t'⟩ w.heap v.chunkView →
      Runs (f ⟨Γ.align t', Γ.align t'⟩) (v.chunkView, w)
        (fun _ s => VGood ⟨Γ.align t', Γ.align t'⟩ s.2.heap s.1 ∧ Moved w.heap v.ptr s.2.heap s.1.ptr ∧ s.2.user = w.user ∧
          (Repr Γ w.heap t es v → ∀ n, s.1.len = n * v.elem.size →
            ∃ es' : List Bytes, s.1.bytes = es'.flatten ∧ (∀ x ∈ es', x.length = Γ.size t) ∧ Within es' B))
        (fun s => s = (v.chunkView, w))) :
    NoUb (evalAlign v.elem.alignment fun T => VecVoid.applyAligned Γ cfg T (f T)) (v, w)
      (fun _ s => XStep Γ t B (v, w) s) (fun s => XStep Γ t B (v, w) s) := by
  rcases g with R | ⟨u, _⟩
  · rw [R.elem_eq]
    simp only [ElemInfo.new, evalAlign_align]
    have ha := align_pos Γ t
    refine (applyAligned_list (Q := fun _ p w' => Moved w.heap v.ptr w'.heap p ∧ w'.user = w.user)
      (P := fun _ _ es' => Within es' B)
      (E := fun w' => Moved w.heap v.ptr w'.heap none ∧ w'.user = w.user) R ?_).mono ?_ ?_
    · refine (hf t R.elem_eq R.chunkGood).noUb.mono ?_ ?_
      · rintro a s ⟨h1, h2, h3, h4⟩
        exact ⟨h1, h4 R, h2, h3⟩
      · rintro s rfl
        exact (RVec.dropBuf_runs ha R.chunkGood wf).noUb.mono (fun _ _ h => h) fun _ _ => trivial
    · rintro a s ⟨⟨es', h1, h4⟩, h2, h3⟩
      exact ⟨h2, h3, es', .inl h1, h4⟩
    · rintro ⟨v', w'⟩ ⟨rfl, ⟨h2, h3⟩ | ⟨a, p, h2, h3⟩⟩
      · exact XStep.lost h2 h3
      · exact XStep.lost h2.drop h3
  · rw [u.elem]
    simp only [ElemInfo.new, evalAlign_align]
    have h1 : Γ.align Γ.unitTy ≤ 1 := by rw [Γ.unit_align]; exact Nat.le_refl _
    refine (UGood.applyAlignedN (E := fun w' => Moved w.heap v.ptr w'.heap none ∧ w'.user = w.user) u ?_).mono
      (fun _ _ h => h.elim) ?_
    · rw [← u.chunkView]
      refine (hf _ u.elem (u.chunkGood _ _ h1)).noUb.mono ?_ ?_
      · rintro a s ⟨_, h2, h3, _⟩
        exact ⟨h2.drop, h3⟩
      · rintro s rfl
        have := RVec.dropBuf_runs (U := U) (w := w) (align_pos Γ Γ.unitTy) (u.chunkGood w.heap ⟨Γ.align Γ.unitTy, Γ.align Γ.unitTy⟩ h1) wf
        exact this.noUb.mono (fun _ _ h => h) fun _ _ => trivial
    · rintro ⟨v', w'⟩ ⟨rfl, h2, h3⟩
      exact XStep.lost h2 h3

theorem VecVoid.reserve_x (g : Cont Γ w.heap t es v) (wf : w.heap.WF) (n : Nat) :
    NoUb (VecVoid.reserve Γ cfg n) (v, w) (fun _ s => XStep Γ t es (v, w) s) (fun s => XStep Γ t es (v, w) s) := by
  unfold VecVoid.reserve
  refine NoUb.bind_ok (b := v) (s' := (v, w)) rfl ?_
  refine applyAligned_x g wf fun t' _ G => ?_
  refine Runs.bind (R := fun _ s => s = (v.chunkView, w)) (Runs.umul (fun _ => rfl) (fun _ _ => rfl) rfl) ?_
  rintro m _ rfl
  refine (RVec.reserve_runs (align_pos Γ t') G wf m).mono ?_ fun _ h => h
  rintro _ s ⟨h1, h2, h3, h4, h5, h6⟩
  refine ⟨h1, h2, h6, ?_⟩
  rintro R n hn
  exact ⟨es, by rw [h4]; exact R.mem, R.each, Within.refl _⟩

/-- Pushing the first bytes of a value: if the container survives, its elements have the size of one chunk. -/
theorem VecVoid.push_x (g : Cont Γ w.heap t es v) (wf : w.heap.WF) {x : Bytes} (ht : v.elem.type_id = t)
    (hx : x.length = Γ.size t) (hpos : 0 < Γ.size t) :
    NoUb (VecVoid.push Γ cfg x) (v, w) (fun _ s => XStep Γ t (es ++ [x]) (v, w) s) (fun s => XStep Γ t (es ++ [x]) (v, w) s) := by
  unfold VecVoid.push
  refine NoUb.bind_ok (b := v) (s' := (v, w)) rfl ?_
  refine applyAligned_x (f := fun T => if T.size ≤ x.length then RVec.push T (x.take T.size) else M.ub) g wf
    fun t' he G => ?_
  have : t' = t := by rw [← ht, he]; rfl
  subst this
  have hle : Γ.align t' ≤ x.length := by rw [hx]; exact Nat.le_of_dvd hpos (Γ.align_dvd t')
  rw [if_pos hle]
  refine (RVec.push_runs (align_pos Γ t') G wf (x := x.take (Γ.align t')) ?_).mono ?_ fun _ h => h
  · simp only; rw [List.length_take]; omega
  rintro _ s ⟨h1, h2, h3, h4, h6⟩
  refine ⟨h1, h2, h6, ?_⟩
  rintro R n hn
  rw [h4]
  rw [h3] at hn
  simp only [VecVoid.chunkView] at hn ⊢
  have h1 : v.elem.size = 1 := by
    have : v.elem.size ∣ 1 := by
      have h2 : v.elem.size ∣ v.len * v.elem.size := Nat.dvd_mul_left _ _
      have h3 : v.elem.size ∣ v.len * v.elem.size + 1 := hn ▸ Nat.dvd_mul_left _ _
      exact (Nat.dvd_add_right h2).1 h3
    exact Nat.dvd_one.1 this
  have h2 := R.chunks
  rw [h1, Nat.one_mul] at h2
  refine ⟨es ++ [x], ?_, ?_, Within.refl _⟩
  · rw [h2, List.take_of_length_le (by omega), R.mem]
    simp
  · intro y hy
    rcases List.mem_append.1 hy with h | h
    · exact R.each y h
    · rw [List.mem_singleton.1 h]; exact hx

theorem Cont.elem {h : Heap} (g : Cont Γ h t es v) : ∃ t', v.elem = ElemInfo.new Γ t' := by
  rcases g with R | ⟨u, _⟩
  · exact ⟨t, R.elem_eq⟩
  · exact ⟨_, u.elem⟩

theorem rotate_common_x (g : Cont Γ w.heap t es v) (wf : w.heap.WF) {F : Layout → M (RVec × World U) Unit}
    (hf : ∀ t', v.elem = ElemInfo.new Γ t' → VGood ⟨Γ.align t', Γ.align t'⟩ w.heap v.chunkView →
      Runs (F ⟨Γ.align t', Γ.align t'⟩) (v.chunkView, w)
        (fun _ s => VGood ⟨Γ.align t', Γ.align t'⟩ s.2.heap s.1 ∧ Moved w.heap v.ptr s.2.heap s.1.ptr ∧ s.2.user = w.user ∧
          (Repr Γ w.heap t es v → ∀ n, s.1.len = n * v.elem.size →
            ∃ es' : List Bytes, s.1.bytes = es'.flatten ∧ (∀ x ∈ es', x.length = Γ.size t) ∧ Within es' es))
        (fun s => s = (v.chunkView, w))) :
    NoUb (evalAlignLimited v.elem.alignment fun T => VecVoid.applyAligned Γ cfg T (F T)) (v, w)
      (fun _ s => XStep Γ t es (v, w) s) (fun s => XStep Γ t es (v, w) s) := by
  obtain ⟨t', ht⟩ := g.elem
  have ha : v.elem.alignment = Γ.align t' := by rw [ht]; rfl
  by_cases hl : Γ.align t' ≤ 8192
  · have h1 := applyAligned_x (cfg := cfg) g wf hf
    rw [ha, evalAlign_align] at h1
    rw [ha, evalAlignLimited_align Γ t' _ hl]
    exact h1
  · rw [ha, evalAlignLimited_large Γ t' _ (by omega)]
    exact XStep.refl g wf (Within.refl _)

theorem Repr.rotated_x {h : Heap} (R : Repr Γ h t es v) (n : Nat) :
    ∃ es' : List Bytes, v.mem.drop (n * v.elem.size * Γ.align t) ++ v.mem.take (n * v.elem.size * Γ.align t) = es'.flatten ∧
      (∀ x ∈ es', x.length = Γ.size t) ∧ Within es' es := by
  refine ⟨es.drop n ++ es.take n, ?_, ?_, Within.rotate _ _⟩
  · rw [Nat.mul_assoc, R.chunks, R.mem, take_flatten R.each, drop_flatten R.each, List.flatten_append]
  · intro x hx
    rcases List.mem_append.1 hx with h | h
    · exact R.each x (List.mem_of_mem_drop h)
    · exact R.each x (List.mem_of_mem_take h)

theorem Repr.chunk_align {h : Heap} (R : Repr Γ h t es v) {t' : TyId} (he : v.elem = ElemInfo.new Γ t') : t' = t := by
  rw [← R.type_id, he]; rfl

theorem VecVoid.rotateLeft_x (g : Cont Γ w.heap t es v) (wf : w.heap.WF) {n : Nat} (hn : NoWrap cfg (n * v.elem.size)) :
    NoUb (VecVoid.rotateLeft Γ cfg n) (v, w) (fun _ s => XStep Γ t es (v, w) s) (fun s => XStep Γ t es (v, w) s) := by
  unfold VecVoid.rotateLeft
  refine NoUb.bind_ok (b := v) (s' := (v, w)) rfl ?_
  refine rotate_common_x g wf fun t' he G => ?_
  refine Runs.bind (R := fun k s => s = (v.chunkView, w) ∧ k = n * v.elem.size)
    (Runs.umul_nowrap hn (fun _ => ⟨rfl, rfl⟩) rfl) ?_
  rintro k _ ⟨rfl, rfl⟩
  unfold RVec.rotateLeft
  refine Runs.bind_ok rfl ?_
  simp only
  split
  · refine ⟨rotate_bytes G _, Moved.refl wf _, rfl, ?_⟩
    rintro R _ _
    have := R.chunk_align he
    subst this
    exact R.rotated_x n
  · exact rfl

theorem VecVoid.rotateRight_x (g : Cont Γ w.heap t es v) (wf : w.heap.WF) {n : Nat} (hn : NoWrap cfg (n * v.elem.size)) :
    NoUb (VecVoid.rotateRight Γ cfg n) (v, w) (fun _ s => XStep Γ t es (v, w) s) (fun s => XStep Γ t es (v, w) s) := by
  unfold VecVoid.rotateRight
  refine NoUb.bind_ok (b := v) (s' := (v, w)) rfl ?_
  refine rotate_common_x g wf fun t' he G => ?_
  refine Runs.bind (R := fun k s => s = (v.chunkView, w) ∧ k = n * v.elem.size)
    (Runs.umul_nowrap hn (fun _ => ⟨rfl, rfl⟩) rfl) ?_
  rintro k _ ⟨rfl, rfl⟩
  unfold RVec.rotateRight
  refine Runs.bind_ok rfl ?_
  simp only
  split
  · refine ⟨rotate_bytes G _, Moved.refl wf _, rfl, ?_⟩
    rintro R _ _
    have := R.chunk_align he
    subst this
    have : v.chunkView.len - n * v.elem.size = (v.len - n) * v.elem.size := by
      simp only [VecVoid.chunkView, Nat.sub_mul]
    simp only [this]
    exact R.rotated_x (v.len - n)
  · exact rfl

/-! ### `append` -/

/-- What `append` may do: the two containers afterwards hold nothing but what they held before. -/
def AppendX (Γ : TyEnv V) (t t' : TyId) (B : List Bytes) (v : VecVoid) (w : World (VecVoid × U)) (s : VecVoid × World (VecVoid × U)) : Prop :=
  Moved2 w.heap v.ptr w.user.1.ptr s.2.heap s.1.ptr s.2.user.1.ptr ∧ s.2.user.2 = w.user.2 ∧
    ∃ es1 es2, Cont Γ s.2.heap t es1 s.1 ∧ Cont Γ s.2.heap t' es2 s.2.user.1 ∧ Within (es1 ++ es2) B

theorem VecVoid.append_x {w : World (VecVoid × U)} {t' : TyId} {es' : List Bytes} (g : Cont Γ w.heap t es v)
    (g' : Cont Γ w.heap t' es' w.user.1) (wf : w.heap.WF) (hd : ∀ i, v.ptr = some i → w.user.1.ptr ≠ some i)
    (hty : v.elem.type_id = w.user.1.elem.type_id) :
    NoUb (VecVoid.append Γ cfg) (v, w) (fun _ s => AppendX Γ t t' (es ++ es') v w s) (fun s => AppendX Γ t t' (es ++ es') v w s) := by
  have hrefl : AppendX Γ t t' (es ++ es') v w (v, w) :=
    ⟨Moved2.ofLeft (Moved.refl wf _) (g'.ptr_lt wf) hd, rfl, es, es', g, g', Within.refl _⟩
  unfold VecVoid.append
  refine NoUb.bind_ok (b := v) (s' := (v, w)) rfl ?_
  refine NoUb.bind_ok (b := (v, w)) (s' := (v, w)) rfl ?_
  refine NoUb.bind (R := fun _ s => s = (v, w)) (NoUb.assert (fun e => rfl) fun _ => hrefl) ?_
  rintro _ _ rfl
  refine NoUb.bind (R := fun _ s => s = (v, w)) (NoUb.debugAssert (fun _ => rfl) fun _ _ => hrefl) ?_
  rintro _ _ rfl
  refine NoUb.bind (R := fun _ s => s = (v, w)) (NoUb.debugAssert (fun _ => rfl) fun _ _ => hrefl) ?_
  rintro _ _ rfl
  obtain ⟨h, o, u⟩ := w
  simp only at g g' wf hd hty hrefl
  rcases g with R | ⟨ug, hes⟩
  · rcases g' with R' | ⟨ug', hes'⟩
    · have : t' = t := by rw [← R.type_id, ← R'.type_id, hty]
      subst this
      have hsz : o.elem.size = v.elem.size := by rw [R.elem_eq, R'.elem_eq]
      rw [R.align, evalAlign_align]
      have ha := align_pos Γ t'
      have ovg := R'.chunkGood
      have vvg := R.chunkGood
      refine (applyAligned_list
        (Q := fun _ p w' => Moved2 h v.ptr o.ptr w'.heap p w'.user.1.ptr ∧ w'.user.2 = u ∧
          ∃ es2, Cont Γ w'.heap t' es2 w'.user.1 ∧ Within es2 (es ++ es'))
        (P := fun _ w' es1 => ∃ es2, Cont Γ w'.heap t' es2 w'.user.1 ∧ Within (es1 ++ es2) (es ++ es'))
        (E := fun w' => Moved2 h v.ptr o.ptr w'.heap none w'.user.1.ptr ∧ w'.user.2 = u ∧
          ∃ es2, Cont Γ w'.heap t' es2 w'.user.1 ∧ Within es2 (es ++ es')) R ?_).mono ?_ ?_
      · -- the inner call, on the other vector
        refine NoUb.zoom ?_
        simp only
        refine (applyAligned_list (w := (⟨h, (v.chunkView, u)⟩ : World (RVec × U)))
          (Q := fun _ p w' => p = o.ptr ∧ w'.user.2 = u ∧ VGood ⟨Γ.align t', Γ.align t'⟩ w'.heap w'.user.1 ∧
            Moved h v.ptr w'.heap w'.user.1.ptr ∧ w'.user.1.bytes = (es ++ es').flatten)
          (P := fun _ _ es2 => es2 = [])
          (E := fun w' => w'.user = (v.chunkView, u) ∧ Moved h o.ptr w'.heap none) R' ?_).mono ?_ ?_
        · refine NoUb.zoom ?_
          simp only
          refine NoUb.bind_ok rfl ?_
          simp only
          refine NoUb.bind (R := fun src s => src = { o.chunkView with len := 0, bytes := [] } ∧
              VGood ⟨Γ.align t', Γ.align t'⟩ s.2.heap s.1 ∧
              Moved h v.ptr s.2.heap s.1.ptr ∧ s.1.bytes = v.mem ++ o.mem ∧ s.2.user = (o.chunkView, u)) ?_ ?_
          · unfold RVec.append
            refine NoUb.bind ((RVec.reserve_runs ha vvg wf o.chunkView.len).noUb.mono (fun _ _ h => h) fun s hs => ?_) ?_
            · subst hs
              have := RVec.dropBuf_runs (U := RVec × U) (w := ⟨h, (v.chunkView, u)⟩) ha ovg wf
              exact this.noUb.mono (fun _ w' hw => ⟨hw.2, hw.1⟩) fun _ h => trivial
            · rintro _ s ⟨h1, h2, h3, h4, h5, h6⟩
              refine ⟨rfl, h1.set (by rw [h3]; exact h5) ?_, h2, by simp only [h4]; rfl, h6⟩
              rw [List.length_append, h1.bytes, ovg.bytes, Nat.add_mul]
          · rintro src s ⟨rfl, h1, h2, h3, h4⟩
            refine ⟨?_, fun n hn => ⟨[], rfl, by simp, rfl⟩, rfl, by simp only [h4], h1, h2, ?_⟩
            · refine VGood.frame (h := h) (ovg.set (Nat.zero_le _) (by simp)) ?_
              intro i hi
              refine h2.other i (R'.ptr_lt wf i hi) ?_
              intro hv; exact hd i hv.symm hi
            · simp only; rw [h3, R.mem, R'.mem, List.flatten_append]
        · rintro _ ⟨o', w'⟩ ⟨⟨_, h1, rfl⟩, h2, h3, h4, h5, h6⟩
          refine ⟨h4, ?_, ?_, h3, [], .inl h1, Within.nil _⟩
          · intro n hn
            refine ⟨es ++ es', h6, ?_, [], .inl h1, by rw [List.append_nil]; exact Within.refl _⟩
            intro x hx
            rcases List.mem_append.1 hx with hx | hx
            · exact R.each x hx
            · exact R'.each x hx
          · simp only
            rw [h2]
            exact Moved2.ofLeft h5 (R'.ptr_lt wf) hd
        · rintro ⟨o', w'⟩ ⟨rfl, ⟨h1, h2⟩ | ⟨_, p, h1, h2, h3, h4, h5⟩⟩
          · simp only
            rw [h1]
            have hvg : VGood ⟨Γ.align t', Γ.align t'⟩ w'.heap v.chunkView := by
              refine vvg.frame ?_
              intro i hi
              exact h2.other i (R.ptr_lt wf i hi) (fun hx => hd i hi hx.symm)
            have := RVec.dropBuf_runs (U := VecVoid × U) (w := ⟨w'.heap, (VecVoid.default Γ, u)⟩) ha hvg h2.wf
            refine this.noUb.mono ?_ fun _ h => trivial
            rintro _ w2 ⟨m, hu⟩
            refine ⟨?_, by rw [hu], [], by rw [hu]; exact Cont.lost _ _, Within.nil _⟩
            rw [hu]
            refine ⟨m.wf, Nat.le_trans h2.next_le m.next_le, ?_, (fun _ h => by cases h), (fun _ h => by cases h),
              (fun _ h => by cases h)⟩
            intro j hj hp hq
            rw [m.other j (Nat.lt_of_lt_of_le hj h2.next_le) hp, h2.other j hj hq]
          · simp only
            have := RVec.dropBuf_runs (U := VecVoid × U) (w := ⟨w'.heap, (VecVoid.default Γ, w'.user.2)⟩) ha h3 h4.wf
            refine this.noUb.mono ?_ fun _ h => trivial
            rintro _ w2 ⟨m, hu⟩
            refine ⟨?_, by rw [hu]; exact h2, [], by rw [hu]; exact Cont.lost _ _, Within.nil _⟩
            rw [hu]
            have mm := h4.trans m
            exact ⟨mm.wf, mm.next_le, fun j hj hp _ => mm.other j hj hp, (fun _ h => by cases h), (fun _ h => by cases h),
              (fun _ h => by cases h)⟩
      · rintro _ s ⟨⟨es1, h1, es2, h5, h6⟩, h2, h3, _⟩
        exact ⟨h2, h3, es1, es2, .inl h1, h5, h6⟩
      · rintro ⟨v', w'⟩ ⟨rfl, ⟨h2, h3, es2, h4, h5⟩ | ⟨_, p, h2, h3, es2, h4, h5⟩⟩
        · exact ⟨h2, h3, [], es2, Cont.lost _ _, h4, h5⟩
        · exact ⟨h2.drop, h3, [], es2, Cont.lost _ _, h4, h5⟩
    · exfalso
      rw [R.type_id, ug'.elem] at hty
      have := R.pos
      rw [hty] at this
      simp [ElemInfo.new, Γ.unit_size] at this
  · have ug' : UGood Γ o := by
      rcases g' with R' | ⟨ug', _⟩
      · exfalso
        rw [R'.type_id, ug.elem] at hty
        have := R'.pos
        rw [← hty] at this
        simp [ElemInfo.new, Γ.unit_size] at this
      · exact ug'
    rw [ug.elem]
    simp only [ElemInfo.new, evalAlign_align]
    have h1 : Γ.align Γ.unitTy ≤ 1 := by rw [Γ.unit_align]; exact Nat.le_refl _
    have vg := fun h => ug.chunkGood h ⟨Γ.align Γ.unitTy, Γ.align Γ.unitTy⟩ h1
    have og := fun h => ug'.chunkGood h ⟨Γ.align Γ.unitTy, Γ.align Γ.unitTy⟩ h1
    have ha := align_pos Γ Γ.unitTy
    refine (UGood.applyAlignedN (E := fun w' => w'.user = (VecVoid.default Γ, u) ∧ Moved h v.ptr w'.heap none) ug ?_).mono
      (fun _ _ h => h.elim) ?_
    · rw [← ug.chunkView]
      refine NoUb.zoom ?_
      simp only
      refine (UGood.applyAlignedN (w := (⟨h, (v.chunkView, u)⟩ : World (RVec × U)))
        (E := fun w' => w'.user.2 = u ∧ VGood ⟨Γ.align Γ.unitTy, Γ.align Γ.unitTy⟩ w'.heap w'.user.1 ∧
            Moved h v.ptr w'.heap w'.user.1.ptr) ug' ?_).mono (fun _ _ h => h.elim) ?_
      · rw [← ug'.chunkView]
        refine NoUb.zoom ?_
        simp only
        refine NoUb.bind_ok rfl ?_
        simp only
        refine NoUb.bind (R := fun src s => VGood ⟨Γ.align Γ.unitTy, Γ.align Γ.unitTy⟩ s.2.heap s.1 ∧
            Moved h v.ptr s.2.heap s.1.ptr ∧ s.2.user = (o.chunkView, u)) ?_ ?_
        · unfold RVec.append
          refine NoUb.bind ((RVec.reserve_runs ha (vg h) wf o.chunkView.len).noUb.mono (fun _ _ h => h) fun s hs => ?_) ?_
          · subst hs
            have := RVec.dropBuf_runs (U := RVec × U) (w := ⟨h, (v.chunkView, u)⟩) ha (og h) wf
            refine this.noUb.mono (fun _ w' hw => ?_) fun _ h => trivial
            rw [hw.2]
            refine ⟨rfl, vg _, ?_⟩
            have hm := hw.1
            rw [ug'.chunkView] at hm
            refine ⟨hm.wf, hm.next_le, fun j hj _ => hm.other j hj (by simp), fun i hi => .inl hi⟩
          · rintro _ s ⟨h1, h2, h3, h4, h5, h6⟩
            refine ⟨h1.set (by rw [h3]; exact h5) ?_, h2, h6⟩
            rw [List.length_append, h1.bytes, (og h).bytes, Nat.add_mul]
        · rintro src s ⟨h1, h2, h4⟩
          exact ⟨by simp only [h4], h1, h2⟩
      · rintro ⟨o', w'⟩ ⟨rfl, h2, h3, h4⟩
        have := RVec.dropBuf_runs (U := VecVoid × U) (w := ⟨w'.heap, (VecVoid.default Γ, w'.user.2)⟩) ha h3 h4.wf
        refine this.noUb.mono ?_ fun _ h => trivial
        rintro _ w2 ⟨m, hu⟩
        exact ⟨by rw [hu, ← h2], h4.trans m⟩
    · rintro ⟨v', w'⟩ ⟨rfl, h2, h3⟩
      refine ⟨?_, by rw [h2], [], [], Cont.lost _ _, by rw [h2]; exact Cont.lost _ _, Within.nil _⟩
      rw [h2]
      exact ⟨h3.wf, h3.next_le, fun j hj hp _ => h3.other j hj hp, (fun _ h => by cases h), (fun _ h => by cases h),
        (fun _ h => by cases h)⟩

theorem VecVoid.drop_x (g : Cont Γ w.heap t es v) (wf : w.heap.WF) :
    NoUb (VecVoid.drop cfg v) w (fun _ w' => Moved w.heap v.ptr w'.heap none ∧ w'.user = w.user) (fun _ => False) := by
  rcases g with R | ⟨u, _⟩
  · obtain ⟨i, hp, e⟩ := VecVoid.drop_spec (cfg := cfg) R
    exact NoUb.of_ok e ⟨by rw [hp]; exact Moved.free wf i, rfl⟩
  · unfold VecVoid.drop
    rw [u.elem]
    simp only [ElemInfo.new, evalAlign_align]
    refine NoUb.bind_ok (u.alignedVec _) ?_
    have h1 : Γ.align Γ.unitTy ≤ 1 := by rw [Γ.unit_align]; exact Nat.le_refl _
    exact (RVec.dropBuf_runs (align_pos Γ Γ.unitTy) (u.chunkGood w.heap ⟨Γ.align Γ.unitTy, Γ.align Γ.unitTy⟩ h1) wf).noUb

end Dync
