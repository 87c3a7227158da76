import Verif.SafetyLemmas2
/-!
# Helper lemmas: construction, typed push, `clone` and `drop` without size restrictions
-/
namespace Dync
variable {U V α : Type} {Γ : TyEnv U} {S : Values Γ} {t : TyId} {es : List Bytes} {v : VecVoid} {w : World U} {cfg : Cfg}

/-- Values of type `t` have no destructor. -/
def CopyTy (Γ : TyEnv U) (t : TyId) : Prop := ∀ b u, Γ.drop t b u = (.ok (), u)

/-- A constructor: the new container owns nothing that existed before. -/
def New (Γ : TyEnv U) (S : Values Γ) (w : World U) (v' : VecVoid) (w' : World U) : Prop :=
  Moved w.heap none w'.heap v'.ptr ∧ w'.user = w.user ∧ Good Γ S w'.heap v'

/-- Nothing that existed before was touched. -/
def Kept (w w' : World U) : Prop := Moved w.heap none w'.heap none ∧ w'.user = w.user

theorem Kept.refl (wf : w.heap.WF) : Kept w w := ⟨Moved.refl wf _, rfl⟩

theorem UGood.size (u : UGood Γ v) : v.elem.size = 0 := by rw [u.elem]; simp [ElemInfo.new, Γ.unit_size]
theorem UGood.numBytes (u : UGood Γ v) : v.elem.numBytes = 0 := by simp [ElemInfo.numBytes, u.size]

theorem VecVoid.drop_runs (g : Good Γ S w.heap v) (wf : w.heap.WF) :
    Runs (VecVoid.drop cfg v) w (fun _ w' => Moved w.heap v.ptr w'.heap none ∧ w'.user = w.user) (fun _ => False) := by
  rcases g with ⟨t, es, R, _⟩ | u
  · obtain ⟨i, hp, e⟩ := VecVoid.drop_spec (cfg := cfg) R
    exact Runs.of_ok e ⟨by rw [hp]; exact Moved.free wf i, rfl⟩
  · unfold VecVoid.drop
    rw [u.elem]
    simp only [ElemInfo.new, evalAlign_align]
    refine Runs.bind_ok (u.alignedVec _) ?_
    have h1 : Γ.align Γ.unitTy ≤ 1 := by rw [Γ.unit_align]; exact Nat.le_refl _
    exact RVec.dropBuf_runs (align_pos Γ Γ.unitTy) (u.chunkGood w.heap ⟨Γ.align Γ.unitTy, Γ.align Γ.unitTy⟩ h1) wf

theorem VecVoid.clone_runs (g : Good Γ S w.heap v) (wf : w.heap.WF) :
    Runs (VecVoid.clone cfg v) w (New Γ S w) (Kept w) := by
  rcases g with ⟨t, es, R, hv⟩ | u
  · refine Runs.of_ok (VecVoid.clone_spec (cfg := cfg) R) ?_
    have hne : v.cap * Γ.size t ≠ 0 := Nat.mul_ne_zero (by have := R.cap_pos; omega) (by have := R.pos; omega)
    have hal := Heap.alloc_live (h := w.heap) (l := ⟨v.cap * Γ.size t, Γ.align t⟩) hne
    refine ⟨?_, rfl, .inl ⟨t, es, ?_, hv⟩⟩
    · have := Moved.ofRealloc (fun i hi _ => by rw [hal.1] at hi; cases hi; exact Nat.le_refl _)
        (Realloc.ofAlloc wf ⟨v.cap * Γ.size t, Γ.align t⟩)
      rwa [hal.1] at this
    · exact ⟨R.type_id, R.chunks, R.align, R.pos, R.mem, R.each, R.len, R.len_le, R.cap_pos, R.room, _, rfl, hal.2⟩
  · unfold VecVoid.clone
    rw [u.elem]
    simp only [ElemInfo.new, evalAlign_align]
    refine Runs.bind_ok (u.alignedVec _) ?_
    rw [u.chunkView]
    refine Runs.bind_ok (b := ⟨none, 0, 0, []⟩) (s' := w) ?_ ?_
    · simp [RVec.withCapacity, Γ.unit_align, Heap.alloc]
    refine Runs.bind_ok (b := ((), ⟨none, 0, 0, []⟩)) (s' := w) ?_ ?_
    · simp [withLocal, RVec.cloneFrom, RVec.clear, RVec.truncate, RVec.extendFromSlice, RVec.reserve]
    refine Runs.of_panic (y := .divZero) (s' := w) ?_ (Kept.refl wf)
    simp [VecVoid.fromVecOverride, Γ.unit_size]

theorem dropTyped_runs {r : RVec} (hc : CopyTy Γ t) (g : Γ.size t = 0 ∨ VGood (Γ.layout t) w.heap r) (wf : w.heap.WF) :
    Runs (RVec.dropTyped Γ t r) w (fun _ w' => Moved w.heap r.ptr w'.heap none ∧ w'.user = w.user) (fun _ => False) := by
  have h1 : ∀ xs : List Bytes, M.dropEach xs (fun b => (worldUser (Γ.drop t b) : M (World U) Unit)) w = (.ok (), w) := by
    intro xs
    induction xs with
    | nil => rfl
    | cons x xs ih =>
      refine M.thenDrop_ok (s' := w) ?_ ih
      simp [worldUser, hc x w.user]
  rcases Nat.eq_zero_or_pos (Γ.size t) with h0 | hpos
  · refine Runs.of_ok (a := ()) (s' := w) ?_ ⟨(Moved.refl wf _).drop, rfl⟩
    exact M.thenDrop_ok (h1 _) (by simp [RVec.dropBuf, worldHeap, dealloc, h0])
  · rcases g with g | g
    · omega
    rcases (RVec.dropBuf_runs (T := Γ.layout t) hpos g wf).cases_on with ⟨_, w', e, h⟩ | ⟨_, _, _, h⟩
    · exact Runs.of_ok (M.thenDrop_ok (h1 _) e) h
    · exact h.elim

/-- A typed vector becomes a container. -/
theorem VecVoid.fromVec_list {r : RVec} (hpos : 0 < Γ.size t) (g : VGood (Γ.layout t) w.heap r) (wf : w.heap.WF)
    (hb : r.bytes = es.flatten) (heach : ∀ e ∈ es, e.length = Γ.size t) :
    Runs (VecVoid.fromVec Γ t r) w
      (fun v' w' => Moved w.heap r.ptr w'.heap v'.ptr ∧ w'.user = w.user ∧ Repr Γ w'.heap t es v') (fun w' => w' = w) := by
  unfold VecVoid.fromVec
  refine Runs.bind (R := fun p w' => VGood (Γ.layout t) w'.heap p.2 ∧ Moved w.heap r.ptr w'.heap p.2.ptr ∧
    p.2.bytes = r.bytes ∧ 0 < p.2.cap ∧ w'.user = w.user) (Runs.withLocal ?_) ?_
  · unfold VecVoid.intoValidVec
    refine Runs.bind_ok (b := r) (s' := (r, w)) rfl ?_
    split
    · refine (RVec.reserve_runs (T := Γ.layout t) hpos g wf 1).mono ?_ ?_
      · rintro _ s ⟨h1, h2, h3, h4, h5, h6⟩
        exact ⟨h1, h2, h4, by simp only; omega, h6⟩
      · rintro s rfl
        exact rfl
    · exact ⟨g, Moved.refl wf _, rfl, by simp only; omega, rfl⟩
  · rintro ⟨_, r'⟩ w' ⟨h1, h2, h3, h4, h5⟩
    simp only at h1 h2 h3 h4
    refine ⟨h2, h5, ?_⟩
    have hlen : r'.len = es.length := by
      have := h1.bytes
      rw [h3, hb, length_flatten_eq heach] at this
      exact (Nat.eq_of_mul_eq_mul_right hpos this).symm
    refine ⟨rfl, Nat.div_mul_cancel (Γ.align_dvd t), rfl, hpos, by simp only; rw [h3, hb], heach, hlen, h1.len_le, h4, h1.room, ?_⟩
    rcases h1.block with ⟨hc, _⟩ | ⟨_, i, hp, hl⟩
    · omega
    · exact ⟨i, hp, hl⟩

theorem VecVoid.fromVec_runs {r : RVec} (hpos : 0 < Γ.size t) (g : VGood (Γ.layout t) w.heap r) (wf : w.heap.WF)
    (hb : r.bytes = es.flatten) (hv : ∀ e ∈ es, S.valid t e) :
    Runs (VecVoid.fromVec Γ t r) w
      (fun v' w' => Moved w.heap r.ptr w'.heap v'.ptr ∧ w'.user = w.user ∧ TGood Γ S t w'.heap v') (fun w' => w' = w) :=
  (VecVoid.fromVec_list hpos g wf hb fun e he => S.len t e (hv e he)).mono (fun _ _ h => ⟨h.1, h.2.1, es, h.2.2, hv⟩) fun _ h => h

theorem VecCopy.fromVec_runs {vt : V} {r : RVec} (hc : CopyTy Γ t) (g : Γ.size t = 0 ∨ VGood (Γ.layout t) w.heap r) (wf : w.heap.WF)
    (hb : 0 < Γ.size t → r.bytes = es.flatten) (hv : ∀ e ∈ es, S.valid t e) :
    Runs (VecCopy.fromVec Γ t vt r) w
      (fun c w' => Moved w.heap r.ptr w'.heap c.data.ptr ∧ w'.user = w.user ∧ Good Γ S w'.heap c.data)
      (fun w' => Moved w.heap r.ptr w'.heap none ∧ w'.user = w.user) := by
  unfold VecCopy.fromVec
  refine Runs.bind (R := fun _ w' => w' = w ∧ Γ.size t ≠ 0) (Runs.withLocal ?_) ?_
  · refine Runs.assert (fun e => ⟨rfl, by simpa using e⟩) fun _ => ?_
    exact dropTyped_runs hc g wf
  · rintro _ w1 ⟨hw1, hne⟩
    rw [hw1]
    have hpos : 0 < Γ.size t := by omega
    have g' : VGood (Γ.layout t) w.heap r := g.resolve_left hne
    refine Runs.bind ((VecVoid.fromVec_runs (S := S) hpos g' wf (hb hpos) hv).mono (fun _ _ h => h) ?_) ?_
    · rintro w' rfl
      exact ⟨(Moved.refl wf _).drop, rfl⟩
    · rintro v' w' ⟨h1, h2, h3⟩
      exact ⟨h1, h2, .inl ⟨t, h3⟩⟩

theorem RVec.withCapacity_runs (wf : w.heap.WF) (n : Nat) :
    Runs (RVec.withCapacity (Γ.layout t) n) w
      (fun r w' => (Γ.size t = 0 ∨ VGood (Γ.layout t) w'.heap r ∧ r.cap = n) ∧ r.len = 0 ∧ r.bytes = [] ∧
        Moved w.heap none w'.heap r.ptr ∧ w'.user = w.user) (fun w' => w' = w) := by
  unfold RVec.withCapacity
  rcases Nat.eq_zero_or_pos (Γ.size t) with h0 | hpos
  · refine Runs.of_ok (a := RVec.new (Γ.layout t)) (s' := w) (by simp [h0]) ⟨.inl h0, rfl, rfl, Moved.refl wf _, rfl⟩
  have hne : Γ.size t ≠ 0 := by omega
  by_cases hr : n * Γ.size t + (Γ.align t - 1) ≤ isizeMax
  · refine Runs.of_ok (a := ⟨(w.heap.alloc ⟨n * Γ.size t, Γ.align t⟩).1, 0, n, []⟩)
      (s' := { w with heap := (w.heap.alloc ⟨n * Γ.size t, Γ.align t⟩).2 }) (by simp [hne, hr]) ⟨.inr ⟨?_, rfl⟩, rfl, rfl, ?_, rfl⟩
    · refine ⟨by simp, Nat.zero_le _, hr, ?_⟩
      rcases Nat.eq_zero_or_pos n with hn | hn
      · subst hn
        refine .inl ⟨rfl, ?_⟩
        simp [Heap.alloc]
      · have hal := Heap.alloc_live (h := w.heap) (l := ⟨n * Γ.size t, Γ.align t⟩) (Nat.mul_ne_zero (by omega) hne)
        exact .inr ⟨hn, _, hal.1, hal.2⟩
    · refine Moved.ofRealloc ?_ (Realloc.ofAlloc wf _)
      intro i hi _
      simp only at hi
      rcases Nat.eq_zero_or_pos n with hn | hn
      · subst hn; simp [Heap.alloc] at hi
      · have hal := Heap.alloc_live (h := w.heap) (l := ⟨n * Γ.size t, Γ.align t⟩) (Nat.mul_ne_zero (by omega) hne)
        rw [hal.1] at hi; cases hi; exact Nat.le_refl _
  · exact Runs.of_panic (y := .capacity) (s' := w) (by simp [hne, hr]) rfl

theorem VecCopy.withCapacity_runs {vt : V} (hc : CopyTy Γ t) (wf : w.heap.WF) (n : Nat) :
    Runs (VecCopy.withCapacity Γ t vt n) w (fun c w' => New Γ S w c.data w') (Kept w) := by
  unfold VecCopy.withCapacity
  refine Runs.bind ((RVec.withCapacity_runs wf n).mono (fun _ _ h => h) fun w' e => by rw [e]; exact Kept.refl wf) ?_
  rintro r w' ⟨h1, h2, h3, h4, h5⟩
  refine (VecCopy.fromVec_runs (S := S) (es := []) hc (h1.imp id And.left) h4.wf (fun _ => h3) (by simp)).mono ?_ ?_
  · rintro c w2 ⟨g1, g2, g3⟩
    exact ⟨h4.trans g1, g2.trans h5, g3⟩
  · rintro w2 ⟨g1, g2⟩
    exact ⟨h4.trans g1, g2.trans h5⟩

theorem VecCopy.withType_runs {vt : V} (hc : CopyTy Γ t) (wf : w.heap.WF) :
    Runs (VecCopy.withType Γ t vt) w (fun c w' => New Γ S w c.data w') (Kept w) := by
  unfold VecCopy.withType
  refine (VecCopy.fromVec_runs (S := S) (es := []) hc ?_ wf (fun _ => rfl) (by simp)).mono (fun _ _ h => h) (fun _ h => h)
  rcases Nat.eq_zero_or_pos (Γ.size t) with h0 | hpos
  · exact .inl h0
  · refine .inr ⟨by simp [RVec.new], Nat.zero_le _, ?_, .inl ⟨by simp [RVec.new]; omega, rfl⟩⟩
    have h1 : Γ.align t ≤ Γ.size t := Nat.le_of_dvd hpos (Γ.align_dvd t)
    have := Γ.size_le t
    have hcap : (RVec.new (Γ.layout t)).cap = 0 := by simp [RVec.new]; omega
    rw [hcap]
    simp only [Nat.zero_mul]
    omega

theorem VecCopy.withSize_runs {vt : V} (hc : CopyTy Γ t) (wf : w.heap.WF) (n : Nat) {x : Bytes} (hx : S.valid t x) :
    Runs (VecCopy.withSize Γ t vt n x) w (fun c w' => New Γ S w c.data w') (Kept w) := by
  unfold VecCopy.withSize
  refine Runs.bind ((RVec.withCapacity_runs wf n).mono (fun _ _ h => h) fun w' e => by rw [e]; exact Kept.refl wf) ?_
  rintro r w' ⟨h1, h2, h3, h4, h5⟩
  have hl := S.len t x hx
  refine (VecCopy.fromVec_runs (S := S) (es := List.replicate n x) hc ?_ h4.wf (fun _ => rfl) ?_).mono ?_ ?_
  · refine h1.imp id fun h => h.1.set (by rw [h.2]; exact Nat.le_refl _) ?_
    rw [length_flatten_eq (n := Γ.size t) (fun e he => by rw [List.eq_of_mem_replicate he, hl]), List.length_replicate]
  · intro e he; rw [List.eq_of_mem_replicate he]; exact hx
  · rintro c w2 ⟨g1, g2, g3⟩
    exact ⟨h4.trans g1, g2.trans h5, g3⟩
  · rintro w2 ⟨g1, g2⟩
    exact ⟨h4.trans g1, g2.trans h5⟩

theorem VecCopy.fromSlice_runs {vt : V} (hc : CopyTy Γ t) (wf : w.heap.WF) {xs : List Bytes} (hx : ∀ x ∈ xs, S.valid t x) :
    Runs (VecCopy.fromSlice Γ t vt xs) w (fun c w' => New Γ S w c.data w') (Kept w) := by
  unfold VecCopy.fromSlice
  refine Runs.bind ((RVec.withCapacity_runs wf xs.length).mono (fun _ _ h => h) fun w' e => by rw [e]; exact Kept.refl wf) ?_
  rintro r w' ⟨h1, h2, h3, h4, h5⟩
  have heach : ∀ e ∈ xs, e.length = Γ.size t := fun e he => S.len t e (hx e he)
  refine Runs.bind (R := fun p w2 => (Γ.size t = 0 ∨ VGood (Γ.layout t) w2.heap p.2) ∧ p.2.bytes = xs.flatten ∧
    Moved w.heap none w2.heap p.2.ptr ∧ w2.user = w.user) (Runs.withLocal ?_) ?_
  · unfold RVec.extendFromSlice
    rcases h1 with h0 | ⟨g, hcap⟩
    · refine Runs.bind (R := fun _ s => s = (r, w')) (E := _) ?_ ?_
      · unfold RVec.reserve
        refine Runs.bind_ok rfl ?_
        simp only
        split
        · refine Runs.of_panic (y := .capacity) (s' := (r, w')) (by simp [RVec.grow, h0]) ?_
          refine (dropTyped_runs hc (.inl h0) h4.wf).mono ?_ fun _ h => h
          rintro _ w2 ⟨g1, g2⟩
          exact ⟨h4.trans g1, g2.trans h5⟩
        · exact Runs.pure rfl
      · rintro _ _ rfl
        exact ⟨.inl h0, by simp [h3], h4, h5⟩
    · rcases Nat.eq_zero_or_pos (Γ.size t) with h0 | hpos
      · refine Runs.bind_ok (RVec.reserve_fit (by omega)) ?_
        exact ⟨.inl h0, by simp [h3], h4, h5⟩
      · refine Runs.bind_ok (RVec.reserve_fit (by omega)) ?_
        refine ⟨.inr (g.set (by rw [h2, hcap]; omega) ?_), by simp [h3], h4, h5⟩
        rw [h3, h2, List.nil_append, length_flatten_eq heach, Nat.zero_add]
  · rintro ⟨_, r'⟩ w2 ⟨g1, g2, g3, g4⟩
    refine (VecCopy.fromVec_runs (S := S) (es := xs) hc g1 g3.wf (fun _ => g2) hx).mono ?_ ?_
    · rintro c w3 ⟨k1, k2, k3⟩
      exact ⟨g3.trans k1, k2.trans g4, k3⟩
    · rintro w3 ⟨k1, k2⟩
      exact ⟨g3.trans k1, k2.trans g4⟩

theorem UGood.typedView (u : UGood Γ v) {σ : Type} (st : σ) :
    VecVoid.intoVecUnchecked cfg Γ Γ.unitTy v st = (.ok ⟨none, v.len, usizeMax, []⟩, st) := by
  have ha : v.elem.alignment = Γ.align Γ.unitTy := by rw [u.elem]; rfl
  unfold VecVoid.intoVecUnchecked
  rw [M.bind_ok (debugAssert_ok (cfg := cfg) (by simp [u.numBytes, Γ.unit_size]) st),
    M.bind_ok (debugAssert_ok (cfg := cfg) (by simp [ha]) st)]
  simp [RVec.fromRawParts, u.mem, u.ptr, u.cap, Γ.unit_size]

theorem VecVoid.pushTyped_runs (g : Good Γ S w.heap v) (wf : w.heap.WF) (ht : v.elem.type_id = t) (hc : CopyTy Γ t)
    {x : Bytes} (hx : S.valid t x) :
    Runs (VecVoid.applyUnchecked Γ cfg t (RVec.pushOwned Γ t x)) (v, w)
      (fun _ s => Step Γ S (v, w) s ∧ s.1.elem.type_id = t) (fun s => Step Γ S (v, w) s) := by
  rw [RVec.pushOwned_plain hc]
  unfold VecVoid.applyUnchecked
  refine Runs.bind_ok (b := v) (s' := (v, w)) rfl ?_
  refine Runs.bind_ok (b := ()) (s' := (VecVoid.default Γ, w)) rfl ?_
  rcases g with ⟨t', es, R, hv⟩ | u
  · have : t' = t := by rw [← ht, R.type_id]
    subst this
    refine Runs.bind_ok (R.intoVec cfg _) ?_
    refine Runs.bind (R := fun p s => s.1 = VecVoid.default Γ ∧ VGood (Γ.layout t') s.2.heap p.2 ∧
      Moved w.heap v.ptr s.2.heap p.2.ptr ∧ p.2.bytes = (es ++ [x]).flatten ∧ s.2.user = w.user)
      (Runs.onWorld (Runs.withLocal ?_)) ?_
    · refine (RVec.push_runs (T := Γ.layout t') R.pos R.typedGood wf (S.len t' x hx)).mono ?_ ?_
      · rintro _ s ⟨h1, h2, h3, h4, h5⟩
        exact ⟨rfl, h1, h2, by simp only; rw [h4]; simp [VecVoid.typedView, R.mem], h5⟩
      · rintro s rfl
        refine (dropTyped_runs hc (.inr R.typedGood) wf).mono ?_ fun _ h => h
        rintro _ w2 ⟨h1, h2⟩
        exact Step.lost h1 h2
    · rintro ⟨_, r⟩ ⟨v0, w1⟩ ⟨h0, h1, h2, h3, h4⟩
      simp only at h0 h1 h2 h3 h4
      subst h0
      refine Runs.bind (R := fun v' s => s.1 = VecVoid.default Γ ∧ Moved w.heap v.ptr s.2.heap v'.ptr ∧ s.2.user = w.user ∧
        TGood Γ S t' s.2.heap v') (Runs.onWorld ?_) ?_
      · refine (VecVoid.fromVec_runs (S := S) (es := es ++ [x]) R.pos h1 h2.wf h3 ?_).mono ?_ ?_
        · intro e he
          rcases List.mem_append.1 he with he | he
          · exact hv e he
          · rw [List.mem_singleton.1 he]; exact hx
        · rintro v' w2 ⟨k1, k2, k3⟩
          exact ⟨rfl, h2.trans k1, k2.trans h4, k3⟩
        · rintro w2 rfl
          exact Step.lost h2.drop h4
      · rintro v' ⟨v1, w2⟩ ⟨k0, k1, k2, k3⟩
        refine ⟨⟨k1, k2, .inl ⟨t', k3⟩⟩, ?_⟩
        obtain ⟨_, R3, _⟩ := k3
        exact R3.type_id
  · have : t = Γ.unitTy := by rw [← ht, u.elem]; rfl
    subst this
    have hx0 : x = [] := by
      have := S.len _ x hx
      rw [Γ.unit_size] at this
      exact List.eq_nil_of_length_eq_zero this
    subst hx0
    refine Runs.bind_ok (u.typedView _) ?_
    refine Runs.bind (R := fun p s => s = (VecVoid.default Γ, w) ∧ p.2.ptr = none ∧ p.2.cap = usizeMax ∧ p.2.bytes = [])
      (Runs.onWorld (Runs.withLocal ?_)) ?_
    · unfold RVec.push
      refine Runs.bind_ok rfl ?_
      simp only
      split
      · refine Runs.of_panic (y := .capacity) (s' := ((⟨none, v.len, usizeMax, []⟩ : RVec), w)) ?_ ?_
        · exact M.bind_panic (by simp [RVec.grow, Γ.unit_size])
        · refine (dropTyped_runs hc (.inl Γ.unit_size) wf).mono ?_ fun _ h => h
          rintro _ w2 ⟨h1, h2⟩
          exact Step.lost (by simp only; rw [u.ptr]; exact h1) h2
      · exact ⟨rfl, rfl, rfl, rfl⟩
    · rintro ⟨_, r⟩ _ ⟨rfl, h1, h2, h3⟩
      simp only at h1 h2 h3
      refine Runs.bind_ok (b := ⟨r.ptr, r.len, r.cap, ElemInfo.new Γ Γ.unitTy, r.bytes⟩) (s' := (VecVoid.default Γ, w)) ?_ ?_
      · have hne : usizeMax ≠ 0 := by decide
        have hlc : (withLocal r noDrop (VecVoid.intoValidVec (Γ.layout Γ.unitTy)) : M (World U) (Unit × RVec)) w =
            (.ok ((), r), w) := by
          simp [withLocal, VecVoid.intoValidVec, h2, hne]
        simp only [onWorld, M.zoom_run, VecVoid.fromVec, M.bind_run, hlc]
        rfl
      · refine ⟨⟨?_, rfl, .inr ⟨h1, h2, rfl, h3⟩⟩, rfl⟩
        show Moved w.heap v.ptr w.heap r.ptr
        rw [h1, u.ptr]
        exact Moved.refl wf _

end Dync
