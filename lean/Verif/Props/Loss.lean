import Verif.LossLemmas
/-!
# C91: which calls lose the content of a container
-/
namespace Dync
variable {U V : Type} {Γ : TyEnv U} {cfg : Cfg} {vt : V} {slots slots' : Slots V} {w w' : World U} {s : XState} {t : TyId} {es : List Bytes}
  {k cap : Nat} {op : Op}

/-- How a call ends for the variable `k` that held `x`. -/
structure StepLoss (r : Out × XState) (k : Nat) (x : XVec) (P E : Prop) : Prop where
  lost : P → r.1 = .panic ∧ r.2.var k = some (.unit 0)
  kept : ¬ P → (∀ n, r.2.var k ≠ some (.unit n)) ∧ (r.1 = .panic → ¬ E → r.2.var k = some x)

theorem StepLoss.congr {r : Out × XState} {x : XVec} {P Q E : Prop} (h : StepLoss r k x P E) (e : P ↔ Q) : StepLoss r k x Q E :=
  ⟨fun q => h.lost (e.2 q), fun q => h.kept fun p => q (e.1 p)⟩

theorem method_loss {k' : Nat} {x : XVec} {f : XVec → After} {P E : Prop} (hk : s.var k = some x) (hx : ∀ n, x ≠ .unit n)
    (h : k' = k → (f x).Loss x P) : StepLoss (s.method k' f) k x (k' = k ∧ P) E := by
  by_cases e : k' = k
  · subst k'
    have h := h rfl
    rw [show s.method k f = ((f x).out, ⟨Slots.put s.var k (some (f x).now), s.leaked + if (f x).leak then 1 else 0⟩) by
      unfold XState.method; rw [hk]]
    refine ⟨fun p => ⟨(h.lost p.2).1, by simp [Slots.put, (h.lost p.2).2]⟩, fun p => ?_⟩
    have h := h.kept fun q => p ⟨rfl, q⟩
    refine ⟨fun n g => h.1 n (by simpa [Slots.put] using g), fun g _ => by simp [Slots.put, h.2 g]⟩
  · have hv : (s.method k' f).2.var k = some x := by
      unfold XState.method
      split
      · exact hk
      · simp only [Slots.put, if_neg (Ne.symm e)]; exact hk
    exact ⟨fun p => absurd p.1 e, fun _ => ⟨fun n g => hx n (by rw [hv] at g; exact Option.some.inj g), fun _ _ => hv⟩⟩

theorem vec_inj {t t' : TyId} {es es' : List Bytes} {cap cap' : Nat} (h : some (XVec.vec t es cap) = some (.vec t' es' cap')) :
    t = t' ∧ es = es' ∧ cap = cap' := by cases h; exact ⟨rfl, rfl, rfl⟩

theorem method_calm {k' : Nat} {x : XVec} {f : XVec → After} {P E : Prop} (hk : s.var k = some x) (hx : ∀ n, x ≠ .unit n)
    (h : k' = k → (f x).Loss x False) (hP : ¬ P) : StepLoss (s.method k' f) k x P E :=
  (method_loss hk hx h).congr ⟨fun h => h.2.elim, fun p => absurd p hP⟩

theorem put_calm {k' : Nat} {x : XVec} {y : Option XVec} {o : Obs} {P E : Prop} (hk : s.var k = some x) (hx : ∀ n, x ≠ .unit n)
    (hy : ∀ n, y ≠ some (.unit n)) (hP : ¬ P) : StepLoss (.ok o, s.put k' y) k x P E := by
  refine ⟨fun p => absurd p hP, fun _ => ⟨fun n g => ?_, fun g => by cases g⟩⟩
  by_cases e : k = k'
  · subst k'
    simp only [XState.put, Slots.put, if_true] at g
    exact hy n g
  · simp only [XState.put, Slots.put, if_neg e, hk] at g
    exact hx n (Option.some.inj g)

theorem same_calm {x : XVec} {o : Out} {P E : Prop} (hk : s.var k = some x) (hx : ∀ n, x ≠ .unit n) (hP : ¬ P) :
    StepLoss (o, s) k x P E :=
  ⟨fun p => absurd p hP, fun _ => ⟨fun n g => hx n (by rw [hk] at g; exact Option.some.inj g), fun _ _ => hk⟩⟩

theorem create_calm {k' n : Nat} {t' : TyId} {xs : List Bytes} {x : XVec} {P E : Prop} (hk : s.var k = some x) (hx : ∀ n, x ≠ .unit n)
    (hP : ¬ P) : StepLoss (s.create Γ k' t' xs n) k x P E := by
  unfold XState.create
  split
  · exact same_calm hk hx hP
  · exact put_calm hk hx (by simp) hP

theorem fit_holds (H : s.Holds Γ slots w.heap) (hk : s.var k = some (.vec t es cap)) : Fit Γ t cap es.length :=
  have h := holds_vec H hk
  ⟨h.1, h.2.1, (holds_each H hk).1, h.2.2.1, h.2.2.2⟩

theorem append_loss {i j : Nat} (H : s.Holds Γ slots w.heap) (hk : s.var k = some (.vec t es cap)) :
    StepLoss (s.append Γ i j) k (.vec t es cap) (Loses Γ s.var k (.append i j)) (Empties Γ s.var k (.append i j)) := by
  have hx : ∀ n, XVec.vec t es cap ≠ .unit n := by simp
  unfold XState.append
  by_cases hij : i = j
  · subst j
    rw [if_pos rfl]
    exact same_calm hk hx fun h => by cases h <;> contradiction
  rw [if_neg hij]
  cases hi : s.var i with
  | none => exact same_calm hk hx fun h => by cases h <;> simp_all
  | some a =>
  cases hj : s.var j with
  | none => cases a <;> exact same_calm hk hx fun h => by cases h <;> simp_all
  | some b =>
  cases a with
  | unit m =>
    have hki : k ≠ i := fun e => by subst e; rw [hk] at hi; cases hi
    cases b with
    | unit m' =>
      have hkj : k ≠ j := fun e => by subst e; rw [hk] at hj; cases hj
      simp only
      refine ⟨fun h => by cases h <;> contradiction, fun _ => ?_⟩
      simp only [XState.put, Slots.put, if_neg hki, if_neg hkj, hk]
      exact ⟨by simp, by simp⟩
    | vec t2 es2 cap2 => exact same_calm hk hx fun h => by cases h <;> simp_all
  | vec t1 es1 cap1 =>
    cases b with
    | unit m => exact same_calm hk hx fun h => by cases h <;> simp_all
    | vec t2 es2 cap2 =>
      simp only
      by_cases ht : t1 = t2
      · subst t2
        rw [if_pos rfl]
        have F := fit_holds H hi
        have h1 := F.growth_full (n := es2.length)
        have h2 : _ ↔ BadGrowth Γ t1 cap1 (es1.length + es2.length) :=
          torn_three (Γ := Γ) (t := t1) (n := es2.length) F.le F.pos F.per F.units
        -- what the calls that lose the content are here
        have hl : Loses Γ s.var k (.append i j) ↔ (k = i ∧ NoGrowth Γ t1 cap1 es1.length es2.length) ∨
            (k = j ∧ TooLarge Γ t1 cap1 es1.length es2.length) := by
          constructor
          · intro h
            cases h with
            | append t' es' es'' c' c'' _ hn ha hb hg =>
              obtain ⟨rfl, rfl, rfl⟩ := vec_inj (hi.symm.trans ha)
              obtain ⟨_, rfl, rfl⟩ := vec_inj (hj.symm.trans hb)
              exact .inl ⟨rfl, hg⟩
            | appended t' es' es'' c' c'' _ hn ha hb hg =>
              obtain ⟨rfl, rfl, rfl⟩ := vec_inj (hj.symm.trans ha)
              obtain ⟨_, rfl, rfl⟩ := vec_inj (hi.symm.trans hb)
              exact .inr ⟨rfl, hg⟩
          · rintro (⟨rfl, hg⟩ | ⟨rfl, hg⟩)
            · exact .append _ _ _ _ _ _ hij hi hj hg
            · exact .appended _ _ _ _ _ _ (Ne.symm hij) hj hi hg
        have calm : ∀ c, growth (Γ.align t1) (Γ.align t1) (perElem Γ t1) cap1 es1.length (es2.length * perElem Γ t1) ≠ .full →
            growth (Γ.align t1) (Γ.align t1) (perElem Γ t1) cap1 es1.length (es2.length * perElem Γ t1) ≠ .torn →
            StepLoss (.ok .done, (s.put i (some (.vec t1 (es1 ++ es2) c))).put j (some (.vec t1 [] cap2))) k (.vec t es cap)
              (Loses Γ s.var k (.append i j)) (Empties Γ s.var k (.append i j)) := by
          intro c g1 g2
          refine ⟨fun h => ?_, fun _ => ⟨fun n g => ?_, fun g => by cases g⟩⟩
          · rcases hl.1 h with ⟨_, h | h⟩ | ⟨_, h⟩
            · exact absurd (h1.2 h) g1
            · exact absurd (h2.2 h) g2
            · exact absurd (h1.2 h) g1
          · simp only [XState.put, Slots.put] at g
            split at g
            · cases g
            · split at g
              · cases g
              · rw [hk] at g; cases g
        cases hg : growth (Γ.align t1) (Γ.align t1) (perElem Γ t1) cap1 es1.length (es2.length * perElem Γ t1) with
        | keep => exact calm cap1 (by rw [hg]; simp) (by rw [hg]; simp)
        | grown c => exact calm c (by rw [hg]; simp) (by rw [hg]; simp)
        | full =>
          have hT := h1.1 hg
          refine ⟨fun h => ?_, fun h => ?_⟩
          · refine ⟨rfl, ?_⟩
            rcases hl.1 h with ⟨rfl, _⟩ | ⟨rfl, _⟩
            · simp [XState.put, Slots.put]
            · simp [XState.put, Slots.put]
          · have hki : k ≠ i := fun e => h (hl.2 (.inl ⟨e, .inl hT⟩))
            have hkj : k ≠ j := fun e => h (hl.2 (.inr ⟨e, hT⟩))
            simp [XState.put, Slots.put, hki, hkj, hk]
        | torn =>
          have hB := h2.1 hg
          have hT : ¬ TooLarge Γ t1 cap1 es1.length es2.length := fun h => by rw [h1.2 h] at hg; cases hg
          refine ⟨fun h => ?_, fun h => ?_⟩
          · refine ⟨rfl, ?_⟩
            rcases hl.1 h with ⟨rfl, _⟩ | ⟨rfl, h3⟩
            · simp [Slots.put, hij]
            · exact absurd h3 hT
          · have hki : k ≠ i := fun e => h (hl.2 (.inl ⟨e, .inr hB⟩))
            by_cases hkj : k = j
            · subst k
              refine ⟨by simp [Slots.put], fun _ hE => absurd (.append _ _ _ _ _ _ (Ne.symm hij) hj hi hB) hE⟩
            · simp [Slots.put, hki, hkj, hk]
      · rw [if_neg ht]
        refine same_calm hk hx fun h => ?_
        cases h with
        | append _ _ _ _ _ _ _ ha hb =>
          exact ht ((vec_inj (hi.symm.trans ha)).1.trans (vec_inj (hj.symm.trans hb)).1.symm)
        | appended _ _ _ _ _ _ _ ha hb =>
          exact ht ((vec_inj (hi.symm.trans hb)).1.trans (vec_inj (hj.symm.trans ha)).1.symm)

theorem After.Loss.of_same {x : XVec} {o : Out} (h : ∀ n, x ≠ .unit n) : (After.mk o x false).Loss x False :=
  ⟨fun h => h.elim, fun _ => ⟨h, fun _ => rfl⟩⟩

theorem step_loss (H : s.Holds Γ slots w.heap) (hc : op.Countable Γ cfg s.var) (hk : s.var k = some (.vec t es cap)) :
    StepLoss (op.step Γ cfg s) k (.vec t es cap) (Loses Γ s.var k op) (Empties Γ s.var k op) := by
  have hx : ∀ n, XVec.vec t es cap ≠ .unit n := by simp
  have F := fit_holds H hk
  cases op with
  | withType => exact create_calm hk hx (by rintro ⟨⟩)
  | withCapacity => exact create_calm hk hx (by rintro ⟨⟩)
  | fromSlice => exact create_calm hk hx (by rintro ⟨⟩)
  | drop j =>
    simp only [Op.step]
    split
    · exact same_calm hk hx (by rintro ⟨⟩)
    · exact put_calm hk hx (by simp) (by rintro ⟨⟩)
  | clone i j =>
    simp only [Op.step]
    split
    · exact same_calm hk hx (by rintro ⟨⟩)
    · exact put_calm hk hx (by simp) (by rintro ⟨⟩)
    · exact same_calm hk hx (by rintro ⟨⟩)
  | append i j => exact append_loss H hk
  | roundTrip j t' =>
    simp only [Op.step]
    split
    · exact same_calm hk hx (by rintro ⟨⟩)
    · split
      · exact same_calm hk hx (by rintro ⟨⟩)
      · exact put_calm hk hx (by simp) (by rintro ⟨⟩)
    · rename_i n hj
      have hkj : k ≠ j := fun e => by subst e; rw [hk] at hj; cases hj
      refine ⟨fun h => (by cases h), fun _ => ?_⟩
      simp [XState.put, Slots.put, hkj, hk]
  | pushAs j t' x =>
    refine (method_loss hk hx fun _ => Loss.pushAs F).congr ⟨?_, fun h => ?_⟩
    · rintro ⟨rfl, rfl, h⟩; exact .pushAs _ _ _ _ hk h
    · cases h with
      | pushAs _ es' cap' _ h hg => obtain ⟨rfl, rfl, rfl⟩ := vec_inj (hk.symm.trans h); exact ⟨rfl, rfl, hg⟩
  | push j t' x =>
    refine (method_loss hk hx fun _ => Loss.push F).congr ⟨?_, fun h => ?_⟩
    · rintro ⟨rfl, rfl, h⟩; exact .push _ _ _ _ hk h
    · cases h with
      | push _ es' cap' _ h hg => obtain ⟨rfl, rfl, rfl⟩ := vec_inj (hk.symm.trans h); exact ⟨rfl, rfl, hg⟩
  | resize j t' n x =>
    refine (method_loss hk hx fun e => Loss.resize F (hc t es cap (by rw [e]; exact hk))).congr ⟨?_, fun h => ?_⟩
    · rintro ⟨rfl, rfl, hl, h⟩; exact .resize _ _ _ _ _ hk hl h
    · cases h with
      | resize _ es' cap' _ _ h hl hg => obtain ⟨rfl, rfl, rfl⟩ := vec_inj (hk.symm.trans h); exact ⟨rfl, rfl, hl, hg⟩
  | reserve j n =>
    refine (method_loss hk hx fun e => Loss.reserve F (hc t es cap (by rw [e]; exact hk))).congr ⟨?_, fun h => ?_⟩
    · rintro ⟨rfl, h⟩; exact .reserve _ _ _ _ hk h
    · cases h with
      | reserve t' es' cap' _ h hg => obtain ⟨rfl, rfl, rfl⟩ := vec_inj (hk.symm.trans h); exact ⟨rfl, hg⟩
  | rotateLeft j n =>
    refine (method_loss hk hx fun e => Loss.rotate F (hc t es cap (by rw [e]; exact hk))).congr ⟨?_, fun h => ?_⟩
    · rintro ⟨rfl, ha, h⟩; exact .rotateLeft _ _ _ _ hk ha h
    · cases h with
      | rotateLeft t' es' cap' _ h ha hg => obtain ⟨rfl, rfl, rfl⟩ := vec_inj (hk.symm.trans h); exact ⟨rfl, ha, hg⟩
  | rotateRight j n =>
    refine (method_loss hk hx fun e => Loss.rotate F (hc t es cap (by rw [e]; exact hk))).congr ⟨?_, fun h => ?_⟩
    · rintro ⟨rfl, ha, h⟩; exact .rotateRight _ _ _ _ hk ha h
    · cases h with
      | rotateRight t' es' cap' _ h ha hg => obtain ⟨rfl, rfl, rfl⟩ := vec_inj (hk.symm.trans h); exact ⟨rfl, ha, hg⟩
  | clear j => exact method_calm hk hx (fun _ => Loss.done (by simp)) (by rintro ⟨⟩)
  | mapAll j f => exact method_calm hk hx (fun _ => Loss.done (by simp)) (by rintro ⟨⟩)
  | fill j t' x =>
    refine method_calm hk hx (fun _ => ?_) (by rintro ⟨⟩)
    simp only [XVec.fill]
    split
    · exact Loss.done (by simp)
    · exact Loss.same hx
  | copyFromSlice j t' xs =>
    refine method_calm hk hx (fun _ => ?_) (by rintro ⟨⟩)
    simp only [XVec.copyFromSlice]
    split
    · split
      · exact Loss.done (by simp)
      · exact Loss.same hx
    · exact Loss.same hx
  | swap j i i' =>
    refine method_calm hk hx (fun _ => ?_) (by rintro ⟨⟩)
    simp only [XVec.swap]
    split
    · exact Loss.same hx
    · split
      · split
        · exact Loss.done (by simp)
        · exact Loss.same hx
      · split
        · exact Loss.done (by simp)
        · exact Loss.same hx
  | setAs j t' i x =>
    refine method_calm hk hx (fun _ => ?_) (by rintro ⟨⟩)
    simp only [XVec.setAs]
    split
    · split
      · exact Loss.done (by simp)
      · exact Loss.same hx
    · exact Loss.same hx
  | setValue j i t' x =>
    refine method_calm hk hx (fun _ => ?_) (by rintro ⟨⟩)
    simp only [XVec.setValue]
    split
    · split
      · split
        · exact Loss.done (by simp)
        · exact Loss.same hx
      · exact Loss.same hx
    · split
      · split
        · exact Loss.done (by simp)
        · exact Loss.same hx
      · exact After.Loss.of_same hx
  | len j => exact method_calm hk hx (fun _ => Loss.same hx) (by rintro ⟨⟩)
  | typeId j => exact method_calm hk hx (fun _ => Loss.same hx) (by rintro ⟨⟩)
  | getAs j => exact method_calm hk hx (fun _ => Loss.same hx) (by rintro ⟨⟩)
  | get j => exact method_calm hk hx (fun _ => Loss.same hx) (by rintro ⟨⟩)
  | asSlice j => exact method_calm hk hx (fun _ => Loss.same hx) (by rintro ⟨⟩)
  | iter j => exact method_calm hk hx (fun _ => Loss.same hx) (by rintro ⟨⟩)

/-! ### C91 -/

/-- The calls in the list lose the content: they panic, and the variable holds an empty container of `()`. -/
theorem C91_lost (H : s.Holds Γ slots w.heap) (ht : op.Typed Γ) (hc : op.Countable Γ cfg s.var) (hk : s.var k = some (.vec t es cap))
    (hl : Loses Γ s.var k op) :
    ∃ y slots' h' c', op.exec Γ cfg vt (slots, w) = (.panic y, (slots', { w with heap := h' })) ∧ slots' k = some c' ∧
      IsUnits Γ 0 c'.data := by
  have S := (step_loss H hc hk).lost hl
  have h := C70_step (cfg := cfg) (vt := vt) (op := op) H ht
  obtain ⟨o, s', hst⟩ : ∃ o s', op.step Γ cfg s = (o, s') := ⟨_, _, rfl⟩
  rw [hst] at S h
  obtain ⟨rfl, hv⟩ := S
  obtain ⟨y, slots', h', hrun, H'⟩ := h
  cases hs : slots' k with
  | none => exact absurd ((H'.none_iff k).1 hs) (by rw [hv]; simp)
  | some c' => exact ⟨y, slots', h', c', hrun, hs, H'.is k c' _ hs hv⟩

/-- If any other call panics, every variable holds what it held: the same elements of the same type in a buffer of the same size. -/
theorem C91_kept {y : Why} (H : s.Holds Γ slots w.heap) (ht : op.Typed Γ) (hc : op.Countable Γ cfg s.var)
    (hk : s.var k = some (.vec t es cap)) (hl : ¬ Loses Γ s.var k op) (he : ¬ Empties Γ s.var k op)
    (hr : op.exec Γ cfg vt (slots, w) = (.panic y, (slots', w'))) :
    ∃ c', slots' k = some c' ∧ Repr Γ w'.heap t es c'.data ∧ c'.data.cap = cap := by
  have S := ((step_loss H hc hk).kept hl).2
  have h := C70_step (cfg := cfg) (vt := vt) (op := op) H ht
  obtain ⟨o, s', hst⟩ : ∃ o s', op.step Γ cfg s = (o, s') := ⟨_, _, rfl⟩
  rw [hst] at S h
  cases o with
  | ub => rw [hr] at h; cases h
  | ok o =>
    obtain ⟨slots1, h1, hrun, _⟩ := h
    rw [hr] at hrun; cases hrun
  | panic =>
    obtain ⟨y', slots1, h1, hrun, H'⟩ := h
    rw [hr] at hrun
    cases hrun
    have hv := S rfl he
    cases hs : slots' k with
    | none => exact absurd ((H'.none_iff k).1 hs) (by rw [hv]; simp)
    | some c' => exact ⟨c', rfl, H'.is k c' _ hs hv⟩

/-- The call in the second list panics and leaves the container that was appended empty. -/
theorem C91_emptied (H : s.Holds Γ slots w.heap) (hk : s.var k = some (.vec t es cap)) (he : Empties Γ s.var k op) :
    ∃ y slots' h' c', op.exec Γ cfg vt (slots, w) = (.panic y, (slots', { w with heap := h' })) ∧ slots' k = some c' ∧
      Repr Γ h' t [] c'.data ∧ c'.data.cap = cap := by
  cases he with
  | append t1 es1 es2 c1 c2 j hn ha hj hb =>
    obtain ⟨rfl, rfl, rfl⟩ := vec_inj (hk.symm.trans ha)
    have F := fit_holds H hj
    have hg := (torn_three (Γ := Γ) (t := t) (n := es.length) F.le F.pos F.per F.units).2 hb
    have hst : Op.step Γ cfg s (.append j k) = (.panic, ⟨Slots.put (Slots.put s.var j (some (.unit 0))) k (some (.vec t [] cap)), s.leaked + 1⟩) := by
      simp only [Op.step, XState.append, if_neg (Ne.symm hn), hj, hk, if_true, hg]
    have h := C70_step (cfg := cfg) (vt := vt) (op := .append j k) H trivial
    rw [hst] at h
    obtain ⟨y, slots', h', hrun, H'⟩ := h
    cases hs : slots' k with
    | none => exact absurd ((H'.none_iff k).1 hs) (by simp [Slots.put])
    | some c' => exact ⟨y, slots', h', c', hrun, hs, H'.is k c' (.vec t [] cap) hs (by simp [Slots.put])⟩

/-- A call makes a container of `()` of a container only if it is in the list: in particular only if it panics. -/
theorem C91_iff {r : Res Obs} {c' : VecCopy V} {n : Nat} (H : s.Holds Γ slots w.heap) (ht : op.Typed Γ) (hc : op.Countable Γ cfg s.var)
    (hk : s.var k = some (.vec t es cap)) (hr : op.exec Γ cfg vt (slots, w) = (r, (slots', w'))) (hu : r ≠ .ub)
    (hs : slots' k = some c') : (IsUnits Γ 0 c'.data ↔ Loses Γ s.var k op) ∧ (IsUnits Γ n c'.data → n = 0) := by
  have S := step_loss H hc hk
  have h := C70_step (cfg := cfg) (vt := vt) (op := op) H ht
  have main : ∀ s', (op.step Γ cfg s).2 = s' → s'.Holds Γ slots' w'.heap →
      (IsUnits Γ 0 c'.data ↔ Loses Γ s.var k op) ∧ (IsUnits Γ n c'.data → n = 0) := by
    rintro s' rfl H'
    have units : ∀ m, IsUnits Γ m c'.data → (op.step Γ cfg s).2.var k = some (.unit m) := by
      intro m hm
      cases hv : (op.step Γ cfg s).2.var k with
      | none => rw [(H'.none_iff k).2 hv] at hs; cases hs
      | some x =>
        have hI := H'.is k c' x hs hv
        cases x with
        | unit m' =>
          have : m = m' := hm.len.symm.trans (IsUnits.len hI)
          rw [this]
        | vec t' es' cap' =>
          obtain ⟨hR, _⟩ := hI
          exact absurd (hm.ptr.symm.trans rfl) (by obtain ⟨i, hp, _⟩ := hR.block; rw [hp]; simp)
    constructor
    · constructor
      · intro hI
        exact Classical.not_not.1 fun hl => (S.kept hl).1 0 (units 0 hI)
      · intro hl
        exact H'.is k c' _ hs (S.lost hl).2
    · intro hI
      have hv := units n hI
      by_cases hl : Loses Γ s.var k op
      · rw [(S.lost hl).2] at hv; cases hv; rfl
      · exact absurd hv ((S.kept hl).1 n)
  obtain ⟨o, s', hst⟩ : ∃ o s', op.step Γ cfg s = (o, s') := ⟨_, _, rfl⟩
  rw [hst] at h
  cases o with
  | ub => rw [hr] at h; exact absurd h hu
  | ok o =>
    obtain ⟨slots1, h1, hrun, H'⟩ := h
    rw [hr] at hrun; cases hrun
    exact main s' (by rw [hst]) H'
  | panic =>
    obtain ⟨y', slots1, h1, hrun, H'⟩ := h
    rw [hr] at hrun; cases hrun
    exact main s' (by rw [hst]) H'

namespace Ex

/-- Rotation of three elements by four loses them. -/
example := C91_lost (cfg := ⟨true⟩) (vt := ()) (w := world 2 4) (op := .rotateLeft 7 4) m123_holds trivial (fun _ _ _ _ => .inl rfl) rfl
  (.rotateLeft 2 _ 4 4 rfl (by decide) (by decide))
/-- Room for more than can be allocated. -/
example := C91_lost (cfg := ⟨true⟩) (vt := ()) (w := world 2 4) (op := .reserve 7 isizeMax) m123_holds trivial (fun _ _ _ _ => .inl rfl) rfl
  (.reserve 2 _ 4 isizeMax rfl (.inl (by unfold TooLarge isizeMax; decide)))
/-- A failing `swap` changes nothing. -/
example (slots' w' y) := C91_kept (cfg := ⟨true⟩) (vt := ()) (w := world 2 4) (op := .swap 7 0 9) (k := 7) (slots' := slots') (w' := w') (y := y)
  m123_holds trivial trivial rfl (by rintro ⟨⟩) (by rintro ⟨⟩)
example (r slots' w' c' n) := C91_iff (cfg := ⟨true⟩) (vt := ()) (w := world 2 4) (op := .swap 7 0 9) (k := 7) (r := r) (slots' := slots') (w' := w')
  (c' := c') (n := n) m123_holds trivial trivial rfl

/-- Two containers, of one `[u8; 3]` each. -/
def threes : XState := ⟨Slots.put (Slots.put (fun _ => none) 0 (some (.vec 3 [[some 1, some 2, some 3]] 1))) 1
  (some (.vec 3 [[some 4, some 5, some 6]] 1)), 0⟩

theorem threes_holds : ∃ (slots : Slots Unit) (w : World Log), threes.Holds env slots w.heap := by
  obtain ⟨s1, h1, -, H1⟩ := C70_step (cfg := ⟨true⟩) (vt := ()) (w := ⟨noHeap, []⟩) (op := .fromSlice 0 3 [[some 1, some 2, some 3]]) start_holds
    ⟨typed 3 (by decide), by decide⟩
  obtain ⟨s2, h2, -, H2⟩ := C70_step (cfg := ⟨true⟩) (vt := ()) (w := ⟨h1, []⟩) (op := .fromSlice 1 3 [[some 4, some 5, some 6]]) H1
    ⟨typed 3 (by decide), by decide⟩
  exact ⟨s2, ⟨h2, []⟩, H2⟩

/-- Appending the second one to the first one loses the first one and empties the second one. -/
example (slots : Slots Unit) (w : World Log) (H : threes.Holds env slots w.heap) :=
  C91_emptied (cfg := ⟨true⟩) (vt := ()) (op := .append 0 1) (k := 1) H rfl
    (.append 3 [[some 4, some 5, some 6]] [[some 1, some 2, some 3]] 1 1 0 (by decide) rfl rfl ⟨rfl, rfl, rfl, rfl⟩)

end Ex
end Dync
