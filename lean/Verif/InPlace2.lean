import Verif.InPlace
/-!
# Helper lemmas: what the methods of `VecCopy` and the calls of programs do to buffers
-/
namespace Dync.Place
variable {σ τ U V W α β : Type} {Γ : TyEnv U} {cfg : Cfg} {t : TyId} {T : Layout} {R : Heap → Heap → Prop}

/-- `Kept` for states of `VecCopy` methods. -/
def KeptC (Γ : TyEnv U) (R : Heap → Heap → Prop) (s s' : VecCopy V × World U) : Prop :=
  Kept Γ R s.1.data s.2.heap s'.1.data s'.2.heap

theorem KeptC.pre (hR : Pre R) : Pre (KeptC (V := V) Γ R) := ⟨fun _ => Kept.refl hR _ _, fun h h' => Kept.trans hR h h'⟩

theorem onData_run {m : M (VecVoid × World U) α} (h : Run (KeptV Γ R) m) : Run (KeptC Γ R) (VecCopy.onData m : M (VecCopy V × World U) α) :=
  .zoom h fun _ _ h => h

theorem pushOwned_run (hR : Pre R) (x : Bytes) : Run (KeptR R) (RVec.pushOwned Γ t x) :=
  .onUnwind (KeptR.pre hR) (push_run hR x) (KeptR.user hR _)

/-- Only the memory of the elements changes, and the heap as allowed. -/
theorem Kept.mem (v : VecVoid) {h h' : Heap} (b : Bytes) (hh : R h h') : Kept Γ R v h { v with mem := b } h' :=
  fun g => ⟨g, .inl ⟨rfl, .inl ⟨rfl, rfl, hh⟩⟩⟩

theorem Kept.heap (v : VecVoid) {h h' : Heap} (hh : R h h') : Kept Γ R v h v h' := fun g => ⟨g, .inl ⟨rfl, .inl ⟨rfl, rfl, hh⟩⟩⟩

theorem Calm.pre (hR : Pre R) : Pre (Calm (σ := σ) (U := U) R) := ⟨fun _ => hR.refl _, fun h h' => hR.trans h h'⟩

theorem onWorld_run' {m : M (World U) α} (h : Run (fun w w' => R w.heap w'.heap) m) : Run (KeptC Γ R) (onWorld m : M (VecCopy V × World U) α) :=
  .zoom h fun _ _ h => Kept.heap _ h

theorem user_run (hR : Pre R) (m : M U α) : Run (KeptC Γ R) (onWorld (worldUser m) : M (VecCopy V × World U) α) :=
  onWorld_run' (.of fun _ => hR.refl _)

theorem pushAs_run (hR : Pre R) (x : Bytes) : Run (KeptC Γ R) (VecCopy.pushAs Γ cfg t x : M (VecCopy V × World U) _) := by
  rintro ⟨c, w⟩ r ⟨c', w'⟩ e h1 h2
  unfold VecCopy.pushAs at e
  rw [M.bind_ok (getSelf_run _)] at e
  unfold VecCopy.checkRef at e
  by_cases ht : t = c.elementTypeId
  · rw [if_neg (fun h => h ht)] at e
    have hm : Run (KeptC Γ R) (Pure.pure (some ()) : M (VecCopy V × World U) (Option Unit)) := .pure (KeptC.pre hR) _
    rcases bind_inv e h1 h2 with ⟨a, s1, e1, e⟩ | ⟨y, e1, rfl⟩
    · cases e
      unfold VecCopy.onData at e1
      rw [M.zoom_run] at e1
      injection e1 with e1 e2
      cases e2
      exact applyUnchecked_run hR (pushOwned_run hR x) ht.symm (Prod.ext e1 rfl) (by intro h; cases h) (by intro h; cases h)
    · unfold VecCopy.onData at e1
      rw [M.zoom_run] at e1
      injection e1 with e1 e2
      cases e2
      exact applyUnchecked_run hR (pushOwned_run hR x) ht.symm (Prod.ext e1 rfl) (by intro h; cases h) (by intro h; cases h)
  · rw [if_pos ht] at e
    exact Run.bind (KeptC.pre hR) (user_run hR _) (fun _ => .pure (KeptC.pre hR) _) _ _ _ e h1 h2

theorem resize_run (hR : Pre R) (n : Nat) (x : Bytes) : Run (KeptC Γ R) (VecCopy.resize Γ cfg t n x : M (VecCopy V × World U) _) := by
  have hP := KeptC.pre (V := V) (Γ := Γ) hR
  refine .bind hP (.getSelf hP) fun c => ?_
  split
  · exact .pure hP _
  · refine .ite (fun _ => ?_) fun _ => ?_
    · exact .bind hP (onData_run (void_reserve hR _)) fun _ => .bind hP (.repeatN hP (.bind hP (pushAs_run hR x) fun _ => .pure hP _) _) fun _ => .pure hP _
    · exact .bind hP (onData_run (void_truncate hR _)) fun _ => .pure hP _

theorem asMutSliceAs_run (hR : Pre R) {m : M (List Bytes × World U) α} (h : Run (Calm R) m) :
    Run (KeptC Γ R) (VecCopy.asMutSliceAs Γ t m : M (VecCopy V × World U) _) := by
  have hP := KeptC.pre (V := V) (Γ := Γ) hR
  refine .bind hP (.getSelf hP) fun c => ?_
  split
  · exact .pure hP _
  · refine .bind hP (.lift hP _) fun es => .bind hP ?_ fun _ => .pure hP _
    intro s r s' e h1 h2
    obtain ⟨rfl, rfl⟩ := Prod.mk.inj e
    exact Kept.mem _ _ (h _ _ _ rfl h1 h2)

theorem visitMut_calm {body : M (τ × World U) Unit} (hR : Pre R) (h : Run (Calm R) body) :
    ∀ (xs : List τ) (w : World U) r p, visitMut body xs w = (r, p) → r ≠ .ub → r ≠ .abort → R w.heap p.2.heap
  | [], w, r, p, e, h1, h2 => by cases e; exact hR.refl _
  | x :: xs, w, r, p, e, h1, h2 => by
    unfold visitMut at e
    rcases hb : body (x, w) with ⟨q, ⟨x', w1⟩⟩
    rw [hb] at e
    cases q with
    | ok a =>
      have i := h _ _ _ hb (by intro h; cases h) (by intro h; cases h)
      rcases hv : visitMut body xs w1 with ⟨q2, ⟨xs', w2⟩⟩
      simp only [hv] at e
      cases e
      have j := visitMut_calm hR h xs w1 _ _ hv h1 h2
      exact hR.trans i j
    | panic y => cases e; exact h _ _ _ hb (by intro h; cases h) (by intro h; cases h)
    | ub => cases e; exact absurd rfl h1
    | abort => cases e; exact absurd rfl h2

theorem forEachMut_calm {body : M (τ × World U) Unit} (hR : Pre R) (h : Run (Calm R) body) : Run (Calm R) (forEachMut body) :=
  fun _ _ _ e h1 h2 => visitMut_calm hR h _ _ _ _ e h1 h2

theorem getMutAs_run (hR : Pre R) (i : Nat) {m : M (Bytes × World U) α} (h : Run (Calm R) m) :
    Run (KeptC Γ R) (VecCopy.getMutAs Γ t i m : M (VecCopy V × World U) _) := by
  have hP := KeptC.pre (V := V) (Γ := Γ) hR
  refine .bind hP (.getSelf hP) fun c => .bind hP (.assert hP _) fun _ => ?_
  split
  · exact .pure hP _
  · refine .ite (fun _ => .bind hP ?_ fun _ => .pure hP _) fun _ => .ub
    intro s r s' e h1 h2
    obtain ⟨rfl, rfl⟩ := Prod.mk.inj e
    exact Kept.mem _ _ (h _ _ _ rfl h1 h2)

theorem getMut_run (hR : Pre R) (i : Nat) {m : M (CopyValue V × World U) α} (h : Run (Calm R) m) :
    Run (KeptC Γ R) (VecCopy.getMut cfg i m : M (VecCopy V × World U) _) := by
  have hP := KeptC.pre (V := V) (Γ := Γ) hR
  refine .bind hP (.getSelf hP) fun c => .bind hP (.debugAssert hP _) fun _ => .bind hP (.umul hP _ _) fun _ => .ite (fun _ => ?_) fun _ => .ub
  intro s r s' e h1 h2
  obtain ⟨rfl, rfl⟩ := Prod.mk.inj e
  exact Kept.mem _ _ (h _ _ _ rfl h1 h2)

theorem iterMut_run (hR : Pre R) {body : M (CopyValue V × World U) Unit} (h : Run (Calm R) body) :
    Run (KeptC Γ R) (VecCopy.iterMut body : M (VecCopy V × World U) _) := by
  have hP := KeptC.pre (V := V) (Γ := Γ) hR
  refine .bind hP (.getSelf hP) fun c => .bind hP (.bind hP (.lift hP _) fun _ => .lift hP _) fun cs => ?_
  intro s r s' e h1 h2
  obtain ⟨rfl, rfl⟩ := Prod.mk.inj e
  exact Kept.mem _ _ (visitMut_calm hR h _ _ _ _ rfl h1 h2)

theorem asMutSlice_run (hR : Pre R) (m : M (SliceCopy V) α) : Run (KeptC Γ R) (VecCopy.asMutSlice m : M (VecCopy V × World U) _) := by
  have hP := KeptC.pre (V := V) (Γ := Γ) hR
  exact .bind hP (.getSelf hP) fun c => .bind hP (.lift hP _) fun _ => .of fun _ => Kept.mem _ _ (hR.refl _)

theorem push_value_run (hR : Pre R) (v : CopyValue W) : Run (KeptC Γ R) (VecCopy.push Γ cfg v : M (VecCopy V × World U) _) := by
  have hP := KeptC.pre (V := V) (Γ := Γ) hR
  exact .bind hP (.getSelf hP) fun c => .bind hP (.assert hP _) fun _ =>
    .ite (fun _ => .bind hP (onData_run (void_push hR _)) fun _ => .pure hP _) fun _ => .pure hP _

theorem Run.getAs {P : σ → σ → Prop} (hP : Pre P) (t : TyId) (i : Nat) (c : VecCopy V) : Run P (VecCopy.getAs Γ t i c : M σ _) := by
  refine .bind hP (.assert hP _) fun _ => ?_
  split
  · exact .pure hP _
  · exact .ite (fun _ => .pure hP _) fun _ => .ub

theorem Run.getRef {P : σ → σ → Prop} (hP : Pre P) (i : Nat) (c : VecCopy V) : Run P (VecCopy.getRef cfg i c : M σ _) :=
  .bind hP (.debugAssert hP _) fun _ => .bind hP (.umul hP _ _) fun _ => .ite (fun _ => .pure hP _) fun _ => .ub

theorem Run.asSliceAs {P : σ → σ → Prop} (hP : Pre P) (t : TyId) (c : VecCopy V) : Run P (VecCopy.asSliceAs Γ t c : M σ _) := by
  unfold VecCopy.asSliceAs
  split
  · exact .pure hP _
  · exact .bind hP (.lift hP _) fun _ => .pure hP _

theorem Run.iter {P : σ → σ → Prop} (hP : Pre P) (c : VecCopy V) : Run P (VecCopy.iter c : M σ _) :=
  .bind hP (.bind hP (.lift hP _) fun _ => .lift hP _) fun _ => .pure hP _

/-! ### `append` -/

/-- The user state does not change. -/
def SameUser (s s' : RVec × World U) : Prop := s'.2.user = s.2.user

theorem SameUser.pre : Pre (SameUser (U := U)) := ⟨fun _ => rfl, fun h h' => Eq.trans h' h⟩

theorem append_user (o : RVec) : Run SameUser (RVec.append T o : M (RVec × World U) RVec) := by
  have hP := SameUser.pre (U := U)
  refine .bind hP (.bind hP (.get hP) fun s => .ite (fun _ => ?_) fun _ => .pure hP _) fun _ => .bind hP (.of fun _ => rfl) fun _ => .pure hP _
  refine .bind hP (.get hP) fun s => .ite (fun _ => .panic hP _) fun _ => .ite (fun _ => .panic hP _) fun _ => .ite (fun _ => .panic hP _) fun _ => ?_
  exact .bind hP (.of fun _ => rfl) fun _ => .of fun _ => rfl

/-- What the innermost closure of `append` does to the two vectors. -/
theorem append_inner (hR : Pre R) {s o s' : RVec} {u u' : RVec × U} {h h' : Heap} {r : Res Unit}
    (e : (do
          let (_, w) ← M.get
          let source := w.user.1
          let source ← RVec.append T source
          M.modify fun s => (s.1, ⟨s.2.heap, (source, s.2.user.2)⟩) : M (RVec × World (RVec × U)) Unit) (s, ⟨h, (o, u.2)⟩) = (r, (s', ⟨h', u'⟩)))
    (h1 : r ≠ .ub) (h2 : r ≠ .abort) :
    KeptR (U := Unit) R (s, ⟨h, ()⟩) (s', ⟨h', ()⟩) ∧ u'.1.ptr = o.ptr ∧ u'.1.cap = o.cap := by
  rw [M.bind_ok (M.get_run _)] at e
  dsimp only at e
  rcases bind_inv e h1 h2 with ⟨a, ⟨s1, w1⟩, e1, e⟩ | ⟨y, e1, rfl⟩
  · cases e
    have k := append_run hR o _ _ _ e1 (by intro h; cases h) (by intro h; cases h)
    refine ⟨k, ?_⟩
    unfold RVec.append at e1
    rcases bind_inv e1 (by intro h; cases h) (by intro h; cases h) with ⟨b, s2, e2, e1⟩ | ⟨y, e2, h⟩
    · cases e1; exact ⟨rfl, rfl⟩
    · cases h
  · have k := append_run hR o _ _ _ e1 (by intro h; cases h) (by intro h; cases h)
    have hu : u' = (o, u.2) := append_user o _ _ _ e1 (by intro h; cases h) (by intro h; cases h)
    rw [hu]
    exact ⟨k, rfl, rfl⟩

theorem swapRoles_inv {m : M (τ × World (σ × U)) α} {s s' : σ} {x x' : τ} {h h' : Heap} {u u' : U} {r : Res α}
    (e : VecVoid.swapRoles m (s, ⟨h, (x, u)⟩) = (r, (s', ⟨h', (x', u')⟩))) : m (x, ⟨h, (s, u)⟩) = (r, (x', ⟨h', (s', u')⟩)) := by
  unfold VecVoid.swapRoles at e
  rw [M.zoom_run] at e
  injection e with e1 e2
  injection e2 with e2 e3
  injection e3 with e3 e4
  injection e4 with e4 e5
  dsimp only at e1 e2 e3 e4 e5
  rcases hm : m (x, ⟨h, (s, u)⟩) with ⟨q, ⟨y, ⟨h2, ⟨z, u2⟩⟩⟩⟩
  rw [hm] at e1 e2 e3 e4 e5
  dsimp only at e1 e2 e3 e4 e5
  subst e1 e2 e3 e4 e5
  rfl

/-- `append` does to `self` what other calls do, and does not move the other container. -/
theorem void_append (hR : Pre R) {c b c' b' : VecVoid} {u u' : U} {h h' : Heap} {r : Res Unit}
    (e : VecVoid.append Γ cfg (c, ⟨h, (b, u)⟩) = (r, (c', ⟨h', (b', u')⟩))) (h1 : r ≠ .ub) (h2 : r ≠ .abort) :
    Kept Γ R c h c' h' ∧ Kept Γ (fun _ _ => True) b h b' h' := by
  have hTrue : Pre (fun _ _ : Heap => True) := ⟨fun _ => trivial, fun _ _ => trivial⟩
  unfold VecVoid.append at e
  rw [M.bind_ok (getSelf_run _), M.bind_ok (M.get_run _)] at e
  dsimp only at e
  rcases bind_inv e h1 h2 with ⟨_, s1, e1, e⟩ | ⟨y, e1, rfl⟩
  rotate_left
  · cases (assert_inv e1).1; exact ⟨Kept.refl hR _ _, Kept.refl hTrue _ _⟩
  rw [(assert_inv e1).1] at e
  rcases bind_inv e h1 h2 with ⟨_, s1, e1, e⟩ | ⟨y, e1, rfl⟩
  rotate_left
  · cases debugAssert_inv e1; exact ⟨Kept.refl hR _ _, Kept.refl hTrue _ _⟩
  rw [debugAssert_inv e1] at e
  rcases bind_inv e h1 h2 with ⟨_, s1, e1, e⟩ | ⟨y, e1, rfl⟩
  rotate_left
  · cases debugAssert_inv e1; exact ⟨Kept.refl hR _ _, Kept.refl hTrue _ _⟩
  rw [debugAssert_inv e1] at e
  unfold evalAlign at e
  split at e
  rotate_left
  · cases e; exact ⟨Kept.refl hR _ _, Kept.refl hTrue _ _⟩
  rename_i T hT
  have hT := selectArm_unit hT
  rcases applyAligned_inv e h1 h2 with ⟨rfl, hw, -⟩ | ⟨rv, q, rv', ⟨h3, ⟨b3, u3⟩⟩, hp, hc, ef, q1, q2, hu, hcase⟩
  · cases hw; exact ⟨Kept.lost _ _ _, Kept.refl hTrue _ _⟩
  cases hu
  have ef := swapRoles_inv ef
  -- the other container
  rcases applyAligned_inv ef q1 q2 with ⟨rfl, hw, y, rfl⟩ | ⟨ro, q', ro', ⟨h4, ⟨s4, u4⟩⟩, op, oc, eg, g1, g2, hu, ocase⟩
  · rcases hcase with ⟨rfl, -⟩ | ⟨⟨a, h⟩, -⟩
    · exact ⟨Kept.lost _ _ _, Kept.lost _ _ _⟩
    · cases h
  · cases hu
    have eg := swapRoles_inv eg
    obtain ⟨k1, k2, k3⟩ := append_inner (u := (ro, u)) hR eg g1 g2
    rcases ocase with ⟨rfl, y, rfl⟩ | ⟨⟨a, rfl⟩, hw, o1, o2, o3, o4, o5⟩
    · rcases hcase with ⟨rfl, -⟩ | ⟨⟨a, h⟩, -⟩
      · exact ⟨Kept.lost _ _ _, Kept.lost _ _ _⟩
      · cases h
    · cases hw
      refine ⟨?_, fun g => ⟨by unfold Good; rw [o2]; exact g, .inl ⟨o2, .inl ⟨?_, ?_, trivial⟩⟩⟩⟩
      · rcases hcase with ⟨rfl, -⟩ | ⟨-, hw, p1, p2, p3, p4, p5⟩
        · exact Kept.lost _ _ _
        · cases hw
          rw [hT] at p4 p5
          refine fun g => ⟨by unfold Good; rw [p2]; exact g, .inl ⟨p2, ?_⟩⟩
          rcases k1 with ⟨k1, k4, k5⟩ | k1
          · refine .inl ⟨p1.trans (k1.trans hp), ?_, k5⟩
            have k4 : rv'.cap = rv.cap := k4
            rw [p5, k4, hc]; exact cap_same p3
          · right
            rw [p5]
            exact cap_grows p3 p4 (by rw [← hc]; exact k1)
      · exact o1.trans (k2.trans op)
      · have k3 : ro'.cap = ro.cap := k3
        rw [o5, hT, k3, oc]; exact cap_same o3

/-! ### Programs -/

variable {slots slots' : Slots V} {w w' : World U} {vt : V} {k : Nat}

/-- A method call on the container in a variable. -/
theorem onSlot_inv {j : Nat} {m : M (VecCopy V × World U) Obs} (h : Run (KeptC Γ R) m) {r : Res Obs}
    (e : Op.onSlot j m (slots, w) = (r, (slots', w'))) (h1 : r ≠ .ub) (h2 : r ≠ .abort) :
    (slots' = slots ∧ w' = w) ∨ ∃ j c c', slots j = some c ∧ slots' = Slots.put slots j (some c') ∧ Kept Γ R c.data w.heap c'.data w'.heap := by
  unfold Op.onSlot at e
  dsimp only at e
  split at e
  · cases e; exact .inl ⟨rfl, rfl⟩
  · rename_i c hc
    obtain ⟨e1, e2⟩ := Prod.mk.inj e
    obtain ⟨e2, e3⟩ := Prod.mk.inj e2
    subst e1 e2 e3
    exact .inr ⟨j, c, _, hc, rfl, h _ _ _ rfl h1 h2⟩

/-- The call makes or destroys containers, or works on two of them. -/
def Rehouses : Op → Prop
  | .withType .. | .withCapacity .. | .fromSlice .. | .drop .. | .clone .. | .append .. | .roundTrip .. => True
  | _ => False

/-- What the other calls do. -/
theorem exec_method {op : Op} (ho : ¬ Rehouses op) {r : Res Obs} (e : op.exec Γ cfg vt (slots, w) = (r, (slots', w')))
    (h1 : r ≠ .ub) (h2 : r ≠ .abort) :
    (slots' = slots ∧ w' = w) ∨ ∃ j c c', slots j = some c ∧ slots' = Slots.put slots j (some c') ∧ Kept Γ Eq c.data w.heap c'.data w'.heap := by
  have hR : Pre (Eq (α := Heap)) := ⟨fun _ => rfl, fun h h' => h.trans h'⟩
  have hP := KeptC.pre (V := V) (Γ := Γ) hR
  cases op with
  | withType j t => exact absurd trivial ho
  | withCapacity j t n => exact absurd trivial ho
  | fromSlice j t xs => exact absurd trivial ho
  | drop j => exact absurd trivial ho
  | clone i j => exact absurd trivial ho
  | append i j => exact absurd trivial ho
  | roundTrip j t => exact absurd trivial ho
  | pushAs j t x => exact onSlot_inv (.bind hP (pushAs_run hR x) fun _ => .pure hP _) e h1 h2
  | push j t x => exact onSlot_inv (.bind hP (push_value_run hR _) fun _ => .pure hP _) e h1 h2
  | resize j t n x => exact onSlot_inv (.bind hP (resize_run hR n x) fun _ => .pure hP _) e h1 h2
  | reserve j n => exact onSlot_inv (.bind hP (onData_run (void_reserve hR n)) fun _ => .pure hP _) e h1 h2
  | clear j => exact onSlot_inv (.bind hP (onData_run (void_clear hR)) fun _ => .pure hP _) e h1 h2
  | fill j t x => exact onSlot_inv (.bind hP (asMutSliceAs_run hR (forEachMut_calm hR (by exact .of fun _ => rfl))) fun _ => .pure hP _) e h1 h2
  | copyFromSlice j t xs => exact onSlot_inv (.bind hP (asMutSlice_run hR _) fun _ => .pure hP _) e h1 h2
  | rotateLeft j n => exact onSlot_inv (.bind hP (onData_run (void_rotateLeft hR n)) fun _ => .pure hP _) e h1 h2
  | rotateRight j n => exact onSlot_inv (.bind hP (onData_run (void_rotateRight hR n)) fun _ => .pure hP _) e h1 h2
  | swap j i i' => exact onSlot_inv (.bind hP (asMutSlice_run hR _) fun _ => .pure hP _) e h1 h2
  | setAs j t i x => exact onSlot_inv (.bind hP (getMutAs_run hR i (by exact .of fun _ => rfl)) fun _ => .pure hP _) e h1 h2
  | setValue j i t x => exact onSlot_inv (.bind hP (getMut_run hR i (by exact .of fun _ => rfl)) fun _ => .pure hP _) e h1 h2
  | mapAll j f => exact onSlot_inv (.bind hP (iterMut_run hR (by exact .of fun _ => rfl)) fun _ => .pure hP _) e h1 h2
  | len j => exact onSlot_inv (.bind hP (.getSelf hP) fun _ => .pure hP _) e h1 h2
  | typeId j => exact onSlot_inv (.bind hP (.getSelf hP) fun _ => .pure hP _) e h1 h2
  | getAs j t i =>
    refine onSlot_inv (R := Eq) (.bind hP (.getSelf hP) fun c => .bind hP (.getAs hP t i c) fun x => ?_) e h1 h2
    split <;> exact .pure hP _
  | get j i => exact onSlot_inv (.bind hP (.getSelf hP) fun c => .bind hP (.getRef hP i c) fun _ => .pure hP _) e h1 h2
  | asSlice j t =>
    refine onSlot_inv (R := Eq) (.bind hP (.getSelf hP) fun c => .bind hP (.asSliceAs hP t c) fun x => ?_) e h1 h2
    split <;> exact .pure hP _
  | iter j => exact onSlot_inv (.bind hP (.getSelf hP) fun c => .bind hP (.iter hP c) fun _ => .pure hP _) e h1 h2

/-- Variable `k` holds what it held. -/
def SameAt {β : Type} (k : Nat) (s s' : (Nat → Option β) × World U) : Prop := s'.1 k = s.1 k

theorem SameAt.pre {β : Type} (k : Nat) : Pre (SameAt (β := β) (U := U) k) := ⟨fun _ => rfl, fun h h' => Eq.trans h' h⟩

theorem SameAt.world {β : Type} (m : M (World U) α) : Run (SameAt (β := β) k) (onWorld m : M ((Nat → Option β) × World U) α) := .of fun _ => rfl

theorem SameAt.put {β : Type} {s : Nat → Option β} {j : Nat} {c : Option β} (h : k ≠ j) : (Slots.put s j c) k = s k := if_neg h

theorem assign_same {j : Nat} (h : k ≠ j) (c : VecCopy V) : Run (SameAt k) (Op.assign cfg j c : M (Slots V × World U) Unit) := by
  refine .bind (SameAt.pre k) (.get (SameAt.pre k)) fun s => ?_
  dsimp only
  split
  · exact .modify fun _ => SameAt.put h
  · exact .bind (SameAt.pre k) (SameAt.world _) fun _ => .modify fun _ => SameAt.put h

/-- The conversion to a `Vec` keeps the buffer. -/
theorem intoVec_inv {c : VecCopy V} {r : Res (Option RVec)} (e : VecCopy.intoVec Γ cfg t c w = (r, w')) (h1 : r ≠ .ub) (h2 : r ≠ .abort) :
    ∀ rv, r = .ok (some rv) → w' = w ∧ rv.ptr = c.data.ptr ∧ rv.cap = c.data.cap := by
  rintro rv rfl
  unfold VecCopy.intoVec at e
  rcases bind_inv e h1 h2 with ⟨o, w1, e1, e⟩ | ⟨y, -, h⟩
  · cases o with
    | none => cases e
    | some c' =>
      unfold VecCopy.check at e1
      split at e1
      · rcases bind_inv e1 (by intro h; cases h) (by intro h; cases h) with ⟨_, w2, -, e2⟩ | ⟨y, -, h⟩
        · cases e2
        · cases h
      · cases e1
        rcases bind_inv e h1 h2 with ⟨rv', w2, e2, e⟩ | ⟨y, -, h⟩
        · obtain ⟨hw, h⟩ := intoVecUnchecked_inv e2 (by intro h; cases h) (by intro h; cases h)
          obtain ⟨e3, e4⟩ := Prod.mk.inj e
          cases e3
          subst e4
          exact ⟨hw, h _ rfl⟩
        · cases h
  · cases h

/-- The conversion from a `Vec` keeps the buffer, if there is one. -/
theorem vecFromVec_inv (hR : Pre R) {rv : RVec} {r : Res (VecCopy V)} (e : VecCopy.fromVec Γ t vt rv w = (r, w')) (h1 : r ≠ .ub) (h2 : r ≠ .abort) :
    ∀ c, r = .ok c → c.data.ptr = rv.ptr ∧ c.data.cap = rv.cap ∧ R w.heap w'.heap ∨ rv.cap < c.data.cap := by
  rintro c rfl
  unfold VecCopy.fromVec at e
  rcases bind_inv e h1 h2 with ⟨o, w1, e1, e⟩ | ⟨y, -, h⟩
  · rcases withLocal_inv e1 (by intro h; cases h) (by intro h; cases h) with ⟨a, x, e2, -⟩ | ⟨y, x, w2, -, -, h⟩
    · have := (assert_inv e2).1
      cases this
      rcases bind_inv e h1 h2 with ⟨d, w3, e3, e⟩ | ⟨y, -, h⟩
      · rcases fromVec_run hR e3 (by intro h; cases h) (by intro h; cases h) with ⟨y, h⟩ | ⟨v', h, -, h'⟩
        · cases h
        · cases h; cases e; exact h'
      · cases h
    · cases h
  · cases h

/-- What `append` does. -/
theorem vecAppend_inv (hR : Pre R) {c b c' b' : VecCopy V} {u u' : U} {h h' : Heap} {r : Res (Option Unit)}
    (e : VecCopy.append Γ cfg (c, ⟨h, (b, u)⟩) = (r, (c', ⟨h', (b', u')⟩))) (h1 : r ≠ .ub) (h2 : r ≠ .abort) :
    Kept Γ R c.data h c'.data h' ∧ Kept Γ (fun _ _ => True) b.data h b'.data h' := by
  have hTrue : Pre (fun _ _ : Heap => True) := ⟨fun _ => trivial, fun _ _ => trivial⟩
  unfold VecCopy.append at e
  rw [M.bind_ok (getSelf_run _), M.bind_ok (M.get_run _)] at e
  dsimp only at e
  have key : ∀ {q : Res Unit} {cd bd : VecVoid} {s1 : VecCopy V × World (VecCopy V × U)},
      (M.zoom (fun s => (s.1.data, (⟨s.2.heap, (s.2.user.1.data, s.2.user.2)⟩ : World (VecVoid × U))))
        (fun t s => ({ s.1 with data := t.1 }, ⟨t.2.heap, ({ s.2.user.1 with data := t.2.user.1 }, t.2.user.2)⟩))
        (VecVoid.append Γ cfg) : M (VecCopy V × World (VecCopy V × U)) Unit) (c, ⟨h, (b, u)⟩) = (q, s1) → q ≠ .ub → q ≠ .abort →
      Kept Γ R c.data h s1.1.data s1.2.heap ∧ Kept Γ (fun _ _ => True) b.data h s1.2.user.1.data s1.2.heap := by
    intro q cd bd s1 e q1 q2
    rw [M.zoom_run] at e
    injection e with e e'
    cases e'
    exact void_append hR (Prod.ext e rfl) q1 q2
  split at e
  · rcases bind_inv e h1 h2 with ⟨a, s1, e1, e⟩ | ⟨y, e1, rfl⟩
    · cases e; exact key (cd := c.data) (bd := b.data) e1 (by intro h; cases h) (by intro h; cases h)
    · exact key (cd := c.data) (bd := b.data) e1 (by intro h; cases h) (by intro h; cases h)
  · cases e; exact ⟨Kept.refl hR _ _, Kept.refl hTrue _ _⟩

end Dync.Place
