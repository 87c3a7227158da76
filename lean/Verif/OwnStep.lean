import Verif.OwnItems
/-!
# Helper lemmas: what one operation of a `VecDyn` program does to the variables
-/
namespace Dync
variable {U V α σ : Type} {Γ : TyEnv (Ledger U)} {S : Values Γ} {t t' : TyId} {es : List Bytes} {x : Bytes}
  {w : World (Ledger U)} {cfg : Cfg} {v : VecVoid} {c : VecDyn V} {vt : TyId → V}

def objsO (o : Option (Item V)) : List Obj := (o.map Item.objs).getD []
def ptrO (o : Option (Item V)) : Ptr := o.bind Item.ptr

theorem live_beyond {K k : Nat} {s : DSlots V} {o : Option (Item V)} (hk : K ≤ k) : DSlots.live K (Slots.put s k o) = DSlots.live K s := by
  unfold DSlots.live
  induction K with
  | zero => rfl
  | succ K ih =>
    rw [List.range_succ, List.flatMap_append, List.flatMap_append, ih (by omega)]
    simp only [List.flatMap_singleton]
    rw [Slots.put_other _ _ (by omega)]

theorem live_put {K k : Nat} (s : DSlots V) (o : Option (Item V)) (hk : k < K) (a : Obj) :
    (DSlots.live K (Slots.put s k o)).count a + (objsO (s k)).count a = (DSlots.live K s).count a + (objsO o).count a := by
  induction K with
  | zero => omega
  | succ K ih =>
    have e : ∀ s : DSlots V, (DSlots.live (K + 1) s).count a = (DSlots.live K s).count a + (objsO (s K)).count a := by
      intro s
      simp [DSlots.live, List.range_succ, objsO]
    rw [e, e]
    by_cases h : k = K
    · subst h
      rw [live_beyond (Nat.le_refl _), Slots.put_same]; omega
    · rw [Slots.put_other _ _ (fun e => h e.symm)]
      have := ih (by omega)
      omega

variable [HasDrop (Ledger U) V] [HasClone (Ledger U) V]

/-- The variables of a program: everything they hold is in order and no two own the same block. -/
structure DSafe (Γ : TyEnv (Ledger U)) (S : Values Γ) (s : DSlots V) (h : Heap) : Prop where
  wf : h.WF
  held : ∀ k a, s k = some a → Held Γ S h a
  apart : ∀ k j, k ≠ j → ∀ i, ptrO (s k) = some i → ptrO (s j) ≠ some i

theorem DSafe.ptr_lt {s : DSlots V} {h : Heap} (D : DSafe Γ S s h) (k : Nat) : ∀ i, ptrO (s k) = some i → i < h.next := by
  intro i hi
  cases hs : s k with
  | none => rw [hs] at hi; cases hi
  | some a => rw [hs] at hi; exact (D.held k a hs).ptr_lt D.wf i hi

theorem DSafe.move2 {s : DSlots V} {h h' : Heap} {k j : Nat} {o o' : Option (Item V)} (D : DSafe Γ S s h) (hkj : k ≠ j)
    (m : Moved2 h (ptrO (s k)) (ptrO (s j)) h' (ptrO o) (ptrO o')) (hk : ∀ a, o = some a → Held Γ S h' a)
    (hj : ∀ a, o' = some a → Held Γ S h' a) : DSafe Γ S (Slots.put (Slots.put s k o) j o') h' := by
  have hne : ∀ l a, l ≠ k → l ≠ j → s l = some a → ∀ i, a.ptr = some i → h'.live i = h.live i := by
    intro l a h1 h2 hs i hi
    have hp : ptrO (s l) = some i := by rw [hs]; exact hi
    exact m.other i (D.ptr_lt l i hp) (fun e => D.apart l k h1 i hp e.symm) (fun e => D.apart l j h2 i hp e.symm)
  have fresh : ∀ l, l ≠ k → l ≠ j → ∀ i, ptrO (s l) = some i → ptrO o ≠ some i ∧ ptrO o' ≠ some i := by
    intro l h1 h2 i hi
    have hlt := D.ptr_lt l i hi
    refine ⟨fun e => ?_, fun e => ?_⟩
    · rcases m.ptr i e with e' | e'
      · exact D.apart l k h1 i hi e'
      · omega
    · rcases m.ptr2 i e with e' | e'
      · exact D.apart l j h2 i hi e'
      · omega
  have at_k : Slots.put (Slots.put s k o) j o' k = o := by rw [Slots.put_other _ _ hkj, Slots.put_same]
  have at_j : Slots.put (Slots.put s k o) j o' j = o' := Slots.put_same _ _ _
  have at_l : ∀ l, l ≠ k → l ≠ j → Slots.put (Slots.put s k o) j o' l = s l := fun l h1 h2 => by
    rw [Slots.put_other _ _ h2, Slots.put_other _ _ h1]
  refine ⟨m.wf, ?_, ?_⟩
  · intro l a hl
    by_cases h2 : l = j
    · subst h2; rw [at_j] at hl; exact hj a hl
    · by_cases h1 : l = k
      · subst h1; rw [at_k] at hl; exact hk a hl
      · rw [at_l l h1 h2] at hl
        exact (D.held l a hl).frame (hne l a h1 h2 hl)
  · intro l l' hll i hi
    by_cases h2 : l = j
    · subst h2
      rw [at_j] at hi
      by_cases h1 : l' = k
      · subst h1; rw [at_k]; exact fun e => m.dist i e hi
      · rw [at_l l' h1 (fun e => hll e.symm)]
        exact fun e => (fresh l' h1 (fun e => hll e.symm) i e).2 hi
    · by_cases h1 : l = k
      · subst h1
        rw [at_k] at hi
        by_cases h3 : l' = j
        · subst h3; rw [at_j]; exact m.dist i hi
        · rw [at_l l' (fun e => hll e.symm) h3]
          exact fun e => (fresh l' (fun e => hll e.symm) h3 i e).1 hi
      · rw [at_l l h1 h2] at hi
        have hf := fresh l h1 h2 i hi
        by_cases h3 : l' = j
        · subst h3; rw [at_j]; exact hf.2
        · by_cases h4 : l' = k
          · subst h4; rw [at_k]; exact hf.1
          · rw [at_l l' h4 h3]
            exact D.apart l l' hll i hi

theorem DSafe.move {s : DSlots V} {h h' : Heap} {k : Nat} {o : Option (Item V)} (D : DSafe Γ S s h)
    (m : Moved h (ptrO (s k)) h' (ptrO o)) (hk : ∀ a, o = some a → Held Γ S h' a) : DSafe Γ S (Slots.put s k o) h' := by
  have := D.move2 (k := k) (j := k + 1) (o := o) (o' := s (k + 1)) (by omega)
    (Moved2.ofLeft m (D.ptr_lt _) (D.apart k (k + 1) (by omega))) hk ?_
  · have e : Slots.put (Slots.put s k o) (k + 1) (s (k + 1)) = Slots.put s k o := by
      rw [← Slots.put_other s (j := k + 1) (k := k) o (by omega), Slots.put_self]
    rw [e] at this; exact this
  · intro a ha
    refine (D.held _ a ha).frame ?_
    intro i hi
    have hp : ptrO (s (k + 1)) = some i := by rw [ha]; exact hi
    exact m.other i (D.ptr_lt _ i hp) fun e => D.apart (k + 1) k (by omega) i hp e.symm

/-- The state after an operation to which the values `G` were passed. -/
structure Stepped (Γ : TyEnv (Ledger U)) (S : Values Γ) (K : Nat) (s : DSlots V × World (Ledger U)) (G : List Obj)
    (s' : DSlots V × World (Ledger U)) : Prop where
  safe : DSafe Γ S s'.1 s'.2.heap
  own : Own s.2.user s'.2.user (DSlots.live K s.1 ++ G) (DSlots.live K s'.1)

namespace Stepped
variable {K k j : Nat} {s s1 s2 : DSlots V × World (Ledger U)} {G : List Obj} {o o' : Option (Item V)} {w' : World (Ledger U)}

theorem refl (D : DSafe Γ S s.1 s.2.heap) (K : Nat) (G : List Obj) : Stepped Γ S K s G s :=
  ⟨D, (Own.refl _ _).mono (fun _ => Nat.le_refl _) fun a => by simp⟩

theorem one (D : DSafe Γ S s.1 s.2.heap) (hk : k < K) (e : Eff s.2 (ptrO (s.1 k)) (objsO (s.1 k) ++ G) w' (ptrO o) (objsO o))
    (hh : ∀ a, o = some a → Held Γ S w'.heap a) : Stepped Γ S K s G (Slots.put s.1 k o, w') := by
  refine ⟨D.move e.1 hh, ?_⟩
  intro a
  have h1 := e.2 a
  have h2 := live_put s.1 o hk a
  simp only [List.count_append] at h1 h2 ⊢
  omega

theorem two (D : DSafe Γ S s.1 s.2.heap) (hkj : k ≠ j) (hk : k < K) (hj : j < K)
    (m : Moved2 s.2.heap (ptrO (s.1 k)) (ptrO (s.1 j)) w'.heap (ptrO o) (ptrO o'))
    (e : Own s.2.user w'.user (objsO (s.1 k) ++ objsO (s.1 j) ++ G) (objsO o ++ objsO o'))
    (hh : ∀ a, o = some a → Held Γ S w'.heap a) (hh' : ∀ a, o' = some a → Held Γ S w'.heap a) :
    Stepped Γ S K s G (Slots.put (Slots.put s.1 k o) j o', w') := by
  refine ⟨D.move2 hkj m hh hh', ?_⟩
  intro a
  have h1 := e a
  have h2 := live_put s.1 o hk a
  have h3 := live_put (Slots.put s.1 k o) o' hj a
  rw [Slots.put_other _ _ (fun e => hkj e.symm)] at h3
  simp only [List.count_append] at h1 h2 h3 ⊢
  omega

end Stepped

/-- `r` is what a reference to the place `i` of `a` refers to. -/
inductive PlaceOf (Γ : TyEnv (Ledger U)) (S : Values Γ) (h : Heap) (i : Nat) (t : TyId) : Item V → ValueRef V → Prop
  | vec {c : VecDyn V} {es : List Bytes} (H : VecOk Γ S h t es c) (R : Repr Γ h t es c.data) (hi : i < es.length) : PlaceOf Γ S h i t (.vec c) (c.valueOf es[i])
  | lost {c : VecDyn V} {es : List Bytes} (H : VecOk Γ S h t es c) (u : UGood Γ c.data) : PlaceOf Γ S h i t (.vec c) (c.valueOf [])
  | box {v : BoxValue V} (H : BoxOk Γ S h t v) : PlaceOf Γ S h i t (.box v) v.asRef
  | small {v : SmallValue V} (H : SmallOk Γ S t v) : PlaceOf Γ S h i t (.small v) v.asRef

/-! ### Calling a method on a container -/

namespace DOp
variable {K k j i : Nat} {s : DSlots V × World (Ledger U)} {G : List Obj}

theorem OStep.stepped (D : DSafe Γ S s.1 s.2.heap) (hK : k < K) (hk : s.1 k = some (.vec c)) (H : VecOk Γ S s.2.heap t es c)
    {s' : VecDyn V × World (Ledger U)} (h : OStep Γ S t c s.2 (objs t es ++ G) s') :
    Stepped Γ S K s G (Slots.put s.1 k (some (.vec s'.1)), s'.2) := by
  obtain ⟨h1, es', h2, h3, h4⟩ := h
  refine Stepped.one D hK ?_ ?_
  · rw [hk]
    show Eff s.2 c.data.ptr ((Item.vec c).objs ++ G) s'.2 s'.1.data.ptr (Item.vec s'.1).objs
    rw [H.cont.objs, Cont.objs h2]
    exact h4
  · rintro a ⟨⟩
    exact ⟨t, es', by rw [h1]; exact H.tab, H.pos, h2, h3⟩

theorem onVec_own (D : DSafe Γ S s.1 s.2.heap) (hK : k < K) {m : M (VecDyn V × World (Ledger U)) Obs} {P : Obs → Prop}
    (h : ∀ c t es, s.1 k = some (.vec c) → VecOk Γ S s.2.heap t es c →
      NoUb m (c, s.2) (fun o s' => OStep Γ S t c s.2 (objs t es ++ G) s' ∧ P o) (fun s' => OStep Γ S t c s.2 (objs t es ++ G) s'))
    (hp : P .absent) : NoUb (onVec k m) s (fun o s' => Stepped Γ S K s G s' ∧ P o) (fun s' => Stepped Γ S K s G s') := by
  have habs : (∀ c, s.1 k ≠ some (.vec c)) → NoUb (onVec k m) s (fun o s' => Stepped Γ S K s G s' ∧ P o) (fun s' => Stepped Γ S K s G s') := by
    intro hn
    refine NoUb.of_ok (a := .absent) (s' := s) ?_ ⟨Stepped.refl D K G, hp⟩
    unfold onVec
    show (match s.1 k with | some (.vec c) => _ | _ => _) = _
    cases hs : s.1 k with
    | none => rfl
    | some a =>
      cases a with
      | vec c => exact absurd hs (hn c)
      | box b => rfl
      | small b => rfl
  cases hs : s.1 k with
  | none => exact habs (by simp [hs])
  | some a =>
    cases a with
    | vec c =>
      obtain ⟨t, es, H⟩ := D.held k _ hs
      refine NoUb.rearrange (n := m) (t := (c, s.2)) (f := fun q => (Slots.put s.1 k (some (.vec q.1)), q.2)) ?_ ?_
      · refine (h c t es hs H).mono ?_ ?_
        · intro o s' h; exact ⟨OStep.stepped D hK hs H h.1, h.2⟩
        · intro s' h; exact OStep.stepped D hK hs H h
      · show onVec k m s = _
        simp [onVec, hs]
    | box b => exact habs (by simp [hs])
    | small b => exact habs (by simp [hs])

/-! ### Creating something -/

theorem _root_.Dync.Moved.beside {h h1 h2 : Heap} {q p' : Ptr} (a : Moved h none h1 p') (b : Moved h1 q h2 none) : Moved h q h2 p' := by
  refine ⟨b.wf, Nat.le_trans a.next_le b.next_le, ?_, ?_⟩
  · intro j hj hq
    rw [b.other j (Nat.lt_of_lt_of_le hj a.next_le) hq, a.other j hj (by simp)]
  · intro i hi
    rcases a.ptr i hi with h | h
    · cases h
    · exact .inr h

/-- `variable k = a` where `a` was made while the variables were not touched. -/
theorem putItem_own (A : Acct Γ S) (D : DSafe Γ S s.1 s.2.heap) (hK : k < K) {a : Item V} {w1 : World (Ledger U)}
    (h : MadeItem Γ S s.2 none G a w1) :
    NoUb (putItem cfg k a) (s.1, w1) (fun _ s' => Stepped Γ S K s G s') (fun s' => Stepped Γ S K s G s') := by
  obtain ⟨h1, h2⟩ := h
  cases hs : s.1 k with
  | none =>
    refine NoUb.of_ok (a := ()) (s' := (Slots.put s.1 k (some a), w1)) (by simp [putItem, hs]) ?_
    refine Stepped.one D hK ?_ ?_
    · rw [hs]; exact h2
    · rintro b hb; cases hb; exact h1
  | some old =>
    have H := D.held k old hs
    have hlt := H.ptr_lt D.wf
    have H1 : Held Γ S w1.heap old := H.frame fun i hi => h2.1.other i (hlt i hi) (by simp)
    have key : ∀ w2, Eff w1 old.ptr old.objs w2 none [] → Stepped Γ S K s G (Slots.put s.1 k (some a), w2) := by
      intro w2 e
      refine Stepped.one D hK ?_ ?_
      · rw [hs]
        refine ⟨h2.1.beside e.1, ?_⟩
        show Own s.2.user w2.user (old.objs ++ G) a.objs
        intro x
        have h3 := h2.2 x
        have h4 := e.2 x
        simp only [List.count_append, List.count_nil] at h3 h4 ⊢
        omega
      · rintro b hb; cases hb
        refine h1.frame ?_
        intro i hi
        refine e.1.other i (h1.ptr_lt h2.wf i hi) ?_
        intro e'
        rcases h2.1.ptr i hi with h | h
        · cases h
        · have := hlt i e'.symm; omega
    refine NoUb.rearrange (n := old.drop cfg) (t := w1) (f := fun q => (Slots.put s.1 k (some a), q)) ?_ (by simp [putItem, hs])
    exact (H1.drop A h2.wf).mono (fun _ _ e => key _ e) fun _ e => key _ e

theorem create_own (A : Acct Γ S) (D : DSafe Γ S s.1 s.2.heap) (hK : k < K) {m : M (World (Ledger U)) (Item V)}
    (hm : NoUb m s.2 (fun a w' => MadeItem Γ S s.2 none G a w') (fun w' => Eff s.2 none G w' none [])) :
    NoUb (create cfg k m) s (fun o s' => Stepped Γ S K s G s' ∧ o = .done) (fun s' => Stepped Γ S K s G s') := by
  unfold create
  have lost : ∀ w', Eff s.2 none G w' none [] → Stepped Γ S K s G (s.1, w') := by
    intro w' e
    have := Stepped.one (k := k) (o := s.1 k) (G := G) (w' := w') D hK ⟨?_, ?_⟩ ?_
    · rw [Slots.put_self] at this; exact this
    · exact ⟨e.1.wf, e.1.next_le, fun j hj _ => e.1.other j hj (by simp), fun i hi => .inl hi⟩
    · intro x
      have := e.2 x
      simp only [List.count_append, List.count_nil] at this ⊢
      omega
    · intro a ha
      exact (D.held k a ha).frame fun i hi => e.1.other i ((D.held k a ha).ptr_lt D.wf i hi) (by simp)
  refine NoUb.bind (R := fun a s' => s'.1 = s.1 ∧ MadeItem Γ S s.2 none G a s'.2) (NoUb.onWorld (hm.mono (fun _ _ h => ⟨rfl, h⟩) fun _ h => lost _ h)) ?_
  rintro a ⟨s1, w1⟩ ⟨rfl, h⟩
  refine NoUb.bind (putItem_own A D hK h) ?_
  intro _ s' h
  exact NoUb.pure ⟨h, rfl⟩

/-! ### Places -/

theorem readRef_own (D : DSafe Γ S s.1 s.2.heap) (hf : Fits Γ cfg i) :
    NoUb (readRef cfg k i) s (fun o s' => s' = s ∧ (o = none ∧ s.1 k = none ∨
      ∃ r a t, o = some r ∧ s.1 k = some a ∧ RefOk Γ S t r ∧ PlaceOf Γ S s.2.heap i t a r)) (fun s' => s' = s) := by
  cases hs : s.1 k with
  | none => exact NoUb.of_ok (a := none) (s' := s) (by simp [readRef, hs]) ⟨rfl, .inl ⟨rfl, rfl⟩⟩
  | some a =>
    have H := D.held k a hs
    cases a with
    | vec c =>
      obtain ⟨t, es, H⟩ := H
      rcases (VecDyn.get_own (cfg := cfg) (i := i) H.tab H.pos H.cont H.valid hf s.2).cases_on with ⟨r, w', e, rfl, h1, h2⟩ | ⟨y, w', e, rfl⟩ | ⟨w', e⟩
      · refine NoUb.of_ok (a := some r) (s' := s) (by simp [readRef, hs, e, Res.map]) ⟨rfl, .inr ⟨r, _, t, rfl, rfl, h1, ?_⟩⟩
        rcases h2 with ⟨hi, R, rfl⟩ | ⟨u, rfl⟩
        · exact .vec H R hi
        · exact .lost H u
      · exact NoUb.of_panic (y := y) (s' := s) (by simp [readRef, hs, e, Res.map]) rfl
      · exact NoUb.of_abort (s' := s) (by simp [readRef, hs, e, Res.map])
    | box b =>
      obtain ⟨t, H⟩ := H
      exact NoUb.of_ok (a := some b.asRef) (s' := s) (by simp [readRef, hs]) ⟨rfl, .inr ⟨_, _, t, rfl, rfl, H.ref, .box H⟩⟩
    | small b =>
      obtain ⟨t, H⟩ := H
      exact NoUb.of_ok (a := some b.asRef) (s' := s) (by simp [readRef, hs]) ⟨rfl, .inr ⟨_, _, t, rfl, rfl, H.ref, .small H⟩⟩

/-- What the use of a mutable reference to a place in variable `k` does. -/
def MutPost (Γ : TyEnv (Ledger U)) (S : Values Γ) (k : Nat) (s : DSlots V × World (Ledger U)) (q : Ptr) (G : List Obj)
    (s' : DSlots V × World (Ledger U)) : Prop :=
  ∃ o, s'.1 = Slots.put s.1 k o ∧ ptrO o = ptrO (s.1 k) ∧ Moved s.2.heap q s'.2.heap none ∧
    Own s.2.user s'.2.user (objsO (s.1 k) ++ G) (objsO o) ∧ ∀ a, o = some a → Held Γ S s'.2.heap a

theorem onMut_own (D : DSafe Γ S s.1 s.2.heap) (hf : Fits Γ cfg i) {q : Ptr} (hq : ∀ i, ptrO (s.1 k) = some i → q ≠ some i)
    {m : M (ValueRef V × World (Ledger U)) Obs} (hk : s.1 k ≠ none)
    (hm : ∀ t r, RefOk Γ S t r → NoUb m (r, s.2) (fun _ s' => PStep Γ S t r s.2 q G s') (fun s' => PStep Γ S t r s.2 q G s')) :
    NoUb (onMut cfg k i m) s (fun _ s' => MutPost Γ S k s q G s') (fun s' => MutPost Γ S k s q G s') := by
  cases hs : s.1 k with
  | none => exact absurd hs hk
  | some a =>
    have H := D.held k a hs
    rw [hs] at hq
    cases a with
    | vec c =>
      obtain ⟨t, es, H⟩ := H
      refine NoUb.rearrange (n := VecDyn.getMut cfg i m) (t := (c, s.2)) (f := fun q => (Slots.put s.1 k (some (.vec q.1)), q.2)) ?_ (by simp [onMut, hs])
      have key : ∀ s', OStepQ Γ S t c s.2 q (objs t es ++ G) s' → MutPost Γ S k s q G (Slots.put s.1 k (some (.vec s'.1)), s'.2) := by
        rintro s' ⟨h1, h2, h3, es', h4, h5, h6⟩
        refine ⟨_, rfl, ?_, h3, ?_, ?_⟩
        · rw [hs]; exact h2
        · rw [hs]
          show Own s.2.user s'.2.user ((Item.vec c).objs ++ G) (Item.vec s'.1).objs
          rw [H.cont.objs, Cont.objs h4]; exact h6
        · rintro a ⟨⟩
          exact ⟨t, es', by rw [h1]; exact H.tab, H.pos, h4, h5⟩
      exact (VecDyn.getMut_own H.tab H.pos H.cont H.valid D.wf hf hq fun r _ hr => hm t r hr).mono (fun _ _ h => key _ h) fun _ h => key _ h
    | box b =>
      obtain ⟨t, H⟩ := H
      refine NoUb.rearrange (n := m) (t := (b.asRef, s.2)) (f := fun q => (Slots.put s.1 k (some (.box { b with bytes := ByteBuf.set q.1.bytes b.bytes })), q.2)) ?_
        (by simp [onMut, hs])
      have key : ∀ s', PStep Γ S t b.asRef s.2 q G s' →
          MutPost Γ S k s q G (Slots.put s.1 k (some (.box { b with bytes := ByteBuf.set s'.1.bytes b.bytes })), s'.2) := by
        rintro s' ⟨h1, h2, -⟩
        obtain ⟨h3, h4⟩ := h2 H.real
        have B : BoxOk Γ S s'.2.heap t { b with bytes := ByteBuf.set s'.1.bytes b.bytes } :=
          ⟨H.tab, ⟨H.real.type_id, H.real.alignment, H.real.unit, h3⟩,
            H.block.frame fun i hi => h1.other i (H.block.ptr_lt D.wf i hi) fun e => hq i hi e.symm⟩
        refine ⟨_, rfl, ?_, h1, ?_, ?_⟩
        · rw [hs]; rfl
        · rw [hs]
          show Own s.2.user s'.2.user ((Item.box b).objs ++ G) (Item.box _).objs
          rw [H.objs, B.objs]; exact h4
        · rintro a ⟨⟩
          exact ⟨t, B⟩
      exact (hm t _ H.ref).mono (fun _ _ h => key _ h) fun _ h => key _ h
    | small b =>
      obtain ⟨t, H⟩ := H
      refine NoUb.rearrange (n := m) (t := (b.asRef, s.2)) (f := fun q => (Slots.put s.1 k (some (.small { b with bytes := ByteBuf.set q.1.bytes b.bytes })), q.2)) ?_
        (by simp [onMut, hs])
      have key : ∀ s', PStep Γ S t b.asRef s.2 q G s' →
          MutPost Γ S k s q G (Slots.put s.1 k (some (.small { b with bytes := ByteBuf.set s'.1.bytes b.bytes })), s'.2) := by
        rintro s' ⟨h1, h2, -⟩
        obtain ⟨h3, h4⟩ := h2 H.real
        have B : SmallOk Γ S t { b with bytes := ByteBuf.set s'.1.bytes b.bytes } :=
          ⟨H.tab, ⟨H.real.type_id, H.real.alignment, H.real.unit, h3⟩, H.size⟩
        refine ⟨_, rfl, ?_, h1, ?_, ?_⟩
        · rw [hs]; rfl
        · rw [hs]
          show Own s.2.user s'.2.user ((Item.small b).objs ++ G) (Item.small _).objs
          rw [H.objs, B.objs]; exact h4
        · rintro a ⟨⟩
          exact ⟨t, B⟩
      exact (hm t _ H.ref).mono (fun _ _ h => key _ h) fun _ h => key _ h

end DOp
end Dync
