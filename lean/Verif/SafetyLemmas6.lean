import Verif.SafetyLemmas5
import Verif.HistoryLemmas
/-!
# Helper lemmas: programs over several containers, whatever they do
-/
namespace Dync
variable {U V α : Type} {Γ : TyEnv U} {S : Values Γ} {t : TyId} {c : VecCopy V} {w : World U} {cfg : Cfg} {vt : V}
  {sl : Slots V} {p : Ptr} {h h' : Heap} {k : Nat}

/-- Every container of the program is healthy or lost, and no two share a buffer. `p` is the buffer
of a container that is being moved between variables, if there is one. -/
structure SInv (Γ : TyEnv U) (S : Values Γ) (sl : Slots V) (p : Ptr) (h : Heap) : Prop where
  wf : h.WF
  good : ∀ k c, sl k = some c → Good Γ S h c.data
  alone : ∀ k j c d i, sl k = some c → sl j = some d → c.data.ptr = some i → d.data.ptr = some i → k = j
  hand : ∀ k c i, sl k = some c → c.data.ptr = some i → p ≠ some i

theorem SInv.moved {p' : Ptr} (I : SInv Γ S sl p h) (m : Moved h p h' p') : SInv Γ S sl p' h' := by
  refine ⟨m.wf, ?_, I.alone, ?_⟩
  · intro k c hk
    refine (I.good k c hk).frame ?_
    intro i hi
    exact m.other i ((I.good k c hk).ptr_lt I.wf i hi) fun e => I.hand k c i hk hi e.symm
  · intro k c i hk hi e
    rcases m.ptr i e with h1 | h1
    · exact I.hand k c i hk hi h1
    · have := (I.good k c hk).ptr_lt I.wf i hi
      omega

theorem SInv.take (I : SInv Γ S sl none h) (hk : sl k = some c) : SInv Γ S (Slots.put sl k none) c.data.ptr h := by
  refine ⟨I.wf, ?_, ?_, ?_⟩
  · intro j d hj
    by_cases e : j = k
    · rw [e, Slots.put_same] at hj; cases hj
    · rw [Slots.put_other _ _ e] at hj; exact I.good j d hj
  · intro j j' d d' i hj hj'
    by_cases e : j = k
    · rw [e, Slots.put_same] at hj; cases hj
    by_cases e' : j' = k
    · rw [e', Slots.put_same] at hj'; cases hj'
    rw [Slots.put_other _ _ e] at hj
    rw [Slots.put_other _ _ e'] at hj'
    exact I.alone j j' d d' i hj hj'
  · intro j d i hj hi e
    by_cases e' : j = k
    · rw [e', Slots.put_same] at hj; cases hj
    rw [Slots.put_other _ _ e'] at hj
    exact e' (I.alone j k d c i hj hk hi e)

theorem SInv.put (I : SInv Γ S (Slots.put sl k none) c.data.ptr h) (g : Good Γ S h c.data) :
    SInv Γ S (Slots.put sl k (some c)) none h := by
  have key : ∀ j d, Slots.put sl k (some c) j = some d → j = k ∧ d = c ∨ j ≠ k ∧ Slots.put sl k none j = some d := by
    intro j d hj
    by_cases e : j = k
    · rw [e, Slots.put_same] at hj; exact .inl ⟨e, (Option.some.inj hj).symm⟩
    · rw [Slots.put_other _ _ e] at hj; exact .inr ⟨e, by rw [Slots.put_other _ _ e]; exact hj⟩
  refine ⟨I.wf, ?_, ?_, fun _ _ _ _ _ h => by cases h⟩
  · intro j d hj
    rcases key j d hj with ⟨_, rfl⟩ | ⟨_, h1⟩
    · exact g
    · exact I.good j d h1
  · intro j j' d d' i hj hj' hi hi'
    rcases key j d hj with ⟨e1, rfl⟩ | ⟨e1, h1⟩ <;> rcases key j' d' hj' with ⟨e2, rfl⟩ | ⟨e2, h2⟩
    · rw [e1, e2]
    · exact absurd hi (I.hand j' d' i h2 hi')
    · exact absurd hi' (I.hand j d i h1 hi)
    · exact I.alone j j' d d' i h1 h2 hi hi'

theorem SInv.empty (I : SInv Γ S sl p h) (hk : sl k = none) : SInv Γ S (Slots.put sl k none) p h := by
  have : Slots.put sl k none = sl := by rw [← hk]; exact Slots.put_self sl k
  rw [this]; exact I

/-- The invariant with nothing in transit. -/
abbrev SOk (Γ : TyEnv U) (S : Values Γ) (s : Slots V × World U) : Prop := SInv Γ S s.1 none s.2.heap

theorem SInv.step {c' : VecCopy V} {w' : World U} (I : SOk Γ S (sl, w)) (hk : sl k = some c) (st : CStep Γ S (c, w) (c', w')) :
    SOk Γ S (Slots.put sl k (some c'), w') :=
  ((I.take hk).moved st.1).put st.2.2

/-- The old content is dropped while a new container waits. -/
theorem SInv.replace {old : VecCopy V} (I : SInv Γ S sl c.data.ptr h) (g : Good Γ S h c.data) (hk : sl k = some old)
    (m : Moved h old.data.ptr h' none) : SInv Γ S (Slots.put sl k none) c.data.ptr h' ∧ Good Γ S h' c.data := by
  have hother : ∀ i, c.data.ptr = some i → h'.live i = h.live i := by
    intro i hi
    exact m.other i (g.ptr_lt I.wf i hi) fun e => I.hand k old i hk e.symm hi
  refine ⟨⟨m.wf, ?_, ?_, ?_⟩, g.frame hother⟩
  · intro j d hj
    by_cases e : j = k
    · rw [e, Slots.put_same] at hj; cases hj
    rw [Slots.put_other _ _ e] at hj
    refine (I.good j d hj).frame ?_
    intro i hi
    exact m.other i ((I.good j d hj).ptr_lt I.wf i hi) fun e' => e (I.alone j k d old i hj hk hi e'.symm)
  · intro j j' d d' i hj hj'
    by_cases e : j = k
    · rw [e, Slots.put_same] at hj; cases hj
    by_cases e' : j' = k
    · rw [e', Slots.put_same] at hj'; cases hj'
    rw [Slots.put_other _ _ e] at hj
    rw [Slots.put_other _ _ e'] at hj'
    exact I.alone j j' d d' i hj hj'
  · intro j d i hj
    by_cases e : j = k
    · rw [e, Slots.put_same] at hj; cases hj
    rw [Slots.put_other _ _ e] at hj
    exact I.hand j d i hj

theorem assign_runs (I : SInv Γ S sl c.data.ptr w.heap) (g : Good Γ S w.heap c.data) (k : Nat) :
    Runs (Op.assign cfg k c) (sl, w) (fun _ s => SOk Γ S s) (fun _ => False) := by
  unfold Op.assign
  refine Runs.bind_ok (b := (sl, w)) (s' := (sl, w)) rfl ?_
  cases hk : sl k with
  | none =>
    simp only [hk]
    exact Runs.of_ok (a := ()) (s' := (Slots.put sl k (some c), w)) rfl ((I.empty hk).put g)
  | some old =>
    simp only [hk]
    refine Runs.bind (R := fun _ s => s.1 = sl ∧ SInv Γ S (Slots.put sl k none) c.data.ptr s.2.heap ∧ Good Γ S s.2.heap c.data) ?_ ?_
    · refine Runs.onWorld ((VecVoid.drop_runs (I.good k old hk) I.wf).mono ?_ fun _ h => h)
      rintro _ w' ⟨m, _⟩
      exact ⟨rfl, I.replace g hk m⟩
    · rintro _ ⟨sl', w'⟩ ⟨rfl, I', g'⟩
      exact I'.put g'

/-- A constructor followed by an assignment. -/
theorem create_runs {m : M (World U) (VecCopy V)} (I : SOk Γ S (sl, w)) (k : Nat) {b : α}
    (hm : Runs m w (fun c w' => New Γ S w c.data w') (Kept w)) :
    Runs (do let c ← onWorld m; Op.assign cfg k c; pure b : M (Slots V × World U) α) (sl, w)
      (fun r s => r = b ∧ SOk Γ S s) (fun s => SOk Γ S s) := by
  refine Runs.bind (R := fun c s => SInv Γ S s.1 c.data.ptr s.2.heap ∧ Good Γ S s.2.heap c.data) ?_ ?_
  · refine Runs.onWorld (hm.mono ?_ ?_)
    · rintro c w' ⟨m1, _, g⟩
      exact ⟨I.moved m1, g⟩
    · rintro w' ⟨m1, _⟩
      exact I.moved m1
  · rintro c ⟨sl', w'⟩ ⟨I', g⟩
    refine Runs.bind (R := fun _ s => SOk Γ S s) ((assign_runs I' g k).mono (fun _ _ h => h) fun _ h => h.elim) ?_
    rintro _ s h1
    exact ⟨rfl, h1⟩

/-- A method on the container of one variable. -/
theorem onSlot_runs {m : M (VecCopy V × World U) Obs} {P : VecCopy V → Obs → Prop} (I : SOk Γ S (sl, w)) (k : Nat)
    (hm : ∀ c, sl k = some c → Good Γ S w.heap c.data → Runs m (c, w) (fun o s => P c o ∧ CStep Γ S (c, w) s) (fun s => CStep Γ S (c, w) s)) :
    Runs (Op.onSlot k m) (sl, w) (fun o s => (o = .absent ∨ ∃ c, sl k = some c ∧ P c o) ∧ SOk Γ S s) (fun s => SOk Γ S s) := by
  cases hk : sl k with
  | none => exact Runs.of_ok (a := .absent) (s' := (sl, w)) (by simp [Op.onSlot, hk]) ⟨.inl rfl, I⟩
  | some c =>
    rcases (hm c hk (I.good k c hk)).cases_on with ⟨o, ⟨c', w'⟩, e, hp, st⟩ | ⟨y, ⟨c', w'⟩, e, st⟩
    · exact Runs.of_ok (a := o) (s' := (Slots.put sl k (some c'), w')) (by simp [Op.onSlot, hk, e]) ⟨.inr ⟨c, rfl, hp⟩, I.step hk st⟩
    · exact Runs.of_panic (y := y) (s' := (Slots.put sl k (some c'), w')) (by simp [Op.onSlot, hk, e]) (I.step hk st)

/-- A method that only changes the container. -/
theorem onSlot_keeps {m : M (VecCopy V × World U) Obs} (I : SOk Γ S (sl, w)) (k : Nat)
    (hm : ∀ c, Good Γ S w.heap c.data → Runs m (c, w) (fun _ s => CStep Γ S (c, w) s) (fun s => CStep Γ S (c, w) s)) :
    Runs (Op.onSlot k m) (sl, w) (fun _ s => SOk Γ S s) (fun s => SOk Γ S s) :=
  (onSlot_runs (P := fun _ _ => True) I k fun c _ g => (hm c g).mono (fun _ _ h => ⟨trivial, h⟩) fun _ h => h).mono (fun _ _ h => h.2) fun _ h => h

theorem ret_runs {m : M (VecCopy V × World U) α} {f : α → Obs} {Q : VecCopy V × World U → Prop} {s : VecCopy V × World U}
    (h : Runs m s (fun _ s => Q s) Q) : Runs (do return f (← m)) s (fun _ s => Q s) Q :=
  Runs.bind h fun _ _ h => h

theorem seq_runs {m : M (VecCopy V × World U) Unit} {o : Obs} {Q : VecCopy V × World U → Prop} {s : VecCopy V × World U}
    (h : Runs m s (fun _ s => Q s) Q) : Runs (do m; return o) s (fun _ s => Q s) Q :=
  Runs.bind h fun _ _ h => h

theorem takeSlot_runs {m : VecCopy V → M (Slots V × World U) Obs} {Q : Obs → Slots V × World U → Prop} {E : Slots V × World U → Prop}
    (I : SOk Γ S (sl, w)) (k : Nat) (h0 : Q .absent (sl, w))
    (hm : ∀ c, SInv Γ S (Slots.put sl k none) c.data.ptr w.heap → Good Γ S w.heap c.data → Runs (m c) (Slots.put sl k none, w) Q E) :
    Runs (Op.takeSlot k m) (sl, w) Q E := by
  cases hk : sl k with
  | none => exact Runs.of_ok (a := .absent) (s' := (sl, w)) (by simp [Op.takeSlot, hk]) h0
  | some c =>
    have := hm c (I.take hk) (I.good k c hk)
    unfold Runs at this ⊢
    simpa [Op.takeSlot, hk] using this

theorem append_slots_runs (I : SOk Γ S (sl, w)) (k j : Nat) :
    Runs ((Op.append k j).exec Γ cfg vt) (sl, w) (fun _ s => SOk Γ S s) (fun s => SOk Γ S s) := by
  by_cases hkj : k = j
  · exact Runs.of_ok (a := .absent) (s' := (sl, w)) (by simp [Op.exec, hkj]) I
  cases hk : sl k with
  | none => exact Runs.of_ok (a := .absent) (s' := (sl, w)) (by simp [Op.exec, hkj, hk]) I
  | some c =>
    cases hj : sl j with
    | none => exact Runs.of_ok (a := .absent) (s' := (sl, w)) (by simp [Op.exec, hkj, hk, hj]) I
    | some b =>
      have gc := I.good k c hk
      have gb := I.good j b hj
      have hd : ∀ i, c.data.ptr = some i → b.data.ptr ≠ some i := fun i h1 h2 => hkj (I.alone k j c b i hk hj h1 h2)
      have hput : ∀ (c' b' : VecCopy V) (w' : World U), Moved2 w.heap c.data.ptr b.data.ptr w'.heap c'.data.ptr b'.data.ptr →
          Good Γ S w'.heap c'.data → Good Γ S w'.heap b'.data → SOk Γ S (Slots.put (Slots.put sl k (some c')) j (some b'), w') := by
        intro c' b' w' m gc' gb'
        have key : ∀ n d, Slots.put (Slots.put sl k (some c')) j (some b') n = some d →
            n = j ∧ d = b' ∨ n = k ∧ d = c' ∨ (n ≠ j ∧ n ≠ k ∧ sl n = some d) := by
          intro n d hn
          by_cases e : n = j
          · rw [e, Slots.put_same] at hn; exact .inl ⟨e, (Option.some.inj hn).symm⟩
          rw [Slots.put_other _ _ e] at hn
          by_cases e' : n = k
          · rw [e', Slots.put_same] at hn; exact .inr (.inl ⟨e', (Option.some.inj hn).symm⟩)
          rw [Slots.put_other _ _ e'] at hn
          exact .inr (.inr ⟨e, e', hn⟩)
        have hlt : ∀ n d i, sl n = some d → d.data.ptr = some i → i < w.heap.next := fun n d i hn hi => (I.good n d hn).ptr_lt I.wf i hi
        have hc' : ∀ n d i, n ≠ k → sl n = some d → d.data.ptr = some i → c'.data.ptr ≠ some i := by
          intro n d i hn hd' hi e
          rcases m.ptr i e with h1 | h1
          · exact hn (I.alone n k d c i hd' hk hi h1)
          · have := hlt n d i hd' hi
            omega
        have hb' : ∀ n d i, n ≠ j → sl n = some d → d.data.ptr = some i → b'.data.ptr ≠ some i := by
          intro n d i hn hd' hi e
          rcases m.ptr2 i e with h1 | h1
          · exact hn (I.alone n j d b i hd' hj hi h1)
          · have := hlt n d i hd' hi
            omega
        refine ⟨m.wf, ?_, ?_, fun _ _ _ _ _ h => by cases h⟩
        · intro n d hn
          rcases key n d hn with ⟨_, rfl⟩ | ⟨_, rfl⟩ | ⟨e1, e2, h1⟩
          · exact gb'
          · exact gc'
          · refine (I.good n d h1).frame ?_
            intro i hi
            refine m.other i (hlt n d i h1 hi) ?_ ?_
            · intro e; exact e2 (I.alone n k d c i h1 hk hi e.symm)
            · intro e; exact e1 (I.alone n j d b i h1 hj hi e.symm)
        · intro n n' d d' i hn hn' hi hi'
          rcases key n d hn with ⟨e1, rfl⟩ | ⟨e1, rfl⟩ | ⟨e1, e2, h1⟩ <;>
            rcases key n' d' hn' with ⟨e3, rfl⟩ | ⟨e3, rfl⟩ | ⟨e3, e4, h3⟩
          · rw [e1, e3]
          · exact absurd hi (m.dist i hi')
          · exact absurd hi (hb' n' d' i e3 h3 hi')
          · exact absurd hi' (m.dist i hi)
          · rw [e1, e3]
          · exact absurd hi (hc' n' d' i e4 h3 hi')
          · exact absurd hi' (hb' n d i e1 h1 hi)
          · exact absurd hi' (hc' n d i e2 h1 hi)
          · exact I.alone n n' d d' i h1 h3 hi hi'
      have hrun : Runs (VecCopy.append Γ cfg) (c, (⟨w.heap, (b, w.user)⟩ : World (VecCopy V × U)))
          (fun _ s => SOk Γ S (Slots.put (Slots.put sl k (some s.1)) j (some s.2.user.1), (⟨s.2.heap, s.2.user.2⟩ : World U)))
          (fun s => SOk Γ S (Slots.put (Slots.put sl k (some s.1)) j (some s.2.user.1), (⟨s.2.heap, s.2.user.2⟩ : World U))) := by
        unfold VecCopy.append
        refine Runs.bind_ok (b := c) rfl ?_
        refine Runs.bind_ok (b := (c, (⟨w.heap, (b, w.user)⟩ : World (VecCopy V × U)))) rfl ?_
        show Runs (if b.elementTypeId = c.elementTypeId then _ else _) _ _ _
        split
        · refine Runs.bind (R := fun _ s => SOk Γ S (Slots.put (Slots.put sl k (some s.1)) j (some s.2.user.1), (⟨s.2.heap, s.2.user.2⟩ : World U)))
            (Runs.zoom ((VecVoid.append_runs (w := ⟨w.heap, (b.data, w.user)⟩) gc gb I.wf hd).mono ?_ ?_)) fun _ _ h => h
          · rintro _ s ⟨m, g1, g2, _⟩
            exact hput _ _ ⟨s.2.heap, s.2.user.2⟩ m g1 g2
          · rintro s ⟨m, g1, g2, _⟩
            exact hput _ _ ⟨s.2.heap, s.2.user.2⟩ m g1 g2
        · refine Runs.of_ok rfl ?_
          have : Slots.put (Slots.put sl k (some c)) j (some b) = sl := by
            rw [← hk, Slots.put_self, ← hj, Slots.put_self]
          show SOk Γ S (Slots.put (Slots.put sl k (some c)) j (some b), w)
          rw [this]
          exact I
      rcases hrun.cases_on with ⟨o, s', e, hp⟩ | ⟨y, s', e, hp⟩
      · exact Runs.of_ok (a := Obs.ofUnit o) (by simp [Op.exec, hkj, hk, hj, e, Res.map]) hp
      · exact Runs.of_panic (y := y) (by simp [Op.exec, hkj, hk, hj, e, Res.map]) hp

theorem intoVec_runs (g : Good Γ S w.heap c.data) (wf : w.heap.WF) (t : TyId) :
    Runs (VecCopy.intoVec Γ cfg t c) w
      (fun r w' => match r with
        | none => Moved w.heap c.data.ptr w'.heap none
        | some v => w' = w ∧ (v.ptr = c.data.ptr) ∧ (Γ.size t = 0 ∨ VGood (Γ.layout t) w.heap v) ∧
          ∃ es : List Bytes, (0 < Γ.size t → v.bytes = es.flatten) ∧ ∀ e ∈ es, S.valid t e) (fun _ => False) := by
  unfold VecCopy.intoVec VecCopy.check
  by_cases ht : t = c.elementTypeId
  · rw [if_neg (fun h => h ht)]
    refine Runs.bind_ok (b := some c) (s' := w) rfl ?_
    have ht' : t = c.data.elem.type_id := ht
    rcases g with ⟨t0, es, R, hv⟩ | u
    · rw [R.type_id] at ht'
      subst ht'
      refine Runs.bind_ok (R.intoVec cfg w) ?_
      exact ⟨rfl, rfl, .inr R.typedGood, es, fun _ => R.mem, hv⟩
    · have h1 : t = Γ.unitTy := by rw [ht', u.elem]; rfl
      subst h1
      refine Runs.bind_ok (u.typedView w) ?_
      exact ⟨rfl, u.ptr.symm, .inl Γ.unit_size, [], fun h => absurd Γ.unit_size (by omega), fun _ h => by cases h⟩
  · rw [if_pos ht]
    refine Runs.bind (R := fun r w' => r = none ∧ Moved w.heap c.data.ptr w'.heap none) ?_ ?_
    · exact Runs.bind (VecVoid.drop_runs g wf) fun _ w' h => ⟨rfl, h.1⟩
    · rintro _ w' ⟨rfl, m⟩
      exact m

end Dync
