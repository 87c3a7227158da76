import Verif.OwnVec2
/-!
# Helper lemmas: who owns the elements of a `VecDyn`, continued

Constructors, `resize`, `fill`, typed assignment, cloning into a `Vec`, `push_cloned`, rotation.
-/
namespace Dync
variable {U V α : Type} {Γ : TyEnv (Ledger U)} {S : Values Γ} {t t' : TyId} {es : List Bytes} {x : Bytes}
  {w : World (Ledger U)} {cfg : Cfg} {v : VecVoid} {c : VecDyn V} {vt : V}

/-! ### Constructors -/

/-- A container of element type `t` was made; `G` was passed to the constructor by value. -/
def Made (Γ : TyEnv (Ledger U)) (S : Values Γ) (t : TyId) (vt : V) (w : World (Ledger U)) (G : List Obj)
    (c : VecDyn V) (w' : World (Ledger U)) : Prop :=
  c.vtable = vt ∧ ∃ es, Repr Γ w'.heap t es c.data ∧ (∀ e ∈ es, S.valid t e) ∧ Eff w none G w' c.data.ptr (objs t es)

theorem VecCopy.fromVec_made (A : Acct Γ S) {G : List Obj} {r : RVec} {w1 : World (Ledger U)} (h : TVal Γ S t w none G (r, w1)) :
    NoUb (VecCopy.fromVec Γ t vt r) w1 (fun c w' => Made Γ S t vt w G c w') (fun w' => Eff w none G w' none []) := by
  obtain ⟨es, h1, h2, h3⟩ := h
  refine (VecCopy.fromVec_own A h1 h2 h3.wf).mono ?_ ?_
  · rintro c w' ⟨k1, k2, k3⟩
    exact ⟨k1, es, k2, h2, h3.trans k3⟩
  · rintro w' k
    exact h3.trans k

theorem VecCopy.withType_own (A : Acct Γ S) (wf : w.heap.WF) :
    NoUb (VecCopy.withType Γ t vt) w (fun c w' => Made Γ S t vt w [] c w') (fun w' => Eff w none [] w' none []) :=
  VecCopy.fromVec_made A ⟨[], TV.ofNew wf, by simp, ⟨(Moved.refl wf none : Moved w.heap none w.heap (RVec.new (Γ.layout t)).ptr), Own.refl _ _⟩⟩

theorem withCapacity_tval (wf : w.heap.WF) (n : Nat) (G : List Obj) :
    NoUb (RVec.withCapacity (Γ.layout t) n) w (fun r w' => TVal Γ S t w none [] (r, w')) (fun w' => Eff w none G w' none []) := by
  refine (TV.withCapacity (t := t) wf n).mono ?_ ?_
  · rintro r w' ⟨h1, _, h2, h3⟩
    exact ⟨[], h1, by simp, Eff.ofMoved h2 h3 _⟩
  · rintro w' rfl
    exact Eff.forget wf _ _

theorem VecCopy.withCapacity_own (A : Acct Γ S) (wf : w.heap.WF) (n : Nat) :
    NoUb (VecCopy.withCapacity Γ t vt n) w (fun c w' => Made Γ S t vt w [] c w') (fun w' => Eff w none [] w' none []) := by
  unfold VecCopy.withCapacity
  refine NoUb.bind (withCapacity_tval (S := S) wf n []) ?_
  intro r w' h
  exact VecCopy.fromVec_made A h

/-- `from_vec` of a `Vec` with exactly these elements. -/
theorem fromVec_own (A : Acct Γ S) (wf : w.heap.WF) {xs : List Bytes} (hx : ∀ x ∈ xs, S.valid t x) :
    NoUb (do let v ← RVec.withCapacity (Γ.layout t) xs.length
             VecCopy.fromVec Γ t vt { v with len := xs.length, bytes := xs.flatten }) w
      (fun c w' => Made Γ S t vt w (objs t xs) c w') (fun w' => Eff w none (objs t xs) w' none []) := by
  have hl : ∀ x ∈ xs, x.length = Γ.size t := fun x h => S.len t x (hx x h)
  refine NoUb.bind ((TV.withCapacity (t := t) wf xs.length).mono (fun _ _ h => h) ?_) ?_
  · rintro w' rfl
    exact Eff.forget wf _ _
  · rintro r w' ⟨h1, h2, h3, h4⟩
    refine VecCopy.fromVec_made A ⟨xs, ⟨rfl, hl, rfl, ?_⟩, hx, Eff.ofMoved h3 h4 _⟩
    rcases h2 with h2 | ⟨h2, h5⟩
    · exact .inl h2
    · exact .inr (h2.set (by rw [h5]; exact Nat.le_refl _) (by rw [length_flatten_eq hl]))

theorem TVal.dropLocal (A : Acct Γ S) {p : Ptr} {G : List Obj} {s : RVec × World (Ledger U)} (h : TVal Γ S t w p G s) :
    NoUb (RVec.dropTyped Γ t s.1) s.2 (fun _ w' => Eff w p G w' none []) (fun _ => True) := by
  obtain ⟨es, h1, h2, h3⟩ := h
  refine (h1.dropTyped A h2 h3.wf).mono ?_ fun _ _ => trivial
  intro _ w' h
  exact h3.trans h

theorem VecDyn.fromSlice_own (A : Acct Γ S) (wf : w.heap.WF) {xs : List Bytes} (hx : ∀ x ∈ xs, S.valid t x) :
    NoUb (VecDyn.fromSlice Γ t vt xs) w (fun c w' => Made Γ S t vt w [] c w') (fun w' => Eff w none [] w' none []) := by
  unfold VecDyn.fromSlice
  refine NoUb.bind (withCapacity_tval (S := S) wf _ []) ?_
  intro r w1 h
  refine NoUb.bind (NoUb.withLocal (Q := fun a w2 => TVal Γ S t w none [] (a.2, w2)) ?_) ?_
  · refine (RVec.extendClone_own A hx h).mono (fun _ _ h => h) ?_
    intro s hs
    exact hs.dropLocal A
  · rintro ⟨_, r2⟩ w2 h2
    exact VecCopy.fromVec_made A h2

theorem VecDyn.withSize_own (A : Acct Γ S) (wf : w.heap.WF) (n : Nat) (hx : S.valid t x) :
    NoUb (VecDyn.withSize Γ t vt n x) w (fun c w' => Made Γ S t vt w [(t, x)] c w') (fun w' => Eff w none [(t, x)] w' none []) := by
  unfold VecDyn.withSize
  refine NoUb.bind (R := fun r w' => TVal Γ S t w none [] (r, w')) (NoUb.onUnwind (E1 := fun w' => w' = w)
    ((TV.withCapacity (t := t) wf n).mono (fun r w' h => ⟨[], h.1, by simp, Eff.ofMoved h.2.2.1 h.2.2.2 _⟩) fun _ h => h) ?_) ?_
  · rintro _ rfl
    exact (A.dropW _ hx).mono (fun _ w2 h => Eff.ofUsr wf none h) fun _ _ => trivial
  intro r w1 h
  refine NoUb.bind (NoUb.withLocal (Q := fun a w2 => TVal Γ S t w none [(t, x)] (a.2, w2)) ?_) ?_
  · refine (RVec.extendWith_own A n hx h).mono (fun _ _ h => by simpa using h) ?_
    intro s hs
    exact TVal.dropLocal (G := [(t, x)]) A (by simpa using hs)
  · rintro ⟨_, r2⟩ w2 h2
    exact VecCopy.fromVec_made A h2

/-! ### Methods that change the number of elements -/

theorem OStep.trans {I O : List Obj} {c1 : VecDyn V} {w1 : World (Ledger U)} {s : VecDyn V × World (Ledger U)}
    (hvt : c1.vtable = c.vtable) (e : Eff w c.data.ptr I w1 c1.data.ptr O) (h : OStep Γ S t c1 w1 O s) : OStep Γ S t c w I s := by
  obtain ⟨h1, es', h2, h3, h4⟩ := h
  exact ⟨h1.trans hvt, es', h2, h3, e.trans h4⟩

theorem VecVoid.reserve_own (g : Cont Γ w.heap t es c.data) (hv : ∀ e ∈ es, S.valid t e) (wf : w.heap.WF) (n : Nat) :
    NoUb (VecCopy.onData (VecVoid.reserve Γ cfg n)) (c, w) (fun _ s => OStep Γ S t c w (objs t es) s) (fun s => OStep Γ S t c w (objs t es) s) :=
  onData_own ((VecVoid.reserve_x g wf n).mono (fun _ _ h => h.own hv) fun _ h => h.own hv)

theorem VecCopy.rotateLeft_own (g : Cont Γ w.heap t es c.data) (hv : ∀ e ∈ es, S.valid t e) (wf : w.heap.WF) {n : Nat}
    (hn : NoWrap cfg (n * c.data.elem.size)) :
    NoUb (VecCopy.rotateLeft Γ cfg n) (c, w) (fun _ s => OStep Γ S t c w (objs t es) s) (fun s => OStep Γ S t c w (objs t es) s) :=
  onData_own ((VecVoid.rotateLeft_x g wf hn).mono (fun _ _ h => h.own hv) fun _ h => h.own hv)

theorem VecCopy.rotateRight_own (g : Cont Γ w.heap t es c.data) (hv : ∀ e ∈ es, S.valid t e) (wf : w.heap.WF) {n : Nat}
    (hn : NoWrap cfg (n * c.data.elem.size)) :
    NoUb (VecCopy.rotateRight Γ cfg n) (c, w) (fun _ s => OStep Γ S t c w (objs t es) s) (fun s => OStep Γ S t c w (objs t es) s) :=
  onData_own ((VecVoid.rotateRight_x g wf hn).mono (fun _ _ h => h.own hv) fun _ h => h.own hv)

theorem VecDyn.pushCloned_own [HasDrop (Ledger U) V] [HasClone (Ledger U) V] (A : Acct Γ S) (T : Tab Γ t c.vtable)
    (g : Cont Γ w.heap t es c.data) (hv : ∀ e ∈ es, S.valid t e) (wf : w.heap.WF) {r : ValueRef V}
    (hr : c.elementTypeId = r.type_id → Usable S t r.bytes) :
    NoUb (VecDyn.pushCloned Γ cfg r) (c, w) (fun _ s => OStep Γ S t c w (objs t es) s) (fun s => OStep Γ S t c w (objs t es) s) := by
  unfold VecDyn.pushCloned
  refine NoUb.bind_ok (b := c) (s' := (c, w)) rfl ?_
  by_cases he : c.elementTypeId = r.type_id
  · rw [if_pos he, T.cloneIntoRaw]
    refine NoUb.bind (R := fun _ s => OStep Γ S t c w (objs t es) s) (onData_own ?_) fun _ _ h => h
    exact VecVoid.pushCloned_own A g hv wf (hr he)
  · rw [if_neg he]
    have := OStep.refl (S := S) (c := c) g hv wf []
    exact NoUb.pure (by simpa using this)

theorem resizeGrow_own (A : Acct Γ S) (hu : t ≠ Γ.unitTy) (hx : S.valid t x) {I : List Obj} {s : VecDyn V × World (Ledger U)}
    (h : OStep Γ S t c w I s) :
    NoUb (do let d ← onWorld (worldUser (Γ.clone t x)); let _ ← VecCopy.pushAs Γ cfg t d; pure ()) s
      (fun _ s => OStep Γ S t c w I s) (fun s => OStep Γ S t c w I s) := by
  obtain ⟨c1, w1⟩ := s
  refine NoUb.bind (NoUb.onWorld (Q := fun d s => S.valid t d ∧ s.1 = c1 ∧ Usr w1 s.2 [] [(t, d)]) ((A.cloneW w1 hx).mono ?_ ?_)) ?_
  · rintro d w2 ⟨h1, h2⟩
    exact ⟨h1, rfl, h2⟩
  · rintro w2 h2
    have := h.andThen h2
    simpa using this
  · rintro d ⟨c2, w2⟩ ⟨h1, rfl, h2⟩
    simp only at h2
    obtain ⟨k1, es1, k2, k3, k4⟩ := h
    simp only at k1 k2 k4
    have e := (k4.andThen h2).mono (I' := I) (O' := objs t es1 ++ [(t, d)]) (fun a => by simp) fun a => Nat.le_refl _
    have k2' : Cont Γ w2.heap t es1 c2.data := by rw [h2.1]; exact k2
    refine NoUb.bind (R := fun _ s => OStep Γ S t c w I s) ?_ fun _ _ h => h
    refine (VecCopy.pushAs_own (cfg := cfg) A k2' k3 e.wf hu h1).mono ?_ ?_
    · rintro _ s hs
      exact hs.trans k1 e
    · rintro s hs
      exact hs.trans k1 e

theorem VecDyn.resizeBody_own [HasDrop (Ledger U) V] [HasClone (Ledger U) V] (A : Acct Γ S) (T : Tab Γ t c.vtable) (q : Quiet Γ S t')
    (hu : t' ≠ Γ.unitTy) (g : Cont Γ w.heap t es c.data) (hv : ∀ e ∈ es, S.valid t e) (wf : w.heap.WF) (hx : S.valid t' x) (n : Nat) :
    NoUb (VecDyn.resizeBody Γ cfg t' n x) (c, w) (fun _ s => OStep Γ S t c w (objs t es) s) (fun s => OStep Γ S t c w (objs t es) s) := by
  have hrefl : OStep Γ S t c w (objs t es) (c, w) := by simpa using OStep.refl (S := S) (c := c) g hv wf []
  unfold VecDyn.resizeBody
  refine NoUb.bind_ok (b := c) (s' := (c, w)) rfl ?_
  simp only [VecCopy.checkRef]
  by_cases he : t' = c.elementTypeId
  · rcases g with R | ⟨u, _⟩
    · have : t' = t := by rw [he]; exact R.type_id
      subst this
      rw [if_neg (fun h => h he)]
      simp only
      by_cases hn : c.len ≤ n
      · rw [if_pos hn]
        refine NoUb.bind (VecVoid.reserve_own (.inl R) hv wf _) ?_
        rintro _ s hs
        refine NoUb.bind (R := fun _ s => OStep Γ S t' c w (objs t' es) s)
          (NoUb.repeatN (P := fun s => OStep Γ S t' c w (objs t' es) s) ?_ _ hs) fun _ _ h => h
        intro s hs
        exact resizeGrow_own A hu hx hs
      · rw [if_neg hn]
        have hb : c.data.byteChunks (c, w) = (.ok es, (c, w)) := by
          rcases (Cont.byteChunks (.inl R) (c, w) : _ ∨ _) with ⟨_, e⟩ | ⟨_, u, e⟩
          · exact e
          · exact absurd (he.trans (by rw [VecCopy.elementTypeId, u.elem]; rfl)) hu
        refine NoUb.bind_ok hb ?_
        rw [T.drop]
        refine NoUb.bind ((quietLoop A q (fun y hy => hv y (List.mem_of_mem_drop hy)) c w).mono (fun _ _ h => h) fun _ h => h.elim) ?_
        rintro _ ⟨c1, w1⟩ ⟨rfl, h⟩
        simp only at h
        have R1 : Repr Γ w1.heap t' es c1.data := by rw [h.1]; exact R
        have hn' : n ≤ c1.data.len := by simp only [VecCopy.len] at hn; omega
        refine NoUb.bind (R := fun _ s => OStep Γ S t' c1 w (objs t' es) s) (onData_own ?_) fun _ _ h => h
        refine NoUb.of_ok (VecVoid.truncate_spec R1 hn') ?_
        have R2 := R1.truncated hn'
        refine ⟨es.take n, .inl ?_, fun y hy => hv y (List.mem_of_mem_take hy), ?_⟩
        · rw [R1.mem, take_flatten R1.each] at R2; exact R2
        · refine (Eff.ofUsr wf _ (h.frame (objs t' (es.take n)))).mono ?_ fun a => by simp
          intro a
          have : objs t' es = objs t' (es.take n) ++ objs t' (es.drop n) := by rw [← objs_append, List.take_append_drop]
          rw [this]; simp only [List.count_append]; omega
    · exact absurd (he.trans (by rw [VecCopy.elementTypeId, u.elem]; rfl)) hu
  · simp only [ne_eq, he, not_false_iff, if_true]
    exact NoUb.pure hrefl

theorem OStep.thenDropArg (A : Acct Γ S) {β : Type} {m : M (VecDyn V × World (Ledger U)) β} {I : List Obj} (hx : S.valid t' x)
    (h : NoUb m (c, w) (fun _ s => OStep Γ S t c w I s) (fun s => OStep Γ S t c w I s)) :
    NoUb (M.thenDrop m (onWorld (worldUser (Γ.drop t' x)))) (c, w) (fun _ s => OStep Γ S t c w (I ++ [(t', x)]) s)
      (fun s => OStep Γ S t c w (I ++ [(t', x)]) s) := by
  refine NoUb.thenDrop h ?_ ?_
  · rintro _ ⟨c1, w1⟩ hs
    exact NoUb.onWorld ((A.dropW w1 hx).mono (fun _ _ h => hs.andThen h) fun _ h => hs.andThen h)
  · rintro ⟨c1, w1⟩ hs
    exact NoUb.onWorld ((A.dropW w1 hx).mono (fun _ _ h => hs.andThen h) fun _ h => trivial)

theorem VecDyn.resize_own [HasDrop (Ledger U) V] [HasClone (Ledger U) V] (A : Acct Γ S) (T : Tab Γ t c.vtable) (q : Quiet Γ S t')
    (hu : t' ≠ Γ.unitTy) (g : Cont Γ w.heap t es c.data) (hv : ∀ e ∈ es, S.valid t e) (wf : w.heap.WF) (hx : S.valid t' x) (n : Nat) :
    NoUb (VecDyn.resize Γ cfg t' n x) (c, w) (fun _ s => OStep Γ S t c w (objs t es ++ [(t', x)]) s)
      (fun s => OStep Γ S t c w (objs t es ++ [(t', x)]) s) :=
  OStep.thenDropArg A hx (VecDyn.resizeBody_own A T q hu g hv wf hx n)

/-! ### Methods that overwrite elements -/

theorem Repr.refill {h : Heap} (R : Repr Γ h t es v) {es' : List Bytes} (hl : es'.length = es.length)
    (he : ∀ e ∈ es', e.length = Γ.size t) : Repr Γ h t es' { v with mem := splice v.mem 0 es'.flatten } := by
  have h1 := R.setContent (es' := es') (by rw [hl]; exact R.len_cap) he
  have h2 : splice v.mem 0 es'.flatten = es'.flatten := Dync.splice_whole (by
    rw [length_flatten_eq he, R.mem, length_flatten_eq R.each, hl])
  rw [h2]
  rw [hl, ← R.len] at h1
  exact h1

/-- One assignment of `fill`. -/
theorem fillOne_own (A : Acct Γ S) (hx : S.valid t x) (w1 : World (Ledger U)) {y : Bytes} (hy : S.valid t y) :
    NoUb (do let d ← onWorld (worldUser (Γ.clone t x)); VecDyn.assignTyped Γ t d) (y, w1)
      (fun _ s => S.valid t s.1 ∧ Usr w1 s.2 [(t, y)] [(t, s.1)]) (fun s => S.valid t s.1 ∧ Usr w1 s.2 [(t, y)] [(t, s.1)]) := by
  refine NoUb.bind (NoUb.onWorld (Q := fun d s => S.valid t d ∧ s.1 = y ∧ Usr w1 s.2 [] [(t, d)]) ((A.cloneW w1 hx).mono ?_ ?_)) ?_
  · rintro d w2 ⟨h1, h2⟩
    exact ⟨h1, rfl, h2⟩
  · rintro w2 h2
    exact ⟨hy, h2.frame [(t, y)]⟩
  · rintro d ⟨y2, w2⟩ ⟨h1, rfl, h2⟩
    simp only at h2
    refine NoUb.rearrange (n := worldUser (Γ.drop t y2)) (t := w2) (f := fun w' => (d, w')) ?_ rfl
    refine (A.dropW w2 hy).mono ?_ ?_
    · rintro _ w3 h3
      refine ⟨h1, ?_⟩
      exact ((h2.frame [(t, y2)]).mono (fun a => by simp) fun a => Nat.le_refl _).trans
        ((h3.frame [(t, d)]).mono (fun a => by simp only [List.count_append]; omega) fun a => by simp)
    · rintro w3 h3
      refine ⟨h1, ?_⟩
      exact ((h2.frame [(t, y2)]).mono (fun a => by simp) fun a => Nat.le_refl _).trans
        ((h3.frame [(t, d)]).mono (fun a => by simp only [List.count_append]; omega) fun a => by simp)

theorem VecDyn.fill_own (A : Acct Γ S) (hu : t' ≠ Γ.unitTy) (g : Cont Γ w.heap t es c.data) (hv : ∀ e ∈ es, S.valid t e)
    (wf : w.heap.WF) (hx : S.valid t' x) :
    NoUb (VecDyn.fill Γ t' x) (c, w) (fun _ s => OStep Γ S t c w (objs t es ++ [(t', x)]) s)
      (fun s => OStep Γ S t c w (objs t es ++ [(t', x)]) s) := by
  have hrefl : OStep Γ S t c w (objs t es) (c, w) := by simpa using OStep.refl (S := S) (c := c) g hv wf []
  refine OStep.thenDropArg A hx ?_
  unfold VecCopy.asMutSliceAs
  refine NoUb.bind_ok (b := c) (s' := (c, w)) rfl ?_
  simp only [VecCopy.checkRef]
  by_cases he : t' = c.elementTypeId
  · rcases g with R | ⟨u, _⟩
    · have : t' = t := by rw [he]; exact R.type_id
      subst this
      rw [if_neg (fun h => h he)]
      have hts : typedSlice (Γ.size t') c.len c.data.mem = .ok es := by
        rw [R.mem, VecCopy.len, R.len]; exact typedSlice_flatten R.each rfl
      refine NoUb.bind_ok (b := es) (s' := (c, w)) (by rw [hts]; rfl) ?_
      refine NoUb.bind (R := fun _ s => OStep Γ S t' c w (objs t' es) s) ?_ fun _ _ h => h
      refine NoUb.rearrange (n := forEachMut (do let d ← onWorld (worldUser (Γ.clone t' x)); VecDyn.assignTyped Γ t' d)) (t := (es, w))
        (f := fun p => ({ c with data := { c.data with mem := splice c.data.mem 0 p.1.flatten } }, p.2)) ?_ rfl
      have key : ∀ (es' : List Bytes) (w1 : World (Ledger U)), es'.length = es.length → (∀ e ∈ es', S.valid t' e) →
          Usr w w1 (objs t' es) (objs t' es') →
          OStep Γ S t' c w (objs t' es) ({ c with data := { c.data with mem := splice c.data.mem 0 es'.flatten } }, w1) := by
        intro es' w1 h1 h2 h3
        refine ⟨rfl, es', .inl ?_, h2, Eff.ofUsr wf _ h3⟩
        simp only [h3.1]
        exact R.refill h1 fun e he => S.len _ _ (h2 e he)
      refine (NoUb.forEachMut (done := []) (P := fun done rest w1 => (done ++ rest).length = es.length ∧ (∀ e ∈ done ++ rest, S.valid t' e) ∧
          Usr w w1 (objs t' es) (objs t' (done ++ rest)))
        (E := fun l w1 => l.length = es.length ∧ (∀ e ∈ l, S.valid t' e) ∧ Usr w w1 (objs t' es) (objs t' l)) ?_
        ⟨rfl, by simpa using hv, Usr.refl _ _⟩).mono ?_ ?_
      · rintro done y rest w1 ⟨h1, h2, h3⟩
        have step : ∀ (z : Bytes) (w2 : World (Ledger U)), S.valid t' z → Usr w1 w2 [(t', y)] [(t', z)] →
            (done ++ z :: rest).length = es.length ∧ (∀ e ∈ done ++ z :: rest, S.valid t' e) ∧
              Usr w w2 (objs t' es) (objs t' (done ++ z :: rest)) := by
          intro z w2 hz h
          refine ⟨by simpa using h1, ?_, ?_⟩
          · intro e he
            simp only [List.mem_append, List.mem_cons] at he
            rcases he with he | rfl | he
            · exact h2 e (by simp [he])
            · exact hz
            · exact h2 e (by simp [he])
          · refine h3.trans ((h.frame (objs t' done ++ objs t' rest)).mono ?_ ?_)
            · intro a; rw [objs_zip_snoc]; simp only [List.count_append]; omega
            · intro a; rw [objs_zip_snoc]; simp only [List.count_append]; omega
        refine (fillOne_own A hx w1 (h2 y (by simp))).mono ?_ ?_
        · rintro _ ⟨z, w2⟩ ⟨k1, k2⟩
          have := step z w2 k1 k2
          simpa using this
        · rintro ⟨z, w2⟩ ⟨k1, k2⟩
          exact step z w2 k1 k2
      · rintro _ ⟨es', w1⟩ ⟨h1, h2, h3⟩
        simp only [List.nil_append, List.append_nil] at h1 h2 h3
        exact key es' w1 h1 h2 h3
      · rintro ⟨es', w1⟩ ⟨h1, h2, h3⟩
        simp only [List.nil_append] at h1 h2 h3
        exact key es' w1 h1 h2 h3
    · exact absurd (he.trans (by rw [VecCopy.elementTypeId, u.elem]; rfl)) hu
  · simp only [ne_eq, he, not_false_iff, if_true]
    exact NoUb.pure hrefl

/-- `*k.get_mut_as::<T>(i)? = x`. -/
theorem setAs_own (A : Acct Γ S) (hu : t' ≠ Γ.unitTy) (g : Cont Γ w.heap t es c.data) (hv : ∀ e ∈ es, S.valid t e)
    (wf : w.heap.WF) (hx : S.valid t' x) (i : Nat) :
    NoUb (do match ← VecCopy.getMutAs Γ t' i (VecDyn.assignTyped Γ t' x) with
             | some _ => return Obs.done
             | none => do onWorld (worldUser (Γ.drop t' x)); return .refused) (c, w)
      (fun _ s => OStep Γ S t c w (objs t es ++ if i < c.len then [(t', x)] else []) s)
      (fun s => OStep Γ S t c w (objs t es ++ if i < c.len then [(t', x)] else []) s) := by
  have g0 := g
  have hrefl : OStep Γ S t c w (objs t es) (c, w) := by simpa using OStep.refl (S := S) (c := c) g hv wf []
  by_cases hi : ¬ i < c.len
  · rw [if_neg hi]
    refine NoUb.bind_panic (y := .assertion) (s' := (c, w)) ?_ (by simpa using hrefl)
    simp [VecCopy.getMutAs, M.bind_run, getSelf_run, hi]
  replace hi := Decidable.not_not.1 hi
  rw [if_pos hi]
  by_cases he : t' = c.elementTypeId
  · rcases g with R | ⟨u, _⟩
    · have : t' = t := by rw [he]; exact R.type_id
      subst this
      have hi' : i < es.length := by rw [← R.len]; exact hi
      refine NoUb.bind (R := fun r s => r = some () ∧ OStep Γ S t' c w (objs t' es ++ [(t', x)]) s) ?_ ?_
      · unfold VecCopy.getMutAs
        refine NoUb.bind_ok (b := c) (s' := (c, w)) rfl ?_
        refine NoUb.bind_ok (b := ()) (s' := (c, w)) (by simp [hi]) ?_
        simp only [VecCopy.checkRef]
        rw [if_neg (fun h => h he)]
        have hm : (i + 1) * Γ.size t' ≤ c.data.mem.length := by
          rw [R.mem, length_flatten_eq R.each]; exact Nat.mul_le_mul_right _ hi'
        simp only
        rw [if_pos hm]
        refine NoUb.bind (R := fun _ s => OStep Γ S t' c w (objs t' es ++ [(t', x)]) s) ?_ fun _ _ h => ⟨rfl, h⟩
        have hel : (c.data.mem.drop (i * Γ.size t')).take (Γ.size t') = es[i] := by
          rw [R.mem]; exact drop_take_flatten R.each hi'
        have hvi : S.valid t' es[i] := hv _ (List.getElem_mem hi')
        refine NoUb.rearrange (n := worldUser (Γ.drop t' es[i])) (t := w)
          (f := fun w1 => ({ c with data := { c.data with mem := splice c.data.mem (i * Γ.size t') x } }, w1)) ?_ ?_
        · have key : ∀ w1, Usr w w1 [(t', es[i])] [] → OStep Γ S t' c w (objs t' es ++ [(t', x)])
              ({ c with data := { c.data with mem := splice c.data.mem (i * Γ.size t') x } }, w1) := by
            intro w1 h
            have hset : splice c.data.mem (i * Γ.size t') x = (es.set i x).flatten := by
              rw [R.mem]; exact splice_flatten R.each hi' (S.len _ _ hx)
            refine ⟨rfl, es.set i x, .inl ?_, ?_, ?_⟩
            · simp only [h.1, hset]
              have := R.setContent (es' := es.set i x) (by rw [List.length_set]; exact R.len_cap) (by
                intro e he
                rcases List.mem_or_eq_of_mem_set he with he | rfl
                · exact R.each e he
                · exact S.len _ _ hx)
              rw [List.length_set, ← R.len] at this
              exact this
            · intro e he
              rcases List.mem_or_eq_of_mem_set he with he | rfl
              · exact hv e he
              · exact hx
            · have hsplit : es = es.take i ++ es[i] :: es.drop (i + 1) := by
                rw [List.getElem_cons_drop, List.take_append_drop]
              refine (Eff.ofUsr wf _ (h.frame (objs t' (es.take i) ++ objs t' (es.drop (i + 1)) ++ [(t', x)]))).mono ?_ ?_
              · intro a
                have e2 : objs t' es = objs t' (es.take i) ++ [(t', es[i])] ++ objs t' (es.drop (i + 1)) := by
                  conv => lhs; rw [hsplit]
                  exact objs_zip_snoc
                rw [e2]; simp only [List.count_append]; omega
              · intro a
                rw [List.set_eq_take_append_cons_drop, if_pos hi', objs_zip_snoc]
                simp only [List.count_append, List.count_nil]; omega
          refine (A.dropW w hvi).mono (fun _ w1 h => key w1 h) fun w1 h => key w1 h
        · simp only [VecDyn.assignTyped, hel]
      · rintro _ s ⟨rfl, h⟩
        exact NoUb.pure h
    · exact absurd (he.trans (by rw [VecCopy.elementTypeId, u.elem]; rfl)) hu
  · refine NoUb.bind_ok (b := none) (s' := (c, w)) ?_ ?_
    · unfold VecCopy.getMutAs
      rw [M.bind_ok (a := c) (s' := (c, w)) rfl, M.bind_ok (a := ()) (s' := (c, w)) (by simp [hi])]
      simp [VecCopy.checkRef, he]
    · refine NoUb.bind (R := fun _ s => OStep Γ S t c w (objs t es ++ [(t', x)]) s) ?_ fun _ _ h => h
      refine NoUb.onWorld ((A.dropW w hx).mono ?_ ?_)
      · intro _ w1 h
        exact hrefl.andThen h
      · intro w1 h
        exact hrefl.andThen h

/-! ### Cloning into a `Vec` -/

theorem VecDyn.cloneIntoVec_own (A : Acct Γ S) (hu : t' ≠ Γ.unitTy) (g : Cont Γ w.heap t es c.data) (hv : ∀ e ∈ es, S.valid t e) :
    NoUb (VecDyn.cloneIntoVec Γ t' c) w
      (fun r w' => ∃ cs : List Bytes, (r = none ∧ cs = [] ∨ r = some cs) ∧ (∀ e ∈ cs, S.valid t' e) ∧ Usr w w' [] (objs t' cs))
      (fun w' => Usr w w' [] []) := by
  unfold VecDyn.cloneIntoVec
  refine NoUb.bind (R := fun r w' => (∀ e ∈ r.2, S.valid t' e) ∧ Usr w w' [] (objs t' r.2)) (NoUb.withLocal ?_) ?_
  · refine NoUb.mono (Q := fun _ s => (∀ e ∈ s.1, S.valid t' e) ∧ Usr w s.2 [] (objs t' s.1))
      (E := fun s => (∀ e ∈ s.1, S.valid t' e) ∧ Usr w s.2 [] (objs t' s.1)) ?_ (fun _ _ h => h) ?_
    · unfold VecDyn.appendClonedToVec VecCopy.asSliceAs
      simp only [VecCopy.checkRef]
      by_cases he : t' = c.elementTypeId
      · rcases g with R | ⟨u, _⟩
        · have : t' = t := by rw [he]; exact R.type_id
          subst this
          have hts : typedSlice (Γ.size t') c.len c.data.mem = .ok es := by
            rw [R.mem, VecCopy.len, R.len]; exact typedSlice_flatten R.each rfl
          refine NoUb.bind_ok (b := some es) (s' := ([], w)) ?_ ?_
          · rw [if_neg (fun h => h he)]
            simp only [hts]; rfl
          · refine NoUb.bind (R := fun _ s => (∀ e ∈ s.1, S.valid t' e) ∧ Usr w s.2 [] (objs t' s.1)) ?_ fun _ _ h => h
            refine (NoUb.forEach (P := fun rest s => (∀ e ∈ rest, S.valid t' e) ∧ (∀ e ∈ s.1, S.valid t' e) ∧ Usr w s.2 [] (objs t' s.1)) ?_
              ⟨hv, by simp, Usr.refl _ _⟩).mono (fun _ _ h => h.2) fun _ h => h
            rintro y rest ⟨cs, w1⟩ ⟨h1, h2, h3⟩
            refine NoUb.bind (NoUb.onWorld (Q := fun d s => S.valid t' d ∧ s.1 = cs ∧ Usr w1 s.2 [] [(t', d)]) ((A.cloneW w1 (h1 y (by simp))).mono ?_ ?_)) ?_
            · rintro d w2 ⟨k1, k2⟩
              exact ⟨k1, rfl, k2⟩
            · rintro w2 k2
              refine ⟨h2, ?_⟩
              have := h3.seq k2
              simpa using this
            · rintro d ⟨cs', w2⟩ ⟨k1, rfl, k2⟩
              refine NoUb.of_ok rfl ⟨fun e he => h1 e (by simp [he]), ?_, ?_⟩
              · intro e he
                simp only [List.mem_append, List.mem_singleton] at he
                rcases he with he | rfl
                · exact h2 e he
                · exact k1
              · simp only [objs_append]
                have := h3.seq k2
                exact this
        · exact absurd (he.trans (by rw [VecCopy.elementTypeId, u.elem]; rfl)) hu
      · simp only [ne_eq, he, not_false_iff, if_true]
        refine NoUb.bind_ok (b := none) (s' := ([], w)) rfl (NoUb.pure ⟨by simp, Usr.refl _ _⟩)
    · rintro ⟨cs, w1⟩ ⟨h1, h2⟩
      refine (A.dropEach h1 w1).mono (fun _ w2 h => ?_) fun _ _ => trivial
      exact h2.trans h
  · rintro ⟨r, cs⟩ w1 ⟨h1, h2⟩
    simp only at h1 h2
    cases r with
    | none => exact NoUb.pure ⟨[], .inl ⟨rfl, rfl⟩, by simp, h2.lose⟩
    | some _ => exact NoUb.pure ⟨cs, .inr rfl, h1, h2⟩

end Dync
