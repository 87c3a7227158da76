import Verif.MachineLemmas
import Verif.SafetyLemmas4
import Verif.Props.Exact
/-!
# The methods of `VecCopy` do what the machine of `Machine.lean` says: growing containers
-/
namespace Dync
variable {U V α : Type} {Γ : TyEnv U} {t : TyId} {es : List Bytes} {v : VecVoid} {c : VecCopy V} {w : World U} {cfg : Cfg}

/-- A method of `VecCopy` made of one of `VecVoid`. -/
theorem Agrees.ofV {a : After} {m : M (VecVoid × World U) Unit} {m' : M (VecCopy V × World U) Obs} (h : a.AgreesV Γ m c.data w)
    (ho : a.out ≠ .ub)
    (hm : ∀ r d w', m (c.data, w) = (r, (d, w')) → m' (c, w) = (r.map fun _ => Obs.done, ({ c with data := d }, w'))) :
    a.Agrees Γ m' c w := by
  obtain ⟨r, d, h', h1, h2, h3, h4⟩ := h
  exact .inr ⟨ho, _, d, h', hm _ _ _ h1, h2, h3, h4⟩

theorem onData_done {m : M (VecVoid × World U) Unit} {r : Res Unit} {d : VecVoid} {w' : World U} (h : m (c.data, w) = (r, (d, w'))) :
    (do VecCopy.onData m; return Obs.done : M (VecCopy V × World U) Obs) (c, w) =
      (r.map fun _ => Obs.done, ({ c with data := d }, w')) := by
  cases r <;> simp only [M.bind_run, VecCopy.onData_run, h, Res.map] <;> rfl

theorem onData_some {m : M (VecVoid × World U) Unit} {r : Res Unit} {d : VecVoid} {w' : World U} (h : m (c.data, w) = (r, (d, w'))) :
    (do VecCopy.onData m; pure (some ()) : M (VecCopy V × World U) (Option Unit)) (c, w) =
      (r.map some, ({ c with data := d }, w')) := by
  cases r <;> simp only [M.bind_run, VecCopy.onData_run, h, Res.map] <;> rfl

theorem ofUnit_done {m : M (VecCopy V × World U) (Option Unit)} {r : Res Unit} {s : VecCopy V × World U}
    (h : m (c, w) = (r.map some, s)) :
    (do return Obs.ofUnit (← m) : M (VecCopy V × World U) Obs) (c, w) = (r.map fun _ => Obs.done, s) := by
  cases r <;> simp only [M.bind_run, h, Res.map] <;> rfl

theorem ofUnit_refused {m : M (VecCopy V × World U) (Option Unit)} {s : VecCopy V × World U} (h : m (c, w) = (.ok none, s)) :
    (do return Obs.ofUnit (← m) : M (VecCopy V × World U) Obs) (c, w) = (.ok .refused, s) := by
  simp only [M.bind_run, h]; rfl

/-- A method that changes nothing. -/
theorem Agrees.same {m : M (VecCopy V × World U) Obs} {r : Res Obs} {x : XVec} {o : Out} (wf : w.heap.WF) (hx : x.Is Γ w.heap c.data)
    (hm : m (c, w) = (r, (c, w))) (ho : o.Is r) : (After.same x o).Agrees Γ m c w := by
  cases r with
  | ub =>
    left
    cases o with
    | ok o => cases ho
    | panic => obtain ⟨_, e⟩ := ho; cases e
    | ub => exact ⟨rfl, by rw [hm]⟩
  | ok o' =>
    right
    refine ⟨?_, _, c.data, w.heap, hm, ho, hx, Realloc.refl wf _⟩
    rintro e; change o = .ub at e; subst e; cases ho
  | panic y =>
    right
    refine ⟨?_, _, c.data, w.heap, hm, ho, hx, Realloc.refl wf _⟩
    rintro e; change o = .ub at e; subst e; cases ho
  | abort =>
    cases o with
    | ok o => cases ho
    | panic => obtain ⟨_, e⟩ := ho; cases e
    | ub => cases ho

/-- A method that changes the content in place. -/
theorem Agrees.content {m : M (VecCopy V × World U) Obs} {es' : List Bytes} {d : VecVoid} (R : Repr Γ w.heap t es c.data)
    (wf : w.heap.WF) (he : ∀ e ∈ es', e.length = Γ.size t) (hl : es'.length ≤ c.data.cap)
    (hd : d = ⟨c.data.ptr, es'.length, c.data.cap, c.data.elem, es'.flatten⟩)
    (hm : m (c, w) = (.ok .done, ({ c with data := d }, w))) :
    (After.mk (.ok .done) (.vec t es' c.data.cap) false).Agrees Γ m c w := by
  subst hd
  exact .inr ⟨by simp, _, _, w.heap, hm, rfl, ⟨R.setContent hl he, rfl⟩, Realloc.refl wf _⟩

/-! ### `reserve` and the untyped `push` -/

theorem room_not_ub {len cap : Nat} {k : Option Nat} {next : Nat → After} (h : ∀ c, (next c).out ≠ .ub) :
    (XVec.room Γ t len cap k next).out ≠ .ub := by
  unfold XVec.room
  cases k with
  | none => simp [After.lost]
  | some k =>
    simp only
    cases growth (Γ.align t) (Γ.align t) (perElem Γ t) cap len k <;> simp [After.lost, After.leaked, h]

theorem reserve_agrees (R : Repr Γ w.heap t es c.data) (wf : w.heap.WF) (n : Nat) :
    (XVec.reserve Γ cfg n (.vec t es c.data.cap)).Agrees Γ (do VecCopy.reserve Γ cfg n; return .done) c w :=
  Agrees.ofV (VecVoid.reserve_agrees R wf n) (room_not_ub fun _ => by simp) fun _ _ _ h => onData_done h

theorem succ_mod_eq_zero {n s : Nat} (hs : 0 < s) (h : (n * s + 1) % s = 0) : s = 1 := by
  have h1 : (n * s + 1) % s = 1 % s := by rw [Nat.add_comm, Nat.add_mul_mod_self_right]
  rw [h1] at h
  exact Nat.dvd_one.1 (Nat.dvd_of_mod_eq_zero h)

/-- `VecVoid::push`. -/
theorem VecVoid.push_agrees (R : Repr Γ w.heap t es v) (wf : w.heap.WF) {x : Bytes} (hx : x.length = Γ.size t) :
    (XVec.push Γ t x (.vec t es v.cap)).AgreesV Γ (VecVoid.push Γ cfg x) v w := by
  obtain ⟨i, hp, hdrop⟩ := R.dropChunk
  have hle : Γ.align t ≤ x.length := by rw [hx]; exact Nat.le_of_dvd R.pos (Γ.align_dvd t)
  have hrun : VecVoid.push Γ cfg x (v, w) =
      VecVoid.applyAligned Γ cfg ⟨Γ.align t, Γ.align t⟩ (RVec.push ⟨Γ.align t, Γ.align t⟩ (x.take (Γ.align t))) (v, w) := by
    simp only [VecVoid.push, M.bind_run, getSelf_run, R.align, evalAlign_align]
    rw [if_pos hle]
  have hf := RVec.push_eq (T := ⟨Γ.align t, Γ.align t⟩) (v := v.chunkView) (w := w) (x.take (Γ.align t))
    (Nat.mul_le_mul_right _ R.len_le)
  simp only [M.bind_run] at hf
  have hone : perElem Γ t = 1 → ∀ (e : Bytes), e = x.take (Γ.align t) → e = x := by
    rintro h1 _ rfl
    have := perElem_mul Γ t
    rw [h1, Nat.one_mul] at this
    rw [this, ← hx, List.take_length]
  simp only [XVec.push]
  rw [if_neg (fun h => h rfl), if_neg (fun h => h rfl)]
  have hbl : perElem Γ t ≠ 1 → (v.len * v.elem.size + 1) % v.elem.size ≠ 0 := by
    intro h e
    exact h (R.perElem_eq ▸ succ_mod_eq_zero R.chunk_pos e)
  have heach : ∀ e ∈ es ++ [x], e.length = Γ.size t := by
    intro e he
    rcases List.mem_append.1 he with he | he
    · exact R.each e he
    · rw [List.mem_singleton.1 he]; exact hx
  rcases R.room_cases wf 1 with ⟨h1, h2, h3⟩ | ⟨c, j, h', h1, h2, h3, h4, h5, h6, h7⟩ | ⟨h1, y, h2⟩ |
      ⟨h1, C, j, h', h2, h3, h4, h5, h6⟩
  · simp only [h1, h2, M.modify_run] at hf ⊢
    by_cases hs : perElem Γ t = 1
    · rw [if_pos hs]
      have hs' : v.elem.size = 1 := R.perElem_eq.trans hs
      rw [hs'] at h3
      have := applyAligned_ok (cfg := cfg) R hf (n := es.length + 1) (c := v.cap)
        (by simp [VecVoid.chunkView, hs', R.len]) rfl R.cap_pos
      refine AgreesV.ok (x := .vec t (es ++ [x]) v.cap) (d := ⟨v.ptr, es.length + 1, v.cap, v.elem, v.mem ++ x.take (Γ.align t)⟩)
        ⟨?_, rfl⟩ (Realloc.refl wf _) (hrun.trans this)
      have := R.setContent (es' := es ++ [x]) (by simp; omega) heach
      simpa [VecVoid.chunkView, R.mem, hone hs _ rfl] using this
    · rw [if_neg hs]
      obtain ⟨i', hp', hl⟩ := R.chunkBlock
      have := applyAligned_badLen (cfg := cfg) R hf (by simp only [VecVoid.chunkView]; exact Nat.le_mul_of_pos_left _ R.cap_pos) (hbl hs)
      refine AgreesV.leaked (j := i') (h' := w.heap) ?_ (by rw [hl]; simp) (hrun.trans this)
      rw [← hp']; exact Realloc.refl wf _
  · simp only [h1, h2, M.modify_run] at hf ⊢
    have hc0 := Nat.lt_of_lt_of_le R.cap_pos h5
    by_cases hs : perElem Γ t = 1
    · rw [if_pos hs]
      have hs' : v.elem.size = 1 := R.perElem_eq.trans hs
      have := applyAligned_ok (cfg := cfg) R hf (n := es.length + 1) (c := c)
        (by simp [hs', R.len]) rfl hc0
      refine AgreesV.ok (x := .vec t (es ++ [x]) c) ⟨?_, rfl⟩ h3 (hrun.trans this)
      have := R.regrow (es' := es ++ [x]) (k := c) heach (by simp; rw [hs'] at h6; omega) hc0 h4 h7
      simpa [R.mem, hone hs _ rfl] using this
    · rw [if_neg hs]
      have := applyAligned_badLen (cfg := cfg) R hf (by simp only; exact Nat.le_mul_of_pos_left _ hc0) (hbl hs)
      exact AgreesV.leaked h3 (by rw [h4]; simp) (hrun.trans this)
  · simp only [h1, h2] at hf ⊢
    exact AgreesV.lost wf hp rfl (hrun.trans (applyAligned_panic R hf hdrop))
  · simp only [h1, h2, M.modify_run] at hf ⊢
    have hrun2 : VecVoid.push Γ cfg x (v, w) = (.panic .assertion, (VecVoid.default Γ, { w with heap := h' })) := by
      by_cases hs : perElem Γ t = 1
      · have hs' : v.elem.size = 1 := R.perElem_eq.trans hs
        rw [hs', Nat.mod_one] at h6
        exact absurd rfl h6
      · exact hrun.trans (applyAligned_badLen (cfg := cfg) R hf h5 (hbl hs))
    exact AgreesV.leaked h3 h4 hrun2

theorem push_not_ub (x : Bytes) (cap : Nat) : (XVec.push Γ t x (.vec t es cap)).out ≠ .ub := by
  simp only [XVec.push]
  rw [if_neg (fun h => h rfl), if_neg (fun h => h rfl)]
  cases growth (Γ.align t) (Γ.align t) (perElem Γ t) cap es.length 1 <;> by_cases h : perElem Γ t = 1 <;>
    simp [After.lost, After.leaked, h]

theorem push_agrees {t' : TyId} {vt : V} (R : Repr Γ w.heap t es c.data) (wf : w.heap.WF) {x : Bytes} (hx : x.length = Γ.size t') :
    (XVec.push Γ t' x (.vec t es c.data.cap)).Agrees Γ
      (do return Obs.ofUnit (← VecCopy.push Γ cfg (CopyValue.new Γ t' vt x))) c w := by
  by_cases hs : Γ.size t' = Γ.size t
  · by_cases ht : t' = t
    · subst ht
      refine Agrees.ofV (VecVoid.push_agrees (cfg := cfg) R wf hx) (push_not_ub _ _) fun r d w' h => ofUnit_done ?_
      have h1 : ((CopyValue.new Γ t' vt x).size == c.elementSize) = true := by
        rw [VecCopy.elementSize_eq R]; simpa [CopyValue.size, CopyValue.new] using hx
      simp only [VecCopy.push, M.bind_run, getSelf_run, h1, M.assert_true_run]
      rw [if_pos (show (CopyValue.new Γ t' vt x).type_id = c.elementTypeId from R.type_id.symm)]
      exact onData_some h
    · simp only [XVec.push]
      rw [if_neg (by simp [hs]), if_pos ht]
      exact Agrees.same wf ⟨R, rfl⟩ (ofUnit_refused (VecCopy.push_mismatch R (by exact ht) (by rw [← hs]; exact hx))) rfl
  · simp only [XVec.push]
    rw [if_pos hs]
    have := VecCopy.push_badSize (cfg := cfg) R (v := CopyValue.new Γ t' vt x) (by rw [show (CopyValue.new Γ t' vt x).bytes = x from rfl, hx]; exact hs)
    exact Agrees.same wf ⟨R, rfl⟩ (by simp only [M.bind_run, this]) ⟨.assertion, rfl⟩

/-! ### The typed `push` and `resize` -/

/-- Dropping a vector without destructors. -/
theorem dropTyped_plain (hc : Op.Typed.Copyable Γ t) (R : Repr Γ w.heap t es v) :
    ∃ i, v.ptr = some i ∧ RVec.dropTyped Γ t v.typedView w = (.ok (), { w with heap := w.heap.free i }) := by
  have h1 : ∀ xs : List Bytes, M.dropEach xs (fun b => (worldUser (Γ.drop t b) : M (World U) Unit)) w = (.ok (), w) := by
    intro xs
    induction xs with
    | nil => rfl
    | cons x xs ih =>
      refine M.thenDrop_ok (s' := w) ?_ ih
      simp [worldUser, hc x w.user]
  obtain ⟨i, hp, hl⟩ := R.block
  refine ⟨i, hp, M.thenDrop_ok (h1 _) ?_⟩
  have : v.cap * Γ.size t ≠ 0 := Nat.ne_of_gt (Nat.mul_pos R.cap_pos R.pos)
  simp [RVec.dropBuf, VecVoid.typedView, worldHeap, TyEnv.layout, hp, dealloc_live hl this]

theorem applyUnchecked_panic {h : Heap} (R : Repr Γ h t es v) {f : M (RVec × World U) α} {y : Why} {rv : RVec} {w' w'' : World U}
    (hf : f (v.typedView, w) = (.panic y, (rv, w'))) (hd : RVec.dropTyped Γ t rv w' = (.ok (), w'')) :
    VecVoid.applyUnchecked Γ cfg t f (v, w) = (.panic y, (VecVoid.default Γ, w'')) := by
  have hl := withLocal_panic (d := RVec.dropTyped Γ t) hf hd
  simp only [VecVoid.applyUnchecked, M.bind_run, getSelf_run, setSelf_run, R.intoVec, onWorld_run, hl]

/-- `Vec::push` on the elements. -/
theorem VecVoid.pushTyped_agrees (hc : Op.Typed.Copyable Γ t) (R : Repr Γ w.heap t es v) (wf : w.heap.WF) {x : Bytes}
    (hx : x.length = Γ.size t) :
    (XVec.pushAs Γ t x (.vec t es v.cap)).AgreesV Γ (VecVoid.applyUnchecked Γ cfg t (RVec.pushOwned Γ t x)) v w := by
  rw [RVec.pushOwned_plain hc]
  obtain ⟨i, hp, hdrop⟩ := dropTyped_plain hc R
  obtain ⟨i', hp', hl⟩ := R.block
  have heach : ∀ e ∈ es ++ [x], e.length = Γ.size t := by
    intro e he
    rcases List.mem_append.1 he with he | he
    · exact R.each e he
    · rw [List.mem_singleton.1 he]; exact hx
  simp only [XVec.pushAs]
  rw [if_pos trivial]
  have hf := RVec.push_eq (T := Γ.layout t) (v := v.typedView) (w := w) x R.len_le
  simp only [M.bind_run] at hf
  have hcs := RVec.reserve_cases (T := Γ.layout t) (v := v.typedView) (w := w) (s := 1) (cap := v.cap) (len := es.length) 1
    R.pos Nat.one_pos (Nat.mul_one _).symm (by rw [Nat.mul_one]; exact R.len) R.cap_pos wf hp' hl
  rw [show (Γ.layout t).size = Γ.size t from rfl, show (Γ.layout t).align = Γ.align t from rfl] at hcs
  rcases hcs with ⟨h1, h2, h3⟩ | ⟨c, j, h', h1, h2, h3, h4, h5, h6, h7⟩ | ⟨h1, y, h2⟩ | ⟨h1, C, j, h', h2, h3, h4, h5, h6⟩
  · simp only [h1, h2, M.modify_run] at hf ⊢
    have hlt : es.length + 1 ≤ v.cap := by have := R.len_cap; omega
    have hiv : IsVec Γ w.heap t (es ++ [x]) ⟨v.ptr, v.len + 1, v.cap, v.mem ++ x⟩ :=
      ⟨by simp [R.mem], heach, by simp [R.len], by simp only [R.len]; exact hlt, R.room, .inr ⟨R.cap_pos, R.block⟩⟩
    have := applyUnchecked_ok (cfg := cfg) R hf hiv R.cap_pos wf
    refine AgreesV.ok (x := .vec t (es ++ [x]) v.cap) (d := ⟨v.ptr, v.len + 1, v.cap, v.elem, v.mem ++ x⟩) ⟨?_, rfl⟩ (Realloc.refl wf _) this
    have := R.setContent (es' := es ++ [x]) (by simp; omega) heach
    simpa [VecVoid.typedView, R.mem, R.len] using this
  · simp only [h1, h2, M.modify_run] at hf ⊢
    rw [Nat.mul_one] at hf h4 h7
    have hc0 := Nat.lt_of_lt_of_le R.cap_pos h5
    have hiv : IsVec Γ h' t (es ++ [x]) ⟨some j, v.len + 1, c, v.mem ++ x⟩ :=
      ⟨by simp [R.mem], heach, by simp [R.len], by simp only [R.len]; omega, h7, .inr ⟨hc0, j, rfl, h4⟩⟩
    have := applyUnchecked_ok (cfg := cfg) R hf hiv hc0 h3.wf
    refine AgreesV.ok (x := .vec t (es ++ [x]) c) ⟨?_, rfl⟩ (hp' ▸ h3) this
    have := R.regrow (es' := es ++ [x]) (k := c) (j := j) (h' := h') heach (by simp; omega) hc0
      (by rw [Nat.mul_assoc, R.chunks]; exact h4) (by rw [Nat.mul_assoc, R.chunks]; exact h7)
    simpa [VecVoid.typedView, R.mem, R.len] using this
  · simp only [h1, h2] at hf ⊢
    exact AgreesV.lost wf hp rfl (applyUnchecked_panic R hf hdrop)
  · rw [Nat.mod_one] at h6
    exact absurd rfl h6

theorem pushAs_not_ub (x : Bytes) (cap : Nat) : (XVec.pushAs Γ t x (.vec t es cap)).out ≠ .ub := by
  simp only [XVec.pushAs]
  rw [if_pos trivial]
  cases growth (Γ.size t) (Γ.align t) 1 cap es.length 1 <;> simp [After.lost]

theorem pushAs_run (R : Repr Γ w.heap t es c.data) {x : Bytes} {r : Res Unit} {d : VecVoid} {w' : World U}
    (h : VecVoid.applyUnchecked Γ cfg t (RVec.pushOwned Γ t x) (c.data, w) = (r, (d, w'))) :
    VecCopy.pushAs Γ cfg t x (c, w) = (r.map some, ({ c with data := d }, w')) := by
  simp only [VecCopy.pushAs, M.bind_run, getSelf_run, VecCopy.checkRef_some R]
  exact onData_some h

theorem pushAs_agrees {t' : TyId} (hc : Op.Typed.Copyable Γ t') (R : Repr Γ w.heap t es c.data) (wf : w.heap.WF) {x : Bytes}
    (hx : x.length = Γ.size t') :
    (XVec.pushAs Γ t' x (.vec t es c.data.cap)).Agrees Γ (do return Obs.ofUnit (← VecCopy.pushAs Γ cfg t' x)) c w := by
  by_cases ht : t' = t
  · subst ht
    exact Agrees.ofV (VecVoid.pushTyped_agrees (cfg := cfg) hc R wf hx) (pushAs_not_ub _ _) fun r d w' h => ofUnit_done (pushAs_run R h)
  · simp only [XVec.pushAs]
    rw [if_neg ht]
    refine Agrees.same wf ⟨R, rfl⟩ (ofUnit_refused ?_) rfl
    simp only [VecCopy.pushAs, M.bind_run, getSelf_run, VecCopy.checkRef_none R ht, onWorld_run]
    simp [worldUser, hc x w.user]

theorem IsUnits.eq_default (u : IsUnits Γ 0 v) : v = VecVoid.default Γ := VecVoid.ext' u.ptr u.len u.cap u.elem u.mem

/-- One push: the element is there, or the content is lost. -/
theorem push_or_lost (hc : Op.Typed.Copyable Γ t) (R : Repr Γ w.heap t es c.data) (wf : w.heap.WF) {x : Bytes}
    (hx : x.length = Γ.size t) :
    (∃ d h', VecCopy.pushAs Γ cfg t x (c, w) = (.ok (some ()), ({ c with data := d }, { w with heap := h' })) ∧
      Repr Γ h' t (es ++ [x]) d ∧ Realloc w.heap c.data.ptr h' d.ptr) ∨
    ∃ y h', VecCopy.pushAs Γ cfg t x (c, w) = (.panic y, ({ c with data := VecVoid.default Γ }, { w with heap := h' })) ∧
      Realloc w.heap c.data.ptr h' none := by
  obtain ⟨r, d, h', h1, h2, h3, h4⟩ := VecVoid.pushTyped_agrees (cfg := cfg) hc R wf hx
  have hrun := pushAs_run R h1
  simp only [XVec.pushAs] at h2 h3 h4
  rw [if_pos trivial] at h2 h3 h4
  have hok : ∀ k, Out.Is (r.map fun _ => Obs.done) (.ok .done) → (XVec.vec t (es ++ [x]) k).Is Γ h' d →
      Moves w.heap c.data.ptr h' d.ptr false →
      ∃ d h', VecCopy.pushAs Γ cfg t x (c, w) = (.ok (some ()), ({ c with data := d }, { w with heap := h' })) ∧
        Repr Γ h' t (es ++ [x]) d ∧ Realloc w.heap c.data.ptr h' d.ptr := by
    intro k e1 e2 e3
    cases r <;> cases e1
    exact ⟨d, h', hrun, e2.1, e3⟩
  have hlost : Out.Is (r.map fun _ => Obs.done) .panic → (XVec.unit 0).Is Γ h' d → Moves w.heap c.data.ptr h' d.ptr false →
      ∃ y h', VecCopy.pushAs Γ cfg t x (c, w) = (.panic y, ({ c with data := VecVoid.default Γ }, { w with heap := h' })) ∧
        Realloc w.heap c.data.ptr h' none := by
    rintro ⟨y, e1⟩ e2 e3
    have hd : d = VecVoid.default Γ := IsUnits.eq_default e2
    subst hd
    cases r <;> cases e1
    exact ⟨y, h', hrun, e3⟩
  cases hg : growth (Γ.size t) (Γ.align t) 1 c.data.cap es.length 1 with
  | keep => simp only [hg] at h2 h3 h4; exact .inl (hok _ h2 h3 h4)
  | grown k => simp only [hg] at h2 h3 h4; exact .inl (hok _ h2 h3 h4)
  | full => simp only [hg] at h2 h3 h4; exact .inr (hlost h2 h3 h4)
  | torn => simp only [hg] at h2 h3 h4; exact .inr (hlost h2 h3 h4)

/-- Pushing `n` times: the elements are there, or the content is lost. -/
theorem repeat_push (hc : Op.Typed.Copyable Γ t) {x : Bytes} (hx : x.length = Γ.size t) (n : Nat) :
    ∀ {c : VecCopy V} {w : World U} {es : List Bytes}, Repr Γ w.heap t es c.data → w.heap.WF →
    (∃ d h', M.repeatN n (do let _ ← VecCopy.pushAs Γ cfg t x; pure ()) (c, w) = (.ok (), ({ c with data := d }, { w with heap := h' })) ∧
      Repr Γ h' t (es ++ List.replicate n x) d) ∨
    ∃ y h', M.repeatN n (do let _ ← VecCopy.pushAs Γ cfg t x; pure ()) (c, w) =
        (.panic y, ({ c with data := VecVoid.default Γ }, { w with heap := h' })) ∧ Realloc w.heap c.data.ptr h' none := by
  induction n with
  | zero =>
    intro c w es R wf
    exact .inl ⟨c.data, w.heap, rfl, by simpa using R⟩
  | succ n ih =>
    intro c w es R wf
    rcases push_or_lost (cfg := cfg) hc R wf hx with ⟨d, h', e1, e2, e3⟩ | ⟨y, h', e1, e2⟩
    · have hs : M.repeatN (n + 1) (do let _ ← VecCopy.pushAs Γ cfg t x; pure ()) (c, w) =
          M.repeatN n (do let _ ← VecCopy.pushAs Γ cfg t x; pure ()) ({ c with data := d }, { w with heap := h' }) := by
        simp only [M.repeatN, M.bind_run, e1, M.pure_run]
      rw [hs]
      rcases ih (c := { c with data := d }) (w := { w with heap := h' }) e2 e3.wf with ⟨d2, h2', k1, k2⟩ | ⟨y, h2', k1, k2⟩
      · exact Or.inl ⟨d2, h2', k1, by simpa [List.replicate_succ] using k2⟩
      · exact Or.inr ⟨y, h2', k1, Realloc.trans wf (R.ptr_lt wf) e3 k2⟩
    · exact .inr ⟨y, h', by simp only [M.repeatN, M.bind_run, e1], e2⟩

theorem growth_room {u a s cap len k : Nat} (hs : 0 < s) (hl : len ≤ cap) :
    (growth u a s cap len k = .keep → len * s + k ≤ cap * s) ∧ ∀ c, growth u a s cap len k = .grown c → len * s + k ≤ c * s := by
  have hle := Nat.mul_le_mul_right s hl
  have hn := need_le_nextCap u (cap * s) (len * s + k)
  unfold growth
  split
  · rename_i h
    rw [Nat.sub_mul] at h
    exact ⟨fun _ => by omega, fun _ e => by cases e⟩
  · split
    · exact ⟨fun e => (by cases e), fun _ e => (by cases e)⟩
    · split
      · rename_i h
        refine ⟨fun e => (by cases e), fun c e => ?_⟩
        cases e
        rw [Nat.div_mul_cancel (Nat.dvd_of_mod_eq_zero h)]
        exact hn
      · exact ⟨fun e => (by cases e), fun _ e => (by cases e)⟩

/-- `resize` after the room has been made. -/
theorem resize_tail (hc : Op.Typed.Copyable Γ t) (R : Repr Γ w.heap t es c.data) (wf : w.heap.WF) {x : Bytes}
    (hx : x.length = Γ.size t) {n k c' : Nat} {d : VecVoid} {h' : Heap} (hn : es.length ≤ n)
    (hV : VecVoid.reserve Γ cfg (n - es.length) (c.data, w) = (.ok (), (d, { w with heap := h' })))
    (Rd : Repr Γ h' t es d) (hcap : d.cap = c') (hre : Realloc w.heap c.data.ptr h' d.ptr)
    (ht : times cfg (n - es.length) (perElem Γ t) = some k) (hroom : es.length * perElem Γ t + k ≤ c' * perElem Γ t)
    {m : M (VecCopy V × World U) Obs} (hm : m (c, w) = (do return Obs.ofUnit (← (do
        VecCopy.onData (VecVoid.reserve Γ cfg (n - es.length))
        M.repeatN (n - es.length) (do let _ ← VecCopy.pushAs Γ cfg t x; pure ())
        pure (some ()))) : M (VecCopy V × World U) Obs) (c, w)) :
    (if (n - es.length) * perElem Γ t < 2 ^ 64 then
        (⟨.ok .done, .vec t (es ++ List.replicate (n - es.length) x) c', false⟩ : After)
      else .lost).Agrees Γ m c w := by
  subst hcap
  have hp := perElem_pos R.pos
  split
  · rename_i hlt
    have hk : k = (n - es.length) * perElem Γ t := by simp only [times, if_pos hlt] at ht; cases ht; rfl
    rw [hk, ← Nat.add_mul] at hroom
    have hle := Nat.le_of_mul_le_mul_right hroom hp
    have h1 := VecCopy.repeat_pushAs (cfg := cfg) (c := { c with data := d }) (w := { w with heap := h' }) Rd hre.wf hx (n - es.length) hle
    refine .inr ⟨by simp, .ok .done, _, h', hm.trans ?_, rfl, ⟨Rd.setContent (es' := es ++ List.replicate (n - es.length) x)
      (by simp; omega) ?_, rfl⟩, hre⟩
    · simp only [M.bind_run, VecCopy.onData_run, hV, h1, M.pure_run, Obs.ofUnit]
      simp
    · intro e he
      rcases List.mem_append.1 he with he | he
      · exact R.each e he
      · rw [List.eq_of_mem_replicate he]; exact hx
  · rename_i hge
    rcases repeat_push (cfg := cfg) hc hx (n - es.length) (c := { c with data := d }) (w := { w with heap := h' }) Rd hre.wf with
      ⟨d2, h2, _, e2⟩ | ⟨y, h2, e1, e2⟩
    · have hle := VecCopy.Repr_mul_le (c := { c with data := d2 }) e2
      simp only [List.length_append, List.length_replicate] at hle
      have h3 : (n - es.length) * perElem Γ t ≤ (es.length + (n - es.length)) * Γ.size t :=
        Nat.mul_le_mul (Nat.le_add_left _ _) (Nat.div_le_self _ _)
      simp only [isizeMax] at hle
      omega
    · refine .inr ⟨by simp [After.lost], .panic y, _, h2, hm.trans ?_, ⟨y, rfl⟩, IsUnits.default Γ, Realloc.trans wf (R.ptr_lt wf) hre e2⟩
      simp only [M.bind_run, VecCopy.onData_run, hV, e1]

/-- `resize`. -/
theorem resize_agrees {t' : TyId} (hc : Op.Typed.Copyable Γ t') (R : Repr Γ w.heap t es c.data) (wf : w.heap.WF) {x : Bytes}
    (hx : x.length = Γ.size t') (n : Nat) :
    (XVec.resize Γ cfg t' n x (.vec t es c.data.cap)).Agrees Γ (do return Obs.ofUnit (← VecCopy.resize Γ cfg t' n x)) c w := by
  by_cases ht : t' = t
  swap
  · simp only [XVec.resize]
    rw [if_neg ht]
    refine Agrees.same wf ⟨R, rfl⟩ (ofUnit_refused ?_) rfl
    simp only [VecCopy.resize, M.bind_run, getSelf_run, VecCopy.checkRef_none R ht, M.pure_run]
  subst ht
  by_cases hn : es.length ≤ n
  swap
  · simp only [XVec.resize]
    rw [if_pos trivial, if_neg hn]
    have h1 := VecVoid.truncate_spec (cfg := cfg) R (n := n) (by rw [R.len]; omega)
    refine Agrees.content R wf (fun e he => R.each e (List.mem_of_mem_take he)) (by have := R.len_cap; simp; omega)
      (d := ⟨c.data.ptr, n, c.data.cap, c.data.elem, (es.take n).flatten⟩) (by simp; omega) (ofUnit_done (r := .ok ()) ?_)
    have hlen : ¬ c.len ≤ n := by rw [show c.len = es.length from R.len]; exact hn
    simp only [VecCopy.resize, M.bind_run, getSelf_run, VecCopy.checkRef_some R, if_neg hlen]
    exact onData_some h1
  · have hlen : c.len ≤ n := by rw [show c.len = es.length from R.len]; exact hn
    have hlen' : n - c.len = n - es.length := by rw [show c.len = es.length from R.len]
    have hrun : VecCopy.resize Γ cfg t' n x (c, w) = (do
        VecCopy.onData (VecVoid.reserve Γ cfg (n - es.length))
        M.repeatN (n - es.length) (do let _ ← VecCopy.pushAs Γ cfg t' x; pure ())
        pure (some ()) : M (VecCopy V × World U) (Option Unit)) (c, w) := by
      simp only [VecCopy.resize, M.bind_run, getSelf_run, VecCopy.checkRef_some R, if_pos hlen, hlen']
    have hm : (do return Obs.ofUnit (← VecCopy.resize Γ cfg t' n x) : M (VecCopy V × World U) Obs) (c, w) = (do return Obs.ofUnit (← (do
        VecCopy.onData (VecVoid.reserve Γ cfg (n - es.length))
        M.repeatN (n - es.length) (do let _ ← VecCopy.pushAs Γ cfg t' x; pure ())
        pure (some ()))) : M (VecCopy V × World U) Obs) (c, w) := by
      rw [M.bind_run, hrun]; rfl
    obtain ⟨r, d, h', hV, h2, h3, h4⟩ := VecVoid.reserve_agrees (cfg := cfg) R wf (n - es.length)
    have hpanic : ∀ a : After, (a = .lost ∨ a = .leaked) → a.out.Is (r.map fun _ => Obs.done) → a.now.Is Γ h' d →
        Moves w.heap c.data.ptr h' d.ptr a.leak → a.Agrees Γ (do return Obs.ofUnit (← VecCopy.resize Γ cfg t' n x)) c w := by
      intro a ha e1 e2 e3
      have hp : a.out = .panic := by rcases ha with rfl | rfl <;> rfl
      rw [hp] at e1
      obtain ⟨y, e1⟩ := e1
      cases r <;> cases e1
      refine .inr ⟨by rw [hp]; simp, .panic y, d, h', hm.trans ?_, by rw [hp]; exact ⟨y, rfl⟩, e2, e3⟩
      simp only [M.bind_run, VecCopy.onData_run, hV]
    simp only [XVec.resize]
    rw [if_pos trivial, if_pos hn]
    simp only [XVec.reserve, XVec.room] at h2 h3 h4 ⊢
    cases ht : times cfg (n - es.length) (perElem Γ t') with
    | none => simp only [ht] at h2 h3 h4 ⊢; exact hpanic _ (.inl rfl) h2 h3 h4
    | some k =>
      simp only [ht] at h2 h3 h4 ⊢
      have hgr := growth_room (u := Γ.align t') (a := Γ.align t') (k := k) (perElem_pos R.pos) R.len_cap
      cases hg : growth (Γ.align t') (Γ.align t') (perElem Γ t') c.data.cap es.length k with
      | keep =>
        simp only [hg] at h2 h3 h4 ⊢
        cases r <;> cases h2
        exact resize_tail hc R wf hx hn hV h3.1 h3.2 h4 ht (hgr.1 hg) hm
      | grown c' =>
        simp only [hg] at h2 h3 h4 ⊢
        cases r <;> cases h2
        exact resize_tail hc R wf hx hn hV h3.1 h3.2 h4 ht (hgr.2 _ hg) hm
      | full => simp only [hg] at h2 h3 h4 ⊢; exact hpanic _ (.inl rfl) h2 h3 h4
      | torn => simp only [hg] at h2 h3 h4 ⊢; exact hpanic _ (.inr rfl) h2 h3 h4

end Dync
