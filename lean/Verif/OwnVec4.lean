import Verif.OwnVec3
import Verif.SafetyLemmas6
/-!
# Helper lemmas: places of a `VecDyn`, `swap`, `append`, pushing a box
-/
namespace Dync
variable {U V α σ : Type} {Γ : TyEnv (Ledger U)} {S : Values Γ} {t t' : TyId} {es : List Bytes} {x : Bytes}
  {w : World (Ledger U)} {cfg : Cfg} {v : VecVoid} {c : VecDyn V} {vt : V}

theorem Cont.good {h : Heap} (g : Cont Γ h t es v) (hv : ∀ e ∈ es, S.valid t e) : Good Γ S h v := by
  rcases g with R | ⟨u, _⟩
  · exact .inl ⟨t, es, R, hv⟩
  · exact .inr u

/-! ### References to places -/

/-- A reference to an existing value of type `t`. -/
structure Real (Γ : TyEnv (Ledger U)) (S : Values Γ) (t : TyId) (r : ValueRef V) : Prop where
  type_id : r.type_id = t
  alignment : r.alignment = Γ.align t
  unit : t ≠ Γ.unitTy
  valid : S.valid t r.bytes

/-- A reference into a container that lost its content in a panic. -/
structure LostRef (Γ : TyEnv (Ledger U)) (t : TyId) (r : ValueRef V) : Prop where
  type_id : r.type_id = Γ.unitTy
  bytes : r.bytes = []
  pos : 0 < Γ.size t

/-- References a program can hold. -/
def RefOk [HasDrop (Ledger U) V] [HasClone (Ledger U) V] (Γ : TyEnv (Ledger U)) (S : Values Γ) (t : TyId) (r : ValueRef V) : Prop :=
  Tab Γ t r.vtable ∧ (Real Γ S t r ∨ LostRef Γ t r)

/-- A value that can be offered to functions of a table of the same type id. -/
theorem RefOk.usable [HasDrop (Ledger U) V] [HasClone (Ledger U) V] {r r' : ValueRef V} (h : RefOk Γ S t r) (h' : RefOk Γ S t' r')
    (he : r.type_id = r'.type_id) : Usable S t r'.bytes := by
  rcases h.2 with a | a <;> rcases h'.2 with b | b
  · have : t' = t := by rw [← b.type_id, ← he, a.type_id]
    subst this
    exact .inl b.valid
  · exact absurd (a.type_id.symm.trans (he.trans b.type_id)) a.unit
  · exact absurd (b.type_id.symm.trans (he.symm.trans a.type_id)) b.unit
  · exact .inr ⟨b.bytes, a.pos⟩

theorem Repr.not_unit {h : Heap} (R : Repr Γ h t es v) : t ≠ Γ.unitTy := fun e => by
  have := R.pos
  rw [e, Γ.unit_size] at this
  exact Nat.lt_irrefl _ this

theorem Repr.real {h : Heap} (R : Repr Γ h t es c.data) (hx : S.valid t x) : Real Γ S t (c.valueOf x) :=
  ⟨R.type_id, R.align, R.not_unit, hx⟩

theorem UGood.lostRef (u : UGood Γ c.data) (hp : 0 < Γ.size t) : LostRef Γ t (c.valueOf []) :=
  ⟨by simp only [VecCopy.valueOf, VecCopy.elementTypeId, u.elem]; rfl, rfl, hp⟩

theorem UGood.getBytes (u : UGood Γ v) (i : Nat) (s : σ) :
    Runs (v.getBytes cfg i) s (fun b s' => s' = s ∧ b = []) (fun s' => s' = s) := by
  unfold VecVoid.getBytes
  refine Runs.bind (R := fun _ s' => s' = s) (Runs.debugAssert (fun _ => rfl) fun _ _ => rfl) ?_
  rintro _ _ rfl
  rename_i s1
  refine Runs.bind_ok (b := []) (s' := s1) ?_ ?_
  · have : v.bytes = .ok [] := by
      unfold VecVoid.bytes
      rw [u.numBytes, u.mem]; simp
    rw [this]; rfl
  unfold indexByteSlice
  rw [u.numBytes]
  refine Runs.bind (SUnit.range_runs i s1) ?_
  rintro _ s2 ⟨e, rfl⟩
  exact Runs.of_ok (a := []) (s' := s2) rfl ⟨e, rfl⟩

theorem VecDyn.get_own [HasDrop (Ledger U) V] [HasClone (Ledger U) V] (T : Tab Γ t c.vtable) (hp : 0 < Γ.size t)
    (g : Cont Γ w.heap t es c.data) (hv : ∀ e ∈ es, S.valid t e) {i : Nat} (hf : Fits Γ cfg i) (s : σ) :
    NoUb (VecDyn.get cfg i c) s (fun r s' => s' = s ∧ RefOk Γ S t r ∧
        ((∃ hi : i < es.length, Repr Γ w.heap t es c.data ∧ r = c.valueOf es[i]) ∨ UGood Γ c.data ∧ r = c.valueOf [])) (fun s' => s' = s) := by
  rcases g with R | ⟨u, _⟩
  · by_cases hi : i < es.length
    · exact NoUb.of_ok (VecDyn.get_ok R hi s) ⟨rfl, ⟨T, .inl (R.real (hv _ (List.getElem_mem hi)))⟩, .inl ⟨hi, R, rfl⟩⟩
    · obtain ⟨y, e⟩ := VecDyn.get_out (cfg := cfg) R (Nat.le_of_not_lt hi) (hf.next t) s
      exact NoUb.of_panic e rfl
  · unfold VecDyn.get
    refine NoUb.bind (R := fun _ s' => s' = s) (NoUb.debugAssert (fun _ => rfl) fun _ _ => rfl) ?_
    rintro _ _ rfl
    refine NoUb.bind (u.getBytes i _).noUb ?_
    rintro _ _ ⟨rfl, rfl⟩
    exact NoUb.pure ⟨rfl, ⟨T, .inr (u.lostRef hp)⟩, .inr ⟨u, rfl⟩⟩

/-- What the use of a mutable reference does: the object owning the block `q` and the values `G` are
consumed. -/
def PStep (Γ : TyEnv (Ledger U)) (S : Values Γ) (t : TyId) (r : ValueRef V) (w : World (Ledger U)) (q : Ptr) (G : List Obj)
    (s : ValueRef V × World (Ledger U)) : Prop :=
  Moved w.heap q s.2.heap none ∧
    (Real Γ S t r → S.valid t s.1.bytes ∧ Own w.user s.2.user ([(t, r.bytes)] ++ G) [(t, s.1.bytes)]) ∧
    (LostRef Γ t r → s.1.bytes = [] ∧ Own w.user s.2.user G [])

/-- What it does to the owner of the place. -/
def OStepQ (Γ : TyEnv (Ledger U)) (S : Values Γ) (t : TyId) (c : VecDyn V) (w : World (Ledger U)) (q : Ptr) (I : List Obj)
    (s : VecDyn V × World (Ledger U)) : Prop :=
  s.1.vtable = c.vtable ∧ s.1.data.ptr = c.data.ptr ∧ Moved w.heap q s.2.heap none ∧ ∃ es, Cont Γ s.2.heap t es s.1.data ∧
    (∀ e ∈ es, S.valid t e) ∧ Own w.user s.2.user I (objs t es)

theorem count_set {es : List Bytes} {i : Nat} (hi : i < es.length) (t : TyId) (x : Bytes) (a : Obj) :
    (objs t (es.set i x)).count a + [(t, es[i])].count a = (objs t es).count a + [(t, x)].count a := by
  have hsplit : es = es.take i ++ es[i] :: es.drop (i + 1) := by
    rw [List.getElem_cons_drop, List.take_append_drop]
  have e2 : objs t es = objs t (es.take i) ++ [(t, es[i])] ++ objs t (es.drop (i + 1)) := by
    conv => lhs; rw [hsplit]
    exact objs_zip_snoc
  rw [e2, List.set_eq_take_append_cons_drop, if_pos hi, objs_zip_snoc]
  simp only [List.count_append]; omega

theorem VecDyn.getMut_abort (R : Repr Γ w.heap t es c.data) {i : Nat} (hi : i < es.length) {m : M (ValueRef V × World (Ledger U)) α}
    {s : ValueRef V × World (Ledger U)} (hm : m (c.valueOf es[i], w) = (.abort, s)) :
    ∃ s', VecDyn.getMut cfg i m (c, w) = (.abort, s') := by
  have hlen := R.len
  have hb : (i + 1) * Γ.size t ≤ usizeMax := by
    have h1 := VecCopy.Repr_mul_le R
    have h2 : (i + 1) * Γ.size t ≤ es.length * Γ.size t := Nat.mul_le_mul_right _ hi
    have := isize_le_usize; omega
  have hi1 : i + 1 ≤ usizeMax := Nat.le_trans (Nat.le_mul_of_pos_right _ R.pos) hb
  have hg : c.data.getBytes cfg i (c, w) = (.ok es[i], (c, w)) := by
    unfold VecVoid.getBytes indexByteSlice
    rw [M.bind_ok (debugAssert_ok (by simp [hlen, hi]) _), R.bytes, M.bind_ok (M.lift_run _ _), R.numBytes,
      M.bind_ok (SRepr.indexByteRange_ok hi1 hb _)]
    simp only [M.lift_run, SRepr.sliceIndex_elem R.each hi]
  have hb2 : (decide (i < c.len)) = true := by
    simp only [VecCopy.len, R.len]; exact decide_eq_true hi
  simp only [VecDyn.getMut]
  rw [M.bind_ok (getSelf_run _), M.bind_ok (debugAssert_ok hb2 _), M.bind_ok hg, R.numBytes,
    M.bind_ok (SRepr.indexByteRange_ok hi1 hb _)]
  simp only [hm]
  exact ⟨_, rfl⟩

theorem VecDyn.getMut_own [HasDrop (Ledger U) V] [HasClone (Ledger U) V] (T : Tab Γ t c.vtable) (hp : 0 < Γ.size t)
    (g : Cont Γ w.heap t es c.data) (hv : ∀ e ∈ es, S.valid t e) (wf : w.heap.WF) {i : Nat} (hf : Fits Γ cfg i) {q : Ptr} {G : List Obj}
    (hq : ∀ i, c.data.ptr = some i → q ≠ some i) {m : M (ValueRef V × World (Ledger U)) α}
    (hm : ∀ r : ValueRef V, r.vtable = c.vtable → RefOk Γ S t r → NoUb m (r, w) (fun _ s => PStep Γ S t r w q G s) (fun s => PStep Γ S t r w q G s)) :
    NoUb (VecDyn.getMut cfg i m) (c, w) (fun _ s => OStepQ Γ S t c w q (objs t es ++ G) s)
      (fun s => OStepQ Γ S t c w q (objs t es ++ G) s) := by
  have hrefl : OStepQ Γ S t c w q (objs t es ++ G) (c, w) :=
    ⟨rfl, rfl, (Moved.refl wf _).drop, es, g, hv, (Own.refl _ _).mono (fun _ => Nat.le_refl _) fun a => by simp⟩
  have hlive : ∀ (w1 : World (Ledger U)), Moved w.heap q w1.heap none → ∀ i, c.data.ptr = some i → w1.heap.live i = w.heap.live i :=
    fun w1 m i hi => m.other i (g.ptr_lt wf i hi) fun e => hq i hi e.symm
  have g0 := g
  rcases g with R | ⟨u, hes⟩
  · by_cases hi : i < es.length
    · have hvi := hv _ (List.getElem_mem hi)
      have hr := R.real hvi
      have key : ∀ (d : VecVoid) (z : ValueRef V) (w1 : World (Ledger U)), PStep Γ S t (c.valueOf es[i]) w q G (z, w1) →
          Evolves Γ t 0 (es.set i z.bytes) w.heap c.data w.heap d → OStepQ Γ S t c w q (objs t es ++ G) ({ c with data := d }, w1) := by
        intro d z w1 ⟨k1, k2, _⟩ hd
        obtain ⟨k3, k4⟩ := k2 hr
        have hptr : d.ptr = c.data.ptr := (hd.stay (Nat.zero_le _)).1
        refine ⟨rfl, hptr, k1, es.set i z.bytes, .inl ?_, ?_, ?_⟩
        · refine hd.repr.frame ?_
          intro j hj
          exact hlive w1 k1 j (hptr ▸ hj)
        · intro e he
          rcases List.mem_or_eq_of_mem_set he with he | rfl
          · exact hv e he
          · exact k3
        · intro a
          have h1 := k4 a
          have h2 := count_set hi t z.bytes a
          simp only [List.count_append, VecCopy.valueOf] at h1 h2 ⊢
          omega
      rcases (hm _ rfl ⟨T, .inl hr⟩).cases_on with ⟨a, ⟨z, w1⟩, e, h⟩ | ⟨y, ⟨z, w1⟩, e, h⟩ | ⟨⟨z, w1⟩, e⟩
      · obtain ⟨d, e1, e2⟩ := VecDyn.getMut_ok (cfg := cfg) R wf hi e (S.len _ _ (h.2.1 hr).1)
        exact NoUb.of_ok e1 (key d z w1 h e2)
      · obtain ⟨d, e1, e2⟩ := VecDyn.getMut_ok (cfg := cfg) R wf hi e (S.len _ _ (h.2.1 hr).1)
        exact NoUb.of_panic e1 (key d z w1 h e2)
      · obtain ⟨d, e1⟩ := VecDyn.getMut_abort (cfg := cfg) R hi e
        exact NoUb.of_abort e1
    · obtain ⟨y, e⟩ := VecDyn.getMut_out (cfg := cfg) R (Nat.le_of_not_lt hi) (hf.next t) m
      exact NoUb.of_panic e hrefl
  · unfold VecDyn.getMut
    refine NoUb.bind_ok (b := c) (s' := (c, w)) rfl ?_
    refine NoUb.bind (R := fun _ s' => s' = (c, w)) (NoUb.debugAssert (fun _ => rfl) fun _ _ => hrefl) ?_
    rintro _ _ rfl
    refine NoUb.bind ((u.getBytes i (c, w)).noUb.mono (fun _ _ h => h) ?_) ?_
    · rintro _ rfl; exact hrefl
    rintro _ _ ⟨rfl, rfl⟩
    rw [u.numBytes]
    refine NoUb.bind ((SUnit.range_runs i (c, w)).noUb.mono (fun _ _ h => h) ?_) ?_
    · rintro _ rfl; exact hrefl
    rintro _ _ ⟨rfl, rfl⟩
    have hl := u.lostRef (c := c) hp
    refine NoUb.rearrange (n := m) (t := (c.valueOf [], w))
      (f := fun o => ({ c with data := { c.data with mem := splice c.data.mem 0 o.1.bytes } }, o.2)) ?_ rfl
    have key : ∀ (z : ValueRef V) (w1 : World (Ledger U)), PStep Γ S t (c.valueOf []) w q G (z, w1) →
        OStepQ Γ S t c w q (objs t es ++ G) ({ c with data := { c.data with mem := splice c.data.mem 0 z.bytes } }, w1) := by
      intro z w1 ⟨k1, _, k2⟩
      obtain ⟨k3, k4⟩ := k2 hl
      simp only at k3 k4
      have e : ({ c with data := { c.data with mem := splice c.data.mem 0 z.bytes } } : VecCopy V) = c := by
        rw [k3, u.mem]; exact VecCopy.unit_same u
      rw [e]
      exact ⟨rfl, rfl, k1, es, .inr ⟨u, hes⟩, hv, k4.mono (fun a => by simp) fun a => by simp [hes, objs]⟩
    refine (hm _ rfl ⟨T, .inr hl⟩).mono (fun _ s h => key s.1 s.2 h) fun s h => key s.1 s.2 h

/-! ### `swap` -/

theorem VecCopy.swap_own (g : Cont Γ w.heap t es c.data) (hv : ∀ e ∈ es, S.valid t e) (wf : w.heap.WF) {i j : Nat}
    (hi : Fits Γ cfg i) (hj : Fits Γ cfg j) :
    NoUb (VecCopy.swap cfg i j) (c, w) (fun _ s => OStep Γ S t c w (objs t es) s) (fun s => OStep Γ S t c w (objs t es) s) := by
  have hrefl : OStep Γ S t c w (objs t es) (c, w) := by simpa using OStep.refl (S := S) (c := c) g hv wf []
  rcases g with R | ⟨u, _⟩
  · obtain ⟨s, Rs, _, e⟩ := VecCopy.asMutSlice_run R (SliceCopy.swap cfg i j)
    have key : ∀ (r : Res Unit) (es' : List Bytes), SliceCopy.swap cfg i j s = (r, { s with data := es'.flatten }) → es'.length = es.length →
        (∀ a, (objs t es').count a ≤ (objs t es).count a) → (∀ e ∈ es', e ∈ es) →
        VecCopy.swap cfg i j (c, w) = (r, ({ c with data := { c.data with mem := splice c.data.mem 0 es'.flatten } }, w)) ∧
        OStep Γ S t c w (objs t es) ({ c with data := { c.data with mem := splice c.data.mem 0 es'.flatten } }, w) := by
      intro r es' h1 h2 h3 h4
      refine ⟨?_, rfl, es', .inl (R.refill h2 fun e he => R.each e (h4 e he)), fun e he => hv e (h4 e he),
        (Eff.refl wf _ _).mono (fun _ => Nat.le_refl _) h3⟩
      unfold VecCopy.swap
      rw [e, h1]
    have same : s = { s with data := es.flatten } := by rw [← Rs.data]
    by_cases hij : i = j
    · subst hij
      have h1 : SliceCopy.swap cfg i i s = (.ok (), { s with data := es.flatten }) := by
        simp only [SliceCopy.swap, M.bind_run, M.get_run, swapBytes, if_true, M.pure_run, M.set_run, Rs.data]
      obtain ⟨k1, k2⟩ := key _ es h1 rfl (fun _ => Nat.le_refl _) fun _ h => h
      exact NoUb.of_ok k1 k2
    · by_cases hin : i < es.length ∧ j < es.length
      · obtain ⟨hi', hj'⟩ := hin
        obtain ⟨k1, k2⟩ := key _ _ (Rs.swap (cfg := cfg) hi' hj') (by simp) (fun a => by
            have h1 := count_set (es := es) hi' t es[j] a
            have hlen : j < (es.set i es[j]).length := by simpa using hj'
            have h2 := count_set (es := es.set i es[j]) hlen t es[i] a
            have h3 : (es.set i es[j])[j] = es[j] := by rw [List.getElem_set]; simp [hij]
            rw [h3] at h2
            omega) (fun e he => by
            rcases List.mem_or_eq_of_mem_set he with he | rfl
            · rcases List.mem_or_eq_of_mem_set he with he | rfl
              · exact he
              · exact List.getElem_mem hj'
            · exact List.getElem_mem hi')
        exact NoUb.of_ok k1 k2
      · have hout : es.length ≤ i ∨ es.length ≤ j := by omega
        obtain ⟨y, hy⟩ := swapBytes_out (cfg := cfg) R.pos R.each (by
          have h1 := R.room; unfold Room at h1
          have h2 : 1 * Γ.size t ≤ c.data.cap * Γ.size t := Nat.mul_le_mul_right _ R.cap_pos
          have := isize_le_usize; omega) hij hout (hi.next t) (hj.next t) s
        have h1 : SliceCopy.swap cfg i j s = (.panic y, { s with data := es.flatten }) := by
          rw [← same]
          unfold SliceCopy.swap
          rw [M.bind_ok (M.get_run s)]
          rw [Rs.numBytes, Rs.data]
          exact M.bind_panic hy
        obtain ⟨k1, k2⟩ := key _ es h1 rfl (fun _ => Nat.le_refl _) fun _ h => h
        exact NoUb.of_panic k1 k2
  · have hs : ∀ s : SliceCopy V, SUnit Γ s → Runs (SliceCopy.swap cfg i j) s (fun _ s' => s' = s) (fun s' => s' = s) := by
      intro s G
      have := (SProg.swap i j).exec_runs_unit (S := S) (cfg := cfg) ⟨hi, hj⟩ G
      exact Runs.of_bind_pure (Q := fun s' => s' = s) (this.mono (fun _ _ h => h.2) fun _ h => h)
    unfold VecCopy.swap VecCopy.asMutSlice
    refine NoUb.bind_ok (b := c) (s' := (c, w)) rfl ?_
    rw [VecCopy.unit_bytes u]
    refine NoUb.bind_ok (b := []) (s' := (c, w)) rfl ?_
    have hsame : ({ c with data := { c.data with mem := splice c.data.mem 0 [] } } : VecCopy V) = c := by
      rw [u.mem]; exact VecCopy.unit_same u
    rcases (hs (SliceCopy.fromRawParts [] c.data.elem c.vtable) ⟨rfl, u.elem⟩).cases_on with ⟨a, s1, e1, rfl⟩ | ⟨y, s1, e1, rfl⟩
    · refine NoUb.of_ok (a := a) (s' := (c, w)) ?_ hrefl
      simp only [e1]
      simp only [SliceCopy.fromRawParts, hsame]
    · refine NoUb.of_panic (y := y) (s' := (c, w)) ?_ hrefl
      simp only [e1]
      simp only [SliceCopy.fromRawParts, hsame]

/-! ### `into_vec` -/

theorem VecCopy.intoVec_own (hu : t' ≠ Γ.unitTy) (g : Cont Γ w.heap t es c.data) (hv : ∀ e ∈ es, S.valid t e) (wf : w.heap.WF) :
    NoUb (VecCopy.intoVec Γ cfg t' c) w
      (fun r w' => (r = none ∧ Eff w c.data.ptr (objs t es) w' none []) ∨
        ∃ v, r = some v ∧ TVal Γ S t' w c.data.ptr (objs t es) (v, w')) (fun w' => Eff w c.data.ptr (objs t es) w' none []) := by
  unfold VecCopy.intoVec VecCopy.check
  by_cases he : t' = c.elementTypeId
  · rcases g with R | ⟨u, _⟩
    · have : t' = t := by rw [he]; exact R.type_id
      subst this
      rw [if_neg (fun h => h he)]
      refine NoUb.bind_ok (b := some c) (s' := w) rfl ?_
      refine NoUb.bind_ok (R.intoVec cfg w) ?_
      exact NoUb.pure (.inr ⟨_, rfl, es, R.tv, hv, Eff.refl wf _ _⟩)
    · exact absurd (he.trans (by rw [VecCopy.elementTypeId, u.elem]; rfl)) hu
  · rw [if_pos he]
    refine NoUb.bind (R := fun r w' => r = none ∧ Eff w c.data.ptr (objs t es) w' none []) ?_ ?_
    · refine NoUb.bind (R := fun _ w' => Eff w c.data.ptr (objs t es) w' none []) ((VecVoid.drop_x g wf).mono ?_ fun _ h => h.elim) ?_
      · rintro _ w' ⟨h1, h2⟩
        exact (Eff.ofMoved h1 h2 _).lose
      · intro _ w' h
        exact NoUb.pure ⟨rfl, h⟩
    · rintro _ w' ⟨rfl, h⟩
      exact NoUb.pure (.inl ⟨rfl, h⟩)

/-! ### `append` -/

/-- What `append` does to the two containers. -/
structure AppendOwn (Γ : TyEnv (Ledger U)) (S : Values Γ) (t t' : TyId) (c b : VecDyn V) (w : World (Ledger U)) (I : List Obj)
    (c1 b1 : VecDyn V) (w1 : World (Ledger U)) : Prop where
  vt : c1.vtable = c.vtable
  vt' : b1.vtable = b.vtable
  moved : Moved2 w.heap c.data.ptr b.data.ptr w1.heap c1.data.ptr b1.data.ptr
  content : ∃ es es' : List Bytes, Cont Γ w1.heap t es c1.data ∧ Cont Γ w1.heap t' es' b1.data ∧ (∀ e ∈ es, S.valid t e) ∧
    (∀ e ∈ es', S.valid t' e) ∧ Own w.user w1.user I (objs t es ++ objs t' es')

theorem VecCopy.append_own {b : VecDyn V} {es' : List Bytes} (g : Cont Γ w.heap t es c.data) (hv : ∀ e ∈ es, S.valid t e)
    (g' : Cont Γ w.heap t' es' b.data) (hv' : ∀ e ∈ es', S.valid t' e) (wf : w.heap.WF) (hd : ∀ i, c.data.ptr = some i → b.data.ptr ≠ some i) :
    NoUb (VecCopy.append Γ cfg) (c, (⟨w.heap, (b, w.user)⟩ : World (VecCopy V × Ledger U)))
      (fun _ s => AppendOwn Γ S t t' c b w (objs t es ++ objs t' es') s.1 s.2.user.1 ⟨s.2.heap, s.2.user.2⟩)
      (fun s => AppendOwn Γ S t t' c b w (objs t es ++ objs t' es') s.1 s.2.user.1 ⟨s.2.heap, s.2.user.2⟩) := by
  have hrefl : AppendOwn Γ S t t' c b w (objs t es ++ objs t' es') c b w :=
    ⟨rfl, rfl, Moved2.ofLeft (Moved.refl wf _) (g'.ptr_lt wf) hd, es, es', g, g', hv, hv', Own.refl _ _⟩
  unfold VecCopy.append
  refine NoUb.bind_ok (b := c) (s' := (c, ⟨w.heap, (b, w.user)⟩)) rfl ?_
  refine NoUb.bind_ok (b := (c, ⟨w.heap, (b, w.user)⟩)) (s' := (c, ⟨w.heap, (b, w.user)⟩)) rfl ?_
  simp only
  by_cases he : b.elementTypeId = c.elementTypeId
  · rw [if_pos he]
    refine NoUb.bind (R := fun _ s => AppendOwn Γ S t t' c b w (objs t es ++ objs t' es') s.1 s.2.user.1 ⟨s.2.heap, s.2.user.2⟩)
      (NoUb.zoom ?_) fun _ _ h => h
    have key : ∀ s : VecVoid × World (VecVoid × Ledger U), AppendX Γ t t' (es ++ es') c.data ⟨w.heap, (b.data, w.user)⟩ s →
        AppendOwn Γ S t t' c b w (objs t es ++ objs t' es') { c with data := s.1 } { b with data := s.2.user.1 } ⟨s.2.heap, s.2.user.2⟩ := by
      rintro s ⟨k1, k2, es1, es2, k3, k4, k5⟩
      refine ⟨rfl, rfl, k1, ?_⟩
      simp only at k2
      have hty : t = t' ∨ (es = [] ∧ es' = []) := by
        rcases g with R | ⟨u, h1⟩ <;> rcases g' with R' | ⟨u', h2⟩
        · exact .inl (by rw [← R.type_id, ← R'.type_id]; exact he.symm)
        · exact absurd (R.type_id.symm.trans (he.symm.trans (by rw [VecCopy.elementTypeId, u'.elem]; rfl))) R.not_unit
        · exact absurd (R'.type_id.symm.trans (he.trans (by rw [VecCopy.elementTypeId, u.elem]; rfl))) R'.not_unit
        · exact .inr ⟨h1, h2⟩
      refine ⟨es1, es2, k3, k4, ?_⟩
      have hmem : ∀ y ∈ es1 ++ es2, y ∈ es ++ es' := fun y hy => k5.mem hy
      rw [k2]
      rcases hty with rfl | ⟨rfl, rfl⟩
      · refine ⟨fun e he => ?_, fun e he => ?_, ?_⟩
        · rcases List.mem_append.1 (hmem e (by simp [he])) with h | h
          · exact hv e h
          · exact hv' e h
        · rcases List.mem_append.1 (hmem e (by simp [he])) with h | h
          · exact hv e h
          · exact hv' e h
        · refine (Own.refl _ _).mono (fun _ => Nat.le_refl _) fun a => ?_
          rw [← objs_append, ← objs_append]
          exact k5.objs a
      · have h0 : es1 ++ es2 = [] := List.eq_nil_iff_forall_not_mem.2 fun y hy => by simpa using hmem y hy
        obtain ⟨rfl, rfl⟩ := List.append_eq_nil_iff.1 h0
        exact ⟨by simp, by simp, Own.refl _ _⟩
    refine (VecVoid.append_x (U := Ledger U) (w := ⟨w.heap, (b.data, w.user)⟩) g g' wf hd he.symm).mono (fun _ s h => key s h) fun s h => key s h
  · rw [if_neg he]
    exact NoUb.pure hrefl

/-! ### Boxes -/

/-- A box holding a value of type `t` in a block of its own. -/
structure BoxOk [HasDrop (Ledger U) V] [HasClone (Ledger U) V] (Γ : TyEnv (Ledger U)) (S : Values Γ) (h : Heap) (t : TyId) (v : BoxValue V) : Prop where
  tab : Tab Γ t v.vtable
  real : Real Γ S t v.asRef
  block : OwnsBlock Γ h t v.bytes.ptr

theorem BoxOk.bytes [HasDrop (Ledger U) V] [HasClone (Ledger U) V] {h : Heap} {b : BoxValue V} (B : BoxOk Γ S h t b) :
    S.valid t b.bytes.bytes := B.real.valid

theorem Moved.dealloc {h : Heap} {p : Ptr} (wf : h.WF) (ho : OwnsBlock Γ h t p) :
    ∃ h', Dync.dealloc p (Γ.layout t) h = (.ok (), h') ∧ Moved h p h' none := by
  rcases ho with ⟨hs, rfl⟩ | ⟨hs, i, rfl, hl⟩
  · exact ⟨h, by simp [Dync.dealloc, hs], Moved.refl wf none⟩
  · exact ⟨h.free i, dealloc_live hl (Nat.ne_of_gt hs), Moved.free wf i⟩

theorem BoxBytes.dropAsAligned_own {b : BoxBytes} (wf : w.heap.WF) (hb : b.bytes.length = Γ.size t) (ho : OwnsBlock Γ w.heap t b.ptr) :
    ∃ w', BoxBytes.dropAsAligned (Γ.align t) b w = (.ok (), w') ∧ Moved w.heap b.ptr w'.heap none ∧ w'.user = w.user := by
  obtain ⟨h', hd, hm⟩ := Moved.dealloc wf ho
  refine ⟨{ w with heap := h' }, ?_, hm, rfl⟩
  unfold BoxBytes.dropAsAligned
  rw [evalAlign_align]
  have hl : b.bytes.length / Γ.align t * Γ.align t = Γ.size t := by
    rw [hb]; exact Nat.div_mul_cancel (Γ.align_dvd t)
  simp only [hl]
  show (((Dync.dealloc b.ptr (Γ.layout t)) w.heap).1, _) = _
  simp only [hd]

theorem BoxOk.drop [HasDrop (Ledger U) V] [HasClone (Ledger U) V] (A : Acct Γ S) {b : BoxValue V} (B : BoxOk Γ S w.heap t b) (wf : w.heap.WF) :
    NoUb (Value.drop b) w (fun _ w' => Eff w b.bytes.ptr [(t, b.bytes.bytes)] w' none [])
      (fun w' => Eff w b.bytes.ptr [(t, b.bytes.bytes)] w' none []) := by
  unfold Value.drop
  rw [B.tab.drop]
  refine NoUb.bind ((dropBytes_own A w (.inl B.bytes)).mono (fun _ _ h => h) ?_) ?_
  · intro w' h
    exact (Eff.ofUsr wf _ h).lose
  · intro _ w1 h
    have ho : OwnsBlock Γ w1.heap t b.bytes.ptr := by rw [h.1]; exact B.block
    have wf1 : w1.heap.WF := by rw [h.1]; exact wf
    obtain ⟨w2, e1, e2, e3⟩ := BoxBytes.dropAsAligned_own wf1 (S.len _ _ B.bytes) ho
    have ha : b.alignment = Γ.align t := B.real.alignment
    rw [ha]
    exact NoUb.of_ok e1 ((Eff.ofUsr wf _ h).thenMoved e2 e3)

/-- A box handed to a container is consumed. -/
def PushPost (Γ : TyEnv (Ledger U)) (S : Values Γ) (t : TyId) (c : VecDyn V) (q : Ptr) (w : World (Ledger U)) (I : List Obj)
    (s : VecDyn V × World (Ledger U)) : Prop :=
  s.1.vtable = c.vtable ∧ Moved2 w.heap c.data.ptr q s.2.heap s.1.data.ptr none ∧ ∃ es, Cont Γ s.2.heap t es s.1.data ∧
    (∀ e ∈ es, S.valid t e) ∧ Own w.user s.2.user I (objs t es)

theorem Moved2.seq {h h1 h2 : Heap} {p q p' : Ptr} (a : Moved h p h1 p') (b : Moved h1 q h2 none) (hq : ∀ i, q = some i → i < h.next) : Moved2 h p q h2 p' none := by
  refine ⟨b.wf, Nat.le_trans a.next_le b.next_le, ?_, ?_, (fun _ h => by cases h), (fun _ _ h => by cases h)⟩
  · intro j hj h1 h2
    rw [b.other j (Nat.lt_of_lt_of_le hj a.next_le) h2, a.other j hj h1]
  · exact a.ptr

/-- Only the second owner acts. -/
theorem Moved2.ofRight {h h' : Heap} {p q : Ptr} (m : Moved h q h' none) : Moved2 h p q h' p none :=
  ⟨m.wf, m.next_le, fun j hj _ h => m.other j hj h, fun _ h => .inl h, (fun _ h => by cases h), (fun _ _ h => by cases h)⟩

theorem OwnsBlock.ptr_lt {h : Heap} {p : Ptr} (ho : OwnsBlock Γ h t p) (wf : h.WF) : ∀ i, p = some i → i < h.next :=
  OwnsBlock.lt_next wf ho

theorem VecDyn.push_own [HasDrop (Ledger U) V] [HasClone (Ledger U) V] (A : Acct Γ S) (g : Cont Γ w.heap t es c.data)
    (hv : ∀ e ∈ es, S.valid t e) (wf : w.heap.WF) {b : BoxValue V} (B : BoxOk Γ S w.heap t' b)
    (hd : ∀ i, c.data.ptr = some i → b.bytes.ptr ≠ some i) (ha : b.type_id = c.elementTypeId → b.alignment = 1) :
    NoUb (VecDyn.push Γ cfg b) (c, w) (fun _ s => PushPost Γ S t c b.bytes.ptr w (objs t es ++ [(t', b.bytes.bytes)]) s)
      (fun s => PushPost Γ S t c b.bytes.ptr w (objs t es ++ [(t', b.bytes.bytes)]) s) := by
  unfold VecDyn.push
  refine NoUb.bind_ok (b := c) (s' := (c, w)) rfl ?_
  by_cases he : b.type_id = c.elementTypeId
  · rw [if_pos he]
    have hbt : b.type_id = t' := B.real.type_id
    rcases g with R | ⟨u, _⟩
    · have : t' = t := by rw [← hbt, he]; exact R.type_id
      subst this
      refine NoUb.bind (R := fun _ s => PushPost Γ S t' c b.bytes.ptr w (objs t' es ++ [(t', b.bytes.bytes)]) s) ?_ fun _ _ h => h
      have hal : Γ.align t' = 1 := B.real.alignment.symm.trans (ha he)
      have hlen : b.bytes.bytes.length = Γ.size t' := S.len _ _ B.bytes
      have hX := (VecVoid.push_x (cfg := cfg) (.inl R) wf R.type_id hlen R.pos)
      have hB : ∀ e ∈ es ++ [b.bytes.bytes], S.valid t' e := by
        intro e he
        rcases List.mem_append.1 he with h | h
        · exact hv e h
        · rw [List.mem_singleton.1 h]; exact B.bytes
      have hP := onData_own (c := c) (hX.mono (fun _ _ h => h.own hB) fun _ h => h.own hB)
      have fin : ∀ s, OStep Γ S t' c w (objs t' (es ++ [b.bytes.bytes])) s → ∃ s', (onWorld (BoxBytes.dropPlain b.bytes) : M (VecDyn V × World (Ledger U)) Unit) s = (.ok (), s') ∧
          PushPost Γ S t' c b.bytes.ptr w (objs t' es ++ [(t', b.bytes.bytes)]) s' := by
        rintro ⟨c1, w1⟩ ⟨h1, es1, h2, h3, h4, h5⟩
        simp only at h1 h2 h4 h5
        have ho : OwnsBlock Γ w1.heap t' b.bytes.ptr := B.block.frame fun i hi =>
          h4.other i (B.block.ptr_lt wf i hi) fun e => hd i e.symm hi
        obtain ⟨h', e1, e2⟩ := Moved.dealloc h4.wf ho
        refine ⟨(c1, { w1 with heap := h' }), ?_, h1, Moved2.seq h4 e2 (B.block.ptr_lt wf), es1, ?_, h3, ?_⟩
        · have hlay : (⟨b.bytes.bytes.length, 1⟩ : Layout) = Γ.layout t' := by rw [hlen, ← hal]
          simp only [onWorld, BoxBytes.dropPlain, worldHeap, M.zoom_run, hlay, e1]
        · refine h2.frame fun i hi => e2.other i (h2.ptr_lt h4.wf i hi) fun e => ?_
          rcases h4.ptr i hi with k | k
          · exact hd i k e.symm
          · exact absurd (B.block.ptr_lt wf i e.symm) (by omega)
        · rw [objs_append] at h5; exact h5
      refine NoUb.thenDrop hP ?_ ?_
      · intro _ s hs
        obtain ⟨s', e, h⟩ := fin s hs
        exact NoUb.of_ok e h
      · intro s hs
        obtain ⟨s', e, h⟩ := fin s hs
        exact NoUb.of_ok e h
    · exact absurd (hbt.symm.trans (he.trans (by rw [VecCopy.elementTypeId, u.elem]; rfl))) B.real.unit
  · rw [if_neg he]
    refine NoUb.bind (R := fun _ s => PushPost Γ S t c b.bytes.ptr w (objs t es ++ [(t', b.bytes.bytes)]) s) ?_ fun _ _ h => h
    have key : ∀ w1, Eff w b.bytes.ptr [(t', b.bytes.bytes)] w1 none [] →
        PushPost Γ S t c b.bytes.ptr w (objs t es ++ [(t', b.bytes.bytes)]) (c, w1) := by
      rintro w1 ⟨h1, h2⟩
      refine ⟨rfl, Moved2.ofRight h1, es, g.frame fun i hi => h1.other i (g.ptr_lt wf i hi) fun e => hd i hi e.symm, hv, ?_⟩
      refine (h2.frame (objs t es)).mono (fun a => ?_) fun a => by simp
      simp only [List.count_append]; omega
    exact NoUb.onWorld ((B.drop A wf).mono (fun _ w1 h => key w1 h) fun w1 h => key w1 h)

end Dync
