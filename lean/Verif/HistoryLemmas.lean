import Verif.History
/-!
# Helper lemmas for programs over several containers
-/
namespace Dync
variable {U V : Type} {Γ : TyEnv U} {N : Nat} {slots : Slots V} {h h' : Heap} {s : Op.VState} {cfg : Cfg} {vt : V}
  {w : World U} {t : TyId} {es : List Bytes} {c : VecCopy V} {k : Nat}

@[simp] theorem Slots.put_same {β : Type} (s : Nat → Option β) (k : Nat) (c : Option β) : Slots.put s k c k = c := by
  simp [Slots.put]
theorem Slots.put_other {β : Type} (s : Nat → Option β) {k j : Nat} (c : Option β) (h : j ≠ k) :
    Slots.put s k c j = s j := by simp [Slots.put, h]
theorem Slots.put_self {β : Type} (s : Nat → Option β) (k : Nat) : Slots.put s k (s k) = s := by
  funext i; by_cases h : i = k
  · subst h; simp
  · simp [Slots.put, h]
theorem Slots.put_put {β : Type} (s : Nat → Option β) (k : Nat) (a b : Option β) :
    Slots.put (Slots.put s k a) k b = Slots.put s k b := by
  funext i; by_cases h : i = k <;> simp [Slots.put, h]

theorem HInv.lookup (I : HInv Γ N slots h s) (hk : s k = some (t, es)) : ∃ c, slots k = some c ∧ Repr Γ h t es c.data ∧
    c.data.cap ≤ 2 * N + 8 ∧ Room Γ t (4 * N + 16) := by
  cases hc : slots k with
  | none => rw [(I.none_iff k).1 hc] at hk; cases hk
  | some c => exact ⟨c, rfl, I.repr k c t es hc hk⟩

theorem HInv.lookup' (I : HInv Γ N slots h s) (hk : slots k = some c) : ∃ t es, s k = some (t, es) ∧
    Repr Γ h t es c.data := by
  cases hs : s k with
  | none => rw [(I.none_iff k).2 hs] at hk; cases hk
  | some p => exact ⟨p.1, p.2, rfl, (I.repr k c p.1 p.2 hk hs).1⟩

theorem HInv.put (I : HInv Γ N slots h s) (wf' : h'.WF) (hR : Repr Γ h' t es c.data) (hcap : c.data.cap ≤ 2 * N + 8)
    (hroom : Room Γ t (4 * N + 16))
    (hfr : ∀ k' c' i, k' ≠ k → slots k' = some c' → c'.data.ptr = some i → h'.live i = h.live i ∧ c.data.ptr ≠ some i)
    (hown : ∀ i l, h'.live i = some l → c.data.ptr = some i ∨
      (h.live i = some l ∧ ∀ c0, slots k = some c0 → c0.data.ptr ≠ some i)) :
    HInv Γ N (Slots.put slots k (some c)) h' (Slots.put s k (some (t, es))) := by
  refine ⟨wf', ?_, ?_, ?_, ?_⟩
  · intro k'
    by_cases hk : k' = k
    · subst hk; simp
    · simp only [Slots.put_other _ _ hk]; exact I.none_iff k'
  · intro k' c' t' es' hc hs
    by_cases hk : k' = k
    · subst hk
      simp only [Slots.put_same] at hc hs
      cases hc; cases hs
      exact ⟨hR, hcap, hroom⟩
    · rw [Slots.put_other _ _ hk] at hc hs
      obtain ⟨R, hc1, hr1⟩ := I.repr k' c' t' es' hc hs
      exact ⟨R.frame fun i hi => (hfr k' c' i hk hc hi).1, hc1, hr1⟩
  · intro k1 k2 c1 c2 h1 h2 hp
    by_cases e1 : k1 = k
    · by_cases e2 : k2 = k
      · rw [e1, e2]
      · subst e1
        rw [Slots.put_other _ _ e2] at h2
        simp only [Slots.put_same] at h1
        cases h1
        obtain ⟨t2, es2, hs2, R2⟩ := I.lookup' h2
        obtain ⟨i, hi, -⟩ := R2.block
        exact absurd (hp.trans hi) (hfr k2 c2 i e2 h2 hi).2
    · rw [Slots.put_other _ _ e1] at h1
      by_cases e2 : k2 = k
      · subst e2
        simp only [Slots.put_same] at h2
        cases h2
        obtain ⟨t2, es2, hs2, R2⟩ := I.lookup' h1
        obtain ⟨i, hi, -⟩ := R2.block
        exact absurd (hp.symm.trans hi) (hfr k1 c1 i e1 h1 hi).2
      · rw [Slots.put_other _ _ e2] at h2
        exact I.inj k1 k2 c1 c2 h1 h2 hp
  · intro i l hl
    rcases hown i l hl with hp | ⟨hl', hne⟩
    · exact ⟨k, c, by simp, hp⟩
    · obtain ⟨k', c', hc', hp'⟩ := I.owned i l hl'
      have hkk : k' ≠ k := by
        intro e; subst e; exact hne c' hc' hp'
      exact ⟨k', c', by rw [Slots.put_other _ _ hkk]; exact hc', hp'⟩

/-- An operation on one container. -/
theorem HInv.evolve' {d : VecVoid} {n : Nat} {es' : List Bytes} (v' : V) (I : HInv Γ N slots h s) (hk : slots k = some c)
    (hsk : s k = some (t, es)) (hev : Evolves Γ t n es' h c.data h' d) (hn : n ≤ N) :
    HInv Γ N (Slots.put slots k (some ⟨d, v'⟩)) h' (Slots.put s k (some (t, es'))) := by
  obtain ⟨R, hcap, hroom⟩ := I.repr k c t es hk hsk
  have hre := hev.realloc
  refine I.put hre.wf hev.repr ?_ hroom ?_ ?_
  · have := hev.cap_bound
    simp only at *
    omega
  · intro k' c' i hne hc' hp'
    obtain ⟨t2, es2, hs2, R2⟩ := I.lookup' hc'
    have hpp : c.data.ptr ≠ some i := by
      intro e
      exact hne (I.inj k' k c' c hc' hk (hp'.trans e.symm))
    have hlt := R2.ptr_lt I.wf i hp'
    have hdp : d.ptr ≠ some i := by
      intro e
      by_cases hdc : d.ptr = c.data.ptr
      · exact hpp (hdc ▸ e)
      · have := hre.new_fresh hdc i e; omega
    exact ⟨hre.other i (fun e => hpp e.symm) (fun e => hdp e.symm), hdp⟩
  · intro i l hl
    by_cases hd : d.ptr = some i
    · exact .inl hd
    · right
      by_cases hc : c.data.ptr = some i
      · have hdc : d.ptr ≠ c.data.ptr := by rw [hc]; exact hd
        rw [hre.old_dead hdc i hc] at hl
        cases hl
      · refine ⟨?_, ?_⟩
        · rw [← hre.other i (fun e => hc e.symm) (fun e => hd e.symm)]; exact hl
        · intro c0 hc0; rw [hk] at hc0; cases hc0; exact hc

/-- Assigning a freshly built container to a variable. -/
theorem HInv.evolve {d : VecVoid} {n : Nat} {es' : List Bytes} (I : HInv Γ N slots h s) (hk : slots k = some c)
    (hsk : s k = some (t, es)) (hev : Evolves Γ t n es' h c.data h' d) (hn : n ≤ N) :
    HInv Γ N (Slots.put slots k (some { c with data := d })) h' (Slots.put s k (some (t, es'))) :=
  I.evolve' c.vtable hk hsk hev hn

theorem HInv.assign (I : HInv Γ N slots w.heap s) (hR : Repr Γ h' t es c.data) (hre : Realloc w.heap none h' c.data.ptr)
    (hcap : c.data.cap ≤ 2 * N + 8) (hroom : Room Γ t (4 * N + 16)) (k : Nat) :
    ∃ h'', Op.assign cfg k c (slots, { w with heap := h' }) =
        (.ok (), (Slots.put slots k (some c), { w with heap := h'' })) ∧
      HInv Γ N (Slots.put slots k (some c)) h'' (Slots.put s k (some (t, es))) := by
  obtain ⟨ip, hip, hlp⟩ := hR.block
  have hfresh : w.heap.next ≤ ip := hre.new_fresh (by rw [hip]; simp) ip hip
  have hold : ∀ i, i < w.heap.next → h'.live i = w.heap.live i := by
    intro i hi
    refine hre.other i (by simp) ?_
    rw [hip]; intro e; cases e; omega
  cases hk : slots k with
  | none =>
    refine ⟨h', ?_, I.put hre.wf hR hcap hroom ?_ ?_⟩
    · simp only [Op.assign, M.bind_run, M.get_run, hk, M.modify_run]
    · intro k' c' i hne hc' hp'
      obtain ⟨t2, es2, hs2, R2⟩ := I.lookup' hc'
      have hlt := R2.ptr_lt I.wf i hp'
      refine ⟨hold i hlt, ?_⟩
      rw [hip]; intro e; cases e; omega
    · intro i l hl
      by_cases e : i = ip
      · left; rw [e]; exact hip
      · right
        refine ⟨?_, by intro c0 h0; rw [hk] at h0; cases h0⟩
        rw [← hre.other i (by simp) (by rw [hip]; intro e'; cases e'; exact e rfl)]; exact hl
  | some old =>
    obtain ⟨t0, es0, hs0, R0⟩ := I.lookup' hk
    have R0' : Repr Γ h' t0 es0 old.data := R0.frame fun i hi => hold i (R0.ptr_lt I.wf i hi)
    obtain ⟨i0, hp0, hdrop⟩ := VecVoid.drop_spec (cfg := cfg) (w := { w with heap := h' }) R0'
    have hlt0 := R0.ptr_lt I.wf i0 hp0
    have hne0 : ip ≠ i0 := by omega
    refine ⟨h'.free i0, ?_, I.put (hre.wf.free i0) ?_ hcap hroom ?_ ?_⟩
    · have : VecCopy.drop cfg old ({ w with heap := h' } : World U) = (.ok (), { w with heap := h'.free i0 }) := hdrop
      simp only [Op.assign, M.bind_run, M.get_run, hk, onWorld, M.zoom_run, this, M.modify_run]
    · refine hR.frame fun i hi => ?_
      rw [hip] at hi; cases hi
      simp [Heap.free, hne0]
    · intro k' c' i hne hc' hp'
      obtain ⟨t2, es2, hs2, R2⟩ := I.lookup' hc'
      have hlt := R2.ptr_lt I.wf i hp'
      have : i ≠ i0 := by
        intro e; subst e
        exact hne (I.inj k' k c' old hc' hk (hp'.trans hp0.symm))
      refine ⟨?_, ?_⟩
      · simp only [Heap.free, this, if_false]; exact hold i hlt
      · rw [hip]; intro e; cases e; omega
    · intro i l hl
      by_cases e0 : i = i0
      · subst e0; simp [Heap.free] at hl
      · simp only [Heap.free, e0, if_false] at hl
        by_cases e : i = ip
        · left; rw [e]; exact hip
        · right
          refine ⟨?_, ?_⟩
          · rw [← hre.other i (by simp) (by rw [hip]; intro e'; cases e'; exact e rfl)]; exact hl
          · intro c1 h1; rw [hk] at h1; cases h1; rw [hp0]; intro e'; cases e'; exact e0 rfl

/-- Dropping a container. -/
theorem HInv.remove (I : HInv Γ N slots h s) (hk : slots k = some c) {i : Nat} (hp : c.data.ptr = some i) :
    HInv Γ N (Slots.put slots k none) (h.free i) (Slots.put s k none) := by
  refine ⟨I.wf.free i, ?_, ?_, ?_, ?_⟩
  · intro k'
    by_cases e : k' = k
    · subst e; simp
    · simp only [Slots.put_other _ _ e]; exact I.none_iff k'
  · intro k' c' t' es' hc hs
    by_cases e : k' = k
    · subst e; simp at hc
    · rw [Slots.put_other _ _ e] at hc hs
      obtain ⟨R, h1, h2⟩ := I.repr k' c' t' es' hc hs
      refine ⟨R.frame fun j hj => ?_, h1, h2⟩
      have : j ≠ i := by
        intro e'; subst e'
        exact e (I.inj k' k c' c hc hk (hj.trans hp.symm))
      simp [Heap.free, this]
  · intro k1 k2 c1 c2 h1 h2 hpp
    by_cases e1 : k1 = k
    · subst e1; simp at h1
    · by_cases e2 : k2 = k
      · subst e2; simp at h2
      · rw [Slots.put_other _ _ e1] at h1
        rw [Slots.put_other _ _ e2] at h2
        exact I.inj k1 k2 c1 c2 h1 h2 hpp
  · intro j l hl
    by_cases e : j = i
    · subst e; simp [Heap.free] at hl
    · simp only [Heap.free, e, if_false] at hl
      obtain ⟨k', c', hc', hp'⟩ := I.owned j l hl
      have : k' ≠ k := by
        intro e'; subst e'
        rw [hk] at hc'; cases hc'
        rw [hp] at hp'; cases hp'; exact e rfl
      exact ⟨k', c', by rw [Slots.put_other _ _ this]; exact hc', hp'⟩

/-! ### Constructors -/

theorem VecCopy.withType_ok (wf : w.heap.WF) (hpos : 0 < Γ.size t) :
    ∃ c h', withType Γ t vt w = (.ok c, { w with heap := h' }) ∧ Repr Γ h' t [] c.data ∧ c.vtable = vt ∧
      Realloc w.heap none h' c.data.ptr ∧ c.data.cap ≤ 8 := by
  have hne : Γ.size t ≠ 0 := by omega
  obtain ⟨p, k, h', hrun, hR, hre, -, hub⟩ := fromVec_ok (vt := vt) (isVec_new Γ w.heap hpos) wf hpos
  refine ⟨_, h', hrun, hR, rfl, hre, ?_⟩
  simpa [RVec.new, hne] using hub

theorem VecCopy.fromSlice_ok (wf : w.heap.WF) (hpos : 0 < Γ.size t) {xs : List Bytes}
    (hx : ∀ x ∈ xs, x.length = Γ.size t) (hroom : Room Γ t xs.length) :
    ∃ c h', fromSlice Γ t vt xs w = (.ok c, { w with heap := h' }) ∧ Repr Γ h' t xs c.data ∧ c.vtable = vt ∧
      Realloc w.heap none h' c.data.ptr ∧ c.data.cap ≤ max xs.length 8 := by
  have hne : Γ.size t ≠ 0 := by omega
  have hz : xs.length * Γ.size t + (Γ.align t - 1) ≤ isizeMax := hroom
  have hre0 := Realloc.ofAlloc wf ⟨xs.length * Γ.size t, Γ.align t⟩
  have hv : IsVec Γ (w.heap.alloc ⟨xs.length * Γ.size t, Γ.align t⟩).2 t xs
      ⟨(w.heap.alloc ⟨xs.length * Γ.size t, Γ.align t⟩).1, xs.length, xs.length, xs.flatten⟩ := by
    refine ⟨rfl, hx, rfl, Nat.le_refl _, hroom, ?_⟩
    by_cases h0 : xs.length = 0
    · left; simp [h0, Heap.alloc]
    · right
      have hl : (⟨xs.length * Γ.size t, Γ.align t⟩ : Layout).size ≠ 0 := Nat.mul_ne_zero h0 hne
      exact ⟨Nat.pos_of_ne_zero h0, _, (Heap.alloc_live hl).1, (Heap.alloc_live hl).2⟩
  obtain ⟨p, k, h', hrun, hR, hre, -, hub⟩ := fromVec_ok (vt := vt)
    (w := { w with heap := (w.heap.alloc ⟨xs.length * Γ.size t, Γ.align t⟩).2 }) hv hre0.wf hpos
  refine ⟨⟨⟨p, xs.length, k, ElemInfo.new Γ t, xs.flatten⟩, vt⟩, h', ?_, hR, rfl,
    Realloc.trans wf (fun i hi => by cases hi) hre0 hre, hub⟩
  have hwl := withLocal_ok (U := U) (d := RVec.dropTyped Γ t)
    (w := { w with heap := (w.heap.alloc ⟨xs.length * Γ.size t, Γ.align t⟩).2 })
    (x := ⟨(w.heap.alloc ⟨xs.length * Γ.size t, Γ.align t⟩).1, 0, xs.length, []⟩)
    (m := RVec.extendFromSlice (Γ.layout t) xs.length xs.flatten) (a := ())
    (x' := ⟨(w.heap.alloc ⟨xs.length * Γ.size t, Γ.align t⟩).1, xs.length, xs.length, xs.flatten⟩)
    (w' := { w with heap := (w.heap.alloc ⟨xs.length * Γ.size t, Γ.align t⟩).2 }) (by
      unfold RVec.extendFromSlice
      rw [M.bind_ok (RVec.reserve_fit (by simp))]
      simp)
  simp only [fromSlice, M.bind_run, RVec.withCapacity, hne, if_false, if_pos hz, hwl, hrun]

/-! ### One operation -/

/-- What one operation achieves: the implementation sees what the specification says, ends in a state
that represents the specification's state, and runs no user code. -/
def Op.StepOk (Γ : TyEnv U) (cfg : Cfg) (vt : V) (N : Nat) (op : Op) (slots : Slots V) (w : World U) (o : Obs)
    (s' : Op.VState) : Prop :=
  ∃ slots' h', op.exec Γ cfg vt (slots, w) = (.ok o, (slots', { w with heap := h' })) ∧ HInv Γ N slots' h' s'

theorem onSlot_step {m : M (VecCopy V × World U) Obs} {f : TyId → List Bytes → Option (Obs × List Bytes)} {o : Obs}
    {s' : Op.VState} (I : HInv Γ N slots w.heap s) (hspec : Op.specOn s k f = some (o, s'))
    (hm : ∀ c t es es', slots k = some c → s k = some (t, es) → f t es = some (o, es') → Repr Γ w.heap t es c.data →
      c.data.cap ≤ 2 * N + 8 → Room Γ t (4 * N + 16) →
      ∃ d h' n, m (c, w) = (.ok o, ({ c with data := d }, { w with heap := h' })) ∧
        Evolves Γ t n es' w.heap c.data h' d ∧ n ≤ N) :
    ∃ slots' h', Op.onSlot k m (slots, w) = (.ok o, (slots', { w with heap := h' })) ∧ HInv Γ N slots' h' s' := by
  unfold Op.specOn at hspec
  cases hs : s k with
  | none =>
    rw [hs] at hspec
    cases hspec
    refine ⟨slots, w.heap, ?_, I⟩
    simp only [Op.onSlot, (I.none_iff k).2 hs]
  | some p =>
    obtain ⟨t, es⟩ := p
    rw [hs] at hspec
    simp only at hspec
    cases hf : f t es with
    | none => rw [hf] at hspec; cases hspec
    | some q =>
      obtain ⟨o', es'⟩ := q
      rw [hf] at hspec
      cases hspec
      obtain ⟨c, hc, R, hcap, hroom⟩ := I.lookup hs
      obtain ⟨d, h', n, hrun, hev, hn⟩ := hm c t es es' hc hs hf R hcap hroom
      refine ⟨Slots.put slots k (some { c with data := d }), h', ?_, I.evolve hc hs hev hn⟩
      simp only [Op.onSlot, hc, hrun]

end Dync
