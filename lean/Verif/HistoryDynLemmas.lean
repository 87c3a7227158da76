import Verif.HistoryDyn
import Verif.HistoryLemmas
import Verif.VecDynLemmas3
import Verif.Props.Value
/-!
# Helper lemmas for programs over `VecDyn` containers and owned values
-/
namespace Dync
variable {U V : Type} [HasDrop U V] [HasClone U V] {Γ : TyEnv U} {N : Nat} {slots : DSlots V} {h h' : Heap} {s s' : DState}
  {cfg : Cfg} {w : World U} {t : TyId} {es : List Bytes} {c : VecDyn V} {k : Nat} {o : Obs} {u' : U}

theorem Slots.put_comm {β : Type} (s : Nat → Option β) {k j : Nat} (a b : Option β) (h : k ≠ j) :
    Slots.put (Slots.put s k a) j b = Slots.put (Slots.put s j b) k a := by
  funext i
  by_cases h1 : i = k
  · subst h1; simp [Slots.put, h]
  · by_cases h2 : i = j
    · subst h2; simp [Slots.put, h1]
    · simp [Slots.put, h1, h2]

/-- A block is allocated, then another one is freed. -/
theorem Realloc.exchange {h h1 h2 : Heap} {p0 p1 : Ptr}
    (a : Realloc h none h1 p1) (b : Realloc h1 p0 h2 none) : Realloc h p0 h2 p1 := by
  refine ⟨b.wf, Nat.le_trans a.next_le b.next_le, ?_, ?_, ?_⟩
  · intro j hj hj'
    rw [b.other j hj (by simp), a.other j (by simp) hj']
  · intro _ i hi
    exact b.old_dead (by rw [hi]; simp) i hi
  · intro _ i hi
    exact a.new_fresh (by rw [hi]; simp) i hi

theorem Realloc.ofFree {h : Heap} (wf : h.WF) (i : Nat) : Realloc h (some i) (h.free i) none := by
  refine ⟨wf.free i, Nat.le_refl _, ?_, ?_, by intro _ j hj; cases hj⟩
  · intro j hj _
    have : j ≠ i := fun e => hj (e ▸ rfl)
    simp [Heap.free, this]
  · intro _ j hj; cases hj; simp [Heap.free]

/-! ### Drop loops -/

theorem dropEach_ok_forEach {σ α : Type} {xs : List α} {f : α → M σ Unit} {s s' : σ}
    (h : M.dropEach xs f s = (.ok (), s')) : M.forEach xs f s = (.ok (), s') := by
  induction xs generalizing s with
  | nil => exact h
  | cons x xs ih =>
    simp only [M.dropEach, M.thenDrop] at h
    simp only [M.forEach, M.bind_run]
    rcases hx : f x s with ⟨r, s1⟩
    rw [hx] at h
    cases r with
    | ok a =>
      simp only at h ⊢
      rcases hd : M.dropEach xs f s1 with ⟨r2, s2⟩
      rw [hd] at h
      cases r2 <;> simp only at h <;> cases h
      exact ih hd
    | panic y =>
      simp only at h
      rcases hd : M.dropEach xs f s1 with ⟨r2, s2⟩
      rw [hd] at h
      cases r2 <;> simp only at h <;> cases h
    | ub => cases h
    | abort => cases h

theorem forEach_ok_dropEach {σ α : Type} {xs : List α} {f : α → M σ Unit} {s s' : σ}
    (h : M.forEach xs f s = (.ok (), s')) : M.dropEach xs f s = (.ok (), s') := by
  induction xs generalizing s with
  | nil => exact h
  | cons x xs ih =>
    simp only [M.forEach, M.bind_run] at h
    simp only [M.dropEach, M.thenDrop]
    rcases hx : f x s with ⟨r, s1⟩
    rw [hx] at h
    cases r with
    | ok a => simp only at h ⊢; rw [ih h]
    | panic y => cases h
    | ub => cases h
    | abort => cases h

theorem mapEach_of_extendClones {t : TyId} {xs es es' : List Bytes} {u u' : U}
    (h : TVec.extendClones Γ t xs es u = (.ok (), (es', u'))) :
    ∃ ys, es' = es ++ ys ∧ M.mapEach xs (Γ.clone t) u = (.ok ys, u') := by
  induction xs generalizing es u with
  | nil => cases h; exact ⟨[], by simp, rfl⟩
  | cons x xs ih =>
    simp only [TVec.extendClones] at h
    rcases hc : Γ.clone t x u with ⟨r, u1⟩
    rw [hc] at h
    cases r with
    | ok b =>
      simp only at h
      obtain ⟨ys, he, hm⟩ := ih h
      exact ⟨b :: ys, by rw [he]; simp, by simp only [M.mapEach, M.bind_run, hc, hm, M.pure_run]⟩
    | panic y => cases h
    | ub => cases h
    | abort => cases h

theorem clones_ok {t : TyId} {xs es' : List Bytes} {u u' : U} (h : DSpec.clones Γ t xs u = (.ok es', u')) :
    M.mapEach xs (Γ.clone t) u = (.ok es', u') := by
  simp only [DSpec.clones] at h
  rcases hc : TVec.extendClones Γ t xs [] u with ⟨r, es1, u1⟩
  rw [hc] at h
  cases r with
  | ok a =>
    simp only at h; cases h
    obtain ⟨ys, he, hm⟩ := mapEach_of_extendClones hc
    rw [he]; simpa using hm
  | panic y =>
    simp only [M.bind_run, M.unwindDrop] at h
    rcases hd : M.dropEach es1 (Γ.drop t) u1 with ⟨r2, u2⟩
    rw [hd] at h
    cases r2 <;> simp only [M.panic_run] at h <;> cases h
  | ub => cases h
  | abort => cases h

/-! ### Items -/

theorem ItemOk.frame {a : Item V} {b : SItem} (I : ItemOk Γ N h a b) (hf : ∀ i, a.ptr = some i → h'.live i = h.live i) :
    ItemOk Γ N h' a b := by
  cases a <;> cases b <;> try exact I.elim
  · exact ⟨I.1.frame hf, I.2⟩
  · exact ⟨I.1.frame hf, I.2⟩
  · exact I

theorem ItemOk.ptr_lt {a : Item V} {b : SItem} (I : ItemOk Γ N h a b) (wf : h.WF) : ∀ i, a.ptr = some i → i < h.next := by
  cases a <;> cases b <;> try exact I.elim
  · exact I.1.ptr_lt wf
  · exact I.1.block.lt_next wf
  · intro i hi; cases hi

theorem OptOk.frame {a : Option (Item V)} {b : Option SItem} (I : OptOk Γ N h a b)
    (hf : ∀ i, ownedPtr a = some i → h'.live i = h.live i) : OptOk Γ N h' a b := by
  cases a <;> cases b <;> try exact I.elim
  · trivial
  · exact ItemOk.frame I hf

theorem OptOk.ptr_lt {a : Option (Item V)} {b : Option SItem} (I : OptOk Γ N h a b) (wf : h.WF) :
    ∀ i, ownedPtr a = some i → i < h.next := by
  cases a <;> cases b <;> try exact I.elim
  · intro i hi; cases hi
  · exact ItemOk.ptr_lt I wf

/-- One variable (and the block it owns) changes. -/
theorem DInv.update {a : Option (Item V)} {b : Option SItem} (I : DInv Γ N slots h s)
    (hre : Realloc h (ownedPtr (slots k)) h' (ownedPtr a)) (hok : OptOk Γ N h' a b) :
    DInv Γ N (Slots.put slots k a) h' (Slots.put s k b) := by
  have hne : ∀ k', k' ≠ k → ∀ i, ownedPtr (slots k') = some i → ownedPtr (slots k) ≠ some i ∧ ownedPtr a ≠ some i := by
    intro k' hk i hi
    have h1 : ownedPtr (slots k) ≠ some i := fun e => hk (I.inj k' k i hi e)
    refine ⟨h1, fun e => ?_⟩
    by_cases hp : ownedPtr a = ownedPtr (slots k)
    · exact h1 (hp ▸ e)
    · have := hre.new_fresh hp i e
      have := (I.ok k').ptr_lt I.wf i hi
      omega
  refine ⟨hre.wf, ?_, ?_, ?_⟩
  · intro k'
    by_cases hk : k' = k
    · subst hk; simpa using hok
    · rw [Slots.put_other _ _ hk, Slots.put_other _ _ hk]
      refine (I.ok k').frame fun i hi => ?_
      obtain ⟨h1, h2⟩ := hne k' hk i hi
      exact hre.other i (fun e => h1 e.symm) (fun e => h2 e.symm)
  · intro k1 k2 i h1 h2
    by_cases e1 : k1 = k
    · by_cases e2 : k2 = k
      · rw [e1, e2]
      · subst e1
        rw [Slots.put_same] at h1
        rw [Slots.put_other _ _ e2] at h2
        exact absurd h1 (hne k2 e2 i h2).2
    · rw [Slots.put_other _ _ e1] at h1
      by_cases e2 : k2 = k
      · subst e2
        rw [Slots.put_same] at h2
        exact absurd h2 (hne k1 e1 i h1).2
      · rw [Slots.put_other _ _ e2] at h2
        exact I.inj k1 k2 i h1 h2
  · intro i l hl
    by_cases ha : ownedPtr a = some i
    · exact ⟨k, by rw [Slots.put_same]; exact ha⟩
    · by_cases hs : ownedPtr (slots k) = some i
      · rw [hre.old_dead (by rw [hs]; exact ha) i hs] at hl; cases hl
      · rw [hre.other i (fun e => hs e.symm) (fun e => ha e.symm)] at hl
        obtain ⟨k', hk'⟩ := I.owned i l hl
        have : k' ≠ k := fun e => hs (e ▸ hk')
        exact ⟨k', by rw [Slots.put_other _ _ this]; exact hk'⟩

theorem DInv.lookup {b : SItem} (I : DInv Γ N slots h s) (hs : s k = some b) : ∃ a, slots k = some a ∧ ItemOk Γ N h a b := by
  have := I.ok k
  rw [hs] at this
  cases ha : slots k with
  | none => rw [ha] at this; exact this.elim
  | some a => rw [ha] at this; exact ⟨a, rfl, this⟩

theorem DInv.empty (I : DInv Γ N slots h s) (hs : s k = none) : slots k = none := by
  have := I.ok k
  rw [hs] at this
  cases ha : slots k with
  | none => rfl
  | some a => rw [ha] at this; exact this.elim

theorem ItemOk.vec {a : Item V} (I : ItemOk Γ N h a (.vec t es)) : ∃ c, a = .vec c ∧ Repr Γ h t es c.data ∧
    c.data.cap ≤ 2 * N + 8 ∧ Room Γ t (4 * N + 16) ∧ LawfulDrop Γ t c.vtable ∧ LawfulClone Γ t c.vtable := by
  cases a with
  | vec c => exact ⟨c, rfl, I⟩
  | box v => exact I.elim
  | small v => exact I.elim
theorem ItemOk.box {a : Item V} {x : Bytes} (I : ItemOk Γ N h a (.box t x)) : ∃ v, a = .box v ∧ IsBox Γ h t x v ∧
    LawfulDrop Γ t v.vtable ∧ LawfulClone Γ t v.vtable := by
  cases a with
  | box c => exact ⟨c, rfl, I⟩
  | vec v => exact I.elim
  | small v => exact I.elim
theorem ItemOk.small {a : Item V} {x : Bytes} (I : ItemOk Γ N h a (.small t x)) : ∃ v, a = .small v ∧ IsSmall Γ t x v ∧
    LawfulDrop Γ t v.vtable ∧ LawfulClone Γ t v.vtable := by
  cases a with
  | small c => exact ⟨c, rfl, I⟩
  | vec v => exact I.elim
  | box v => exact I.elim

/-- Dropping what a variable holds is dropping the typed value. -/
theorem Item.drop_ok {a : Item V} {b : SItem} (I : ItemOk Γ N w.heap a b) (wf : w.heap.WF)
    (hd : b.drop Γ w.user = (.ok (), u')) :
    ∃ h', a.drop cfg w = (.ok (), ⟨h', u'⟩) ∧ Realloc w.heap a.ptr h' none := by
  cases b with
  | vec t es =>
    obtain ⟨c, rfl, R, -, -, hl, -⟩ := I.vec
    obtain ⟨i, hi, hrun⟩ := VecDyn.drop_ok (cfg := cfg) R hl (dropEach_ok_forEach hd)
    refine ⟨w.heap.free i, hrun, ?_⟩
    show Realloc w.heap c.data.ptr _ none
    rw [hi]
    exact Realloc.ofFree wf i
  | box t x =>
    obtain ⟨v, rfl, B, hl, -⟩ := I.box
    obtain ⟨h', hrun, hre, -⟩ := Value.drop_box_ok wf B hl hd
    exact ⟨h', hrun, hre⟩
  | small t x =>
    obtain ⟨v, rfl, B, hl, -⟩ := I.small
    exact ⟨w.heap, Value.drop_small_ok B hl hd, Realloc.refl wf none⟩

/-- A new value is created and assigned to a variable. -/
theorem create_step {a : Item V} {b : SItem} {h1 : Heap} {u1 : U} {m : M (World U) (Item V)}
    (I : DInv Γ N slots w.heap s) (hm : m w = (.ok a, ⟨h1, u1⟩)) (hre : Realloc w.heap none h1 a.ptr)
    (hok : ItemOk Γ N h1 a b) (hspec : DSpec.put Γ k b (s, u1) = (.ok o, (s', u'))) :
    ∃ slots' h', DOp.create cfg k m (slots, w) = (.ok o, (slots', ⟨h', u'⟩)) ∧ DInv Γ N slots' h' s' := by
  simp only [DSpec.put] at hspec
  cases hs : s k with
  | none =>
    rw [hs] at hspec
    cases hspec
    have hk := I.empty hs
    refine ⟨Slots.put slots k (some a), h1, ?_, I.update (k := k) (a := some a) (b := some b) ?_ hok⟩
    · simp only [DOp.create, M.bind_run, onWorld, M.zoom_run, hm, DOp.putItem, hk, M.pure_run]
    · rw [hk]; exact hre
  | some old =>
    rw [hs] at hspec
    simp only at hspec
    obtain ⟨a0, hk, I0⟩ := I.lookup hs
    rcases hd : old.drop Γ u1 with ⟨r, u2⟩
    rw [hd] at hspec
    cases r with
    | ok x =>
      simp only [Res.map] at hspec
      cases hspec
      have hlt := I0.ptr_lt I.wf
      have I0' : ItemOk Γ N h1 a0 old := by
        refine I0.frame fun i hi => hre.other i (by simp) fun e => ?_
        have := hre.new_fresh (by rw [← e]; simp) i e.symm
        have := hlt i hi
        omega
      obtain ⟨h2, hrun, hre2⟩ := Item.drop_ok (cfg := cfg) (w := ⟨h1, u1⟩) I0' hre.wf hd
      refine ⟨Slots.put slots k (some a), h2, ?_, I.update (k := k) (a := some a) (b := some b) ?_ ?_⟩
      · simp only [DOp.create, M.bind_run, onWorld, M.zoom_run, hm, DOp.putItem, hk, hrun, M.pure_run]
      · rw [hk]; exact hre.exchange hre2
      · refine ItemOk.frame hok fun i hi => hre2.other i (fun e => ?_) (by simp)
        have := hre.new_fresh (by rw [hi]; simp) i hi
        have := hlt i e.symm
        omega
    | panic y => cases hspec
    | ub => cases hspec
    | abort => cases hspec

/-- A method on one container. -/
theorem method_step {m : M (VecDyn V × World U) Obs} {f : TyId → M (List Bytes × U) Obs}
    (I : DInv Γ N slots w.heap s) (hspec : DSpec.methodVec k f (s, w.user) = (.ok o, (s', u')))
    (hm : ∀ c t es es', slots k = some (.vec c) → s k = some (.vec t es) → f t (es, w.user) = (.ok o, (es', u')) →
      Repr Γ w.heap t es c.data → c.data.cap ≤ 2 * N + 8 → Room Γ t (4 * N + 16) →
      LawfulDrop Γ t c.vtable → LawfulClone Γ t c.vtable →
      ∃ d h' n, m (c, w) = (.ok o, ({ c with data := d }, ⟨h', u'⟩)) ∧
        Evolves Γ t n es' w.heap c.data h' d ∧ n ≤ N) :
    ∃ slots' h', DOp.onVec k m (slots, w) = (.ok o, (slots', ⟨h', u'⟩)) ∧ DInv Γ N slots' h' s' := by
  have habs : (∀ t es, s k ≠ some (.vec t es)) → ∃ slots' h',
      DOp.onVec k m (slots, w) = (.ok o, (slots', ⟨h', u'⟩)) ∧ DInv Γ N slots' h' s' := by
    intro hn
    cases hs : s k with
    | none =>
      simp only [DSpec.methodVec, hs] at hspec
      cases hspec
      exact ⟨slots, w.heap, by simp only [DOp.onVec, I.empty hs], I⟩
    | some b =>
      obtain ⟨a, ha, A⟩ := I.lookup hs
      cases b with
      | vec t es => exact absurd hs (hn t es)
      | box t x =>
        simp only [DSpec.methodVec, hs] at hspec
        cases hspec
        obtain ⟨v, rfl, -⟩ := A.box
        exact ⟨slots, w.heap, by simp only [DOp.onVec, ha], I⟩
      | small t x =>
        simp only [DSpec.methodVec, hs] at hspec
        cases hspec
        obtain ⟨v, rfl, -⟩ := A.small
        exact ⟨slots, w.heap, by simp only [DOp.onVec, ha], I⟩
  by_cases hv : ∃ t es, s k = some (.vec t es)
  · obtain ⟨t, es, hs⟩ := hv
    obtain ⟨a, ha, A⟩ := I.lookup hs
    obtain ⟨c, rfl, R, hcap, hroom, hl, hlc⟩ := A.vec
    simp only [DSpec.methodVec, hs] at hspec
    rcases hf : f t (es, w.user) with ⟨r, es', u1⟩
    rw [hf] at hspec
    simp only at hspec
    cases hspec
    obtain ⟨d, h', n, hrun, hev, hn⟩ := hm c t es es' ha hs hf R hcap hroom hl hlc
    refine ⟨Slots.put slots k (some (.vec { c with data := d })), h', ?_, ?_⟩
    · simp only [DOp.onVec, ha, hrun]
    · refine I.update (a := some (.vec { c with data := d })) (b := some (.vec t es')) ?_ ⟨hev.repr, ?_, hroom, hl, hlc⟩
      · rw [ha]; exact hev.realloc
      · have := hev.cap_bound
        show d.cap ≤ _
        omega
  · exact habs fun t es e => hv ⟨t, es, e⟩

/-- A method without user code and without allocation. -/
theorem pure_step {m : M (VecDyn V × World U) Obs} {f : TyId → List Bytes → Option (Obs × List Bytes)}
    (I : DInv Γ N slots w.heap s) (hspec : DSpec.pureVec k f (s, w.user) = (.ok o, (s', u')))
    (hm : ∀ c t es es', s k = some (.vec t es) → f t es = some (o, es') →
      Repr Γ w.heap t es c.data → LawfulDrop Γ t c.vtable → LawfulClone Γ t c.vtable →
      ∃ d, m (c, w) = (.ok o, ({ c with data := d }, w)) ∧ Evolves Γ t 0 es' w.heap c.data w.heap d) :
    ∃ slots' h', DOp.onVec k m (slots, w) = (.ok o, (slots', ⟨h', u'⟩)) ∧ DInv Γ N slots' h' s' := by
  refine method_step I hspec ?_
  intro c t es es' ha hs hf R hcap hroom hl hlc
  simp only at hf
  cases hfe : f t es with
  | none => rw [hfe] at hf; cases hf
  | some p =>
    obtain ⟨o1, es1⟩ := p
    rw [hfe] at hf
    simp only at hf
    cases hf
    obtain ⟨d, hrun, hev⟩ := hm c t es es' hs hfe R hl hlc
    exact ⟨d, w.heap, 0, hrun, hev, Nat.zero_le _⟩

/-- A place is read. -/
theorem read_step {i : Nat} {r : Option (TyId × Bytes)} {q : DState × U} (I : DInv Γ N slots w.heap s)
    (hspec : DSpec.read k i (s, w.user) = (.ok r, q)) :
    q = (s, w.user) ∧ ∃ r', DOp.readRef cfg k i (slots, w) = (.ok r', (slots, w)) ∧
      (match r, r' with
        | none, none => s k = none
        | some (t, x), some v => IsRef Γ t x v ∧ LawfulDrop Γ t v.vtable ∧ LawfulClone Γ t v.vtable ∧ s.tyAt k = some t
        | _, _ => False) := by
  cases hs : s k with
  | none =>
    simp only [DSpec.read, hs] at hspec
    cases hspec
    exact ⟨rfl, none, by simp only [DOp.readRef, I.empty hs], rfl⟩
  | some b =>
    obtain ⟨a, ha, A⟩ := I.lookup hs
    cases b with
    | vec t es =>
      obtain ⟨c, rfl, R, -, -, hl, hlc⟩ := A.vec
      simp only [DSpec.read, hs] at hspec
      by_cases hi : i < es.length
      · rw [dif_pos hi] at hspec
        cases hspec
        refine ⟨rfl, some (c.valueOf es[i]), ?_, ⟨?_, hl, hlc, by simp [DState.tyAt, hs, SItem.ty]⟩⟩
        · simp only [DOp.readRef, ha, VecDyn.get_ok R hi, Res.map]
        · exact ⟨R.type_id, R.align, rfl, R.each _ (List.getElem_mem hi)⟩
      · rw [dif_neg hi] at hspec; cases hspec
    | box t x =>
      obtain ⟨v, rfl, B, hl, hlc⟩ := A.box
      simp only [DSpec.read, hs] at hspec
      cases hspec
      exact ⟨rfl, some v.asRef, by simp only [DOp.readRef, ha], ⟨B.asRef, hl, hlc, by simp [DState.tyAt, hs, SItem.ty]⟩⟩
    | small t x =>
      obtain ⟨v, rfl, B, hl, hlc⟩ := A.small
      simp only [DSpec.read, hs] at hspec
      cases hspec
      exact ⟨rfl, some v.asRef, by simp only [DOp.readRef, ha], ⟨B.asRef, hl, hlc, by simp [DState.tyAt, hs, SItem.ty]⟩⟩

/-- A place is written through a mutable reference: only the variable changes, its block stays. -/
theorem onMut_step {i : Nat} {x b' : Bytes} {w' : World U} {m : M (ValueRef V × World U) Obs} {q : DState × U} {r : Res Obs}
    (I : DInv Γ N slots w.heap s)
    (hread : DSpec.read k i (s, w.user) = (.ok (some (t, x)), q)) (hb : b'.length = Γ.size t)
    (hm : ∀ v, IsRef Γ t x v → LawfulDrop Γ t v.vtable → LawfulClone Γ t v.vtable →
      m (v, w) = (r, ({ v with bytes := b' }, w'))) :
    ∃ a', DOp.onMut cfg k i m (slots, w) = (r, (Slots.put slots k (some a'), w')) ∧
      DInv Γ N (Slots.put slots k (some a')) w.heap (Slots.put s k ((s k).map (SItem.setAt i b'))) := by
  cases hs : s k with
  | none => simp only [DSpec.read, hs] at hread; cases hread
  | some b =>
    obtain ⟨a, ha, A⟩ := I.lookup hs
    cases b with
    | vec t1 es =>
      obtain ⟨c, rfl, R, hcap, hroom, hl, hlc⟩ := A.vec
      simp only [DSpec.read, hs] at hread
      by_cases hi : i < es.length
      · rw [dif_pos hi] at hread
        cases hread
        have hv : IsRef Γ t es[i] (c.valueOf es[i]) := ⟨R.type_id, R.align, rfl, R.each _ (List.getElem_mem hi)⟩
        obtain ⟨d, hrun, hev⟩ := VecDyn.getMut_ok (cfg := cfg) R I.wf hi (hm _ hv hl hlc) hb
        refine ⟨.vec { c with data := d }, ?_, ?_⟩
        · simp only [DOp.onMut, ha, hrun]
        · rw [Option.map_some, SItem.setAt]
          refine I.update (a := some (.vec { c with data := d })) ?_ ⟨hev.repr, ?_, hroom, hl, hlc⟩
          · rw [ha]; exact hev.realloc
          · have := hev.cap_bound; show d.cap ≤ _; omega
      · rw [dif_neg hi] at hread; cases hread
    | box t1 x1 =>
      obtain ⟨v, rfl, B, hl, hlc⟩ := A.box
      simp only [DSpec.read, hs] at hread
      cases hread
      refine ⟨.box { v with bytes := ByteBuf.set b' v.bytes }, ?_, ?_⟩
      · simp only [DOp.onMut, ha, hm _ B.asRef hl hlc]
      · rw [Option.map_some, SItem.setAt]
        refine I.update (a := some (.box { v with bytes := ByteBuf.set b' v.bytes })) ?_
          ⟨⟨B.type_id, B.align, rfl, hb, B.block⟩, hl, hlc⟩
        rw [ha]; exact Realloc.refl I.wf _
    | small t1 x1 =>
      obtain ⟨v, rfl, B, hl, hlc⟩ := A.small
      simp only [DSpec.read, hs] at hread
      cases hread
      refine ⟨.small { v with bytes := ByteBuf.set b' v.bytes }, ?_, ?_⟩
      · simp only [DOp.onMut, ha, hm _ B.asRef hl hlc]
      · rw [Option.map_some, SItem.setAt]
        refine I.update (a := some (.small { v with bytes := ByteBuf.set b' v.bytes })) ?_
          ⟨⟨B.type_id, B.align, rfl, hb, B.size⟩, hl, hlc⟩
        rw [ha]; exact Realloc.refl I.wf _

end Dync
