import Verif.MachineLemmas4
import Verif.SafetyLemmas6
/-!
# The variables of a program and the machine of `Machine.lean`
-/
namespace Dync
variable {U V α : Type} {Γ : TyEnv U} {t t' : TyId} {n : Nat} {v : VecVoid} {c : VecCopy V} {w : World U} {cfg : Cfg}
  {slots : Slots V} {h h' : Heap} {var : Nat → Option XVec} {L : List Nat} {k : Nat} {x : XVec} {p p' : Ptr} {vt : V}

/-- As `XState.Holds`, with the list of the live blocks that no variable owns. -/
structure Owned (Γ : TyEnv U) (slots : Slots V) (h : Heap) (var : Nat → Option XVec) (L : List Nat) : Prop where
  wf : h.WF
  none_iff : ∀ k, slots k = none ↔ var k = none
  is : ∀ k c x, slots k = some c → var k = some x → x.Is Γ h c.data
  inj : ∀ k k' c c' i, slots k = some c → slots k' = some c' → c.data.ptr = some i → c'.data.ptr = some i → k = k'
  nodup : L.Nodup
  live : ∀ i ∈ L, h.live i ≠ none
  apart : ∀ i ∈ L, ∀ k c, slots k = some c → c.data.ptr ≠ some i
  cover : ∀ i l, h.live i = some l → i ∈ L ∨ ∃ k c, slots k = some c ∧ c.data.ptr = some i

theorem XState.Holds.owned {s : XState} (H : s.Holds Γ slots h) : ∃ L, L.length = s.leaked ∧ Owned Γ slots h s.var L := by
  obtain ⟨L, h1, h2, h3, h4, h5⟩ := H.leaks
  exact ⟨L, h2, H.wf, H.none_iff, H.is, H.inj, h1, h3, h4, h5⟩

theorem Owned.holds (O : Owned Γ slots h var L) : XState.Holds Γ slots h ⟨var, L.length⟩ :=
  ⟨O.wf, O.none_iff, O.is, O.inj, L, O.nodup, rfl, O.live, O.apart, O.cover⟩

theorem XVec.Is.lt (I : x.Is Γ h v) (wf : h.WF) : ∀ i, v.ptr = some i → h.live i ≠ none ∧ i < h.next := by
  intro i hi
  cases x with
  | vec t es cap =>
    obtain ⟨j, hp, hl⟩ := I.1.block
    rw [hp] at hi
    cases hi
    exact ⟨by rw [hl]; simp, I.1.ptr_lt wf _ hp⟩
  | unit n => rw [(show IsUnits Γ n v from I).ptr] at hi; cases hi

theorem XVec.Is.frame (I : x.Is Γ h v) (hl : ∀ i, v.ptr = some i → h'.live i = h.live i) : x.Is Γ h' v := by
  cases x with
  | vec t es cap => exact ⟨I.1.frame hl, I.2⟩
  | unit n => exact I

theorem Owned.lookup (O : Owned Γ slots h var L) (hk : slots k = some c) : ∃ x, var k = some x ∧ x.Is Γ h c.data := by
  cases hv : var k with
  | none => rw [(O.none_iff k).2 hv] at hk; cases hk
  | some x => exact ⟨x, rfl, O.is k c x hk hv⟩

theorem Owned.lookup' (O : Owned Γ slots h var L) (hv : var k = some x) : ∃ c, slots k = some c ∧ x.Is Γ h c.data := by
  cases hk : slots k with
  | none => rw [(O.none_iff k).1 hk] at hv; cases hv
  | some c => exact ⟨c, rfl, O.is k c x hk hv⟩

theorem live_lt (wf : h.WF) {i : Nat} (hl : h.live i ≠ none) : i < h.next := by
  rcases Nat.lt_or_ge i h.next with h1 | h1
  · exact h1
  · exact absurd (wf i h1) hl

/-- A block that no variable owns is kept, exchanged or freed. -/
theorem Owned.move (O : Owned Γ slots h var (p.toList ++ L)) (re : Realloc h p h' p') (hl : ∀ i, p' = some i → h'.live i ≠ none) :
    Owned Γ slots h' var (p'.toList ++ L) := by
  have hp : ∀ i, p = some i → i ∈ p.toList ++ L := fun i hi => by simp [hi]
  have hfr : ∀ i, h.live i ≠ none → p ≠ some i → h'.live i = h.live i := by
    intro i hi hne
    refine re.other i (fun e => hne e.symm) fun e => ?_
    by_cases hpp : p' = p
    · exact hne (hpp.symm.trans e.symm)
    · have := re.new_fresh hpp i e.symm
      have := live_lt O.wf hi
      omega
  have hnew : ∀ i, p' = some i → p ≠ some i → h.next ≤ i := fun i hi hne => re.new_fresh (fun e => hne (e.symm.trans hi)) i hi
  have hLp : ∀ i ∈ L, p ≠ some i := by
    intro i hi e
    have := O.nodup
    rw [e] at this
    simp at this
    exact this.1 hi
  have hvp : ∀ k c, slots k = some c → ∀ i, c.data.ptr = some i → p ≠ some i :=
    fun k c hk i hi e => O.apart i (hp i e) k c hk hi
  refine ⟨re.wf, O.none_iff, ?_, O.inj, ?_, ?_, ?_, ?_⟩
  · intro k c x hk hx
    have I := O.is k c x hk hx
    exact I.frame fun i hi => hfr i (I.lt O.wf i hi).1 (hvp k c hk i hi)
  · cases hp' : p' with
    | none => exact (List.nodup_append.1 O.nodup).2.1
    | some j =>
      simp only [Option.toList_some, List.cons_append, List.nil_append, List.nodup_cons]
      refine ⟨fun hj => ?_, (List.nodup_append.1 O.nodup).2.1⟩
      have h1 := live_lt O.wf (O.live j (List.mem_append_right _ hj))
      have h2 := hnew j hp' (hLp j hj)
      omega
  · intro i hi
    rcases List.mem_append.1 hi with h1 | h1
    · exact hl i (by simpa using h1)
    · rw [hfr i (O.live i (List.mem_append_right _ h1)) (hLp i h1)]
      exact O.live i (List.mem_append_right _ h1)
  · intro i hi k c hk e
    rcases List.mem_append.1 hi with h1 | h1
    · obtain ⟨x, -, I⟩ := O.lookup hk
      have h2 := (I.lt O.wf i e).2
      have h3 := hnew i (by simpa using h1) (hvp k c hk i e)
      omega
    · exact O.apart i (List.mem_append_right _ h1) k c hk e
  · intro i l hi
    by_cases e' : p' = some i
    · left; simp [e']
    by_cases e : p = some i
    · have := re.old_dead (fun hpp => e' (hpp.trans e)) i e
      rw [this] at hi; cases hi
    · rw [re.other i (fun h => e h.symm) (fun h => e' h.symm)] at hi
      rcases O.cover i l hi with h1 | h1
      · rcases List.mem_append.1 h1 with h2 | h2
        · exact absurd (by simpa using h2) e
        · left; exact List.mem_append_right _ h2
      · exact .inr h1

/-- Move a container out of a variable. -/
theorem Owned.take (O : Owned Γ slots h var L) (hk : slots k = some c) :
    Owned Γ (Slots.put slots k none) h (Slots.put var k none) (c.data.ptr.toList ++ L) := by
  have key : ∀ {β : Type} {s : Nat → Option β} {j : Nat} {d : β}, Slots.put s k none j = some d → j ≠ k ∧ s j = some d := by
    intro β s j d hj
    by_cases e : j = k
    · rw [e, Slots.put_same] at hj; cases hj
    · rw [Slots.put_other _ _ e] at hj; exact ⟨e, hj⟩
  refine ⟨O.wf, ?_, ?_, ?_, ?_, ?_, ?_, ?_⟩
  · intro j
    by_cases e : j = k
    · subst e; simp
    · rw [Slots.put_other _ _ e, Slots.put_other _ _ e]; exact O.none_iff j
  · intro j d x hj hx
    exact O.is j d x (key hj).2 (key hx).2
  · intro j j' d d' i hj hj'
    exact O.inj j j' d d' i (key hj).2 (key hj').2
  · cases hp : c.data.ptr with
    | none => exact O.nodup
    | some i =>
      simp only [Option.toList_some, List.cons_append, List.nil_append, List.nodup_cons]
      exact ⟨fun hi => O.apart i hi k c hk hp, O.nodup⟩
  · intro i hi
    rcases List.mem_append.1 hi with h1 | h1
    · obtain ⟨x, -, I⟩ := O.lookup hk
      exact (I.lt O.wf i (by simpa using h1)).1
    · exact O.live i h1
  · intro i hi j d hj e
    rcases List.mem_append.1 hi with h1 | h1
    · exact (key hj).1 (O.inj j k d c i (key hj).2 hk e (by simpa using h1))
    · exact O.apart i h1 j d (key hj).2 e
  · intro i l hi
    rcases O.cover i l hi with h1 | ⟨j, d, hj, e⟩
    · exact .inl (List.mem_append_right _ h1)
    · by_cases hjk : j = k
      · subst hjk
        rw [hk] at hj
        cases hj
        exact .inl (by simp [e])
      · exact .inr ⟨j, d, by rw [Slots.put_other _ _ hjk]; exact hj, e⟩

/-- Put a container into an empty variable. -/
theorem Owned.put (O : Owned Γ slots h var (c.data.ptr.toList ++ L)) (hk : slots k = none) (I : x.Is Γ h c.data) :
    Owned Γ (Slots.put slots k (some c)) h (Slots.put var k (some x)) L := by
  have key : ∀ {β : Type} {s : Nat → Option β} {j : Nat} {b d : β}, Slots.put s k (some b) j = some d →
      j = k ∧ d = b ∨ j ≠ k ∧ s j = some d := by
    intro β s j b d hj
    by_cases e : j = k
    · rw [e, Slots.put_same] at hj; exact .inl ⟨e, (Option.some.inj hj).symm⟩
    · rw [Slots.put_other _ _ e] at hj; exact .inr ⟨e, hj⟩
  have hc : ∀ i, c.data.ptr = some i → i ∈ c.data.ptr.toList ++ L := fun i hi => by simp [hi]
  refine ⟨O.wf, ?_, ?_, ?_, (List.nodup_append.1 O.nodup).2.1, ?_, ?_, ?_⟩
  · intro j
    by_cases e : j = k
    · subst e; simp
    · rw [Slots.put_other _ _ e, Slots.put_other _ _ e]; exact O.none_iff j
  · intro j d y hj hy
    rcases key hj with ⟨rfl, rfl⟩ | ⟨e, hj⟩
    · rw [Slots.put_same] at hy; cases hy; exact I
    · rw [Slots.put_other _ _ e] at hy; exact O.is j d y hj hy
  · intro j j' d d' i hj hj' hi hi'
    rcases key hj with ⟨rfl, rfl⟩ | ⟨e, hj2⟩ <;> rcases key hj' with ⟨e1, e2⟩ | ⟨e', hj'⟩
    · exact e1.symm
    · exact absurd hi' (O.apart i (hc i hi) j' d' hj')
    · subst e2; exact absurd hi (O.apart i (hc i hi') j d hj2)
    · exact O.inj j j' d d' i hj2 hj' hi hi'
  · exact fun i hi => O.live i (List.mem_append_right _ hi)
  · intro i hi j d hj e
    rcases key hj with ⟨rfl, rfl⟩ | ⟨_, hj⟩
    · have := O.nodup
      rw [e] at this
      simp at this
      exact this.1 hi
    · exact O.apart i (List.mem_append_right _ hi) j d hj e
  · intro i l hi
    rcases O.cover i l hi with h1 | ⟨j, d, hj, e⟩
    · rcases List.mem_append.1 h1 with h2 | h2
      · exact .inr ⟨k, c, Slots.put_same _ _ _, by simpa using h2⟩
      · exact .inl h2
    · refine .inr ⟨j, d, ?_, e⟩
      rw [Slots.put_other _ _ (fun e => by rw [e, hk] at hj; cases hj)]; exact hj

/-- A container changes in its variable. -/
theorem Owned.update {d : VecVoid} {y : XVec} {leak : Bool} (O : Owned Γ slots h var L) (hk : slots k = some c)
    (I : y.Is Γ h' d) (m : Moves h c.data.ptr h' d.ptr leak) (vt : V) :
    ∃ L', L'.length = L.length + (if leak then 1 else 0) ∧
      Owned Γ (Slots.put slots k (some ⟨d, vt⟩)) h' (Slots.put var k (some y)) L' := by
  have O1 := O.take hk
  cases leak with
  | false =>
    have O2 := O1.move m (fun i hi => (I.lt (Realloc.wf m) i hi).1)
    have O3 := O2.put (c := ⟨d, vt⟩) (Slots.put_same _ _ _) I
    rw [Slots.put_put, Slots.put_put] at O3
    exact ⟨L, rfl, O3⟩
  | true =>
    obtain ⟨hp, j, hl, re⟩ := m
    have O2 := O1.move re (fun i hi => by cases hi; exact hl)
    have O3 := Owned.put (c := ⟨d, vt⟩) (x := y) (L := j :: L) (by simpa [hp] using O2) (Slots.put_same _ _ _) I
    rw [Slots.put_put, Slots.put_put] at O3
    exact ⟨j :: L, rfl, O3⟩

/-- The operation does what the machine says. -/
def MSim (Γ : TyEnv U) (m : M (Slots V × World U) Obs) (slots : Slots V) (w : World U) (r : Out × XState) : Prop :=
  r.1 = .ub ∧ (m (slots, w)).1 = .ub ∨ r.1 ≠ .ub ∧
  ∃ o slots' h', m (slots, w) = (o, (slots', { w with heap := h' })) ∧ r.1.Is o ∧ r.2.Holds Γ slots' h'

theorem sim_same {s : XState} (H : s.Holds Γ slots w.heap) {m : M (Slots V × World U) Obs} {o : Out} {r : Res Obs}
    (hm : m (slots, w) = (r, (slots, w))) (ho : o.Is r) (hu : o ≠ .ub) : MSim Γ m slots w (o, s) :=
  .inr ⟨hu, r, slots, w.heap, hm, ho, H⟩

theorem onSlot_sim {s : XState} {m : M (VecCopy V × World U) Obs} {f : XVec → After} (H : s.Holds Γ slots w.heap) (k : Nat)
    (hm : ∀ c x, x.Is Γ w.heap c.data → (f x).Agrees Γ m c w) : MSim Γ (Op.onSlot k m) slots w (s.method k f) := by
  obtain ⟨L, hL, O⟩ := H.owned
  cases hk : slots k with
  | none =>
    have hv := (O.none_iff k).1 hk
    simp only [XState.method, hv]
    exact sim_same H (by simp only [Op.onSlot, hk]) rfl (by simp)
  | some c =>
    obtain ⟨x, hx, I⟩ := O.lookup hk
    simp only [XState.method, hx]
    rcases hm c x I with ⟨h1, h2⟩ | ⟨h1, r, d, h', h2, h3, h4, h5⟩
    · exact .inl ⟨h1, by simp only [Op.onSlot, hk, h2]⟩
    · obtain ⟨L', hL', O'⟩ := O.update hk h4 h5 c.vtable
      refine .inr ⟨h1, r, Slots.put slots k (some ⟨d, c.vtable⟩), h', by simp only [Op.onSlot, hk, h2], h3, ?_⟩
      have := O'.holds
      rw [hL', hL] at this
      exact this

theorem method_out {s : XState} {f g : XVec → After} (h : f = g) : s.method k f = s.method k g := by rw [h]

theorem drop_unit {w : World α} (u : IsUnits Γ n v) : VecVoid.drop cfg v w = (.ok (), w) := by
  unfold VecVoid.drop
  rw [u.align]
  simp only [evalAlign_align]
  rw [M.bind_ok (u.good.alignedVec (cfg := cfg) w), u.good.chunkView]
  simp [RVec.dropBuf, dealloc]

/-- Dropping a container frees its block. -/
theorem drop_is {w : World α} (I : x.Is Γ w.heap c.data) (wf : w.heap.WF) :
    ∃ h', VecCopy.drop cfg c w = (.ok (), { w with heap := h' }) ∧ Realloc w.heap c.data.ptr h' none := by
  cases x with
  | vec t es cap =>
    obtain ⟨i, hp, hrun⟩ := VecVoid.drop_spec (cfg := cfg) I.1
    refine ⟨w.heap.free i, hrun, ?_⟩
    rw [hp]
    exact ⟨wf.free i, Nat.le_refl _, fun j h1 _ => by simp only [Heap.free]; rw [if_neg (fun e => h1 (by rw [e]))],
      fun _ j e => by cases e; simp [Heap.free], fun _ _ e => by cases e⟩
  | unit n =>
    have u : IsUnits Γ n c.data := I
    exact ⟨w.heap, drop_unit u, by rw [u.ptr]; exact Realloc.refl wf _⟩

/-- `variable k = c` with a new container. -/
theorem assign_sim (O : Owned Γ slots w.heap var L) (re : Realloc w.heap none h' c.data.ptr) (I : x.Is Γ h' c.data) (k : Nat) :
    ∃ h'', Op.assign cfg k c (slots, { w with heap := h' }) = (.ok (), (Slots.put slots k (some c), { w with heap := h'' })) ∧
      Owned Γ (Slots.put slots k (some c)) h'' (Slots.put var k (some x)) L := by
  have O1 : Owned Γ slots h' var (c.data.ptr.toList ++ L) := Owned.move (p := none) O re fun i hi => (I.lt re.wf i hi).1
  cases hk : slots k with
  | none => exact ⟨h', by simp only [Op.assign, M.bind_run, M.get_run, hk, M.pure_run, M.modify_run], O1.put hk I⟩
  | some old =>
    obtain ⟨y, hy, J⟩ := O1.lookup hk
    obtain ⟨h2, hrun, re2⟩ := drop_is (cfg := cfg) (w := { w with heap := h' }) J O1.wf
    have O2 := (O1.take hk).move re2 (fun i hi => by cases hi)
    have I2 : x.Is Γ h2 c.data := by
      refine I.frame fun i hi => re2.other i (fun e => ?_) (by simp)
      exact O1.apart i (by simp [hi]) k old hk e.symm
    have O3 := Owned.put (c := c) (L := L) O2 (Slots.put_same _ _ _) I2
    rw [Slots.put_put, Slots.put_put] at O3
    exact ⟨h2, by simp only [Op.assign, M.bind_run, M.get_run, hk, onWorld, M.zoom_run, hrun, M.modify_run], O3⟩

end Dync
