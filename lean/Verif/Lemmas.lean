import Verif.Spec
/-!
# Helper lemmas about the model (not property theorems)
-/
namespace Dync
variable {U V α : Type}

/-! ### Alignment dispatch -/

theorem selectArm_full {k : Nat} (hk : k ≤ 29) : selectArm fullArms (2 ^ k) = some ⟨2 ^ k, 2 ^ k⟩ := by
  have : ∀ k : Fin 30, selectArm fullArms (2 ^ k.1) = some ⟨2 ^ k.1, 2 ^ k.1⟩ := by decide
  exact this ⟨k, by omega⟩

theorem selectArm_limited {k : Nat} (hk : k ≤ 13) :
    selectArm limitedArms (2 ^ k) = some ⟨2 ^ k, 2 ^ k⟩ := by
  have : ∀ k : Fin 14, selectArm limitedArms (2 ^ k.1) = some ⟨2 ^ k.1, 2 ^ k.1⟩ := by decide
  exact this ⟨k, by omega⟩

theorem selectArm_limited_none {k : Nat} (h13 : 13 < k) (hk : k ≤ 29) :
    selectArm limitedArms (2 ^ k) = none := by
  have : ∀ k : Fin 30, 13 < k.1 → selectArm limitedArms (2 ^ k.1) = none := by decide
  exact this ⟨k, by omega⟩ h13

theorem evalAlign_align {σ : Type} (Γ : TyEnv V) (t : TyId) (f : Layout → M σ α) :
    evalAlign (Γ.align t) f = f ⟨Γ.align t, Γ.align t⟩ := by
  obtain ⟨k, hk, he⟩ := Γ.align_pow t
  simp only [evalAlign, he, selectArm_full hk]

theorem align_pos (Γ : TyEnv V) (t : TyId) : 0 < Γ.align t := by
  obtain ⟨k, _, he⟩ := Γ.align_pow t
  rw [he]; exact Nat.two_pow_pos k

/-- Alignments supported by the `limited_stack` dispatch. -/
theorem evalAlignLimited_align {σ : Type} (Γ : TyEnv V) (t : TyId) (f : Layout → M σ α)
    (h : Γ.align t ≤ 8192) : evalAlignLimited (Γ.align t) f = f ⟨Γ.align t, Γ.align t⟩ := by
  obtain ⟨k, hk, he⟩ := Γ.align_pow t
  have h13 : k ≤ 13 := by
    rw [he] at h
    have : 2 ^ k ≤ 2 ^ 13 := by simpa using h
    exact (Nat.pow_le_pow_iff_right (by decide)).1 this
  simp only [evalAlignLimited, he, selectArm_limited h13]

theorem evalAlignLimited_large {σ : Type} (Γ : TyEnv V) (t : TyId) (f : Layout → M σ α)
    (h : 8192 < Γ.align t) : evalAlignLimited (Γ.align t) f = M.panic .unreachable := by
  obtain ⟨k, hk, he⟩ := Γ.align_pow t
  have h13 : 13 < k := by
    rw [he] at h
    have : 2 ^ 13 < 2 ^ k := by simpa using h
    exact (Nat.pow_lt_pow_iff_right (by decide)).1 this
  simp only [evalAlignLimited, he, selectArm_limited_none h13 hk]

/-! ### Growth policy -/

theorem grownCap_mul {a s c n : Nat} (hs : 0 < s) (hc : 0 < c) (hn : c < n)
    (hbad : ¬ (a = 1 ∧ s = 3 ∧ c = 1 ∧ n = 2)) :
    ∃ c', RVec.grownCap ⟨a, a⟩ (c * s) (n * s) = c' * s ∧ n ≤ c' ∧ c' ≤ max 8 (max (2 * c) n) := by
  have key : ∀ m, m = 8 ∨ m = 4 ∨ m = 1 → (m = 8 → a = 1) →
      ∃ c', max m (max (c * s * 2) (n * s)) = c' * s ∧ n ≤ c' ∧ c' ≤ max 8 (max (2 * c) n) := by
    intro m hm ha
    by_cases hle : m ≤ max (c * s * 2) (n * s)
    · refine ⟨max (2 * c) n, ?_, by omega, by omega⟩
      rw [Nat.max_eq_right hle]
      rcases Nat.le_total (2 * c) n with h | h
      · rw [Nat.max_eq_right h, Nat.max_eq_right]
        calc c * s * 2 = 2 * c * s := by rw [Nat.mul_comm, Nat.mul_assoc]
          _ ≤ n * s := Nat.mul_le_mul_right _ h
      · rw [Nat.max_eq_left h, Nat.max_eq_left]
        · rw [Nat.mul_comm, Nat.mul_assoc]
        · calc n * s ≤ 2 * c * s := Nat.mul_le_mul_right _ h
            _ = c * s * 2 := by rw [Nat.mul_assoc, Nat.mul_comm]
    · have h1 : n * s < m := by omega
      have h2 : c * s * 2 < m := by omega
      have hm8 : m ≤ 8 := by omega
      have hs4 : s < 4 := by
        apply Nat.lt_of_not_le; intro h
        have : 2 * 4 ≤ n * s := Nat.mul_le_mul (by omega) h
        omega
      have hn8 : n < 8 := by
        apply Nat.lt_of_not_le; intro h
        have : 8 * 1 ≤ n * s := Nat.mul_le_mul h hs
        omega
      rw [Nat.max_eq_left (by omega)]
      have hs' : s = 1 ∨ s = 2 ∨ s = 3 := by omega
      rcases hs' with rfl | rfl | rfl
      · exact ⟨m, by omega, by omega, by omega⟩
      · exact ⟨m / 2, by omega, by omega, by omega⟩
      · exfalso
        have : m = 8 := by omega
        have hc1 : c = 1 := by omega
        have hn2 : n = 2 := by omega
        exact hbad ⟨ha this, rfl, hc1, hn2⟩
  unfold RVec.grownCap RVec.minNonZeroCap
  simp only
  split
  · exact key 8 (by simp) (by intros; assumption)
  · split
    · exact key 4 (by simp) (by omega)
    · exact key 1 (by simp) (by omega)

/-! ### Heap -/

theorem Heap.WF_empty : Heap.empty.WF := fun _ _ => rfl

theorem Heap.WF.free {h : Heap} (w : h.WF) (i : Nat) : (h.free i).WF := by
  intro j hj; simp only [Heap.free] at *; split
  · rfl
  · exact w j hj

theorem Heap.WF.alloc {h : Heap} (w : h.WF) (l : Layout) : (h.alloc l).2.WF := by
  unfold Heap.alloc; split
  · exact w
  · intro j hj; simp only at *
    rw [if_neg (by omega)]; exact w j (by omega)

theorem Heap.lt_next {h : Heap} (w : h.WF) {i : Nat} {l : Layout} (hl : h.live i = some l) :
    i < h.next := by
  apply Nat.lt_of_not_le; intro hle
  rw [w i hle] at hl; cases hl

theorem Realloc.refl {h : Heap} (w : h.WF) (p : Ptr) : Realloc h p h p :=
  ⟨w, Nat.le_refl _, fun _ _ _ => rfl, fun n => absurd rfl n, fun n => absurd rfl n⟩

theorem Realloc.trans {h h1 h2 : Heap} {p p1 p2 : Ptr} (w : h.WF)
    (hp : ∀ i, p = some i → i < h.next)
    (a : Realloc h p h1 p1) (b : Realloc h1 p1 h2 p2) : Realloc h p h2 p2 := by
  refine ⟨b.wf, Nat.le_trans a.next_le b.next_le, ?_, ?_, ?_⟩
  · intro j hj hj2
    by_cases h1j : some j = p1
    · have n2 : p2 ≠ p1 := by rw [← h1j]; exact fun e => hj2 e.symm
      have n1 : p1 ≠ p := by rw [← h1j]; exact hj
      rw [b.old_dead n2 j h1j.symm, w j (a.new_fresh n1 j h1j.symm)]
    · rw [b.other j h1j hj2, a.other j hj h1j]
  · intro n i hi
    by_cases e : p1 = p
    · subst e; exact b.old_dead n i hi
    · have hi1 : some i ≠ p1 := by rw [← hi]; exact fun x => e x.symm
      have hi2 : some i ≠ p2 := by rw [← hi]; exact fun x => n x.symm
      rw [b.other i hi1 hi2]; exact a.old_dead e i hi
  · intro n i hi
    by_cases e : p2 = p1
    · have : p1 ≠ p := by rw [← e]; exact n
      exact a.new_fresh this i (by rw [← e]; exact hi)
    · exact Nat.le_trans a.next_le (b.new_fresh e i hi)

/-- Result of reallocating block `i` to layout `l`. -/
theorem Realloc.of_free_alloc {h : Heap} (w : h.WF) {i : Nat} {l0 l : Layout}
    (hl : h.live i = some l0) (hpos : l.size ≠ 0) :
    Realloc h (some i) ((h.free i).alloc l).2 ((h.free i).alloc l).1 := by
  have hi := Heap.lt_next w hl
  have e1 : ((h.free i).alloc l).1 = some h.next := by simp [Heap.alloc, hpos, Heap.free]
  refine ⟨(w.free i).alloc l, ?_, ?_, ?_, ?_⟩
  · simp [Heap.alloc, hpos, Heap.free]
  · intro j hj hj'
    rw [e1] at hj'
    have a1 : j ≠ i := fun e => hj (by rw [e])
    have a2 : j ≠ h.next := fun e => hj' (by rw [e])
    simp [Heap.alloc, hpos, Heap.free, a1, a2]
  · intro _ j hj
    have : i = j := by simpa using hj
    subst this
    have : i ≠ h.next := by omega
    simp [Heap.alloc, hpos, Heap.free, this]
  · intro _ j hj
    rw [e1] at hj
    have : h.next = j := by simpa using hj
    omega

theorem Heap.alloc_live {h : Heap} {l : Layout} (hpos : l.size ≠ 0) :
    (h.alloc l).1 = some h.next ∧ (h.alloc l).2.live h.next = some l := by
  simp [Heap.alloc, hpos]

/-- Allocating a new block. -/
theorem Realloc.ofAlloc {h : Heap} (w : h.WF) (l : Layout) : Realloc h none (h.alloc l).2 (h.alloc l).1 := by
  by_cases hl : l.size = 0
  · have : h.alloc l = (none, h) := by simp [Heap.alloc, hl]
    rw [this]; exact Realloc.refl w none
  · have e : h.alloc l = (some h.next, ⟨h.next + 1, fun i => if i = h.next then some l else h.live i⟩) := by
      simp [Heap.alloc, hl]
    have hw := w.alloc l
    rw [e] at hw ⊢
    refine ⟨hw, Nat.le_succ _, ?_, fun _ i hi => (by cases hi), fun _ i hi => (by cases hi; exact Nat.le_refl _)⟩
    intro j _ hj
    have : j ≠ h.next := fun e => hj (by rw [e])
    simp [this]

/-! ### Lists of equally long pieces -/

theorem length_flatten_eq {α : Type} {es : List (List α)} {n : Nat} (h : ∀ e ∈ es, e.length = n) :
    es.flatten.length = es.length * n := by
  induction es with
  | nil => simp
  | cons e es ih =>
    simp only [List.flatten_cons, List.length_append, List.length_cons]
    rw [ih (fun x hx => h x (List.mem_cons_of_mem _ hx)), h e List.mem_cons_self, Nat.succ_mul,
      Nat.add_comm]

theorem take_flatten {α : Type} {es : List (List α)} {n : Nat} (h : ∀ e ∈ es, e.length = n)
    (k : Nat) : es.flatten.take (k * n) = (es.take k).flatten := by
  induction es generalizing k with
  | nil => simp
  | cons e es ih =>
    cases k with
    | zero => simp
    | succ k =>
      have he := h e List.mem_cons_self
      have := ih (fun x hx => h x (List.mem_cons_of_mem _ hx)) k
      simp only [List.flatten_cons, List.take_succ_cons]
      rw [List.take_append, he]
      have e1 : (k + 1) * n - n = k * n := by rw [Nat.succ_mul]; omega
      rw [e1, this, List.take_of_length_le]
      rw [he, Nat.succ_mul]; omega

theorem drop_flatten {α : Type} {es : List (List α)} {n : Nat} (h : ∀ e ∈ es, e.length = n)
    (k : Nat) : es.flatten.drop (k * n) = (es.drop k).flatten := by
  induction es generalizing k with
  | nil => simp
  | cons e es ih =>
    cases k with
    | zero => simp
    | succ k =>
      have he := h e List.mem_cons_self
      have := ih (fun x hx => h x (List.mem_cons_of_mem _ hx)) k
      simp only [List.flatten_cons, List.drop_succ_cons]
      rw [List.drop_append, he]
      have e1 : (k + 1) * n - n = k * n := by rw [Nat.succ_mul]; omega
      rw [e1, this, List.drop_of_length_le]
      · simp
      · rw [he, Nat.succ_mul]; omega

theorem chunks_flatten {α : Type} {es : List (List α)} {n : Nat} (hn : 0 < n)
    (h : ∀ e ∈ es, e.length = n) : chunks n es.flatten = es := by
  induction es with
  | nil =>
    unfold chunks
    rw [dif_neg]; simp; omega
  | cons e es ih =>
    have he := h e List.mem_cons_self
    have ih := ih (fun x hx => h x (List.mem_cons_of_mem _ hx))
    unfold chunks
    rw [dif_pos (by simp only [List.flatten_cons, List.length_append]; omega)]
    simp only [List.flatten_cons]
    rw [List.take_append_of_le_length (by omega), List.drop_append_of_le_length (by omega)]
    rw [List.take_of_length_le (by omega), List.drop_of_length_le (by omega)]
    simp only [List.nil_append, ih]

theorem flatten_inj {α : Type} {es fs : List (List α)} {n : Nat} (hn : 0 < n)
    (h : ∀ e ∈ es, e.length = n) (h' : ∀ e ∈ fs, e.length = n) (e : es.flatten = fs.flatten) :
    es = fs := by
  rw [← chunks_flatten hn h, e, chunks_flatten hn h']

end Dync
