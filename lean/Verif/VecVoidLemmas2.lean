import Verif.VecVoidLemmas
/-!
# What the `VecVoid` operations do to a healthy vector, continued (helper lemmas)
-/
namespace Dync
variable {U V α : Type}

@[simp] theorem swapRoles_run {σ τ : Type} (m : M (τ × World (σ × U)) α) (s : σ × World (τ × U)) :
    VecVoid.swapRoles m s =
      ((m (s.2.user.1, ⟨s.2.heap, (s.1, s.2.user.2)⟩)).1,
       ((m (s.2.user.1, ⟨s.2.heap, (s.1, s.2.user.2)⟩)).2.2.user.1,
        ⟨(m (s.2.user.1, ⟨s.2.heap, (s.1, s.2.user.2)⟩)).2.2.heap,
          ((m (s.2.user.1, ⟨s.2.heap, (s.1, s.2.user.2)⟩)).2.1,
           (m (s.2.user.1, ⟨s.2.heap, (s.1, s.2.user.2)⟩)).2.2.user.2)⟩)) := rfl

theorem RVec.grownCap_le (T : Layout) (c n : Nat) :
    RVec.grownCap T c n ≤ max 8 (max (2 * c) n) := by
  unfold RVec.grownCap RVec.minNonZeroCap
  split
  · omega
  · split <;> omega

theorem RVec.le_grownCap (T : Layout) (c n : Nat) : n ≤ RVec.grownCap T c n := by
  unfold RVec.grownCap; omega

theorem RVec.cap_le_grownCap (T : Layout) (c n : Nat) : c ≤ RVec.grownCap T c n := by
  unfold RVec.grownCap; omega

section ops
variable {Γ : TyEnv V} {t : TyId} {es : List Bytes} {v : VecVoid} {w : World U} {cfg : Cfg}

/-- A healthy vector stays healthy when only other blocks change. -/
theorem Repr.frame {h h' : Heap} (R : Repr Γ h t es v)
    (hl : ∀ i, v.ptr = some i → h'.live i = h.live i) : Repr Γ h' t es v := by
  refine ⟨R.type_id, R.chunks, R.align, R.pos, R.mem, R.each, R.len, R.len_le, R.cap_pos, R.room, ?_⟩
  obtain ⟨i, hp, hi⟩ := R.block
  exact ⟨i, hp, by rw [hl i hp]; exact hi⟩

theorem Repr.ptr_lt {h : Heap} (R : Repr Γ h t es v) (wf : h.WF) : ∀ i, v.ptr = some i → i < h.next := by
  intro i hi
  obtain ⟨j, hp, hl⟩ := R.block
  rw [hi] at hp; cases hp
  exact Heap.lt_next wf hl

/-- A healthy vector not involved in a reallocation stays healthy. -/
theorem Repr.frame_realloc {h h' : Heap} {p p' : Ptr} (R : Repr Γ h t es v) (wf : h.WF)
    (re : Realloc h p h' p') (hne : v.ptr ≠ p) : Repr Γ h' t es v := by
  apply R.frame
  intro i hi
  apply re.other
  · rw [← hi]; exact hne
  · intro e
    by_cases hpp : p' = p
    · rw [hpp] at e; exact hne (by rw [hi]; exact e)
    · have h1 := re.new_fresh hpp i e.symm
      have h2 := R.ptr_lt wf i hi
      omega

/-- `VecVoid::drop` frees exactly the vector's block, with the layout it was allocated with. -/
theorem VecVoid.drop_spec (R : Repr Γ w.heap t es v) :
    ∃ i, v.ptr = some i ∧ VecVoid.drop cfg v w = (.ok (), { w with heap := w.heap.free i }) := by
  obtain ⟨i, hp, hd⟩ := R.dropChunk
  refine ⟨i, hp, ?_⟩
  simp only [VecVoid.drop, R.align, evalAlign_align, M.bind_run, R.alignedVec, hd]

/-- Shallow clone of a healthy vector: same bytes and capacity in a fresh block. -/
theorem VecVoid.clone_spec (R : Repr Γ w.heap t es v) :
    VecVoid.clone cfg v w = (.ok ⟨some w.heap.next, v.len, v.cap, v.elem, v.mem⟩,
      { w with heap := (w.heap.alloc ⟨v.cap * Γ.size t, Γ.align t⟩).2 }) := by
  have ha := align_pos Γ t
  have hs := R.chunk_pos
  have hc := R.cap_pos
  have hroom := R.room; unfold Room at hroom
  have e1 : v.cap * v.elem.size * Γ.align t = v.cap * Γ.size t := by rw [Nat.mul_assoc, R.chunks]
  have hne : Γ.align t ≠ 0 := by omega
  have hle : v.len * v.elem.size ≤ v.cap * v.elem.size := Nat.mul_le_mul_right _ R.len_le
  have hpos : v.cap * Γ.size t ≠ 0 := Nat.mul_ne_zero (by omega) (by have := R.pos; omega)
  have e2 : (w.heap.alloc ⟨v.cap * Γ.size t, Γ.align t⟩).1 = some w.heap.next := by
    simp only [Heap.alloc, hpos, if_false]
  simp only [VecVoid.clone, R.align, evalAlign_align, M.bind_run, R.alignedVec, RVec.withCapacity,
    VecVoid.chunkView, e1, hne, if_false, hroom, if_true, e2]
  have hcl : (RVec.cloneFrom ⟨Γ.align t, Γ.align t⟩
      ⟨v.ptr, v.len * v.elem.size, v.cap * v.elem.size, v.mem⟩)
      ((⟨some w.heap.next, 0, v.cap * v.elem.size, []⟩ : RVec),
        ({ w with heap := (w.heap.alloc ⟨v.cap * Γ.size t, Γ.align t⟩).2 } : World U)) =
      (.ok (), (⟨some w.heap.next, v.len * v.elem.size, v.cap * v.elem.size, v.mem⟩,
        { w with heap := (w.heap.alloc ⟨v.cap * Γ.size t, Γ.align t⟩).2 })) := by
    simp only [RVec.cloneFrom, RVec.clear, RVec.truncate, RVec.extendFromSlice, M.bind_run,
      M.modify_run, Nat.lt_irrefl, if_false, List.take_nil]
    rw [RVec.reserve_fit (by simpa using hle)]
    simp
  rw [withLocal_ok hcl]
  simp only
  rw [fromVecOverride_ok ha R.align.symm hs rfl rfl hc]

/-- `VecVoid::from_vec` of a healthy `Vec<T>`. -/
theorem VecVoid.fromVec_spec {Γ : TyEnv V} {rv : RVec} (hv : IsVec Γ w.heap t es rv) (wf : w.heap.WF)
    (hpos : 0 < Γ.size t) :
    ∃ p c h', VecVoid.fromVec Γ t rv w =
        (.ok ⟨p, rv.len, c, ElemInfo.new Γ t, rv.bytes⟩, { w with heap := h' }) ∧
      Repr Γ h' t es ⟨p, rv.len, c, ElemInfo.new Γ t, rv.bytes⟩ ∧
      Realloc w.heap rv.ptr h' p ∧
      (0 < rv.cap → p = rv.ptr ∧ c = rv.cap ∧ h' = w.heap) ∧ c ≤ max rv.cap 8 := by
  have helem : Γ.size t / Γ.align t * Γ.align t = Γ.size t :=
    Nat.div_mul_cancel (Γ.align_dvd t)
  by_cases hc : rv.cap = 0
  · have hlen : rv.len = 0 := by have := hv.len_le; omega
    obtain ⟨hc0, hp⟩ | ⟨hc0, _⟩ := hv.block
    · have hg : RVec.grownCap (Γ.layout t) 0 1 = RVec.minNonZeroCap (Γ.size t) := by
        unfold RVec.grownCap RVec.minNonZeroCap; split
        · rfl
        · split <;> rfl
      have hgpos : 0 < RVec.grownCap (Γ.layout t) 0 1 := by unfold RVec.grownCap; omega
      have hdvd := Γ.align_dvd t
      have hsle := Γ.size_le t
      have hroom : Room Γ t (RVec.grownCap (Γ.layout t) 0 1) := by
        rw [hg]; unfold Room RVec.minNonZeroCap
        have hale : Γ.align t ≤ Γ.size t := Nat.le_of_dvd hpos hdvd
        split
        · rename_i h1; rw [h1] at hale ⊢; unfold isizeMax; omega
        · split
          · unfold isizeMax; omega
          · rw [Nat.one_mul]
            obtain ⟨k, hk, hke⟩ := Γ.align_pow t
            obtain ⟨q, hq⟩ := hdvd
            -- `size = align * q ≤ 2^63 - 1` and `align ∣ 2^63`
            have h63 : (2:Nat) ^ 63 = Γ.align t * 2 ^ (63 - k) := by
              rw [hke, ← Nat.pow_add]; congr 1; omega
            have hlt : Γ.align t * q < Γ.align t * 2 ^ (63 - k) := by
              rw [← h63, ← hq]; unfold isizeMax at hsle; omega
            have hq' : q + 1 ≤ 2 ^ (63 - k) := Nat.lt_of_mul_lt_mul_left hlt
            have : Γ.align t * (q + 1) ≤ 2 ^ 63 := by
              rw [h63]; exact Nat.mul_le_mul_left _ hq'
            rw [Nat.mul_succ, ← hq] at this
            unfold isizeMax; omega
      have hne : RVec.grownCap (Γ.layout t) 0 1 * Γ.size t ≠ 0 :=
        Nat.mul_ne_zero (by omega) (by omega)
      have hr : RVec.reserve (Γ.layout t) 1 (rv, w) = (.ok (),
          ({ rv with ptr := (w.heap.alloc ⟨RVec.grownCap (Γ.layout t) 0 1 * Γ.size t, Γ.align t⟩).1,
                     cap := RVec.grownCap (Γ.layout t) 0 1 },
            { w with heap :=
                (w.heap.alloc ⟨RVec.grownCap (Γ.layout t) 0 1 * Γ.size t, Γ.align t⟩).2 })) := by
        have h1 : ¬ usizeMax < 0 + 1 := by decide
        have h2 : Γ.size t ≠ 0 := by omega
        unfold Room at hroom
        simp only [RVec.reserve, M.bind_run, M.get_run, hc, hlen, Nat.sub_zero, Nat.lt_one_iff,
          if_true, RVec.grow, h1, h2, if_false, Nat.zero_add, Nat.not_lt.2 hroom, onHeap_run, realloc,
          hp, dealloc, Nat.zero_mul, allocM_run, M.modify_run]
      have hv' : VecVoid.intoValidVec (Γ.layout t) (rv, w) = RVec.reserve (Γ.layout t) 1 (rv, w) := by
        simp only [VecVoid.intoValidVec, M.bind_run, getSelf_run, hc, if_true]
      rw [hr] at hv'
      refine ⟨(w.heap.alloc ⟨RVec.grownCap (Γ.layout t) 0 1 * Γ.size t, Γ.align t⟩).1,
        RVec.grownCap (Γ.layout t) 0 1,
        (w.heap.alloc ⟨RVec.grownCap (Γ.layout t) 0 1 * Γ.size t, Γ.align t⟩).2,
        ?_, ?_, ?_, fun h => by omega, by have := RVec.grownCap_le (Γ.layout t) 0 1; omega⟩
      · simp only [VecVoid.fromVec, M.bind_run]
        rw [withLocal_ok hv']
        rfl
      · refine ⟨rfl, helem, rfl, hpos, hv.bytes, hv.each, hv.len, ?_, hgpos, hroom, ?_⟩
        · simp only; omega
        · exact ⟨_, (Heap.alloc_live hne).1, (Heap.alloc_live hne).2⟩
      · have e1 : (w.heap.alloc ⟨RVec.grownCap (Γ.layout t) 0 1 * Γ.size t, Γ.align t⟩).1 =
            some w.heap.next := (Heap.alloc_live hne).1
        refine ⟨wf.alloc _, ?_, ?_, ?_, ?_⟩
        · simp [Heap.alloc]; split <;> simp
        · intro j h1 h2
          rw [e1] at h2
          have : j ≠ w.heap.next := fun e => h2 (by rw [e])
          simp [Heap.alloc]; split <;> simp [this]
        · intro _ i hi; rw [hp] at hi; cases hi
        · intro _ i hi; rw [e1] at hi; cases hi; omega
    · omega
  · have hrun : VecVoid.intoValidVec (U := U) (Γ.layout t) (rv, w) = (.ok (), (rv, w)) := by
      simp [VecVoid.intoValidVec, hc]
    refine ⟨rv.ptr, rv.cap, w.heap, ?_, ?_, Realloc.refl wf _, fun _ => ⟨rfl, rfl, rfl⟩, by omega⟩
    · simp only [VecVoid.fromVec, M.bind_run, withLocal_ok hrun, M.pure_run]
    · refine ⟨rfl, helem, rfl, hpos, hv.bytes, hv.each, hv.len, hv.len_le, Nat.pos_of_ne_zero hc, hv.room, ?_⟩
      obtain ⟨h0, _⟩ | h := hv.block
      · omega
      · exact h.2

end ops
end Dync
