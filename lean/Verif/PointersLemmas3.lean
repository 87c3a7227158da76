import Verif.PointersLemmas2
/-!
# Views as pointers: programs
-/
namespace Dync
variable {U V α β : Type} {Γ : TyEnv U} {cfg : Cfg} {t : TyId} {v : PtrView V} {m : Mem}

/-! ### The operations on bytes, as outcomes -/

theorem slice_get_eq {σ : Type} (s : SliceCopy V) (i : Nat) : (s.get cfg i : M σ (CopyValue V)) =
    M.lift ((elemRes cfg s.data.length s.elem.numBytes i).bind fun r => .ok (s.valueOf ((s.data.take r.2).drop r.1))) := by
  unfold SliceCopy.get elemRes indexByteSlice
  by_cases hd : cfg.debug
  · simp only [hd, if_true, len_eq, M.assert_eq, indexByteRange_eq, sliceIndex, M.lift_pure, M.lift_bind, decide_eq_true_eq]
    cases countRes cfg s.data.length s.elem.numBytes with
    | ok k =>
      simp only [Res.bind]
      by_cases hk : i < k
      · simp only [hk, if_true]
        cases rangeRes cfg s.elem.numBytes i with
        | ok r => by_cases hr : r.1 ≤ r.2 ∧ r.2 ≤ s.data.length <;> simp only [hr, and_self, if_true, if_false]
        | panic => rfl
        | ub => rfl
        | abort => rfl
      · simp only [hk, if_false]
    | panic => rfl
    | ub => rfl
    | abort => rfl
  · simp only [hd, if_false, Bool.false_eq_true, indexByteRange_eq, sliceIndex, M.lift_pure, M.lift_bind, Res.bind]
    cases rangeRes cfg s.elem.numBytes i with
    | ok r => by_cases hr : r.1 ≤ r.2 ∧ r.2 ≤ s.data.length <;> simp only [hr, and_self, if_true, if_false]
    | panic => rfl
    | ub => rfl
    | abort => rfl

theorem slice_getMut_run (s : SliceCopy V) (i : Nat) (n : M (CopyValue V) α) : SliceCopy.getMut cfg i n s =
    (M.lift (elemRes cfg s.data.length s.elem.numBytes i) >>= fun r =>
      (⟨fun s => ((n (s.valueOf ((s.data.take r.2).drop r.1))).1,
        { s with data := splice s.data r.1 (n (s.valueOf ((s.data.take r.2).drop r.1))).2.bytes })⟩ : M (SliceCopy V) α)) s := by
  unfold SliceCopy.getMut elemRes
  simp only [M.bind_run, M.get_run]
  by_cases hd : cfg.debug
  · simp only [hd, if_true, len_eq, M.assert_eq, indexByteRange_eq, sliceIndex, decide_eq_true_eq, M.lift_run, M.bind_run]
    cases countRes cfg s.data.length s.elem.numBytes with
    | ok k =>
      simp only [Res.bind]
      by_cases hk : i < k
      · simp only [hk, if_true]
        cases rangeRes cfg s.elem.numBytes i with
        | ok r =>
          simp only
          by_cases hr : r.1 ≤ r.2 ∧ r.2 ≤ s.data.length
          · simp only [hr, and_self, if_true]
          · simp only [hr, if_false]
        | panic => rfl
        | ub => rfl
        | abort => rfl
      · simp only [hk, if_false]
    | panic => rfl
    | ub => rfl
    | abort => rfl
  · simp only [hd, if_false, Bool.false_eq_true, indexByteRange_eq, sliceIndex, Res.bind, M.lift_run, M.bind_run]
    cases rangeRes cfg s.elem.numBytes i with
    | ok r =>
      simp only
      by_cases hr : r.1 ≤ r.2 ∧ r.2 ≤ s.data.length
      · simp only [hr, and_self, if_true]
      · simp only [hr, if_false]
    | panic => rfl
    | ub => rfl
    | abort => rfl

theorem size_le_max (Γ : TyEnv U) (t : TyId) : Γ.size t ≤ usizeMax := Nat.le_trans (Γ.size_le t) (by decide)

/-! ### Reads -/

theorem ptr_get (O : v.Ok Γ t) (i : Nat) : PtrSim v ((SProg.get i).exec Γ cfg) ((SProg.get i).runAt Γ cfg v) := by
  refine PtrSim.get fun m => ?_
  simp only [SProg.runAt, slice_get_eq, elemAt_eq, contents_len]
  rw [show (v.contents m).elem = v.elem from rfl]
  cases hE : elemRes cfg v.len v.elem.numBytes i with
  | ok r =>
    obtain ⟨d1, d2, d3⟩ := elemRes_ok hE (by rw [O.bytes]; exact size_le_max Γ t) (by rw [O.bytes]; exact Γ.align_dvd t) (align_dvd_wrap Γ t)
    rw [O.bytes] at d2
    have hl : r.2 - r.1 = Γ.size t := by omega
    simp only [Res.bind, M.bind_run, M.lift_run, PtrView.readAs, O.ty, hl, beq_self_eq_true, M.assert_true_run, M.pure_run]
    have W : Access.Within v.addr v.len ⟨v.addr + r.1, Γ.size t, Γ.align t, false⟩ :=
      ⟨Nat.le_add_right _ _, by simp only; omega, (Nat.dvd_add_right O.aligned).2 d1⟩
    have T := Traces.load (m := m) W
    have e : ((m.read v.addr v.len).take r.2).drop r.1 = m.read (v.addr + r.1) (Γ.size t) := by
      rw [Mem.read_take d3, Mem.read_drop (by omega), hl]
    refine ⟨?_, T.view, T.frame, T.log⟩
    show Res.ok [(v.elem.type_id, ((m.read v.addr v.len).take r.2).drop r.1)] = _
    rw [e, O.ty]
    rfl
  | panic => exact Traces.stay _
  | ub => exact Traces.stay _
  | abort => exact Traces.stay _

/-- The bytes of element `i` of a typed slice lie in the view, and are aligned. -/
theorem within_elem (O : v.Ok Γ t) {n i : Nat} (hc : countRes cfg v.len v.elem.numBytes = .ok n) (hi : i < n) :
    (∀ b, Access.Within v.addr v.len ⟨v.addr + i * Γ.size t, Γ.size t, Γ.align t, b⟩) ∧ (i + 1) * Γ.size t ≤ v.len := by
  obtain ⟨h0, rfl⟩ := countRes_ok hc
  rw [O.bytes] at h0 hi
  have h : (i + 1) * Γ.size t ≤ v.len := Nat.le_trans (Nat.mul_le_mul_right _ hi) (Nat.div_mul_le_self _ _)
  rw [Nat.add_mul, Nat.one_mul] at h
  refine ⟨fun _ => ⟨Nat.le_add_right _ _, by simp only; omega, (Nat.dvd_add_right O.aligned).2 (Nat.dvd_trans (Γ.align_dvd t) (Nat.dvd_mul_left _ _))⟩, ?_⟩
  rw [Nat.add_mul, Nat.one_mul]; exact h

theorem within_slice (O : v.Ok Γ t) {n : Nat} (hc : countRes cfg v.len v.elem.numBytes = .ok n) :
    (∀ b, Access.Within v.addr v.len ⟨v.addr, n * Γ.size t, Γ.align t, b⟩) ∧ n * Γ.size t ≤ v.len := by
  obtain ⟨h0, rfl⟩ := countRes_ok hc
  rw [O.bytes]
  have h : v.len / Γ.size t * Γ.size t ≤ v.len := Nat.div_mul_le_self _ _
  exact ⟨fun _ => ⟨Nat.le_refl _, by simp only; omega, O.aligned⟩, h⟩

theorem ptr_getAs (O : v.Ok Γ t) (t' : TyId) (i : Nat) : PtrSim v ((SProg.getAs t' i).exec Γ cfg) ((SProg.getAs t' i).runAt Γ cfg v) := by
  refine PtrSim.get fun m => ?_
  simp only [SProg.runAt, SliceCopy.getAs, len_eq, count_eq, contents_len]
  rw [show (v.contents m).elem = v.elem from rfl]
  cases hc : countRes cfg v.len v.elem.numBytes with
  | ok n =>
    simp only [M.bind_run, M.lift_run]
    by_cases hi : i < n
    · obtain ⟨W, hle⟩ := within_elem (cfg := cfg) O hc hi
      simp only [hi, decide_true, M.assert_true_run]
      by_cases ht : t' = t
      · subst ht
        have hk : SliceCopy.check t' (v.contents m) = some (v.contents m) := by
          unfold SliceCopy.check
          rw [show (v.contents m).elem.type_id = t' from O.ty, if_neg (by simp)]
        have hl : (i + 1) * Γ.size t' ≤ (v.contents m).data.length := by rw [contents_len]; exact hle
        simp only [hk, O.ty, ne_eq, not_true, if_false, hl, if_true, M.pure_run, M.bind_run]
        have T := Traces.load (m := m) (W _)
        rw [Nat.add_mul, Nat.one_mul] at hle
        have e : ((m.read v.addr v.len).drop (i * Γ.size t')).take (Γ.size t') = m.read (v.addr + i * Γ.size t') (Γ.size t') :=
          Mem.read_drop_take (by omega)
        refine ⟨?_, T.view, T.frame, T.log⟩
        show Res.ok [(t', ((m.read v.addr v.len).drop (i * Γ.size t')).take (Γ.size t'))] = _
        rw [e]
        rfl
      · have hk : SliceCopy.check t' (v.contents m) = none := by
          unfold SliceCopy.check
          rw [show (v.contents m).elem.type_id = t from O.ty, if_pos ht]
        simp only [hk, O.ty, ne_eq, ht, not_false_iff, if_true, M.pure_run]
        exact Traces.stay _
    · simp only [hi, decide_false, M.assert_false_run]
      exact Traces.stay _
  | panic => exact Traces.stay _
  | ub => exact Traces.stay _
  | abort => exact Traces.stay _

/-- The elements of a typed slice at the start of the view. -/
theorem typedSlice_read {n k b : Nat} (h : n * Γ.size t ≤ k) :
    typedSlice (Γ.size t) n (m.read b k) = typedSlice (Γ.size t) n (m.read b (n * Γ.size t)) ∧
      ∃ es, typedSlice (Γ.size t) n (m.read b k) = .ok es ∧ es.length = n ∧ (∀ e ∈ es, e.length = Γ.size t) := by
  have hin : ∀ i, i ∈ List.range n → i * Γ.size t + Γ.size t ≤ n * Γ.size t := by
    intro i hi
    rw [← Nat.succ_mul]
    exact Nat.mul_le_mul_right _ (List.mem_range.1 hi)
  have e : ∀ k', n * Γ.size t ≤ k' → typedSlice (Γ.size t) n (m.read b k') =
      .ok ((List.range n).map fun i => m.read (b + i * Γ.size t) (Γ.size t)) := by
    intro k' hk'
    unfold typedSlice
    rw [if_pos (by rw [Mem.read_length]; exact hk')]
    congr 1
    refine List.map_congr_left fun i hi => ?_
    have := hin i hi
    exact Mem.read_drop_take (by omega)
  rw [e k h, e _ (Nat.le_refl _)]
  refine ⟨rfl, _, rfl, by simp, ?_⟩
  intro x hx
  obtain ⟨i, -, rfl⟩ := List.mem_map.1 hx
  exact Mem.read_length

theorem ptr_asSlice (O : v.Ok Γ t) (t' : TyId) : PtrSim v ((SProg.asSlice t').exec Γ cfg) ((SProg.asSlice t').runAt Γ cfg v) := by
  refine PtrSim.get fun m => ?_
  simp only [SProg.runAt, SliceCopy.asSlice]
  by_cases ht : t' = t
  · subst ht
    have hk : SliceCopy.check t' (v.contents m) = some (v.contents m) := by
      unfold SliceCopy.check
      rw [show (v.contents m).elem.type_id = t' from O.ty, if_neg (by simp)]
    simp only [hk, O.ty, ne_eq, not_true, if_false, len_eq, count_eq, contents_len]
    rw [show (v.contents m).elem = v.elem from rfl]
    cases hc : countRes cfg v.len v.elem.numBytes with
    | ok n =>
      obtain ⟨W, hle⟩ := within_slice (cfg := cfg) O hc
      obtain ⟨e1, es, e2, -, -⟩ := typedSlice_read (Γ := Γ) (t := t') (m := m) (b := v.addr) hle
      have T := Traces.load (m := m) (W _)
      rw [e2] at e1
      simp only [M.bind_run, M.lift_run, PtrView.readSlice, Mem.load, ← e1]
      rw [show typedSlice (Γ.size t') n (v.contents m).data = .ok es from e2]
      simp only [M.pure_run]
      exact ⟨rfl, T.view, T.frame, T.log⟩
    | panic => exact Traces.stay _
    | ub => exact Traces.stay _
    | abort => exact Traces.stay _
  · have hk : SliceCopy.check t' (v.contents m) = none := by
      unfold SliceCopy.check
      rw [show (v.contents m).elem.type_id = t from O.ty, if_pos ht]
    simp only [hk, O.ty, ne_eq, ht, not_false_iff, if_true, M.bind_run, M.pure_run]
    exact Traces.stay _

end Dync
