import Verif.PointersLemmas4
/-!
# Views as pointers: writes
-/
namespace Dync
variable {U V α β : Type} {Γ : TyEnv U} {cfg : Cfg} {t : TyId} {v : PtrView V} {m : Mem}

/-- The type check on the view. -/
theorem check_same (O : v.Ok Γ t) (m : Mem) : SliceCopy.check t (v.contents m) = some (v.contents m) := by
  unfold SliceCopy.check
  rw [show (v.contents m).elem.type_id = t from O.ty, if_neg (by simp)]

theorem check_other (O : v.Ok Γ t) {t' : TyId} (ht : ¬ t' = t) (m : Mem) : SliceCopy.check t' (v.contents m) = none := by
  unfold SliceCopy.check
  rw [show (v.contents m).elem.type_id = t from O.ty, if_pos ht]

theorem ptr_setAs (O : v.Ok Γ t) (t' : TyId) (i : Nat) (x : Bytes) (hx : x.length = Γ.size t') :
    PtrSim v ((SProg.setAs t' i x).exec Γ cfg) ((SProg.setAs t' i x).runAt Γ cfg v) := by
  intro m
  simp only [SProg.exec, SProg.runAt, SliceCopy.setAs, len_eq, count_eq, contents_len, M.bind_run, M.get_run, M.lift_run]
  rw [show (v.contents m).elem = v.elem from rfl]
  cases hc : countRes cfg v.len v.elem.numBytes with
  | ok n =>
    simp only
    by_cases hi : i < n
    · obtain ⟨W, hle⟩ := within_elem (cfg := cfg) O hc hi
      simp only [hi, decide_true, M.assert_true_run]
      by_cases ht : t' = t
      · subst ht
        simp only [check_same O, O.ty, ne_eq, not_true, if_false, hle, if_true, M.pure_run, M.bind_run, M.set_run]
        have T := Traces.store (m := m) (bs := x) (a := v.addr + i * Γ.size t') (al := Γ.align t') (by rw [hx]; exact W _)
        rw [Nat.add_sub_cancel_left] at T
        exact ⟨rfl, T.view, T.frame, T.log⟩
      · simp only [check_other O ht, O.ty, ne_eq, ht, not_false_iff, if_true, M.pure_run]
        exact Traces.stay _
    · simp only [hi, decide_false, M.assert_false_run]
      exact Traces.stay _
  | panic => exact Traces.stay _
  | ub => exact Traces.stay _
  | abort => exact Traces.stay _

theorem ptr_setValue (O : v.Ok Γ t) (i : Nat) (t' : TyId) (x : Bytes) (hx : x.length = Γ.size t') :
    PtrSim v ((SProg.setValue i t' x).exec Γ cfg) ((SProg.setValue i t' x).runAt Γ cfg v) := by
  intro m
  simp only [SProg.exec, SProg.runAt, M.bind_run, slice_getMut_run, elemAt_eq, contents_len, M.lift_run]
  rw [show (v.contents m).elem = v.elem from rfl]
  cases hE : elemRes cfg v.len v.elem.numBytes i with
  | ok r =>
    obtain ⟨d1, d2, d3⟩ := elemRes_ok hE (by rw [O.bytes]; exact size_le_max Γ t) (by rw [O.bytes]; exact Γ.align_dvd t) (align_dvd_wrap Γ t)
    rw [O.bytes] at d2
    have hl : r.2 - r.1 = Γ.size t := by omega
    have e : ((m.read v.addr v.len).take r.2).drop r.1 = m.read (v.addr + r.1) (Γ.size t) := by
      rw [Mem.read_take d3, Mem.read_drop (by omega), hl]
    simp only [Res.bind, M.get_run, M.bind_run]
    rw [show (v.contents m).data = m.read v.addr v.len from rfl, e]
    simp only [CopyValue.copy, M.bind_run, M.get_run, SliceCopy.valueOf, CopyValue.new]
    rw [show (v.contents m).elem = v.elem from rfl, O.ty]
    by_cases ht : t = t'
    · subst ht
      simp only [if_true, M.bind_run, M.lift_run, sliceCopyFrom, Mem.read_length, hx, hl, M.set_run, M.pure_run]
      have T := Traces.store (v := v) (m := m) (bs := x) (a := v.addr + r.1) (al := 1)
        ⟨Nat.le_add_right _ _, by simp only; omega, Nat.one_dvd _⟩
      rw [Nat.add_sub_cancel_left] at T
      exact ⟨rfl, T.view, T.frame, T.log⟩
    · simp only [ht, if_false, M.pure_run]
      have es : splice (m.read v.addr v.len) r.1 (m.read (v.addr + r.1) (Γ.size t)) = m.read v.addr v.len := by
        rw [← Mem.read_drop_take (k := v.len) (by omega)]
        unfold splice
        rw [List.length_take, List.length_drop, Mem.read_length, Nat.min_eq_left (by omega), List.append_assoc, ← List.drop_drop,
          List.take_append_drop, List.take_append_drop]
      rw [es]
      exact Traces.stay _
  | panic => exact Traces.stay _
  | ub => exact Traces.stay _
  | abort => exact Traces.stay _

/-- Reading the elements of the view, then writing all of them. -/
theorem traces_rewrite (O : v.Ok Γ t) {n : Nat} (hc : countRes cfg v.len v.elem.numBytes = .ok n) {es' : List Bytes}
    (hn : es'.length = n) (hs : ∀ e ∈ es', e.length = Γ.size t) (m : Mem) :
    Traces v m (.ok (), { v.contents m with data := splice (m.read v.addr v.len) 0 es'.flatten })
      (Mem.store v.addr es'.flatten (Γ.align t) m) := by
  obtain ⟨W, hle⟩ := within_slice (cfg := cfg) O hc
  have hl : es'.flatten.length = n * Γ.size t := by rw [length_flatten_eq hs, hn]
  have T := Traces.store (m := m) (bs := es'.flatten) (a := v.addr) (al := Γ.align t) (by rw [hl]; exact W _)
  rw [Nat.sub_self] at T
  exact T

theorem ptr_mapAs (O : v.Ok Γ t) (t' : TyId) (f : List Bytes → List Bytes)
    (hf : ∀ es, (∀ e ∈ es, e.length = Γ.size t') → (f es).length = es.length ∧ ∀ e ∈ f es, e.length = Γ.size t') :
    PtrSim v ((SProg.mapAs t' f).exec Γ cfg) ((SProg.mapAs t' f).runAt Γ cfg v) := by
  intro m
  simp only [SProg.exec, SProg.runAt, SliceCopy.asSliceMut, len_eq, count_eq, contents_len, M.bind_run, M.get_run, M.lift_run]
  rw [show (v.contents m).elem = v.elem from rfl]
  cases hc : countRes cfg v.len v.elem.numBytes with
  | ok n =>
    simp only
    by_cases ht : t' = t
    · subst ht
      obtain ⟨W, hle⟩ := within_slice (cfg := cfg) O hc
      obtain ⟨e1, es, e2, e3, e4⟩ := typedSlice_read (Γ := Γ) (t := t') (m := m) (b := v.addr) hle
      obtain ⟨f1, f2⟩ := hf es e4
      rw [e2] at e1
      simp only [check_same O, O.ty, ne_eq, not_true, if_false, M.bind_run, M.lift_run, PtrView.readSlice]
      rw [show typedSlice (Γ.size t') n (v.contents m).data = .ok es from e2]
      simp only [M.modify_run, M.pure_run]
      have L := Traces.load (m := m) (W _)
      have hL : Mem.load v.addr (n * Γ.size t') (Γ.align t') m = (.ok (m.read v.addr (n * Γ.size t')), (Mem.load v.addr (n * Γ.size t') (Γ.align t') m).2) := rfl
      rw [hL] at L ⊢
      simp only [← e1]
      have T := traces_rewrite (cfg := cfg) O hc (f1.trans e3) f2 (Mem.load v.addr (n * Γ.size t') (Γ.align t') m).2
      have T' := L.trans T
      exact ⟨rfl, T'.view, T'.frame, T'.log⟩
    · simp only [check_other O ht, O.ty, ne_eq, ht, not_false_iff, if_true, M.pure_run]
      exact Traces.stay _
  | panic => exact Traces.stay _
  | ub => exact Traces.stay _
  | abort => exact Traces.stay _

theorem reads_flatten (b n k : Nat) (m : Mem) : ((List.range n).map fun i => m.read (b + i * k) k).flatten = m.read b (n * k) := by
  induction n with
  | zero => simp [Mem.read]
  | succ n ih => rw [List.range_succ, List.map_append, List.flatten_append, ih, Nat.succ_mul, Mem.read_append]; simp

theorem typedSlice_join {n k b s : Nat} {es : List Bytes} (h : n * s ≤ k) (e : typedSlice s n (m.read b k) = .ok es) :
    es.flatten = m.read b (n * s) := by
  unfold typedSlice at e
  rw [Mem.read_length, if_pos h] at e
  cases e
  rw [← reads_flatten]
  congr 1
  refine List.map_congr_left fun i hi => ?_
  have : i * s + s ≤ n * s := by rw [← Nat.succ_mul]; exact Nat.mul_le_mul_right _ (List.mem_range.1 hi)
  exact Mem.read_drop_take (by omega)

theorem ptr_copyFromSlice (O : v.Ok Γ t) (t' : TyId) (xs : List Bytes) (hx : ∀ x ∈ xs, x.length = Γ.size t') :
    PtrSim v ((SProg.copyFromSlice t' xs).exec Γ cfg) ((SProg.copyFromSlice t' xs).runAt Γ cfg v) := by
  intro m
  simp only [SProg.exec, SProg.runAt, SliceCopy.copyFromSlice, SliceCopy.asSliceMut, len_eq, count_eq, contents_len, M.bind_run, M.get_run, M.lift_run]
  rw [show (v.contents m).elem = v.elem from rfl]
  cases hc : countRes cfg v.len v.elem.numBytes with
  | ok n =>
    simp only
    by_cases ht : t' = t
    · subst ht
      obtain ⟨W, hle⟩ := within_slice (cfg := cfg) O hc
      obtain ⟨e1, es, e2, e3, e4⟩ := typedSlice_read (Γ := Γ) (t := t') (m := m) (b := v.addr) hle
      simp only [check_same O, O.ty, ne_eq, not_true, if_false, M.bind_run, M.lift_run]
      rw [show typedSlice (Γ.size t') n (v.contents m).data = .ok es from e2]
      simp only [sliceCopyFrom, e3]
      by_cases hn : n = xs.length
      · simp only [hn, if_true, M.set_run, M.pure_run, M.bind_run]
        have T := traces_rewrite (cfg := cfg) O hc hn.symm hx m
        exact ⟨rfl, T.view, T.frame, T.log⟩
      · simp only [hn, if_false]
        have : splice (v.contents m).data 0 es.flatten = (v.contents m).data := by
          have hl : es.flatten = (m.read v.addr v.len).take (n * Γ.size t') := by
            rw [Mem.read_take hle]; exact typedSlice_join hle e2
          show splice (m.read v.addr v.len) 0 es.flatten = m.read v.addr v.len
          rw [hl]
          unfold splice
          rw [List.take_zero, List.nil_append, List.length_take, Mem.read_length, Nat.min_eq_left hle, Nat.zero_add, List.take_append_drop]
        rw [this]
        exact Traces.stay _
    · simp only [check_other O ht, O.ty, ne_eq, ht, not_false_iff, if_true, M.pure_run]
      exact Traces.stay _
  | panic => exact Traces.stay _
  | ub => exact Traces.stay _
  | abort => exact Traces.stay _

theorem ptr_rotateLeft (n : Nat) : PtrSim v ((SProg.rotateLeft n).exec Γ cfg) ((SProg.rotateLeft n).runAt Γ cfg v) := by
  intro m
  simp only [SProg.exec, SProg.runAt, SliceCopy.rotateLeft, PtrView.rotateLeft, umul_eq, M.bind_run, M.get_run, M.lift_run]
  rw [show (v.contents m).elem = v.elem from rfl]
  cases hu : umulRes cfg n v.elem.numBytes with
  | ok k =>
    simp only [sliceRotateLeft, contents_len]
    by_cases hk : k ≤ v.len
    · simp only [hk, if_true, M.bind_run, M.set_run, M.pure_run]
      have L := Traces.load (v := v) (m := m) (a := v.addr) (n := v.len) (al := 1) ⟨Nat.le_refl _, Nat.le_refl _, Nat.one_dvd _⟩
      have hL : Mem.load v.addr v.len 1 m = (.ok (m.read v.addr v.len), (Mem.load v.addr v.len 1 m).2) := rfl
      rw [hL] at L ⊢
      have hl : ((m.read v.addr v.len).drop k ++ (m.read v.addr v.len).take k).length = v.len := by
        rw [List.length_append, List.length_drop, List.length_take, Mem.read_length]; omega
      have T := Traces.store (v := v) (m := (Mem.load v.addr v.len 1 m).2) (a := v.addr) (al := 1)
        (bs := (m.read v.addr v.len).drop k ++ (m.read v.addr v.len).take k)
        ⟨Nat.le_refl _, by simp only [hl]; exact Nat.le_refl _, Nat.one_dvd _⟩
      have T' := L.trans T
      have hv := T'.view
      rw [Nat.sub_self, splice_whole (by rw [hl, Mem.read_length])] at hv
      exact ⟨rfl, hv, T'.frame, T'.log⟩
    · simp only [hk, if_false]
      exact Traces.stay _
  | panic => exact Traces.stay _
  | ub => exact Traces.stay _
  | abort => exact Traces.stay _

theorem ptr_rotateRight (n : Nat) : PtrSim v ((SProg.rotateRight n).exec Γ cfg) ((SProg.rotateRight n).runAt Γ cfg v) := by
  intro m
  simp only [SProg.exec, SProg.runAt, SliceCopy.rotateRight, PtrView.rotateRight, umul_eq, M.bind_run, M.get_run, M.lift_run]
  rw [show (v.contents m).elem = v.elem from rfl]
  cases hu : umulRes cfg n v.elem.numBytes with
  | ok k =>
    simp only [sliceRotateRight, contents_len]
    by_cases hk : k ≤ v.len
    · simp only [hk, if_true, M.bind_run, M.set_run, M.pure_run]
      have L := Traces.load (v := v) (m := m) (a := v.addr) (n := v.len) (al := 1) ⟨Nat.le_refl _, Nat.le_refl _, Nat.one_dvd _⟩
      have hL : Mem.load v.addr v.len 1 m = (.ok (m.read v.addr v.len), (Mem.load v.addr v.len 1 m).2) := rfl
      rw [hL] at L ⊢
      have hl : ((m.read v.addr v.len).drop (v.len - k) ++ (m.read v.addr v.len).take (v.len - k)).length = v.len := by
        rw [List.length_append, List.length_drop, List.length_take, Mem.read_length]; omega
      have T := Traces.store (v := v) (m := (Mem.load v.addr v.len 1 m).2) (a := v.addr) (al := 1)
        (bs := (m.read v.addr v.len).drop (v.len - k) ++ (m.read v.addr v.len).take (v.len - k))
        ⟨Nat.le_refl _, by simp only [hl]; exact Nat.le_refl _, Nat.one_dvd _⟩
      have T' := L.trans T
      have hv := T'.view
      rw [Nat.sub_self, splice_whole (by rw [hl, Mem.read_length])] at hv
      exact ⟨rfl, hv, T'.frame, T'.log⟩
    · simp only [hk, if_false]
      exact Traces.stay _
  | panic => exact Traces.stay _
  | ub => exact Traces.stay _
  | abort => exact Traces.stay _

end Dync
