import Verif.PointersLemmas5
/-!
# Views as pointers: loops, parts and programs
-/
namespace Dync
variable {U V α β : Type} {Γ : TyEnv U} {cfg : Cfg} {t : TyId} {v : PtrView V} {m : Mem}

/-! ### Loops over elements -/

/-- A loop whose body never fails. -/
theorem eachSlice_ok {p : M (SliceCopy V) (List β)} {g : SliceCopy V → List β} {h : SliceCopy V → SliceCopy V} {ss : List (SliceCopy V)}
    (hp : ∀ s ∈ ss, p s = (.ok (g s), h s)) : eachSlice p ss = (.ok (ss.map g).flatten, ss.map h) := by
  induction ss with
  | nil => rfl
  | cons s ss ih =>
    have := ih fun x hx => hp x (List.mem_cons_of_mem _ hx)
    simp only [eachSlice, hp s List.mem_cons_self, this, Res.map, List.map_cons, List.flatten_cons]

theorem flatten_singles {γ : Type} (g : γ → β) (l : List γ) : (l.map fun d => [g d]).flatten = l.map g := by
  induction l with
  | nil => rfl
  | cons a l ih => rw [List.map_cons, List.flatten_cons, ih]; rfl

theorem row_ok (O : v.Ok Γ t) {n : Nat} (hn : Γ.align t ∣ n) (c : Nat) : (v.at (v.addr + c * n) n).Ok Γ t :=
  O.move (Nat.dvd_trans hn (Nat.dvd_mul_left _ _))

theorem ptr_iter (O : v.Ok Γ t) : PtrSim v ((SProg.iter).exec Γ cfg) ((SProg.iter).runAt Γ cfg v) := by
  intro m
  simp only [SProg.exec, SProg.runAt, SliceCopy.iter, PtrView.chunks, Dync.chunksExact, M.bind_run, M.get_run, M.lift_run]
  rw [show (v.contents m).elem = v.elem from rfl, O.bytes]
  by_cases h0 : Γ.size t = 0
  · simp only [h0, if_true]
    exact Traces.stay _
  · simp only [h0, if_false, M.pure_run]
    have hbody : ∀ c, c < v.len / Γ.size t → PtrSim (v.at (v.addr + c * Γ.size t) (Γ.size t))
        (⟨fun s => (.ok [(t, s.data)], s)⟩ : M (SliceCopy V) (List Read))
        ((fun w : PtrView V => do
          let b ← w.readAs Γ v.elem.type_id
          pure [(v.elem.type_id, b)]) (v.at (v.addr + c * Γ.size t) (Γ.size t))) := by
      intro c _ m
      have Oc := row_ok (n := Γ.size t) O (Γ.align_dvd t) c
      simp only [PtrView.readAs, O.ty, beq_self_eq_true, M.bind_run, M.assert_true_run, M.pure_run]
      have L := Traces.load (v := v.at (v.addr + c * Γ.size t) (Γ.size t)) (m := m) (a := v.addr + c * Γ.size t) (n := Γ.size t) (al := Γ.align t)
        ⟨Nat.le_refl _, Nat.le_refl _, Oc.aligned⟩
      exact ⟨rfl, L.view, L.frame, L.log⟩
    have H := each_chunks (v := v) (q := fun w : PtrView V => do
          let b ← w.readAs Γ v.elem.type_id
          pure [(v.elem.type_id, b)]) (Nat.pos_of_ne_zero h0) hbody m
    rw [eachSlice_ok (g := fun s => [(t, s.data)]) (h := fun s => s) (fun _ _ => rfl)] at H
    have hj : ((((Dync.chunks (Γ.size t) (v.contents m).data).map fun d => (⟨d, v.elem, v.vtable⟩ : SliceCopy V)).map fun s => s).map (·.data)).flatten =
        m.read v.addr (v.len / Γ.size t * Γ.size t) := by
      rw [chunks_contents (Nat.pos_of_ne_zero h0), List.map_id']
      exact row_contents _ _ _ _
    have hs : splice (m.read v.addr v.len) 0 (m.read v.addr (v.len / Γ.size t * Γ.size t)) = m.read v.addr v.len := by
      have hle : v.len / Γ.size t * Γ.size t ≤ v.len := Nat.div_mul_le_self _ _
      unfold splice
      rw [List.take_zero, List.nil_append, Nat.zero_add, Mem.read_length, ← Mem.read_take hle, List.take_append_drop]
    refine ⟨?_, ?_, H.frame, H.log⟩
    · rw [← H.res]
      simp only [List.map_map, Function.comp_def, SliceCopy.valueOf, show (v.contents m).elem.type_id = t from O.ty]
      rw [flatten_singles (fun d => (t, d))]
    · have := H.view
      rw [hj, hs] at this
      exact this

theorem ptr_mapAll (O : v.Ok Γ t) (f : TyId → Bytes → Bytes) (hf : ∀ e, e.length = Γ.size t → (f t e).length = Γ.size t) :
    PtrSim v ((SProg.mapAll f).exec Γ cfg) ((SProg.mapAll f).runAt Γ cfg v) := by
  intro m
  simp only [SProg.exec, SProg.runAt, SliceCopy.iterMut, PtrView.chunks, Dync.chunksExact, M.bind_run, M.get_run, M.lift_run, M.zoom_run]
  rw [show (v.contents m).elem = v.elem from rfl, O.bytes]
  by_cases h0 : Γ.size t = 0
  · simp only [h0, if_true]
    exact Traces.stay _
  · simp only [h0, if_false, M.pure_run]
    have hbody : ∀ c, c < v.len / Γ.size t → PtrSim (v.at (v.addr + c * Γ.size t) (Γ.size t))
        (⟨fun s => (.ok [], { s with data := f t s.data })⟩ : M (SliceCopy V) (List Read))
        ((fun w : PtrView V => do
          w.changeAs Γ v.elem.type_id (f v.elem.type_id)
          pure []) (v.at (v.addr + c * Γ.size t) (Γ.size t))) := by
      intro c _ m
      have Oc := row_ok (n := Γ.size t) O (Γ.align_dvd t) c
      simp only [PtrView.changeAs, O.ty, beq_self_eq_true, M.bind_run, M.assert_true_run, M.pure_run]
      have L := Traces.load (v := v.at (v.addr + c * Γ.size t) (Γ.size t)) (m := m) (a := v.addr + c * Γ.size t) (n := Γ.size t) (al := Γ.align t)
        ⟨Nat.le_refl _, Nat.le_refl _, Oc.aligned⟩
      have hl : (f t (m.read (v.addr + c * Γ.size t) (Γ.size t))).length = Γ.size t := hf _ Mem.read_length
      have hL : Mem.load (v.addr + c * Γ.size t) (Γ.size t) (Γ.align t) m = (.ok (m.read (v.addr + c * Γ.size t) (Γ.size t)),
        (Mem.load (v.addr + c * Γ.size t) (Γ.size t) (Γ.align t) m).2) := rfl
      rw [hL] at L ⊢
      have T := Traces.store (v := v.at (v.addr + c * Γ.size t) (Γ.size t)) (m := (Mem.load (v.addr + c * Γ.size t) (Γ.size t) (Γ.align t) m).2)
        (a := v.addr + c * Γ.size t) (al := Γ.align t) (bs := f t (m.read (v.addr + c * Γ.size t) (Γ.size t)))
        ⟨Nat.le_refl _, by simp only [hl]; exact Nat.le_refl _, Oc.aligned⟩
      have T' := L.trans T
      have hv := T'.view
      rw [Nat.sub_self, splice_whole (by rw [hl, Mem.read_length])] at hv
      exact ⟨rfl, hv, T'.frame, T'.log⟩
    have H := each_chunks (v := v) (q := fun w : PtrView V => do
          w.changeAs Γ v.elem.type_id (f v.elem.type_id)
          pure []) (Nat.pos_of_ne_zero h0) hbody m
    rw [eachSlice_ok (g := fun _ => []) (h := fun s => { s with data := f t s.data }) (fun _ _ => rfl)] at H
    have hv : (visitMut (M.modify fun s : CopyValue V × Unit => ({ s.1 with bytes := f s.1.type_id s.1.bytes }, s.2))
        ((Dync.chunks (Γ.size t) (v.contents m).data).map (v.contents m).valueOf) ()) =
        (.ok (), (((Dync.chunks (Γ.size t) (v.contents m).data).map (v.contents m).valueOf).map fun s => { s with bytes := f s.type_id s.bytes }, ())) :=
      visitMut_pure (fun s : CopyValue V => { s with bytes := f s.type_id s.bytes }) _ ()
    rw [hv]
    refine ⟨?_, ?_, H.frame, H.log⟩
    · rw [← H.res]
      simp
    · have := H.view
      simp only
      rw [← this]
      simp only [List.map_map, Function.comp_def, SliceCopy.valueOf, show (v.contents m).elem.type_id = t from O.ty]
      rfl

/-! ### Swap -/

/-- The bytes of the exchange. -/
theorem traces_exchange {a b n : Nat} (hab : a + n ≤ b) (hb : b + n ≤ v.len) (m : Mem) :
    Traces v m (.ok (), { v.contents m with data := splice (splice (m.read v.addr v.len) a (m.read (v.addr + b) n)) b (m.read (v.addr + a) n) })
      (PtrView.exchange (v.at (v.addr + a) n) (v.at (v.addr + b) n) m) := by
  simp only [PtrView.exchange, if_true]
  refine Traces.next (Traces.load (v := v) (m := m) ⟨Nat.le_add_right _ _, by simp only; omega, Nat.one_dvd _⟩) fun m1 h1 => ?_
  have k1 : m1.read v.addr v.len = m.read v.addr v.len := congrArg SliceCopy.data h1
  refine Traces.next (Traces.load (v := v) (m := m1) ⟨Nat.le_add_right _ _, by simp only; omega, Nat.one_dvd _⟩) fun m2 h2 => ?_
  have k2 : m2.read v.addr v.len = m.read v.addr v.len := (congrArg SliceCopy.data h2).trans k1
  have e1 : m1.read (v.addr + b) n = m.read (v.addr + b) n := by
    rw [← Mem.read_drop_take (k := v.len) (by omega), ← Mem.read_drop_take (k := v.len) (by omega), k1]
  have T1 := Traces.store (v := v) (m := m2) (a := v.addr + a) (al := 1) (bs := m1.read (v.addr + b) n)
    ⟨Nat.le_add_right _ _, by simp only [Mem.read_length]; omega, Nat.one_dvd _⟩
  refine Traces.next T1 fun m3 h3 => ?_
  have k3 : m3.read v.addr v.len = splice (m.read v.addr v.len) a (m.read (v.addr + b) n) := by
    have := congrArg SliceCopy.data h3
    simp only at this
    rw [Nat.add_sub_cancel_left, k2, e1] at this
    exact this
  have T2 := Traces.store (v := v) (m := m3) (a := v.addr + b) (al := 1) (bs := m.read (v.addr + a) n)
    ⟨Nat.le_add_right _ _, by simp only [Mem.read_length]; omega, Nat.one_dvd _⟩
  rw [Nat.add_sub_cancel_left, k3] at T2
  exact T2

/-- Writing in both halves. -/
theorem splice_halves {l x y : Bytes} {mid a b : Nat} (hm : mid ≤ l.length) (ha : a + x.length ≤ mid) (hb : mid + b + y.length ≤ l.length) :
    splice (l.take mid) a x ++ splice (l.drop mid) b y = splice (splice l a x) (mid + b) y := by
  have e1 : splice l a x = splice (l.take mid) a x ++ l.drop mid := by
    unfold splice
    rw [List.take_take, Nat.min_eq_left (by omega), List.append_assoc, List.append_assoc, List.append_assoc]
    congr 2
    rw [List.drop_take, ← List.take_append_drop (mid - (a + x.length)) (l.drop (a + x.length)), List.drop_drop,
      List.take_left' (by rw [List.length_take, List.length_drop]; omega), show a + x.length + (mid - (a + x.length)) = mid by omega]
  have hl : (splice (l.take mid) a x).length = mid := by
    unfold splice
    simp only [List.length_append, List.length_take, List.length_drop]
    omega
  rw [e1]
  generalize splice (l.take mid) a x = u at hl
  unfold splice
  rw [List.take_append, hl, List.take_of_length_le (l := u) (by omega), Nat.add_sub_cancel_left, List.drop_append (l₁ := u), hl,
    List.drop_eq_nil_of_le (as := u) (by omega), List.nil_append, show mid + b + y.length - mid = b + y.length by omega]
  simp only [List.append_assoc]

/-- The case of the exchange of two elements, `i < j`. -/
theorem ptr_swap_lt (O : v.Ok Γ t) (r r0 : Nat × Nat) (i : Nat) (hr : rangeRes cfg v.elem.numBytes i = .ok r)
    (hr0 : rangeRes cfg v.elem.numBytes 0 = .ok r0) (mid : Nat) :
    PtrSim v (do
      let self ← M.get
      let d ← (do
        let (l, rr) ← M.lift (sliceSplitAt self.data mid)
        let ls ← M.lift (sliceIndex l r.1 r.2)
        let rs ← M.lift (sliceIndex rr r0.1 r0.2)
        let (ls', rs') ← M.lift (sliceSwapWith ls rs)
        pure (splice l r.1 ls' ++ splice rr r0.1 rs'))
      M.set ({ self with data := d } : SliceCopy V))
      (do
        let (l, rr) ← M.lift (v.cut mid)
        let ls ← M.lift (l.range r.1 r.2)
        let rs ← M.lift (rr.range r0.1 r0.2)
        PtrView.exchange ls rs) := by
  intro m
  have R := rangeRes_ok (a := r.1) (b := r.2) hr (by rw [O.bytes]; exact size_le_max Γ t) (Nat.one_dvd _) (Nat.one_dvd _)
  have R0 := rangeRes_ok (a := r0.1) (b := r0.2) hr0 (by rw [O.bytes]; exact size_le_max Γ t) (Nat.one_dvd _) (Nat.one_dvd _)
  simp only [M.bind_run, M.get_run, M.lift_run, sliceSplitAt, PtrView.cut, contents_len]
  by_cases hm : mid ≤ v.len
  · simp only [hm, if_true, sliceIndex, PtrView.range, List.length_take, List.length_drop, contents_len, Nat.min_eq_left hm]
    by_cases h1 : r.1 ≤ r.2 ∧ r.2 ≤ mid
    · simp only [h1, and_self, if_true]
      by_cases h2 : r0.1 ≤ r0.2 ∧ r0.2 ≤ v.len - mid
      · simp only [h2, and_self, if_true, sliceSwapWith]
        have e1 := R.2 h1.1
        have e2 := R0.2 h2.1
        have n1 : r.2 - r.1 = v.elem.numBytes := by omega
        have n2 : r0.2 - r0.1 = v.elem.numBytes := by omega
        have x1 : (((m.read v.addr v.len).take mid).take r.2).drop r.1 = m.read (v.addr + r.1) v.elem.numBytes := by
          rw [Mem.read_take hm, Mem.read_take h1.2, Mem.read_drop h1.1, n1]
        have x2 : (((m.read v.addr v.len).drop mid).take r0.2).drop r0.1 = m.read (v.addr + (mid + r0.1)) v.elem.numBytes := by
          rw [Mem.read_drop hm, Mem.read_take h2.2, Mem.read_drop h2.1, n2, Nat.add_assoc]
        rw [show (v.contents m).data = m.read v.addr v.len from rfl, x1, x2]
        simp only [Mem.read_length, if_true, M.pure_run, M.set_run]
        rw [splice_halves (by rw [Mem.read_length]; exact hm) (by rw [Mem.read_length]; omega) (by rw [Mem.read_length, Mem.read_length]; omega)]
        have T := traces_exchange (v := v) (a := r.1) (b := mid + r0.1) (n := v.elem.numBytes) (by omega) (by omega) m
        rw [n1, n2, Nat.add_assoc]
        exact T
      · simp only [h2, if_false]
        exact Traces.stay _
    · simp only [h1, if_false]
      exact Traces.stay _
  · simp only [hm, if_false]
    exact Traces.stay _

theorem ptr_swap (O : v.Ok Γ t) (i j : Nat) : PtrSim v ((SProg.swap i j).exec Γ cfg) ((SProg.swap i j).runAt Γ cfg v) := by
  refine PtrSim.bind (f := fun _ => pure []) (g := fun _ => pure []) ?_ fun _ => PtrSim.lift _
  unfold SliceCopy.swap PtrView.swap swapBytes
  by_cases hij : i = j
  · simp only [hij, if_true]
    intro m
    exact Traces.stay _
  · simp only [hij, if_false, indexByteRange_eq, umul_eq]
    intro m
    simp only [M.bind_run, M.get_run]
    rw [show (v.contents m).elem = v.elem from rfl]
    rw [M.lift_run, M.lift_run]
    cases h0 : rangeRes cfg v.elem.numBytes 0 with
    | ok r0 =>
      simp only
      by_cases hlt : i < j
      · simp only [hlt, if_true, M.bind_run, M.lift_run]
        cases hr : rangeRes cfg v.elem.numBytes i with
        | ok r =>
          simp only
          cases hu : umulRes cfg v.elem.numBytes j with
          | ok mid =>
            have := ptr_swap_lt (cfg := cfg) O r r0 i hr h0 mid m
            simp only [M.bind_run, M.get_run, M.lift_run] at this
            exact this
          | panic => exact Traces.stay _
          | ub => exact Traces.stay _
          | abort => exact Traces.stay _
        | panic => exact Traces.stay _
        | ub => exact Traces.stay _
        | abort => exact Traces.stay _
      · simp only [hlt, if_false, M.bind_run, M.lift_run]
        cases hr : rangeRes cfg v.elem.numBytes j with
        | ok r =>
          simp only
          cases hu : umulRes cfg v.elem.numBytes i with
          | ok mid =>
            have := ptr_swap_lt (cfg := cfg) O r r0 j hr h0 mid m
            simp only [M.bind_run, M.get_run, M.lift_run] at this
            exact this
          | panic => exact Traces.stay _
          | ub => exact Traces.stay _
          | abort => exact Traces.stay _
        | panic => exact Traces.stay _
        | ub => exact Traces.stay _
        | abort => exact Traces.stay _
    | panic => exact Traces.stay _
    | ub => exact Traces.stay _
    | abort => exact Traces.stay _

end Dync
