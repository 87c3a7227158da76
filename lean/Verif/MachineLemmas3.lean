import Verif.MachineLemmas2
import Verif.HistoryStep
/-!
# The methods of `VecCopy` do what the machine of `Machine.lean` says: content
-/
namespace Dync
variable {U V α : Type} {Γ : TyEnv U} {t t' : TyId} {es : List Bytes} {v : VecVoid} {c : VecCopy V} {w : World U} {cfg : Cfg}

/-! ### Cutting bytes into elements -/

theorem cut_succ (n k : Nat) (b : Bytes) : cut n (k + 1) b = b.take n :: cut n k (b.drop n) := by
  unfold cut
  rw [List.range_succ_eq_map, List.map_cons, List.map_map]
  simp only [Nat.zero_mul, List.drop_zero, List.cons.injEq, true_and]
  refine List.map_congr_left fun i _ => ?_
  simp only [Function.comp, List.drop_drop, Nat.succ_eq_add_one, Nat.add_mul, Nat.one_mul]
  rw [Nat.add_comm]

theorem cut_length (n k : Nat) (b : Bytes) : (cut n k b).length = k := by simp [cut]

theorem cut_flatten {n k : Nat} {b : Bytes} (h : b.length = k * n) : (cut n k b).flatten = b := by
  induction k generalizing b with
  | zero =>
    rw [Nat.zero_mul] at h
    rw [List.eq_nil_of_length_eq_zero h]; rfl
  | succ k ih =>
    rw [Nat.succ_mul] at h
    rw [cut_succ, List.flatten_cons, ih (by rw [List.length_drop]; omega), List.take_append_drop]

theorem cut_each {n k : Nat} {b : Bytes} (h : b.length = k * n) : ∀ e ∈ cut n k b, e.length = n := by
  induction k generalizing b with
  | zero => intro e he; cases he
  | succ k ih =>
    rw [Nat.succ_mul] at h
    intro e he
    rw [cut_succ] at he
    rcases List.mem_cons.1 he with rfl | he
    · rw [List.length_take]; omega
    · exact ih (by rw [List.length_drop]; omega) e he

/-- A method that changes the bytes in place. -/
theorem Agrees.bytes {m : M (VecCopy V × World U) Obs} {b : Bytes} (R : Repr Γ w.heap t es c.data)
    (wf : w.heap.WF) (hb : b.length = es.length * Γ.size t)
    (hm : m (c, w) = (.ok .done, ({ c with data := ⟨c.data.ptr, c.data.len, c.data.cap, c.data.elem, b⟩ }, w))) :
    (After.mk (.ok .done) (.vec t (cut (Γ.size t) es.length b) c.data.cap) false).Agrees Γ m c w := by
  refine Agrees.content R wf (cut_each hb) (by rw [cut_length]; exact R.len_cap) ?_ hm
  rw [cut_length, cut_flatten hb, R.len]

theorem Agrees.evolves {m : M (VecCopy V × World U) Obs} {o : Obs} {es' : List Bytes} {d : VecVoid}
    (hev : Evolves Γ t 0 es' w.heap c.data w.heap d) (hm : m (c, w) = (.ok o, ({ c with data := d }, w))) :
    (After.mk (.ok o) (.vec t es' c.data.cap) false).Agrees Γ m c w :=
  .inr ⟨by simp, _, d, w.heap, hm, rfl, ⟨hev.repr, (hev.stay (Nat.zero_le _)).2.1⟩, hev.realloc⟩

/-! ### Methods -/

theorem clear_agrees (R : Repr Γ w.heap t es c.data) (wf : w.heap.WF) :
    (XVec.clear (.vec t es c.data.cap)).Agrees Γ (do VecCopy.clear Γ cfg; return .done) c w :=
  Agrees.content R wf (fun e he => by cases he) (Nat.zero_le _) rfl (onData_done (r := .ok ()) (VecVoid.clear_spec R))

theorem fill_agrees (R : Repr Γ w.heap t es c.data) (wf : w.heap.WF) {x : Bytes} (hx : x.length = Γ.size t') :
    (XVec.fill Γ t' x (.vec t es c.data.cap)).Agrees Γ (do return Obs.ofUnit (← VecCopy.fill Γ t' x)) c w := by
  simp only [XVec.fill]
  by_cases ht : t' = t
  · subst ht
    rw [if_pos rfl]
    obtain ⟨d, hrun, hev⟩ := VecCopy.fill_ok R wf hx
    exact Agrees.evolves hev (ofUnit_done (r := .ok ()) hrun)
  · rw [if_neg ht]
    refine Agrees.same wf ⟨R, rfl⟩ (ofUnit_refused ?_) rfl
    simp only [VecCopy.fill, VecCopy.asMutSliceAs, M.bind_run, getSelf_run, VecCopy.checkRef_none R ht, M.pure_run]

/-- A view of the whole container that the caller works on. -/
theorem asMutSlice_same (R : Repr Γ w.heap t es c.data) {m : M (SliceCopy V) α} {r : Res α}
    (hm : ∀ s : SliceCopy V, SRepr Γ t es s → m s = (r, s)) : VecCopy.asMutSlice m (c, w) = (r, (c, w)) := by
  obtain ⟨s, hs, _, hrun⟩ := VecCopy.asMutSlice_run R m
  rw [hrun, hm s hs, hs.data, ← R.mem, splice_whole rfl]

theorem copyFromSlice_agrees (R : Repr Γ w.heap t es c.data) (wf : w.heap.WF) {xs : List Bytes}
    (hx : ∀ x ∈ xs, x.length = Γ.size t') :
    (XVec.copyFromSlice t' xs (.vec t es c.data.cap)).Agrees Γ (do return Obs.ofUnit (← VecCopy.copyFromSlice Γ cfg t' xs)) c w := by
  simp only [XVec.copyFromSlice]
  by_cases ht : t' = t
  · subst ht
    rw [if_pos rfl]
    by_cases hl : xs.length = es.length
    · rw [if_pos hl]
      obtain ⟨d, hrun, hev⟩ := VecCopy.asMutSlice_ok R wf (m := SliceCopy.copyFromSlice Γ cfg t' xs) (r := .ok (some ())) (es' := xs) hx hl
        (fun s hs _ => by rw [hs.copyFromSlice hx hl]; exact ⟨rfl, rfl⟩)
      exact Agrees.evolves hev (ofUnit_done (r := .ok ()) hrun)
    · rw [if_neg hl]
      have := asMutSlice_same R (m := SliceCopy.copyFromSlice Γ cfg t' xs) fun s hs => hs.copyFromSlice_len hl
      exact Agrees.same wf ⟨R, rfl⟩ (by simp only [M.bind_run, VecCopy.copyFromSlice, this]) ⟨.lenMismatch, rfl⟩
  · rw [if_neg ht]
    refine Agrees.same wf ⟨R, rfl⟩ (ofUnit_refused ?_) rfl
    refine asMutSlice_same R fun s hs => ?_
    rw [SliceCopy.copyFromSlice, hs.asSliceMut_mismatch ht]

theorem rotateLeft_agrees (R : Repr Γ w.heap t es c.data) (wf : w.heap.WF) (n : Nat) :
    (XVec.rotateLeft Γ cfg n (.vec t es c.data.cap)).Agrees Γ (do VecCopy.rotateLeft Γ cfg n; return .done) c w := by
  simp only [XVec.rotateLeft]
  by_cases ha : 8192 < Γ.align t
  · rw [if_pos ha]
    exact Agrees.same wf ⟨R, rfl⟩ (onData_done (r := .panic .unreachable) (VecVoid.rotateLeft_overaligned R ha)) ⟨.unreachable, rfl⟩
  rw [if_neg ha]
  obtain ⟨i, hp, hd⟩ := R.dropChunk
  have hrun : VecVoid.rotateLeft Γ cfg n (c.data, w) = VecVoid.applyAligned Γ cfg ⟨Γ.align t, Γ.align t⟩ (do
      let k ← umul cfg n (perElem Γ t)
      RVec.rotateLeft ⟨Γ.align t, Γ.align t⟩ k) (c.data, w) := by
    simp only [VecVoid.rotateLeft, M.bind_run, getSelf_run, R.align, evalAlignLimited_align Γ t _ (Nat.le_of_not_lt ha), R.perElem_eq]
  have hlost : ∀ y, (do
      let k ← umul cfg n (perElem Γ t)
      RVec.rotateLeft ⟨Γ.align t, Γ.align t⟩ k : M (RVec × World U) Unit) (c.data.chunkView, w) = (.panic y, (c.data.chunkView, w)) →
      After.lost.Agrees Γ (do VecCopy.rotateLeft Γ cfg n; return .done) c w := fun y h =>
    Agrees.ofV (AgreesV.lost wf hp rfl (hrun.trans (applyAligned_panic R h hd))) (by simp [After.lost]) fun _ _ _ h => onData_done h
  cases ht : times cfg n (perElem Γ t) with
  | none => exact hlost .overflow (by simp only [M.bind_run, umul_times, ht])
  | some k =>
    simp only
    have hv : c.data.chunkView.len = es.length * perElem Γ t := by simp only [VecVoid.chunkView, R.len, R.perElem_eq]
    by_cases hk : k ≤ es.length * perElem Γ t
    · rw [if_pos hk]
      refine Agrees.bytes R wf ?_ (onData_done (r := .ok ()) (hrun.trans
        (applyAligned_ok R (n := c.data.len) (c := c.data.cap) (v' := { c.data.chunkView with
          bytes := es.flatten.drop (k * Γ.align t) ++ es.flatten.take (k * Γ.align t) }) (w' := w) ?_ rfl rfl R.cap_pos)))
      · rw [List.length_append, List.length_drop, List.length_take, length_flatten_eq R.each]; omega
      · simp only [M.bind_run, umul_times, ht, RVec.rotateLeft, M.get_run, hv, if_pos hk, M.modify_run]
        rw [show c.data.chunkView.bytes = es.flatten from R.mem]
    · rw [if_neg hk]
      refine hlost .assertion ?_
      simp only [M.bind_run, umul_times, ht, RVec.rotateLeft, M.get_run, hv, if_neg hk, M.panic_run]

theorem rotateRight_agrees (R : Repr Γ w.heap t es c.data) (wf : w.heap.WF) (n : Nat) :
    (XVec.rotateRight Γ cfg n (.vec t es c.data.cap)).Agrees Γ (do VecCopy.rotateRight Γ cfg n; return .done) c w := by
  simp only [XVec.rotateRight]
  by_cases ha : 8192 < Γ.align t
  · rw [if_pos ha]
    exact Agrees.same wf ⟨R, rfl⟩ (onData_done (r := .panic .unreachable) (VecVoid.rotateRight_overaligned R ha)) ⟨.unreachable, rfl⟩
  rw [if_neg ha]
  obtain ⟨i, hp, hd⟩ := R.dropChunk
  have hrun : VecVoid.rotateRight Γ cfg n (c.data, w) = VecVoid.applyAligned Γ cfg ⟨Γ.align t, Γ.align t⟩ (do
      let k ← umul cfg n (perElem Γ t)
      RVec.rotateRight ⟨Γ.align t, Γ.align t⟩ k) (c.data, w) := by
    simp only [VecVoid.rotateRight, M.bind_run, getSelf_run, R.align, evalAlignLimited_align Γ t _ (Nat.le_of_not_lt ha), R.perElem_eq]
  have hlost : ∀ y, (do
      let k ← umul cfg n (perElem Γ t)
      RVec.rotateRight ⟨Γ.align t, Γ.align t⟩ k : M (RVec × World U) Unit) (c.data.chunkView, w) = (.panic y, (c.data.chunkView, w)) →
      After.lost.Agrees Γ (do VecCopy.rotateRight Γ cfg n; return .done) c w := fun y h =>
    Agrees.ofV (AgreesV.lost wf hp rfl (hrun.trans (applyAligned_panic R h hd))) (by simp [After.lost]) fun _ _ _ h => onData_done h
  cases ht : times cfg n (perElem Γ t) with
  | none => exact hlost .overflow (by simp only [M.bind_run, umul_times, ht])
  | some k =>
    simp only
    have hv : c.data.chunkView.len = es.length * perElem Γ t := by simp only [VecVoid.chunkView, R.len, R.perElem_eq]
    by_cases hk : k ≤ es.length * perElem Γ t
    · rw [if_pos hk]
      refine Agrees.bytes R wf ?_ (onData_done (r := .ok ()) (hrun.trans
        (applyAligned_ok R (n := c.data.len) (c := c.data.cap) (v' := { c.data.chunkView with
          bytes := es.flatten.drop ((es.length * perElem Γ t - k) * Γ.align t) ++
            es.flatten.take ((es.length * perElem Γ t - k) * Γ.align t) }) (w' := w) ?_ rfl rfl R.cap_pos)))
      · rw [List.length_append, List.length_drop, List.length_take, length_flatten_eq R.each]; omega
      · simp only [M.bind_run, umul_times, ht, RVec.rotateRight, M.get_run, hv, if_pos hk, M.modify_run]
        rw [show c.data.chunkView.bytes = es.flatten from R.mem]
    · rw [if_neg hk]
      refine hlost .assertion ?_
      simp only [M.bind_run, umul_times, ht, RVec.rotateRight, M.get_run, hv, if_neg hk, M.panic_run]

theorem exchange_length {n a a' : Nat} {b : Bytes} (h : a + n ≤ a') (h' : a' + n ≤ b.length) :
    (exchange n a a' b).length = b.length := by
  simp only [exchange, List.length_append, List.length_take, List.length_drop]
  omega

theorem swap_agrees (R : Repr Γ w.heap t es c.data) (wf : w.heap.WF) (i j : Nat) :
    (XVec.swap Γ cfg i j (.vec t es c.data.cap)).Agrees Γ (do VecCopy.swap cfg i j; return .done) c w := by
  simp only [XVec.swap]
  by_cases hij : i = j
  · rw [if_pos hij]
    subst hij
    have := asMutSlice_same R (m := SliceCopy.swap cfg i i) (r := .ok ()) fun s _ => by
      simp only [SliceCopy.swap, M.bind_run, M.get_run, swapBytes, if_true, M.pure_run, M.set_run]
    exact Agrees.same wf ⟨R, rfl⟩ (by simp only [M.bind_run, VecCopy.swap, this, M.pure_run]) rfl
  rw [if_neg hij]
  obtain ⟨dbg⟩ := cfg
  cases dbg with
  | true =>
    rw [if_pos rfl]
    split
    · rename_i h
      have hi := h.1
      have hj := h.2
      have he : ∀ e ∈ (es.set i es[j]).set j es[i], e.length = Γ.size t := by
        intro e he
        rcases List.mem_or_eq_of_mem_set he with he | rfl
        · rcases List.mem_or_eq_of_mem_set he with he | rfl
          · exact R.each e he
          · exact R.each _ (List.getElem_mem hj)
        · exact R.each _ (List.getElem_mem hi)
      obtain ⟨d, hrun, hev⟩ := VecCopy.asMutSlice_ok R wf (m := SliceCopy.swap ⟨true⟩ i j) (r := .ok ()) he (by simp)
        (fun s hs _ => by rw [(C68_swap_debug hs i j).1 hi hj]; exact ⟨rfl, rfl⟩)
      exact Agrees.evolves hev (by simp only [M.bind_run, VecCopy.swap, hrun, M.pure_run])
    · rename_i h
      have ho : es.length ≤ i ∨ es.length ≤ j := by omega
      obtain ⟨s, hs, _, hrun⟩ := VecCopy.asMutSlice_run R (SliceCopy.swap ⟨true⟩ i j)
      obtain ⟨y, hy⟩ := (C68_swap_debug hs i j).2.1 ho hij
      rw [hy, hs.data, ← R.mem, splice_whole rfl] at hrun
      exact Agrees.same wf ⟨R, rfl⟩ (by simp only [M.bind_run, VecCopy.swap, hrun]) ⟨y, rfl⟩
  | false =>
    rw [if_neg (by simp)]
    obtain ⟨s, hs, _, hrun⟩ := VecCopy.asMutSlice_run R (SliceCopy.swap ⟨false⟩ i j)
    have hsw := C68_swap_release hs hij rfl rfl
    split
    · rename_i h
      rw [hsw.1 h] at hrun
      have hl : (exchange (Γ.size t) (min i j * Γ.size t % 2 ^ 64) (max i j * Γ.size t % 2 ^ 64) es.flatten).length =
          es.length * Γ.size t := by
        rw [exchange_length h.1 (by rw [length_flatten_eq R.each]; exact h.2), length_flatten_eq R.each]
      refine Agrees.bytes R wf hl ?_
      have e2 : splice c.data.mem 0 (exchange (Γ.size t) (min i j * Γ.size t % 2 ^ 64) (max i j * Γ.size t % 2 ^ 64) es.flatten) =
          exchange (Γ.size t) (min i j * Γ.size t % 2 ^ 64) (max i j * Γ.size t % 2 ^ 64) es.flatten :=
        splice_whole (by rw [hl, R.mem_len, R.len])
      simp only [exchange] at e2 ⊢
      simp only [M.bind_run, VecCopy.swap, hrun, M.pure_run, e2]
    · rename_i h
      obtain ⟨y, hy⟩ := hsw.2 h
      rw [hy, hs.data, ← R.mem, splice_whole rfl] at hrun
      exact Agrees.same wf ⟨R, rfl⟩ (by simp only [M.bind_run, VecCopy.swap, hrun]) ⟨y, rfl⟩

theorem setAs_agrees (R : Repr Γ w.heap t es c.data) (wf : w.heap.WF) (i : Nat) {x : Bytes} (hx : x.length = Γ.size t') :
    (XVec.setAs Γ t' i x (.vec t es c.data.cap)).Agrees Γ
      (do return Obs.ofUnit (← VecCopy.getMutAs Γ t' i (M.modify fun s => (x, s.2)))) c w := by
  simp only [XVec.setAs]
  by_cases hi : i < es.length
  · have hb : (decide (i < c.len)) = true := by
      simp only [VecCopy.len, R.len]; exact decide_eq_true hi
    rw [if_pos hi]
    by_cases ht : t' = t
    · subst ht
      rw [if_pos rfl]
      obtain ⟨d, hrun, hev⟩ := VecCopy.getMutAs_ok (r := .ok ()) (w' := w) (m := M.modify fun s => (x, s.2)) R wf hi rfl hx
      exact Agrees.evolves hev (ofUnit_done (r := .ok ()) hrun)
    · rw [if_neg ht]
      refine Agrees.same wf ⟨R, rfl⟩ (ofUnit_refused ?_) rfl
      simp only [VecCopy.getMutAs, M.bind_run, getSelf_run, hb, M.assert_true_run, VecCopy.checkRef_none R ht, M.pure_run]
  · rw [if_neg hi]
    have hb : (decide (i < c.len)) = false := by
      simp only [VecCopy.len, R.len]; exact decide_eq_false hi
    exact Agrees.same wf ⟨R, rfl⟩ (by simp only [VecCopy.getMutAs, M.bind_run, getSelf_run, hb, M.assert_false_run])
      ⟨.assertion, rfl⟩

/-- Copying a value into the place of another. -/
def copyInto (Γ : TyEnv U) (t : TyId) (x : Bytes) : M (CopyValue V × World U) (Option Unit) :=
  M.zoom Prod.fst (fun v s => (v, s.2)) (do
    let self ← M.get
    CopyValue.copy (CopyValue.new Γ t self.vtable x))

theorem copyInto_ok {x b : Bytes} {vt : V} {a : Nat} (hb : b.length = Γ.size t) (hx : x.length = Γ.size t) :
    copyInto Γ t x (⟨b, t, a, vt⟩, w) = (.ok (some ()), (⟨x, t, a, vt⟩, w)) := by
  simp [copyInto, CopyValue.copy, CopyValue.new, sliceCopyFrom, hb, hx]; exact ⟨rfl, rfl⟩

theorem copyInto_refused {x b : Bytes} {vt : V} {a : Nat} (ht : t' ≠ t) :
    copyInto Γ t' x (⟨b, t, a, vt⟩, w) = (.ok none, (⟨b, t, a, vt⟩, w)) := by
  simp [copyInto, CopyValue.copy, CopyValue.new, Ne.symm ht]

theorem splice_self {b : Bytes} {n a : Nat} (h : a + n ≤ b.length) : splice b a ((b.drop a).take n) = b := by
  unfold splice
  have hl : ((b.drop a).take n).length = n := by rw [List.length_take, List.length_drop]; omega
  rw [hl, List.append_assoc, ← List.drop_drop, List.take_append_drop, List.take_append_drop]

theorem setValue_agrees (R : Repr Γ w.heap t es c.data) (wf : w.heap.WF) (i : Nat) {x : Bytes} (hx : x.length = Γ.size t') :
    (XVec.setValue Γ cfg i t' x (.vec t es c.data.cap)).Agrees Γ
      (do return Obs.ofUnit (← VecCopy.getMut cfg i (copyInto Γ t' x))) c w := by
  simp only [XVec.setValue]
  obtain ⟨dbg⟩ := cfg
  cases dbg with
  | true =>
    rw [if_pos rfl]
    by_cases hi : i < es.length
    · rw [if_pos hi]
      have hl := R.each _ (List.getElem_mem hi)
      by_cases ht : t' = t
      · subst ht
        rw [if_pos rfl]
        obtain ⟨d, hrun, hev⟩ := VecCopy.getMut_ok (cfg := ⟨true⟩) R wf hi (m := copyInto Γ t' x) (copyInto_ok hl hx) hx
        exact Agrees.evolves hev (ofUnit_done (r := .ok ()) hrun)
      · rw [if_neg ht]
        obtain ⟨d, hrun, hev⟩ := VecCopy.getMut_ok (cfg := ⟨true⟩) R wf hi (m := copyInto Γ t' x) (copyInto_refused ht) hl
        rw [List.set_getElem_self] at hev
        exact Agrees.evolves hev (ofUnit_refused hrun)
    · rw [if_neg hi]
      have hb : (decide (i < c.len)) = false := by
        simp only [VecCopy.len, R.len]; exact decide_eq_false hi
      exact Agrees.same wf ⟨R, rfl⟩ (by simp only [VecCopy.getMut, M.bind_run, getSelf_run, debugAssert, hb]; rfl)
        ⟨.assertion, rfl⟩
  | false =>
    rw [if_neg (by simp)]
    have hda : ∀ b (s : VecCopy V × World U), debugAssert ⟨false⟩ b s = (.ok (), s) := fun _ _ => rfl
    have hval : ∀ b, c.valueOf b = ⟨b, t, Γ.align t, c.vtable⟩ := by
      intro b; simp [VecCopy.valueOf, VecCopy.elementTypeId, R.type_id, R.align]
    have hml : c.data.mem.length = es.length * Γ.size t := by rw [R.mem_len, R.len]
    by_cases hi : i * Γ.size t % 2 ^ 64 + Γ.size t ≤ es.length * Γ.size t
    · rw [if_pos hi]
      have hbl : ((c.data.mem.drop (i * Γ.size t % 2 ^ 64)).take (Γ.size t)).length = Γ.size t := by
        rw [List.length_take, List.length_drop]; omega
      by_cases ht : t' = t
      · subst ht
        rw [if_pos rfl]
        refine Agrees.bytes R wf ?_ (ofUnit_done (r := .ok ()) ?_)
        · simp only [List.length_append, List.length_take, List.length_drop, length_flatten_eq R.each, hx]; omega
        · simp only [VecCopy.getMut, M.bind_run, getSelf_run, hda, umul_release, R.numBytes, hml, if_pos hi, hval,
            copyInto_ok hbl hx]
          simp only [splice, hx, R.mem, Res.map]
      · rw [if_neg ht]
        refine Agrees.same wf ⟨R, rfl⟩ (ofUnit_refused ?_) rfl
        simp only [VecCopy.getMut, M.bind_run, getSelf_run, hda, umul_release, R.numBytes, hml, if_pos hi, hval,
            copyInto_refused ht, splice_self (hml ▸ hi)]
    · rw [if_neg hi]
      left
      refine ⟨rfl, ?_⟩
      simp only [VecCopy.getMut, M.bind_run, getSelf_run, hda, umul_release, R.numBytes, hml, if_neg hi, M.ub_run]

theorem mapAll_agrees (R : Repr Γ w.heap t es c.data) (wf : w.heap.WF) {f : Bytes → Bytes} (hf : ∀ x, (f x).length = x.length) :
    (XVec.mapAll f (.vec t es c.data.cap)).Agrees Γ
      (do VecCopy.iterMut (M.modify fun s => ({ s.1 with bytes := f s.1.bytes }, s.2)); return .done) c w := by
  obtain ⟨d, hrun, hev⟩ := VecCopy.iterMut_ok (body := M.modify fun s => ({ s.1 with bytes := f s.1.bytes }, s.2))
    (g := M.modify fun s => (f s.1, s.2)) R wf (fun e w he => (hf e).trans he) (fun e w _ => rfl)
  rw [visitMut_pure] at hrun hev
  exact Agrees.evolves hev (by simp only [M.bind_run, hrun, M.pure_run])

end Dync
