import Verif.Props.AnyGrowth
import Verif.MachineLemmas2
/-!
# C92, continued: typed operations, `resize`, and which choices of capacities are harmless
-/
namespace Dync
variable {U V α : Type} {Γ : TyEnv U} {t : TyId} {es es' : List Bytes} {c : VecCopy V} {v : VecVoid} {w : World U}
  {cfg : Cfg} {P : VecPolicy} {vt : V}

/-! ### `Vec<T>` operations -/

/-- A typed vector of positive capacity needs no choice to become type-erased. -/
theorem VecVoid.fromVecP_pos {rv : RVec} (hc : 0 < rv.cap) :
    VecVoid.fromVecP P Γ t rv w = (.ok ⟨rv.ptr, rv.len, rv.cap, ElemInfo.new Γ t, rv.bytes⟩, w) := by
  have hc' : rv.cap ≠ 0 := by omega
  have hrun : VecVoid.intoValidVecP (U := U) P (Γ.layout t) (rv, w) = (.ok (), (rv, w)) := by
    simp [VecVoid.intoValidVecP, hc']
  simp only [VecVoid.fromVecP, M.bind_run, withLocal_ok hrun, M.pure_run]

theorem applyUncheckedP_ok {h : Heap} (R : Repr Γ h t es v) {f : M (RVec × World U) α}
    {out : α} {rv : RVec} {w' : World U}
    (hf : f (v.typedView, w) = (.ok out, (rv, w'))) (hcap : 0 < rv.cap) :
    VecVoid.applyUncheckedP P Γ cfg t f (v, w) =
      (.ok out, (⟨rv.ptr, rv.len, rv.cap, v.elem, rv.bytes⟩, w')) := by
  simp only [VecVoid.applyUncheckedP, M.bind_run, getSelf_run, setSelf_run, R.intoVec, onWorld_run]
  rw [withLocal_ok hf]
  simp only [VecVoid.fromVecP_pos hcap, M.pure_run, R.elem_eq]

theorem RVec.pushOwnedP_ok {x : Bytes} {s s' : RVec × World U}
    (h : RVec.pushP P (Γ.layout t) x s = (.ok (), s')) : RVec.pushOwnedP P Γ t x s = (.ok (), s') := by
  simp only [RVec.pushOwnedP, M.onUnwind_ok h]

/-- `Vec::<T>::push` for every choice. -/
theorem RVec.pushP_typed (R : Repr Γ w.heap t es v) (wf : w.heap.WF) {x : Bytes} (hx : x.length = Γ.size t)
    (hroom : v.len = v.cap → Room Γ t (P.grow w.heap (Γ.layout t) v.cap (v.len + 1))) :
    ∃ p k h', RVec.pushP P (Γ.layout t) x (v.typedView, w) =
        (.ok (), (⟨p, v.len + 1, k, v.mem ++ x⟩, { w with heap := h' })) ∧
      GrowsTo Γ t (es.length + 1) (es ++ [x]) w.heap v h' ⟨p, v.len + 1, k, v.elem, v.mem ++ x⟩ ∧
      (v.len < v.cap → p = v.ptr ∧ k = v.cap ∧ h' = w.heap) ∧
      (v.len = v.cap → k = P.grow w.heap (Γ.layout t) v.cap (v.len + 1)) := by
  have hbytes : v.mem ++ x = (es ++ [x]).flatten := by simp [R.mem]
  have heach : ∀ e ∈ es ++ [x], e.length = Γ.size t := by
    intro e he; simp at he; rcases he with he | rfl
    · exact R.each e he
    · exact hx
  have hlen : v.len + 1 = (es ++ [x]).length := by simp [R.len]
  have hl := R.len
  have hcp := R.cap_pos
  by_cases hfull : v.len = v.cap
  · have hroom := hroom hfull
    obtain ⟨i, hp, hlv⟩ := R.block
    have hge := P.grow_ge w.heap (Γ.layout t) v.cap (v.len + 1)
    have hg := RVec.growP_ok (P := P) (T := Γ.layout t) (v := v.typedView) (w := w) (n := 1) (i := i)
      (by have := R.pos; simp only; omega) (by simp only [VecVoid.typedView]; omega) hp hlv hroom
    simp only [show v.typedView.cap = v.cap from rfl, show v.typedView.len = v.len from rfl] at hg
    generalize P.grow w.heap (Γ.layout t) v.cap (v.len + 1) = k at *
    have hne : (⟨k * Γ.size t, Γ.align t⟩ : Layout).size ≠ 0 :=
      Nat.mul_ne_zero (by omega) (by have := R.pos; omega)
    have hal := Heap.alloc_live (h := w.heap.free i) hne
    refine ⟨_, k, _, ?_, ⟨⟨R.type_id, R.chunks, R.align, R.pos, hbytes, heach, hlen, hge,
      by simp only; omega, hroom, _, hal.1, hal.2⟩, ?_, by simp only; omega, by simp only; omega⟩,
      fun h => by omega, fun _ => rfl⟩
    · simp only [RVec.pushP, M.bind_run, M.get_run]
      rw [if_pos (show v.typedView.len = v.typedView.cap from hfull), M.bind_ok hg]
      rfl
    · rw [hp]; exact Realloc.of_free_alloc wf hlv hne
  · have hle := R.len_le
    refine ⟨v.ptr, v.cap, w.heap, ?_, ⟨⟨R.type_id, R.chunks, R.align, R.pos, hbytes, heach, hlen,
      by simp only; omega, hcp, R.room, R.block⟩, Realloc.refl wf _, Nat.le_refl _, by simp only; omega⟩,
      fun _ => ⟨rfl, rfl, rfl⟩, fun h => absurd h hfull⟩
    simp only [RVec.pushP, M.bind_run, M.get_run]
    rw [if_neg (show ¬ v.typedView.len = v.typedView.cap from hfull)]
    rfl

/-! ### C92 `push_as` -/

/-- `push_as` grows in whole elements, so it works with every choice of capacities: it succeeds whenever the
choice fits into the address space. -/
theorem C92_veccopy_push_as (P : VecPolicy) (R : Repr Γ w.heap t es c.data) (wf : w.heap.WF) {x : Bytes}
    (hx : x.length = Γ.size t)
    (hroom : es.length = c.data.cap → Room Γ t (P.grow w.heap (Γ.layout t) c.data.cap (es.length + 1))) :
    ∃ d h', VecCopy.pushAsP P Γ cfg t x (c, w) = (.ok (some ()), ({ c with data := d }, { w with heap := h' })) ∧
      GrowsTo Γ t (es.length + 1) (es ++ [x]) w.heap c.data h' d ∧
      (es.length < c.data.cap → d.ptr = c.data.ptr ∧ d.cap = c.data.cap ∧ h' = w.heap) ∧
      (es.length = c.data.cap → d.cap = P.grow w.heap (Γ.layout t) c.data.cap (es.length + 1)) := by
  have hl := R.len
  rw [← hl] at hroom ⊢
  obtain ⟨p, k, h', hrun, hg, hfit, hgr⟩ := RVec.pushP_typed (P := P) R wf hx hroom
  rw [← hl] at hg
  refine ⟨_, h', ?_, hg, hfit, hgr⟩
  have := applyUncheckedP_ok (P := P) (cfg := cfg) R (RVec.pushOwnedP_ok hrun) hg.repr.cap_pos
  simp only [VecCopy.pushAsP, M.bind_run, getSelf_run, VecCopy.checkRef_some R, VecCopy.onData_run, this, M.pure_run]

/-- If the choice does not fit, `push_as` panics; the content is lost and the buffer is freed. -/
theorem C92_veccopy_push_as_full (P : VecPolicy) (R : Repr Γ w.heap t es c.data) {x : Bytes}
    (hcopy : ∀ b u, Γ.drop t b u = (.ok (), u)) (hfull : es.length = c.data.cap)
    (hroom : ¬ Room Γ t (P.grow w.heap (Γ.layout t) c.data.cap (es.length + 1))) :
    ∃ i, c.data.ptr = some i ∧ VecCopy.pushAsP P Γ cfg t x (c, w) =
      (.panic .capacity, (c.lost Γ, { w with heap := w.heap.free i })) := by
  obtain ⟨i, hp, hd⟩ := dropTyped_plain hcopy R
  refine ⟨i, hp, ?_⟩
  have hl := R.len
  rw [← hl] at hfull hroom
  have hpush : RVec.pushP P (Γ.layout t) x (c.data.typedView, w) = (.panic .capacity, (c.data.typedView, w)) := by
    simp only [RVec.pushP, M.bind_run, M.get_run]
    rw [if_pos (show c.data.typedView.len = c.data.typedView.cap from hfull)]
    rw [M.bind_panic (RVec.growP_full ?_)]
    unfold Room at hroom
    simp only [VecVoid.typedView]; omega
  have hown : RVec.pushOwnedP P Γ t x (c.data.typedView, w) = (.panic .capacity, (c.data.typedView, w)) := by
    simp [RVec.pushOwnedP, M.onUnwind, hpush, M.unwindDrop, hcopy]
  simp only [VecCopy.pushAsP, M.bind_run, getSelf_run, VecCopy.checkRef_some R, VecCopy.onData_run,
    VecVoid.applyUncheckedP, setSelf_run, R.intoVec, onWorld_run]
  rw [withLocal_panic hown hd]
  rfl

/-! ### C92 `resize` -/

theorem repeat_pushAsP (R : Repr Γ w.heap t es c.data) (wf : w.heap.WF) {x : Bytes}
    (hx : x.length = Γ.size t) (n : Nat) (hcap : es.length + n ≤ c.data.cap) :
    M.repeatN n (do let _ ← VecCopy.pushAsP P Γ cfg t x; pure ()) (c, w) =
      (.ok (), ({ c with data := ⟨c.data.ptr, es.length + n, c.data.cap, c.data.elem,
        (es ++ List.replicate n x).flatten⟩ }, w)) := by
  induction n generalizing es c with
  | zero =>
    obtain ⟨⟨p, l, k, e, m⟩, vt⟩ := c
    have h1 := R.len; have h2 := R.mem
    simp only at h1 h2
    simp [M.repeatN, h1, h2]
  | succ n ih =>
    have hl := R.len
    obtain ⟨p, k, h', hrun, hg, hfit, -⟩ := RVec.pushP_typed (P := P) R wf hx (fun h => by omega)
    obtain ⟨rfl, rfl, rfl⟩ := hfit (by omega)
    have hap := applyUncheckedP_ok (P := P) (cfg := cfg) R (RVec.pushOwnedP_ok hrun) hg.repr.cap_pos
    have hrun' : VecCopy.pushAsP P Γ cfg t x (c, w) = (.ok (some ()), ({ c with data :=
        ⟨c.data.ptr, es.length + 1, c.data.cap, c.data.elem, (es ++ [x]).flatten⟩ }, w)) := by
      simp only [VecCopy.pushAsP, M.bind_run, getSelf_run, VecCopy.checkRef_some R, VecCopy.onData_run, hap, M.pure_run]
      simp [R.mem, hl]
    have R' : Repr Γ w.heap t (es ++ [x]) ({ c with data :=
        ⟨c.data.ptr, es.length + 1, c.data.cap, c.data.elem, (es ++ [x]).flatten⟩ } : VecCopy V).data := by
      have := R.setContent (es' := es ++ [x]) (by simp; omega) hg.repr.each
      simpa using this
    simp only [M.repeatN]
    rw [M.bind_ok (s' := ({ c with data :=
        ⟨c.data.ptr, es.length + 1, c.data.cap, c.data.elem, (es ++ [x]).flatten⟩ }, w)) (a := ())]
    · rw [ih R' (by simp; omega)]
      simp [List.replicate_succ, Nat.add_assoc, Nat.add_comm 1 n]
    · rw [M.bind_ok hrun']; rfl

theorem GrowsTo.fill {h h' : Heap} {d : VecVoid} {need : Nat} (g : GrowsTo Γ t need es h v h' d)
    (he : ∀ e ∈ es', e.length = Γ.size t) (hn : es'.length ≤ need) :
    GrowsTo Γ t need es' h v h' ⟨d.ptr, es'.length, d.cap, d.elem, es'.flatten⟩ :=
  ⟨g.repr.setContent (Nat.le_trans hn g.need_le) he, g.realloc, g.cap_le, g.need_le⟩

/-- `resize` to a length that fits: no choice is made. -/
theorem C92_veccopy_resize_fits (P : VecPolicy) (R : Repr Γ w.heap t es c.data) (wf : w.heap.WF) {n : Nat} {x : Bytes}
    (hx : x.length = Γ.size t) (hn : n ≤ c.data.cap) :
    ∃ d, VecCopy.resizeP P Γ cfg t n x (c, w) = (.ok (some ()), ({ c with data := d }, w)) ∧
      Repr Γ w.heap t (es.take n ++ List.replicate (n - es.length) x) d ∧ d.ptr = c.data.ptr ∧ d.cap = c.data.cap := by
  have hl := R.len
  by_cases hle : es.length ≤ n
  · have e1 : es.length + (n - es.length) = n := by omega
    have hres := C92_veccopy_reserve_fits (cfg := cfg) P R (n := n - es.length) (by omega)
    have hpush := repeat_pushAsP (P := P) (cfg := cfg) R wf hx (n - es.length) (by omega)
    refine ⟨⟨c.data.ptr, n, c.data.cap, c.data.elem, (es ++ List.replicate (n - es.length) x).flatten⟩, ?_, ?_, rfl, rfl⟩
    · simp only [VecCopy.reserveP] at hres
      simp only [VecCopy.resizeP, M.bind_run, getSelf_run, VecCopy.checkRef_some R, VecCopy.len, hl, if_pos hle]
      rw [hres]
      simp only [hpush, M.pure_run, e1]
    · rw [List.take_of_length_le hle]
      have := R.setContent (es' := es ++ List.replicate (n - es.length) x) (by simp; omega) (by
        intro e he
        rcases List.mem_append.1 he with he | he
        · exact R.each e he
        · rw [List.eq_of_mem_replicate he]; exact hx)
      simpa [e1] using this
  · have hlt : n < es.length := by omega
    have e0 : n - es.length = 0 := by omega
    have := R.setContent (es' := es.take n) (by simp; have := R.len_cap; omega)
      (fun e he => R.each e (List.mem_of_mem_take he))
    have e2 : (es.take n).length = n := by simp; omega
    rw [e2] at this
    refine ⟨⟨c.data.ptr, n, c.data.cap, c.data.elem, (es.take n).flatten⟩, ?_, by simpa [e0] using this, rfl, rfl⟩
    simp only [VecCopy.resizeP, M.bind_run, getSelf_run, VecCopy.checkRef_some R, VecCopy.len, hl, if_neg hle,
      VecCopy.onData_run, VecVoid.truncate_spec R (n := n) (by omega), M.pure_run]

/-- `resize` that has to grow: as `reserve`. -/
theorem C92_veccopy_resize (P : VecPolicy) (R : Repr Γ w.heap t es c.data) (wf : w.heap.WF) {n : Nat} {x : Bytes}
    (hx : x.length = Γ.size t) (hn : c.data.cap < n) (hroom : Room Γ t n) :
    let k := P.unitCap Γ w.heap t c.data.cap n
    (UnitRoom Γ t k → unitsPer Γ t ∣ k →
      ∃ d h', VecCopy.resizeP P Γ cfg t n x (c, w) =
          (.ok (some ()), ({ c with data := d }, { w with heap := h' })) ∧
        GrowsTo Γ t n (es ++ List.replicate (n - es.length) x) w.heap c.data h' d ∧ d.cap * unitsPer Γ t = k) ∧
    (UnitRoom Γ t k → ¬ unitsPer Γ t ∣ k →
      ∃ i h', VecCopy.resizeP P Γ cfg t n x (c, w) =
          (.panic .assertion, (c.lost Γ, { w with heap := h' })) ∧
        Realloc w.heap c.data.ptr h' (some i) ∧ h'.live i = some ⟨k * Γ.align t, Γ.align t⟩) ∧
    (¬ UnitRoom Γ t k →
      ∃ i, c.data.ptr = some i ∧ VecCopy.resizeP P Γ cfg t n x (c, w) =
          (.panic .capacity, (c.lost Γ, { w with heap := w.heap.free i }))) := by
  have hl := R.len
  have hlc := R.len_cap
  have hle : es.length ≤ n := by omega
  have e1 : es.length + (n - es.length) = n := by omega
  obtain ⟨a, b, d⟩ := C92_veccopy_reserve (cfg := cfg) P R wf (n := n - es.length) (by omega) (by rw [e1]; exact hroom)
  simp only [e1, VecCopy.reserveP] at a b d
  have hstart : VecCopy.resizeP P Γ cfg t n x (c, w) =
      (do VecCopy.onData (VecVoid.reserveP P Γ cfg (n - es.length))
          M.repeatN (n - es.length) (do let _ ← VecCopy.pushAsP P Γ cfg t x; pure ())
          pure (some ()) : M (VecCopy V × World U) (Option Unit)) (c, w) := by
    simp only [VecCopy.resizeP, M.bind_run, getSelf_run, VecCopy.checkRef_some R, VecCopy.len, hl, if_pos hle]
  refine ⟨fun hfit hd => ?_, fun hfit hd => ?_, fun hfit => ?_⟩
  · obtain ⟨d, h', hrun, hg, hk⟩ := a hfit hd
    have hpush := repeat_pushAsP (P := P) (cfg := cfg) (c := { c with data := d }) (w := { w with heap := h' })
      hg.repr hg.realloc.wf hx (n - es.length) (by have := hg.need_le; simp only; omega)
    have hg' := hg.fill (es' := es ++ List.replicate (n - es.length) x) (by
        intro e he
        rcases List.mem_append.1 he with he | he
        · exact R.each e he
        · rw [List.eq_of_mem_replicate he]; exact hx) (by simp; omega)
    have e2 : (es ++ List.replicate (n - es.length) x).length = n := by simp; omega
    rw [e2] at hg'
    refine ⟨_, h', ?_, hg', hk⟩
    rw [hstart, M.bind_ok hrun, M.bind_ok hpush]
    simp only [e1, M.pure_run]
  · obtain ⟨i, h', hrun, hre⟩ := b hfit hd
    exact ⟨i, h', by rw [hstart, M.bind_panic hrun], hre⟩
  · obtain ⟨i, hp, hrun⟩ := d hfit
    exact ⟨i, hp, by rw [hstart, M.bind_panic hrun]⟩

/-! ### C92 Constructors -/

/-- `from_vec`: an empty `Vec` without a buffer is made to allocate (one choice of capacity); any other is taken
as it is. -/
theorem C92_veccopy_from_vec (P : VecPolicy) {rv : RVec} (hv : IsVec Γ w.heap t es rv) (wf : w.heap.WF)
    (hpos : 0 < Γ.size t) (hroom : rv.cap = 0 → Room Γ t (P.grow w.heap (Γ.layout t) 0 1)) :
    ∃ d h', VecCopy.fromVecP P Γ t vt rv w = (.ok ⟨d, vt⟩, { w with heap := h' }) ∧ Repr Γ h' t es d ∧
      Realloc w.heap rv.ptr h' d.ptr ∧ rv.cap ≤ d.cap ∧
      (0 < rv.cap → d.ptr = rv.ptr ∧ d.cap = rv.cap ∧ h' = w.heap) := by
  have hne : Γ.size t ≠ 0 := by omega
  have hch : Γ.size t / Γ.align t * Γ.align t = Γ.size t := Nat.div_mul_cancel (Γ.align_dvd t)
  have has : withLocal rv (RVec.dropTyped Γ t) (M.assert (Γ.size t != 0)) w = (.ok ((), rv), w) := by
    apply withLocal_ok
    have : (Γ.size t != 0) = true := by simpa using hne
    rw [this]; rfl
  by_cases hc : rv.cap = 0
  · have hroom := hroom hc
    have hlen : rv.len = 0 := by have := hv.len_le; omega
    have hp : rv.ptr = none := by
      rcases hv.block with ⟨_, hp⟩ | ⟨h, _⟩
      · exact hp
      · omega
    have hge := P.grow_ge w.heap (Γ.layout t) 0 1
    have hgrow : RVec.reserveP P (Γ.layout t) 1 (rv, w) = (.ok (),
        ({ rv with ptr := (w.heap.alloc ⟨P.grow w.heap (Γ.layout t) 0 1 * Γ.size t, Γ.align t⟩).1,
                   cap := P.grow w.heap (Γ.layout t) 0 1 },
          { w with heap := (w.heap.alloc ⟨P.grow w.heap (Γ.layout t) 0 1 * Γ.size t, Γ.align t⟩).2 })) := by
      have h1 : ¬ usizeMax < 0 + 1 := by decide
      unfold Room at hroom
      simp only [RVec.reserveP, M.bind_run, M.get_run, hc, hlen, Nat.sub_zero, Nat.lt_one_iff,
        if_true, RVec.growP, h1, hne, if_false, Nat.zero_add, Nat.not_lt.2 hroom, onHeap_run, realloc,
        hp, dealloc, Nat.zero_mul, allocM_run, M.modify_run]
    generalize P.grow w.heap (Γ.layout t) 0 1 = k at *
    have hl : (⟨k * Γ.size t, Γ.align t⟩ : Layout).size ≠ 0 := Nat.mul_ne_zero (by omega) hne
    have hvalid : VecVoid.intoValidVecP P (Γ.layout t) (rv, w) = RVec.reserveP P (Γ.layout t) 1 (rv, w) := by
      simp only [VecVoid.intoValidVecP, M.bind_run, getSelf_run, hc, if_true]
    rw [hgrow] at hvalid
    refine ⟨⟨(w.heap.alloc ⟨k * Γ.size t, Γ.align t⟩).1, rv.len, k, ElemInfo.new Γ t, rv.bytes⟩,
      (w.heap.alloc ⟨k * Γ.size t, Γ.align t⟩).2, ?_, ?_, ?_, by simp only; omega, fun h => by omega⟩
    · simp only [VecCopy.fromVecP, M.bind_run, has, VecVoid.fromVecP]
      rw [withLocal_ok hvalid]
      rfl
    · exact ⟨rfl, hch, rfl, hpos, hv.bytes, hv.each, hv.len, by simp only; omega, by simp only; omega, hroom, _,
        (Heap.alloc_live hl).1, (Heap.alloc_live hl).2⟩
    · rw [hp]; exact Realloc.ofAlloc wf _
  · refine ⟨⟨rv.ptr, rv.len, rv.cap, ElemInfo.new Γ t, rv.bytes⟩, w.heap, ?_, ?_, Realloc.refl wf _, Nat.le_refl _,
      fun _ => ⟨rfl, rfl, rfl⟩⟩
    · simp only [VecCopy.fromVecP, M.bind_run, has, VecVoid.fromVecP_pos (P := P) (by omega : 0 < rv.cap), M.pure_run]
    · refine ⟨rfl, hch, rfl, hpos, hv.bytes, hv.each, hv.len, hv.len_le, by simp only; omega, hv.room, ?_⟩
      rcases hv.block with ⟨h, _⟩ | h
      · omega
      · exact h.2

theorem withCapacityP_isVec {n : Nat} (wf : w.heap.WF) (hpos : 0 < Γ.size t)
    (hroom : Room Γ t (P.initial w.heap (Γ.layout t) n)) :
    ∃ p h', RVec.withCapacityP P (Γ.layout t) n w =
        (.ok ⟨p, 0, P.initial w.heap (Γ.layout t) n, []⟩, { w with heap := h' }) ∧
      Realloc w.heap none h' p ∧
      ∀ xs : List Bytes, (∀ x ∈ xs, x.length = Γ.size t) → xs.length ≤ P.initial w.heap (Γ.layout t) n →
        IsVec Γ h' t xs ⟨p, xs.length, P.initial w.heap (Γ.layout t) n, xs.flatten⟩ := by
  have hne : Γ.size t ≠ 0 := by omega
  refine ⟨_, _, ?_, Realloc.ofAlloc wf ⟨P.initial w.heap (Γ.layout t) n * Γ.size t, Γ.align t⟩, ?_⟩
  · unfold Room at hroom
    simp only [RVec.withCapacityP, hne, if_false, if_pos hroom]
  · intro xs hx hxl
    refine ⟨rfl, hx, rfl, hxl, hroom, ?_⟩
    generalize P.initial w.heap (Γ.layout t) n = k at *
    by_cases h0 : k = 0
    · left; simp [h0, Heap.alloc]
    · right
      have hl : (⟨k * Γ.size t, Γ.align t⟩ : Layout).size ≠ 0 := Nat.mul_ne_zero h0 hne
      exact ⟨Nat.pos_of_ne_zero h0, _, (Heap.alloc_live hl).1, (Heap.alloc_live hl).2⟩

/-- `with_capacity(n)` gives an empty container with room for `n` elements, for every choice of capacities that
fits into the address space. -/
theorem C92_veccopy_with_capacity (P : VecPolicy) {n : Nat} (wf : w.heap.WF) (hpos : 0 < Γ.size t)
    (hroom : Room Γ t (P.initial w.heap (Γ.layout t) n)) (hroom' : ∀ h, Room Γ t (P.grow h (Γ.layout t) 0 1)) :
    ∃ d h', VecCopy.withCapacityP P Γ t vt n w = (.ok ⟨d, vt⟩, { w with heap := h' }) ∧ Repr Γ h' t [] d ∧
      Realloc w.heap none h' d.ptr ∧ n ≤ d.cap := by
  obtain ⟨p, h1, hrun, hre, hv⟩ := withCapacityP_isVec wf hpos hroom
  have hv := hv [] (by simp) (Nat.zero_le _)
  obtain ⟨d, h2, hrun2, hR, hre2, hc, -⟩ := C92_veccopy_from_vec (vt := vt) (w := { w with heap := h1 }) P hv hre.wf hpos
    (fun _ => hroom' _)
  have := P.initial_ge w.heap (Γ.layout t) n
  refine ⟨d, h2, ?_, hR, Realloc.trans wf (fun i hi => by cases hi) hre hre2, by simp only at hc; omega⟩
  simp only [VecCopy.withCapacityP, M.bind_run, hrun]
  exact hrun2

/-- `with_type()` likewise. -/
theorem C92_veccopy_with_type (P : VecPolicy) (wf : w.heap.WF) (hpos : 0 < Γ.size t)
    (hroom : Room Γ t (P.grow w.heap (Γ.layout t) 0 1)) :
    ∃ d h', VecCopy.withTypeP P Γ t vt w = (.ok ⟨d, vt⟩, { w with heap := h' }) ∧ Repr Γ h' t [] d ∧
      Realloc w.heap none h' d.ptr := by
  have hne : Γ.size t ≠ 0 := by omega
  have e : RVec.new (Γ.layout t) = ⟨none, 0, 0, []⟩ := by simp [RVec.new, hne]
  have hal := Γ.size_le t
  have hv : IsVec Γ w.heap t [] (RVec.new (Γ.layout t)) := by
    rw [e]
    refine ⟨rfl, by simp, rfl, Nat.le_refl _, ?_, .inl ⟨rfl, rfl⟩⟩
    have hdvd := Γ.align_dvd t
    have := Nat.le_of_dvd hpos hdvd
    unfold Room; simp only; omega
  obtain ⟨d, h', hrun, hR, hre, -, -⟩ := C92_veccopy_from_vec (vt := vt) P hv wf hpos (fun _ => hroom)
  rw [show (RVec.new (Γ.layout t)).ptr = none from rfl] at hre
  exact ⟨d, h', hrun, hR, hre⟩

/-- `from_slice(xs)` gives a container with exactly the elements of the slice, for every choice of capacities that
fits. -/
theorem C92_veccopy_from_slice (P : VecPolicy) {xs : List Bytes} (wf : w.heap.WF) (hpos : 0 < Γ.size t)
    (hx : ∀ x ∈ xs, x.length = Γ.size t) (hroom : Room Γ t (P.initial w.heap (Γ.layout t) xs.length))
    (hroom' : ∀ h, Room Γ t (P.grow h (Γ.layout t) 0 1)) :
    ∃ d h', VecCopy.fromSliceP P Γ t vt xs w = (.ok ⟨d, vt⟩, { w with heap := h' }) ∧ Repr Γ h' t xs d ∧
      Realloc w.heap none h' d.ptr := by
  obtain ⟨p, h1, hrun, hre, hv⟩ := withCapacityP_isVec wf hpos hroom
  have hge := P.initial_ge w.heap (Γ.layout t) xs.length
  have hv := hv xs hx hge
  obtain ⟨d, h2, hrun2, hR, hre2, -, -⟩ := C92_veccopy_from_vec (vt := vt) (w := { w with heap := h1 }) P hv hre.wf hpos
    (fun _ => hroom' _)
  refine ⟨d, h2, ?_, hR, Realloc.trans wf (fun i hi => by cases hi) hre hre2⟩
  have hwl := withLocal_ok (U := U) (d := RVec.dropTyped Γ t) (w := { w with heap := h1 })
    (x := ⟨p, 0, P.initial w.heap (Γ.layout t) xs.length, []⟩)
    (m := RVec.extendFromSliceP P (Γ.layout t) xs.length xs.flatten) (a := ())
    (x' := ⟨p, xs.length, P.initial w.heap (Γ.layout t) xs.length, xs.flatten⟩)
    (w' := { w with heap := h1 }) (by
      unfold RVec.extendFromSliceP
      rw [M.bind_ok (RVec.reserveP_fit (by simpa using hge))]
      simp)
  simp only [VecCopy.fromSliceP, M.bind_run, hrun, hwl]
  exact hrun2

/-- `with_size(n, x)` likewise. -/
theorem C92_veccopy_with_size (P : VecPolicy) {n : Nat} {x : Bytes} (wf : w.heap.WF) (hpos : 0 < Γ.size t)
    (hx : x.length = Γ.size t) (hroom : Room Γ t (P.initial w.heap (Γ.layout t) n))
    (hroom' : ∀ h, Room Γ t (P.grow h (Γ.layout t) 0 1)) :
    ∃ d h', VecCopy.withSizeP P Γ t vt n x w = (.ok ⟨d, vt⟩, { w with heap := h' }) ∧
      Repr Γ h' t (List.replicate n x) d ∧ Realloc w.heap none h' d.ptr := by
  obtain ⟨p, h1, hrun, hre, hv⟩ := withCapacityP_isVec wf hpos hroom
  have hv := hv (List.replicate n x) (fun y hy => by rw [List.eq_of_mem_replicate hy]; exact hx)
    (by simpa using P.initial_ge w.heap (Γ.layout t) n)
  rw [List.length_replicate] at hv
  obtain ⟨d, h2, hrun2, hR, hre2, -, -⟩ := C92_veccopy_from_vec (vt := vt) (w := { w with heap := h1 }) P hv hre.wf hpos
    (fun _ => hroom' _)
  refine ⟨d, h2, ?_, hR, Realloc.trans wf (fun i hi => by cases hi) hre hre2⟩
  simp only [VecCopy.withSizeP, M.bind_run, hrun]
  exact hrun2

/-! ### C92 Harmless choices -/

/-- The choices of `Vec` never split an element of type `t`: because they keep whole numbers whole, or because
the elements are as large as their alignment (one unit). -/
def Harmless (P : VecPolicy) (Γ : TyEnv U) (t : TyId) : Prop := P.Whole ∨ Γ.size t = Γ.align t

theorem Harmless.dvd (hP : Harmless P Γ t) (hpos : 0 < Γ.size t) (h : Heap) {cap need : Nat} (hn : cap < need) :
    unitsPer Γ t ∣ P.unitCap Γ h t cap need := by
  rcases hP with hP | hP
  · have h0 : 0 < unitsPer Γ t := Nat.div_pos (Nat.le_of_dvd hpos (Γ.align_dvd t)) (align_pos Γ t)
    exact hP.1 _ _ _ _ _ (Nat.dvd_mul_left _ _) (Nat.dvd_mul_left _ _) (Nat.mul_lt_mul_of_pos_right hn h0)
  · have : unitsPer Γ t = 1 := by unfold unitsPer; rw [hP]; exact Nat.div_self (align_pos Γ t)
    rw [this]; exact Nat.one_dvd _

theorem Harmless.dvd_initial (hP : Harmless P Γ t) (h : Heap) (n : Nat) :
    unitsPer Γ t ∣ P.initial h (unitLayout Γ t) (n * unitsPer Γ t) := by
  rcases hP with hP | hP
  · exact hP.2 _ _ _ _ (Nat.dvd_mul_left _ _)
  · have : unitsPer Γ t = 1 := by unfold unitsPer; rw [hP]; exact Nat.div_self (align_pos Γ t)
    rw [this]; exact Nat.one_dvd _

/-- With harmless choices `reserve`, `resize`, `append`, `clone` and `with_type_from` never fail except for want of
address space. -/
theorem C92_harmless_reserve (hP : Harmless P Γ t) (R : Repr Γ w.heap t es c.data) (wf : w.heap.WF) {n : Nat}
    (hroom : Room Γ t (es.length + n))
    (hfit : UnitRoom Γ t (P.unitCap Γ w.heap t c.data.cap (es.length + n))) :
    ∃ d h', VecCopy.reserveP P Γ cfg n (c, w) = (.ok (), ({ c with data := d }, { w with heap := h' })) ∧
      GrowsTo Γ t (es.length + n) es w.heap c.data h' d := by
  by_cases hn : c.data.cap < es.length + n
  · obtain ⟨d, h', hrun, hg, -⟩ := (C92_veccopy_reserve (cfg := cfg) P R wf hn hroom).1 hfit (hP.dvd R.pos _ hn)
    exact ⟨d, h', hrun, hg⟩
  · exact ⟨c.data, w.heap, C92_veccopy_reserve_fits P R (by omega), R, Realloc.refl wf _, Nat.le_refl _, by omega⟩

theorem C92_harmless_resize (hP : Harmless P Γ t) (R : Repr Γ w.heap t es c.data) (wf : w.heap.WF) {n : Nat} {x : Bytes}
    (hx : x.length = Γ.size t) (hroom : Room Γ t n) (hfit : UnitRoom Γ t (P.unitCap Γ w.heap t c.data.cap n)) :
    ∃ d h', VecCopy.resizeP P Γ cfg t n x (c, w) =
        (.ok (some ()), ({ c with data := d }, { w with heap := h' })) ∧
      GrowsTo Γ t n (es.take n ++ List.replicate (n - es.length) x) w.heap c.data h' d := by
  have hlc := R.len_cap
  by_cases hn : c.data.cap < n
  · obtain ⟨d, h', hrun, hg, -⟩ := (C92_veccopy_resize (cfg := cfg) P R wf hx hn hroom).1 hfit (hP.dvd R.pos _ hn)
    rw [List.take_of_length_le (by omega)]
    exact ⟨d, h', hrun, hg⟩
  · obtain ⟨d, hrun, hR, hp, hc⟩ := C92_veccopy_resize_fits (cfg := cfg) P R wf hx (by omega : n ≤ c.data.cap)
    exact ⟨d, w.heap, hrun, hR, by rw [hp]; exact Realloc.refl wf _, by omega, by omega⟩

theorem C92_harmless_append {w : World (VecCopy V × U)} (hP : Harmless P Γ t) (R : Repr Γ w.heap t es c.data)
    (Ro : Repr Γ w.heap t es' w.user.1.data) (wf : w.heap.WF) (hne : c.data.ptr ≠ w.user.1.data.ptr)
    (hn : c.data.cap < es.length + es'.length)
    (hfit : UnitRoom Γ t (P.unitCap Γ w.heap t c.data.cap (es.length + es'.length))) :
    ∃ d h', VecCopy.appendP P Γ cfg (c, w) = (.ok (some ()), ({ c with data := d },
        ⟨h', ({ w.user.1 with data := ⟨w.user.1.data.ptr, 0, w.user.1.data.cap, w.user.1.data.elem, []⟩ },
          w.user.2)⟩)) ∧
      GrowsTo Γ t (es.length + es'.length) (es ++ es') w.heap c.data h' d := by
  obtain ⟨d, h', hrun, hg, -⟩ := (C92_veccopy_append (cfg := cfg) P R Ro wf hne hn).1 hfit (hP.dvd R.pos _ hn)
  exact ⟨d, h', hrun, hg⟩

theorem C92_harmless_clone (hP : Harmless P Γ t) (R : Repr Γ w.heap t es c.data) (wf : w.heap.WF)
    (hfit : UnitRoom Γ t (P.initial w.heap (unitLayout Γ t) (c.data.cap * unitsPer Γ t))) :
    ∃ d h', VecCopy.cloneP P cfg c w = (.ok ⟨d, c.vtable⟩, { w with heap := h' }) ∧
      Repr Γ h' t es d ∧ Repr Γ h' t es c.data ∧ Realloc w.heap none h' d.ptr := by
  obtain ⟨d, h', hrun, h1, h2, h3, -⟩ := (C92_veccopy_clone (cfg := cfg) P R wf).1 hfit (hP.dvd_initial _ _)
  exact ⟨d, h', hrun, h1, h2, h3⟩

theorem C92_harmless_with_type_from (hP : Harmless P Γ t) {m : Meta V} (hm : m.elem = ElemInfo.new Γ t)
    (hpos : 0 < Γ.size t) (wf : w.heap.WF)
    (hfit : UnitRoom Γ t (P.initial w.heap (unitLayout Γ t) (unitsPer Γ t))) :
    ∃ d h', VecCopy.withTypeFromP P m w = (.ok ⟨d, m.vtable⟩, { w with heap := h' }) ∧
      Repr Γ h' t [] d ∧ Realloc w.heap none h' d.ptr := by
  have := hP.dvd_initial w.heap 1
  rw [Nat.one_mul] at this
  obtain ⟨d, h', hrun, h1, h2, -⟩ := (C92_veccopy_with_type_from P hm hpos wf).1 hfit this
  exact ⟨d, h', hrun, h1, h2⟩

/-- Growing to exactly what is needed, or to twice the old capacity if that is more, is harmless: the amortised
policy of `Vec` without its minimum of 8, 4 or 1 elements. -/
def VecPolicy.doubling : VecPolicy :=
  ⟨fun _ _ cap need => max (cap * 2) need, fun _ _ n => n, fun _ _ _ _ => Nat.le_max_right _ _, fun _ _ _ => Nat.le_refl _⟩

theorem C92_doubling_whole : VecPolicy.doubling.Whole := by
  refine ⟨fun h T cap need s h1 h2 _ => ?_, fun h T n s h => h⟩
  show s ∣ max (cap * 2) need
  rcases Nat.le_total (cap * 2) need with hle | hle
  · rw [Nat.max_eq_right hle]; exact h2
  · rw [Nat.max_eq_left hle]; exact Nat.dvd_mul_right_of_dvd h1 2

/-- The choices of the current standard library split an element in exactly one case (`BadGrowth`). -/
theorem C92_std_splits_iff {h : Heap} (R : Repr Γ h t es v) {need : Nat} (hn : v.cap < need) :
    ¬ unitsPer Γ t ∣ VecPolicy.std.unitCap Γ h t v.cap need ↔ BadGrowth Γ t v.cap need := by
  have hu := R.units
  have hs : 0 < unitsPer Γ t := by rw [← hu]; exact R.chunk_pos
  have hch := R.chunks
  rw [hu] at hch
  constructor
  · intro hd
    by_cases hb : Γ.align t = 1 ∧ unitsPer Γ t = 3 ∧ v.cap = 1 ∧ need = 2
    · exact ⟨by rw [← hch, hb.2.1, hb.1], hb.1, hb.2.2⟩
    · obtain ⟨q, hq, -⟩ := grownCap_mul (a := Γ.align t) hs R.cap_pos hn hb
      refine absurd ?_ hd
      have : VecPolicy.std.unitCap Γ h t v.cap need = q * unitsPer Γ t := hq
      rw [this]; exact Nat.dvd_mul_left _ _
  · rintro ⟨h1, h2, h3, h4⟩ hd
    have hu3 : unitsPer Γ t = 3 := by rw [h2, h1] at hch; omega
    have : VecPolicy.std.unitCap Γ h t v.cap need = 8 := by
      simp only [VecPolicy.unitCap, VecPolicy.std, unitLayout, RVec.grownCap, RVec.minNonZeroCap, h2, h3, h4, hu3, if_true]
      rfl
    rw [this, hu3] at hd
    revert hd; decide

/-! ### C92 The promise of `Vec` alone is not enough -/

/-- The unrestricted claim: with any choice of capacities that keeps `Vec`'s documented promise, `reserve` succeeds
whenever the choice fits into the address space. -/
def ReserveNeedsOnlyPromise : Prop := ∀ (U V : Type) (Γ : TyEnv U) (P : VecPolicy) (t : TyId) (es : List Bytes) (c : VecCopy V)
  (w : World U) (cfg : Cfg) (n : Nat), Repr Γ w.heap t es c.data → w.heap.WF → Room Γ t (es.length + n) →
  UnitRoom Γ t (P.unitCap Γ w.heap t c.data.cap (es.length + n)) →
  ∃ s, VecCopy.reserveP P Γ cfg n (c, w) = (.ok (), s)

/-- The same for `clone`. -/
def CloneNeedsOnlyPromise : Prop := ∀ (U V : Type) (Γ : TyEnv U) (P : VecPolicy) (t : TyId) (es : List Bytes) (c : VecCopy V)
  (w : World U) (cfg : Cfg), Repr Γ w.heap t es c.data → w.heap.WF →
  UnitRoom Γ t (P.initial w.heap (unitLayout Γ t) (c.data.cap * unitsPer Γ t)) →
  ∃ d w', VecCopy.cloneP P cfg c w = (.ok d, w')

/-- A standard library that always leaves room for one more than asked for. -/
def VecPolicy.oneMore : VecPolicy :=
  ⟨fun _ _ _ need => need + 1, fun _ _ n => n + 1, fun _ _ _ _ => Nat.le_succ _, fun _ _ _ => Nat.le_succ _⟩

/-- One `(u32, u32)` in a container of capacity 1. -/
def Ex.pair1 : VecCopy Unit := ⟨Ex.vec 4 [Ex.a1 ++ Ex.a2] 1, ()⟩

theorem Ex.pair1_repr : Repr Ex.env (Ex.world 4 1).heap 4 [Ex.a1 ++ Ex.a2] Ex.pair1.data :=
  Ex.vec_repr (by decide) (by decide) (by decide) (by decide) (by unfold Room; decide)

theorem C92_reserve_needs_more : ¬ ReserveNeedsOnlyPromise := by
  intro h
  obtain ⟨s, hs⟩ := h _ _ Ex.env VecPolicy.oneMore 4 _ Ex.pair1 (Ex.world 4 1) ⟨false⟩ 1 Ex.pair1_repr
    (Ex.oneHeap_wf _) (by unfold Room; decide) (by unfold UnitRoom; decide)
  obtain ⟨i, h', hrun, -⟩ := (C92_veccopy_reserve (cfg := ⟨false⟩) VecPolicy.oneMore Ex.pair1_repr (Ex.oneHeap_wf _)
    (n := 1) (by decide) (by unfold Room; decide)).2.1 (by unfold UnitRoom; decide) (by decide)
  rw [hrun] at hs
  exact nomatch (congrArg Prod.fst hs)

theorem C92_clone_needs_more : ¬ CloneNeedsOnlyPromise := by
  intro h
  obtain ⟨d, w', hs⟩ := h _ _ Ex.env VecPolicy.oneMore 4 _ Ex.pair1 (Ex.world 4 1) ⟨false⟩ Ex.pair1_repr
    (Ex.oneHeap_wf _) (by unfold UnitRoom; decide)
  obtain ⟨i, h', hrun, -⟩ := (C92_veccopy_clone (cfg := ⟨false⟩) VecPolicy.oneMore Ex.pair1_repr (Ex.oneHeap_wf _)).2.1
    (by unfold UnitRoom; decide) (by decide)
  rw [hrun] at hs
  exact nomatch (congrArg Prod.fst hs)

/-! ### Non-vacuity -/

example (cfg : Cfg) := C92_veccopy_reserve_fits (cfg := cfg) VecPolicy.oneMore Ex.c123_repr (n := 1) (by decide)
example (cfg : Cfg) := (C92_veccopy_reserve (cfg := cfg) VecPolicy.doubling Ex.pair1_repr (Ex.oneHeap_wf _) (n := 1)
  (by decide) (by unfold Room; decide)).1 (by unfold UnitRoom; decide) (by decide)
example (cfg : Cfg) := (C92_veccopy_clone (cfg := cfg) VecPolicy.doubling Ex.pair1_repr (Ex.oneHeap_wf _)).1
  (by unfold UnitRoom; decide) (by decide)
example (cfg : Cfg) := C92_veccopy_push_as (cfg := cfg) VecPolicy.oneMore Ex.pair1_repr (Ex.oneHeap_wf _)
  (x := Ex.a2 ++ Ex.a3) (by decide) (fun _ => by unfold Room; decide)
example (cfg : Cfg) := (C92_veccopy_resize (cfg := cfg) VecPolicy.oneMore Ex.pair1_repr (Ex.oneHeap_wf _)
  (n := 3) (x := Ex.a2 ++ Ex.a3) (by decide) (by decide) (by unfold Room; decide)).2.1 (by unfold UnitRoom; decide) (by decide)
example (cfg : Cfg) := C92_veccopy_resize_fits (cfg := cfg) VecPolicy.oneMore Ex.c123_repr Ex.w4_wf (n := 4)
  (x := Ex.a1) (by decide) (by decide)
example := C92_veccopy_with_type (Γ := Ex.env) (t := 4) (vt := ()) (w := ⟨Heap.empty, []⟩) VecPolicy.oneMore
  (by intro i _; rfl) (by decide) (by unfold Room; decide)
example := C92_veccopy_with_capacity (Γ := Ex.env) (t := 4) (vt := ()) (w := ⟨Heap.empty, []⟩) (n := 5) VecPolicy.oneMore
  (by intro i _; rfl) (by decide) (by unfold Room; decide) (fun _ => (by decide : 2 * 8 + (4 - 1) ≤ isizeMax))
example := C92_veccopy_from_slice (Γ := Ex.env) (t := 2) (vt := ()) (w := ⟨Heap.empty, []⟩) (xs := [Ex.a1, Ex.a2])
  VecPolicy.oneMore (by intro i _; rfl) (by decide) (by decide) (by unfold Room; decide)
  (fun _ => (by decide : 2 * 4 + (4 - 1) ≤ isizeMax))
example := C92_veccopy_with_size (Γ := Ex.env) (t := 2) (vt := ()) (w := ⟨Heap.empty, []⟩) (n := 3) (x := Ex.a2)
  VecPolicy.oneMore (by intro i _; rfl) (by decide) (by decide) (by unfold Room; decide)
  (fun _ => (by decide : 2 * 4 + (4 - 1) ≤ isizeMax))
example := (C92_veccopy_with_type_from (Γ := Ex.env) (t := 4) (w := ⟨Heap.empty, []⟩) (m := ⟨ElemInfo.new Ex.env 4, ()⟩)
  VecPolicy.oneMore rfl (by decide) (by intro i _; rfl)).2.1 (by unfold UnitRoom; decide) (by decide)
example (cfg : Cfg) := C92_harmless_reserve (cfg := cfg) (.inl C92_doubling_whole) Ex.pair1_repr (Ex.oneHeap_wf _) (n := 1)
  (by unfold Room; decide) (by unfold UnitRoom; decide)
example (cfg : Cfg) := C92_harmless_reserve (cfg := cfg) (P := VecPolicy.oneMore) (.inr (by decide)) Ex.c123_repr Ex.w4_wf
  (n := 4) (by unfold Room; decide) (by unfold UnitRoom; decide)
/-- Two containers of pairs in one heap. -/
def Ex.pair2 : VecCopy Unit := ⟨⟨some 1, 2, 3, ElemInfo.new Ex.env 4, (Ex.a1 ++ Ex.a2) ++ (Ex.a2 ++ Ex.a3)⟩, ()⟩
def Ex.pairHeap : Heap := ⟨2, fun i => if i = 0 then some ⟨8, 4⟩ else if i = 1 then some ⟨24, 4⟩ else none⟩
theorem Ex.pairHeap_wf : Ex.pairHeap.WF := by
  intro i hi
  have h : 2 ≤ i := hi
  have h0 : i ≠ 0 := by omega
  have h1 : i ≠ 1 := by omega
  simp [Ex.pairHeap, h0, h1]
theorem Ex.pair1_repr' : Repr Ex.env Ex.pairHeap 4 [Ex.a1 ++ Ex.a2] Ex.pair1.data :=
  ⟨rfl, by decide, rfl, by decide, rfl, by decide, rfl, by decide, by decide, by unfold Room; decide, 0, rfl, rfl⟩
theorem Ex.pair2_repr : Repr Ex.env Ex.pairHeap 4 [Ex.a1 ++ Ex.a2, Ex.a2 ++ Ex.a3] Ex.pair2.data :=
  ⟨rfl, by decide, rfl, by decide, rfl, by decide, rfl, by decide, by decide, by unfold Room; decide, 1, rfl, rfl⟩
example (cfg : Cfg) := (C92_veccopy_append (cfg := cfg) (w := ⟨Ex.pairHeap, (Ex.pair2, ([] : Ex.Log))⟩) VecPolicy.oneMore
  Ex.pair1_repr' Ex.pair2_repr Ex.pairHeap_wf (by decide) (by decide)).2.1 (by unfold UnitRoom; decide) (by decide)
example (cfg : Cfg) := C92_harmless_append (cfg := cfg) (w := ⟨Ex.pairHeap, (Ex.pair2, ([] : Ex.Log))⟩)
  (.inl C92_doubling_whole) Ex.pair1_repr' Ex.pair2_repr Ex.pairHeap_wf (by decide) (by decide) (by unfold UnitRoom; decide)
example (cfg : Cfg) := C92_veccopy_append_fits (cfg := cfg) (w := ⟨Ex.pairHeap, (Ex.pair1, ([] : Ex.Log))⟩) VecPolicy.oneMore
  Ex.pair2_repr Ex.pair1_repr' (by decide)
/-- A standard library that asks for too much. -/
def VecPolicy.greedy : VecPolicy :=
  ⟨fun _ _ _ need => need + isizeMax, fun _ _ n => n + isizeMax, fun _ _ _ _ => Nat.le_add_right _ _, fun _ _ _ => Nat.le_add_right _ _⟩
example (cfg : Cfg) := (C92_veccopy_append (cfg := cfg) (w := ⟨Ex.pairHeap, (Ex.pair2, ([] : Ex.Log))⟩) VecPolicy.greedy
  Ex.pair1_repr' Ex.pair2_repr Ex.pairHeap_wf (by decide) (by decide)).2.2 (by unfold UnitRoom; decide)
example (cfg : Cfg) := C92_veccopy_push_as_full (cfg := cfg) (x := Ex.a1 ++ Ex.a1) VecPolicy.greedy Ex.pair1_repr
  (fun _ _ => rfl) (by decide) (by unfold Room; decide)
example := C92_std_splits_iff Ex.pair1_repr (need := 2) (by decide)

end Dync
