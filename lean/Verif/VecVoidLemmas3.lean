import Verif.VecVoidLemmas2
/-!
# What the `VecVoid` operations do to a healthy vector, continued (helper lemmas)
-/
namespace Dync
variable {U V α : Type}

section ops
variable {Γ : TyEnv V} {t : TyId} {es : List Bytes} {v : VecVoid} {w : World U} {cfg : Cfg}

theorem Repr.isVec {h : Heap} (R : Repr Γ h t es v) : IsVec Γ h t es v.typedView :=
  ⟨R.mem, R.each, R.len, R.len_le, R.room, .inr ⟨R.cap_pos, R.block⟩⟩

/-- Typed application of a function that leaves a healthy `Vec<T>` of positive capacity. -/
theorem applyUnchecked_ok {Γ : TyEnv U} {h : Heap} (R : Repr Γ h t es v) {f : M (RVec × World U) α}
    {out : α} {rv : RVec} {w' : World U} {es' : List Bytes}
    (hf : f (v.typedView, w) = (.ok out, (rv, w')))
    (hv : IsVec Γ w'.heap t es' rv) (hcap : 0 < rv.cap) (wf : w'.heap.WF) :
    VecVoid.applyUnchecked Γ cfg t f (v, w) =
      (.ok out, (⟨rv.ptr, rv.len, rv.cap, v.elem, rv.bytes⟩, w')) := by
  obtain ⟨p, c, h', hrun, _, _, hsame, _⟩ := VecVoid.fromVec_spec (w := w') hv wf R.pos
  obtain ⟨rfl, rfl, rfl⟩ := hsame hcap
  simp only [VecVoid.applyUnchecked, M.bind_run, getSelf_run, setSelf_run, R.intoVec, onWorld_run]
  rw [withLocal_ok hf]
  simp only [hrun, M.pure_run, R.elem_eq]

/-- `Vec::<T>::push` on a healthy typed vector. -/
theorem RVec.push_spec {Γ : TyEnv V} {rv : RVec} (hv : IsVec Γ w.heap t es rv) (hcap : 0 < rv.cap)
    (wf : w.heap.WF) (hpos : 0 < Γ.size t) {x : Bytes} (hx : x.length = Γ.size t)
    (hroom : Room Γ t (max 8 (max (2 * rv.cap) (rv.len + 1)))) :
    ∃ p c h', RVec.push (Γ.layout t) x (rv, w) =
        (.ok (), (⟨p, rv.len + 1, c, rv.bytes ++ x⟩, { w with heap := h' })) ∧
      IsVec Γ h' t (es ++ [x]) ⟨p, rv.len + 1, c, rv.bytes ++ x⟩ ∧
      Realloc w.heap rv.ptr h' p ∧ rv.cap ≤ c ∧
      (rv.len < rv.cap → p = rv.ptr ∧ c = rv.cap ∧ h' = w.heap) ∧
      c ≤ max rv.cap (max 8 (2 * (rv.len + 1))) := by
  have hbytes : rv.bytes ++ x = (es ++ [x]).flatten := by simp [hv.bytes]
  have heach : ∀ e ∈ es ++ [x], e.length = Γ.size t := by
    intro e he; simp at he; rcases he with he | rfl
    · exact hv.each e he
    · exact hx
  have hlen : rv.len + 1 = (es ++ [x]).length := by simp [hv.len]
  by_cases hfull : rv.len = rv.cap
  · obtain ⟨h0, _⟩ | ⟨_, i, hp, hl⟩ := hv.block
    · omega
    have hroom' : Room Γ t (RVec.grownCap (Γ.layout t) rv.cap (rv.len + 1)) :=
      hroom.mono (RVec.grownCap_le _ _ _)
    have hg := RVec.grow_ok (T := Γ.layout t) (v := rv) (w := w) (n := 1) (i := i)
      (by simp only; omega) (by omega) hp hl hroom'
    have hne : (⟨RVec.grownCap (Γ.layout t) rv.cap (rv.len + 1) * Γ.size t, Γ.align t⟩ : Layout).size ≠ 0 :=
      Nat.mul_ne_zero (by have := RVec.le_grownCap (Γ.layout t) rv.cap (rv.len + 1); omega) (by omega)
    refine ⟨((w.heap.free i).alloc ⟨RVec.grownCap (Γ.layout t) rv.cap (rv.len + 1) * Γ.size t, Γ.align t⟩).1,
      RVec.grownCap (Γ.layout t) rv.cap (rv.len + 1),
      ((w.heap.free i).alloc ⟨RVec.grownCap (Γ.layout t) rv.cap (rv.len + 1) * Γ.size t, Γ.align t⟩).2,
      ?_, ?_, ?_, RVec.cap_le_grownCap _ _ _, fun h => by omega,
      by have := RVec.grownCap_le (Γ.layout t) rv.cap (rv.len + 1); omega⟩
    · simp only [RVec.push, M.bind_run, M.get_run, hfull, if_true]
      rw [hfull] at hg
      rw [hg]
      simp [hfull]
    · exact ⟨hbytes, heach, hlen, RVec.le_grownCap _ _ _, hroom',
        .inr ⟨by have := RVec.cap_le_grownCap (Γ.layout t) rv.cap (rv.len + 1); simp only; omega, _,
          (Heap.alloc_live hne).1, (Heap.alloc_live hne).2⟩⟩
    · rw [hp]; exact Realloc.of_free_alloc wf hl hne
  · have hle := hv.len_le
    refine ⟨rv.ptr, rv.cap, w.heap, ?_, ?_, Realloc.refl wf _, Nat.le_refl _, fun _ => ⟨rfl, rfl, rfl⟩, by omega⟩
    · simp [RVec.push, hfull]
    · exact ⟨hbytes, heach, hlen, by simp only; omega, hv.room, hv.block⟩

/-- `push_as` on a healthy vector: `apply_unchecked(|v| v.push(x))`. -/
theorem VecVoid.pushTyped_spec {Γ : TyEnv U} (R : Repr Γ w.heap t es v) (wf : w.heap.WF) {x : Bytes}
    (hx : x.length = Γ.size t) (hroom : Room Γ t (max 8 (max (2 * v.cap) (v.len + 1)))) :
    ∃ p c h', VecVoid.applyUnchecked Γ cfg t (RVec.pushOwned Γ t x) (v, w) =
        (.ok (), (⟨p, v.len + 1, c, v.elem, v.mem ++ x⟩, { w with heap := h' })) ∧
      Repr Γ h' t (es ++ [x]) ⟨p, v.len + 1, c, v.elem, v.mem ++ x⟩ ∧
      Realloc w.heap v.ptr h' p ∧ v.cap ≤ c ∧
      (v.len < v.cap → p = v.ptr ∧ c = v.cap ∧ h' = w.heap) ∧
      c ≤ max v.cap (max 8 (2 * (v.len + 1))) := by
  obtain ⟨p, c, h', hrun, hv', hre, hcc, hfit, hub⟩ :=
    RVec.push_spec (w := w) R.isVec R.cap_pos wf R.pos hx hroom
  have hcpos : 0 < c := Nat.lt_of_lt_of_le R.cap_pos hcc
  have hw : ({ w with heap := h' } : World U).heap.WF := hre.wf
  refine ⟨p, c, h', ?_, ?_, hre, hcc, hfit, hub⟩
  · exact applyUnchecked_ok R (RVec.pushOwned_ok hrun) hv' hcpos hw
  · refine ⟨R.type_id, R.chunks, R.align, R.pos, hv'.bytes, hv'.each, hv'.len, hv'.len_le, hcpos,
      hv'.room, ?_⟩
    obtain ⟨h0, _⟩ | h := hv'.block
    · simp only at h0; omega
    · exact h.2

theorem mul_align (R : Repr Γ w.heap t es v) (n : Nat) :
    n * v.elem.size * Γ.align t = n * Γ.size t := by rw [Nat.mul_assoc, R.chunks]

/-- `VecVoid::rotate_left` on a healthy vector. -/
theorem VecVoid.rotateLeft_spec (R : Repr Γ w.heap t es v) {n : Nat} (hn : n ≤ v.len)
    (ha : Γ.align t ≤ 8192) :
    VecVoid.rotateLeft Γ cfg n (v, w) =
      (.ok (), (⟨v.ptr, v.len, v.cap, v.elem, (es.drop n ++ es.take n).flatten⟩, w)) := by
  have hb := umul_room_ok (cfg := cfg) R R.room (Nat.le_trans hn R.len_le) (v.chunkView, w)
  simp only [VecVoid.rotateLeft, M.bind_run, getSelf_run, R.align, evalAlignLimited_align Γ t _ ha]
  refine applyAligned_ok (n := v.len) (c := v.cap)
    (v' := ⟨v.ptr, v.len * v.elem.size, v.cap * v.elem.size, (es.drop n ++ es.take n).flatten⟩)
    R ?_ rfl rfl R.cap_pos
  simp only [M.bind_run, hb]
  have : n * v.elem.size ≤ v.len * v.elem.size := Nat.mul_le_mul_right _ hn
  simp only [RVec.rotateLeft, VecVoid.chunkView, M.bind_run, M.get_run, M.modify_run, this, if_true,
    mul_align R, R.mem, take_flatten R.each, drop_flatten R.each, List.flatten_append]

/-- `VecVoid::rotate_right` on a healthy vector. -/
theorem VecVoid.rotateRight_spec (R : Repr Γ w.heap t es v) {n : Nat} (hn : n ≤ v.len)
    (ha : Γ.align t ≤ 8192) :
    VecVoid.rotateRight Γ cfg n (v, w) =
      (.ok (), (⟨v.ptr, v.len, v.cap, v.elem,
        (es.drop (es.length - n) ++ es.take (es.length - n)).flatten⟩, w)) := by
  have hb := umul_room_ok (cfg := cfg) R R.room (Nat.le_trans hn R.len_le) (v.chunkView, w)
  simp only [VecVoid.rotateRight, M.bind_run, getSelf_run, R.align, evalAlignLimited_align Γ t _ ha]
  refine applyAligned_ok (n := v.len) (c := v.cap)
    (v' := ⟨v.ptr, v.len * v.elem.size, v.cap * v.elem.size,
      (es.drop (es.length - n) ++ es.take (es.length - n)).flatten⟩)
    R ?_ rfl rfl R.cap_pos
  simp only [M.bind_run, hb]
  have : n * v.elem.size ≤ v.len * v.elem.size := Nat.mul_le_mul_right _ hn
  have e2 : (v.len * v.elem.size - n * v.elem.size) * Γ.align t = (es.length - n) * Γ.size t := by
    rw [← Nat.sub_mul, mul_align R, R.len]
  simp only [RVec.rotateRight, VecVoid.chunkView, M.bind_run, M.get_run, M.modify_run, this, if_true,
    e2, R.mem, take_flatten R.each, drop_flatten R.each, List.flatten_append]

/-- Rotating by more than the length panics, frees the buffer and leaves the default vector. -/
theorem VecVoid.rotateLeft_panic (R : Repr Γ w.heap t es v) {n : Nat} (hn : v.len < n)
    (hov : n * v.elem.size ≤ usizeMax) (ha : Γ.align t ≤ 8192) :
    ∃ i, v.ptr = some i ∧ VecVoid.rotateLeft Γ cfg n (v, w) =
      (.panic .assertion, (VecVoid.default Γ, { w with heap := w.heap.free i })) := by
  obtain ⟨i, hp, hd⟩ := R.dropChunk
  refine ⟨i, hp, ?_⟩
  simp only [VecVoid.rotateLeft, M.bind_run, getSelf_run, R.align, evalAlignLimited_align Γ t _ ha]
  refine applyAligned_panic (v' := v.chunkView) (w' := w) R ?_ hd
  have : ¬ n * v.elem.size ≤ v.len * v.elem.size := by
    rw [Nat.not_le]; exact Nat.mul_lt_mul_of_pos_right hn R.chunk_pos
  simp only [M.bind_run, umul_ok hov, RVec.rotateLeft, M.get_run, VecVoid.chunkView, this, if_false,
    M.panic_run]

theorem VecVoid.rotateRight_panic (R : Repr Γ w.heap t es v) {n : Nat} (hn : v.len < n)
    (hov : n * v.elem.size ≤ usizeMax) (ha : Γ.align t ≤ 8192) :
    ∃ i, v.ptr = some i ∧ VecVoid.rotateRight Γ cfg n (v, w) =
      (.panic .assertion, (VecVoid.default Γ, { w with heap := w.heap.free i })) := by
  obtain ⟨i, hp, hd⟩ := R.dropChunk
  refine ⟨i, hp, ?_⟩
  simp only [VecVoid.rotateRight, M.bind_run, getSelf_run, R.align, evalAlignLimited_align Γ t _ ha]
  refine applyAligned_panic (v' := v.chunkView) (w' := w) R ?_ hd
  have : ¬ n * v.elem.size ≤ v.len * v.elem.size := by
    rw [Nat.not_le]; exact Nat.mul_lt_mul_of_pos_right hn R.chunk_pos
  simp only [M.bind_run, umul_ok hov, RVec.rotateRight, M.get_run, VecVoid.chunkView, this, if_false,
    M.panic_run]

/-- Over-aligned elements: the limited dispatch panics before anything is touched. -/
theorem VecVoid.rotateLeft_overaligned (R : Repr Γ w.heap t es v) {n : Nat} (ha : 8192 < Γ.align t) :
    VecVoid.rotateLeft Γ cfg n (v, w) = (.panic .unreachable, (v, w)) := by
  simp only [VecVoid.rotateLeft, M.bind_run, getSelf_run, R.align, evalAlignLimited_large Γ t _ ha,
    M.panic_run]

theorem VecVoid.rotateRight_overaligned (R : Repr Γ w.heap t es v) {n : Nat} (ha : 8192 < Γ.align t) :
    VecVoid.rotateRight Γ cfg n (v, w) = (.panic .unreachable, (v, w)) := by
  simp only [VecVoid.rotateRight, M.bind_run, getSelf_run, R.align, evalAlignLimited_large Γ t _ ha,
    M.panic_run]

/-- Pushing one chunk onto the chunk view. -/
theorem push_chunk (R : Repr Γ w.heap t es v) (wf : w.heap.WF) {x : Bytes}
    (hroom : Room Γ t (max 8 (max (2 * v.cap) (v.len + 1)))) :
    ∃ p c h', RVec.push ⟨Γ.align t, Γ.align t⟩ x (v.chunkView, w) =
        (.ok (), (⟨p, v.len * v.elem.size + 1, c, v.mem ++ x⟩, { w with heap := h' })) ∧
      v.cap * v.elem.size ≤ c ∧ v.len * v.elem.size + 1 ≤ c ∧ Realloc w.heap v.ptr h' p ∧
      (∃ i, p = some i ∧ h'.live i = some ⟨c * Γ.align t, Γ.align t⟩) ∧
      c * Γ.align t + (Γ.align t - 1) ≤ isizeMax ∧
      (v.len < v.cap → p = v.ptr ∧ c = v.cap * v.elem.size ∧ h' = w.heap) ∧
      c ≤ max v.cap (max 8 (2 * (v.len + 1))) * v.elem.size := by
  have hs := R.chunk_pos
  have ha := align_pos Γ t
  have hcp := R.cap_pos
  obtain ⟨i, hp, hl⟩ := R.chunkBlock
  by_cases hfull : v.len = v.cap
  · have hb : RVec.grownCap ⟨Γ.align t, Γ.align t⟩ (v.cap * v.elem.size) (v.len * v.elem.size + 1) ≤
        max 8 (max (2 * v.cap) (v.len + 1)) * v.elem.size := by
      refine Nat.le_trans (RVec.grownCap_le _ _ _) ?_
      have h1 : max 8 (max (2 * v.cap) (v.len + 1)) ≤ max 8 (max (2 * v.cap) (v.len + 1)) * v.elem.size :=
        Nat.le_mul_of_pos_right _ hs
      have h2 : 2 * v.cap * v.elem.size ≤ max 8 (max (2 * v.cap) (v.len + 1)) * v.elem.size :=
        Nat.mul_le_mul_right _ (by omega)
      have h3 : (v.len + 1) * v.elem.size ≤ max 8 (max (2 * v.cap) (v.len + 1)) * v.elem.size :=
        Nat.mul_le_mul_right _ (by omega)
      rw [Nat.add_mul, Nat.one_mul] at h3
      rw [Nat.mul_assoc] at h2
      omega
    have hroom' : RVec.grownCap ⟨Γ.align t, Γ.align t⟩ (v.cap * v.elem.size) (v.len * v.elem.size + 1)
        * Γ.align t + (Γ.align t - 1) ≤ isizeMax := by
      have := Nat.mul_le_mul_right (Γ.align t) hb
      rw [mul_align R] at this
      unfold Room at hroom; omega
    have hg := RVec.grow_ok (T := ⟨Γ.align t, Γ.align t⟩) (v := v.chunkView) (w := w) (n := 1) (i := i)
      (by simp only; omega) (Nat.mul_ne_zero (by omega) (by omega)) hp hl hroom'
    have hcl := RVec.cap_le_grownCap ⟨Γ.align t, Γ.align t⟩ (v.cap * v.elem.size) (v.len * v.elem.size + 1)
    have hcn := RVec.le_grownCap ⟨Γ.align t, Γ.align t⟩ (v.cap * v.elem.size) (v.len * v.elem.size + 1)
    have hne : (⟨RVec.grownCap ⟨Γ.align t, Γ.align t⟩ (v.cap * v.elem.size) (v.len * v.elem.size + 1)
        * Γ.align t, Γ.align t⟩ : Layout).size ≠ 0 := Nat.mul_ne_zero (by omega) (by omega)
    refine ⟨((w.heap.free i).alloc ⟨RVec.grownCap ⟨Γ.align t, Γ.align t⟩ (v.cap * v.elem.size)
        (v.len * v.elem.size + 1) * Γ.align t, Γ.align t⟩).1, _,
      ((w.heap.free i).alloc ⟨RVec.grownCap ⟨Γ.align t, Γ.align t⟩ (v.cap * v.elem.size)
        (v.len * v.elem.size + 1) * Γ.align t, Γ.align t⟩).2, ?_, hcl, hcn, ?_, ?_, hroom',
      fun h => by omega, Nat.le_trans hb (Nat.mul_le_mul_right _ (by omega))⟩
    · simp only [RVec.push, M.bind_run, M.get_run]
      have : v.chunkView.len = v.chunkView.cap := by simp [VecVoid.chunkView, hfull]
      rw [if_pos this, M.bind_ok hg]
      rfl
    · rw [hp]; exact Realloc.of_free_alloc wf hl hne
    · exact ⟨_, (Heap.alloc_live hne).1, (Heap.alloc_live hne).2⟩
  · have hlt : v.len < v.cap := by have := R.len_le; omega
    have hlt' : v.len * v.elem.size < v.cap * v.elem.size := Nat.mul_lt_mul_of_pos_right hlt hs
    refine ⟨v.ptr, v.cap * v.elem.size, w.heap, ?_, Nat.le_refl _, hlt', Realloc.refl wf _, ⟨i, hp, hl⟩, ?_,
      fun _ => ⟨rfl, rfl, rfl⟩, Nat.mul_le_mul_right _ (by omega)⟩
    · have : ¬ v.chunkView.len = v.chunkView.cap := by simp only [VecVoid.chunkView]; omega
      simp only [RVec.push, M.bind_run, M.get_run, if_neg this, M.pure_run, M.modify_run]
      rfl
    · have := R.room; unfold Room at this; rw [mul_align R]; exact this

/-- Untyped push works when the element is one chunk (size = alignment). -/
theorem VecVoid.push_spec (R : Repr Γ w.heap t es v) (wf : w.heap.WF) {x : Bytes}
    (hsa : Γ.size t = Γ.align t) (hx : x.length = Γ.size t)
    (hroom : Room Γ t (max 8 (max (2 * v.cap) (v.len + 1)))) :
    ∃ p c h', VecVoid.push Γ cfg x (v, w) =
        (.ok (), (⟨p, v.len + 1, c, v.elem, v.mem ++ x⟩, { w with heap := h' })) ∧
      Repr Γ h' t (es ++ [x]) ⟨p, v.len + 1, c, v.elem, v.mem ++ x⟩ ∧
      Realloc w.heap v.ptr h' p ∧ v.cap ≤ c ∧
      (v.len < v.cap → p = v.ptr ∧ c = v.cap ∧ h' = w.heap) ∧
      c ≤ max v.cap (max 8 (2 * (v.len + 1))) := by
  have h1 : v.elem.size = 1 := by
    have := R.chunks; rw [hsa] at this
    exact Nat.eq_of_mul_eq_mul_right (align_pos Γ t) (by rw [this, Nat.one_mul])
  obtain ⟨p, c, h', hrun, hcc, hlc, hre, hblk, hrm, hfit, hub⟩ := push_chunk R wf (x := x) hroom
  rw [h1, Nat.mul_one] at hcc hlc hfit hub
  have hcp : 0 < c := Nat.lt_of_lt_of_le R.cap_pos hcc
  refine ⟨p, c, h', ?_, ?_, hre, hcc, hfit, hub⟩
  · simp only [VecVoid.push, M.bind_run, getSelf_run, R.align, evalAlign_align]
    refine applyAligned_ok (n := v.len + 1) (c := c)
      (v' := ⟨p, v.len * v.elem.size + 1, c, v.mem ++ x⟩) R ?_ (by simp [h1]) (by simp [h1]) hcp
    rw [if_pos (by rw [hx, hsa]; exact Nat.le_refl _), List.take_of_length_le (by rw [hx, hsa]; exact Nat.le_refl _)]
    exact hrun
  · refine ⟨R.type_id, R.chunks, R.align, R.pos, by simp [R.mem], ?_, by simp [R.len], hlc, hcp, ?_, ?_⟩
    · intro e he; simp at he; rcases he with he | rfl
      · exact R.each e he
      · exact hx
    · unfold Room; rw [hsa]; exact hrm
    · rw [hsa]; exact hblk

/-- Untyped push panics whenever the element is more than one chunk, and destroys the vector. -/
theorem VecVoid.push_bad (R : Repr Γ w.heap t es v) (wf : w.heap.WF) {x : Bytes}
    (hsa : Γ.size t ≠ Γ.align t) (hx : x.length = Γ.size t)
    (hroom : Room Γ t (max 8 (max (2 * v.cap) (v.len + 1)))) :
    ∃ p h', VecVoid.push Γ cfg x (v, w) =
        (.panic .assertion, (VecVoid.default Γ, { w with heap := h' })) ∧
      Realloc w.heap v.ptr h' p ∧ ∃ i l, p = some i ∧ h'.live i = some l := by
  have hs := R.chunk_pos
  have h1 : 1 < v.elem.size := by
    have := R.chunks
    have h2 : v.elem.size ≠ 1 := by
      intro e; rw [e, Nat.one_mul] at this; exact hsa this.symm
    omega
  have hale : Γ.align t ≤ x.length := by
    rw [hx, ← R.chunks]; exact Nat.le_mul_of_pos_left _ hs
  obtain ⟨p, c, h', hrun, hcc, hlc, hre, ⟨i, hi, hl⟩, hrm, hfit, _⟩ :=
    push_chunk R wf (x := x.take (Γ.align t)) hroom
  refine ⟨p, h', ?_, hre, i, _, hi, hl⟩
  simp only [VecVoid.push, M.bind_run, getSelf_run, R.align, evalAlign_align]
  refine applyAligned_badLen (out := ()) (w' := { w with heap := h' })
    (v' := ⟨p, v.len * v.elem.size + 1, c, v.mem ++ x.take (Γ.align t)⟩) R ?_ ?_ ?_
  · rw [if_pos hale]; exact hrun
  · exact Nat.le_trans (Nat.le_mul_of_pos_left _ R.cap_pos) hcc
  · simp only [Nat.mul_add_mod_self_right]
    rw [Nat.mod_eq_of_lt h1]; omega

end ops
end Dync
