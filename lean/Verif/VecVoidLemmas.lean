import Verif.Lemmas
/-!
# What the `VecVoid` operations do to a healthy vector (helper lemmas)
-/
namespace Dync
variable {U V α : Type}

@[simp] theorem getSelf_run {σ : Type} (s : σ × World U) : getSelf s = (.ok s.1, s) := rfl
@[simp] theorem setSelf_run {σ : Type} (x : σ) (s : σ × World U) :
    setSelf x s = (.ok (), (x, s.2)) := rfl
@[simp] theorem onWorld_run {σ : Type} (m : M (World U) α) (s : σ × World U) :
    onWorld m s = ((m s.2).1, (s.1, (m s.2).2)) := rfl
@[simp] theorem worldHeap_run (m : M Heap α) (w : World U) :
    worldHeap m w = ((m w.heap).1, { w with heap := (m w.heap).2 }) := rfl
@[simp] theorem worldUser_run (m : M U α) (w : World U) :
    worldUser m w = ((m w.user).1, { w with user := (m w.user).2 }) := rfl
@[simp] theorem onHeap_run {σ : Type} (m : M Heap α) (s : σ × World U) :
    onHeap m s = ((m s.2.heap).1, (s.1, { s.2 with heap := (m s.2.heap).2 })) := rfl
@[simp] theorem onUser_run {σ : Type} (m : M U α) (s : σ × World U) :
    onUser m s = ((m s.2.user).1, (s.1, { s.2 with user := (m s.2.user).2 })) := rfl
@[simp] theorem noDrop_run {τ : Type} (x : τ) (w : World U) : noDrop x w = (.ok (), w) := rfl
@[simp] theorem allocM_run (l : Layout) (h : Heap) :
    allocM l h = (.ok (h.alloc l).1, (h.alloc l).2) := rfl

theorem withLocal_ok {τ : Type} {x x' : τ} {d : τ → M (World U) Unit} {m : M (τ × World U) α}
    {w w' : World U} {a : α} (h : m (x, w) = (.ok a, (x', w'))) :
    withLocal x d m w = (.ok (a, x'), w') := by simp [withLocal, h]

theorem withLocal_panic {τ : Type} {x x' : τ} {d : τ → M (World U) Unit} {m : M (τ × World U) α}
    {w w' w'' : World U} {y : Why} (h : m (x, w) = (.panic y, (x', w')))
    (hd : d x' w' = (.ok (), w'')) : withLocal x d m w = (.panic y, w'') := by
  simp [withLocal, h, hd]

/-! ### `Vec` -/

theorem dealloc_live {h : Heap} {i : Nat} {l : Layout} (hl : h.live i = some l) (hpos : l.size ≠ 0) :
    dealloc (some i) l h = (.ok (), h.free i) := by simp [dealloc, hl, hpos]

theorem M.onUnwind_ok {σ : Type} {m : M σ α} {d : M σ Unit} {s s' : σ} {a : α} (h : m s = (.ok a, s')) :
    M.onUnwind m d s = (.ok a, s') := by simp only [M.onUnwind, h]

theorem RVec.pushOwned_ok {Γ : TyEnv U} {t : TyId} {x : Bytes} {s s' : RVec × World U}
    (h : RVec.push (Γ.layout t) x s = (.ok (), s')) : RVec.pushOwned Γ t x s = (.ok (), s') := by
  simp only [RVec.pushOwned, M.onUnwind_ok h]

/-- Nothing to drop: `pushOwned` is `push`. -/
theorem RVec.pushOwned_plain {Γ : TyEnv U} {t : TyId} (hc : ∀ b u, Γ.drop t b u = (.ok (), u)) (x : Bytes) :
    RVec.pushOwned Γ t x = RVec.push (Γ.layout t) x := by
  apply M.ext'
  intro s
  rcases hp : RVec.push (Γ.layout t) x s with ⟨r, s'⟩
  cases r <;> simp [RVec.pushOwned, M.onUnwind, hp, M.unwindDrop, hc]

theorem RVec.reserve_fit {T : Layout} {v : RVec} {w : World U} {n : Nat} (h : n ≤ v.cap - v.len) :
    RVec.reserve T n (v, w) = (.ok (), (v, w)) := by
  simp [RVec.reserve, Nat.not_lt.2 h]

theorem RVec.grow_ok {T : Layout} {v : RVec} {w : World U} {n i : Nat}
    (hT : T.size ≠ 0) (hc : v.cap ≠ 0) (hp : v.ptr = some i)
    (hl : w.heap.live i = some ⟨v.cap * T.size, T.align⟩)
    (hroom : RVec.grownCap T v.cap (v.len + n) * T.size + (T.align - 1) ≤ isizeMax) :
    RVec.grow T n (v, w) = (.ok (),
      ({ v with ptr := ((w.heap.free i).alloc ⟨RVec.grownCap T v.cap (v.len + n) * T.size, T.align⟩).1,
                cap := RVec.grownCap T v.cap (v.len + n) },
       { w with heap :=
          ((w.heap.free i).alloc ⟨RVec.grownCap T v.cap (v.len + n) * T.size, T.align⟩).2 })) := by
  have hle : v.len + n ≤ RVec.grownCap T v.cap (v.len + n) := by unfold RVec.grownCap; omega
  have h1 : v.len + n ≤ usizeMax := by
    have := Nat.le_mul_of_pos_right (RVec.grownCap T v.cap (v.len + n)) (Nat.pos_of_ne_zero hT)
    have : isizeMax ≤ usizeMax := by decide
    omega
  have hpos : v.cap * T.size ≠ 0 := Nat.mul_ne_zero hc hT
  simp [RVec.grow, hT, Nat.not_lt.2 h1, Nat.not_lt.2 hroom, realloc, hp, dealloc_live hl hpos]

theorem RVec.reserve_grow {T : Layout} {v : RVec} {w : World U} {n i : Nat}
    (hn : v.cap - v.len < n) (hT : T.size ≠ 0) (hc : v.cap ≠ 0) (hp : v.ptr = some i)
    (hl : w.heap.live i = some ⟨v.cap * T.size, T.align⟩)
    (hroom : RVec.grownCap T v.cap (v.len + n) * T.size + (T.align - 1) ≤ isizeMax) :
    RVec.reserve T n (v, w) = (.ok (),
      ({ v with ptr := ((w.heap.free i).alloc ⟨RVec.grownCap T v.cap (v.len + n) * T.size, T.align⟩).1,
                cap := RVec.grownCap T v.cap (v.len + n) },
       { w with heap :=
          ((w.heap.free i).alloc ⟨RVec.grownCap T v.cap (v.len + n) * T.size, T.align⟩).2 })) := by
  have := RVec.grow_ok hT hc hp hl hroom
  simp [RVec.reserve, hn, this]

/-! ### Views of a healthy vector -/
/-- The chunk view as a record. -/
def VecVoid.chunkView (v : VecVoid) : RVec := ⟨v.ptr, v.len * v.elem.size, v.cap * v.elem.size, v.mem⟩
/-- The typed view as a record. -/
def VecVoid.typedView (v : VecVoid) : RVec := ⟨v.ptr, v.len, v.cap, v.mem⟩
namespace Repr
variable {Γ : TyEnv V} {h : Heap} {t : TyId} {es : List Bytes} {v : VecVoid}

theorem chunk_pos (R : Repr Γ h t es v) : 0 < v.elem.size := by
  apply Nat.pos_of_ne_zero; intro e
  have := R.chunks; rw [e] at this; have := R.pos; omega

theorem numBytes (R : Repr Γ h t es v) : v.elem.numBytes = Γ.size t := by
  simp [ElemInfo.numBytes, R.align, R.chunks]

theorem mem_len (R : Repr Γ h t es v) : v.mem.length = v.len * Γ.size t := by
  rw [R.mem, length_flatten_eq R.each, R.len]

theorem bytes (R : Repr Γ h t es v) : v.bytes = .ok es.flatten := by
  have := R.mem_len
  simp only [VecVoid.bytes, R.numBytes]
  rw [if_pos (by omega), List.take_of_length_le (by omega), R.mem]

theorem elem_eq (R : Repr Γ h t es v) : v.elem = ElemInfo.new Γ t := by
  have h1 := R.type_id; have h2 := R.chunks; have h3 := R.align
  have : Γ.size t / Γ.align t = v.elem.size := by
    rw [← h2]; exact Nat.mul_div_cancel _ (align_pos Γ t)
  rcases e : v.elem with ⟨a, b, c⟩
  rw [e] at h1 h3 this
  simp only [ElemInfo.new] at *
  subst h1; rw [this, h3]

/-- The chunk view of the buffer used by the alignment-generic operations. -/
theorem alignedVec {σ : Type} (R : Repr Γ h t es v) (cfg : Cfg) (s : σ) :
    VecVoid.alignedVec cfg ⟨Γ.align t, Γ.align t⟩ v s =
      (.ok v.chunkView, s) := by
  have hm := R.mem_len
  have hsz : v.len * v.elem.size * Γ.align t = v.len * Γ.size t := by
    rw [Nat.mul_assoc, R.chunks]
  simp only [VecVoid.alignedVec, R.align]
  rw [M.bind_ok (debugAssert_ok (by simp) s), M.bind_ok (debugAssert_ok (by simp) s)]
  simp only [RVec.fromRawParts]
  rw [if_pos (by omega)]
  simp only [M.pure_run, VecVoid.chunkView]
  rw [List.take_of_length_le (by omega)]

/-- The typed view of the buffer. -/
theorem intoVec {σ : Type} (R : Repr Γ h t es v) (cfg : Cfg) (s : σ) :
    VecVoid.intoVecUnchecked cfg Γ t v s = (.ok v.typedView, s) := by
  have hm := R.mem_len
  simp only [VecVoid.intoVecUnchecked, R.align, R.numBytes]
  rw [M.bind_ok (debugAssert_ok (by simp) s), M.bind_ok (debugAssert_ok (by simp) s)]
  simp only [RVec.fromRawParts]
  rw [if_pos (by omega)]
  simp only [M.pure_run, VecVoid.typedView]
  rw [List.take_of_length_le (by omega)]

end Repr

theorem fromVecOverride_ok {σ : Type} {a : Nat} {v : RVec} {e : ElemInfo} {n c : Nat}
    (ha : 0 < a) (hae : a = e.alignment) (hs : 0 < e.size)
    (hl : v.len = n * e.size) (hc : v.cap = c * e.size) (hcp : 0 < c) (s : σ) :
    VecVoid.fromVecOverride ⟨a, a⟩ v e s = (.ok ⟨v.ptr, n, c, e, v.bytes⟩, s) := by
  have h1 : e.size ≤ v.cap := by rw [hc]; exact Nat.le_mul_of_pos_left _ hcp
  have h2 : a / a = 1 := Nat.div_self ha
  simp only [VecVoid.fromVecOverride, h2, Nat.mul_one]
  have a1 : (a == e.alignment) = true := by simpa using hae
  have a2 : (decide (e.size ≤ v.cap)) = true := by simpa using h1
  have a3 : (v.len % e.size == 0) = true := by simp [hl]
  have a4 : (v.cap % e.size == 0) = true := by simp [hc]
  have hs0 : e.size ≠ 0 := by omega
  simp only [a1, a2, a3, a4, M.bind_run, M.assert_true_run, hs0, if_false]
  simp [hl, hc, Nat.mul_div_cancel _ hs]

theorem fromVecOverride_badLen {σ : Type} {a : Nat} {v : RVec} {e : ElemInfo}
    (ha : 0 < a) (hae : a = e.alignment) (hs : 0 < e.size) (hcap : e.size ≤ v.cap)
    (hl : v.len % e.size ≠ 0) (s : σ) :
    VecVoid.fromVecOverride ⟨a, a⟩ v e s = (.panic .assertion, s) := by
  have h2 : a / a = 1 := Nat.div_self ha
  simp only [VecVoid.fromVecOverride, h2, Nat.mul_one]
  have a1 : (a == e.alignment) = true := by simpa using hae
  have a2 : (decide (e.size ≤ v.cap)) = true := by simpa using hcap
  have a3 : (v.len % e.size == 0) = false := by simpa using hl
  have hs0 : e.size ≠ 0 := by omega
  simp only [a1, a2, a3, M.bind_run, M.assert_true_run, hs0, if_false, M.assert_false_run]

theorem fromVecOverride_badCap {σ : Type} {a : Nat} {v : RVec} {e : ElemInfo}
    (ha : 0 < a) (hae : a = e.alignment) (hs : 0 < e.size) (hcap : e.size ≤ v.cap)
    (hl : v.len % e.size = 0) (hc : v.cap % e.size ≠ 0) (s : σ) :
    VecVoid.fromVecOverride ⟨a, a⟩ v e s = (.panic .assertion, s) := by
  have h2 : a / a = 1 := Nat.div_self ha
  simp only [VecVoid.fromVecOverride, h2, Nat.mul_one]
  have a1 : (a == e.alignment) = true := by simpa using hae
  have a2 : (decide (e.size ≤ v.cap)) = true := by simpa using hcap
  have a3 : (v.len % e.size == 0) = true := by simpa using hl
  have a4 : (v.cap % e.size == 0) = false := by simpa using hc
  have hs0 : e.size ≠ 0 := by omega
  simp only [a1, a2, a3, a4, M.bind_run, M.assert_true_run, hs0, if_false, M.assert_false_run]


section apply
variable {Γ : TyEnv V} {t : TyId} {es : List Bytes} {v : VecVoid} {w w' w'' : World U} {v' : RVec}
variable {f : M (RVec × World U) α} {out : α} {cfg : Cfg}

theorem applyAligned_ok {h : Heap} (R : Repr Γ h t es v) {n c : Nat}
    (hf : f (v.chunkView, w) = (.ok out, (v', w')))
    (hl : v'.len = n * v.elem.size) (hc : v'.cap = c * v.elem.size) (hcp : 0 < c) :
    VecVoid.applyAligned Γ cfg ⟨Γ.align t, Γ.align t⟩ f (v, w) =
      (.ok out, (⟨v'.ptr, n, c, v.elem, v'.bytes⟩, w')) := by
  simp only [VecVoid.applyAligned, M.bind_run, getSelf_run, setSelf_run, R.alignedVec, onWorld_run]
  rw [withLocal_ok hf]
  simp only [fromVecOverride_ok (align_pos Γ t) R.align.symm R.chunk_pos hl hc hcp, setSelf_run,
    M.pure_run]

theorem applyAligned_panic {h : Heap} (R : Repr Γ h t es v) {y : Why}
    (hf : f (v.chunkView, w) = (.panic y, (v', w')))
    (hd : v'.dropBuf ⟨Γ.align t, Γ.align t⟩ w' = (.ok (), w'')) :
    VecVoid.applyAligned Γ cfg ⟨Γ.align t, Γ.align t⟩ f (v, w) =
      (.panic y, (VecVoid.default Γ, w'')) := by
  simp only [VecVoid.applyAligned, M.bind_run, getSelf_run, setSelf_run, R.alignedVec, onWorld_run]
  rw [withLocal_panic hf hd]

theorem applyAligned_ub {h : Heap} (R : Repr Γ h t es v)
    (hf : f (v.chunkView, w) = (.ub, (v', w'))) :
    VecVoid.applyAligned Γ cfg ⟨Γ.align t, Γ.align t⟩ f (v, w) =
      (.ub, (VecVoid.default Γ, w')) := by
  simp only [VecVoid.applyAligned, M.bind_run, getSelf_run, setSelf_run, R.alignedVec, onWorld_run]
  simp only [withLocal, hf]

/-- If `f` succeeds but leaves a length that is not a whole number of elements, the call panics,
the elements are forgotten and `self` becomes the default vector. -/
theorem applyAligned_badLen {h : Heap} (R : Repr Γ h t es v)
    (hf : f (v.chunkView, w) = (.ok out, (v', w')))
    (hcap : v.elem.size ≤ v'.cap) (hl : v'.len % v.elem.size ≠ 0) :
    VecVoid.applyAligned Γ cfg ⟨Γ.align t, Γ.align t⟩ f (v, w) =
      (.panic .assertion, (VecVoid.default Γ, w')) := by
  simp only [VecVoid.applyAligned, M.bind_run, getSelf_run, setSelf_run, R.alignedVec, onWorld_run]
  rw [withLocal_ok hf]
  simp only [fromVecOverride_badLen (align_pos Γ t) R.align.symm R.chunk_pos hcap hl]

theorem applyAligned_badCap {h : Heap} (R : Repr Γ h t es v)
    (hf : f (v.chunkView, w) = (.ok out, (v', w')))
    (hcap : v.elem.size ≤ v'.cap) (hl : v'.len % v.elem.size = 0) (hc : v'.cap % v.elem.size ≠ 0) :
    VecVoid.applyAligned Γ cfg ⟨Γ.align t, Γ.align t⟩ f (v, w) =
      (.panic .assertion, (VecVoid.default Γ, w')) := by
  simp only [VecVoid.applyAligned, M.bind_run, getSelf_run, setSelf_run, R.alignedVec, onWorld_run]
  rw [withLocal_ok hf]
  simp only [fromVecOverride_badCap (align_pos Γ t) R.align.symm R.chunk_pos hcap hl hc]

end apply

section ops
variable {Γ : TyEnv V} {t : TyId} {es : List Bytes} {v : VecVoid} {w : World U} {cfg : Cfg}

/-- Rebuilding a healthy vector with the same block and capacity but new content. -/
theorem Repr.setContent {h : Heap} (R : Repr Γ h t es v) {es' : List Bytes}
    (hlen : es'.length ≤ v.cap) (heach : ∀ e ∈ es', e.length = Γ.size t) :
    Repr Γ h t es' ⟨v.ptr, es'.length, v.cap, v.elem, es'.flatten⟩ :=
  ⟨R.type_id, R.chunks, R.align, R.pos, rfl, heach, rfl, hlen, R.cap_pos, R.room, R.block⟩

theorem Repr.len_cap {h : Heap} (R : Repr Γ h t es v) : es.length ≤ v.cap := by
  rw [← R.len]; exact R.len_le

theorem VecVoid.ext' {v v' : VecVoid} (h1 : v.ptr = v'.ptr) (h2 : v.len = v'.len)
    (h3 : v.cap = v'.cap) (h4 : v.elem = v'.elem) (h5 : v.mem = v'.mem) : v = v' := by
  cases v; cases v'; simp_all

theorem Repr.eta {h : Heap} (R : Repr Γ h t es v) :
    v = ⟨v.ptr, es.length, v.cap, v.elem, es.flatten⟩ :=
  VecVoid.ext' rfl R.len rfl rfl R.mem

/-- The block of a healthy vector, in chunk units. -/
theorem Repr.chunkBlock {h : Heap} (R : Repr Γ h t es v) :
    ∃ i, v.ptr = some i ∧
      h.live i = some ⟨v.cap * v.elem.size * Γ.align t, Γ.align t⟩ := by
  obtain ⟨i, hp, hl⟩ := R.block
  refine ⟨i, hp, ?_⟩
  rw [Nat.mul_assoc, R.chunks]; exact hl

theorem Repr.dropChunk (R : Repr Γ w.heap t es v) :
    ∃ i, v.ptr = some i ∧ (v.chunkView).dropBuf ⟨Γ.align t, Γ.align t⟩ w =
      (.ok (), { w with heap := w.heap.free i }) := by
  obtain ⟨i, hp, hl⟩ := R.chunkBlock
  refine ⟨i, hp, ?_⟩
  have hpos : v.cap * v.elem.size * Γ.align t ≠ 0 :=
    Nat.mul_ne_zero (Nat.mul_ne_zero (by have := R.cap_pos; omega) (by have := R.chunk_pos; omega))
      (by have := align_pos Γ t; omega)
  simp only [RVec.dropBuf, VecVoid.chunkView, worldHeap_run, hp]
  rw [dealloc_live hl hpos]

/-- `VecVoid::clear` on a healthy vector. -/
theorem VecVoid.clear_spec (R : Repr Γ w.heap t es v) :
    VecVoid.clear Γ cfg (v, w) = (.ok (), (⟨v.ptr, 0, v.cap, v.elem, []⟩, w)) := by
  simp only [VecVoid.clear, M.bind_run, getSelf_run, R.align, evalAlign_align]
  refine applyAligned_ok (n := 0) (c := v.cap) (v' := ⟨v.ptr, 0, v.cap * v.elem.size, []⟩) R ?_
    (by simp) rfl R.cap_pos
  simp [RVec.clear, RVec.truncate, VecVoid.chunkView]

/-- `VecVoid::truncate` on a healthy vector. -/
theorem VecVoid.truncate_spec (R : Repr Γ w.heap t es v) {n : Nat} (hn : n ≤ v.len) :
    VecVoid.truncate Γ cfg n (v, w) =
      (.ok (), (⟨v.ptr, n, v.cap, v.elem, (es.take n).flatten⟩, w)) := by
  have hb : n * v.elem.size ≤ usizeMax := by
    have h1 := R.room
    have h2 : n * v.elem.size ≤ v.cap * Γ.size t := by
      rw [← R.chunks]
      calc n * v.elem.size ≤ v.cap * v.elem.size :=
            Nat.mul_le_mul_right _ (Nat.le_trans hn R.len_le)
        _ ≤ v.cap * (v.elem.size * Γ.align t) :=
            Nat.mul_le_mul_left _ (Nat.le_mul_of_pos_right _ (align_pos Γ t))
    have : isizeMax ≤ usizeMax := by decide
    unfold Room at h1; omega
  simp only [VecVoid.truncate, M.bind_run, getSelf_run, R.align, evalAlign_align]
  refine applyAligned_ok (n := n) (c := v.cap)
    (v' := ⟨v.ptr, n * v.elem.size, v.cap * v.elem.size, (es.take n).flatten⟩) R ?_ rfl rfl R.cap_pos
  simp only [M.bind_run, umul_ok hb]
  have : ¬ v.len * v.elem.size < n * v.elem.size := Nat.not_lt.2 (Nat.mul_le_mul_right _ hn)
  simp only [RVec.truncate, VecVoid.chunkView, M.modify_run, this, if_false]
  rw [R.mem, Nat.mul_assoc, R.chunks, take_flatten R.each]

theorem Room.mono {Γ : TyEnv V} {t : TyId} {m n : Nat} (h : Room Γ t n) (hmn : m ≤ n) : Room Γ t m := by
  unfold Room at *
  have := Nat.mul_le_mul_right (Γ.size t) hmn
  omega

/-- Effect of `Vec::reserve` on the chunk view when the growth is well-behaved. -/
theorem reserve_chunk (R : Repr Γ w.heap t es v) (wf : w.heap.WF) {n : Nat}
    (hroom : Room Γ t (max 8 (max (2 * v.cap) (v.len + n))))
    (hbad : ¬ BadGrowth Γ t v.cap (v.len + n)) :
    ∃ p c h', RVec.reserve ⟨Γ.align t, Γ.align t⟩ (n * v.elem.size) (v.chunkView, w) =
        (.ok (), (⟨p, v.len * v.elem.size, c * v.elem.size, v.mem⟩, { w with heap := h' })) ∧
      v.len + n ≤ c ∧ v.cap ≤ c ∧ Room Γ t c ∧ Realloc w.heap v.ptr h' p ∧
      (∃ i, p = some i ∧ h'.live i = some ⟨c * Γ.size t, Γ.align t⟩) ∧
      (v.len + n ≤ v.cap → p = v.ptr ∧ c = v.cap ∧ h' = w.heap) ∧
      c ≤ max v.cap (max 8 (2 * (v.len + n))) := by
  by_cases hfit : v.len + n ≤ v.cap
  · refine ⟨v.ptr, v.cap, w.heap, ?_, hfit, Nat.le_refl _, R.room, Realloc.refl wf _, R.block,
      fun _ => ⟨rfl, rfl, rfl⟩, by omega⟩
    have : n * v.elem.size ≤ v.cap * v.elem.size - v.len * v.elem.size := by
      rw [← Nat.sub_mul]; exact Nat.mul_le_mul_right _ (by omega)
    exact RVec.reserve_fit this
  · have hlt : v.cap < v.len + n := by omega
    have hs := R.chunk_pos
    have ha := align_pos Γ t
    have hbad' : ¬ (Γ.align t = 1 ∧ v.elem.size = 3 ∧ v.cap = 1 ∧ v.len + n = 2) := by
      rintro ⟨h1, h2, h3, h4⟩
      refine hbad ⟨?_, h1, h3, h4⟩
      rw [← R.chunks, h1, h2]
    obtain ⟨c, hg, hnc, hc⟩ := grownCap_mul (a := Γ.align t) hs R.cap_pos hlt hbad'
    obtain ⟨i, hp, hl⟩ := R.chunkBlock
    have hroomc : Room Γ t c := hroom.mono hc
    have e2 : v.len * v.elem.size + n * v.elem.size = (v.len + n) * v.elem.size :=
      (Nat.add_mul _ _ _).symm
    have e3 : c * v.elem.size * Γ.align t = c * Γ.size t := by rw [Nat.mul_assoc, R.chunks]
    have hcpos : c * Γ.size t ≠ 0 :=
      Nat.mul_ne_zero (by omega) (by have := R.pos; omega)
    have hrun := RVec.reserve_grow (T := ⟨Γ.align t, Γ.align t⟩) (v := v.chunkView) (w := w)
      (n := n * v.elem.size) (i := i)
      (by
        simp only [VecVoid.chunkView]
        rw [← Nat.sub_mul]
        have := R.len_le
        exact Nat.mul_lt_mul_of_pos_right (by omega) hs)
      (by simp; omega) (by simp only [VecVoid.chunkView]; exact Nat.mul_ne_zero (by have := R.cap_pos; omega) (by omega))
      hp hl
      (by
        simp only [VecVoid.chunkView, e2, hg, e3]; exact hroomc)
    simp only [VecVoid.chunkView, e2, hg, e3] at hrun
    have hne : (⟨c * Γ.size t, Γ.align t⟩ : Layout).size ≠ 0 := hcpos
    refine ⟨_, c, _, hrun, hnc, by omega, hroomc, ?_, ?_, fun h => absurd h hfit, by omega⟩
    · rw [hp]; exact Realloc.of_free_alloc wf hl hne
    · exact ⟨_, (Heap.alloc_live hne).1, (Heap.alloc_live hne).2⟩

theorem umul_room_ok {σ : Type} {h : Heap} (R : Repr Γ h t es v) {n m : Nat} (hroom : Room Γ t m) (hn : n ≤ m) (s : σ) :
    umul cfg n v.elem.size s = (.ok (n * v.elem.size), s) := by
  apply umul_ok
  have h2 : n * v.elem.size ≤ m * Γ.size t := by
    rw [← R.chunks]
    calc n * v.elem.size ≤ m * v.elem.size := Nat.mul_le_mul_right _ hn
      _ ≤ m * (v.elem.size * Γ.align t) :=
          Nat.mul_le_mul_left _ (Nat.le_mul_of_pos_right _ (align_pos Γ t))
  have : isizeMax ≤ usizeMax := by decide
  unfold Room at hroom; omega

/-- `VecVoid::reserve` on a healthy vector, except for the one bad growth case. -/
theorem VecVoid.reserve_spec (R : Repr Γ w.heap t es v) (wf : w.heap.WF) {n : Nat}
    (hroom : Room Γ t (max 8 (max (2 * v.cap) (v.len + n))))
    (hbad : ¬ BadGrowth Γ t v.cap (v.len + n)) :
    ∃ p c h', VecVoid.reserve Γ cfg n (v, w) =
        (.ok (), (⟨p, v.len, c, v.elem, v.mem⟩, { w with heap := h' })) ∧
      v.len + n ≤ c ∧ v.cap ≤ c ∧ Realloc w.heap v.ptr h' p ∧
      Repr Γ h' t es ⟨p, v.len, c, v.elem, v.mem⟩ ∧
      (v.len + n ≤ v.cap → p = v.ptr ∧ c = v.cap ∧ h' = w.heap) ∧
      c ≤ max v.cap (max 8 (2 * (v.len + n))) := by
  obtain ⟨p, c, h', hrun, hnc, hcc, hroomc, hre, hblk, hfit, hub⟩ := reserve_chunk R wf hroom hbad
  refine ⟨p, c, h', ?_, hnc, hcc, hre, ?_, hfit, hub⟩
  · simp only [VecVoid.reserve, M.bind_run, getSelf_run, R.align, evalAlign_align]
    have := R.cap_pos
    refine applyAligned_ok (n := v.len) (c := c)
      (v' := ⟨p, v.len * v.elem.size, c * v.elem.size, v.mem⟩) R ?_ rfl rfl (by omega)
    simp only [M.bind_run, umul_room_ok R hroom (by omega : n ≤ _), hrun]
  · exact ⟨R.type_id, R.chunks, R.align, R.pos, R.mem, R.each, R.len,
      Nat.le_trans R.len_le hcc, Nat.lt_of_lt_of_le R.cap_pos hcc, hroomc, hblk⟩

end ops

end Dync
