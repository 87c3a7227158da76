import Verif.Runs
import Verif.Safety
import Verif.HistoryLemmas
/-!
# Helper lemmas: growth and type-erased vectors without size restrictions
-/
namespace Dync
variable {U V α : Type}

/-- What an object owning the block `p` may do to the heap: blocks that existed before and belong to
others stay as they are; afterwards it owns `p`, a new block or none. -/
structure Moved (h : Heap) (p : Ptr) (h' : Heap) (p' : Ptr) : Prop where
  wf : h'.WF
  next_le : h.next ≤ h'.next
  other : ∀ j, j < h.next → some j ≠ p → h'.live j = h.live j
  ptr : ∀ i, p' = some i → p = some i ∨ h.next ≤ i

theorem Moved.refl {h : Heap} (w : h.WF) (p : Ptr) : Moved h p h p :=
  ⟨w, Nat.le_refl _, fun _ _ _ => rfl, fun _ h => .inl h⟩

theorem Moved.trans {h h1 h2 : Heap} {p p1 p2 : Ptr} (a : Moved h p h1 p1) (b : Moved h1 p1 h2 p2) : Moved h p h2 p2 := by
  refine ⟨b.wf, Nat.le_trans a.next_le b.next_le, ?_, ?_⟩
  · intro j hj hp
    rw [b.other j (Nat.lt_of_lt_of_le hj a.next_le) ?_, a.other j hj hp]
    intro e
    rcases a.ptr j e.symm with e' | e'
    · exact hp e'.symm
    · omega
  · intro i hi
    rcases b.ptr i hi with e | e
    · exact a.ptr i e
    · exact .inr (Nat.le_trans a.next_le e)

theorem Moved.ofRealloc {h h' : Heap} {p p' : Ptr} (hp : ∀ i, p' = some i → p' ≠ p → h.next ≤ i) (r : Realloc h p h' p') :
    Moved h p h' p' := by
  refine ⟨r.wf, r.next_le, ?_, ?_⟩
  · intro j hj hne
    refine r.other j hne ?_
    intro e
    by_cases hpp : p' = p
    · exact hne (hpp ▸ e)
    · have := hp j e.symm hpp; omega
  · intro i hi
    by_cases hpp : p' = p
    · exact .inl (hpp ▸ hi)
    · exact .inr (hp i hi hpp)

theorem Moved.free {h : Heap} (w : h.WF) (i : Nat) : Moved h (some i) (h.free i) none := by
  refine ⟨w.free i, Nat.le_refl _, ?_, fun _ h => by cases h⟩
  intro j _ hne
  simp only [Heap.free]
  rw [if_neg]
  intro e; exact hne (by rw [e])

theorem Moved.drop {h h' : Heap} {p p' : Ptr} (a : Moved h p h' p') : Moved h p h' none :=
  ⟨a.wf, a.next_le, a.other, fun _ h => by cases h⟩

/-- A healthy `Vec` of elements with layout `T`. -/
structure VGood (T : Layout) (h : Heap) (v : RVec) : Prop where
  bytes : v.bytes.length = v.len * T.size
  len_le : v.len ≤ v.cap
  room : v.cap * T.size + (T.align - 1) ≤ isizeMax
  block : (v.cap = 0 ∧ v.ptr = none) ∨ (0 < v.cap ∧ ∃ i, v.ptr = some i ∧ h.live i = some ⟨v.cap * T.size, T.align⟩)

theorem VGood.frame {T : Layout} {h h' : Heap} {v : RVec} (g : VGood T h v)
    (hf : ∀ i, v.ptr = some i → h'.live i = h.live i) : VGood T h' v := by
  refine ⟨g.bytes, g.len_le, g.room, ?_⟩
  rcases g.block with b | ⟨hc, i, hp, hl⟩
  · exact .inl b
  · exact .inr ⟨hc, i, hp, by rw [hf i hp]; exact hl⟩

theorem VGood.set {T : Layout} {h : Heap} {v : RVec} (g : VGood T h v) {n : Nat} {b : Bytes} (hn : n ≤ v.cap)
    (hb : b.length = n * T.size) : VGood T h { v with len := n, bytes := b } := ⟨hb, hn, g.room, g.block⟩

theorem RVec.dropBuf_runs {T : Layout} {v : RVec} {w : World U} (hT : 0 < T.size) (g : VGood T w.heap v) (wf : w.heap.WF) :
    Runs (v.dropBuf T) w (fun _ w' => Moved w.heap v.ptr w'.heap none ∧ w'.user = w.user) (fun _ => False) := by
  rcases g.block with ⟨hc, hp⟩ | ⟨hc, i, hp, hl⟩
  · refine Runs.of_ok (a := ()) (s' := w) ?_ ⟨?_, rfl⟩
    · simp [RVec.dropBuf, worldHeap, dealloc, hc]
    · rw [hp]; exact Moved.refl wf _
  · refine Runs.of_ok (a := ()) (s' := { w with heap := w.heap.free i }) ?_ ⟨?_, rfl⟩
    · have hne : v.cap * T.size ≠ 0 := Nat.mul_ne_zero (by omega) (by omega)
      simp [RVec.dropBuf, worldHeap, hp, dealloc_live hl hne]
    · rw [hp]; exact Moved.free wf i

theorem RVec.grow_runs {T : Layout} {v : RVec} {w : World U} (hT : 0 < T.size) (g : VGood T w.heap v) (wf : w.heap.WF)
    {n : Nat} (hn : v.cap < v.len + n) : Runs (RVec.grow T n) (v, w)
      (fun _ s => VGood T s.2.heap s.1 ∧ Moved w.heap v.ptr s.2.heap s.1.ptr ∧ s.1.len = v.len ∧ s.1.bytes = v.bytes ∧
        v.len + n ≤ s.1.cap ∧ s.2.user = w.user) (fun s => s = (v, w)) := by
  by_cases h1 : usizeMax < v.len + n
  · exact Runs.of_panic (y := .capacity) (s' := (v, w)) (by simp [RVec.grow, h1]) rfl
  by_cases h2 : isizeMax < RVec.grownCap T v.cap (v.len + n) * T.size + (T.align - 1)
  · exact Runs.of_panic (y := .capacity) (s' := (v, w)) (by simp [RVec.grow, h1, h2]) rfl
  have hcap : v.len + n ≤ RVec.grownCap T v.cap (v.len + n) := by simp only [RVec.grownCap]; omega
  have hpos : RVec.grownCap T v.cap (v.len + n) * T.size ≠ 0 := Nat.mul_ne_zero (by omega) (by omega)
  rcases g.block with ⟨hc, hp⟩ | ⟨hc, i, hp, hl⟩
  · have hal := Heap.alloc_live (h := w.heap) (l := ⟨RVec.grownCap T v.cap (v.len + n) * T.size, T.align⟩) hpos
    refine Runs.of_ok (a := ()) (s' := ({ v with
      ptr := (w.heap.alloc ⟨RVec.grownCap T v.cap (v.len + n) * T.size, T.align⟩).1,
      cap := RVec.grownCap T v.cap (v.len + n) },
      { w with heap := (w.heap.alloc ⟨RVec.grownCap T v.cap (v.len + n) * T.size, T.align⟩).2 })) ?_ ⟨?_, ?_, rfl, rfl, hcap, rfl⟩
    · have hT' : T.size ≠ 0 := by omega
      have h2' : ¬ isizeMax < RVec.grownCap T 0 (v.len + n) * T.size + (T.align - 1) := by rw [← hc]; exact h2
      simp only [RVec.grow, M.bind_run, M.get_run]
      simp only [hT', h1, h2', if_false, M.bind_run, onHeap, M.zoom_run, realloc, dealloc, hc, Nat.zero_mul, if_true, allocM,
        M.modify_run]
    · refine ⟨g.bytes, by simp only; omega, by simp only; omega, .inr ⟨by simp only; omega, w.heap.next, hal.1, hal.2⟩⟩
    · rw [hp]
      exact Moved.ofRealloc (fun i hi _ => by rw [hal.1] at hi; cases hi; exact Nat.le_refl _) (Realloc.ofAlloc wf _)
  · have hroom : RVec.grownCap T v.cap (v.len + n) * T.size + (T.align - 1) ≤ isizeMax := by omega
    have hal := Heap.alloc_live (h := w.heap.free i) (l := ⟨RVec.grownCap T v.cap (v.len + n) * T.size, T.align⟩) hpos
    refine Runs.of_ok (RVec.grow_ok (by omega) (by omega) hp hl hroom) ⟨?_, ?_, rfl, rfl, hcap, rfl⟩
    · refine ⟨g.bytes, by simp only; omega, by simp only; omega, .inr ⟨by simp only; omega, _, hal.1, hal.2⟩⟩
    · rw [hp]
      exact Moved.ofRealloc (fun j hj _ => by simp only at hj; rw [hal.1] at hj; cases hj; exact Nat.le_refl _)
        (Realloc.of_free_alloc wf hl hpos)

theorem RVec.reserve_runs {T : Layout} {v : RVec} {w : World U} (hT : 0 < T.size) (g : VGood T w.heap v) (wf : w.heap.WF)
    (n : Nat) : Runs (RVec.reserve T n) (v, w)
      (fun _ s => VGood T s.2.heap s.1 ∧ Moved w.heap v.ptr s.2.heap s.1.ptr ∧ s.1.len = v.len ∧ s.1.bytes = v.bytes ∧
        v.len + n ≤ s.1.cap ∧ s.2.user = w.user) (fun s => s = (v, w)) := by
  have hl := g.len_le
  by_cases h : v.cap - v.len < n
  · have := RVec.grow_runs hT g wf (n := n) (by omega)
    unfold RVec.reserve
    exact Runs.bind_ok rfl (by simpa [h] using this)
  · refine Runs.of_ok (RVec.reserve_fit (by omega)) ⟨g, Moved.refl wf _, rfl, rfl, by simp only; omega, rfl⟩

theorem RVec.push_runs {T : Layout} {v : RVec} {w : World U} (hT : 0 < T.size) (g : VGood T w.heap v) (wf : w.heap.WF)
    {x : Bytes} (hx : x.length = T.size) : Runs (RVec.push T x) (v, w)
      (fun _ s => VGood T s.2.heap s.1 ∧ Moved w.heap v.ptr s.2.heap s.1.ptr ∧ s.1.len = v.len + 1 ∧
        s.1.bytes = v.bytes ++ x ∧ s.2.user = w.user) (fun s => s = (v, w)) := by
  unfold RVec.push
  refine Runs.bind_ok rfl ?_
  have key : Runs (if v.len = v.cap then RVec.grow T 1 else pure ()) (v, w)
      (fun _ s => VGood T s.2.heap s.1 ∧ Moved w.heap v.ptr s.2.heap s.1.ptr ∧ s.1.len = v.len ∧ s.1.bytes = v.bytes ∧
        v.len + 1 ≤ s.1.cap ∧ s.2.user = w.user) (fun s => s = (v, w)) := by
    split
    · exact RVec.grow_runs hT g wf (by omega)
    · have := g.len_le
      exact Runs.pure ⟨g, Moved.refl wf _, rfl, rfl, by simp only; omega, rfl⟩
  have := Runs.bind (f := fun _ => M.modify fun s : RVec × World U => ({ s.1 with len := s.1.len + 1, bytes := s.1.bytes ++ x }, s.2))
    (Q := fun _ s => VGood T s.2.heap s.1 ∧ Moved w.heap v.ptr s.2.heap s.1.ptr ∧ s.1.len = v.len + 1 ∧
        s.1.bytes = v.bytes ++ x ∧ s.2.user = w.user) key ?_
  · split at this <;> simpa [*] using this
  rintro _ s ⟨h1, h2, h3, h4, h5, h6⟩
  refine ⟨h1.set (by rw [h3]; exact h5) ?_, h2, by simp only [h3], by simp only [h4], h6⟩
  rw [List.length_append, h1.bytes, hx, Nat.add_mul, Nat.one_mul]

theorem RVec.truncate_runs {T : Layout} {v : RVec} {w : World U} (g : VGood T w.heap v) (n : Nat) :
    ∃ v', RVec.truncate T n (v, w) = (.ok (), (v', w)) ∧ VGood T w.heap v' ∧ v'.ptr = v.ptr ∧
      v'.bytes = v.bytes.take (v'.len * T.size) := by
  by_cases h : v.len < n
  · refine ⟨v, by simp [RVec.truncate, h], g, rfl, ?_⟩
    rw [List.take_of_length_le]
    rw [g.bytes]; exact Nat.le_refl _
  · refine ⟨{ v with len := n, bytes := v.bytes.take (n * T.size) }, by simp [RVec.truncate, h], ?_, rfl, rfl⟩
    refine g.set (by have := g.len_le; omega) ?_
    rw [List.length_take, g.bytes]
    have : n * T.size ≤ v.len * T.size := Nat.mul_le_mul_right _ (by omega)
    omega

/-! ### Containers -/

/-- A container of type `t` all of whose elements are values of type `t`. -/
def TGood (Γ : TyEnv V) (S : Values Γ) (t : TyId) (h : Heap) (v : VecVoid) : Prop :=
  ∃ es, Repr Γ h t es v ∧ ∀ e ∈ es, S.valid t e

/-- The container left behind by a failed call: it has the unit type (and may then hold units). -/
structure UGood (Γ : TyEnv V) (v : VecVoid) : Prop where
  ptr : v.ptr = none
  cap : v.cap = usizeMax
  elem : v.elem = ElemInfo.new Γ Γ.unitTy
  mem : v.mem = []

/-- Every container a program can hold. -/
def Good (Γ : TyEnv V) (S : Values Γ) (h : Heap) (v : VecVoid) : Prop := (∃ t, TGood Γ S t h v) ∨ UGood Γ v

theorem UGood.default (Γ : TyEnv V) : UGood Γ (VecVoid.default Γ) := ⟨rfl, rfl, rfl, rfl⟩

variable {Γ : TyEnv V} {S : Values Γ} {t : TyId} {es : List Bytes} {v : VecVoid} {w : World U} {cfg : Cfg}

theorem Repr.chunkGood {h : Heap} (R : Repr Γ h t es v) : VGood ⟨Γ.align t, Γ.align t⟩ h v.chunkView := by
  obtain ⟨i, hp, hl⟩ := R.chunkBlock
  have hc := R.cap_pos
  have hs := R.chunk_pos
  refine ⟨?_, Nat.mul_le_mul_right _ R.len_le, ?_, .inr ⟨Nat.mul_pos hc hs, i, hp, hl⟩⟩
  · show v.mem.length = v.len * v.elem.size * Γ.align t
    rw [R.mem_len, Nat.mul_assoc, R.chunks]
  · show v.cap * v.elem.size * Γ.align t + (Γ.align t - 1) ≤ isizeMax
    rw [Nat.mul_assoc, R.chunks]
    exact R.room

theorem Repr.typedGood {h : Heap} (R : Repr Γ h t es v) : VGood (Γ.layout t) h v.typedView := by
  obtain ⟨i, hp, hl⟩ := R.block
  exact ⟨R.mem_len, R.len_le, R.room, .inr ⟨R.cap_pos, i, hp, hl⟩⟩

/-- Rebuilding a container from its chunks: it fails, or the container is in order. -/
theorem fromVecOverride_list {σ : Type} {st : σ} {h : Heap} (hpos : 0 < Γ.size t) {e : ElemInfo} (he : e = ElemInfo.new Γ t)
    {r : RVec} (g : VGood ⟨Γ.align t, Γ.align t⟩ h r)
    {P : List Bytes → Prop}
    (hc : ∀ n, r.len = n * e.size → ∃ es' : List Bytes, r.bytes = es'.flatten ∧ (∀ x ∈ es', x.length = Γ.size t) ∧ P es') :
    Runs (VecVoid.fromVecOverride ⟨Γ.align t, Γ.align t⟩ r e) st
      (fun v' s => s = st ∧ (∃ es', Repr Γ h t es' v' ∧ P es') ∧ v'.ptr = r.ptr) (fun s => s = st) := by
  subst he
  have ha := align_pos Γ t
  have hdiv : Γ.align t / Γ.align t = 1 := Nat.div_self ha
  have hchunk : Γ.size t / Γ.align t * Γ.align t = Γ.size t := Nat.div_mul_cancel (Γ.align_dvd t)
  have hsp : 0 < Γ.size t / Γ.align t := by
    rcases Nat.eq_zero_or_pos (Γ.size t / Γ.align t) with e | e
    · rw [e] at hchunk; omega
    · exact e
  unfold VecVoid.fromVecOverride
  refine Runs.bind (R := fun _ s => s = st) (Runs.assert (fun _ => rfl) fun _ => rfl) ?_
  rintro _ s rfl
  refine Runs.bind (R := fun _ s' => s' = s ∧ Γ.size t / Γ.align t ≤ r.cap)
    (Runs.assert (fun e => ⟨rfl, of_decide_eq_true e⟩) fun _ => rfl) ?_
  rintro _ s' ⟨rfl, hle⟩
  rw [if_neg (by simp only [ElemInfo.new]; omega)]
  simp only [hdiv, Nat.mul_one, ElemInfo.new] at hc ⊢
  refine Runs.bind (R := fun _ s => s = s' ∧ r.len % (Γ.size t / Γ.align t) = 0)
    (Runs.assert (fun e => ⟨rfl, by simpa using e⟩) fun _ => rfl) ?_
  rintro _ s ⟨rfl, hl⟩
  refine Runs.bind (R := fun _ s' => s' = s ∧ r.cap % (Γ.size t / Γ.align t) = 0)
    (Runs.assert (fun e => ⟨rfl, by simpa using e⟩) fun _ => rfl) ?_
  rintro _ s' ⟨rfl, hcp⟩
  have hlen : r.len = r.len / (Γ.size t / Γ.align t) * (Γ.size t / Γ.align t) :=
    (Nat.div_mul_cancel (Nat.dvd_of_mod_eq_zero hl)).symm
  have hcap : r.cap / (Γ.size t / Γ.align t) * (Γ.size t / Γ.align t) = r.cap :=
    Nat.div_mul_cancel (Nat.dvd_of_mod_eq_zero hcp)
  obtain ⟨es', hb, heach, hval⟩ := hc _ hlen
  have hel : es'.length = r.len / (Γ.size t / Γ.align t) := by
    have h1 := g.bytes
    rw [hb, length_flatten_eq heach] at h1
    have h2 : r.len * Γ.align t = r.len / (Γ.size t / Γ.align t) * Γ.size t := by
      conv => lhs; rw [hlen]
      rw [Nat.mul_assoc, hchunk]
    simp only at h1
    rw [h2] at h1
    exact Nat.eq_of_mul_eq_mul_right hpos h1
  have hcapm : r.cap / (Γ.size t / Γ.align t) * Γ.size t = r.cap * Γ.align t := by
    conv => rhs; rw [← hcap]
    rw [Nat.mul_assoc, hchunk]
  refine ⟨rfl, ⟨es', ?_, hval⟩, rfl⟩
  refine ⟨rfl, hchunk, rfl, hpos, hb, heach, hel.symm, Nat.div_le_div_right g.len_le, ?_, ?_, ?_⟩
  · exact Nat.div_pos hle hsp
  · unfold Room
    simp only
    rw [hcapm]; exact g.room
  · rcases g.block with ⟨h0, _⟩ | ⟨_, i, hp, hlv⟩
    · omega
    · refine ⟨i, hp, ?_⟩
      simp only
      rw [hcapm]; exact hlv

/-- The same for containers of valid values. -/
theorem fromVecOverride_runs {σ : Type} {st : σ} {h : Heap} (hpos : 0 < Γ.size t) {e : ElemInfo} (he : e = ElemInfo.new Γ t)
    {r : RVec} (g : VGood ⟨Γ.align t, Γ.align t⟩ h r)
    (hc : ∀ n, r.len = n * e.size → ∃ es' : List Bytes, r.bytes = es'.flatten ∧ ∀ x ∈ es', S.valid t x) :
    Runs (VecVoid.fromVecOverride ⟨Γ.align t, Γ.align t⟩ r e) st
      (fun v' s => s = st ∧ TGood Γ S t h v' ∧ v'.ptr = r.ptr) (fun s => s = st) :=
  fromVecOverride_list (P := fun es' => ∀ x ∈ es', S.valid t x) hpos he g fun n hn => by
    obtain ⟨es', h1, h2⟩ := hc n hn
    exact ⟨es', h1, fun x hx => S.len t x (h2 x hx), h2⟩

/-- `applyAligned` with a function that keeps the vector healthy. -/
theorem applyAligned_runs (R : Repr Γ w.heap t es v) {f : M (RVec × World U) α} {Q : α → Ptr → World U → Prop}
    {E : World U → Prop}
    (hf : Runs f (v.chunkView, w) (fun a s => VGood ⟨Γ.align t, Γ.align t⟩ s.2.heap s.1 ∧
        (∀ n, s.1.len = n * v.elem.size → ∃ es' : List Bytes, s.1.bytes = es'.flatten ∧ ∀ x ∈ es', S.valid t x) ∧ Q a s.1.ptr s.2)
      (fun s => Runs (RVec.dropBuf ⟨Γ.align t, Γ.align t⟩ s.1) s.2 (fun _ w' => E w') (fun _ => False))) :
    Runs (VecVoid.applyAligned Γ cfg ⟨Γ.align t, Γ.align t⟩ f) (v, w)
      (fun a s => TGood Γ S t s.2.heap s.1 ∧ Q a s.1.ptr s.2)
      (fun s => s.1 = VecVoid.default Γ ∧ (E s.2 ∨ ∃ a p, Q a p s.2)) := by
  unfold VecVoid.applyAligned
  refine Runs.bind_ok (b := v) (s' := (v, w)) rfl ?_
  refine Runs.bind_ok (b := ()) (s' := (VecVoid.default Γ, w)) rfl ?_
  refine Runs.bind_ok (R.alignedVec cfg _) ?_
  refine Runs.bind (R := fun p s => s.1 = VecVoid.default Γ ∧ VGood ⟨Γ.align t, Γ.align t⟩ s.2.heap p.2 ∧
        (∀ n, p.2.len = n * v.elem.size → ∃ es' : List Bytes, p.2.bytes = es'.flatten ∧ ∀ x ∈ es', S.valid t x) ∧ Q p.1 p.2.ptr s.2)
    (Runs.onWorld (Runs.withLocal (hf.mono (fun a s h => ⟨rfl, h⟩) fun s h => h.mono (fun _ w' e => ⟨rfl, .inl e⟩)
      fun _ e => e))) ?_
  rintro ⟨a, r⟩ ⟨v0, w1⟩ ⟨h0, h1, h2, h3⟩
  simp only at h0 h1 h2 h3
  refine Runs.bind ((fromVecOverride_runs (S := S) R.pos R.elem_eq h1 h2).mono (fun v' s h => h) fun s e => ?_) ?_
  · subst e; exact ⟨h0, .inr ⟨a, r.ptr, h3⟩⟩
  · rintro v' s ⟨rfl, h5, h6⟩
    exact ⟨h5, by simp only; rw [h6]; exact h3⟩

/-- The chunk view of a unit container. -/
theorem UGood.chunkView (u : UGood Γ v) : v.chunkView = ⟨none, 0, 0, []⟩ := by
  have h0 : v.elem.size = 0 := by rw [u.elem]; simp [ElemInfo.new, Γ.unit_size]
  simp [VecVoid.chunkView, h0, u.ptr, u.mem]

theorem UGood.alignedVec {σ : Type} (u : UGood Γ v) (st : σ) :
    VecVoid.alignedVec cfg ⟨Γ.align Γ.unitTy, Γ.align Γ.unitTy⟩ v st = (.ok v.chunkView, st) := by
  have h0 : v.elem.size = 0 := by rw [u.elem]; simp [ElemInfo.new, Γ.unit_size]
  have ha : v.elem.alignment = Γ.align Γ.unitTy := by rw [u.elem]; rfl
  unfold VecVoid.alignedVec
  rw [M.bind_ok (debugAssert_ok (cfg := cfg) (by simp [ha]) st), M.bind_ok (debugAssert_ok (cfg := cfg) (by simp [ha]) st)]
  simp [RVec.fromRawParts, h0, VecVoid.chunkView, u.mem]

theorem UGood.chunkGood (u : UGood Γ v) (h : Heap) (T : Layout) (hT : T.align ≤ 1) : VGood T h v.chunkView := by
  rw [u.chunkView]
  refine ⟨by simp, Nat.le_refl _, ?_, .inl ⟨rfl, rfl⟩⟩
  simp only [Nat.zero_mul]
  have : T.align - 1 = 0 := by omega
  rw [this]; exact Nat.zero_le _

/-- `applyAligned` always fails on a unit container. -/
theorem UGood.applyAligned (u : UGood Γ v) {f : M (RVec × World U) α} {E : World U → Prop}
    (hf : Runs f (v.chunkView, w) (fun _ s => E s.2)
      (fun s => Runs (RVec.dropBuf ⟨Γ.align Γ.unitTy, Γ.align Γ.unitTy⟩ s.1) s.2 (fun _ w' => E w') (fun _ => False))) :
    Runs (VecVoid.applyAligned Γ cfg ⟨Γ.align Γ.unitTy, Γ.align Γ.unitTy⟩ f) (v, w) (fun _ _ => False)
      (fun s => s.1 = VecVoid.default Γ ∧ E s.2) := by
  have h0 : v.elem.size = 0 := by rw [u.elem]; simp [ElemInfo.new, Γ.unit_size]
  unfold VecVoid.applyAligned
  refine Runs.bind_ok (b := v) (s' := (v, w)) rfl ?_
  refine Runs.bind_ok (b := ()) (s' := (VecVoid.default Γ, w)) rfl ?_
  refine Runs.bind_ok (u.alignedVec _) ?_
  refine Runs.bind (R := fun p s => s.1 = VecVoid.default Γ ∧ E s.2)
    (Runs.onWorld (Runs.withLocal (hf.mono (fun a s h => ⟨rfl, h⟩) fun s h => h.mono (fun _ w' e => ⟨rfl, e⟩)
      fun _ e => e))) ?_
  rintro ⟨a, r⟩ ⟨v0, w1⟩ h1
  refine Runs.bind (R := fun _ _ => False) ?_ (fun _ _ h => h.elim)
  unfold VecVoid.fromVecOverride
  refine Runs.bind (R := fun _ s => s = (v0, w1)) (Runs.assert (fun _ => rfl) fun _ => h1) ?_
  rintro _ s rfl
  refine Runs.bind (R := fun _ s => s = (v0, w1)) (Runs.assert (fun _ => rfl) fun _ => h1) ?_
  rintro _ s rfl
  rw [if_pos h0]
  exact h1

/-- A container method: it owns its block before and after, and leaves a container in order. -/
def Step (Γ : TyEnv V) (S : Values Γ) (a b : VecVoid × World U) : Prop :=
  Moved a.2.heap a.1.ptr b.2.heap b.1.ptr ∧ b.2.user = a.2.user ∧ Good Γ S b.2.heap b.1

theorem Step.refl (g : Good Γ S w.heap v) (wf : w.heap.WF) : Step Γ S (v, w) (v, w) := ⟨Moved.refl wf _, rfl, g⟩

theorem Step.trans {a b c : VecVoid × World U} (x : Step Γ S a b) (y : Step Γ S b c) : Step Γ S a c :=
  ⟨x.1.trans y.1, y.2.1.trans x.2.1, y.2.2⟩

theorem Step.lost {a : VecVoid × World U} {w' : World U} (m : Moved a.2.heap a.1.ptr w'.heap none) (hu : w'.user = a.2.user) :
    Step Γ S a (VecVoid.default Γ, w') := ⟨m, hu, .inr (UGood.default Γ)⟩

/-- A method built from `applyAligned` with a function on chunk vectors that keeps them healthy. -/
theorem applyAligned_step (g : Good Γ S w.heap v) (wf : w.heap.WF) {f : Layout → M (RVec × World U) α}
    (hf : ∀ t, v.elem = ElemInfo.new Γ t → VGood ⟨Γ.align t, Γ.align t⟩ w.heap v.chunkView →
      Runs (f ⟨Γ.align t, Γ.align t⟩) (v.chunkView, w)
        (fun _ s => VGood ⟨Γ.align t, Γ.align t⟩ s.2.heap s.1 ∧ Moved w.heap v.ptr s.2.heap s.1.ptr ∧ s.2.user = w.user ∧
          ((∃ es, Repr Γ w.heap t es v ∧ ∀ e ∈ es, S.valid t e) → ∀ n, s.1.len = n * v.elem.size →
            ∃ es' : List Bytes, s.1.bytes = es'.flatten ∧ ∀ x ∈ es', S.valid t x))
        (fun s => s = (v.chunkView, w))) :
    Runs (evalAlign v.elem.alignment fun T => VecVoid.applyAligned Γ cfg T (f T)) (v, w)
      (fun _ s => Step Γ S (v, w) s ∧ ∃ t, v.elem = ElemInfo.new Γ t ∧ TGood Γ S t s.2.heap s.1)
      (fun s => Step Γ S (v, w) s) := by
  rcases g with ⟨t, es, R, hv⟩ | u
  · rw [R.elem_eq]
    simp only [ElemInfo.new, evalAlign_align]
    have ha := align_pos Γ t
    refine (applyAligned_runs (S := S) (Q := fun _ p w' => Moved w.heap v.ptr w'.heap p ∧ w'.user = w.user)
      (E := fun w' => Moved w.heap v.ptr w'.heap none ∧ w'.user = w.user) R ?_).mono ?_ ?_
    · refine (hf t R.elem_eq R.chunkGood).mono ?_ ?_
      · rintro a s ⟨h1, h2, h3, h4⟩
        exact ⟨h1, h4 ⟨es, R, hv⟩, h2, h3⟩
      · rintro s rfl
        exact RVec.dropBuf_runs ha R.chunkGood wf
    · rintro a s ⟨h1, h2, h3⟩
      exact ⟨⟨h2, h3, .inl ⟨t, h1⟩⟩, t, rfl, h1⟩
    · rintro ⟨v', w'⟩ ⟨rfl, ⟨h2, h3⟩ | ⟨a, p, h2, h3⟩⟩
      · exact Step.lost h2 h3
      · exact Step.lost h2.drop h3
  · rw [u.elem]
    simp only [ElemInfo.new, evalAlign_align]
    have h1 : Γ.align Γ.unitTy ≤ 1 := by rw [Γ.unit_align]; exact Nat.le_refl _
    refine (UGood.applyAligned (E := fun w' => Moved w.heap v.ptr w'.heap none ∧ w'.user = w.user) u ?_).mono
      (fun _ _ h => h.elim) ?_
    · refine (hf _ u.elem (u.chunkGood _ _ h1)).mono ?_ ?_
      · rintro a s ⟨_, h2, h3, _⟩
        exact ⟨h2.drop, h3⟩
      · rintro s rfl
        have := RVec.dropBuf_runs (U := U) (w := w) (align_pos Γ Γ.unitTy) (u.chunkGood w.heap ⟨Γ.align Γ.unitTy, Γ.align Γ.unitTy⟩ h1) wf
        exact this
    · rintro ⟨v', w'⟩ ⟨rfl, h2, h3⟩
      exact Step.lost h2 h3

theorem Repr.take_chunks {h : Heap} (R : Repr Γ h t es v) (hv : ∀ e ∈ es, S.valid t e) (n : Nat) :
    ∃ es' : List Bytes, v.mem.take (n * v.elem.size * Γ.align t) = es'.flatten ∧ ∀ x ∈ es', S.valid t x := by
  refine ⟨es.take n, ?_, fun x hx => hv x (List.mem_of_mem_take hx)⟩
  rw [Nat.mul_assoc, R.chunks, R.mem, take_flatten R.each]

theorem VecVoid.truncate_runs (g : Good Γ S w.heap v) (wf : w.heap.WF) (n : Nat) :
    Runs (VecVoid.truncate Γ cfg n) (v, w) (fun _ s => Step Γ S (v, w) s) (fun s => Step Γ S (v, w) s) := by
  unfold VecVoid.truncate
  refine Runs.bind_ok (b := v) (s' := (v, w)) rfl ?_
  refine (applyAligned_step g wf fun t _ G => ?_).mono (fun _ _ h => h.1) fun _ h => h
  have key : ∀ m, Runs (RVec.truncate ⟨Γ.align t, Γ.align t⟩ m) (v.chunkView, w)
        (fun _ s => VGood ⟨Γ.align t, Γ.align t⟩ s.2.heap s.1 ∧ Moved w.heap v.ptr s.2.heap s.1.ptr ∧ s.2.user = w.user ∧
          ((∃ es, Repr Γ w.heap t es v ∧ ∀ e ∈ es, S.valid t e) → ∀ n, s.1.len = n * v.elem.size →
            ∃ es' : List Bytes, s.1.bytes = es'.flatten ∧ ∀ x ∈ es', S.valid t x)) (fun s => s = (v.chunkView, w)) := by
    intro m
    obtain ⟨v', e, h1, h2, h3⟩ := RVec.truncate_runs (w := w) G m
    refine Runs.of_ok e ⟨h1, by simp only [h2]; exact Moved.refl wf _, rfl, ?_⟩
    rintro ⟨es, R, hv⟩ n hn
    rw [h3, hn]
    exact R.take_chunks hv n
  refine Runs.bind (R := fun _ s => s = (v.chunkView, w)) (Runs.umul (fun _ => rfl) (fun _ _ => rfl) rfl) ?_
  rintro m _ rfl
  exact key m

theorem VecVoid.clear_runs (g : Good Γ S w.heap v) (wf : w.heap.WF) :
    Runs (VecVoid.clear Γ cfg) (v, w) (fun _ s => Step Γ S (v, w) s) (fun s => Step Γ S (v, w) s) := by
  unfold VecVoid.clear
  refine Runs.bind_ok (b := v) (s' := (v, w)) rfl ?_
  refine (applyAligned_step g wf fun t _ G => ?_).mono (fun _ _ h => h.1) fun _ h => h
  obtain ⟨v', e, h1, h2, h3⟩ := RVec.truncate_runs (w := w) G 0
  refine Runs.of_ok (m := RVec.clear ⟨Γ.align t, Γ.align t⟩) e ⟨h1, by simp only [h2]; exact Moved.refl wf _, rfl, ?_⟩
  rintro ⟨es, R, hv⟩ n hn
  rw [h3, hn]
  exact R.take_chunks hv n

theorem Repr.same_chunks {h : Heap} (R : Repr Γ h t es v) (hv : ∀ e ∈ es, S.valid t e) :
    ∃ es' : List Bytes, v.mem = es'.flatten ∧ ∀ x ∈ es', S.valid t x := ⟨es, R.mem, hv⟩

theorem VecVoid.reserve_runs (g : Good Γ S w.heap v) (wf : w.heap.WF) (n : Nat) :
    Runs (VecVoid.reserve Γ cfg n) (v, w)
      (fun _ s => Step Γ S (v, w) s ∧ ∃ t, v.elem = ElemInfo.new Γ t ∧ TGood Γ S t s.2.heap s.1)
      (fun s => Step Γ S (v, w) s) := by
  unfold VecVoid.reserve
  refine Runs.bind_ok (b := v) (s' := (v, w)) rfl ?_
  refine applyAligned_step g wf fun t _ G => ?_
  refine Runs.bind (R := fun _ s => s = (v.chunkView, w)) (Runs.umul (fun _ => rfl) (fun _ _ => rfl) rfl) ?_
  rintro m _ rfl
  refine (RVec.reserve_runs (align_pos Γ t) G wf m).mono ?_ fun _ h => h
  rintro _ s ⟨h1, h2, h3, h4, h5, h6⟩
  refine ⟨h1, h2, h6, ?_⟩
  rintro ⟨es, R, hv⟩ n hn
  rw [h4]
  exact R.same_chunks hv

/-- Appending one value to the chunks of a container. -/
theorem Repr.snoc_chunks {h : Heap} (R : Repr Γ h t es v) (hv : ∀ e ∈ es, S.valid t e) {x : Bytes} (hx : S.valid t x)
    {n : Nat} (hn : v.len * v.elem.size + 1 = n * v.elem.size) :
    ∃ es' : List Bytes, v.mem ++ x.take (Γ.align t) = es'.flatten ∧ ∀ y ∈ es', S.valid t y := by
  have hs := R.chunk_pos
  have h1 : v.elem.size = 1 := by
    have : v.elem.size ∣ 1 := by
      have h2 : v.elem.size ∣ v.len * v.elem.size := Nat.dvd_mul_left _ _
      have h3 : v.elem.size ∣ v.len * v.elem.size + 1 := hn ▸ Nat.dvd_mul_left _ _
      exact (Nat.dvd_add_right h2).1 h3
    exact Nat.dvd_one.1 this
  have h2 := R.chunks
  rw [h1, Nat.one_mul] at h2
  refine ⟨es ++ [x], ?_, ?_⟩
  · rw [h2, List.take_of_length_le (by rw [S.len t x hx]; exact Nat.le_refl _), R.mem]
    simp
  · intro y hy
    rcases List.mem_append.1 hy with h | h
    · exact hv y h
    · rw [List.mem_singleton.1 h]; exact hx

theorem VecVoid.push_runs (g : Good Γ S w.heap v) (wf : w.heap.WF) {t : TyId} {x : Bytes} (ht : v.elem.type_id = t)
    (hx : S.valid t x) (hpos : 0 < Γ.size t) :
    Runs (VecVoid.push Γ cfg x) (v, w) (fun _ s => Step Γ S (v, w) s ∧ TGood Γ S t s.2.heap s.1)
      (fun s => Step Γ S (v, w) s) := by
  unfold VecVoid.push
  refine Runs.bind_ok (b := v) (s' := (v, w)) rfl ?_
  refine (applyAligned_step (f := fun T => if T.size ≤ x.length then RVec.push T (x.take T.size) else M.ub) g wf
    fun t' he G => ?_).mono ?_ fun _ h => h
  · have : t' = t := by rw [← ht, he]; rfl
    subst this
    have hle : Γ.align t' ≤ x.length := by
      rw [S.len t' x hx]; exact Nat.le_of_dvd hpos (Γ.align_dvd t')
    rw [if_pos hle]
    refine (RVec.push_runs (align_pos Γ t') G wf (x := x.take (Γ.align t')) ?_).mono ?_ fun _ h => h
    · simp only; rw [List.length_take]; omega
    rintro _ s ⟨h1, h2, h3, h4, h6⟩
    refine ⟨h1, h2, h6, ?_⟩
    rintro ⟨es, R, hv⟩ n hn
    rw [h4]
    rw [h3] at hn
    exact R.snoc_chunks hv hx hn
  · rintro _ s ⟨h1, t', h2, h3⟩
    refine ⟨h1, ?_⟩
    have : t' = t := by rw [← ht, h2]; rfl
    exact this ▸ h3

end Dync
