import Verif.DynMachineLemmas5
import Verif.VecDynLemmas2
/-!
# `push_cloned` and `push`
-/
namespace Dync
variable {U V α β γ δ σ τ : Type} {Γ : TyEnv U} {t t' tb : TyId} {n : Nat} {w : World U} {o : Outside U} {cfg : Cfg}
  {F : Nat → Option Layout} {O : List Nat} {vt : V} {es es' : List Bytes} {rv : RVec} {b : Bytes} {c : VecDyn V} {x x' : XVec}
  {h h' : Heap} {v : VecVoid}

/-! ### `resize_with(len + 1, init)` -/

theorem Repr.succ_fits (R : Repr Γ h t es v) : (v.len + 1) * v.elem.size ≤ usizeMax := by
  have ha := align_pos Γ t
  have h1 : (v.len + 1) * v.elem.size ≤ 2 * v.cap * v.elem.size := by
    refine Nat.mul_le_mul_right _ ?_
    have := R.len_le; have := R.cap_pos; omega
  have h2 : v.cap * v.elem.size * 1 ≤ v.cap * v.elem.size * Γ.align t := Nat.mul_le_mul_left _ ha
  have h3 := R.room
  unfold Room at h3
  rw [Nat.mul_assoc _ _ (Γ.align t), R.chunks] at h2
  rw [Nat.mul_assoc 2] at h1
  have h4 : 2 * isizeMax ≤ usizeMax := by decide
  omega

/-- The vector of chunks with a zeroed slot for one more element, after `init` has worked on the slot. -/
theorem resizeWith_inner (R : Repr Γ w.heap t es v) (init : M (Bytes × World U) Unit) :
    ∃ f : M (RVec × World U) Unit,
      VecVoid.resizeWith Γ cfg (v.len + 1) init (v, w) = VecVoid.applyAligned Γ cfg ⟨Γ.align t, Γ.align t⟩ f (v, w) ∧
      (∀ y s, RVec.reserve ⟨Γ.align t, Γ.align t⟩ v.elem.size (v.chunkView, w) = (.panic y, s) → f (v.chunkView, w) = (.panic y, s)) ∧
      ∀ p C h' r z w', RVec.reserve ⟨Γ.align t, Γ.align t⟩ v.elem.size (v.chunkView, w) =
          (.ok (), (⟨p, v.len * v.elem.size, C, v.mem⟩, { w with heap := h' })) →
        init (List.replicate (Γ.size t) (some 0), { w with heap := h' }) = (r, (z, w')) → z.length = Γ.size t →
        f (v.chunkView, w) = (r, (⟨p, (v.len + 1) * v.elem.size, C, v.mem ++ z⟩, w')) := by
  have hs := R.chunk_pos
  have ha := align_pos Γ t
  have hlt : v.len * v.elem.size < (v.len + 1) * v.elem.size := Nat.mul_lt_mul_of_pos_right (by omega) hs
  have hd : (v.len + 1) * v.elem.size - v.len * v.elem.size = v.elem.size := by
    rw [Nat.succ_mul]; omega
  have hz : (List.replicate v.elem.size (List.replicate (Γ.align t) (some (0 : UInt8)))).flatten =
      List.replicate (Γ.size t) (some 0) := by
    rw [List.flatten_replicate_replicate, R.chunks]
  have hum : umul cfg (v.len + 1) v.elem.size (v.chunkView, w) =
      (.ok ((v.len + 1) * v.elem.size), (v.chunkView, w)) := umul_ok R.succ_fits _
  have hoff : v.len * v.elem.size * Γ.align t = v.mem.length := by
    rw [Nat.mul_assoc, R.chunks, R.mem_len]
  refine ⟨_, by
    simp only [VecVoid.resizeWith]
    rw [M.bind_ok (getSelf_run _), R.align, evalAlign_align], ?_, ?_⟩
  · intro y s hres
    have hrw : RVec.resizeWith ⟨Γ.align t, Γ.align t⟩ ((v.len + 1) * v.elem.size)
        (List.replicate (Γ.align t) (some 0)) (v.chunkView, w) = (.panic y, s) := by
      simp only [RVec.resizeWith, M.bind_run, M.get_run]
      rw [if_pos (by exact hlt)]
      simp only [M.bind_run, VecVoid.chunkView, hd] at hres ⊢
      rw [hres]
    simp only [M.bind_run, getSelf_run, hum]
    rw [hrw]
  · intro p C h' r z w' hres hinit hzl
    have hrw : RVec.resizeWith ⟨Γ.align t, Γ.align t⟩ ((v.len + 1) * v.elem.size)
        (List.replicate (Γ.align t) (some 0)) (v.chunkView, w) =
        (.ok (), (⟨p, (v.len + 1) * v.elem.size, C, v.mem ++ List.replicate (Γ.size t) (some 0)⟩, { w with heap := h' })) := by
      simp only [RVec.resizeWith, M.bind_run, M.get_run]
      rw [if_pos (by exact hlt)]
      simp only [M.bind_run, VecVoid.chunkView, hd] at hres ⊢
      rw [hres]
      simp [hz]
    simp only [M.bind_run, getSelf_run, hum]
    rw [hrw]
    simp only
    rw [if_neg (by simp only [VecVoid.chunkView]; omega), if_neg (by
      simp only [VecVoid.chunkView, hoff, R.numBytes, List.length_append, List.length_replicate]; omega)]
    simp only [M.zoom_run, VecVoid.chunkView, hoff, R.numBytes, List.drop_left, List.take_replicate,
      Nat.min_self, hinit, splice, List.take_left]
    rw [List.drop_of_length_le (by simp [hzl])]
    simp

theorem applyAligned_stop {f : M (RVec × World U) α} {a : Bool} (R : Repr Γ h t es v) (hf : (f (v.chunkView, w)).1 = .stop a) :
    (VecVoid.applyAligned Γ cfg ⟨Γ.align t, Γ.align t⟩ f (v, w)).1 = .stop a := by
  simp only [VecVoid.applyAligned]
  rw [M.bind_ok (getSelf_run _), M.bind_ok (setSelf_run _ _), M.bind_ok (R.alignedVec cfg _)]
  refine M.bind_stop' ?_
  simp only [onWorld_run]
  exact withLocal_stop hf

theorem Realloc.freed {i : Nat} (wf : h.WF) : Realloc h (some i) (h.free i) none :=
  ⟨wf.free i, Nat.le_refl _, fun j h1 _ => by simp only [Heap.free]; rw [if_neg (fun e => h1 (by rw [e]))],
    fun _ j hj => by cases hj; simp [Heap.free], fun _ j hj => by cases hj⟩

/-- After any success of `reserve` the vector of chunks owns a block of its capacity. -/
theorem reserve_block (R : Repr Γ w.heap t es v) (wf : w.heap.WF) {k : Nat} {j C : Nat} {l : Nat} {m : Bytes} {w' : World U}
    (hres : RVec.reserve ⟨Γ.align t, Γ.align t⟩ k (v.chunkView, w) = (.ok (), (⟨some j, l, C, m⟩, w'))) :
    0 < C ∧ w'.heap.live j = some ⟨C * Γ.align t, Γ.align t⟩ := by
  have h1 := RVec.reserve_runs (align_pos Γ t) R.chunkGood wf k
  rw [Runs, hres] at h1
  rcases h1.1.block with ⟨_, h2⟩ | ⟨h2, i, h3, h4⟩
  · cases h2
  · cases h3
    exact ⟨h2, h4⟩

section
variable [HasDrop U V] [HasClone U V] [TableLaw V]

theorem grown_user {m : M (VecVoid × World U) Unit} {d : VecVoid} {u' : U} (C : ContIs Γ F O tb vt (c, w) (x, o))
    (hm : m (c.data, w) = (.ok (), (d, ⟨h', u'⟩))) (hx : XVec.Is Γ h' d x')
    (hty : ∀ t es cap, x' = .vec t es cap → t = tb) (re : Realloc w.heap c.data.ptr h' d.ptr) :
    Method Γ F O tb vt ((do VecCopy.onData m; return Obs.done : M (VecDyn V × World U) Obs) (c, w)) (.ok .done, (x', { o with user := u' })) := by
  rw [onData_done hm]
  have B := C.worlds.blocks.move re (fun i hi => (hx.lt re.wf i hi).1)
  exact .ok ⟨rfl, C.vtable, ⟨rfl, B⟩, hx, hty⟩

/-- `push_cloned` after room has been made for one more element. -/
theorem pushCloned_grown {cap : Nat} (C : ContIs Γ F O t vt (c, w) (.vec t es cap, o)) (ht : Tab Γ t vt) (hb : b.length = Γ.size t)
    {j K : Nat} (hres : RVec.reserve ⟨Γ.align t, Γ.align t⟩ c.data.elem.size (c.data.chunkView, w) =
      (.ok (), (⟨some j, c.data.len * c.data.elem.size, K, c.data.mem⟩, { w with heap := h' })))
    (re : Realloc w.heap c.data.ptr h' (some j)) {g : Bytes → M (XVec × Outside U) Obs}
    (hg : ∀ z u' (f : M (RVec × World U) Unit), z.length = Γ.size t → f (c.data.chunkView, w) =
        (.ok (), (⟨some j, (c.data.len + 1) * c.data.elem.size, K, c.data.mem ++ z⟩, ⟨h', u'⟩)) →
      Method Γ F O t vt ((do VecCopy.onData (VecVoid.applyAligned Γ cfg ⟨Γ.align t, Γ.align t⟩ f); return Obs.done : M (VecDyn V × World U) Obs) (c, w))
        (g z (.vec t es cap, { o with user := u' }))) :
    Method Γ F O t vt ((do
        VecCopy.onData (VecVoid.resizeWith Γ cfg (c.data.len + 1)
          (M.zoom (fun s => (s.1, s.2.user)) (fun t s => (t.1, { s.2 with user := t.2 })) (HasClone.cloneIntoRawFn c.vtable b)))
        return Obs.done : M (VecDyn V × World U) Obs) (c, w))
      ((losing (call (Γ.clone t b)) >>= g) (.vec t es cap, o)) := by
  obtain ⟨R, rfl, -⟩ := C.vec
  have ht' : Tab Γ t c.vtable := C.vtable ▸ ht
  have hl := lawfulClone_of ht'.clone ht'.cloneFrom ht'.cloneIntoRaw
  obtain ⟨f, hf1, -, hf⟩ := resizeWith_inner (cfg := cfg) R (M.zoom (fun s => (s.1, s.2.user)) (fun t s => (t.1, { s.2 with user := t.2 }))
    (HasClone.cloneIntoRawFn c.vtable b))
  obtain ⟨hK, hlive⟩ := reserve_block R C.wf hres
  have hz : (List.replicate (Γ.size t) (some (0 : UInt8))).length = Γ.size t := by simp
  have hdata : ∀ m : M (VecVoid × World U) Unit, m (c.data, w) = VecVoid.applyAligned Γ cfg ⟨Γ.align t, Γ.align t⟩ f (c.data, w) →
      (do VecCopy.onData m; return Obs.done : M (VecDyn V × World U) Obs) (c, w) =
      (do VecCopy.onData (VecVoid.applyAligned Γ cfg ⟨Γ.align t, Γ.align t⟩ f); return Obs.done : M (VecDyn V × World U) Obs) (c, w) := by
    intro m hm
    simp only [M.bind_run, VecCopy.onData_run, hm]
  rw [hdata _ hf1]
  rcases hc : Γ.clone t b w.user with ⟨rc, u'⟩
  rcases rc.cases with ⟨z, rfl⟩ | ⟨y, rfl⟩ | ⟨a, rfl⟩
  · have hraw := hl.raw_ok (b := b) (d := List.replicate (Γ.size t) (some 0)) hb hz hc
    have h1 := hf _ _ _ (.ok ()) z ⟨h', u'⟩ hres (by simp only [M.zoom_run, hraw]) (Γ.clone_len hc)
    have h2 : losing (call (Γ.clone t b)) (.vec t es c.data.cap, o) = (.ok z, (.vec t es c.data.cap, { o with user := u' })) := by
      simp only [losing, call, M.zoom_run, ← C.user, hc]
    rw [M.bind_ok h2]
    exact hg z u' f (Γ.clone_len hc) h1
  · have hraw := hl.raw_panic (b := b) (d := List.replicate (Γ.size t) (some 0)) hb hz hc
    have h1 := hf _ _ _ (.panic y) (List.replicate (Γ.size t) (some 0)) ⟨h', u'⟩ hres (by simp only [M.zoom_run, hraw]) hz
    have h2 : losing (call (Γ.clone t b)) (.vec t es c.data.cap, o) = (.panic y, (.unit 0, { o with user := u' })) := by
      simp only [losing, call, M.zoom_run, ← C.user, hc]
    rw [M.bind_panic h2]
    refine lost_method C.vtable ?_
    have hd : RVec.dropBuf ⟨Γ.align t, Γ.align t⟩ ⟨some j, (c.data.len + 1) * c.data.elem.size, K, c.data.mem ++ List.replicate (Γ.size t) (some 0)⟩
        (⟨h', u'⟩ : World U) = (.ok (), ⟨h'.free j, u'⟩) := by
      have hne : K * Γ.align t ≠ 0 := Nat.mul_ne_zero (by omega) (by have := align_pos Γ t; omega)
      simp only [RVec.dropBuf, worldHeap_run]
      rw [dealloc_live hlive hne]
    rw [applyAligned_panic R h1 hd]
    have W1 := C.worlds.move re (fun i hi => by cases hi; rw [hlive]; simp)
    have W2 := W1.move (Realloc.freed W1.wf) (fun i hi => by cases hi)
    exact .panic ⟨rfl, ⟨rfl, W2.blocks⟩, rfl⟩
  · have hraw := raw_stop (d := List.replicate (Γ.size t) (some 0)) ht' hb hc
    have h1 := hf _ _ _ (.stop a) (List.replicate (Γ.size t) (some 0)) ⟨h', u'⟩ hres (by simp only [M.zoom_run, hraw]) hz
    have h2 : losing (call (Γ.clone t b)) (.vec t es c.data.cap, o) = (.stop a, (.vec t es c.data.cap, { o with user := u' })) := by
      simp only [losing, call, M.zoom_run, ← C.user, hc]
      cases a <;> rfl
    rw [M.bind_stop h2]
    refine lost_method C.vtable (.stop_of (applyAligned_stop R ?_))
    rw [h1]

theorem pushCloned_method {p : Place} {r : ValueRef V} (C : ContIs Γ F O tb vt (c, w) (x, o)) (ht : Tab Γ tb vt) (h0 : 0 < Γ.size tb)
    (P : PlaceIs Γ p r) :
    Method Γ F O tb vt ((do return Obs.ofUnit (← VecDyn.pushCloned Γ cfg r) : M (VecDyn V × World U) Obs) (c, w))
      (XVec.dynPushCloned Γ p (x, o)) := by
  have hno : c.elementTypeId ≠ r.type_id → Method Γ F O tb vt ((do return Obs.ofUnit (← VecDyn.pushCloned Γ cfg r) : M (VecDyn V × World U) Obs) (c, w))
      (.ok .refused, (x, o)) := fun h => by
    simp only [VecDyn.pushCloned, M.bind_run, getSelf_run, if_neg h]
    exact .ok ⟨rfl, C⟩
  have hyes : c.elementTypeId = r.type_id → ∀ q, Method Γ F O tb vt ((do
        VecCopy.onData (VecVoid.resizeWith Γ cfg (c.data.len + 1)
          (M.zoom (fun s => (s.1, s.2.user)) (fun t s => (t.1, { s.2 with user := t.2 })) (HasClone.cloneIntoRawFn c.vtable r.bytes)))
        return Obs.done : M (VecDyn V × World U) Obs) (c, w)) q →
      Method Γ F O tb vt ((do return Obs.ofUnit (← VecDyn.pushCloned Γ cfg r) : M (VecDyn V × World U) Obs) (c, w)) q := by
    intro he q h
    have : (do return Obs.ofUnit (← VecDyn.pushCloned Γ cfg r) : M (VecDyn V × World U) Obs) (c, w) = (do
        VecCopy.onData (VecVoid.resizeWith Γ cfg (c.data.len + 1)
          (M.zoom (fun s => (s.1, s.2.user)) (fun t s => (t.1, { s.2 with user := t.2 })) (HasClone.cloneIntoRawFn c.vtable r.bytes)))
        return Obs.done : M (VecDyn V × World U) Obs) (c, w) := by
      simp only [VecDyn.pushCloned, M.bind_run, getSelf_run, if_pos he]
      rcases (VecCopy.onData (VecVoid.resizeWith Γ cfg (c.data.len + 1)
          (M.zoom (fun s => (s.1, s.2.user)) (fun t s => (t.1, { s.2 with user := t.2 })) (HasClone.cloneIntoRawFn c.vtable r.bytes)))
          : M (VecDyn V × World U) Unit) (c, w) with ⟨q, s⟩
      cases q <;> rfl
    rw [this]
    exact h
  simp only [XVec.dynPushCloned]
  rw [M.bind_ok (M.get_run _)]
  cases x with
  | vec t es cap =>
    obtain ⟨R, rfl, rfl⟩ := C.vec
    have hty : c.elementTypeId = t := R.type_id
    by_cases hp : t = p.ty
    swap
    · simp only [if_neg hp]
      exact hno (by rw [hty, P.type_id]; exact hp)
    simp only [if_pos hp]
    refine hyes (by rw [hty, P.type_id]; exact hp) _ ?_
    have hb : r.bytes.length = Γ.size t := by rw [P.bytes, P.length, hp]
    rw [← P.bytes]
    have heach : ∀ z : Bytes, z.length = Γ.size t → ∀ e ∈ es ++ [z], e.length = Γ.size t := fun z hz => each_snoc R.each hz
    rcases R.room_cases C.wf (perElem Γ t) with ⟨h1, h2, h3⟩ | ⟨K, j, h', h1, h2, h3, h4, h5, h6, h7⟩ | ⟨h1, y, h2⟩ |
      ⟨h1, K, j, h', h2, h3, h4, h5, h6⟩
    · simp only [h1]
      obtain ⟨i, hi, hl⟩ := R.chunkBlock
      rw [← R.perElem_eq] at h2 h3
      have hv : c.data.chunkView = ⟨some i, c.data.len * c.data.elem.size, c.data.cap * c.data.elem.size, c.data.mem⟩ := by
        rw [← hi]; rfl
      refine pushCloned_grown C ht hb (j := i) (K := c.data.cap * c.data.elem.size) (h' := w.heap) (by rw [h2, hv]) (by rw [← hi]; exact Realloc.refl C.wf _) ?_
      intro z u' f hz hf
      have hle : es.length + 1 ≤ c.data.cap := Nat.le_of_mul_le_mul_right (by rw [Nat.succ_mul]; exact h3) R.chunk_pos
      refine grown_user C (applyAligned_ok R hf rfl rfl R.cap_pos) (x' := .vec t (es ++ [z]) c.data.cap) ⟨?_, rfl⟩ (fun _ _ _ e => by cases e; rfl)
        (by rw [← hi]; exact Realloc.refl C.wf _)
      have := R.setContent (es' := es ++ [z]) (by simpa using hle) (heach z hz)
      simpa [R.mem, R.len, hi] using this
    · simp only [h1]
      rw [← R.perElem_eq] at h2 h6
      refine pushCloned_grown C ht hb h2 h3 ?_
      intro z u' f hz hf
      have hle : es.length + 1 ≤ K := Nat.le_of_mul_le_mul_right (by rw [Nat.succ_mul]; exact h6) R.chunk_pos
      refine grown_user C (applyAligned_ok R hf rfl rfl (by omega)) (x' := .vec t (es ++ [z]) K) ⟨?_, rfl⟩ (fun _ _ _ e => by cases e; rfl) h3
      have := R.regrow (es' := es ++ [z]) (k := K) (heach z hz) (by simpa using hle) (by omega) h4 h7
      simpa [R.mem, R.len] using this
    · simp only [h1]
      rw [← R.perElem_eq] at h2
      obtain ⟨i, hi, hdrop⟩ := R.dropChunk
      obtain ⟨f, hf1, hf2, -⟩ := resizeWith_inner (cfg := cfg) R (M.zoom (fun s => (s.1, s.2.user)) (fun t s => (t.1, { s.2 with user := t.2 }))
        (HasClone.cloneIntoRawFn c.vtable r.bytes))
      refine lost_method C.vtable ?_
      rw [hf1, applyAligned_panic R (hf2 _ _ h2) hdrop]
      have W1 := C.worlds
      simp only [hi] at W1
      exact .panic ⟨rfl, W1.move (Realloc.freed W1.wf) (fun i hi => by cases hi), rfl⟩
    · simp only [h1]
      rw [← R.perElem_eq] at h2
      refine pushCloned_grown C ht hb h2 h3 ?_
      intro z u' f hz hf
      refine lost_method C.vtable ?_
      rw [applyAligned_badCap R hf h5 (by simp) h6]
      have W1 := C.worlds.move h3 (fun i hi => by cases hi; exact h4)
      exact .panic ⟨rfl, ⟨rfl, W1.leak.blocks⟩, rfl⟩
  | unit m =>
    have I := C.unit
    have hty : c.elementTypeId = Γ.unitTy := I.type_id
    by_cases hp : p.ty = Γ.unitTy
    swap
    · simp only [if_neg hp]
      exact hno (by rw [hty, P.type_id]; exact fun e => hp e.symm)
    simp only [if_pos hp]
    refine hyes (by rw [hty, P.type_id, hp]) _ ?_
    refine lost_method C.vtable ?_
    have hlen : r.bytes.length = 0 := by rw [P.bytes, P.length, hp, Γ.unit_size]
    have hraw : ∀ d u, HasClone.cloneIntoRawFn c.vtable r.bytes (d, u) = (.panic .assertion, (d, u)) := by
      intro d u
      have : (r.bytes.length == Γ.size tb) = false := by rw [hlen]; simp; omega
      rw [C.vtable, ht.cloneIntoRaw]
      simp only [cloneIntoRawBytes, this, M.bind_run, M.assert_false_run]
    have hrun : ∃ f : M (RVec × World U) Unit, VecVoid.resizeWith Γ cfg (c.data.len + 1)
        (M.zoom (fun s => (s.1, s.2.user)) (fun t s => (t.1, { s.2 with user := t.2 })) (HasClone.cloneIntoRawFn c.vtable r.bytes)) (c.data, w) =
        VecVoid.applyAligned Γ cfg ⟨Γ.align Γ.unitTy, Γ.align Γ.unitTy⟩ f (c.data, w) ∧
        f (c.data.chunkView, w) = (.panic .assertion, (c.data.chunkView, w)) := by
      refine ⟨_, by
        simp only [VecVoid.resizeWith]
        rw [M.bind_ok (getSelf_run _), I.align, evalAlign_align], ?_⟩
      have hn : c.data.elem.numBytes = 0 := by simp [ElemInfo.numBytes, I.good.size]
      rw [I.good.chunkView, M.bind_ok (getSelf_run _)]
      simp only [I.good.size, hn]
      rw [M.bind_ok (umul_zero_run _ _)]
      rw [M.bind_ok (a := ()) (s' := (⟨none, 0, 0, []⟩, w)) (by simp [RVec.resizeWith, RVec.truncate])]
      rw [M.bind_ok (getSelf_run _)]
      simp only [List.length_nil, Nat.zero_mul, Nat.add_zero, Nat.lt_irrefl, if_false, M.zoom_run, hraw]
      simp [splice]
    obtain ⟨f, h1, h2⟩ := hrun
    rw [h1, I.applyAligned_panic h2]
    have W := C.worlds
    simp only [I.ptr] at W
    exact .panic ⟨rfl, W, rfl⟩

/-! ### `push` -/

theorem Worlds.rotate {A B : List Nat} (W : Worlds F (A ++ (B ++ O)) w o) : Worlds F (B ++ (A ++ O)) w o :=
  ⟨W.user, W.blocks.perm (List.perm_append_comm_assoc _ _ _)⟩

theorem ContIs.toFrame {p : Ptr} (C : ContIs Γ F (p.toList ++ O) tb vt (c, w) (x, o)) :
    ContIs Γ (withBlock F p w.heap) O tb vt (c, w) (x, o) := ⟨C.vtable, C.worlds.rotate.toFrame, C.is, C.ty⟩

theorem ContIs.ofFrame {p : Ptr} {h0 : Heap} (C : ContIs Γ (withBlock F p h0) O tb vt (c, w) (x, o))
    (hp : ∀ i, p = some i → F i = none ∧ h0.live i ≠ none) :
    ContIs Γ F (p.toList ++ O) tb vt (c, w) (x, o) ∧ ∀ i, p = some i → w.heap.live i = h0.live i :=
  ⟨⟨C.vtable, (C.worlds.ofFrame hp).1.rotate, C.is, C.ty⟩, (C.worlds.ofFrame hp).2⟩

theorem push_method {r : BoxValue V} (C : ContIs Γ F (r.bytes.ptr.toList ++ O) tb vt (c, w) (x, o)) (B : IsBox Γ w.heap t b r)
    (ht : Tab Γ t r.vtable) :
    Method Γ F O tb vt ((do return Obs.ofUnit (← VecDyn.push Γ cfg r) : M (VecDyn V × World U) Obs) (c, w)) (XVec.dynPush Γ t b (x, o)) := by
  have hfree := C.worlds.rotate.blocks.free_of
  have hno : r.type_id ≠ c.elementTypeId → Method Γ F O tb vt ((do return Obs.ofUnit (← VecDyn.push Γ cfg r) : M (VecDyn V × World U) Obs) (c, w))
      ((do aside ((YItem.box t b).drop Γ); return .refused : M (XVec × Outside U) Obs) (x, o)) := fun h => by
    have hD := item_drop (cfg := cfg) (a := .box r) (b := .box t b) C.worlds.toFrame ⟨B, ht⟩
    have hcf := C.worlds.blocks.free_of
    have hback : ∀ w' o', Worlds (withBlock F c.data.ptr w.heap) O w' o' → ContIs Γ F O tb vt (c, w') (x, o') := fun w' o' W => by
      obtain ⟨W1, h1⟩ := W.ofFrame hcf
      exact ⟨C.vtable, W1, C.is.frame h1, C.ty⟩
    have hrun : (do return Obs.ofUnit (← VecDyn.push Γ cfg r) : M (VecDyn V × World U) Obs) (c, w) =
        (do onWorld r.drop; return Obs.refused : M (VecDyn V × World U) Obs) (c, w) := by
      simp only [VecDyn.push, M.bind_run, getSelf_run, if_neg h]
      rcases (onWorld r.drop : M (VecDyn V × World U) Unit) (c, w) with ⟨q, s⟩
      cases q <;> rfl
    rw [hrun]
    refine InStep.bind (Q := fun _ s _ q => ContIs Γ F O tb vt s q) (E := ContIs Γ F O tb vt) ?_ (fun _ _ _ _ C => .ok ⟨rfl, C⟩) (fun _ _ h => h)
    simp only [onWorld_run, aside, M.zoom_run]
    have hD' : InStep _ _ (Value.drop r w) _ := hD
    rcases h2 : (YItem.box t b).drop Γ o with ⟨q, o'⟩
    rw [h2] at hD'
    cases q with
    | ok a => obtain ⟨a', w', h3, h4⟩ := hD'; rw [h3]; exact .ok (hback _ _ h4)
    | panic a => obtain ⟨a', w', h3, h4⟩ := hD'; rw [h3]; exact .panic (hback _ _ h4)
    | ub => rcases h3 : Value.drop r w with ⟨q', w'⟩; rw [h3] at hD'; cases hD'; exact .ub
    | abort => rcases h3 : Value.drop r w with ⟨q', w'⟩; rw [h3] at hD'; cases hD'; exact .abort
  have hlen : r.bytes.bytes.length = Γ.size t := by rw [B.bytes, B.length]
  simp only [XVec.dynPush]
  rw [M.bind_ok (M.get_run _)]
  cases x with
  | vec t' es cap =>
    obtain ⟨R, rfl, rfl⟩ := C.vec
    have hty : c.elementTypeId = t' := R.type_id
    by_cases hp : t = t'
    swap
    · simp only [if_neg hp]
      exact hno (by rw [hty, B.type_id]; exact hp)
    subst hp
    simp only [if_true]
    rw [show (do return Obs.ofUnit (← VecDyn.push Γ cfg r) : M (VecDyn V × World U) Obs) (c, w) =
      (do M.thenDrop (VecCopy.onData (VecVoid.push Γ cfg b)) (onWorld r.bytes.dropPlain); return Obs.done :
        M (VecDyn V × World U) Obs) (c, w) by
      rw [M.bind_run, VecDyn.push_run R B]
      simp only [M.bind_run]
      rcases M.thenDrop (VecCopy.onData (VecVoid.push Γ cfg b)) (onWorld r.bytes.dropPlain) (c, w) with ⟨q, s⟩
      cases q <;> rfl]
    have hA : (XVec.push Γ t b (.vec t es c.data.cap)).Agrees Γ (do VecCopy.onData (VecVoid.push Γ cfg b); return Obs.done : M (VecDyn V × World U) Obs) c w :=
      Agrees.ofV (VecVoid.push_agrees R C.wf B.length) (push_not_ub _ _) fun _ _ _ h => onData_done h
    have hM := (C.toFrame.plain hA (push_ofTy C.toFrame.ty b)).unmap
    obtain ⟨h0, _⟩ | ⟨_, i, hpi, hl⟩ := B.block
    · have := R.pos; omega
    have hback : ∀ (c' : VecDyn V) (w' : World U) x' o', ContIs Γ (withBlock F r.bytes.ptr w.heap) O t vt (c', w') (x', o') →
        ContIs Γ F (r.bytes.ptr.toList ++ O) t vt (c', w') (x', o') ∧ w'.heap.live i = some (Γ.layout t) := by
      intro c' w' x' o' C'
      obtain ⟨h1, h2⟩ := C'.ofFrame hfree
      exact ⟨h1, by rw [h2 i hpi, hl]⟩
    have hne : Γ.size t ≠ 0 := by have := R.pos; omega
    have hX := push_not_ub (Γ := Γ) (t := t) (es := es) b c.data.cap
    rcases hm : (VecCopy.onData (VecVoid.push Γ cfg b) : M (VecDyn V × World U) Unit) (c, w) with ⟨q, c', w'⟩
    rw [hm] at hM
    by_cases ha : Γ.align t = 1
    · simp only [if_pos ha]
      have hdr : ∀ x' o', ContIs Γ (withBlock F r.bytes.ptr w.heap) O t vt (c', w') (x', o') →
          ∃ w'', (onWorld r.bytes.dropPlain : M (VecDyn V × World U) Unit) (c', w') = (.ok (), (c', w'')) ∧ ContIs Γ F O t vt (c', w'') (x', o') := by
        intro x' o' C'
        obtain ⟨C1, h1⟩ := hback _ _ _ _ C'
        refine ⟨{ w' with heap := w'.heap.free i }, ?_, ?_⟩
        · apply onWorld_of
          simp only [BoxBytes.dropPlain, worldHeap_run, hlen, hpi]
          rw [dealloc_live (by rw [h1, TyEnv.layout, ha]) hne]
        · have W := C1.worlds.toFrame
          rw [hpi] at W
          have W1 := W.move (Realloc.freed W.wf) (fun i hi => by cases hi)
          obtain ⟨W2, h2⟩ := W1.ofFrame C1.worlds.blocks.free_of
          exact ⟨C1.vtable, W2, C1.is.frame h2, C1.ty⟩
      rcases hq : XVec.plain (XVec.push Γ t b) (.vec t es c.data.cap, o) with ⟨q2, x', o'⟩
      rw [hq] at hM
      cases q2 with
      | ok a =>
        obtain ⟨_, s1, h1, h2, C'⟩ := hM
        cases h1
        obtain ⟨w'', h3, h4⟩ := hdr _ _ C'
        simp only [M.bind_run, M.thenDrop, hm, h3, M.pure_run]
        exact .ok ⟨h2, h4⟩
      | panic y =>
        obtain ⟨_, s1, h1, C'⟩ := hM
        cases h1
        obtain ⟨w'', h3, h4⟩ := hdr _ _ C'
        simp only [M.bind_run, M.thenDrop, hm, h3]
        exact .panic h4
      | ub => cases hM; simp only [M.bind_run, M.thenDrop, hm]; exact .ub
      | abort => cases hM; simp only [M.bind_run, M.thenDrop, hm]; exact .abort
    · simp only [if_neg ha]
      have hdr : ∀ x' o', ContIs Γ (withBlock F r.bytes.ptr w.heap) O t vt (c', w') (x', o') →
          (onWorld r.bytes.dropPlain : M (VecDyn V × World U) Unit) (c', w') = (.ub, (c', w')) := by
        intro x' o' C'
        obtain ⟨C1, h1⟩ := hback _ _ _ _ C'
        apply onWorld_of
        have h2 : ¬ (Γ.layout t = ⟨Γ.size t, 1⟩) := by intro e; exact ha (congrArg Layout.align e)
        simp only [BoxBytes.dropPlain, worldHeap_run, hlen, hpi, dealloc, hne, if_false, h1, Option.some.injEq, h2]
      rcases hq : XVec.plain (XVec.push Γ t b) (.vec t es c.data.cap, o) with ⟨q2, x', o'⟩
      rw [hq] at hM
      cases q2 with
      | ok a =>
        obtain ⟨_, s1, h1, h2, C'⟩ := hM
        cases h1
        simp only [M.bind_run, M.thenDrop, hm, hdr _ _ C']
        exact .ub
      | panic y =>
        obtain ⟨_, s1, h1, C'⟩ := hM
        cases h1
        simp only [M.bind_run, M.thenDrop, hm, hdr _ _ C']
        exact .ub
      | ub => cases hM; simp only [M.bind_run, M.thenDrop, hm]; exact .ub
      | abort =>
        simp only [XVec.plain] at hq
        rcases h9 : (XVec.push Γ t b (.vec t es c.data.cap)).out with _ | _ | _ <;> rw [h9] at hq <;> cases hq
  | unit m =>
    have I := C.unit
    have hty : c.elementTypeId = Γ.unitTy := I.type_id
    by_cases hp : t = Γ.unitTy
    swap
    · simp only [if_neg hp]
      exact hno (by rw [hty, B.type_id]; exact hp)
    simp only [if_pos hp]
    have hb0 : r.bytes.bytes = [] := List.eq_nil_of_length_eq_zero (by rw [hlen, hp, Γ.unit_size])
    have hub : (VecVoid.push Γ cfg [] (c.data, w)).1 = .ub := by
      simp only [VecVoid.push, M.bind_run, getSelf_run, I.align, evalAlign_align]
      rw [if_neg (by rw [Γ.unit_align]; simp)]
      simp only [VecVoid.applyAligned, M.bind_run, getSelf_run, setSelf_run, onWorld_run, withLocal, M.ub_run]
      rw [I.good.alignedVec (cfg := cfg) (σ := VecVoid × World U)]
    rcases hp2 : VecVoid.push Γ cfg [] (c.data, w) with ⟨q, d, w'⟩
    rw [hp2] at hub
    simp only at hub
    subst hub
    simp only [VecDyn.push, M.bind_run, getSelf_run, hty, B.type_id, hp, if_true, M.thenDrop, VecCopy.onData_run, hb0, hp2]
    exact .ub

end
end Dync
