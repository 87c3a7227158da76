import Verif.OwnVec
import Verif.HistoryDynPanic
import Verif.SafetyLemmas5
/-!
# Helper lemmas: who owns the elements of a `VecDyn`
-/
namespace Dync
variable {U V α : Type} {Γ : TyEnv (Ledger U)} {S : Values Γ} {t t' : TyId} {es : List Bytes} {x : Bytes}
  {w : World (Ledger U)} {cfg : Cfg} {v : VecVoid} {c : VecDyn V}

/-! ### `resize_with` by one element -/

theorem RVec.resizeWith_runs {T : Layout} {r : RVec} {W : Type} {w : World W} (hT : 0 < T.size) (g : VGood T w.heap r) (wf : w.heap.WF)
    {n : Nat} (hn : r.len ≤ n) {z : Bytes} (hz : z.length = T.size) : Runs (RVec.resizeWith T n z) (r, w)
      (fun _ s => VGood T s.2.heap s.1 ∧ Moved w.heap r.ptr s.2.heap s.1.ptr ∧ s.1.len = n ∧
        s.1.bytes = r.bytes ++ (List.replicate (n - r.len) z).flatten ∧ s.2.user = w.user) (fun s => s = (r, w)) := by
  unfold RVec.resizeWith
  refine Runs.bind_ok (b := (r, w)) (s' := (r, w)) rfl ?_
  simp only
  split
  · refine Runs.bind (RVec.reserve_runs hT g wf (n - r.len)) ?_
    rintro _ s ⟨h1, h2, h3, h4, h5, h6⟩
    refine ⟨h1.set (by omega) ?_, h2, rfl, by simp only [h4], h6⟩
    have hlen : (List.replicate (n - r.len) z).flatten.length = (n - r.len) * T.size := by
      rw [length_flatten_eq (n := T.size) (fun e he => by rw [(List.mem_replicate.1 he).2]; exact hz)]; simp
    rw [List.length_append, hlen, h1.bytes, h3, ← Nat.add_mul]
    congr 1; omega
  · have : n = r.len := by omega
    subst this
    have ht : RVec.truncate T r.len (r, w) = (.ok (), (r, w)) := by
      have : List.take (r.len * T.size) r.bytes = r.bytes := List.take_of_length_le (by rw [g.bytes]; exact Nat.le_refl _)
      simp [RVec.truncate, this]
    exact Runs.of_ok ht ⟨g, Moved.refl wf _, rfl, by simp, rfl⟩

/-- The closure that `push_cloned` passes to `resize_with`. -/
theorem cloneSlot_own (A : Acct Γ S) (w : World (Ledger U)) (hx : Usable S t x) (d : Bytes) :
    NoUb (M.zoom (fun s : Bytes × World (Ledger U) => (s.1, s.2.user)) (fun t s => (t.1, { s.2 with user := t.2 }))
        (cloneIntoRawBytes Γ t x)) (d, w)
      (fun _ s => S.valid t s.1 ∧ s.1.length = d.length ∧ Usr w s.2 [] [(t, s.1)])
      (fun s => s.1 = d ∧ Usr w s.2 [] []) :=
  NoUb.zoom ((cloneIntoRaw_own A w.user hx d).mono (fun _ _ h => ⟨h.1, h.2.1, rfl, h.2.2⟩) fun _ h => ⟨h.1, rfl, h.2⟩)

theorem VecVoid.pushCloned_own (A : Acct Γ S) (g : Cont Γ w.heap t es v) (hv : ∀ e ∈ es, S.valid t e) (wf : w.heap.WF)
    (hx : Usable S t x) :
    NoUb (VecVoid.resizeWith Γ cfg (v.len + 1) (M.zoom (fun s : Bytes × World (Ledger U) => (s.1, s.2.user))
        (fun t s => (t.1, { s.2 with user := t.2 })) (cloneIntoRawBytes Γ t x))) (v, w)
      (fun _ s => VStep Γ S t v w (objs t es) s) (fun s => VStep Γ S t v w (objs t es) s) := by
  unfold VecVoid.resizeWith
  refine NoUb.bind_ok (b := v) (s' := (v, w)) rfl ?_
  rcases g with R | ⟨u, rfl⟩
  · have ha := align_pos Γ t
    have hs := R.chunk_pos
    rw [R.align, evalAlign_align]
    have hnw : (v.len + 1) * v.elem.size ≤ usizeMax := by
      have h1 : (v.len + 1) * v.elem.size ≤ 2 * v.cap * v.elem.size := by
        refine Nat.mul_le_mul_right _ ?_
        have := R.len_le; have := R.cap_pos; omega
      have h2 : v.cap * v.elem.size * 1 ≤ v.cap * v.elem.size * Γ.align t := Nat.mul_le_mul_left _ ha
      have h3 := R.room
      unfold Room at h3
      rw [Nat.mul_assoc _ _ (Γ.align t), R.chunks] at h2
      rw [Nat.mul_assoc 2] at h1
      have h4 : 2 * isizeMax ≤ usizeMax := by decide
      omega
    refine (applyAligned_list (Q := fun _ p w' => Eff w v.ptr (objs t es) w' p [])
      (P := fun _ w' es' => (∀ e ∈ es', S.valid t e) ∧ Own w.user w'.user (objs t es) (objs t es'))
      (E := fun w' => Eff w v.ptr (objs t es) w' none []) R ?_).mono ?_ ?_
    · refine NoUb.bind_ok (b := v.chunkView) (s' := (v.chunkView, w)) rfl ?_
      simp only
      refine NoUb.bind_ok (umul_ok hnw _) ?_
      have hle : v.chunkView.len ≤ (v.len + 1) * v.elem.size := by
        simp only [VecVoid.chunkView]; exact Nat.mul_le_mul_right _ (Nat.le_succ _)
      refine NoUb.bind ((RVec.resizeWith_runs ha R.chunkGood wf hle (by simp)).noUb.mono (fun _ _ h => h) ?_) ?_
      · rintro s rfl
        exact (RVec.dropBuf_runs ha R.chunkGood wf).noUb.mono (fun _ w' h => (Eff.ofMoved h.1 h.2 _).lose) fun _ _ => trivial
      · rintro _ ⟨r, w1⟩ ⟨h1, h2, h3, h4, h5⟩
        simp only at h1 h2 h3 h4 h5
        refine NoUb.bind_ok (b := r) (s' := (r, w1)) rfl ?_
        have hoff : v.chunkView.len * Γ.align t = v.mem.length := by
          simp only [VecVoid.chunkView]; rw [Nat.mul_assoc, R.chunks, R.mem_len]
        have hz : (List.replicate ((v.len + 1) * v.elem.size - v.chunkView.len) (List.replicate (Γ.align t) (some (0 : UInt8)))).flatten =
            List.replicate (Γ.size t) (some 0) := by
          have : (v.len + 1) * v.elem.size - v.chunkView.len = v.elem.size := by
            simp only [VecVoid.chunkView]; rw [Nat.succ_mul]; omega
          rw [this, List.flatten_replicate_replicate, R.chunks]
        rw [hz] at h4
        have hmem : v.chunkView.bytes = v.mem := rfl
        rw [hmem] at h4
        rw [if_neg (by rw [h3]; omega), if_neg (by rw [h4, hoff, R.numBytes]; simp)]
        have e1 := Eff.ofMoved h2 h5 (objs t es)
        refine NoUb.zoom ?_
        simp only
        have hslot : (r.bytes.drop (v.chunkView.len * Γ.align t)).take v.elem.numBytes = List.replicate (Γ.size t) (some 0) := by
          rw [h4, hoff, R.numBytes, List.drop_left]; simp
        rw [hslot]
        refine (cloneSlot_own A w1 hx _).mono ?_ ?_
        · rintro _ ⟨d, w2⟩ ⟨k1, k2, k3⟩
          simp only at k1 k2 k3 ⊢
          have hb : splice r.bytes (v.chunkView.len * Γ.align t) d = (es ++ [d]).flatten := by
            rw [h4, hoff]
            have hd : d.length = Γ.size t := S.len t d k1
            rw [splice, List.take_left, List.drop_of_length_le (by simp [hd]), R.mem]
            simp
          have hw2 : w2.heap = w1.heap := k3.1
          have e2 := e1.andThen k3
          refine ⟨?_, ?_, e2.mono (fun a => by simp) fun a => by simp⟩
          · rw [hw2]
            refine h1.set h1.len_le ?_
            rw [hb, length_flatten_eq (each_snoc R.each (S.len t d k1)), h3]
            simp only [List.length_append, List.length_singleton]
            rw [← R.len, ← R.chunks, Nat.mul_assoc]
          · intro n hn
            refine ⟨es ++ [d], hb, each_snoc R.each (S.len t d k1), ?_, ?_⟩
            · intro y hy
              rcases List.mem_append.1 hy with hy | hy
              · exact hv y hy
              · rw [List.mem_singleton.1 hy]; exact k1
            · rw [objs_append]
              exact e2.2.mono (fun a => by simp) fun a => Nat.le_refl _
        · rintro ⟨d, w2⟩ ⟨k1, k3⟩
          simp only at k1 k3 ⊢
          subst k1
          have hw2 : w2.heap = w1.heap := k3.1
          have e2 := e1.andThen k3
          have hg : VGood ⟨Γ.align t, Γ.align t⟩ w2.heap { r with bytes := splice r.bytes (v.chunkView.len * Γ.align t) (List.replicate (Γ.size t) (some 0)) } := by
            rw [hw2]
            refine h1.set h1.len_le ?_
            rw [← h1.bytes, h4, hoff, splice, List.take_left]
            simp
          refine (RVec.dropBuf_runs ha hg e2.wf).noUb.mono (fun _ w3 h => ?_) fun _ _ => trivial
          exact ((e2.thenMoved h.1 h.2).lose).mono (fun a => by simp) fun a => Nat.le_refl _
    · rintro _ ⟨v1, w1⟩ ⟨⟨es', h1, h2, h3⟩, h4⟩
      exact ⟨es', .inl h1, h2, h4.1, h3⟩
    · rintro ⟨v1, w1⟩ ⟨rfl, h | ⟨_, p, h⟩⟩
      · exact VStep.lost h
      · exact VStep.lost h
  · rw [u.elem]
    simp only [ElemInfo.new, evalAlign_align]
    have hp : v.ptr = none := u.ptr
    refine (UGood.applyAlignedN (E := fun w' => Eff w v.ptr (objs t []) w' none []) u ?_).mono (fun _ _ h => h.elim) ?_
    · refine NoUb.bind_ok (b := ⟨none, 0, 0, []⟩) (s' := (⟨none, 0, 0, []⟩, w)) rfl ?_
      simp only
      have hsz : Γ.size Γ.unitTy / Γ.align Γ.unitTy = 0 := by rw [Γ.unit_size]; simp
      refine NoUb.bind_ok (umul_ok (by rw [hsz]; simp) _) ?_
      refine NoUb.bind_ok (b := ()) (s' := (⟨none, 0, 0, []⟩, w)) (by rw [hsz]; simp [RVec.resizeWith, RVec.truncate]) ?_
      refine NoUb.bind_ok (b := ⟨none, 0, 0, []⟩) (s' := (⟨none, 0, 0, []⟩, w)) rfl ?_
      simp only [List.length_nil, ElemInfo.numBytes, hsz, Nat.zero_mul, Nat.add_zero, Nat.lt_irrefl, if_false]
      refine NoUb.zoom ?_
      refine (cloneSlot_own A w hx _).mono ?_ ?_
      · rintro _ ⟨d, w2⟩ ⟨k1, k2, k3⟩
        exact ((Eff.ofUsr wf v.ptr k3).lose).mono (fun a => by simp) fun a => Nat.le_refl _
      · rintro ⟨d, w2⟩ ⟨k1, k3⟩
        refine NoUb.of_ok (a := ()) (s' := w2) (by simp [RVec.dropBuf, worldHeap, dealloc]) ?_
        exact ((Eff.ofUsr wf v.ptr k3).lose).mono (fun a => by simp) fun a => Nat.le_refl _
    · rintro ⟨v', w'⟩ ⟨rfl, h⟩
      exact VStep.lost h

/-! ### Loops over mutable elements -/

/-- A loop over a mutable slice: `P` speaks about the elements already visited and those to come. -/
theorem NoUb.forEachMut {τ σ : Type} {body : M (τ × σ) Unit} {P : List τ → List τ → σ → Prop} {E : List τ → σ → Prop}
    (hb : ∀ done y rest s, P done (y :: rest) s →
      NoUb body (y, s) (fun _ q => P (done ++ [q.1]) rest q.2) (fun q => E (done ++ q.1 :: rest) q.2))
    {done xs : List τ} {s : σ} (h : P done xs s) :
    NoUb (Dync.forEachMut body) (xs, s) (fun _ q => P (done ++ q.1) [] q.2) (fun q => E (done ++ q.1) q.2) := by
  unfold NoUb Dync.forEachMut
  simp only
  induction xs generalizing done s with
  | nil => simp only [visitMut]; rw [List.append_nil]; exact h
  | cons y rest ih =>
    rcases (hb _ _ _ _ h).cases_on with ⟨_, ⟨y', s'⟩, e, h'⟩ | ⟨z, ⟨y', s'⟩, e, h'⟩ | ⟨⟨y', s'⟩, e⟩
    · have := ih h'
      simp only [visitMut, e]
      rcases hv : visitMut body rest s' with ⟨r, xs', s''⟩
      rw [hv] at this
      cases r with
      | ok _ => simp only at this ⊢; rwa [List.append_assoc] at this
      | panic _ => simp only at this ⊢; rwa [List.append_assoc] at this
      | ub => exact this
      | abort => exact trivial
    · simp only [visitMut, e]; exact h'
    · simp only [visitMut, e]

/-! ### Dropping and cloning -/

theorem Cont.byteChunks {σ : Type} {h : Heap} (g : Cont Γ h t es v) (s : σ) :
    (Repr Γ h t es v ∧ v.byteChunks s = (.ok es, s)) ∨ (es = [] ∧ UGood Γ v ∧ v.byteChunks s = (.panic .zeroChunk, s)) := by
  rcases g with R | ⟨u, rfl⟩
  · exact .inl ⟨R, VecCopy.byteChunks_ok R s⟩
  · refine .inr ⟨rfl, u, ?_⟩
    simp [VecVoid.byteChunks, VecVoid.bytes, u.numBytes, chunksExact, M.bind_run]

theorem VecDyn.drop_own [HasDrop (Ledger U) V] [HasClone (Ledger U) V] (A : Acct Γ S) (T : Tab Γ t c.vtable) (g : Cont Γ w.heap t es c.data) (hv : ∀ e ∈ es, S.valid t e)
    (wf : w.heap.WF) :
    NoUb (VecDyn.drop cfg c) w (fun _ w' => Eff w c.data.ptr (objs t es) w' none []) (fun w' => Eff w c.data.ptr (objs t es) w' none []) := by
  unfold VecDyn.drop
  rcases g.byteChunks w with ⟨R, e⟩ | ⟨rfl, u, e⟩
  · refine NoUb.bind_ok e ?_
    rw [T.drop]
    refine NoUb.bind ((A.dropLoop hv w).mono (fun _ _ h => h) fun w1 h => (Eff.ofUsr wf c.data.ptr h).lose) ?_
    rintro _ w1 h
    have e1 := Eff.ofUsr wf c.data.ptr h
    have R1 : Repr Γ w1.heap t es c.data := by rw [h.1]; exact R
    exact (VecVoid.drop_runs (cfg := cfg) (S := ⟨fun t b => b.length = Γ.size t, fun _ _ h => h, by simp [Γ.unit_size]⟩)
      (.inl ⟨t, es, R1, R.each⟩) e1.wf).noUb.mono (fun _ w2 h2 => e1.thenMoved h2.1 h2.2) fun _ h => h.elim
  · exact NoUb.bind_panic e (Eff.forget wf _ _)

theorem UGood.clone_panic {W : Type} {Γ : TyEnv U} (u : UGood Γ v) (w : World W) : VecVoid.clone cfg v w = (.panic .divZero, w) := by
  unfold VecVoid.clone
  rw [u.elem]
  simp only [ElemInfo.new, evalAlign_align]
  rw [M.bind_ok (u.alignedVec _), u.chunkView, M.bind_ok (a := ⟨none, 0, 0, []⟩) (s' := w) (by simp [RVec.withCapacity, Γ.unit_align, Heap.alloc]),
    M.bind_ok (a := ((), ⟨none, 0, 0, []⟩)) (s' := w)
      (by simp [withLocal, RVec.cloneFrom, RVec.clear, RVec.truncate, RVec.extendFromSlice, RVec.reserve])]
  simp [VecVoid.fromVecOverride, Γ.unit_size]

theorem objs_zip_snoc {t : TyId} {a b : List Bytes} {x : Bytes} : objs t (a ++ x :: b) = objs t a ++ [(t, x)] ++ objs t b := by
  simp

theorem VecDyn.clone_own [HasDrop (Ledger U) V] [HasClone (Ledger U) V] (A : Acct Γ S) (T : Tab Γ t c.vtable) (g : Cont Γ w.heap t es c.data) (hv : ∀ e ∈ es, S.valid t e)
    (wf : w.heap.WF) :
    NoUb (VecDyn.clone cfg c) w
      (fun d w' => d.vtable = c.vtable ∧ ∃ es', Repr Γ w'.heap t es' d.data ∧ (∀ e ∈ es', S.valid t e) ∧
        Eff w none [] w' d.data.ptr (objs t es')) (fun w' => Eff w none [] w' none []) := by
  unfold VecDyn.clone
  rcases g with R | ⟨u, rfl⟩
  · have hpos : c.data.cap * Γ.size t ≠ 0 :=
      Nat.mul_ne_zero (by have := R.cap_pos; omega) (by have := R.pos; omega)
    have hal := Heap.alloc_live (h := w.heap) (l := ⟨c.data.cap * Γ.size t, Γ.align t⟩) hpos
    have hR0 : Repr Γ (w.heap.alloc ⟨c.data.cap * Γ.size t, Γ.align t⟩).2 t es
        ⟨some w.heap.next, c.data.len, c.data.cap, c.data.elem, c.data.mem⟩ :=
      ⟨R.type_id, R.chunks, R.align, R.pos, R.mem, R.each, R.len, R.len_le, R.cap_pos, R.room, _, rfl, hal.2⟩
    have hmv := Moved.ofRealloc (fun i hi _ => by rw [hal.1] at hi; cases hi; exact Nat.le_refl _)
        (Realloc.ofAlloc wf ⟨c.data.cap * Γ.size t, Γ.align t⟩)
    rw [hal.1] at hmv
    refine NoUb.bind_ok (VecVoid.clone_spec (cfg := cfg) R) ?_
    have e0 : Eff w none [] { w with heap := (w.heap.alloc ⟨c.data.cap * Γ.size t, Γ.align t⟩).2 } (some w.heap.next) [] :=
      ⟨hmv, Own.refl _ _⟩
    generalize hw0 : ({ w with heap := (w.heap.alloc ⟨c.data.cap * Γ.size t, Γ.align t⟩).2 } : World (Ledger U)) = w0 at e0 ⊢
    have hR0' : Repr Γ w0.heap t es ⟨some w.heap.next, c.data.len, c.data.cap, c.data.elem, c.data.mem⟩ := by
      rw [← hw0]; exact hR0
    refine NoUb.bind (R := fun p w' => ∃ es', Repr Γ w'.heap t es' p.2 ∧ (∀ e ∈ es', S.valid t e) ∧
        Eff w none [] w' p.2.ptr (objs t es')) (NoUb.withLocal ?_) ?_
    · refine NoUb.bind_ok (VecCopy.byteChunks_ok R _) ?_
      refine NoUb.bind_ok (getSelf_run _) ?_
      refine NoUb.bind_ok (VecCopy.byteChunks_ok hR0' _) ?_
      have hfill : ∀ (ps : List (Bytes × Bytes)) (w1 : World (Ledger U)), w1.heap = w0.heap → ps.length = es.length →
          (∀ q ∈ ps, q.2.length = Γ.size t) → Repr Γ w1.heap t (ps.map Prod.snd)
            ⟨some w.heap.next, c.data.len, c.data.cap, c.data.elem, splice c.data.mem 0 (ps.map Prod.snd).flatten⟩ := by
        intro ps w1 h1 h2 h3
        have heach : ∀ e ∈ ps.map Prod.snd, e.length = Γ.size t := by
          intro e he; obtain ⟨p, hp, rfl⟩ := List.mem_map.1 he; exact h3 p hp
        have := hR0'.setContent (es' := ps.map Prod.snd) (by simp [h2]; exact R.len_cap) heach
        rw [h1, R.mem, splice_whole (by rw [length_flatten_eq heach, length_flatten_eq R.each, List.length_map, h2])]
        simp only [List.length_map, h2, ← R.len] at this
        exact this
      have hloop := NoUb.forEachMut (body := VecDyn.cloneInto c.vtable)
        (P := fun done rest w1 => Usr w0 w1 [] (objs t (done.map Prod.snd)) ∧ (∀ q ∈ done, S.valid t q.2) ∧
          (∀ q ∈ rest, S.valid t q.1 ∧ q.2.length = Γ.size t) ∧ done.length + rest.length = es.length)
        (E := fun ps w1 => Usr w0 w1 [] [] ∧ (∀ q ∈ ps, q.2.length = Γ.size t) ∧ ps.length = es.length)
        (done := []) (xs := es.zip es) (s := w0) ?_ ?_
      · refine NoUb.rearrange (n := forEachMut (VecDyn.cloneInto c.vtable)) (t := (es.zip es, w0))
          (f := fun q => (⟨some w.heap.next, c.data.len, c.data.cap, c.data.elem, splice c.data.mem 0 (q.1.map Prod.snd).flatten⟩, q.2))
          (hloop.mono ?_ ?_) rfl
        · rintro _ ⟨ps, w1⟩ ⟨h1, h2, h3, h4⟩
          simp only [List.nil_append] at h1 h2 h4
          refine ⟨ps.map Prod.snd, hfill ps w1 h1.1 (by simpa using h4) (fun q hq => S.len t _ (h2 q hq)), ?_, ?_⟩
          · intro e he; obtain ⟨p, hp, rfl⟩ := List.mem_map.1 he; exact h2 p hp
          · exact e0.andThen h1
        · rintro ⟨ps, w1⟩ ⟨h1, h2, h3⟩
          simp only [List.nil_append] at h1 h2 h3
          have hr := hfill ps w1 h1.1 h3 h2
          have e1 := e0.andThen h1
          refine (VecVoid.drop_runs (cfg := cfg) (S := ⟨fun t b => b.length = Γ.size t, fun _ _ h => h, by simp [Γ.unit_size]⟩)
            (.inl ⟨t, _, hr, hr.each⟩) e1.wf).noUb.mono (fun _ w2 h2 => ?_) fun _ _ => trivial
          exact (e1.thenMoved h2.1 h2.2).lose
      · rintro done ⟨x, d⟩ rest w1 ⟨h1, h2, h3, h4⟩
        have hx := h3 (x, d) (by simp)
        unfold VecDyn.cloneInto
        rw [T.cloneIntoRaw]
        refine NoUb.rearrange (n := cloneIntoRawBytes Γ t x) (t := (d, w1.user))
          (f := fun q => ((x, q.1), { w1 with user := q.2 })) ((cloneIntoRaw_own A w1.user (.inl hx.1) d).mono ?_ ?_) rfl
        · rintro _ ⟨d', l⟩ ⟨k1, k2, k3⟩
          simp only at k1 k2 k3 ⊢
          refine ⟨?_, ?_, fun q hq => h3 q (by simp [hq]), by simp at h4 ⊢; omega⟩
          · have := h1.seq (w2 := { w1 with user := l }) ⟨rfl, k3⟩
            rw [List.map_append, objs_append]
            exact this.mono (fun a => by simp) fun a => Nat.le_refl _
          · intro q hq
            rcases List.mem_append.1 hq with hq | hq
            · exact h2 q hq
            · rw [List.mem_singleton.1 hq]; exact k1
        · rintro ⟨d', l⟩ ⟨k1, k3⟩
          simp only at k1 k3 ⊢
          subst k1
          refine ⟨?_, ?_, by simp at h4 ⊢; omega⟩
          · have := h1.seq (w2 := { w1 with user := l }) ⟨rfl, k3⟩
            exact this.lose.mono (fun a => by simp) fun a => Nat.le_refl _
          · intro q hq
            rcases List.mem_append.1 hq with hq | hq
            · exact S.len t _ (h2 q hq)
            · exact (h3 _ hq).2
      · refine ⟨Usr.refl _ _, by simp, ?_, by simp⟩
        rintro ⟨x, d⟩ hq
        have := List.of_mem_zip hq
        exact ⟨hv _ this.1, R.each _ this.2⟩
    · rintro ⟨_, d⟩ w1 h
      exact ⟨rfl, h⟩
  · exact NoUb.bind_panic (u.clone_panic w) (Eff.forget wf _ _)

/-! ### Methods of a container -/

/-- What a method of a container does: afterwards the container holds values of its type. -/
def OStep (Γ : TyEnv (Ledger U)) (S : Values Γ) (t : TyId) (c : VecDyn V) (w : World (Ledger U)) (I : List Obj)
    (s : VecDyn V × World (Ledger U)) : Prop :=
  s.1.vtable = c.vtable ∧ VStep Γ S t c.data w I (s.1.data, s.2)

theorem OStep.refl (g : Cont Γ w.heap t es c.data) (hv : ∀ e ∈ es, S.valid t e) (wf : w.heap.WF) (G : List Obj) :
    OStep Γ S t c w (objs t es ++ G) (c, w) :=
  ⟨rfl, es, g, hv, (Eff.refl wf _ _).mono (fun _ => Nat.le_refl _) fun a => by simp⟩

/-- Afterwards only user code runs. -/
theorem OStep.andThen {I I' : List Obj} {c1 : VecDyn V} {w1 w2 : World (Ledger U)} (h : OStep Γ S t c w I (c1, w1))
    (h' : Usr w1 w2 I' []) : OStep Γ S t c w (I ++ I') (c1, w2) := by
  obtain ⟨h1, es', h2, h3, h4⟩ := h
  exact ⟨h1, es', by simp only at h2 ⊢; rw [h'.1]; exact h2, h3, (h4.andThen h').mono (fun _ => Nat.le_refl _) fun a => by simp⟩

theorem onData_own {m : M (VecVoid × World (Ledger U)) α} {I : List Obj} {w1 : World (Ledger U)}
    (h : NoUb m (c.data, w1) (fun _ s => VStep Γ S t c.data w I s) (fun s => VStep Γ S t c.data w I s)) :
    NoUb (VecCopy.onData m) (c, w1) (fun _ s => OStep Γ S t c w I s) (fun s => OStep Γ S t c w I s) :=
  NoUb.zoom (h.mono (fun _ _ h => ⟨rfl, h⟩) fun _ h => ⟨rfl, h⟩)

theorem VecCopy.pushAs_own (A : Acct Γ S) (g : Cont Γ w.heap t es c.data) (hv : ∀ e ∈ es, S.valid t e) (wf : w.heap.WF)
    (hu : t' ≠ Γ.unitTy) (hx : S.valid t' x) :
    NoUb (VecCopy.pushAs Γ cfg t' x) (c, w) (fun _ s => OStep Γ S t c w (objs t es ++ [(t', x)]) s)
      (fun s => OStep Γ S t c w (objs t es ++ [(t', x)]) s) := by
  unfold VecCopy.pushAs
  refine NoUb.bind_ok (b := c) (s' := (c, w)) rfl ?_
  simp only [VecCopy.checkRef]
  by_cases he : t' = c.elementTypeId
  · rcases g with R | ⟨u, _⟩
    · have : t' = t := by rw [he]; exact R.type_id
      subst this
      rw [if_neg (fun h => h he)]
      refine NoUb.bind (R := fun _ s => OStep Γ S t' c w (objs t' es ++ [(t', x)]) s) (onData_own ?_) fun _ _ h => h
      exact (VecVoid.pushTyped_own A R hv wf hx).mono (fun _ _ h => h.2) fun _ h => h
    · exact absurd (he.trans (by rw [VecCopy.elementTypeId, u.elem]; rfl)) hu
  · simp only [ne_eq, he, not_false_iff, if_true]
    refine NoUb.bind (R := fun _ s => OStep Γ S t c w (objs t es ++ [(t', x)]) s) (NoUb.onWorld ((A.dropW w hx).mono ?_ ?_)) fun _ _ h => h
    · rintro _ w1 h
      have := (OStep.refl (c := c) g hv wf []).andThen h
      simpa using this
    · rintro w1 h
      have := (OStep.refl (c := c) g hv wf []).andThen h
      simpa using this

theorem quietLoop (A : Acct Γ S) (q : Quiet Γ S t) {xs : List Bytes} (hx : ∀ x ∈ xs, S.valid t x) (c : VecDyn V) (w : World (Ledger U)) :
    NoUb (M.forEach xs fun b => (onWorld (worldUser (dropBytes Γ t b)) : M (VecDyn V × World (Ledger U)) Unit)) (c, w)
      (fun _ s => s.1 = c ∧ Usr w s.2 (objs t xs) []) (fun _ => False) := by
  refine (NoUb.forEach (P := fun rest s => (∀ x ∈ rest, S.valid t x) ∧ s.1 = c ∧ Usr w s.2 (objs t xs) (objs t rest)) ?_
    ⟨hx, rfl, Usr.refl _ _⟩).mono (fun _ _ h => h.2) fun _ h => h
  rintro x rest ⟨c1, w1⟩ ⟨h1, rfl, h2⟩
  simp only at h2
  have hv := h1 x (by simp)
  refine NoUb.onWorld ?_
  have h3 := (dropBytes_own A w1 (.inl hv)).cases_on
  obtain ⟨u', hq⟩ := q x w1.user hv
  have hrun : worldUser (dropBytes Γ t x) w1 = (.ok (), { w1 with user := u' }) := by
    simp [worldUser, dropBytes, M.bind_run, S.len t x hv, hq]
  rcases h3 with ⟨_, w2, e, h⟩ | ⟨y, w2, e, h⟩ | ⟨w2, e⟩
  · refine NoUb.of_ok e ⟨fun y hy => h1 y (by simp [hy]), rfl, ?_⟩
    exact h2.trans ((h.frame (objs t rest)).mono (fun a => by simp [objs]) fun a => Nat.le_refl _)
  · rw [hrun] at e; cases e
  · rw [hrun] at e; cases e

theorem VecDyn.clear_own [HasDrop (Ledger U) V] [HasClone (Ledger U) V] (A : Acct Γ S) (T : Tab Γ t c.vtable) (q : Repr Γ w.heap t es c.data → Quiet Γ S t) (g : Cont Γ w.heap t es c.data) (hv : ∀ e ∈ es, S.valid t e)
    (wf : w.heap.WF) :
    NoUb (VecDyn.clear Γ cfg) (c, w) (fun _ s => OStep Γ S t c w (objs t es) s) (fun s => OStep Γ S t c w (objs t es) s) := by
  have g0 := g
  unfold VecDyn.clear
  refine NoUb.bind_ok (b := c) (s' := (c, w)) rfl ?_
  rcases g.byteChunks (c, w) with ⟨R, e⟩ | ⟨rfl, u, e⟩
  · refine NoUb.bind_ok e ?_
    rw [T.drop]
    refine NoUb.bind ((quietLoop A (q R) hv c w).mono (fun _ _ h => h) fun _ h => h.elim) ?_
    rintro _ ⟨c1, w1⟩ ⟨rfl, h⟩
    simp only at h
    have R1 : Repr Γ w1.heap t es c1.data := by rw [h.1]; exact R
    refine onData_own ?_
    have := VecVoid.clear_spec (cfg := cfg) R1
    refine NoUb.of_ok this ?_
    refine ⟨[], .inl (R1.setContent (Nat.zero_le _) (by simp)), by simp, ?_⟩
    exact Eff.ofUsr wf _ h
  · refine NoUb.bind_panic e ?_
    have := OStep.refl (S := S) (c := c) g0 hv wf []
    simpa using this

theorem Repr.truncated {h : Heap} (R : Repr Γ h t es v) {n : Nat} (hn : n ≤ v.len) :
    Repr Γ h t (es.take n) ⟨v.ptr, n, v.cap, v.elem, v.mem.take (n * Γ.size t)⟩ := by
  have h1 := R.setContent (es' := es.take n) (by rw [List.length_take]; have := R.len_cap; omega)
    (fun e he => R.each e (List.mem_of_mem_take he))
  have h2 : (es.take n).length = n := by rw [List.length_take, ← R.len]; omega
  rw [h2] at h1
  rw [R.mem, take_flatten R.each]
  exact h1

end Dync
