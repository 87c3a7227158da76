import Verif.SafetyLemmas4
/-!
# Helper lemmas: reading and writing through a `VecCopy`
-/
namespace Dync
variable {U V α σ : Type} {Γ : TyEnv U} {S : Values Γ} {t : TyId} {es : List Bytes} {c : VecCopy V} {w : World U} {cfg : Cfg}

theorem Runs.of_bind_pure {β : Type} {m : M σ α} {s : σ} {b : β} {Q : σ → Prop} {E : σ → Prop}
    (h : Runs (m >>= fun _ => Pure.pure b) s (fun _ s' => Q s') E) : Runs m s (fun _ s' => Q s') E := by
  unfold Runs at h ⊢
  rw [M.bind_run] at h
  rcases hm : m s with ⟨r, s'⟩
  rw [hm] at h
  cases r <;> exact h

theorem splice_over {l b : Bytes} (h : l.length ≤ b.length) : splice l 0 b = b := by
  unfold splice
  rw [List.take_zero, List.nil_append, Nat.zero_add, List.drop_eq_nil_of_le h, List.append_nil]

namespace VecCopy

/-- The elements of a healthy container are overwritten by others. -/
theorem mem_step (R : Repr Γ w.heap t es c.data) (wf : w.heap.WF) {es' : List Bytes} (hl : es'.length = es.length)
    (hv : ∀ e ∈ es', S.valid t e) :
    CStep Γ S (c, w) ({ c with data := { c.data with mem := es'.flatten } }, w) := by
  refine ⟨Moved.refl wf _, rfl, .inl ⟨t, es', ?_, hv⟩⟩
  exact ⟨R.type_id, R.chunks, R.align, R.pos, rfl, fun e he => S.len t e (hv e he), R.len.trans hl.symm, R.len_le, R.cap_pos, R.room, R.block⟩

theorem repr_type (R : Repr Γ w.heap t es c.data) (t' : TyId) : c.checkRef t' = if t' = t then some c else none := by
  rw [checkRef_eq, R.type_id]

theorem unit_type (u : UGood Γ c.data) (t' : TyId) : c.checkRef t' = if t' = Γ.unitTy then some c else none := by
  rw [checkRef_eq, u.elem]
  rfl

theorem unit_same (u : UGood Γ c.data) : ({ c with data := { c.data with mem := [] } } : VecCopy V) = c := by
  have := u.mem
  cases c with
  | mk d vt =>
    cases d
    simp_all

theorem repr_elem (R : Repr Γ w.heap t es c.data) : c.data.elem = ElemInfo.new Γ t := by
  rcases hE : c.data.elem with ⟨a, b, d⟩
  have h1 := R.type_id
  have h2 := R.chunks
  have h3 := R.align
  rw [hE] at h1 h2 h3
  simp only at h1 h2 h3
  subst h1 h3
  simp only [ElemInfo.new, ← h2]
  rw [Nat.mul_div_cancel _ (align_pos Γ a)]

theorem repr_numBytes (R : Repr Γ w.heap t es c.data) : c.data.elem.numBytes = Γ.size t := by
  rw [repr_elem R, numBytes_new]

theorem repr_bytes (R : Repr Γ w.heap t es c.data) : c.data.bytes = .ok es.flatten := by
  have h1 : c.data.mem.length = es.length * Γ.size t := by rw [R.mem, length_flatten_eq R.each]
  unfold VecVoid.bytes
  rw [repr_numBytes R, R.len, if_pos (by omega), ← h1, List.take_length, R.mem]

theorem unit_bytes (u : UGood Γ c.data) : c.data.bytes = .ok [] := by
  unfold VecVoid.bytes
  rw [u.numBytes, u.mem]
  simp

theorem getAs_runs (g : Good Γ S w.heap c.data) (t' : TyId) (i : Nat) (st : σ) :
    Runs (c.getAs Γ t' i) st (fun r st' => st' = st ∧ ∀ b, r = some b → S.valid t' b) (fun st' => st' = st) := by
  unfold getAs
  refine Runs.bind (R := fun _ st' => st' = st ∧ i < c.len) (Runs.assert (fun e => ⟨rfl, of_decide_eq_true e⟩) fun _ => rfl) ?_
  rintro _ s0 ⟨hs0, hi⟩
  rw [hs0]
  rcases g with ⟨t, es, R, hv⟩ | u
  · rw [repr_type R]
    by_cases ht : t' = t
    · subst ht
      rw [if_pos rfl]
      have hi' : i < es.length := by rw [← R.len]; exact hi
      have h1 : (i + 1) * Γ.size t' ≤ c.data.mem.length := by
        rw [R.mem, length_flatten_eq R.each]
        exact Nat.mul_le_mul_right _ hi'
      simp only [h1, if_true]
      refine ⟨rfl, ?_⟩
      intro b hb
      cases hb
      have := elem_at R.each [] hi'
      rw [List.append_nil] at this
      rw [R.mem, this]
      exact hv _ (List.getElem_mem hi')
    · rw [if_neg ht]
      exact ⟨rfl, fun b hb => by cases hb⟩
  · rw [unit_type u]
    by_cases ht : t' = Γ.unitTy
    · subst ht
      rw [if_pos rfl]
      simp only [Γ.unit_size, Nat.mul_zero, Nat.zero_le, if_true]
      refine ⟨rfl, ?_⟩
      intro b hb
      cases hb
      rw [u.mem]
      exact S.unit
    · rw [if_neg ht]
      exact ⟨rfl, fun b hb => by cases hb⟩

theorem asSliceAs_runs (g : Good Γ S w.heap c.data) (t' : TyId) (st : σ) :
    Runs (c.asSliceAs Γ t') st (fun r st' => st' = st ∧ ∀ xs, r = some xs → ∀ x ∈ xs, S.valid t' x) (fun st' => st' = st) := by
  unfold asSliceAs
  rcases g with ⟨t, es, R, hv⟩ | u
  · rw [repr_type R]
    by_cases ht : t' = t
    · subst ht
      rw [if_pos rfl]
      have h1 : typedSlice (Γ.size t') c.len c.data.mem = .ok es := by
        have := typedSlice_cat R.each []
        rw [List.append_nil, ← R.mem, ← R.len] at this
        exact this
      simp only [h1]
      refine ⟨rfl, ?_⟩
      intro xs hx
      cases hx
      exact hv
    · rw [if_neg ht]
      exact ⟨rfl, fun b hb => by cases hb⟩
  · rw [unit_type u]
    by_cases ht : t' = Γ.unitTy
    · subst ht
      rw [if_pos rfl]
      have h1 : typedSlice (Γ.size Γ.unitTy) c.len c.data.mem = .ok ((List.range c.len).map fun _ => []) := by
        unfold typedSlice
        rw [Γ.unit_size, u.mem]
        simp
      simp only [h1]
      refine ⟨rfl, ?_⟩
      intro xs hx x hm
      cases hx
      obtain ⟨_, _, rfl⟩ := List.mem_map.1 hm
      exact S.unit
    · rw [if_neg ht]
      exact ⟨rfl, fun b hb => by cases hb⟩

theorem iter_runs (g : Good Γ S w.heap c.data) (st : σ) :
    Runs c.iter st (fun vs st' => st' = st ∧ ∀ v ∈ vs, v.type_id = c.data.elem.type_id ∧ S.valid c.data.elem.type_id v.bytes) (fun st' => st' = st) := by
  unfold iter VecVoid.byteChunks
  rcases g with ⟨t, es, R, hv⟩ | u
  · have h0 : Γ.size t ≠ 0 := by have := R.pos; omega
    rw [repr_bytes R, repr_numBytes R]
    have h1 : chunksExact (Γ.size t) es.flatten = .ok es := by
      unfold chunksExact
      rw [if_neg h0, chunks_flatten R.pos R.each]
    refine Runs.bind (R := fun cs st' => st' = st ∧ cs = es) ?_ ?_
    · refine Runs.bind_ok (b := es.flatten) (s' := st) rfl ?_
      rw [h1]
      exact ⟨rfl, rfl⟩
    · rintro _ s0 ⟨hs0, rfl⟩
      refine ⟨hs0, ?_⟩
      intro v hm
      obtain ⟨e, he, rfl⟩ := List.mem_map.1 hm
      refine ⟨rfl, ?_⟩
      rw [R.type_id]
      exact hv e he
  · rw [unit_bytes u, u.numBytes]
    exact Runs.panic (y := .zeroChunk) rfl

theorem getRef_runs (g : Good Γ S w.heap c.data) (hd : cfg.debug = true) (i : Nat) (st : σ) :
    Runs (c.getRef cfg i) st (fun v st' => st' = st ∧ S.valid v.type_id v.bytes) (fun st' => st' = st) := by
  unfold getRef
  refine Runs.bind (R := fun _ st' => st' = st ∧ i < c.len) (Runs.debugAssert (fun e => ⟨rfl, of_decide_eq_true (e hd)⟩) fun _ _ => rfl) ?_
  rintro _ s0 ⟨hs0, hi⟩
  rw [hs0]
  refine Runs.bind (R := fun n st' => st' = st ∧ n = i * c.data.elem.numBytes) (Runs.umul_nowrap (.inl hd) (fun _ => ⟨rfl, rfl⟩) rfl) ?_
  rintro _ s0 ⟨hs0, rfl⟩
  rw [hs0]
  rcases g with ⟨t, es, R, hv⟩ | u
  · have hi' : i < es.length := by rw [← R.len]; exact hi
    rw [repr_numBytes R]
    have h1 : i * Γ.size t + Γ.size t ≤ c.data.mem.length := by
      rw [R.mem, length_flatten_eq R.each]
      have : (i + 1) * Γ.size t ≤ es.length * Γ.size t := Nat.mul_le_mul_right _ hi'
      rw [Nat.add_mul, Nat.one_mul] at this
      omega
    rw [if_pos h1]
    refine ⟨rfl, ?_⟩
    have := elem_at R.each [] hi'
    rw [List.append_nil] at this
    show S.valid c.data.elem.type_id ((c.data.mem.drop (i * Γ.size t)).take (Γ.size t))
    rw [R.mem, this, R.type_id]
    exact hv _ (List.getElem_mem hi')
  · rw [u.numBytes, if_pos (by simp)]
    refine ⟨rfl, ?_⟩
    show S.valid c.data.elem.type_id _
    rw [u.elem, u.mem]
    exact S.unit

/-! ### Writing -/

theorem splice_one (h : ∀ e ∈ es, e.length = Γ.size t) {i : Nat} (hi : i < es.length) {x : Bytes} (hx : x.length = Γ.size t) :
    splice es.flatten (i * Γ.size t) x = (es.set i x).flatten := by
  unfold splice
  rw [hx]
  have h1 : i * Γ.size t + Γ.size t = (i + 1) * Γ.size t := by rw [Nat.add_mul, Nat.one_mul]
  rw [h1, take_flatten h, drop_flatten h, List.set_eq_take_append_cons_drop, if_pos hi]
  simp

theorem set_valid (hv : ∀ e ∈ es, S.valid t e) {i : Nat} {x : Bytes} (hx : S.valid t x) : ∀ e ∈ es.set i x, S.valid t e := by
  intro e he
  rcases List.mem_or_eq_of_mem_set he with h | h
  · exact hv e h
  · rw [h]; exact hx

theorem setAs_runs (g : Good Γ S w.heap c.data) (wf : w.heap.WF) {t' : TyId} {i : Nat} {x : Bytes} (hx : S.valid t' x) :
    Runs (getMutAs Γ t' i (M.modify fun s => (x, s.2))) (c, w) (fun _ s => CStep Γ S (c, w) s) (fun s => CStep Γ S (c, w) s) := by
  unfold getMutAs
  refine Runs.bind_ok (b := c) (s' := (c, w)) rfl ?_
  refine Runs.bind (R := fun _ s => s = (c, w) ∧ i < c.len) (Runs.assert (fun e => ⟨rfl, of_decide_eq_true e⟩) fun _ => CStep.refl g wf) ?_
  rintro _ s0 ⟨hs0, hi⟩
  rw [hs0]
  have g0 := g
  rcases g with ⟨t, es, R, hv⟩ | u
  · rw [repr_type R]
    by_cases ht : t' = t
    · subst ht
      rw [if_pos rfl]
      have hi' : i < es.length := by rw [← R.len]; exact hi
      have h1 : (i + 1) * Γ.size t' ≤ c.data.mem.length := by
        rw [R.mem, length_flatten_eq R.each]
        exact Nat.mul_le_mul_right _ hi'
      simp only [h1, if_true]
      refine Runs.bind_ok (b := ()) (s' := ({ c with data := { c.data with mem := splice c.data.mem (i * Γ.size t') x } }, w)) rfl ?_
      have := mem_step R wf (es' := es.set i x) (by simp) (set_valid hv hx)
      rw [R.mem, splice_one R.each hi' (S.len t' x hx)]
      exact this
    · rw [if_neg ht]
      exact CStep.refl g0 wf
  · rw [unit_type u]
    by_cases ht : t' = Γ.unitTy
    · subst ht
      rw [if_pos rfl]
      have hx0 : x = [] := List.eq_nil_of_length_eq_zero (by rw [S.len _ x hx, Γ.unit_size])
      subst hx0
      simp only [Γ.unit_size, Nat.mul_zero, Nat.zero_le, if_true]
      refine Runs.bind_ok (b := ()) (s' := (c, w)) ?_ (CStep.refl g0 wf)
      have := unit_same u
      simp [M.modify, splice, u.mem, this]
    · rw [if_neg ht]
      exact CStep.refl g0 wf

theorem setValue_runs (g : Good Γ S w.heap c.data) (wf : w.heap.WF) (hd : cfg.debug = true) {t' : TyId} {i : Nat} {x : Bytes}
    (hx : S.valid t' x) :
    Runs (getMut cfg i (M.zoom Prod.fst (fun v s => (v, s.2)) (do
        let self ← M.get
        CopyValue.copy (CopyValue.new Γ t' self.vtable x)))) (c, w) (fun _ s => CStep Γ S (c, w) s) (fun s => CStep Γ S (c, w) s) := by
  unfold getMut
  refine Runs.bind_ok (b := c) (s' := (c, w)) rfl ?_
  refine Runs.bind (R := fun _ s => s = (c, w) ∧ i < c.len)
    (Runs.debugAssert (fun e => ⟨rfl, of_decide_eq_true (e hd)⟩) fun _ _ => CStep.refl g wf) ?_
  rintro _ s0 ⟨hs0, hi⟩
  rw [hs0]
  refine Runs.bind (R := fun n s => s = (c, w) ∧ n = i * c.data.elem.numBytes)
    (Runs.umul_nowrap (.inl hd) (fun _ => ⟨rfl, rfl⟩) (CStep.refl g wf)) ?_
  rintro _ s0 ⟨hs0, rfl⟩
  rw [hs0]
  have g0 := g
  rcases g with ⟨t, es, R, hv⟩ | u
  · have hi' : i < es.length := by rw [← R.len]; exact hi
    rw [repr_numBytes R]
    have h1 : i * Γ.size t + Γ.size t ≤ c.data.mem.length := by
      rw [R.mem, length_flatten_eq R.each]
      have : (i + 1) * Γ.size t ≤ es.length * Γ.size t := Nat.mul_le_mul_right _ hi'
      rw [Nat.add_mul, Nat.one_mul] at this
      omega
    rw [if_pos h1]
    have hel := elem_at R.each [] hi'
    rw [List.append_nil, ← R.mem] at hel
    have hvi := hv _ (List.getElem_mem hi')
    by_cases ht : t' = t
    · subst ht
      have hl : es[i].length = x.length := by rw [S.len t' _ hvi, S.len t' x hx]
      refine Runs.of_ok (a := some ()) (s' := ({ c with data := { c.data with mem := (es.set i x).flatten } }, w)) ?_
        (mem_step R wf (by simp) (set_valid hv hx))
      simp only [M.zoom_run, hel]
      have hE := R.type_id
      simp [CopyValue.copy, VecCopy.valueOf, elementTypeId, CopyValue.new, hE, sliceCopyFrom, hl]
      refine ⟨rfl, ?_⟩
      rw [R.mem]
      exact splice_one R.each hi' (S.len t' x hx)
    · refine Runs.of_ok (a := none) (s' := ({ c with data := { c.data with mem := (es.set i es[i]).flatten } }, w)) ?_
        (mem_step R wf (by simp) (set_valid hv hvi))
      simp only [M.zoom_run, hel]
      have hE := R.type_id
      have ht' : ¬ t = t' := fun h => ht h.symm
      simp only [CopyValue.copy, VecCopy.valueOf, elementTypeId, CopyValue.new, hE]
      have hs := splice_one R.each hi' (S.len t _ hvi)
      rw [← R.mem] at hs
      simp [ht', hs]
  · rw [u.numBytes, if_pos (by simp)]
    by_cases ht : t' = Γ.unitTy
    · subst ht
      have hx0 : x = [] := List.eq_nil_of_length_eq_zero (by rw [S.len _ x hx, Γ.unit_size])
      subst hx0
      refine Runs.of_ok (a := some ()) (s' := (c, w)) ?_ (CStep.refl g0 wf)
      have := unit_same u
      have hE : c.data.elem.type_id = Γ.unitTy := by rw [u.elem]; rfl
      simp [M.zoom_run, CopyValue.copy, VecCopy.valueOf, elementTypeId, CopyValue.new, hE, sliceCopyFrom, u.mem]
      refine ⟨rfl, ?_⟩
      exact this
    · refine Runs.of_ok (a := none) (s' := (c, w)) ?_ (CStep.refl g0 wf)
      have := unit_same u
      have hE : c.data.elem.type_id = Γ.unitTy := by rw [u.elem]; rfl
      have ht' : ¬ Γ.unitTy = t' := fun h => ht h.symm
      simp [M.zoom_run, CopyValue.copy, VecCopy.valueOf, elementTypeId, CopyValue.new, hE, u.mem, ht', splice, this]

theorem fill_runs (g : Good Γ S w.heap c.data) (wf : w.heap.WF) {t' : TyId} {x : Bytes} (hx : S.valid t' x) :
    Runs (fill Γ t' x) (c, w) (fun _ s => CStep Γ S (c, w) s) (fun s => CStep Γ S (c, w) s) := by
  unfold fill asMutSliceAs
  refine Runs.bind_ok (b := c) (s' := (c, w)) rfl ?_
  have g0 := g
  have hvis : ∀ ys : List Bytes, visitMut (M.modify fun s => (x, s.2)) ys w = (.ok (), (ys.map fun _ => x, w)) :=
    fun ys => visitMut_pure (fun _ => x) ys w
  rcases g with ⟨t, es, R, hv⟩ | u
  · rw [repr_type R]
    by_cases ht : t' = t
    · subst ht
      rw [if_pos rfl]
      have h1 : typedSlice (Γ.size t') c.len c.data.mem = .ok es := by
        have := typedSlice_cat R.each []
        rw [List.append_nil, ← R.mem, ← R.len] at this
        exact this
      simp only [h1]
      refine Runs.bind_ok (b := es) (s' := (c, w)) rfl ?_
      have hval : ∀ e ∈ es.map fun _ => x, S.valid t' e := by
        intro e he
        obtain ⟨_, _, rfl⟩ := List.mem_map.1 he
        exact hx
      refine Runs.bind_ok (b := ()) (s' := ({ c with data := { c.data with mem := (es.map fun _ => x).flatten } }, w)) ?_
        (mem_step R wf (by simp) hval)
      simp only [forEachMut, hvis]
      have hs : splice c.data.mem 0 (es.map fun _ => x).flatten = (es.map fun _ => x).flatten := by
        have : c.data.mem.length ≤ (es.map fun _ => x).flatten.length := by
          rw [R.mem, length_flatten_eq R.each, length_flatten_eq (fun e he => S.len t' e (hval e he))]
          simp
        exact splice_over this
      rw [hs]
    · rw [if_neg ht]
      exact CStep.refl g0 wf
  · rw [unit_type u]
    by_cases ht : t' = Γ.unitTy
    · subst ht
      rw [if_pos rfl]
      have hx0 : x = [] := List.eq_nil_of_length_eq_zero (by rw [S.len _ x hx, Γ.unit_size])
      subst hx0
      have h1 : typedSlice (Γ.size Γ.unitTy) c.len c.data.mem = .ok ((List.range c.len).map fun _ => []) := by
        unfold typedSlice
        rw [Γ.unit_size, u.mem]
        simp
      simp only [h1]
      refine Runs.bind_ok (b := (List.range c.len).map fun _ => []) (s' := (c, w)) rfl ?_
      refine Runs.bind_ok (b := ()) (s' := (c, w)) ?_ (CStep.refl g0 wf)
      simp only [forEachMut, hvis, u.mem]
      have h2 : ∀ ys : List Bytes, (ys.map fun _ => ([] : Bytes)).flatten = [] := by
        intro ys
        induction ys with
        | nil => rfl
        | cons y ys ih => simpa using ih
      rw [h2]
      have := unit_same u
      simp [splice, this]
    · rw [if_neg ht]
      exact CStep.refl g0 wf

theorem mapAll_runs (g : Good Γ S w.heap c.data) (wf : w.heap.WF) {f : Bytes → Bytes} (hf : ∀ t b, S.valid t b → S.valid t (f b)) :
    Runs (iterMut (M.modify fun s => ({ s.1 with bytes := f s.1.bytes }, s.2))) (c, w) (fun _ s => CStep Γ S (c, w) s)
      (fun s => CStep Γ S (c, w) s) := by
  unfold iterMut VecVoid.byteChunks
  refine Runs.bind_ok (b := c) (s' := (c, w)) rfl ?_
  have g0 := g
  rcases g with ⟨t, es, R, hv⟩ | u
  · have h0 : Γ.size t ≠ 0 := by have := R.pos; omega
    rw [repr_bytes R, repr_numBytes R]
    have h1 : chunksExact (Γ.size t) es.flatten = .ok es := by
      unfold chunksExact
      rw [if_neg h0, chunks_flatten R.pos R.each]
    refine Runs.bind_ok (b := es) (s' := (c, w)) (by rw [M.bind_ok (show (M.lift (.ok es.flatten) : M (VecCopy V × World U) _) (c, w) = (.ok es.flatten, (c, w)) from rfl), h1]; rfl) ?_
    have hvis := visitMut_pure (fun v : CopyValue V => { v with bytes := f v.bytes }) (es.map c.valueOf) w
    have hval : ∀ e ∈ es.map f, S.valid t e := by
      intro e he
      obtain ⟨e0, h, rfl⟩ := List.mem_map.1 he
      exact hf t e0 (hv e0 h)
    refine Runs.of_ok (a := ()) (s' := ({ c with data := { c.data with mem := (es.map f).flatten } }, w)) ?_
      (mem_step R wf (by simp) hval)
    simp only [hvis]
    have hs : splice c.data.mem 0 (es.map f).flatten = (es.map f).flatten := by
      have : c.data.mem.length ≤ (es.map f).flatten.length := by
        rw [R.mem, length_flatten_eq R.each, length_flatten_eq (fun e he => S.len t e (hval e he))]
        simp
      exact splice_over this
    simp [Function.comp_def, VecCopy.valueOf, hs]
  · rw [unit_bytes u, u.numBytes]
    exact Runs.of_panic (y := .zeroChunk) (s' := (c, w)) rfl (CStep.refl g0 wf)

theorem asMutSlice_runs (g : Good Γ S w.heap c.data) (wf : w.heap.WF) {m : M (SliceCopy V) α} {P : α → Prop}
    (hm : ∀ t es (s : SliceCopy V), SGood Γ S t es [] s → Runs m s (fun a s' => P a ∧ SPost S t es [] s s') (fun s' => SPost S t es [] s s'))
    (hu : ∀ s : SliceCopy V, SUnit Γ s → Runs m s (fun a s' => P a ∧ s' = s) (fun s' => s' = s)) :
    Runs (asMutSlice m) (c, w) (fun a s => P a ∧ CStep Γ S (c, w) s) (fun s => CStep Γ S (c, w) s) := by
  unfold asMutSlice
  refine Runs.bind_ok (b := c) (s' := (c, w)) rfl ?_
  have g0 := g
  rcases g with ⟨t, es, R, hv⟩ | u
  · rw [repr_bytes R]
    refine Runs.bind_ok (b := es.flatten) (s' := (c, w)) rfl ?_
    have hr := hm t es (SliceCopy.fromRawParts es.flatten c.data.elem c.vtable) ⟨by simp [SliceCopy.fromRawParts], hv, R.pos, repr_elem R⟩
    have hs : ∀ es' : List Bytes, es'.length = es.length → (∀ e ∈ es', S.valid t e) → splice c.data.mem 0 (es'.flatten ++ []) = es'.flatten := by
      intro es' hl hval
      rw [List.append_nil]
      have : c.data.mem.length ≤ es'.flatten.length := by
        rw [R.mem, length_flatten_eq R.each, length_flatten_eq (fun e he => S.len t e (hval e he)), hl]
        exact Nat.le_refl _
      exact splice_over this
    rcases hr.cases_on with ⟨a, s1, e1, ha, es', h1, h2, rfl⟩ | ⟨y, s1, e1, es', h1, h2, rfl⟩
    · refine Runs.of_ok (a := a) (s' := ({ c with data := { c.data with mem := es'.flatten } }, w)) ?_ ⟨ha, mem_step R wf h1 h2⟩
      simp only [e1, hs es' h1 h2]
    · refine Runs.of_panic (y := y) (s' := ({ c with data := { c.data with mem := es'.flatten } }, w)) ?_ (mem_step R wf h1 h2)
      simp only [e1, hs es' h1 h2]
  · rw [unit_bytes u]
    refine Runs.bind_ok (b := []) (s' := (c, w)) rfl ?_
    have hr := hu (SliceCopy.fromRawParts [] c.data.elem c.vtable) ⟨rfl, u.elem⟩
    have hsame : ({ c with data := { c.data with mem := splice c.data.mem 0 [] } } : VecCopy V) = c := by
      have := unit_same u
      rw [u.mem]
      exact this
    rcases hr.cases_on with ⟨a, s1, e1, ha, rfl⟩ | ⟨y, s1, e1, rfl⟩
    · refine Runs.of_ok (a := a) (s' := (c, w)) ?_ ⟨ha, CStep.refl g0 wf⟩
      simp only [e1]
      simp only [SliceCopy.fromRawParts, hsame]
    · refine Runs.of_panic (y := y) (s' := (c, w)) ?_ (CStep.refl g0 wf)
      simp only [e1]
      simp only [SliceCopy.fromRawParts, hsame]

theorem view_runs (g : Good Γ S w.heap c.data) (wf : w.heap.WF) (p : SProg) (hok : p.Ok Γ S cfg) (hw : p.Whole false) :
    Runs (asMutSlice (p.exec Γ cfg)) (c, w) (fun rs s => Seen S rs ∧ CStep Γ S (c, w) s) (fun s => CStep Γ S (c, w) s) :=
  asMutSlice_runs g wf (fun _ _ _ G => p.exec_runs hok hw G fun _ => rfl) fun _ G => p.exec_runs_unit hok G

theorem swap_runs (g : Good Γ S w.heap c.data) (wf : w.heap.WF) {i j : Nat} (hi : Fits Γ cfg i) (hj : Fits Γ cfg j) :
    Runs (swap cfg i j) (c, w) (fun _ s => CStep Γ S (c, w) s) (fun s => CStep Γ S (c, w) s) := by
  refine (asMutSlice_runs (P := fun _ => True) g wf (fun _ _ _ G => (G.swap_runs hi hj).mono (fun _ _ h => ⟨trivial, h⟩) fun _ h => h) ?_).mono
    (fun _ _ h => h.2) fun _ h => h
  intro s G
  have := (SProg.swap i j).exec_runs_unit (S := S) (cfg := cfg) ⟨hi, hj⟩ G
  exact (Runs.of_bind_pure (Q := fun s' => s' = s) (this.mono (fun _ _ h => h.2) fun _ h => h)).mono (fun _ _ h => ⟨trivial, h⟩) fun _ h => h

theorem copyFromSlice_runs (g : Good Γ S w.heap c.data) (wf : w.heap.WF) {t' : TyId} {xs : List Bytes} (hx : ∀ x ∈ xs, S.valid t' x) :
    Runs (copyFromSlice Γ cfg t' xs) (c, w) (fun _ s => CStep Γ S (c, w) s) (fun s => CStep Γ S (c, w) s) := by
  refine (asMutSlice_runs (P := fun _ => True) g wf (fun _ _ _ G => (G.copyFromSlice_runs hx).mono (fun _ _ h => ⟨trivial, h⟩) fun _ h => h) ?_).mono
    (fun _ _ h => h.2) fun _ h => h
  intro s G
  have := (SProg.copyFromSlice t' xs).exec_runs_unit (S := S) (cfg := cfg) hx G
  exact (Runs.of_bind_pure (Q := fun s' => s' = s) (this.mono (fun _ _ h => h.2) fun _ h => h)).mono (fun _ _ h => ⟨trivial, h⟩) fun _ h => h

end VecCopy
end Dync
