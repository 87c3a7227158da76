import Verif.ViewSpec
import Verif.SliceLemmas2
/-!
# Programs on mutable views: simulation by programs on plain slices
-/
namespace Dync
variable {U V α β : Type} {Γ : TyEnv U} {cfg : Cfg} {t : TyId} {es : List Bytes} {s : SliceCopy V}

/-- `a` on an untyped view does what `b` does on a plain slice. -/
def ViewSim (Γ : TyEnv U) (t : TyId) (a : M (SliceCopy V) α) (b : M (List Bytes) α) : Prop :=
  ∀ es s, SRepr Γ t es s → (a s).1.Agrees (b es).1 ∧ SRepr Γ t (b es).2 (a s).2 ∧ (b es).2.length = es.length ∧
    (a s).2.vtable = s.vtable

theorem Res.Agrees.cases {a b : Res α} (h : a.Agrees b) :
    (∃ x, a = .ok x ∧ b = .ok x) ∨ ∃ y z, a = .panic y ∧ b = .panic z := by
  cases a <;> cases b <;> simp only [Res.Agrees] at h
  · exact .inl ⟨_, rfl, by rw [h]⟩
  · exact .inr ⟨_, _, rfl, rfl⟩

theorem ViewSim.pure (x : α) : ViewSim (V := V) Γ t (pure x) (pure x) := fun _ _ R => ⟨rfl, R, rfl, rfl⟩

theorem ViewSim.bind {a : M (SliceCopy V) α} {b : M (List Bytes) α} {f : α → M (SliceCopy V) β} {g : α → M (List Bytes) β}
    (h : ViewSim Γ t a b) (hf : ∀ x, ViewSim Γ t (f x) (g x)) : ViewSim Γ t (a >>= f) (b >>= g) := by
  intro es s R
  obtain ⟨h1, h2, h3, h4⟩ := h es s R
  rcases h1.cases with ⟨x, e1, e2⟩ | ⟨y, z, e1, e2⟩
  · obtain ⟨g1, g2, g3, g4⟩ := hf x _ _ h2
    rw [M.bind_ok (show a s = (.ok x, (a s).2) from Prod.ext e1 rfl),
      M.bind_ok (show b es = (.ok x, (b es).2) from Prod.ext e2 rfl)]
    exact ⟨g1, g2, g3.trans h3, g4.trans h4⟩
  · rw [M.bind_panic (show a s = (.panic y, (a s).2) from Prod.ext e1 rfl),
      M.bind_panic (show b es = (.panic z, (b es).2) from Prod.ext e2 rfl)]
    exact ⟨trivial, h2, h3, h4⟩

/-- Same reads, nothing written. -/
theorem ViewSim.mk_ok {a : M (SliceCopy V) α} {b : M (List Bytes) α} {x : α} {s' : SliceCopy V} {es' : List Bytes}
    (ha : a s = (.ok x, s')) (hb : b es = (.ok x, es')) (R : SRepr Γ t es' s') (hl : es'.length = es.length)
    (hv : s'.vtable = s.vtable) :
    (a s).1.Agrees (b es).1 ∧ SRepr Γ t (b es).2 (a s).2 ∧ (b es).2.length = es.length ∧ (a s).2.vtable = s.vtable := by
  rw [ha, hb]; exact ⟨rfl, R, hl, hv⟩

theorem ViewSim.mk_panic {a : M (SliceCopy V) α} {b : M (List Bytes) α} (R : SRepr Γ t es s)
    (ha : ∃ y, a s = (.panic y, s)) (hb : b es = (.panic .index, es)) :
    (a s).1.Agrees (b es).1 ∧ SRepr Γ t (b es).2 (a s).2 ∧ (b es).2.length = es.length ∧ (a s).2.vtable = s.vtable := by
  obtain ⟨y, ha⟩ := ha
  rw [ha, hb]; exact ⟨trivial, R, rfl, rfl⟩

/-- A view is determined by its elements and its virtual table. -/
theorem SRepr.eq_mk (R : SRepr Γ t es s) : s = ⟨es.flatten, ElemInfo.new Γ t, s.vtable⟩ := by
  cases s; simp only [SliceCopy.mk.injEq, and_true]; exact ⟨R.data, R.elem⟩

theorem SRepr.getMut_out (R : SRepr Γ t es s) {i : Nat} (hi : es.length ≤ i)
    (hw : NoWrap cfg ((i + 1) * Γ.size t)) (m : M (CopyValue V) α) : ∃ y, SliceCopy.getMut cfg i m s = (.panic y, s) := by
  unfold SliceCopy.getMut
  rw [M.bind_ok (M.get_run s)]
  by_cases hd : cfg.debug = true
  · have : decide (i < es.length) = false := decide_eq_false (by omega)
    rw [if_pos hd]
    exact ⟨.assertion, by simp only [M.bind_run, R.len, this, M.assert_false_run]⟩
  · rw [if_neg hd, R.numBytes]
    rcases indexByteRange_nowrap R.pos hw s with e | e
    · refine ⟨.index, ?_⟩
      simp only [M.bind_run, M.pure_run, e, M.lift_run, R.data,
        SRepr.sliceIndex_out R.each R.pos (.inr (show es.length < i + 1 by omega))]
    · exact ⟨.overflow, by simp only [M.bind_run, M.pure_run, e]⟩

theorem SRepr.setAs_out (R : SRepr Γ t es s) {i : Nat} (hi : es.length ≤ i) (t' : TyId) (x : Bytes) :
    SliceCopy.setAs Γ cfg t' i x s = (.panic .assertion, s) := by
  have : decide (i < es.length) = false := decide_eq_false (by omega)
  simp only [SliceCopy.setAs, M.bind_run, M.get_run, R.len, this, M.assert_false_run]

theorem sized_set {n : Nat} (h : ∀ e ∈ es, e.length = n) {i : Nat} {x : Bytes} (hx : x.length = n) :
    ∀ e ∈ es.set i x, e.length = n := by
  intro e he
  rcases List.mem_or_eq_of_mem_set he with he | rfl
  · exact h e he
  · exact hx

theorem sized_take {n : Nat} (h : ∀ e ∈ es, e.length = n) {k : Nat} : ∀ e ∈ es.take k, e.length = n :=
  fun e he => h e (List.mem_of_mem_take he)

theorem sized_drop {n : Nat} (h : ∀ e ∈ es, e.length = n) {k : Nat} : ∀ e ∈ es.drop k, e.length = n :=
  fun e he => h e (List.mem_of_mem_drop he)

theorem sized_append {n : Nat} {fs : List Bytes} (h : ∀ e ∈ es, e.length = n) (h' : ∀ e ∈ fs, e.length = n) :
    ∀ e ∈ es ++ fs, e.length = n := by
  intro e he
  rcases List.mem_append.1 he with he | he
  · exact h e he
  · exact h' e he

theorem SRepr.subsliceMut_run (R : SRepr Γ t es s) {r : Rng} (hr : r.halfOpen ∨ Γ.size t = 1)
    (hlo : r.lo ≤ r.hi es.length) (hhi : r.hi es.length ≤ es.length) (m : M (SliceCopy V) α) :
    SliceCopy.subsliceMut cfg r m s =
      ((m ⟨((es.take (r.hi es.length)).drop r.lo).flatten, s.elem, s.vtable⟩).1,
       { s with data :=
          splice s.data (r.lo * Γ.size t) (m ⟨((es.take (r.hi es.length)).drop r.lo).flatten, s.elem, s.vtable⟩).2.data }) := by
  have hb := R.bounds (cfg := cfg) hr hlo hhi s
  have hx := SRepr.sliceIndex_range R.each hlo hhi
  rw [← R.data] at hx
  unfold SliceCopy.subsliceMut
  rw [M.bind_ok (M.get_run s)]
  rw [show (do
      let r ← Rng.scale cfg s.elem.numBytes r
      let x ← M.lift (r.bounds s.data.length)
      match x with
        | (a, b) => do
          let d ← M.lift (sliceIndex s.data a b)
          (⟨fun s =>
            let out := m ⟨d, s.elem, s.vtable⟩
            (out.1, { s with data := splice s.data a out.2.data })⟩ : M (SliceCopy V) α) : M (SliceCopy V) α) =
      ((do let r ← Rng.scale cfg s.elem.numBytes r
           M.lift (r.bounds s.data.length)) >>= fun x : Nat × Nat => do
          let d ← M.lift (sliceIndex s.data x.1 x.2)
          (⟨fun s =>
            let out := m ⟨d, s.elem, s.vtable⟩
            (out.1, { s with data := splice s.data x.1 out.2.data })⟩ : M (SliceCopy V) α)) from by rw [bind_assoc]]
  rw [M.bind_ok hb]
  simp only [M.bind_run, M.lift_run, hx]

theorem SRepr.subsliceMut_out (R : SRepr Γ t es s) {r : Rng} (hr : r.halfOpen ∨ Γ.size t = 1)
    (hout : r.hi es.length < r.lo ∨ es.length < r.hi es.length)
    (hw : NoWrap cfg (r.lo * Γ.size t)) (hw' : NoWrap cfg (r.hi es.length * Γ.size t)) (m : M (SliceCopy V) α) :
    ∃ y, SliceCopy.subsliceMut cfg r m s = (.panic y, s) := by
  have hb := R.bounds_out (cfg := cfg) hr hout hw hw' s
  have hx := SRepr.sliceIndex_out R.each R.pos hout
  rw [← R.data] at hx
  unfold SliceCopy.subsliceMut
  rw [M.bind_ok (M.get_run s)]
  rw [show (do
      let r ← Rng.scale cfg s.elem.numBytes r
      let x ← M.lift (r.bounds s.data.length)
      match x with
        | (a, b) => do
          let d ← M.lift (sliceIndex s.data a b)
          (⟨fun s =>
            let out := m ⟨d, s.elem, s.vtable⟩
            (out.1, { s with data := splice s.data a out.2.data })⟩ : M (SliceCopy V) α) : M (SliceCopy V) α) =
      ((do let r ← Rng.scale cfg s.elem.numBytes r
           M.lift (r.bounds s.data.length)) >>= fun x : Nat × Nat => do
          let d ← M.lift (sliceIndex s.data x.1 x.2)
          (⟨fun s =>
            let out := m ⟨d, s.elem, s.vtable⟩
            (out.1, { s with data := splice s.data x.1 out.2.data })⟩ : M (SliceCopy V) α)) from by rw [bind_assoc]]
  rcases hb with ⟨y, hb⟩ | hb
  · exact ⟨y, by rw [M.bind_panic hb]⟩
  · rw [M.bind_ok hb]
    exact ⟨.index, by simp only [M.bind_run, M.lift_run, hx]⟩

/-- A range that is in bounds or not. -/
theorem Rng.hi_nowrap (R : SRepr Γ t es s) {r : Rng} (h : NoWrap cfg (r.hi 0 * Γ.size t)) :
    NoWrap cfg (r.hi es.length * Γ.size t) := by
  have hb : es.length * Γ.size t ≤ usizeMax := Nat.le_trans R.bound isize_le_usize
  cases r <;> simp only [Rng.hi] at h ⊢ <;> first | exact h | exact .inr hb

theorem ViewSim.sub {r : Rng} {a : M (SliceCopy V) α} {b : M (List Bytes) α} (h : ViewSim Γ t a b)
    (hr : r.halfOpen ∨ Γ.size t = 1) (hw : NoWrap cfg (r.lo * Γ.size t)) (hw' : NoWrap cfg (r.hi 0 * Γ.size t)) :
    ViewSim Γ t (SliceCopy.subsliceMut cfg r a) ⟨fun es => onPart r.lo (r.hi es.length) b es⟩ := by
  intro es s R
  by_cases hin : r.lo ≤ r.hi es.length ∧ r.hi es.length ≤ es.length
  · have hR : SRepr Γ t ((es.take (r.hi es.length)).drop r.lo)
        (⟨((es.take (r.hi es.length)).drop r.lo).flatten, s.elem, s.vtable⟩ : SliceCopy V) :=
      R.mk' (sized_drop (sized_take R.each)) (by simp; omega)
    obtain ⟨h1, h2, h3, h4⟩ := h _ _ hR
    rw [R.subsliceMut_run hr hin.1 hin.2]
    simp only [onPart, if_pos hin]
    have hlen : (b ((es.take (r.hi es.length)).drop r.lo)).2.length = r.hi es.length - r.lo := by
      rw [h3]; simp; omega
    refine ⟨h1, ?_, by simp only [List.length_append, hlen, List.length_take, List.length_drop]; omega, trivial⟩
    rw [h2.data, R.data, SRepr.splice_range R.each h2.each hlen hin.1]
    exact R.set_ok (sized_append (sized_append (sized_take R.each) h2.each) (sized_drop R.each)) (by simp [hlen]; omega)
  · refine ViewSim.mk_panic R (R.subsliceMut_out hr (by omega) hw (Rng.hi_nowrap R hw') a) ?_
    simp only [onPart, if_neg hin]

theorem ViewSim.split {mid : Nat} {p q : M (SliceCopy V) (List β)} {p' q' : M (List Bytes) (List β)} (hp : ViewSim Γ t p p')
    (hq : ViewSim Γ t q q') (hw : NoWrap cfg (mid * Γ.size t)) :
    ViewSim Γ t (SliceCopy.splitAtMut cfg mid (do
        let a ← SProg.onFst p
        let b ← SProg.onSnd q
        Pure.pure (a ++ b))) (onSplit mid p' q') := by
  intro es s R
  by_cases hin : mid ≤ es.length
  · obtain ⟨h1, h2, h3, h4⟩ := hp (es.take mid) ⟨(es.take mid).flatten, s.elem, s.vtable⟩ (R.mk' (sized_take R.each) (by simp; omega))
    obtain ⟨g1, g2, g3, g4⟩ := hq (es.drop mid) ⟨(es.drop mid).flatten, s.elem, s.vtable⟩ (R.mk' (sized_drop R.each) (by simp))
    rw [R.splitAtMut hin]
    simp only [onSplit, if_pos hin]
    rcases h1.cases with ⟨x, e1, e2⟩ | ⟨y, z, e1, e2⟩
    · have e2' : p' (es.take mid) = (.ok x, (p' (es.take mid)).2) := Prod.ext e2 rfl
      simp only [M.bind_run, SProg.onFst, SProg.onSnd, M.zoom_run, e1]
      rw [e2']
      rcases g1.cases with ⟨x', f1, f2⟩ | ⟨y, z, f1, f2⟩
      · simp only [f1, f2, M.pure_run]
        refine ⟨rfl, ?_, by simp [h3, g3]; omega, trivial⟩
        rw [h2.data, g2.data, ← List.flatten_append]
        exact R.set_ok (sized_append h2.each g2.each) (by simp [h3, g3]; omega)
      · simp only [f1, f2]
        refine ⟨trivial, ?_, by simp [h3, g3]; omega, trivial⟩
        rw [h2.data, g2.data, ← List.flatten_append]
        exact R.set_ok (sized_append h2.each g2.each) (by simp [h3, g3]; omega)
    · have e2' : p' (es.take mid) = (.panic z, (p' (es.take mid)).2) := Prod.ext e2 rfl
      simp only [M.bind_run, SProg.onFst, SProg.onSnd, M.zoom_run, e1]
      rw [e2']
      refine ⟨trivial, ?_, by simp [h3]; omega, trivial⟩
      rw [h2.data, ← List.flatten_append]
      exact R.set_ok (sized_append h2.each (sized_drop R.each)) (by simp [h3]; omega)
  · refine ViewSim.mk_panic R ?_ (by simp only [onSplit, if_neg hin])
    have hle : ¬ mid * Γ.size t ≤ es.flatten.length := by
      rw [length_flatten_eq R.each]
      have := Nat.mul_lt_mul_of_pos_right (Nat.lt_of_not_le hin) R.pos; omega
    simp only [SliceCopy.splitAtMut, M.bind_run, M.get_run, R.numBytes]
    rcases umul_nowrap hw s with e | e
    · exact ⟨.assertion, by simp only [e, M.lift_run, R.data, sliceSplitAt, if_neg hle]⟩
    · exact ⟨.overflow, by simp only [e]⟩

/-! ### Chunks -/

theorem chunks_eq_pieces {k : Nat} (hk : 0 < k) (es : List Bytes) : chunks k es = pieces k es := by
  induction hn : es.length using Nat.strongRecOn generalizing es with
  | _ n ih =>
    subst hn
    rw [chunks]
    by_cases h : k ≤ es.length
    · rw [dif_pos ⟨hk, h⟩, ih (es.drop k).length (by simp; omega) (es.drop k) rfl]
      have hd : es.length / k = (es.drop k).length / k + 1 := by
        rw [List.length_drop, ← Nat.add_div_right _ hk, Nat.sub_add_cancel h]
      unfold pieces
      rw [hd, List.range_succ_eq_map, List.map_cons, List.map_map]
      simp only [Nat.zero_mul, List.drop_zero, List.cons.injEq, true_and]
      apply List.map_congr_left
      intro i _
      simp only [Function.comp, List.drop_drop, Nat.succ_eq_add_one, Nat.add_mul, Nat.one_mul]
      rw [Nat.add_comm]
    · rw [dif_neg (by omega)]
      unfold pieces
      rw [Nat.div_eq_of_lt (by omega)]; rfl

/-- What a chunk body does to the elements of a chunk. -/
def chunkBody (p : M (SliceCopy V) (List β)) (b : M (List Bytes) (List β)) (e : ElemInfo) (vt : V) :
    M (List Bytes × List β) Unit := ⟨fun s =>
  match (p ⟨s.1.flatten, e, vt⟩).1 with
  | .ok a => (.ok (), ((b s.1).2, s.2 ++ a))
  | .panic y => (.panic y, ((b s.1).2, s.2))
  | .ub => (.ub, ((b s.1).2, s.2))
  | .abort => (.abort, ((b s.1).2, s.2))⟩

theorem visit_onPieces {p : M (SliceCopy V) (List β)} {b : M (List Bytes) (List β)} {e : ElemInfo} {vt : V}
    (cs : List (List Bytes)) (h : ∀ c ∈ cs, (p ⟨c.flatten, e, vt⟩).1.Agrees (b c).1) (log : List β) :
    (∃ as, onPieces b cs = (.ok as, (visitMut (chunkBody p b e vt) cs log).2.1) ∧
      visitMut (chunkBody p b e vt) cs log = (.ok (), ((onPieces b cs).2, log ++ as))) ∨
    ∃ y z log', onPieces b cs = (.panic z, (visitMut (chunkBody p b e vt) cs log).2.1) ∧
      visitMut (chunkBody p b e vt) cs log = (.panic y, ((onPieces b cs).2, log')) := by
  induction cs generalizing log with
  | nil => exact .inl ⟨[], rfl, by simp [visitMut, onPieces]⟩
  | cons c cs ih =>
    have hc := h c (by simp)
    have ih := ih (fun c hc => h c (by simp [hc]))
    rcases hc.cases with ⟨x, e1, e2⟩ | ⟨y, z, e1, e2⟩
    · have e2' : b c = (.ok x, (b c).2) := Prod.ext e2 rfl
      have hb : chunkBody p b e vt (c, log) = (.ok (), ((b c).2, log ++ x)) := by
        simp only [chunkBody, e1]
      rcases ih (log ++ x) with ⟨as, g1, g2⟩ | ⟨y, z, log', g1, g2⟩
      · refine .inl ⟨x ++ as, ?_, ?_⟩
        · simp only [onPieces, visitMut, hb]
          rw [e2']
          simp only [g1, Res.map]
        · simp only [onPieces, visitMut, hb]
          rw [e2', g2]
          simp only [List.append_assoc]
      · refine .inr ⟨y, z, log', ?_, ?_⟩
        · simp only [onPieces, visitMut, hb]
          rw [e2']
          simp only [g1, Res.map]
        · simp only [onPieces, visitMut, hb]
          rw [e2', g2]
    · have e2' : b c = (.panic z, (b c).2) := Prod.ext e2 rfl
      have hb : chunkBody p b e vt (c, log) = (.panic y, ((b c).2, log)) := by
        simp only [chunkBody, e1]
      refine .inr ⟨y, z, log, ?_, ?_⟩
      · simp only [onPieces, visitMut, hb]
        rw [e2']
      · simp only [onPieces, visitMut, hb]
        rw [e2']

theorem ViewSim.chunks {k : Nat} {p : M (SliceCopy V) (List β)} {b : M (List Bytes) (List β)} (h : ViewSim Γ t p b)
    (hk : Γ.size t * k ≤ usizeMax) :
    ViewSim Γ t (M.zoom (fun s => (s, [])) (fun s _ => s.1) (do
      SliceCopy.chunksExactMut cfg k (do
        let a ← SProg.onFst p
        SProg.onSnd (M.modify fun log => log ++ a))
      return (← M.get).2)) (onChunks k b) := by
  intro es s R
  by_cases h0 : k = 0
  · subst h0
    refine ViewSim.mk_panic R ⟨.zeroChunk, ?_⟩ (by simp only [onChunks, if_true])
    simp only [M.zoom_run, M.bind_run, SliceCopy.chunksExactMut, M.get_run, R.numBytes, umul_ok hk, M.lift_run,
      Dync.chunksExact, Nat.mul_zero, if_true]
  · have hk0 : 0 < k := by omega
    have hbd : s.elem = ElemInfo.new Γ t := R.elem
    have hsz : 0 < Γ.size t := R.pos
    by_cases hle : k ≤ es.length
    · have hsim : ∀ c : List Bytes, (∀ e ∈ c, e.length = Γ.size t) ∧ c.length = k →
          SRepr Γ t c (⟨c.flatten, s.elem, s.vtable⟩ : SliceCopy V) := fun c hc =>
        ⟨rfl, hc.1, R.elem, R.pos, by rw [hc.2]; exact Nat.le_trans (Nat.mul_le_mul_right _ hle) R.bound⟩
      obtain ⟨h1, h2, h3⟩ := R.chunksExactMut (cfg := cfg) (σ := List β) hk0 hk
        (body := do
          let a ← SProg.onFst p
          SProg.onSnd (M.modify fun log => log ++ a))
        (g := chunkBody p b s.elem s.vtable)
        (by
          intro c st hc
          obtain ⟨a1, a2, a3, a4⟩ := h c _ (hsim c hc)
          have : (chunkBody p b s.elem s.vtable (c, st)).2.1 = (b c).2 := by
            unfold chunkBody
            simp only
            split <;> rfl
          rw [this]
          exact ⟨a2.each, a3.trans hc.2⟩)
        (by
          intro c st hc
          obtain ⟨a1, a2, a3, a4⟩ := h c _ (hsim c hc)
          have he := a2.eq_mk
          rw [a4] at he
          simp only at he
          rw [← hbd] at he
          rcases a1.cases with ⟨x, e1, e2⟩ | ⟨y, z, e1, e2⟩
          · simp only [M.bind_run, SProg.onFst, SProg.onSnd, M.zoom_run, M.modify_run, e1, chunkBody, he]
          · simp only [M.bind_run, SProg.onFst, SProg.onSnd, M.zoom_run, e1, chunkBody, he]) []
      have hv := visit_onPieces (p := p) (b := b) (e := s.elem) (vt := s.vtable) (Dync.chunks k es) (by
        intro c hc
        exact (h c _ (hsim c ⟨fun e he => R.each e (chunks_subset hc e he), chunks_each es c hc⟩)).1) []
      have hR : SRepr Γ t ((visitMut (chunkBody p b s.elem s.vtable) (Dync.chunks k es) []).2.1.flatten ++
          es.drop (es.length / k * k)) ({ s with data := ((visitMut (chunkBody p b s.elem s.vtable) (Dync.chunks k es) []).2.1.flatten ++
          es.drop (es.length / k * k)).flatten } : SliceCopy V) := by
        refine R.set_ok (sized_append h2 (sized_drop R.each)) ?_
        simp only [List.length_append, h3, List.length_drop]
        have := Nat.div_mul_le_self es.length k
        omega
      have hlen : ((visitMut (chunkBody p b s.elem s.vtable) (Dync.chunks k es) []).2.1.flatten ++
          es.drop (es.length / k * k)).length = es.length := by
        simp only [List.length_append, h3, List.length_drop]
        have := Nat.div_mul_le_self es.length k
        omega
      have hpl : onChunks k b es =
          ((onPieces b (Dync.chunks k es)).1, (onPieces b (Dync.chunks k es)).2.flatten ++ es.drop (es.length / k * k)) := by
        simp only [onChunks, if_neg h0, chunks_eq_pieces hk0]
      rcases hv with ⟨as, g1, g2⟩ | ⟨y, z, log', g1, g2⟩
      · refine ViewSim.mk_ok (x := as) ?_ (hpl.trans (by rw [g1])) hR hlen rfl
        simp only [M.zoom_run, M.bind_run, h1]
        rw [g2]
        simp only [M.get_run, M.pure_run, List.nil_append]
      · rw [hpl, g1]
        simp only [M.zoom_run, M.bind_run, h1]
        have hy : (visitMut (chunkBody p b s.elem s.vtable) (Dync.chunks k es) []).1 = .panic y := by rw [g2]
        rw [hy]
        exact ⟨trivial, hR, hlen, rfl⟩
    · have hc : Dync.chunks (Γ.size t * k) s.data = [] := by
        rw [Dync.chunks, dif_neg]
        rw [R.length]
        intro hh
        have := Nat.mul_lt_mul_of_pos_right (Nat.lt_of_not_le hle) hsz
        rw [Nat.mul_comm k] at this
        omega
      have hz : ¬ Γ.size t * k = 0 := by have := Nat.mul_pos hsz hk0; omega
      refine ViewSim.mk_ok (x := []) (s' := s) (es' := es) ?_ ?_ R rfl rfl
      · simp only [M.zoom_run, M.bind_run, SliceCopy.chunksExactMut, M.get_run, R.numBytes, umul_ok hk, M.lift_run,
          Dync.chunksExact, if_neg hz, hc, List.map_nil, visitMut, List.flatten_nil, M.pure_run]
        simp [splice]
      · have : pieces k es = [] := by unfold pieces; rw [Nat.div_eq_of_lt (by omega)]; rfl
        simp only [onChunks, if_neg h0, this, onPieces, Nat.div_eq_of_lt (Nat.lt_of_not_le hle)]
        simp

/-! ### Whole programs -/

theorem copyNew_same {e x : Bytes} {a : Nat} {vt vt' : V} (h : e.length = x.length) :
    CopyValue.copy (CopyValue.new Γ t vt' x) ⟨e, t, a, vt⟩ = (.ok (some ()), ⟨x, t, a, vt⟩) := by
  unfold CopyValue.copy
  rw [M.bind_ok (M.get_run _), if_pos (show t = (CopyValue.new Γ t vt' x).type_id from rfl)]
  have hc : sliceCopyFrom e (CopyValue.new Γ t vt' x).bytes = .ok x := if_pos h
  simp only [M.bind_run, M.lift_run, hc, M.set_run, M.pure_run]

theorem copyNew_other {e x : Bytes} {a : Nat} {vt vt' : V} {t' : TyId} (h : t' ≠ t) :
    CopyValue.copy (CopyValue.new Γ t' vt' x) ⟨e, t, a, vt⟩ = (.ok none, ⟨e, t, a, vt⟩) := by
  unfold CopyValue.copy
  rw [M.bind_ok (M.get_run _), if_neg (show ¬ t = (CopyValue.new Γ t' vt' x).type_id from fun e => h e.symm)]
  rfl

theorem SProg.sim (p : SProg) (hs : p.Sized Γ t) (hr : p.InRange cfg (Γ.size t)) :
    ViewSim (V := V) Γ t (p.exec Γ cfg) (p.plain t) := by
  induction p with
  | skip => exact ViewSim.pure _
  | seq p q ihp ihq => exact (ihp hs.1 hr.1).bind fun a => (ihq hs.2 hr.2).bind fun b => ViewSim.pure _
  | get i =>
    intro es s R
    by_cases hi : i < es.length
    · refine ViewSim.mk_ok (x := [(t, es[i])]) (s' := s) (es' := es) ?_ (by simp only [SProg.plain, dif_pos hi]) R rfl rfl
      simp only [SProg.exec, M.bind_run, M.get_run, R.get hi, M.pure_run]
    · obtain ⟨y, hy⟩ := R.get_out (Nat.le_of_not_lt hi) hr s
      exact ViewSim.mk_panic R ⟨y, by simp only [SProg.exec, M.bind_run, M.get_run, hy]⟩ (by simp only [SProg.plain, dif_neg hi])
  | getAs t' i =>
    intro es s R
    by_cases hi : i < es.length
    · refine ViewSim.mk_ok (x := if t' = t then [(t, es[i])] else []) (s' := s) (es' := es) ?_ (by simp only [SProg.plain, dif_pos hi]) R rfl rfl
      simp only [SProg.exec, M.bind_run, M.get_run, R.getAs hi]
      by_cases ht : t' = t
      · subst ht; simp only [if_true, M.pure_run]
      · simp only [if_neg ht, M.pure_run]
    · exact ViewSim.mk_panic R ⟨_, by simp only [SProg.exec, M.bind_run, M.get_run, R.getAs_out (Nat.le_of_not_lt hi)]; rfl⟩
        (by simp only [SProg.plain, dif_neg hi])
  | iter =>
    intro es s R
    refine ViewSim.mk_ok (x := es.map fun e => (t, e)) (s' := s) (es' := es) ?_ rfl R rfl rfl
    simp only [SProg.exec, M.bind_run, M.get_run, R.iter, M.pure_run, List.map_map]
    rfl
  | asSlice t' =>
    intro es s R
    refine ViewSim.mk_ok (x := if t' = t then es.map fun e => (t, e) else []) (s' := s) (es' := es) ?_ rfl R rfl rfl
    simp only [SProg.exec, M.bind_run, M.get_run]
    by_cases ht : t' = t
    · subst ht; simp only [R.asSlice, if_true, M.pure_run]
    · simp only [SliceCopy.asSlice, R.check, if_neg ht, M.pure_run]
  | setAs t' i x =>
    intro es s R
    by_cases hi : i < es.length
    · by_cases ht : t' = t
      · subst ht
        refine ViewSim.mk_ok (x := []) (s' := { s with data := (es.set i x).flatten }) (es' := es.set i x) ?_
          (by simp only [SProg.plain, if_pos hi, if_true]) (R.set_ok (sized_set R.each hs) (by simp)) (by simp) rfl
        simp only [SProg.exec, M.bind_run, R.setAs hi hs, M.pure_run]
      · refine ViewSim.mk_ok (x := []) (s' := s) (es' := es) ?_ (by simp only [SProg.plain, if_pos hi, if_neg ht]) R rfl rfl
        simp only [SProg.exec, M.bind_run, R.setAs_mismatch hi ht, M.pure_run]
    · exact ViewSim.mk_panic R ⟨_, by simp only [SProg.exec, M.bind_run, R.setAs_out (Nat.le_of_not_lt hi)]; rfl⟩
        (by simp only [SProg.plain, if_neg hi])
  | setValue i t' x =>
    intro es s R
    by_cases hi : i < es.length
    · by_cases ht : t' = t
      · subst ht
        refine ViewSim.mk_ok (x := []) (s' := { s with data := (es.set i x).flatten }) (es' := es.set i x) ?_
          (by simp only [SProg.plain, if_pos hi, if_true]) (R.set_ok (sized_set R.each hs) (by simp)) (by simp) rfl
        have hxl : es[i].length = x.length := by rw [R.each _ (List.getElem_mem hi)]; exact hs.symm
        simp only [SProg.exec, M.bind_run, R.getMut hi, M.get_run, copyNew_same hxl, R.splice_elem hi hs, M.pure_run]
      · refine ViewSim.mk_ok (x := []) (s' := s) (es' := es) ?_ (by simp only [SProg.plain, if_pos hi, if_neg ht]) R rfl rfl
        simp only [SProg.exec, M.bind_run, R.getMut hi, M.get_run, copyNew_other ht,
          R.splice_elem hi (R.each _ (List.getElem_mem hi)), List.set_getElem_self, M.pure_run, ← R.data]
    · obtain ⟨y, hy⟩ := R.getMut_out (Nat.le_of_not_lt hi) hr (do
        let self ← M.get
        CopyValue.copy (CopyValue.new Γ t' self.vtable x) : M (CopyValue V) (Option Unit))
      exact ViewSim.mk_panic R ⟨y, by rw [SProg.exec, M.bind_panic hy]⟩ (by simp only [SProg.plain, if_neg hi])
  | mapAll f =>
    intro es s R
    obtain ⟨h1, h2, h3⟩ := R.iterMut (σ := Unit)
      (body := M.modify fun p : CopyValue V × Unit => ({ p.1 with bytes := f p.1.type_id p.1.bytes }, p.2))
      (g := M.modify fun p => (f t p.1, p.2)) (fun e st he => hs e he) (fun e st _ => rfl) ()
    rw [visitMut_pure] at h1 h2 h3
    refine ViewSim.mk_ok (x := []) (s' := { s with data := (es.map (f t)).flatten }) (es' := es.map (f t)) ?_ rfl
      (R.set_ok h2 (by simp)) (by simp) rfl
    simp only [SProg.exec, M.bind_run, M.zoom_run, h1, M.pure_run]
  | mapAs t' f =>
    intro es s R
    by_cases ht : t' = t
    · subst ht
      obtain ⟨hl, he⟩ := hs es R.each
      refine ViewSim.mk_ok (x := []) (s' := { s with data := (f es).flatten }) (es' := f es) ?_
        (by simp only [SProg.plain, if_true]) (R.set_ok he (by omega)) hl rfl
      simp only [SProg.exec, M.bind_run, R.asSliceMut, M.modify_run, Res.map, M.pure_run]
      rw [splice_whole (by rw [length_flatten_eq he, R.length, hl])]
    · refine ViewSim.mk_ok (x := []) (s' := s) (es' := es) ?_ (by simp only [SProg.plain, if_neg ht]) R rfl rfl
      simp only [SProg.exec, M.bind_run, R.asSliceMut_mismatch ht, M.pure_run]
  | swap i j =>
    intro es s R
    by_cases hij : i = j
    · subst hij
      refine ViewSim.mk_ok (x := []) (s' := s) (es' := es) ?_ (by simp only [SProg.plain, if_true]) R rfl rfl
      simp only [SProg.exec, SliceCopy.swap, M.bind_run, M.get_run, swapBytes, if_true, M.pure_run, M.set_run]
    · by_cases hin : i < es.length ∧ j < es.length
      · refine ViewSim.mk_ok (x := []) (s' := _) (es' := (es.set i es[j]).set j es[i])
          (by simp only [SProg.exec, M.bind_run, R.swap hin.1 hin.2, M.pure_run])
          (by simp only [SProg.plain, if_neg hij, dif_pos hin])
          (R.set_ok (sized_set (sized_set R.each (R.each _ (List.getElem_mem hin.2))) (R.each _ (List.getElem_mem hin.1))) (by simp))
          (by simp) rfl
      · obtain ⟨y, hy⟩ := swapBytes_out R.pos R.each (Nat.le_trans (Γ.size_le t) isize_le_usize) hij (by omega) hr.1 hr.2 s
        exact ViewSim.mk_panic R ⟨y, by simp only [SProg.exec, SliceCopy.swap, M.bind_run, M.get_run, R.numBytes, R.data, hy]⟩
          (by simp only [SProg.plain, if_neg hij, dif_neg hin])
  | rotateLeft n =>
    intro es s R
    by_cases hi : n ≤ es.length
    · refine ViewSim.mk_ok (x := []) (s' := _) (es' := es.drop n ++ es.take n)
        (by simp only [SProg.exec, M.bind_run, R.rotateLeft hi, M.pure_run]) (by simp only [SProg.plain, if_pos hi])
        (R.set_ok (sized_append (sized_drop R.each) (sized_take R.each)) (by simp; omega)) (by simp; omega) rfl
    · obtain ⟨y, hy⟩ := (R.rotate_out (Nat.lt_of_not_le hi) hr).1
      exact ViewSim.mk_panic R ⟨y, by simp only [SProg.exec, M.bind_run, hy]⟩ (by simp only [SProg.plain, if_neg hi])
  | rotateRight n =>
    intro es s R
    by_cases hi : n ≤ es.length
    · refine ViewSim.mk_ok (x := []) (s' := _) (es' := es.drop (es.length - n) ++ es.take (es.length - n))
        (by simp only [SProg.exec, M.bind_run, R.rotateRight hi, M.pure_run]) (by simp only [SProg.plain, if_pos hi])
        (R.set_ok (sized_append (sized_drop R.each) (sized_take R.each)) (by simp)) (by simp) rfl
    · obtain ⟨y, hy⟩ := (R.rotate_out (Nat.lt_of_not_le hi) hr).2
      exact ViewSim.mk_panic R ⟨y, by simp only [SProg.exec, M.bind_run, hy]⟩ (by simp only [SProg.plain, if_neg hi])
  | copyFromSlice t' xs =>
    intro es s R
    by_cases ht : t' = t
    · subst ht
      by_cases hl : xs.length = es.length
      · refine ViewSim.mk_ok (x := []) (s' := _) (es' := xs) (by simp only [SProg.exec, M.bind_run, R.copyFromSlice hs hl, M.pure_run])
          (by simp only [SProg.plain, if_true, if_pos hl]) (R.set_ok hs (by omega)) hl rfl
      · exact ViewSim.mk_panic R ⟨.lenMismatch, by simp only [SProg.exec, M.bind_run, R.copyFromSlice_len hl]⟩
          (by simp only [SProg.plain, if_true, if_neg hl])
    · refine ViewSim.mk_ok (x := []) (s' := s) (es' := es) ?_ (by simp only [SProg.plain, if_neg ht]) R rfl rfl
      simp only [SProg.exec, M.bind_run, SliceCopy.copyFromSlice, R.asSliceMut_mismatch ht, M.pure_run]
  | sub r p ih => exact (ih hs hr.2.2.2).sub hr.1 hr.2.1 hr.2.2.1
  | split mid p q ihp ihq => exact (ihp hs.1 hr.2.1).split (ihq hs.2 hr.2.2) hr.1
  | chunks k p ih => exact (ih hs hr.2).chunks hr.1

end Dync
