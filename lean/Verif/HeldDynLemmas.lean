import Verif.HeldDynSpec
import Verif.HeldViewsLemmas2
import Verif.ViewDynLemmas3
/-!
# Programs that hold several views of non-`Copy` elements are programs on separate lists
-/
namespace Dync
variable {U V α β : Type} {Γ : TyEnv U} {cfg : Cfg} {n i : Nat} {m : Mem} {ρ : Nat → Option (PtrView V)} {σ : Lists} {t : TyId}
  {v : PtrView V} {es : List Bytes} {w : World U} {l : Nat}

/-! ### Parts -/

theorem Cut.sizes_plain (c : Cut) {pre post : List Bytes} {parts : List (List Bytes)} (h : c.plain es = some (pre, parts, post)) :
    c.sizes es.length = some (parts.map List.length) := by
  cases c with
  | split mid =>
    simp only [Cut.plain] at h
    split at h
    · rename_i hm
      cases h
      simp [Cut.sizes, hm]
    · cases h
  | chunks k =>
    simp only [Cut.plain] at h
    split at h
    · cases h
    · rename_i hk
      cases h
      simp only [Cut.sizes, if_neg hk, Option.some.injEq]
      symm
      rw [List.eq_replicate_iff]
      refine ⟨by simp [pieces_length], fun b hb => ?_⟩
      obtain ⟨fs, hf, rfl⟩ := List.mem_map.1 hb
      exact pieces_each (Nat.pos_of_ne_zero hk) es fs hf
  | values =>
    simp only [Cut.plain] at h
    cases h
    simp only [Cut.sizes, Option.some.injEq]
    symm
    rw [List.eq_replicate_iff]
    refine ⟨by simp, fun b hb => ?_⟩
    simp only [List.map_map, List.mem_map, Function.comp] at hb
    obtain ⟨fs, hf, rfl⟩ := hb
    rfl
  | sub r =>
    simp only [Cut.plain] at h
    split at h
    · rename_i hin
      cases h
      simp only [Cut.sizes, if_pos hin, List.map_cons, List.map_nil, List.length_drop, List.length_take, Nat.min_eq_left hin.2]
    · cases h

theorem Cut.plain_join (c : Cut) {pre post : List Bytes} {parts : List (List Bytes)} (h : c.plain es = some (pre, parts, post)) :
    es = pre ++ parts.flatten ++ post := by
  cases c with
  | split mid =>
    simp only [Cut.plain] at h
    split at h
    · cases h; simp
    · cases h
  | chunks k =>
    simp only [Cut.plain] at h
    split at h
    · cases h
    · rename_i hk
      cases h
      rw [pieces_flatten (Nat.pos_of_ne_zero hk), List.nil_append, List.take_append_drop]
  | values => simp only [Cut.plain] at h; cases h; simp [flatten_singles]
  | sub r =>
    simp only [Cut.plain] at h
    split at h
    · rename_i hin
      cases h
      rw [List.flatten_cons, List.flatten_nil, List.append_nil]
      have : es.take r.lo = (es.take (r.hi es.length)).take r.lo := by rw [List.take_take, Nat.min_eq_left hin.1]
      rw [this, List.take_append_drop, List.take_append_drop]
    · cases h

/-- The pointers to the parts of a view, or a panic. -/
theorem Cut.parts_sim (c : Cut) (O : v.Ok Γ t) (S : SRepr Γ t es (v.contents m)) (hr : c.InRange cfg (Γ.size t)) :
    (c.plain es = none ∧ ∃ y, c.parts cfg v m = (.panic y, m)) ∨
    ∃ pre parts post cs, c.plain es = some (pre, parts, post) ∧ c.parts cfg v m = (.ok cs, m) ∧ cs.length = parts.length ∧
      Laid (v.addr + pre.length * Γ.size t) cs ∧
      ∀ (c : Nat) (w : PtrView V) (fs : List Bytes), cs[c]? = some w → parts[c]? = some fs →
        w.Ok Γ t ∧ w.len = fs.length * Γ.size t ∧ w.vtable = v.vtable := by
  have hlen : v.len = es.length * Γ.size t := by rw [← S.length, contents_len]
  cases c with
  | split mid =>
    simp only [Cut.parts, Cut.plain]
    rw [O.bytes]
    by_cases hm : mid ≤ es.length
    · right
      rw [if_pos hm]
      have hle : mid * Γ.size t ≤ es.length * Γ.size t := Nat.mul_le_mul_right _ hm
      refine ⟨[], _, [], [v.at v.addr (mid * Γ.size t), v.at (v.addr + mid * Γ.size t) (v.len - mid * Γ.size t)], rfl, ?_, rfl,
        ⟨by simp, by simp, trivial⟩, ?_⟩
      · rw [M.bind_ok (show umul cfg mid (Γ.size t) m = (.ok (mid * Γ.size t), m) by
          simp only [umul_eq, M.lift_run, umulRes, if_pos (S.mul_le hm)])]
        rw [M.bind_ok (show M.lift (v.cut (mid * Γ.size t)) m = (.ok (v.at v.addr (mid * Γ.size t),
          v.at (v.addr + mid * Γ.size t) (v.len - mid * Γ.size t)), m) by
          simp only [M.lift_run, PtrView.cut, if_pos (show mid * Γ.size t ≤ v.len by omega)])]
        rfl
      · intro c w fs hc hf
        match c with
        | 0 =>
          simp only [List.getElem?_cons_zero, Option.some.injEq] at hc hf
          subst hc hf
          exact ⟨O.move (a := 0) (Nat.dvd_zero _), by simp [Nat.min_eq_left hm], rfl⟩
        | 1 =>
          simp only [List.getElem?_cons_zero, List.getElem?_cons_succ, Option.some.injEq] at hc hf
          subst hc hf
          refine ⟨O.move (Nat.dvd_mul_left_of_dvd (Γ.align_dvd t) mid), ?_, rfl⟩
          simp [hlen, Nat.sub_mul]
        | c + 2 => simp at hc
    · left
      rw [if_neg hm]
      refine ⟨rfl, ?_⟩
      have hle : ¬ mid * Γ.size t ≤ v.len := by
        rw [hlen]
        have := Nat.mul_lt_mul_of_pos_right (Nat.lt_of_not_le hm) S.pos; omega
      rcases umul_nowrap hr m with e | e
      · rw [M.bind_ok e, M.bind_panic (show M.lift (v.cut (mid * Γ.size t)) m = (.panic .assertion, m) by
          simp only [M.lift_run, PtrView.cut, if_neg hle])]
        exact ⟨_, rfl⟩
      · rw [M.bind_panic e]
        exact ⟨_, rfl⟩
  | chunks k =>
    simp only [Cut.parts, Cut.plain]
    rw [O.bytes, M.bind_ok (show umul cfg (Γ.size t) k m = (.ok (Γ.size t * k), m) by
        simp only [umul_eq, M.lift_run, umulRes, if_pos (show Γ.size t * k ≤ usizeMax from hr)])]
    by_cases hk : k = 0
    · left
      rw [if_pos hk]
      refine ⟨rfl, _, show M.lift (v.chunks (Γ.size t * k)) m = (.panic .zeroChunk, m) by
        simp only [M.lift_run, PtrView.chunks, hk, Nat.mul_zero, if_true]⟩
    · right
      have hk0 : 0 < k := Nat.pos_of_ne_zero hk
      have hn0 : Γ.size t * k ≠ 0 := Nat.ne_of_gt (Nat.mul_pos S.pos hk0)
      have hdiv : v.len / (Γ.size t * k) = es.length / k := by rw [hlen, Nat.mul_comm, Nat.mul_div_mul_left _ _ S.pos]
      rw [if_neg hk]
      refine ⟨[], _, _, v.row (Γ.size t * k) v.addr (es.length / k), rfl, ?_, by simp [PtrView.row, pieces_length],
        by simpa using laid_row (v := v) (Γ.size t * k) v.addr (es.length / k), ?_⟩
      · simp only [M.lift_run, chunks_row hn0, hdiv]
      · intro c w fs hc hf
        cases row_get hc
        have hd : Γ.align t ∣ Γ.size t * k := Nat.dvd_mul_right_of_dvd (Γ.align_dvd t) k
        refine ⟨row_ok O hd c, ?_, rfl⟩
        rw [pieces_each hk0 es fs (List.mem_of_getElem? hf), Nat.mul_comm k]
  | values =>
    right
    simp only [Cut.parts, Cut.plain]
    have hdiv : v.len / Γ.size t = es.length := by rw [hlen, Nat.mul_div_cancel _ S.pos]
    refine ⟨[], _, [], v.row (Γ.size t) v.addr es.length, rfl, ?_, by simp [PtrView.row],
      by simpa using laid_row (v := v) (Γ.size t) v.addr es.length, ?_⟩
    · rw [O.bytes]
      simp only [M.lift_run, chunks_row (Nat.ne_of_gt S.pos), hdiv]
    · intro c w fs hc hf
      cases row_get hc
      refine ⟨row_ok O (Γ.align_dvd t) c, ?_, rfl⟩
      simp only [List.getElem?_map, Option.map_eq_some_iff] at hf
      obtain ⟨e, -, rfl⟩ := hf
      simp
  | sub r =>
    simp only [Cut.parts, Cut.plain]
    obtain ⟨hh, hw, hw'⟩ := hr
    rw [show (do
        let r ← r.scale cfg v.elem.numBytes
        let x ← M.lift (r.bounds v.len)
        let w ← M.lift (v.range x.1 x.2)
        pure [w] : M Mem (List (PtrView V))) =
      ((do let r ← r.scale cfg v.elem.numBytes
           M.lift (r.bounds v.len)) >>= fun x : Nat × Nat => do
            let w ← M.lift (v.range x.1 x.2)
            pure [w] : M Mem (List (PtrView V))) from by rw [bind_assoc]]
    by_cases hin : r.lo ≤ r.hi es.length ∧ r.hi es.length ≤ es.length
    · right
      rw [if_pos hin]
      have hb := S.bounds (cfg := cfg) hh hin.1 hin.2 m
      rw [contents_len, show (v.contents m).elem = v.elem from rfl] at hb
      have l1 : r.lo * Γ.size t ≤ r.hi es.length * Γ.size t := Nat.mul_le_mul_right _ hin.1
      have l2 : r.hi es.length * Γ.size t ≤ es.length * Γ.size t := Nat.mul_le_mul_right _ hin.2
      refine ⟨_, _, _, [v.at (v.addr + r.lo * Γ.size t) (r.hi es.length * Γ.size t - r.lo * Γ.size t)], rfl, ?_, rfl,
        ⟨by rw [List.length_take, Nat.min_eq_left (by omega)], trivial⟩, ?_⟩
      · rw [M.bind_ok hb]
        simp only
        rw [M.bind_ok (show M.lift (v.range (r.lo * Γ.size t) (r.hi es.length * Γ.size t)) m =
          (.ok (v.at (v.addr + r.lo * Γ.size t) (r.hi es.length * Γ.size t - r.lo * Γ.size t)), m) by
          simp only [M.lift_run, PtrView.range]
          rw [if_pos ⟨l1, by omega⟩])]
        rfl
      · intro c w fs hc hf
        match c with
        | 0 =>
          simp only [List.getElem?_cons_zero, Option.some.injEq] at hc hf
          subst hc hf
          refine ⟨O.move (Nat.dvd_mul_left_of_dvd (Γ.align_dvd t) r.lo), ?_, rfl⟩
          rw [List.length_drop, List.length_take, Nat.min_eq_left hin.2, Nat.sub_mul]
        | c + 1 => simp at hc
    · left
      rw [if_neg hin]
      refine ⟨rfl, ?_⟩
      have hout : r.hi es.length < r.lo ∨ es.length < r.hi es.length := by omega
      have hb := S.bounds_out (cfg := cfg) hh hout hw (Rng.hi_nowrap S hw') m
      rw [contents_len, show (v.contents m).elem = v.elem from rfl] at hb
      rcases hb with ⟨y, hb⟩ | hb
      · rw [M.bind_panic hb]
        exact ⟨_, rfl⟩
      · rw [M.bind_ok hb]
        simp only
        have hno : ¬ (r.lo * Γ.size t ≤ r.hi es.length * Γ.size t ∧ r.hi es.length * Γ.size t ≤ v.len) := by
          rintro ⟨k1, k2⟩
          have j1 := Nat.le_of_mul_le_mul_right k1 S.pos
          rw [hlen] at k2
          have j2 := Nat.le_of_mul_le_mul_right k2 S.pos
          exact hin ⟨j1, j2⟩
        rw [M.bind_panic (show M.lift (v.range (r.lo * Γ.size t) (r.hi es.length * Γ.size t)) m = (.panic .index, m) by
          simp only [M.lift_run, PtrView.range, if_neg hno])]
        exact ⟨_, rfl⟩

/-! ### Runs -/

/-- What a run with the views `ρ` does, compared with separate lists; `l` blocks were leaked before. -/
structure KSim (Γ : TyEnv U) (n : Nat) (m : Mem) (w : World U) (l : Nat) (ρ : Nat → Option (PtrView V)) (σ : Lists)
    (R : Res α × (Mem × World U)) (P : Res α × (Lists × Outside U)) : Prop where
  res : R.1.Alike P.1
  mem : HeldSim Γ n m ρ σ ((.ok (), R.2.1) : Res Unit × Mem) (.ok (), P.2.1)
  user : R.2.2.user = P.2.2.user
  heap : Spills w.heap R.2.2.heap R.1 l P.2.2.leaked

theorem KSim.stay (H : HeldAt Γ n m ρ σ) (wf : w.heap.WF) {r s : Res α} (h : r.Alike s) :
    KSim Γ n m w l ρ σ (r, (m, w)) (s, (σ, ⟨l, w.user⟩)) :=
  ⟨h, HeldSim.stay H rfl, rfl, Spills.refl wf _ _⟩

theorem KSim.step {m1 : Mem} {w1 : World U} {σ1 : Lists} {o1 : Outside U} {a b : α} {R : Res β × (Mem × World U)}
    {P : Res β × (Lists × Outside U)} (wf : w.heap.WF) (h : KSim Γ n m w l ρ σ (.ok a, (m1, w1)) (.ok b, (σ1, o1)))
    (h' : KSim Γ n m1 w1 o1.leaked ρ σ1 R P) : KSim Γ n m w l ρ σ R P :=
  ⟨h'.res, h.mem.step h'.mem, h'.user, Spills.trans wf h.heap rfl h'.heap⟩

theorem KSim.bind {a : M (Mem × World U) α} {b : M (Lists × Outside U) α} {f : α → M (Mem × World U) β}
    {g : α → M (Lists × Outside U) β} (wf : w.heap.WF) (h : KSim Γ n m w l ρ σ (a (m, w)) (b (σ, ⟨l, w.user⟩)))
    (hf : ∀ x m1 w1 l1 σ1, HeldAt Γ n m1 ρ σ1 → w1.heap.WF → Dync.shape σ1 = Dync.shape σ →
      KSim Γ n m1 w1 l1 ρ σ1 (f x (m1, w1)) (g x (σ1, ⟨l1, w1.user⟩))) :
    KSim Γ n m w l ρ σ ((a >>= f) (m, w)) ((b >>= g) (σ, ⟨l, w.user⟩)) := by
  rcases ha : a (m, w) with ⟨r, m1, w1⟩
  rcases hb : b (σ, ⟨l, w.user⟩) with ⟨s, σ1, o1⟩
  rw [ha, hb] at h
  rcases h.res.cases with ⟨x, e1, e2⟩ | ⟨y, z, e1, e2⟩ | ⟨e1, e2⟩ | ⟨e1, e2⟩
  · cases (show r = .ok x from e1)
    cases (show s = .ok x from e2)
    rw [M.bind_ok ha, M.bind_ok hb]
    have hu : w1.user = o1.user := h.user
    have := hf x m1 w1 o1.leaked σ1 h.mem.held h.heap.wf h.mem.shape
    rw [hu] at this
    exact h.step wf this
  · cases (show r = .panic y from e1)
    cases (show s = .panic z from e2)
    rw [M.bind_panic ha, M.bind_panic hb]
    exact ⟨trivial, h.mem, h.user, h.heap.map nofun⟩
  · cases (show r = .ub from e1)
    cases (show s = .ub from e2)
    rw [M.bind_ub ha, M.bind_ub hb]
    exact ⟨trivial, h.mem, h.user, h.heap.map nofun⟩
  · cases (show r = .abort from e1)
    cases (show s = .abort from e2)
    rw [M.bind_abort ha, M.bind_abort hb]
    exact ⟨trivial, h.mem, h.user, h.heap.map nofun⟩

theorem KSim.map {R : Res α × (Mem × World U)} {P : Res α × (Lists × Outside U)} (h : KSim Γ n m w l ρ σ R P) (f : α → β) :
    KSim Γ n m w l ρ σ (R.1.map f, R.2) (P.1.map f, P.2) := by
  refine ⟨?_, h.mem, h.user, h.heap.map fun x hx => ?_⟩
  · rcases h.res.cases with ⟨x, e1, e2⟩ | ⟨y, z, e1, e2⟩ | ⟨e1, e2⟩ | ⟨e1, e2⟩ <;> rw [e1, e2] <;> simp [Res.map, Res.Alike]
  · cases e : R.1 with
    | ok y => exact ⟨y, rfl⟩
    | panic => rw [e] at hx; cases hx
    | ub => rw [e] at hx; cases hx
    | abort => rw [e] at hx; cases hx

/-- A run on the memory only. -/
theorem KSim.onFst {a : M Mem α} {P : Res α × Lists} (wf : w.heap.WF) (h : HeldSim Γ n m ρ σ (a m) P) :
    KSim Γ n m w l ρ σ (SProg.onFst a (m, w)) (P.1, (P.2, ⟨l, w.user⟩)) :=
  ⟨h.res.alike, ⟨rfl, h.held, h.shape, h.frame, h.log⟩, rfl, Spills.refl wf _ _⟩

theorem KSim.after {a : M Mem α} {x : α} {f : α → M (Mem × World U) β} {P : Res β × (Lists × Outside U)} (wf : w.heap.WF)
    (h : HeldSim Γ n m ρ σ (a m) (.ok x, σ)) (hf : ∀ m1, HeldAt Γ n m1 ρ σ → KSim Γ n m1 w l ρ σ (f x (m1, w)) P) :
    KSim Γ n m w l ρ σ ((SProg.onFst a >>= f) (m, w)) P := by
  rcases e : a m with ⟨r, m1⟩
  rw [e] at h
  have hr := h.res
  cases r with
  | ok y =>
    cases (show y = x from hr)
    rw [M.bind_ok (show SProg.onFst a (m, w) = (.ok x, (m1, w)) by simp only [SProg.onFst, M.zoom_run, e])]
    exact KSim.step (l := l) (a := x) (b := x) (w1 := w) (σ1 := σ) (o1 := ⟨l, w.user⟩) wf
      ⟨rfl, ⟨rfl, h.held, h.shape, h.frame, h.log⟩, rfl, Spills.refl wf _ _⟩ (hf m1 h.held)
  | panic => exact hr.elim
  | ub => exact hr.elim
  | abort => exact hr.elim

theorem lend_within {k : Nat} (O : v.Ok Γ t) (h : k = v.len) : ∀ a ∈ ([⟨v.addr, v.len, v.elem.alignment, false⟩,
    ⟨v.addr, k, v.elem.alignment, true⟩] : List Access), a.Within v.addr v.len := by
  have hd : v.elem.alignment ∣ v.addr := by rw [O.elem]; exact O.aligned
  intro a ha
  rcases List.mem_cons.1 ha with rfl | ha
  · exact ⟨Nat.le_refl _, Nat.le_refl _, hd⟩
  · rw [List.mem_singleton.1 ha]
    exact ⟨Nat.le_refl _, by simp only [h]; exact Nat.le_refl _, hd⟩

/-- What a program on one view does to it. -/
theorem KSim.lend [HasClone U V] (H : HeldAt Γ n m ρ σ) (T : Tabled (U := U) Γ ρ σ) (wf : w.heap.WF) (hv : ρ i = some v)
    (hs : σ i = some (t, es)) {a : M (SliceCopy V × World U) α} {b : M (List Bytes × Outside U) α} (h : DViewSim Γ t a b) :
    KSim Γ n m w l ρ σ (v.lend a (m, w)) (atList i t es b (σ, ⟨l, w.user⟩)) := by
  obtain ⟨O, S⟩ := H.view _ _ _ _ hv hs
  have K := h es (v.contents m) w l S wf (T i v t es hv hs)
  have hl : (a (v.contents m, w)).2.1.data.length = v.len := by
    rw [K.repr.length, K.len, ← S.length, contents_len]
  refine ⟨K.res, ?_, K.user, K.heap⟩
  refine HeldSim.one H hv hs rfl ?_ K.len ?_ ⟨_, rfl, lend_within O hl⟩
  · have e : v.contents (m.write v.addr (a (v.contents m, w)).2.1.data) = (a (v.contents m, w)).2.1 := by
      rw [K.repr.eq_mk, K.table]
      simp only [PtrView.contents]
      have := Mem.read_write_same (m := m) (a := v.addr) (bs := (a (v.contents m, w)).2.1.data)
      rw [hl] at this
      rw [← K.repr.data, this, O.elem]
    show SRepr Γ t _ (v.contents (m.write v.addr (a (v.contents m, w)).2.1.data))
    rw [e]
    exact K.repr
  · intro x hx
    refine Mem.write_byte_out ?_
    rw [hl]
    exact hx

/-- Parts of a view. -/
theorem KSim.parts (H : HeldAt Γ n m ρ σ) {pre post : List Bytes} {parts : List (List Bytes)} {cs : List (PtrView V)}
    (hv : ρ i = some v) (hs : σ i = some (t, pre ++ parts.flatten ++ post)) (hl : cs.length = parts.length)
    (L : Laid (v.addr + pre.length * Γ.size t) cs)
    (hw : ∀ (c : Nat) (w : PtrView V) (es : List Bytes), cs[c]? = some w → parts[c]? = some es → w.Ok Γ t ∧ w.len = es.length * Γ.size t)
    {R : Res α × (Mem × World U)} {q : M (Lists × Outside U) α}
    (ih : HeldAt Γ (n + parts.length) m (opened ρ n i cs) (opened σ n i (parts.map fun es => (t, es))) →
      KSim Γ (n + parts.length) m w l (opened ρ n i cs) (opened σ n i (parts.map fun es => (t, es))) R
        (q (opened σ n i (parts.map fun es => (t, es)), ⟨l, w.user⟩))) :
    KSim Γ n m w l ρ σ R (withParts n i t pre parts post q (σ, ⟨l, w.user⟩)) := by
  -- the parts are views themselves, since a run of them exists for which that is all there is to show
  have H' : HeldAt Γ (n + parts.length) m (opened ρ n i cs) (opened σ n i (parts.map fun es => (t, es))) :=
    Classical.byContradiction fun hn => (keeps_parts (R := ((.ok (), m) : Res Unit × Mem)) (q := ⟨fun σ => (.panic .index, σ)⟩)
      H hv hs hl L hw (fun h => absurd h hn)).res
  have X := keeps_parts (R := ((.ok (), R.2.1) : Res Unit × Mem)) (q := ⟨fun σ => (.ok (), (q (σ, ⟨l, w.user⟩)).2.1)⟩)
    H hv hs hl L hw (fun H' => (ih H').mem)
  have Y := ih H'
  exact ⟨Y.res, X, Y.user, Y.heap⟩

end Dync
