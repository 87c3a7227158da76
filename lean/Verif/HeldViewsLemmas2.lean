import Verif.HeldViewsLemmas
/-!
# Programs that hold several views are programs on separate lists
-/
namespace Dync
variable {U V α β : Type} {Γ : TyEnv U} {cfg : Cfg} {n i : Nat} {m : Mem} {ρ : Nat → Option (PtrView V)} {σ : Lists} {t : TyId}
  {v : PtrView V} {es : List Bytes}

theorem elemAt_in (S : SRepr Γ t es (v.contents m)) {a : Nat} (ha : a < es.length) :
    v.elemAt cfg a m = (.ok (v.at (v.addr + a * Γ.size t) (Γ.size t)), m) := by
  have hc : v.count cfg m = (.ok es.length, m) := by
    have := S.len (cfg := cfg) m
    rw [len_eq, contents_len] at this
    rw [count_eq]
    exact this
  have hlen : v.len = es.length * Γ.size t := by rw [← S.length, contents_len]
  have hle : (a + 1) * Γ.size t ≤ es.length * Γ.size t := Nat.mul_le_mul_right _ ha
  have hk1 : (a + 1) * Γ.size t = a * Γ.size t + Γ.size t := Nat.succ_mul _ _
  have hnb : v.elem.numBytes = Γ.size t := S.numBytes
  unfold PtrView.elemAt
  have hd : (do
      let x ← indexByteRange cfg v.elem.numBytes a
      M.lift (v.range x.1 x.2) : M Mem (PtrView V)) m = (.ok (v.at (v.addr + a * Γ.size t) (Γ.size t)), m) := by
    rw [hnb, M.bind_ok (S.indexRange ha m)]
    simp only [M.lift_run, PtrView.range, hlen]
    rw [if_pos ⟨by omega, hle⟩, hk1, Nat.add_sub_cancel_left]
  simp only
  split
  · rw [M.bind_ok hc]
    simp only [ha, decide_true]
    exact hd
  · exact hd

theorem elemAt_out (S : SRepr Γ t es (v.contents m)) {a : Nat} (ha : es.length ≤ a) (hw : NoWrap cfg ((a + 1) * Γ.size t)) :
    ∃ y, v.elemAt cfg a m = (.panic y, m) := by
  obtain ⟨y, h⟩ := S.get_out ha hw m
  rw [slice_get_eq, contents_len] at h
  rw [show (v.contents m).elem = v.elem from rfl] at h
  rw [elemAt_eq]
  cases hE : elemRes cfg v.len v.elem.numBytes a with
  | ok r => rw [hE] at h; cases h
  | panic z => exact ⟨z, rfl⟩
  | ub => rw [hE] at h; cases h
  | abort => rw [hE] at h; cases h

theorem read_elem (S : SRepr Γ t es (v.contents m)) {a : Nat} (ha : a < es.length) : m.read (v.addr + a * Γ.size t) (Γ.size t) = es[a] := by
  have hlen : v.len = es.length * Γ.size t := by rw [← S.length, contents_len]
  have hle : (a + 1) * Γ.size t ≤ es.length * Γ.size t := Nat.mul_le_mul_right _ ha
  have hk1 : (a + 1) * Γ.size t = a * Γ.size t + Γ.size t := Nat.succ_mul _ _
  have h := SRepr.sliceIndex_elem S.each ha
  rw [← S.data, show (v.contents m).data = m.read v.addr v.len from rfl] at h
  unfold sliceIndex at h
  rw [if_pos (by rw [Mem.read_length]; omega)] at h
  have := Res.ok.inj h
  rw [Mem.read_take (by omega), Mem.read_drop (by omega), hk1, Nat.add_sub_cancel_left] at this
  exact this

theorem within_at (S : SRepr Γ t es (v.contents m)) {a : Nat} (ha : a < es.length) :
    Access.Within v.addr v.len ⟨v.addr + a * Γ.size t, Γ.size t, 1, false⟩ := by
  have hlen : v.len = es.length * Γ.size t := by rw [← S.length, contents_len]
  have hle : (a + 1) * Γ.size t ≤ es.length * Γ.size t := Nat.mul_le_mul_right _ ha
  have hk1 : (a + 1) * Γ.size t = a * Γ.size t + Γ.size t := Nat.succ_mul _ _
  exact ⟨by simp, by simp only; omega, Nat.one_dvd _⟩

theorem HeldSim.next {a : M Mem α} {f : α → M Mem β} {x : α} {σ1 : Lists} {P : Res β × Lists} (h : HeldSim Γ n m ρ σ (a m) (.ok x, σ1))
    (hf : ∀ m1, HeldAt Γ n m1 ρ σ1 → HeldSim Γ n m1 ρ σ1 (f x m1) P) : HeldSim Γ n m ρ σ ((a >>= f) m) P := by
  rcases ha : a m with ⟨r, m1⟩
  rw [ha] at h
  have e : r = .ok x := by
    rcases h.res.cases with ⟨_, e, e'⟩ | ⟨_, _, _, e⟩
    · cases e'; exact e
    · cases e
  subst e
  rw [M.bind_ok ha]
  exact h.step (hf m1 h.held)

/-- Both elements, or a panic. -/
theorem keeps_elems (H : HeldAt Γ n m ρ σ) {j a b : Nat} {w : PtrView V} {t' : TyId} {fs : List Bytes} (hv : ρ i = some v) (hw : ρ j = some w)
    (hs : σ i = some (t, es)) (hs' : σ j = some (t', fs)) (ha : NoWrap cfg ((a + 1) * Γ.size t)) (hb : NoWrap cfg ((b + 1) * Γ.size t'))
    {k : PtrView V → PtrView V → M Mem α} {P : (a < es.length ∧ b < fs.length) → Res α × Lists}
    (hk : ∀ (h : a < es.length ∧ b < fs.length),
      HeldSim Γ n m ρ σ (k (v.at (v.addr + a * Γ.size t) (Γ.size t)) (w.at (w.addr + b * Γ.size t') (Γ.size t')) m) (P h)) :
    HeldSim Γ n m ρ σ ((do
      let e ← v.elemAt cfg a
      let f ← w.elemAt cfg b
      k e f : M Mem α) m) (if h : a < es.length ∧ b < fs.length then P h else (.panic .index, σ)) := by
  obtain ⟨-, S⟩ := H.view _ _ _ _ hv hs
  obtain ⟨-, S'⟩ := H.view _ _ _ _ hw hs'
  by_cases h1 : a < es.length
  · rw [M.bind_ok (elemAt_in S h1)]
    by_cases h2 : b < fs.length
    · rw [M.bind_ok (elemAt_in S' h2), dif_pos ⟨h1, h2⟩]
      exact hk ⟨h1, h2⟩
    · obtain ⟨y, e⟩ := elemAt_out S' (Nat.le_of_not_lt h2) hb
      rw [M.bind_panic e, dif_neg (fun h => h2 h.2)]
      exact HeldSim.stay H trivial
  · obtain ⟨y, e⟩ := elemAt_out S (Nat.le_of_not_lt h1) ha
    rw [M.bind_panic e, dif_neg (fun h => h1 h.1)]
    exact HeldSim.stay H trivial

theorem keeps_swapValue (H : HeldAt Γ n m ρ σ) {j a b : Nat} {w : PtrView V} {t' : TyId} {fs : List Bytes} (hij : i ≠ j)
    (hv : ρ i = some v) (hw : ρ j = some w) (hs : σ i = some (t, es)) (hs' : σ j = some (t', fs)) (h1 : a < es.length) (h2 : b < fs.length) :
    HeldSim Γ n m ρ σ ((PtrView.swapValue (v.at (v.addr + a * Γ.size t) (Γ.size t)) (w.at (w.addr + b * Γ.size t') (Γ.size t'))) m)
      (.ok (), if t = t' then Slots.put (Slots.put σ i (some (t, es.set a fs[b]))) j (some (t', fs.set b es[a])) else σ) := by
  obtain ⟨O, S⟩ := H.view _ _ _ _ hv hs
  obtain ⟨O', S'⟩ := H.view _ _ _ _ hw hs'
  have e1 : (v.at (v.addr + a * Γ.size t) (Γ.size t)).elem = ElemInfo.new Γ t := O.elem
  have e2 : (w.at (w.addr + b * Γ.size t') (Γ.size t')).elem = ElemInfo.new Γ t' := O'.elem
  unfold PtrView.swapValue
  rw [e1, e2]
  by_cases ht : t = t'
  · subst ht
    rw [if_pos rfl, if_pos rfl]
    simp only [beq_self_eq_true]
    refine HeldSim.next (x := ()) (σ1 := Slots.put (Slots.put σ i (some (t, es.set a fs[b]))) j (some (t, fs.set b es[a]))) ?_ fun m1 H1 => HeldSim.stay H1 rfl
    have hx : HeldSim Γ n m ρ σ ((PtrView.exchange (v.at (v.addr + a * Γ.size t) (Γ.size t)) (w.at (w.addr + b * Γ.size t) (Γ.size t))) m)
        (.ok (), Slots.put (Slots.put σ i (some (t, es.set a fs[b]))) j (some (t, fs.set b es[a]))) := by
      unfold PtrView.exchange
      rw [if_pos (show (v.at (v.addr + a * Γ.size t) (Γ.size t)).len = (w.at (w.addr + b * Γ.size t) (Γ.size t)).len from rfl)]
      refine HeldSim.next (keeps_load H hv (within_at S h1)) fun m1 H1 => ?_
      refine HeldSim.next (keeps_load H1 hw (within_at (H1.view _ _ _ _ hw hs').2 h2)) fun m2 H2 => ?_
      rw [read_elem S h1, read_elem (H1.view _ _ _ _ hw hs').2 h2]
      refine HeldSim.next (keeps_store H2 hv hs h1 (S'.each _ (List.getElem_mem h2))) fun m3 H3 => ?_
      exact keeps_store H3 hw (by simp only [Slots.put, if_neg (Ne.symm hij)]; exact hs') h2 (S.each _ (List.getElem_mem h1))
    exact hx
  · rw [if_neg (show ¬ (ElemInfo.new Γ t).type_id = (ElemInfo.new Γ t').type_id from ht), if_neg ht]
    exact HeldSim.stay H rfl

theorem keeps_copyValue (H : HeldAt Γ n m ρ σ) {j a b : Nat} {w : PtrView V} {t' : TyId} {fs : List Bytes}
    (hv : ρ i = some v) (hw : ρ j = some w) (hs : σ i = some (t, es)) (hs' : σ j = some (t', fs)) (h1 : a < es.length) (h2 : b < fs.length) :
    HeldSim Γ n m ρ σ ((PtrView.copyValue (v.at (v.addr + a * Γ.size t) (Γ.size t)) (w.at (w.addr + b * Γ.size t') (Γ.size t'))) m)
      (.ok (), if t = t' then Slots.put σ i (some (t, es.set a fs[b])) else σ) := by
  obtain ⟨O, S⟩ := H.view _ _ _ _ hv hs
  obtain ⟨O', S'⟩ := H.view _ _ _ _ hw hs'
  have e1 : (v.at (v.addr + a * Γ.size t) (Γ.size t)).elem = ElemInfo.new Γ t := O.elem
  have e2 : (w.at (w.addr + b * Γ.size t') (Γ.size t')).elem = ElemInfo.new Γ t' := O'.elem
  unfold PtrView.copyValue
  rw [e1, e2]
  by_cases ht : t = t'
  · subst ht
    rw [if_pos rfl, if_pos (show (v.at (v.addr + a * Γ.size t) (Γ.size t)).len = (w.at (w.addr + b * Γ.size t) (Γ.size t)).len from rfl),
      if_pos rfl]
    refine HeldSim.next (keeps_load H hw (within_at S' h2)) fun m1 H1 => ?_
    rw [read_elem S' h2]
    exact keeps_store H1 hv hs h1 (S'.each _ (List.getElem_mem h2))
  · rw [if_neg (show ¬ (ElemInfo.new Γ t).type_id = (ElemInfo.new Γ t').type_id from ht), if_neg ht]
    exact HeldSim.stay H rfl

/-! ### Layout of parts -/

theorem laid_row (k a c : Nat) : Laid a (v.row k a c) := by
  induction c generalizing a with
  | zero => simp [PtrView.row, Laid]
  | succ c ih =>
    rw [row_succ]
    exact ⟨rfl, ih (a + k)⟩

theorem chunks_row {k : Nat} (hk : k ≠ 0) : v.chunks k = .ok (v.row k v.addr (v.len / k)) := by
  simp only [PtrView.chunks, if_neg hk]
  rfl

theorem row_get {k a c x : Nat} {w : PtrView V} (h : (v.row k a c)[x]? = some w) : w = v.at (a + x * k) k := by
  simp only [PtrView.row, List.getElem?_map, Option.map_eq_some_iff] at h
  obtain ⟨y, h1, h2⟩ := h
  rw [List.getElem?_range (by
    have := (List.getElem?_eq_some_iff.1 h1).1
    simpa using this)] at h1
  cases h1
  exact h2.symm

theorem pieces_flatten {k : Nat} (hk : 0 < k) (es : List Bytes) : (pieces k es).flatten = es.take (es.length / k * k) := by
  rw [← chunks_eq_pieces hk, chunks_join]

theorem pieces_each {k : Nat} (hk : 0 < k) (es : List Bytes) : ∀ c ∈ pieces k es, c.length = k := by
  rw [← chunks_eq_pieces hk]; exact chunks_each es

theorem pieces_length {k : Nat} (es : List Bytes) : (pieces k es).length = es.length / k := by simp [pieces]

/-! ### All programs -/

theorem shape_some (h : σ i = some (t, es)) : Dync.shape σ i = some (t, es.length) := by simp only [Dync.shape, h, Option.map_some]

theorem HeldAt.cases (H : HeldAt Γ n m ρ σ) (i : Nat) :
    (ρ i = none ∧ σ i = none) ∨ ∃ v t es, ρ i = some v ∧ σ i = some (t, es) ∧ v.Ok Γ t ∧ SRepr Γ t es (v.contents m) := by
  cases hv : ρ i with
  | none => exact .inl ⟨rfl, (H.none_iff i).1 hv⟩
  | some v =>
    cases hs : σ i with
    | none => rw [(H.none_iff i).2 hs] at hv; cases hv
    | some x => exact .inr ⟨v, x.1, x.2, rfl, rfl, H.view i v x.1 x.2 hv hs⟩

theorem sim_split {mid : Nat} {q : HProg} (H : HeldAt Γ n m ρ σ) (hr : (HProg.split i mid q).InRange Γ cfg n (Dync.shape σ))
    (ih : ∀ n m (ρ : Nat → Option (PtrView V)) σ, HeldAt Γ n m ρ σ → q.InRange Γ cfg n (Dync.shape σ) →
      HeldSim Γ n m ρ σ (q.runAt Γ cfg n ρ m) (q.plain n σ)) :
    HeldSim Γ n m ρ σ ((HProg.split i mid q).runAt Γ cfg n ρ m) ((HProg.split i mid q).plain n σ) := by
  simp only [HProg.runAt, HProg.plain]
  rcases H.cases i with ⟨h1, h2⟩ | ⟨v, t, es, h1, h2, O, S⟩
  · rw [h1, h2]; exact HeldSim.stay H rfl
  · rw [h1, h2]
    simp only
    obtain ⟨hw, hq⟩ := hr t es.length (shape_some h2)
    have hlen : v.len = es.length * Γ.size t := by rw [← S.length, contents_len]
    by_cases hm : mid ≤ es.length
    · rw [if_pos hm, O.bytes]
      have hle : mid * Γ.size t ≤ es.length * Γ.size t := Nat.mul_le_mul_right _ hm
      rw [M.bind_ok (show umul cfg mid (Γ.size t) m = (.ok (mid * Γ.size t), m) by
        simp only [umul_eq, M.lift_run, umulRes, if_pos (S.mul_le hm)])]
      rw [M.bind_ok (show M.lift (v.cut (mid * Γ.size t)) m = (.ok (v.at v.addr (mid * Γ.size t),
        v.at (v.addr + mid * Γ.size t) (v.len - mid * Γ.size t)), m) by
        simp only [M.lift_run, PtrView.cut, if_pos (show mid * Γ.size t ≤ v.len by omega)])]
      simp only
      refine keeps_parts H (pre := []) (post := []) (parts := [es.take mid, es.drop mid])
        (cs := [v.at v.addr (mid * Γ.size t), v.at (v.addr + mid * Γ.size t) (v.len - mid * Γ.size t)]) h1 (by simp [h2]) rfl
        ⟨by simp, by simp, trivial⟩ ?_ (fun H' => ih _ _ _ _ H' ?_)
      · intro c w fs hc hf
        match c with
        | 0 =>
          simp only [List.getElem?_cons_zero, Option.some.injEq] at hc hf
          subst hc hf
          exact ⟨O.move (a := 0) (Nat.dvd_zero _), by simp [Nat.min_eq_left hm]⟩
        | 1 =>
          simp only [List.getElem?_cons_zero, List.getElem?_cons_succ, Option.some.injEq] at hc hf
          subst hc hf
          refine ⟨O.move (Nat.dvd_mul_left_of_dvd (Γ.align_dvd t) mid), ?_⟩
          simp [hlen, Nat.sub_mul]
        | c + 2 => simp at hc
      · rw [shape_opened]
        simp only [List.map_cons, List.map_nil, List.length_take, List.length_drop, Nat.min_eq_left hm]
        exact hq hm
    · rw [if_neg hm, O.bytes]
      have hle : ¬ mid * Γ.size t ≤ v.len := by
        rw [hlen]
        have := Nat.mul_lt_mul_of_pos_right (Nat.lt_of_not_le hm) S.pos; omega
      rcases umul_nowrap hw m with e | e
      · rw [M.bind_ok e, M.bind_panic (show M.lift (v.cut (mid * Γ.size t)) m = (.panic .assertion, m) by
          simp only [M.lift_run, PtrView.cut, if_neg hle])]
        exact HeldSim.stay H trivial
      · rw [M.bind_panic e]
        exact HeldSim.stay H trivial

theorem sim_chunks {k : Nat} {q : HProg} (H : HeldAt Γ n m ρ σ) (hr : (HProg.chunks i k q).InRange Γ cfg n (Dync.shape σ))
    (ih : ∀ n m (ρ : Nat → Option (PtrView V)) σ, HeldAt Γ n m ρ σ → q.InRange Γ cfg n (Dync.shape σ) →
      HeldSim Γ n m ρ σ (q.runAt Γ cfg n ρ m) (q.plain n σ)) :
    HeldSim Γ n m ρ σ ((HProg.chunks i k q).runAt Γ cfg n ρ m) ((HProg.chunks i k q).plain n σ) := by
  simp only [HProg.runAt, HProg.plain]
  rcases H.cases i with ⟨h1, h2⟩ | ⟨v, t, es, h1, h2, O, S⟩
  · rw [h1, h2]; exact HeldSim.stay H rfl
  · rw [h1, h2]
    simp only
    obtain ⟨hw, hq⟩ := hr t es.length (shape_some h2)
    have hlen : v.len = es.length * Γ.size t := by rw [← S.length, contents_len]
    rw [O.bytes, M.bind_ok (show umul cfg (Γ.size t) k m = (.ok (Γ.size t * k), m) by
        simp only [umul_eq, M.lift_run, umulRes, if_pos hw])]
    by_cases hk : k = 0
    · rw [if_pos hk, M.bind_panic (show M.lift (v.chunks (Γ.size t * k)) m = (.panic .zeroChunk, m) by
        simp only [M.lift_run, PtrView.chunks, hk, Nat.mul_zero, if_true])]
      exact HeldSim.stay H trivial
    · have hk0 : 0 < k := Nat.pos_of_ne_zero hk
      have hn0 : Γ.size t * k ≠ 0 := Nat.ne_of_gt (Nat.mul_pos S.pos hk0)
      have hdiv : v.len / (Γ.size t * k) = es.length / k := by rw [hlen, Nat.mul_comm, Nat.mul_div_mul_left _ _ S.pos]
      rw [if_neg hk, M.bind_ok (show M.lift (v.chunks (Γ.size t * k)) m = (.ok (v.row (Γ.size t * k) v.addr (es.length / k)), m) by
        simp only [M.lift_run, chunks_row hn0, hdiv])]
      have hcl : (v.row (Γ.size t * k) v.addr (es.length / k)).length = es.length / k := by simp [PtrView.row]
      rw [hcl, ← pieces_length (k := k) es]
      refine keeps_parts H (pre := []) h1 (by rw [h2, pieces_flatten hk0, pieces_length, List.nil_append, List.take_append_drop]) (by rw [pieces_length, hcl]) (by
        simpa [pieces_length] using laid_row (v := v) (Γ.size t * k) v.addr (es.length / k)) ?_ (fun H' => ih _ _ _ _ H' ?_)
      · intro c w fs hc hf
        rw [pieces_length] at hc
        cases row_get hc
        have hd : Γ.align t ∣ Γ.size t * k := Nat.dvd_mul_right_of_dvd (Γ.align_dvd t) k
        refine ⟨row_ok O hd c, ?_⟩
        rw [pieces_each hk0 es fs (List.mem_of_getElem? hf), Nat.mul_comm k]
      · rw [shape_opened]
        have e : ((pieces k es).map fun fs => (t, fs)).map (fun x : TyId × List Bytes => (x.1, x.2.length)) = List.replicate (es.length / k) (t, k) := by
          rw [List.eq_replicate_iff]
          refine ⟨by simp [pieces_length], fun b hb => ?_⟩
          simp only [List.map_map, List.mem_map, Function.comp] at hb
          obtain ⟨fs, hf, rfl⟩ := hb
          rw [pieces_each hk0 es fs hf]
        rw [e, pieces_length]
        exact hq hk

theorem sim_values {q : HProg} (H : HeldAt Γ n m ρ σ) (hr : (HProg.values i q).InRange Γ cfg n (Dync.shape σ))
    (ih : ∀ n m (ρ : Nat → Option (PtrView V)) σ, HeldAt Γ n m ρ σ → q.InRange Γ cfg n (Dync.shape σ) →
      HeldSim Γ n m ρ σ (q.runAt Γ cfg n ρ m) (q.plain n σ)) :
    HeldSim Γ n m ρ σ ((HProg.values i q).runAt Γ cfg n ρ m) ((HProg.values i q).plain n σ) := by
  simp only [HProg.runAt, HProg.plain]
  rcases H.cases i with ⟨h1, h2⟩ | ⟨v, t, es, h1, h2, O, S⟩
  · rw [h1, h2]; exact HeldSim.stay H rfl
  · rw [h1, h2]
    simp only
    have hq := hr t es.length (shape_some h2)
    have hlen : v.len = es.length * Γ.size t := by rw [← S.length, contents_len]
    have hdiv : v.len / Γ.size t = es.length := by rw [hlen, Nat.mul_div_cancel _ S.pos]
    rw [O.bytes, M.bind_ok (show M.lift (v.chunks (Γ.size t)) m = (.ok (v.row (Γ.size t) v.addr es.length), m) by
      simp only [M.lift_run, chunks_row (Nat.ne_of_gt S.pos), hdiv])]
    have hcl : (v.row (Γ.size t) v.addr es.length).length = es.length := by simp [PtrView.row]
    have hml : (es.map fun e => [e]).length = es.length := by simp
    rw [hcl]
    have K := keeps_parts H (t := t) (pre := []) (post := []) (parts := es.map fun e => [e]) (cs := v.row (Γ.size t) v.addr es.length)
      (R := q.runAt Γ cfg (n + es.length) (opened ρ n i (v.row (Γ.size t) v.addr es.length)) m) (q := q.plain (n + es.length)) h1
      (by rw [h2]; simp [flatten_singles]) (by rw [hcl, hml]) (by simpa using laid_row (v := v) (Γ.size t) v.addr es.length) (by
        intro c w fs hc hf
        cases row_get hc
        refine ⟨row_ok O (Γ.align_dvd t) c, ?_⟩
        simp only [List.getElem?_map, Option.map_eq_some_iff] at hf
        obtain ⟨e, -, rfl⟩ := hf
        simp) (fun H' => by
        rw [hml] at H' ⊢
        refine ih _ _ _ _ H' ?_
        rw [shape_opened]
        have e : ((es.map fun e => [e]).map fun fs => (t, fs)).map (fun x : TyId × List Bytes => (x.1, x.2.length)) = List.replicate es.length (t, 1) := by
          rw [List.eq_replicate_iff]
          refine ⟨by simp, fun b hb => ?_⟩
          simp only [List.map_map, List.mem_map, Function.comp] at hb
          obtain ⟨fs, hf, rfl⟩ := hb
          rfl
        rw [e]
        exact hq)
    exact K

theorem sim_sub {r : Rng} {q : HProg} (H : HeldAt Γ n m ρ σ) (hr : (HProg.sub i r q).InRange Γ cfg n (Dync.shape σ))
    (ih : ∀ n m (ρ : Nat → Option (PtrView V)) σ, HeldAt Γ n m ρ σ → q.InRange Γ cfg n (Dync.shape σ) →
      HeldSim Γ n m ρ σ (q.runAt Γ cfg n ρ m) (q.plain n σ)) :
    HeldSim Γ n m ρ σ ((HProg.sub i r q).runAt Γ cfg n ρ m) ((HProg.sub i r q).plain n σ) := by
  simp only [HProg.runAt, HProg.plain]
  rcases H.cases i with ⟨h1, h2⟩ | ⟨v, t, es, h1, h2, O, S⟩
  · rw [h1, h2]; exact HeldSim.stay H rfl
  · rw [h1, h2]
    simp only
    obtain ⟨hh, hw, hw', hq⟩ := hr t es.length (shape_some h2)
    have hlen : v.len = es.length * Γ.size t := by rw [← S.length, contents_len]
    rw [show (do
        let r ← r.scale cfg v.elem.numBytes
        let x ← M.lift (r.bounds v.len)
        match x with
          | (a, b) => do
            let w ← M.lift (v.range a b)
            q.runAt Γ cfg (n + 1) (opened ρ n i [w]) : M Mem (List Read)) =
      ((do let r ← r.scale cfg v.elem.numBytes
           M.lift (r.bounds v.len)) >>= fun x : Nat × Nat => do
            let w ← M.lift (v.range x.1 x.2)
            q.runAt Γ cfg (n + 1) (opened ρ n i [w]) : M Mem (List Read)) from by rw [bind_assoc]]
    by_cases hin : r.lo ≤ r.hi es.length ∧ r.hi es.length ≤ es.length
    · rw [if_pos hin]
      have hb := S.bounds (cfg := cfg) hh hin.1 hin.2 m
      rw [contents_len, show (v.contents m).elem = v.elem from rfl] at hb
      have l1 : r.lo * Γ.size t ≤ r.hi es.length * Γ.size t := Nat.mul_le_mul_right _ hin.1
      have l2 : r.hi es.length * Γ.size t ≤ es.length * Γ.size t := Nat.mul_le_mul_right _ hin.2
      rw [M.bind_ok hb]
      simp only
      rw [M.bind_ok (show M.lift (v.range (r.lo * Γ.size t) (r.hi es.length * Γ.size t)) m =
        (.ok (v.at (v.addr + r.lo * Γ.size t) (r.hi es.length * Γ.size t - r.lo * Γ.size t)), m) by
        simp only [M.lift_run, PtrView.range]
        rw [if_pos ⟨l1, by omega⟩])]
      have el : ((es.take (r.hi es.length)).drop r.lo).length = r.hi es.length - r.lo := by
        rw [List.length_drop, List.length_take, Nat.min_eq_left hin.2]
      refine keeps_parts H (parts := [(es.take (r.hi es.length)).drop r.lo])
        (cs := [v.at (v.addr + r.lo * Γ.size t) (r.hi es.length * Γ.size t - r.lo * Γ.size t)]) h1 ?_ rfl
        ⟨by rw [List.length_take, Nat.min_eq_left (by omega)], trivial⟩ ?_ (fun H' => ih _ _ _ _ H' ?_)
      · rw [h2]
        congr 2
        rw [List.flatten_cons, List.flatten_nil, List.append_nil]
        have : es.take r.lo = (es.take (r.hi es.length)).take r.lo := by rw [List.take_take, Nat.min_eq_left hin.1]
        rw [this, List.take_append_drop, List.take_append_drop]
      · intro c w fs hc hf
        match c with
        | 0 =>
          simp only [List.getElem?_cons_zero, Option.some.injEq] at hc hf
          subst hc hf
          refine ⟨O.move (Nat.dvd_mul_left_of_dvd (Γ.align_dvd t) r.lo), ?_⟩
          rw [el, Nat.sub_mul]
        | c + 1 => simp at hc
      · rw [shape_opened]
        simp only [List.map_cons, List.map_nil, el]
        exact hq hin
    · rw [if_neg hin]
      have hout : r.hi es.length < r.lo ∨ es.length < r.hi es.length := by omega
      have hb := S.bounds_out (cfg := cfg) hh hout hw (Rng.hi_nowrap S hw') m
      rw [contents_len, show (v.contents m).elem = v.elem from rfl] at hb
      rcases hb with ⟨y, hb⟩ | hb
      · rw [M.bind_panic hb]
        exact HeldSim.stay H trivial
      · rw [M.bind_ok hb]
        simp only
        have hno : ¬ (r.lo * Γ.size t ≤ r.hi es.length * Γ.size t ∧ r.hi es.length * Γ.size t ≤ v.len) := by
          rintro ⟨k1, k2⟩
          have j1 := Nat.le_of_mul_le_mul_right k1 S.pos
          rw [hlen] at k2
          have j2 := Nat.le_of_mul_le_mul_right k2 S.pos
          exact hin ⟨j1, j2⟩
        rw [M.bind_panic (show M.lift (v.range (r.lo * Γ.size t) (r.hi es.length * Γ.size t)) m = (.panic .index, m) by
          simp only [M.lift_run, PtrView.range, if_neg hno])]
        exact HeldSim.stay H trivial

theorem HProg.sim (p : HProg) (hp : p.Sized Γ) : ∀ n m (ρ : Nat → Option (PtrView V)) σ, HeldAt Γ n m ρ σ → p.InRange Γ cfg n (Dync.shape σ) →
    HeldSim Γ n m ρ σ (p.runAt Γ cfg n ρ m) (p.plain n σ) := by
  induction p with
  | skip => intro n m ρ σ H _; exact HeldSim.stay H rfl
  | seq p q ihp ihq =>
    intro n m ρ σ H hr
    refine HeldSim.bind (ihp hp.1 n m ρ σ H hr.1) fun x m1 σ1 H1 hs => ?_
    refine HeldSim.bind (ihq hp.2 n m1 ρ σ1 H1 (by rw [hs]; exact hr.2)) fun y m2 σ2 H2 _ => ?_
    exact HeldSim.stay H2 rfl
  | on i p =>
    intro n m ρ σ H hr
    simp only [HProg.runAt, HProg.plain]
    rcases H.cases i with ⟨h1, h2⟩ | ⟨v, t, es, h1, h2, O, S⟩
    · rw [h1, h2]; exact HeldSim.stay H rfl
    · rw [h1, h2]
      exact keeps_on H h1 h2 (hp t) (hr t es.length (shape_some h2))
  | swapValues i a j b =>
    intro n m ρ σ H hr
    simp only [HProg.runAt, HProg.plain]
    by_cases hij : i = j
    · rw [if_pos hij, if_pos hij]; exact HeldSim.stay H rfl
    · rw [if_neg hij, if_neg hij]
      rcases H.cases i with ⟨h1, h2⟩ | ⟨v, t, es, h1, h2, O, S⟩
      · rw [h1, h2]; exact HeldSim.stay H rfl
      · rcases H.cases j with ⟨g1, g2⟩ | ⟨w, t', fs, g1, g2, O', S'⟩
        · rw [h1, h2, g1, g2]; exact HeldSim.stay H rfl
        · rw [h1, h2, g1, g2]
          refine keeps_elems H h1 g1 h2 g2 (hr.1 t _ (shape_some h2)) (hr.2 t' _ (shape_some g2)) (k := fun e f => do e.swapValue f; pure []) fun h => ?_
          exact HeldSim.next (keeps_swapValue H hij h1 g1 h2 g2 h.1 h.2) fun m1 H1 => HeldSim.stay H1 rfl
  | copyValue i a j b =>
    intro n m ρ σ H hr
    simp only [HProg.runAt, HProg.plain]
    by_cases hij : i = j
    · rw [if_pos hij, if_pos hij]; exact HeldSim.stay H rfl
    · rw [if_neg hij, if_neg hij]
      rcases H.cases i with ⟨h1, h2⟩ | ⟨v, t, es, h1, h2, O, S⟩
      · rw [h1, h2]; exact HeldSim.stay H rfl
      · rcases H.cases j with ⟨g1, g2⟩ | ⟨w, t', fs, g1, g2, O', S'⟩
        · rw [h1, h2, g1, g2]; exact HeldSim.stay H rfl
        · rw [h1, h2, g1, g2]
          refine keeps_elems H h1 g1 h2 g2 (hr.1 t _ (shape_some h2)) (hr.2 t' _ (shape_some g2)) (k := fun e f => do e.copyValue f; pure []) fun h => ?_
          exact HeldSim.next (keeps_copyValue H h1 g1 h2 g2 h.1 h.2) fun m1 H1 => HeldSim.stay H1 rfl
  | split i mid q ih => intro n m ρ σ H hr; exact sim_split H hr (ih hp)
  | chunks i k q ih => intro n m ρ σ H hr; exact sim_chunks H hr (ih hp)
  | values i q ih => intro n m ρ σ H hr; exact sim_values H hr (ih hp)
  | sub i r q ih => intro n m ρ σ H hr; exact sim_sub H hr (ih hp)

end Dync
