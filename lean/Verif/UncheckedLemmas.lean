import Verif.UncheckedSpec
import Verif.HeldViewsLemmas2
import Verif.PointersLemmas7
/-!
# Unchecked access and raw bytes: simulation by lists
-/
namespace Dync
variable {U V α β : Type} {Γ : TyEnv U} {cfg : Cfg} {t : TyId} {m : Mem} {v : PtrView V} {es : List Bytes}

/-- The run `R` on memory does to the elements of the view what `P` does to a list. -/
structure RawSim (Γ : TyEnv U) (t : TyId) (v : PtrView V) (m : Mem) (es : List Bytes) (R : Res α × Mem) (P : Res α × List Bytes) : Prop where
  res : R.1.Agrees P.1
  view : SRepr Γ t P.2 (v.contents R.2)
  length : P.2.length = es.length
  frame : ∀ x, ¬ v.Covers x → R.2.byte x = m.byte x
  log : ∃ l, R.2.log = m.log ++ l ∧ ∀ a ∈ l, a.Within v.addr v.len

theorem RawSim.stay (S : SRepr Γ t es (v.contents m)) {r s : Res α} (h : r.Agrees s) : RawSim Γ t v m es (r, m) (s, es) :=
  ⟨h, S, rfl, fun _ _ => rfl, [], (List.append_nil _).symm, fun _ h => by cases h⟩

theorem RawSim.step {m1 : Mem} {es1 : List Bytes} {a b : α} {R : Res β × Mem} {P : Res β × List Bytes}
    (h : RawSim Γ t v m es (.ok a, m1) (.ok b, es1)) (h' : RawSim Γ t v m1 es1 R P) : RawSim Γ t v m es R P := by
  obtain ⟨l, e, hl⟩ := h.log
  obtain ⟨l', e', hl'⟩ := h'.log
  refine ⟨h'.res, h'.view, h'.length.trans h.length, fun x hx => (h'.frame x hx).trans (h.frame x hx), l ++ l', ?_, fun a ha => ?_⟩
  · rw [e', e, List.append_assoc]
  · rcases List.mem_append.1 ha with ha | ha
    · exact hl a ha
    · exact hl' a ha

theorem RawSim.bind {a : M Mem α} {b : M (List Bytes) α} {f : α → M Mem β} {g : α → M (List Bytes) β} (h : RawSim Γ t v m es (a m) (b es))
    (hf : ∀ x m1 es1, SRepr Γ t es1 (v.contents m1) → es1.length = es.length → RawSim Γ t v m1 es1 (f x m1) (g x es1)) :
    RawSim Γ t v m es ((a >>= f) m) ((b >>= g) es) := by
  rcases ha : a m with ⟨r, m1⟩
  rcases hb : b es with ⟨s, es1⟩
  rw [ha, hb] at h
  cases r with
  | ok x =>
    cases s with
    | ok y =>
      have e : x = y := h.res
      subst e
      rw [M.bind_ok ha, M.bind_ok hb]
      exact h.step (hf x m1 es1 h.view h.length)
    | _ => exact h.res.elim
  | panic x =>
    cases s with
    | panic y => rw [M.bind_panic ha, M.bind_panic hb]; exact ⟨trivial, h.view, h.length, h.frame, h.log⟩
    | _ => exact h.res.elim
  | ub => exact h.res.elim
  | abort => exact h.res.elim

/-- Go on after a run with a known result. -/
theorem RawSim.next {a : M Mem α} {f : α → M Mem β} {x : α} {es1 : List Bytes} {P : Res β × List Bytes}
    (h : RawSim Γ t v m es (a m) (.ok x, es1)) (hf : ∀ m1, SRepr Γ t es1 (v.contents m1) → RawSim Γ t v m1 es1 (f x m1) P) :
    RawSim Γ t v m es ((a >>= f) m) P := by
  rcases ha : a m with ⟨r, m1⟩
  rw [ha] at h
  cases r with
  | ok y =>
    have e : y = x := h.res
    subst e
    rw [M.bind_ok ha]
    exact h.step (hf m1 h.view)
  | _ => exact h.res.elim

theorem SRepr.viewLen (S : SRepr Γ t es (v.contents m)) : v.len = es.length * Γ.size t := by rw [← S.length, contents_len]

/-- An access to element `i`. -/
theorem elem_within (S : SRepr Γ t es (v.contents m)) (ha : Γ.align t ∣ v.addr) {i al : Nat} (hi : i < es.length)
    (hal : al ∣ Γ.align t) (b : Bool) : Access.Within v.addr v.len ⟨v.addr + i * Γ.size t, Γ.size t, al, b⟩ := by
  have h1 := S.viewLen
  have h2 : (i + 1) * Γ.size t ≤ es.length * Γ.size t := Nat.mul_le_mul_right _ hi
  rw [Nat.succ_mul] at h2
  exact ⟨by simp, by simp only; omega,
    Nat.dvd_trans hal (Nat.dvd_add ha (Nat.dvd_mul_left_of_dvd (Γ.align_dvd t) i))⟩

theorem raw_load (S : SRepr Γ t es (v.contents m)) (ha : Γ.align t ∣ v.addr) {i al : Nat} (hi : i < es.length) (hal : al ∣ Γ.align t) :
    RawSim Γ t v m es (Mem.load (v.addr + i * Γ.size t) (Γ.size t) al m) (.ok es[i], es) :=
  ⟨read_elem S hi, S, rfl, fun _ _ => rfl, _, rfl, fun x hx => by
    rw [List.mem_singleton] at hx; subst hx; exact elem_within S ha hi hal false⟩

theorem raw_store (S : SRepr Γ t es (v.contents m)) (ha : Γ.align t ∣ v.addr) {i al : Nat} (hi : i < es.length) (hal : al ∣ Γ.align t)
    {x : Bytes} (hx : x.length = Γ.size t) :
    RawSim Γ t v m es (Mem.store (v.addr + i * Γ.size t) x al m) (.ok (), es.set i x) := by
  have W : Access.Within v.addr v.len ⟨v.addr + i * Γ.size t, x.length, al, true⟩ := by rw [hx]; exact elem_within S ha hi hal true
  have T := Traces.store (m := m) W
  refine ⟨rfl, ?_, by simp, T.frame, T.log⟩
  rw [← T.view]
  simp only [Nat.add_sub_cancel_left]
  rw [show m.read v.addr v.len = (v.contents m).data from rfl, S.splice_elem hi hx]
  exact S.set_ok (sized_set S.each hx) (by simp)

/-- Read element `i` and write it. -/
theorem raw_change (S : SRepr Γ t es (v.contents m)) (ha : Γ.align t ∣ v.addr) {i al : Nat} (hi : i < es.length) (hal : al ∣ Γ.align t)
    {f : Bytes → Bytes} (hf : ∀ b, b.length = Γ.size t → (f b).length = Γ.size t) :
    RawSim Γ t v m es ((do
      let b ← Mem.load (v.addr + i * Γ.size t) (Γ.size t) al
      Mem.store (v.addr + i * Γ.size t) (f b) al
      pure [] : M Mem (List β)) m) (.ok [], es.set i (f es[i])) := by
  refine (raw_load S ha hi hal).next fun m1 S1 => ?_
  exact (raw_store S1 ha hi hal (hf _ (S.each _ (List.getElem_mem hi)))).next fun m2 S2 => .stay S2 rfl

/-- One element after the other. -/
theorem raw_inTurn {W : Type} {w : Nat → PtrView W} {f : PtrView W → M Mem (List β)} {r : Bytes → List β} {g : Bytes → Bytes}
    (hf : ∀ i m1 es1, (hi : i < es1.length) → es1.length = es.length → SRepr Γ t es1 (v.contents m1) →
      RawSim Γ t v m1 es1 (f (w i) m1) (.ok (r es1[i]), es1.set i (g es1[i]))) :
    ∀ j k m es1 es2, k + j ≤ es.length → es1.length = es.length → SRepr Γ t es1 (v.contents m) →
      (∀ i, es2[i]? = if k ≤ i ∧ i < k + j then es1[i]?.map g else es1[i]?) →
      RawSim Γ t v m es1 (PtrView.inTurn f ((List.range' k j).map w) m) (.ok (((es1.drop k).take j).map r).flatten, es2) := by
  intro j
  induction j with
  | zero =>
    intro k m es1 es2 _ _ S h
    have e : es2 = es1 := List.ext_getElem? fun i => by rw [h i, if_neg (by omega)]
    subst e
    simp only [List.range'_zero, List.map_nil, PtrView.inTurn, List.take_zero, List.flatten_nil]
    exact .stay S rfl
  | succ j ih =>
    intro k m es1 es2 hk hl S h
    have hi : k < es1.length := by omega
    simp only [List.range'_succ, List.map_cons, PtrView.inTurn]
    refine (hf k m es1 hi hl S).next fun m1 S1 => ?_
    have h2 := ih (k + 1) m1 _ es2 (by omega) (by rw [List.length_set, hl]) S1 fun i => ?_
    · refine h2.next fun m2 S2 => ?_
      rw [List.drop_set_of_lt (Nat.lt_succ_self k), List.drop_eq_getElem_cons hi]
      exact .stay S2 rfl
    · rw [h i]
      by_cases hik : i = k
      · subst hik
        rw [if_pos (by omega), if_neg (by omega), List.getElem?_set_self hi, List.getElem?_eq_getElem hi]
        rfl
      · rw [List.getElem?_set_ne (Ne.symm hik)]
        by_cases h4 : k + 1 ≤ i ∧ i < k + 1 + j
        · rw [if_pos h4, if_pos (by omega)]
        · rw [if_neg h4, if_neg (by omega)]

/-- The bytes of an element. -/
theorem rawElem_eq {d : VecVoid} (hn : 0 < Γ.size t) (he : d.elem = ElemInfo.new Γ t) (addr : Nat) {i : Nat} (hw : NoWrap cfg ((i + 1) * Γ.size t))
    (hb : d.len * Γ.size t ≤ isizeMax) (m : Mem) :
    (i < d.len → d.rawElem cfg i addr m = (.ok ⟨addr + i * Γ.size t, Γ.size t, d.elem, ()⟩, m)) ∧
    (d.len ≤ i → ∃ y, d.rawElem cfg i addr m = (.panic y, m)) := by
  have hnb : d.elem.numBytes = Γ.size t := by rw [he, numBytes_new]
  have hs : (i + 1) * Γ.size t = i * Γ.size t + Γ.size t := Nat.succ_mul _ _
  constructor
  · intro hi
    have h2 : (i + 1) * Γ.size t ≤ d.len * Γ.size t := Nat.mul_le_mul_right _ hi
    have h3 : i + 1 ≤ (i + 1) * Γ.size t := Nat.le_mul_of_pos_right _ hn
    have hmax : isizeMax ≤ usizeMax := by decide
    have ha : (debugAssert cfg (i < d.len) : M Mem Unit) m = (.ok (), m) := by
      unfold debugAssert; cases cfg.debug <;> simp [M.pure_run, hi, M.assert]
    unfold VecVoid.rawElem
    rw [M.bind_ok ha, hnb, M.bind_ok (SRepr.indexByteRange_ok (by omega) (by omega) m)]
    simp only [M.lift_run, PtrView.range, VecVoid.rawBytes, hnb]
    rw [if_pos ⟨by omega, h2⟩, hs, Nat.add_sub_cancel_left]
  · intro hi
    have h2 : d.len * Γ.size t ≤ i * Γ.size t := Nat.mul_le_mul_right _ hi
    unfold VecVoid.rawElem
    by_cases hd : cfg.debug = true
    · have ha : (debugAssert cfg (i < d.len) : M Mem Unit) m = (.panic .assertion, m) := by
        unfold debugAssert; rw [hd]; simp [M.assert, Nat.not_lt.2 hi]
      exact ⟨_, by rw [M.bind_panic ha]⟩
    · have ha : (debugAssert cfg (i < d.len) : M Mem Unit) m = (.ok (), m) := by
        unfold debugAssert; rw [if_neg hd]; rfl
      rw [M.bind_ok ha, hnb]
      rcases indexByteRange_nowrap hn hw m with e | e
      · rw [M.bind_ok e]
        simp only [M.lift_run, PtrView.range, VecVoid.rawBytes, hnb]
        rw [if_neg (by omega)]
        exact ⟨_, rfl⟩
      · exact ⟨_, by rw [M.bind_panic e]⟩

theorem chunks_eq {v : PtrView V} {n k : Nat} (hk : 0 < k) (h : v.len = n * k) :
    v.chunks k = .ok ((List.range' 0 n).map fun c => { v with addr := v.addr + c * k, len := k }) := by
  simp only [PtrView.chunks, if_neg (Nat.ne_of_gt hk), h, Nat.mul_div_cancel _ hk, List.range_eq_range']

theorem singles {β : Type} (es : List β) : ((es.map fun e => [(t, e)]).flatten = es.map fun e => (t, e)) := by
  induction es with
  | nil => rfl
  | cons e es ih => simp only [List.map_cons, List.flatten_cons, ih]; rfl

theorem RawProg.sim {c : VecCopy V} {addr : Nat} (hn : 0 < Γ.size t) (he : c.data.elem = ElemInfo.new Γ t) (ha : Γ.align t ∣ addr) :
    ∀ (p : RawProg) m es, p.Allowed Γ cfg t c.data.len → es.length = c.data.len → SRepr Γ t es ((c.ptrView addr).contents m) →
      RawSim Γ t (c.ptrView addr) m es (p.runAt Γ cfg c addr m) (p.plain t es) := by
  have hty : c.data.elem.type_id = t := by rw [he]; rfl
  have hnb : c.data.elem.numBytes = Γ.size t := by rw [he, numBytes_new]
  intro p
  induction p with
  | skip => intro m es _ _ S; exact .stay S rfl
  | seq p q ihp ihq =>
    intro m es hp hl S
    refine RawSim.bind (ihp m es hp.1 hl S) fun x m1 es1 S1 h1 => ?_
    exact RawSim.bind (ihq m1 es1 hp.2 (h1.trans hl) S1) fun y m2 es2 S2 _ => .stay S2 rfl
  | getUnchecked s i =>
    intro m es hp hl S
    obtain ⟨rfl, hi⟩ := hp
    rw [← hl] at hi
    simp only [RawProg.plain, List.getElem?_eq_getElem hi]
    exact (raw_load (v := c.ptrView addr) S ha hi (Nat.dvd_refl _)).next fun m1 S1 => .stay S1 rfl
  | changeUnchecked s i f =>
    intro m es hp hl S
    obtain ⟨rfl, hi, hf⟩ := hp
    rw [← hl] at hi
    simp only [RawProg.plain, List.getElem?_eq_getElem hi]
    exact raw_change (v := c.ptrView addr) S ha hi (Nat.dvd_refl _) hf
  | getBytes i =>
    intro m es hp hl S
    obtain ⟨h1, h2⟩ := rawElem_eq (d := c.data) (cfg := cfg) hn he addr hp (hl ▸ S.bound) m
    simp only [RawProg.plain, RawProg.runAt]
    by_cases hi : i < es.length
    · rw [List.getElem?_eq_getElem hi, M.bind_ok (h1 (hl ▸ hi)), hty]
      exact (raw_load (v := c.ptrView addr) S ha hi (Nat.one_dvd _)).next fun m1 S1 => .stay S1 rfl
    · obtain ⟨y, e⟩ := h2 (by omega)
      rw [List.getElem?_eq_none (by omega), M.bind_panic e]
      exact .stay S trivial
  | changeBytes i f =>
    intro m es hp hl S
    obtain ⟨h1, h2⟩ := rawElem_eq (d := c.data) (cfg := cfg) hn he addr hp.1 (hl ▸ S.bound) m
    simp only [RawProg.plain, RawProg.runAt]
    by_cases hi : i < es.length
    · rw [List.getElem?_eq_getElem hi, M.bind_ok (h1 (hl ▸ hi))]
      exact raw_change (v := c.ptrView addr) S ha hi (Nat.one_dvd _) hp.2
    · obtain ⟨y, e⟩ := h2 (by omega)
      rw [List.getElem?_eq_none (by omega), M.bind_panic e]
      exact .stay S trivial
  | byteChunks =>
    intro m es _ hl S
    simp only [RawProg.plain, RawProg.runAt]
    have hc : c.data.rawChunks addr = _ :=
      chunks_eq (v := c.data.rawBytes addr) (n := es.length) (k := c.data.elem.numBytes) (by rw [hnb]; exact hn) (by rw [hl]; rfl)
    rw [hc, M.bind_ok (show (M.lift (.ok _) : M Mem _) m = _ from rfl), hty, hnb]
    have h := raw_inTurn (es := es) (v := c.ptrView addr) (Γ := Γ) (t := t) (r := fun e => [(t, e)]) (g := id)
      (w := fun i => { c.data.rawBytes addr with addr := addr + i * Γ.size t, len := Γ.size t })
      (f := fun e => do let b ← Mem.load e.addr e.len 1; pure [(t, b)]) (fun i m1 es1 hi _ S1 => by
        simp only [id, List.set_getElem_self]
        exact (raw_load (v := c.ptrView addr) S1 ha hi (Nat.one_dvd _)).next fun m2 S2 => .stay S2 rfl)
      es.length 0 m es es (by omega) rfl S (fun i => by simp)
    have e : (((es.drop 0).take es.length).map fun e => [(t, e)]).flatten = es.map fun e => (t, e) := by
      rw [List.drop_zero, List.take_length]
      exact singles es
    rw [e] at h
    exact h
  | changeChunks f =>
    intro m es hp hl S
    simp only [RawProg.plain, RawProg.runAt]
    have hu : (umul cfg c.data.elem.numBytes c.data.len : M Mem Nat) m = (.ok (c.data.elem.numBytes * c.data.len), m) := by
      refine umul_ok ?_ m
      have := S.bound
      have hmax : isizeMax ≤ usizeMax := by decide
      rw [hnb, Nat.mul_comm, ← hl]; omega
    have hc := chunks_eq (v := ⟨addr, c.data.elem.numBytes * c.data.len, c.data.elem, ()⟩) (n := es.length) (k := c.data.elem.numBytes)
      (by rw [hnb]; exact hn) (by rw [hl, Nat.mul_comm])
    rw [VecVoid.rawChunksMut, bind_assoc, M.bind_ok hu, hc, M.bind_ok (show (M.lift (.ok _) : M Mem _) m = _ from rfl), hnb]
    have h := raw_inTurn (es := es) (v := c.ptrView addr) (Γ := Γ) (t := t) (r := fun _ => ([] : List Read)) (g := f)
      (w := fun i => ⟨addr + i * Γ.size t, Γ.size t, c.data.elem, ()⟩)
      (f := fun e => do let b ← Mem.load e.addr e.len 1; Mem.store e.addr (f b) 1; pure []) (fun i m1 es1 hi _ S1 =>
        raw_change (v := c.ptrView addr) S1 ha hi (Nat.one_dvd _) hp)
      es.length 0 m es (es.map f) (by omega) rfl S (fun i => by
        rw [List.getElem?_map, Nat.zero_add]
        by_cases hi : i < es.length
        · rw [if_pos ⟨Nat.zero_le _, hi⟩]
        · rw [if_neg (by omega), List.getElem?_eq_none (by omega)]; rfl)
    have e : (((es.drop 0).take es.length).map fun _ => ([] : List Read)).flatten = [] := by simp
    rw [e] at h
    exact h
  | view p =>
    intro m es hp hl S
    have O : (c.ptrView addr).Ok Γ t := ⟨he, ha⟩
    have T := p.ptr_sim (cfg := cfg) hp.1 _ O m
    obtain ⟨k1, k2, k3, -⟩ := p.sim (cfg := cfg) hp.1 hp.2 es _ S
    have h1 := T.res ▸ k1
    have h2 := T.view ▸ k2
    exact ⟨h1, h2, k3, T.frame, T.log⟩

end Dync
