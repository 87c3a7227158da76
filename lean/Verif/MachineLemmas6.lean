import Verif.MachineLemmas5
/-!
# Creating, cloning, appending: what the machine says
-/
namespace Dync
variable {U V α : Type} {Γ : TyEnv U} {t t' : TyId} {n : Nat} {v o : VecVoid} {c : VecCopy V} {w : World U} {cfg : Cfg}
  {slots : Slots V} {h h' : Heap} {var : Nat → Option XVec} {L : List Nat} {k : Nat} {x : XVec} {p p' : Ptr} {vt : V}
  {es es' : List Bytes}

/-! ### New containers -/

theorem RVec.grow_cap {T : Layout} {r r' : RVec} {w' : World U} {k : Nat} (h : RVec.grow T k (r, w) = (.ok (), (r', w'))) :
    r'.cap = RVec.grownCap T r.cap (r.len + k) := by
  unfold RVec.grow at h
  simp only [M.bind_run, M.get_run] at h
  split at h
  · cases h
  split at h
  · cases h
  split at h
  · cases h
  simp only [M.bind_run] at h
  rcases hr : onHeap (realloc r.ptr ⟨r.cap * T.size, T.align⟩ ⟨RVec.grownCap T r.cap (r.len + k) * T.size, T.align⟩) (r, w)
    with ⟨res, s⟩
  rw [hr] at h
  cases res <;> simp only [M.modify_run] at h <;> cases h
  rfl

theorem fromVec_cap {rv : RVec} {w' : World U} (hc : rv.cap = 0) (hl : rv.len = 0)
    (h : VecCopy.fromVec Γ t vt rv w = (.ok c, w')) : c.data.cap = leastCap (Γ.size t) := by
  unfold VecCopy.fromVec at h
  simp only [M.bind_run] at h
  rcases h1 : withLocal rv (RVec.dropTyped Γ t) (M.assert (Γ.size t != 0)) w with ⟨r1, w1⟩
  rw [h1] at h
  cases r1 <;> simp only at h <;> try (cases h; done)
  unfold VecVoid.fromVec at h
  simp only [M.bind_run, withLocal] at h
  rcases h2 : VecVoid.intoValidVec (U := U) (Γ.layout t) (rv, w1) with ⟨r2, rv2, w2⟩
  rw [h2] at h
  cases r2 <;> simp only [M.pure_run] at h
  case ok =>
    cases h
    unfold VecVoid.intoValidVec at h2
    simp only [M.bind_run, getSelf_run, hc, if_true, RVec.reserve, M.get_run, hl] at h2
    simp only [if_pos (by omega : 0 - 0 < 1)] at h2
    have := RVec.grow_cap h2
    show rv2.cap = _
    rw [this, hc, hl]
    unfold RVec.grownCap RVec.minNonZeroCap leastCap
    show max (if Γ.size t = 1 then 8 else _) _ = _
    split
    · rfl
    · split <;> rfl
  all_goals (first | (cases h; done) | skip)
  all_goals
    rcases h3 : (noDrop rv2 : M (World U) Unit) w2 with ⟨r3, w3⟩
    rw [h3] at h
    cases r3 <;> simp only at h <;> cases h

/-- A new container. -/
def Fresh (Γ : TyEnv U) (t : TyId) (es : List Bytes) (n : Nat) (m : M (World U) (VecCopy V)) (w : World U) : Prop :=
  if Γ.size t = 0 ∨ isizeMax < n * Γ.size t + (Γ.align t - 1) then ∃ y, m w = (.panic y, w)
  else ∃ c h', m w = (.ok c, { w with heap := h' }) ∧
    (XVec.vec t es (if n = 0 then leastCap (Γ.size t) else n)).Is Γ h' c.data ∧ Realloc w.heap none h' c.data.ptr

theorem create_sim {s : XState} {m : M (World U) (VecCopy V)} (H : s.Holds Γ slots w.heap) (k : Nat)
    (hf : Fresh Γ t es n m w) :
    MSim Γ (do let c ← onWorld m; Op.assign cfg k c; pure .done) slots w (s.create Γ k t es n) := by
  obtain ⟨L, hL, O⟩ := H.owned
  unfold Fresh at hf
  unfold XState.create
  split
  · rename_i hb
    rw [if_pos hb] at hf
    obtain ⟨y, hm⟩ := hf
    exact sim_same H (r := .panic y) (by simp only [M.bind_run, onWorld, M.zoom_run, hm]) ⟨_, rfl⟩ (by simp)
  · rename_i hb
    rw [if_neg hb] at hf
    obtain ⟨c, h', hm, I, re⟩ := hf
    obtain ⟨h'', ha, O'⟩ := assign_sim (cfg := cfg) O re I k
    refine .inr ⟨by simp, .ok .done, Slots.put slots k (some c), h'', by
      simp only [M.bind_run, onWorld, M.zoom_run, hm, ha, M.pure_run], rfl, ?_⟩
    have := O'.holds
    rw [hL] at this
    exact this

theorem align_le_isizeMax (hpos : 0 < Γ.size t) : Γ.align t - 1 ≤ isizeMax := by
  have h1 := Nat.le_of_dvd hpos (Γ.align_dvd t)
  have h2 := Γ.size_le t
  omega

theorem withCapacity_fresh (wf : w.heap.WF) (n : Nat) : Fresh Γ t [] n (VecCopy.withCapacity Γ t vt n) w := by
  unfold Fresh
  split
  · rename_i hb
    by_cases h0 : Γ.size t = 0
    · exact ⟨.assertion, by
        simp only [VecCopy.withCapacity, M.bind_run, RVec.withCapacity, if_pos h0]
        exact VecCopy.fromVec_zst h0 (VecCopy.dropTyped_empty rfl h0)⟩
    · have hb : isizeMax < n * Γ.size t + (Γ.align t - 1) := hb.resolve_left h0
      exact ⟨.capacity, by
        simp only [VecCopy.withCapacity, M.bind_run, RVec.withCapacity, if_neg h0, if_neg (Nat.not_le.2 hb)]⟩
  · rename_i hb
    have hpos : 0 < Γ.size t := Nat.pos_of_ne_zero fun e => hb (.inl e)
    have hroom : Room Γ t n := Nat.le_of_not_lt fun e => hb (.inr e)
    obtain ⟨c, h', hrun, R, -, re, -⟩ := VecCopy.withCapacity_ok (vt := vt) wf hpos hroom
    refine ⟨c, h', hrun, ⟨R, ?_⟩, re⟩
    obtain ⟨p, h1, hw, hv, hwf, -, -, -⟩ := VecCopy.withCapacity_isVec wf hpos hroom
    simp only [VecCopy.withCapacity, M.bind_run, hw] at hrun
    split
    · rename_i hn
      exact fromVec_cap (rv := ⟨p, 0, n, []⟩) hn rfl hrun
    · rename_i hn
      obtain ⟨p', k, h2, hr2, -, -, hsame, -⟩ := VecCopy.fromVec_ok (vt := vt) (w := { w with heap := h1 }) hv hwf hpos
      simp only at hr2
      rw [hr2] at hrun
      cases hrun
      exact (hsame (Nat.pos_of_ne_zero hn)).2.1

theorem withType_fresh (wf : w.heap.WF) : Fresh Γ t [] 0 (VecCopy.withType Γ t vt) w := by
  unfold Fresh
  split
  · rename_i hb
    by_cases h0 : Γ.size t = 0
    · exact ⟨.assertion, VecCopy.fromVec_zst h0 (VecCopy.dropTyped_empty rfl h0)⟩
    · have := align_le_isizeMax (Nat.pos_of_ne_zero h0)
      rw [Nat.zero_mul, Nat.zero_add] at hb
      have := hb.resolve_left h0
      omega
  · rename_i hb
    have hpos : 0 < Γ.size t := Nat.pos_of_ne_zero fun e => hb (.inl e)
    obtain ⟨c, h', hrun, R, -, re, -⟩ := VecCopy.withType_ok (vt := vt) wf hpos
    exact ⟨c, h', hrun, ⟨R, fromVec_cap (by simp [RVec.new, Nat.ne_of_gt hpos]) rfl hrun⟩, re⟩

theorem dropTyped_zst (hc : Op.Typed.Copyable Γ t) (h0 : Γ.size t = 0) (r : RVec) :
    RVec.dropTyped Γ t r w = (.ok (), w) := by
  have h1 : ∀ xs : List Bytes, M.dropEach xs (fun b => (worldUser (Γ.drop t b) : M (World U) Unit)) w = (.ok (), w) := by
    intro xs
    induction xs with
    | nil => rfl
    | cons x xs ih =>
      refine M.thenDrop_ok (s' := w) ?_ ih
      simp [worldUser, hc x w.user]
  exact M.thenDrop_ok (h1 _) (by simp [RVec.dropBuf, worldHeap, dealloc, h0])

theorem fromSlice_fresh (hc : Op.Typed.Copyable Γ t) (wf : w.heap.WF) (hx : ∀ x ∈ es, x.length = Γ.size t) :
    Fresh Γ t es es.length (VecCopy.fromSlice Γ t vt es) w := by
  unfold Fresh
  split
  · rename_i hb
    by_cases h0 : Γ.size t = 0
    · by_cases hl : usizeMax < es.length
      · refine ⟨.capacity, ?_⟩
        simp only [VecCopy.fromSlice, M.bind_run, RVec.withCapacity, if_pos h0]
        rw [withLocal_panic (x' := RVec.new (Γ.layout t)) (w' := w) (w'' := w) (y := .capacity) ?_ (dropTyped_zst hc h0 _)]
        simp [RVec.extendFromSlice, RVec.reserve, RVec.grow, RVec.new, h0, hl]
      · refine ⟨.assertion, ?_⟩
        simp only [VecCopy.fromSlice, M.bind_run, RVec.withCapacity, if_pos h0]
        rw [withLocal_ok (a := ()) (x' := ⟨none, es.length, usizeMax, es.flatten⟩) (w' := w) ?_]
        · exact VecCopy.fromVec_zst h0 (dropTyped_zst hc h0 _)
        · simp [RVec.extendFromSlice, RVec.reserve, RVec.new, h0, hl]
    · have hb : isizeMax < es.length * Γ.size t + (Γ.align t - 1) := hb.resolve_left h0
      exact ⟨.capacity, by
        simp only [VecCopy.fromSlice, M.bind_run, RVec.withCapacity, if_neg h0, if_neg (Nat.not_le.2 hb)]⟩
  · rename_i hb
    have hpos : 0 < Γ.size t := Nat.pos_of_ne_zero fun e => hb (.inl e)
    have hne : Γ.size t ≠ 0 := by omega
    have hroom : Room Γ t es.length := Nat.le_of_not_lt fun e => hb (.inr e)
    obtain ⟨c, h', hrun, R, -, re, -⟩ := VecCopy.fromSlice_ok (vt := vt) wf hpos hx hroom
    refine ⟨c, h', hrun, ⟨R, ?_⟩, re⟩
    have hz : es.length * Γ.size t + (Γ.align t - 1) ≤ isizeMax := hroom
    have hwl := withLocal_ok (U := U) (d := RVec.dropTyped Γ t)
      (w := { w with heap := (w.heap.alloc ⟨es.length * Γ.size t, Γ.align t⟩).2 })
      (x := ⟨(w.heap.alloc ⟨es.length * Γ.size t, Γ.align t⟩).1, 0, es.length, []⟩)
      (m := RVec.extendFromSlice (Γ.layout t) es.length es.flatten) (a := ())
      (x' := ⟨(w.heap.alloc ⟨es.length * Γ.size t, Γ.align t⟩).1, es.length, es.length, es.flatten⟩)
      (w' := { w with heap := (w.heap.alloc ⟨es.length * Γ.size t, Γ.align t⟩).2 }) (by
        unfold RVec.extendFromSlice
        rw [M.bind_ok (RVec.reserve_fit (by simp))]
        simp)
    simp only [VecCopy.fromSlice, M.bind_run, RVec.withCapacity, hne, if_false, if_pos hz, hwl] at hrun
    split
    · rename_i hn
      exact fromVec_cap (rv := ⟨_, es.length, es.length, es.flatten⟩) hn hn hrun
    · rename_i hn
      have hv : IsVec Γ (w.heap.alloc ⟨es.length * Γ.size t, Γ.align t⟩).2 t es
          ⟨(w.heap.alloc ⟨es.length * Γ.size t, Γ.align t⟩).1, es.length, es.length, es.flatten⟩ := by
        refine ⟨rfl, hx, rfl, Nat.le_refl _, hroom, .inr ?_⟩
        have hl : (⟨es.length * Γ.size t, Γ.align t⟩ : Layout).size ≠ 0 := Nat.mul_ne_zero hn hne
        exact ⟨Nat.pos_of_ne_zero hn, _, (Heap.alloc_live hl).1, (Heap.alloc_live hl).2⟩
      obtain ⟨p', k, h2, hr2, -, -, hsame, -⟩ := VecCopy.fromVec_ok (vt := vt)
        (w := { w with heap := (w.heap.alloc ⟨es.length * Γ.size t, Γ.align t⟩).2 }) hv (wf.alloc _) hpos
      simp only at hr2
      rw [hr2] at hrun
      cases hrun
      exact (hsame (Nat.pos_of_ne_zero hn)).2.1

/-! ### `drop`, `clone` and the way through `Vec<T>` -/

theorem drop_sim {s : XState} (H : s.Holds Γ slots w.heap) (k : Nat) :
    MSim Γ ((Op.drop k).exec Γ cfg vt) slots w ((Op.drop k).step Γ cfg s) := by
  obtain ⟨L, hL, O⟩ := H.owned
  cases hk : slots k with
  | none =>
    have hv := (O.none_iff k).1 hk
    simp only [Op.step, hv]
    exact sim_same H (r := .ok .absent) (by simp only [Op.exec, Op.takeSlot, hk]) rfl (by simp)
  | some c =>
    obtain ⟨x, hx, I⟩ := O.lookup hk
    obtain ⟨h', hd, re⟩ := drop_is (cfg := cfg) I O.wf
    simp only [Op.step, hx]
    refine .inr ⟨by simp, .ok .done, Slots.put slots k none, h', by
      simp only [Op.exec, Op.takeSlot, hk, M.bind_run, onWorld, M.zoom_run, hd, M.pure_run], rfl, ?_⟩
    have O' := (O.take hk).move re (fun i hi => by cases hi)
    have := O'.holds
    simp only [Option.toList_none, List.nil_append, hL] at this
    exact this

theorem clone_unit (u : IsUnits Γ n v) : VecVoid.clone cfg v w = (.panic .divZero, w) := by
  unfold VecVoid.clone
  rw [u.elem]
  simp only [ElemInfo.new, evalAlign_align]
  rw [M.bind_ok (u.good.alignedVec (cfg := cfg) w), u.good.chunkView,
    M.bind_ok (a := ⟨none, 0, 0, []⟩) (s' := w) (by simp [RVec.withCapacity, Γ.unit_align, Heap.alloc]),
    M.bind_ok (a := ((), ⟨none, 0, 0, []⟩)) (s' := w)
      (by simp [withLocal, RVec.cloneFrom, RVec.clear, RVec.truncate, RVec.extendFromSlice, RVec.reserve])]
  simp [VecVoid.fromVecOverride, Γ.unit_size]

theorem clone_sim {s : XState} (H : s.Holds Γ slots w.heap) (k j : Nat) :
    MSim Γ ((Op.clone k j).exec Γ cfg vt) slots w ((Op.clone k j).step Γ cfg s) := by
  obtain ⟨L, hL, O⟩ := H.owned
  cases hk : slots k with
  | none =>
    have hv := (O.none_iff k).1 hk
    simp only [Op.step, hv]
    exact sim_same H (r := .ok .absent) (by simp only [Op.exec, hk]) rfl (by simp)
  | some c =>
    obtain ⟨x, hx, I⟩ := O.lookup hk
    simp only [Op.step, hx]
    cases x with
    | unit n =>
      refine sim_same H (r := .panic .divZero) ?_ ⟨_, rfl⟩ (by simp)
      simp only [Op.exec, hk, VecCopy.clone, M.bind_run, onWorld, M.zoom_run, clone_unit (show IsUnits Γ n c.data from I)]
    | vec t es cap =>
      obtain ⟨R, rfl⟩ := I
      have hz : (⟨c.data.cap * Γ.size t, Γ.align t⟩ : Layout).size ≠ 0 :=
        Nat.mul_ne_zero (by have := R.cap_pos; omega) (by have := R.pos; omega)
      have hal := Heap.alloc_live (h := w.heap) hz
      have hre := Realloc.ofAlloc O.wf ⟨c.data.cap * Γ.size t, Γ.align t⟩
      rw [hal.1] at hre
      have R' : Repr Γ (w.heap.alloc ⟨c.data.cap * Γ.size t, Γ.align t⟩).2 t es
          ⟨some w.heap.next, c.data.len, c.data.cap, c.data.elem, c.data.mem⟩ :=
        ⟨R.type_id, R.chunks, R.align, R.pos, R.mem, R.each, R.len, R.len_le, R.cap_pos, R.room, _, rfl, hal.2⟩
      obtain ⟨h'', ha, O'⟩ := assign_sim (cfg := cfg) (x := .vec t es c.data.cap)
        (c := ⟨⟨some w.heap.next, c.data.len, c.data.cap, c.data.elem, c.data.mem⟩, c.vtable⟩) O hre ⟨R', rfl⟩ j
      refine .inr ⟨by simp, .ok .done, _, h'', by
        simp only [Op.exec, hk, VecCopy.clone, M.bind_run, onWorld, M.zoom_run, VecVoid.clone_spec R, ha, M.pure_run]; rfl,
        rfl, ?_⟩
      have := O'.holds
      rw [hL] at this
      exact this

theorem roundTrip_sim {s : XState} (hc : Op.Typed.Copyable Γ t) (H : s.Holds Γ slots w.heap) (k : Nat) :
    MSim Γ ((Op.roundTrip k t).exec Γ cfg vt) slots w ((Op.roundTrip k t).step Γ cfg s) := by
  obtain ⟨L, hL, O⟩ := H.owned
  cases hk : slots k with
  | none =>
    have hv := (O.none_iff k).1 hk
    simp only [Op.step, hv]
    exact sim_same H (r := .ok .absent) (by simp only [Op.exec, Op.takeSlot, hk]) rfl (by simp)
  | some c =>
    obtain ⟨x, hx, I⟩ := O.lookup hk
    have hout : ∀ h' (o : Out) r, (Op.roundTrip k t).exec Γ cfg vt (slots, w) = (r, (Slots.put slots k none, { w with heap := h' })) →
        o.Is r → o ≠ .ub → Realloc w.heap c.data.ptr h' none →
        MSim Γ ((Op.roundTrip k t).exec Γ cfg vt) slots w (o, s.put k none) := by
      intro h' o r hm ho hu re
      refine .inr ⟨hu, r, _, h', hm, ho, ?_⟩
      have O' := (O.take hk).move re (fun i hi => by cases hi)
      have := O'.holds
      simp only [Option.toList_none, List.nil_append, hL] at this
      exact this
    have hrefuse : t ≠ c.data.elem.type_id →
        MSim Γ ((Op.roundTrip k t).exec Γ cfg vt) slots w (.ok .refused, s.put k none) := by
      intro hne
      obtain ⟨h', hd, re⟩ := drop_is (cfg := cfg) I O.wf
      refine hout h' _ (.ok .refused) ?_ rfl (by simp) re
      have : VecCopy.intoVec Γ cfg t c w = (.ok none, { w with heap := h' }) := by
        have hck : t ≠ c.elementTypeId := hne
        simp only [VecCopy.intoVec, VecCopy.check, if_pos hck, M.bind_run, hd, M.pure_run]
      simp only [Op.exec, Op.takeSlot, hk, M.bind_run, onWorld, M.zoom_run, this, M.pure_run]
    simp only [Op.step, hx]
    cases x with
    | unit n =>
      have u : IsUnits Γ n c.data := I
      by_cases ht : t = Γ.unitTy
      · subst ht
        simp only [if_true]
        have hinto : VecCopy.intoVec Γ cfg Γ.unitTy c w = (.ok (some ⟨none, c.data.len, usizeMax, []⟩), w) := by
          simp only [VecCopy.intoVec, VecCopy.check, VecCopy.elementTypeId, u.type_id, ne_eq, not_true, if_false, M.bind_run,
            M.pure_run, u.good.typedView]
        refine hout w.heap .panic (.panic .assertion) ?_ ⟨_, rfl⟩ (by simp) (by rw [u.ptr]; exact Realloc.refl O.wf _)
        have h0 : Γ.size Γ.unitTy = 0 := Γ.unit_size
        simp only [Op.exec, Op.takeSlot, hk, M.bind_run, onWorld, M.zoom_run, hinto,
          VecCopy.fromVec_zst (vt := vt) h0 (dropTyped_zst hc h0 _)]
      · simp only [if_neg ht]
        exact hrefuse (by rw [u.type_id]; exact ht)
    | vec t' es cap =>
      obtain ⟨R, rfl⟩ := I
      by_cases ht : t = t'
      · subst ht
        simp only [if_true]
        have hinto : VecCopy.intoVec Γ cfg t c w = (.ok (some c.data.typedView), w) := by
          simp only [VecCopy.intoVec, VecCopy.check, VecCopy.elementTypeId, R.type_id, ne_eq, not_true, if_false, M.bind_run,
            M.pure_run, R.intoVec]
        obtain ⟨p, n, h', hrun, hR, hre, hsame, -⟩ := VecCopy.fromVec_ok (vt := vt) R.isVec O.wf R.pos
        obtain ⟨hp, hn, hh⟩ := hsame R.cap_pos
        subst hh
        obtain ⟨L', hL', O'⟩ := O.update (y := .vec t es c.data.cap) (leak := false) hk
          ⟨hR, by rw [hn]; rfl⟩ hre vt
        have e : Slots.put s.var k (some (.vec t es c.data.cap)) = s.var := by rw [← hx]; exact Slots.put_self _ _
        rw [e] at O'
        refine .inr ⟨by simp, .ok .done, Slots.put slots k (some ⟨⟨p, c.data.typedView.len, n, ElemInfo.new Γ t,
          c.data.typedView.bytes⟩, vt⟩), w.heap, ?_, rfl, ?_⟩
        · simp only [Op.exec, Op.takeSlot, hk, M.bind_run, onWorld, M.zoom_run, hinto, hrun, Op.assign, M.get_run,
            Slots.put_same, M.modify_run, Slots.put_put, M.pure_run]
        · have := O'.holds
          simp only [hL', hL] at this
          exact this
      · simp only [if_neg ht]
        exact hrefuse (by rw [R.type_id]; exact ht)

end Dync
