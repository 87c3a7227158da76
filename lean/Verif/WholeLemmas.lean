import Verif.WholeSpec
import Verif.CompareLemmas
import Verif.Props.DynViewProgs
import Verif.Props.VecCopy
/-! # Lemmas about whole programs -/
namespace Dync
variable {U V H F α : Type} {Γ : TyEnv U} {Φ : UserFns U H F} {K : Formatting F} {cfg : Cfg} {vt : TyId → V} {t t' : TyId}

/-! ### User code through tables -/

theorem eqBytesFx_same {a b : Bytes} (ha : a.length = Γ.size t) (hb : b.length = Γ.size t) : eqBytesFx Γ Φ t a b = Φ.eq t a b := by
  simp only [eqBytesFx, ha, hb, beq_self_eq_true]; rfl
theorem hashBytesFx_same {a : Bytes} (ha : a.length = Γ.size t) : hashBytesFx Γ Φ t a = Φ.hash t a := by
  simp only [hashBytesFx, ha, beq_self_eq_true]; rfl
theorem fmtBytesFx_same {a : Bytes} (ha : a.length = Γ.size t) : fmtBytesFx Γ Φ t a = Φ.fmt t a := by
  simp only [fmtBytesFx, ha, beq_self_eq_true]; rfl
theorem eqBytesFx_wrong {a b : Bytes} (ha : a.length ≠ Γ.size t) : eqBytesFx Γ Φ t a b = M.panic .assertion := by
  simp only [eqBytesFx, beq_eq_false_iff_ne.2 ha]; rfl
theorem hashBytesFx_wrong {a : Bytes} (ha : a.length ≠ Γ.size t) : hashBytesFx Γ Φ t a = M.panic .assertion := by
  simp only [hashBytesFx, beq_eq_false_iff_ne.2 ha]; rfl
theorem fmtBytesFx_wrong {a : Bytes} (ha : a.length ≠ Γ.size t) : fmtBytesFx Γ Φ t a = M.panic .assertion := by
  simp only [fmtBytesFx, beq_eq_false_iff_ne.2 ha]; rfl

theorem eqPairs_zip [HasEqFx U V] {v v' : V} {n n' : Nat} (hl : LawfulEqFx Γ Φ t v) :
    ∀ {es es' : List Bytes}, (∀ e ∈ es, e.length = Γ.size t) → (∀ e ∈ es', e.length = Γ.size t) →
      zipAll (es.map fun e => (⟨e, t, n, v⟩ : ValueRef V)) (es'.map fun e => ⟨e, t, n', v'⟩) = eqPairs Φ t (es.zip es') := by
  intro es
  induction es with
  | nil => intro es' _ _; rfl
  | cons x es ih =>
    intro es' h1 h2
    cases es' with
    | nil => rfl
    | cons y es' =>
      simp only [List.map_cons, List.zip_cons_cons, zipAll, eqPairs]
      rw [ValueRef.eqFx_same hl rfl rfl rfl (h1 x List.mem_cons_self) (h2 y List.mem_cons_self),
        @ih es' (fun e he => h1 e (List.mem_cons_of_mem _ he)) (fun e he => h2 e (List.mem_cons_of_mem _ he))]

section
variable [HasDrop U V] [HasClone U V] [TableLaw V] [HasEqFx U V] [HasHashFx U H V] [HasFmtFx U F V]

omit [HasDrop U V] [HasClone U V] in
theorem RunsUserFns.lawful (L : RunsUserFns V Γ Φ) {v : V} (h : TableLaw.law t v) :
    LawfulEqFx Γ Φ t v ∧ LawfulHashFx Γ Φ t v ∧ LawfulFmtFx Γ Φ t v :=
  ⟨fun a b ha hb => by rw [L.eq t v h, eqBytesFx_same ha hb], fun a ha => by rw [L.hash t v h, hashBytesFx_same ha],
    fun a ha => by rw [L.fmt t v h, fmtBytesFx_same ha]⟩

variable {h : Heap} {a b : Item V} {x y : YItem}

omit [HasDrop U V] [HasClone U V] [TableLaw V] [HasEqFx U V] [HasHashFx U H V] [HasFmtFx U F V] in
theorem iter_unit {n : Nat} {c : VecDyn V} (u : IsUnits Γ n c.data) {σ : Type} (s : σ) : c.iter s = (.panic .zeroChunk, s) := by
  unfold VecCopy.iter
  rw [M.bind_panic (unit_chunks u s)]

theorem item_eq (L : RunsUserFns V Γ Φ) (I : YItem.Is Γ h a x) (J : YItem.Is Γ h b y) :
    (WOp.eqItems a b = none ∧ x.eq Φ y = none) ∨ ∃ m q, WOp.eqItems a b = some m ∧ x.eq Φ y = some q ∧ ∀ u, m u = q u := by
  cases a <;> cases x <;> try exact I.elim
  all_goals cases b <;> cases y <;> try exact J.elim
  all_goals try exact .inl ⟨rfl, rfl⟩
  all_goals try (rename_i z _ _ _; exact .inl ⟨rfl, by cases z <;> rfl⟩)
  all_goals try (rename_i z; exact .inl ⟨rfl, by cases z <;> rfl⟩)
  · rename_i c tb z d tb' z'
    right
    obtain ⟨I1, I2, -, I3⟩ := I
    obtain ⟨J1, J2, -, J3⟩ := J
    cases z with
    | unit n =>
      refine ⟨_, M.panic .zeroChunk, rfl, by cases z' <;> rfl, fun u => ?_⟩
      unfold VecDyn.eqFx
      rw [M.bind_panic (iter_unit I1 u)]; rfl
    | vec t es cap =>
      cases z' with
      | unit n =>
        refine ⟨_, _, rfl, rfl, fun u => ?_⟩
        unfold VecDyn.eqFx
        rw [M.bind_ok (VecDyn.iter_refs I1.1 u), M.bind_panic (iter_unit J1 u)]; rfl
      | vec t' es' cap' =>
        refine ⟨_, _, rfl, rfl, fun u => ?_⟩
        have hb := I3 _ _ _ rfl
        subst hb
        unfold VecDyn.eqFx
        rw [M.bind_ok (VecDyn.iter_refs I1.1 u), M.bind_ok (VecDyn.iter_refs J1.1 u)]
        by_cases ht : t = t'
        · subst ht
          rw [if_pos rfl, eqPairs_zip (L.lawful I2.law).1 I1.1.each J1.1.each]
        · rw [if_neg ht, zipAll_diff ht es es' u]; rfl
  · rename_i v t x v' t' y
    refine .inr ⟨_, _, rfl, rfl, fun u => ?_⟩
    have e : ByteBuf.get v.bytes = x := I.1.bytes
    have e' : ByteBuf.get v'.bytes = y := J.1.bytes
    simp only [Value.eqFx, I.1.type_id, J.1.type_id, e, e']
    by_cases ht : t = t'
    · subst ht; simp only [ne_eq, not_true, if_false, if_true, (L.lawful I.2.law).1 x y I.1.length J.1.length]
    · simp only [ne_eq, ht, not_false_eq_true, if_true, if_false]
  · rename_i v t x v' t' y
    refine .inr ⟨_, _, rfl, rfl, fun u => ?_⟩
    have e : ByteBuf.get v.bytes = x := I.1.bytes
    have e' : ByteBuf.get v'.bytes = y := J.1.bytes
    simp only [Value.eqFx, I.1.type_id, J.1.type_id, e, e']
    by_cases ht : t = t'
    · subst ht; simp only [ne_eq, not_true, if_false, if_true, (L.lawful I.2.law).1 x y I.1.length J.1.length]
    · simp only [ne_eq, ht, not_false_eq_true, if_true, if_false]

theorem item_hash (L : RunsUserFns V Γ Φ) (I : YItem.Is Γ h a x) (s : H × U) : WOp.hashItem a s = x.hash Φ s := by
  cases a <;> cases x <;> try exact I.elim
  · rename_i c tb z
    obtain ⟨I1, I2, -, I3⟩ := I
    simp only [WOp.hashItem, VecDyn.hashFx]
    cases z with
    | unit n => rw [M.bind_panic (iter_unit I1 s)]; rfl
    | vec t es cap =>
      cases I3 _ _ _ rfl
      rw [M.bind_ok (VecDyn.iter_refs I1.1 s), forEach_hashFx (L.lawful I2.law).2.1 I1.1.each]; rfl
  · rename_i v t x
    have e : ByteBuf.get v.bytes = x := I.1.bytes
    simp only [WOp.hashItem, YItem.hash, Value.hashFx, e, (L.lawful I.2.law).2.1 x I.1.length]
  · rename_i v t x
    have e : ByteBuf.get v.bytes = x := I.1.bytes
    simp only [WOp.hashItem, YItem.hash, Value.hashFx, e, (L.lawful I.2.law).2.1 x I.1.length]

theorem item_fmt (L : RunsUserFns V Γ Φ) (I : YItem.Is Γ h a x) (s : F × U) : WOp.fmtItem K a s = x.fmt Φ K s := by
  cases a <;> cases x <;> try exact I.elim
  · rename_i c tb z
    obtain ⟨I1, I2, -, I3⟩ := I
    simp only [WOp.fmtItem, VecDyn.fmtFx]
    cases z with
    | unit n => rw [M.bind_panic (iter_unit I1 s)]; rfl
    | vec t es cap =>
      cases I3 _ _ _ rfl
      rw [M.bind_ok (VecDyn.iter_refs I1.1 s), map_fmtFx (L.lawful I2.law).2.2 I1.1.each]; rfl
  · rename_i v t x
    have e : ByteBuf.get v.bytes = x := I.1.bytes
    simp only [WOp.fmtItem, YItem.fmt, Value.fmtFx, e, (L.lawful I.2.law).2.2 x I.1.length]
  · rename_i v t x
    have e : ByteBuf.get v.bytes = x := I.1.bytes
    simp only [WOp.fmtItem, YItem.fmt, Value.fmtFx, e, (L.lawful I.2.law).2.2 x I.1.length]

variable {p q : Place} {v v' : ValueRef V}

theorem place_eq (L : RunsUserFns V Γ Φ) (P : PlaceIs Γ p v) (Q : PlaceIs Γ q v') : ValueRef.eqFx v v' = p.eq Φ q := by
  unfold ValueRef.eqFx Place.eq
  rw [P.type_id, Q.type_id, P.bytes, Q.bytes, L.eq _ _ P.tab.law]
  by_cases h1 : p.ty = q.ty
  · rw [if_neg (by simp [h1]), if_pos h1]
    by_cases h2 : p.ty = p.table
    · rw [if_pos h2, eqBytesFx_same (by rw [P.length, h2]) (by rw [Q.length, ← h1, h2]), h2]
    · rw [if_neg h2, eqBytesFx_wrong (by rw [P.length]; exact P.kind h2)]
  · rw [if_pos h1, if_neg h1]

theorem place_hash (L : RunsUserFns V Γ Φ) (P : PlaceIs Γ p v) : ValueRef.hashFx v = p.hash Φ := by
  unfold ValueRef.hashFx Place.hash
  rw [P.bytes, L.hash _ _ P.tab.law]
  by_cases h2 : p.ty = p.table
  · rw [if_pos h2, hashBytesFx_same (by rw [P.length, h2]), h2]
  · rw [if_neg h2, hashBytesFx_wrong (by rw [P.length]; exact P.kind h2)]

theorem place_fmt (L : RunsUserFns V Γ Φ) (P : PlaceIs Γ p v) : ValueRef.fmtFx v = p.fmt Φ := by
  unfold ValueRef.fmtFx Place.fmt
  rw [P.bytes, L.fmt _ _ P.tab.law]
  by_cases h2 : p.ty = p.table
  · rw [if_pos h2, fmtBytesFx_same (by rw [P.length, h2]), h2]
  · rw [if_neg h2, fmtBytesFx_wrong (by rw [P.length]; exact P.kind h2)]

end

/-! ### Steps -/

section
variable [HasDrop U V] [HasClone U V] [TableLaw V]

/-- As `InStepY`, for other results. -/
abbrev InStepW (Γ : TyEnv U) (r : Res α × (DSlots V × World U)) (q : Res α × (YVars × Outside U)) : Prop :=
  InStep (fun a s b q => a = b ∧ YHolds Γ s.1 s.2 q.1 q.2) (fun s q => YHolds Γ s.1 s.2 q.1 q.2) r q

variable {slots : DSlots V} {w : World U} {vars : YVars} {o : Outside U} {k i j i' : Nat}

/-- User code runs between the steps. -/
theorem YHolds.setUser (H : YHolds Γ slots w vars o) (u : U) :
    YHolds Γ slots { w with user := u } vars { o with user := u } :=
  ⟨rfl, H.wf, H.none_iff, H.is, H.inj, H.leaks⟩

theorem watch_step {m q : M U α} (H' : YHolds Γ slots w vars o) (e : ∀ u, m u = q u) (g : α → WObs H F) :
    InStepW Γ (WOp.watch g m (slots, w)) (WOp.see g q (vars, o)) := by
  simp only [WOp.watch, WOp.see, M.bind_run, onWorld_run, worldUser_run, aside, call, M.zoom_run, H'.user, e]
  rcases q o.user with ⟨r, u⟩
  cases r with
  | ok a => exact .ok ⟨rfl, H'.setUser u⟩
  | panic y => exact .panic (H'.setUser u)
  | ub => exact .ub
  | abort => exact .abort

theorem withTemp_congr {A : Type} {a : A} {m q : M (A × U) α} (e : ∀ s, m s = q s) (u : U) : withTemp a m u = withTemp a q u := by
  simp only [withTemp, e]

theorem atPlace_step (H' : YHolds Γ slots w vars o) {m : ValueRef V → M (DSlots V × World U) (WObs H F)}
    {q : Place → M (YVars × Outside U) (WObs H F)} (hm : ∀ v p, PlaceIs Γ p v → InStepW Γ (m v (slots, w)) (q p (vars, o))) :
    InStepW Γ (WOp.atPlace cfg k i m (slots, w)) (WOp.seePlace Γ cfg k i q (vars, o)) := by
  simp only [WOp.atPlace, WOp.seePlace]
  cases H'.place cfg k i with
  | empty hs hv hr hq => rw [M.bind_ok hr, M.bind_ok hq]; exact .ok ⟨rfl, H'⟩
  | out hs hv I ha hr hq => rw [M.bind_panic hr, M.bind_panic hq]; exact .panic H'
  | «at» hs hv I ha hr hq P hx => rw [M.bind_ok hr, M.bind_ok hq]; exact hm _ _ P

theorem obs_step {r : M (DSlots V × World U) Obs} {q : M (YVars × Outside U) Obs} (hd : InStepY Γ (r (slots, w)) (q (vars, o))) :
    InStepW Γ ((do return .obs (← r) : M (DSlots V × World U) (WObs H F)) (slots, w))
      ((do return .obs (← q) : M (YVars × Outside U) (WObs H F)) (vars, o)) :=
  InStep.map hd fun _ _ _ _ h => ⟨by rw [h.1], h.2⟩

theorem typeFrom_makes {O : List Nat} {G : Nat → Option Layout} {c : VecDyn V} {es : List Bytes} {cap : Nat} (W : Worlds G O w o)
    (I : YItem.Is Γ w.heap (.vec c) (.vec t (.vec t es cap))) :
    InStep (Makes Γ G O) (Worlds G O) ((do return .vec (← VecCopy.withTypeFrom c.toMeta) : M (World U) (Item V)) w)
      ((pure (.vec t (.vec t [] 1)) : M (Outside U) YItem) o) := by
  obtain ⟨⟨R, -⟩, T, hpos, -⟩ := I
  have em : c.toMeta = ⟨ElemInfo.new Γ t, c.vtable⟩ := by simp [VecCopy.toMeta, R.elem_eq]
  obtain ⟨c', h', e1, R', e2, e3, re⟩ := C46_with_type_from (Γ := Γ) hpos W.wf c.vtable
  rw [em, M.bind_ok e1]
  refine .ok ⟨?_, ⟨R', e3⟩, e2 ▸ T, hpos, fun _ _ _ h => by cases h; rfl⟩
  refine Worlds.move (p := none) W re fun i hi => ?_
  obtain ⟨j, h1, h2⟩ := R'.block
  have hi : c'.data.ptr = some i := hi
  rw [h1] at hi
  cases hi
  rw [h2]; simp

theorem withTypeFrom_unit {n : Nat} {c : VecDyn V} (u : IsUnits Γ n c.data) :
    VecCopy.withTypeFrom c.toMeta w = (.panic .divZero, w) := by
  have e1 : c.toMeta.elem.alignment = Γ.align Γ.unitTy := by rw [VecCopy.toMeta, u.elem]; rfl
  have e2 : c.toMeta.elem.size = 0 := by
    simp only [VecCopy.toMeta, u.elem, ElemInfo.new, Γ.unit_size, Nat.zero_div]
  simp only [VecCopy.withTypeFrom, e1, e2, evalAlign_align, M.bind_run, RVec.withCapacity]
  simp [VecVoid.fromVecOverride, e1, e2, Γ.unit_align, M.bind_run, isizeMax, Heap.alloc]

theorem put_back {β : Type} {s : Nat → Option β} {x a : Option β} (h : s k = x) : Slots.put (Slots.put s k a) k x = s := by
  funext n
  by_cases e : n = k
  · rw [e, Slots.put_same, h]
  · rw [Slots.put_other _ _ e, Slots.put_other _ _ e]

theorem check_step (H' : YHolds Γ slots w vars o) {c : VecDyn V} {tb : TyId} {z : XVec} (hk : slots k = some (.vec c))
    (I : YItem.Is Γ w.heap (.vec c) (.vec tb z)) :
    InStepW Γ
      ((do
        DOp.clearVar k
        match ← onWorld (VecDyn.check cfg t c) with
        | none => return .obs .refused
        | some c' => do
          M.modify fun s => (Slots.put s.1 k (some (.vec c')), s.2)
          return .obs .done : M (DSlots V × World U) (WObs H F)) (slots, w))
      (if t = z.elemTy Γ then (.ok (.obs .done), (vars, o))
      else (do
        YOp.moveOut k
        aside ((YItem.vec tb z).drop Γ)
        return .obs .refused : M (YVars × Outside U) (WObs H F)) (vars, o)) := by
  have hty : c.data.elem.type_id = z.elemTy Γ := by
    cases z with
    | vec t' es cap => exact I.1.1.type_id
    | unit n => rw [(show IsUnits Γ n c.data from I.1).elem]; rfl
  rw [← hty]
  have hck := VecCopy.checkRef_eq t c
  by_cases ht : t = c.data.elem.type_id
  · rw [if_pos ht]
    rw [if_pos ht] at hck
    simp only [DOp.clearVar, M.bind_run, M.modify_run, onWorld_run, VecDyn.check, hck, M.pure_run, put_back hk]
    exact .ok ⟨rfl, H'⟩
  · rw [if_neg ht]
    rw [if_neg ht] at hck
    have h := useUp_step (m := (do VecDyn.drop cfg c; pure .refused : M (World U) Obs))
      (q := (do (YItem.vec tb z).drop Γ; pure .refused : M (Outside U) Obs)) H' hk
      fun F O W => InStep.map (item_drop (a := .vec c) (cfg := cfg) W I) fun _ _ _ _ h => ⟨rfl, h⟩
    have h' := obs_step (H := H) (F := F) h
    have e1 : (do
        DOp.clearVar k
        match ← onWorld (VecDyn.check cfg t c) with
        | none => return .obs .refused
        | some c' => do
          M.modify fun s => (Slots.put s.1 k (some (.vec c')), s.2)
          return .obs .done : M (DSlots V × World U) (WObs H F)) (slots, w) =
        (do return .obs (← (do DOp.clearVar k; onWorld (do VecDyn.drop cfg c; pure .refused))) : M (DSlots V × World U) (WObs H F)) (slots, w) := by
      simp only [DOp.clearVar, M.bind_run, M.modify_run, onWorld_run, VecDyn.check, hck]
      rcases VecDyn.drop cfg c w with ⟨r, w'⟩
      cases r <;> rfl
    have e2 : (do
        YOp.moveOut k
        aside ((YItem.vec tb z).drop Γ)
        return .obs .refused : M (YVars × Outside U) (WObs H F)) (vars, o) =
        (do return .obs (← (do YOp.moveOut k; aside (do (YItem.vec tb z).drop Γ; pure .refused))) : M (YVars × Outside U) (WObs H F)) (vars, o) := by
      simp only [YOp.moveOut, aside, M.bind_run, M.modify_run, M.zoom_run]
      rcases (YItem.vec tb z).drop Γ o with ⟨r, w'⟩
      cases r <;> rfl
    rw [e1, e2]
    exact h'

theorem upcast_is {h : Heap} {a : Item V} {x : YItem} {f : V → V} (I : YItem.Is Γ h a x) (hf : ∀ t v, Tab Γ t v → Tab Γ t (f v)) :
    YItem.Is Γ h (a.upcast f) x := by
  cases a <;> cases x <;> try exact I.elim
  · exact ⟨I.1, hf _ _ I.2.1, I.2.2⟩
  · exact ⟨⟨I.1.type_id, I.1.align, I.1.bytes, I.1.length, I.1.block⟩, hf _ _ I.2⟩
  · exact ⟨⟨I.1.type_id, I.1.align, I.1.bytes, I.1.length, I.1.size⟩, hf _ _ I.2⟩

theorem upcast_step (H' : YHolds Γ slots w vars o) {a : Item V} {x : YItem} {f : V → V} (hk : slots k = some a) (hv : vars k = some x)
    (hf : ∀ t v, Tab Γ t v → Tab Γ t (f v)) : YHolds Γ (Slots.put slots k (some (a.upcast f))) w vars o := by
  have h := H'.rewrite (a' := a.upcast f) (y' := x) hk (by cases a <;> rfl) (upcast_is (H'.is k a x hk hv) hf) w.user
  have e : Slots.put vars k (some x) = vars := by
    funext n
    by_cases e : n = k
    · rw [e, Slots.put_same, hv]
    · rw [Slots.put_other _ _ e]
  rw [e] at h
  have h2 : ({ o with user := w.user } : Outside U) = o := by rw [H'.user]
  rw [h2] at h
  exact h

end
end Dync
