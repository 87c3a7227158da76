import Verif.Balance3
/-!
# The balance of values: operations of programs
-/
namespace Dync
variable {U V σ α β : Type} {Γ : TyEnv U} {cfg : Cfg} {t : TyId} {a : Obj} {es : List Bytes} {vars : YVars}
  {o : Outside (Ledger U)} {K k j i lk : Nat} {d : Int}
open Meter

/-- How often a variable owns `a`. -/
def weighO (a : Obj) : Option YItem → Int
  | none => 0
  | some b => b.weigh a

/-- How often the variables below `K` own `a`. -/
def YVars.weigh (a : Obj) : Nat → YVars → Int
  | 0, _ => 0
  | K + 1, vars => YVars.weigh a K vars + weighO a (vars K)

theorem YVars.weigh_put_ge {b : Option YItem} (h : K ≤ k) : YVars.weigh a K (Slots.put vars k b) = vars.weigh a K := by
  induction K with
  | zero => rfl
  | succ K ih =>
    simp only [YVars.weigh]
    rw [ih (by omega), Slots.put_other _ _ (by omega)]

theorem YVars.weigh_put {b : Option YItem} (h : k < K) :
    YVars.weigh a K (Slots.put vars k b) + weighO a (vars k) = vars.weigh a K + weighO a b := by
  induction K with
  | zero => cases h
  | succ K ih =>
    simp only [YVars.weigh]
    by_cases hk : k = K
    · subst hk
      rw [YVars.weigh_put_ge (Nat.le_refl _), Slots.put_same]; omega
    · have := ih (by omega)
      rw [Slots.put_other _ _ (Ne.symm hk)]; omega

/-- No variable is a container whose content was lost. -/
def YVars.Whole (vars : YVars) : Prop := ∀ k b, vars k = some b → b.Whole

/-- The variables hold whole elements. -/
def YVars.Shaped (Γ : TyEnv U) (vars : YVars) : Prop := ∀ k b, vars k = some b → b.Shaped Γ

theorem YItem.Shaped.whole {b : YItem} (h : b.Shaped Γ) : b.Whole := by
  cases b with
  | vec d x =>
    cases x with
    | vec t es cap => trivial
    | unit n => exact h
  | box t x => trivial
  | small t x => trivial

theorem YVars.Shaped.whole (h : vars.Shaped Γ) : vars.Whole := fun k b e => (h k b e).whole

theorem YVars.Whole.put {b : YItem} (h : vars.Whole) (hb : b.Whole) : YVars.Whole (Slots.put vars k (some b)) := by
  intro k' b' e
  by_cases hk : k' = k
  · subst hk; rw [Slots.put_same] at e; cases e; exact hb
  · rw [Slots.put_other _ _ hk] at e; exact h _ _ e

theorem YVars.Whole.none (h : vars.Whole) : YVars.Whole (Slots.put vars k none) := by
  intro k' b' e
  by_cases hk : k' = k
  · subst hk; rw [Slots.put_same] at e; cases e
  · rw [Slots.put_other _ _ hk] at e; exact h _ _ e

theorem YVars.Shaped.none (h : vars.Shaped Γ) : YVars.Shaped Γ (Slots.put vars k none) := by
  intro k' b' e
  by_cases hk : k' = k
  · subst hk; rw [Slots.put_same] at e; cases e
  · rw [Slots.put_other _ _ hk] at e; exact h _ _ e

/-- If an operation returned: it leaked `lk` blocks, and the values destroyed and owned, less those cloned, are `d`
more than before. -/
def Balanced (a : Obj) (K : Nat) (vars : YVars) (o : Outside (Ledger U)) (lk : Nat) (d : Int)
    (out : Res Obs × (YVars × Outside (Ledger U))) : Prop :=
  ∀ r s', out = (.ok r, s') → s'.1.Whole ∧ s'.2.leaked = o.leaked + lk ∧
    s'.2.user.net a + s'.1.weigh a K = o.user.net a + vars.weigh a K + d

theorem Balanced.same (h : vars.Whole) (r : Obs) : Balanced a K vars o 0 0 (.ok r, (vars, o)) := by
  intro r s' e
  cases e
  exact ⟨h, rfl, by simp only; omega⟩

theorem Balanced.panic (y : Why) (s : YVars × Outside (Ledger U)) : Balanced a K vars o lk d (.panic y, s) := by
  intro r s' e
  cases e

theorem balanced_assign {b : YItem} (hk : k < K) (hw : vars.Whole) (hb : b.Whole) :
    Balanced a K vars o 0 (b.weigh a) (YOp.assign Γ.ledger k b (vars, o)) := by
  intro r s' e
  simp only [YOp.assign] at e
  have hp := YVars.weigh_put (a := a) (vars := vars) (b := some b) hk
  cases hv : vars k with
  | none =>
    rw [hv] at e
    cases e
    rw [hv] at hp
    simp only [weighO] at hp
    exact ⟨hw.put hb, rfl, by simp only; omega⟩
  | some old =>
    rw [hv] at e hp
    simp only at e
    rcases hd : old.drop Γ.ledger o with ⟨r1, o1⟩
    rw [hd] at e
    cases r1 with
    | ok u =>
      cases e
      obtain ⟨h1, h2⟩ := moves_item_drop (a := a) old _ _ _ hd
      simp only [outMeter, weighO] at h1 h2 hp
      exact ⟨hw.put hb, h1, by simp only; omega⟩
    | panic y => cases e
    | ub => cases e
    | abort => cases e

theorem balanced_create {m : M (Outside (Ledger U)) YItem} (hk : k < K) (hw : vars.Whole)
    (hm : (outMeter a).Moves d m fun b => b.weigh a) (hb : MakesWhole m) :
    Balanced a K vars o 0 d (YOp.create Γ.ledger k m (vars, o)) := by
  intro r s' e
  obtain ⟨b, s1, e1, e2⟩ := M.bind_ok_inv e
  obtain ⟨o1, f1, rfl⟩ := aside_ok e1
  obtain ⟨h1, h2⟩ := hm _ _ _ f1
  obtain ⟨h3, h4, h5⟩ := balanced_assign (a := a) hk hw (hb _ _ _ f1) _ _ e2
  simp only [outMeter] at h1 h2
  exact ⟨h3, by omega, by omega⟩

theorem balanced_onVec {m : M (XVec × Outside (Ledger U)) Obs} (hk : k < K) (hw : vars.Shaped Γ)
    (hm : ∀ b x, vars k = some (.vec b x) → TidyOn Γ a d m) :
    Balanced a K vars o 0 (match vars k with | some (.vec _ _) => d | _ => 0) (YOp.onVec k m (vars, o)) := by
  simp only [YOp.onVec]
  have hp := fun b => YVars.weigh_put (a := a) (vars := vars) (b := some b) hk
  rcases hv : vars k with _ | ⟨b, x⟩ | ⟨t, x⟩ | ⟨t, x⟩
  · exact Balanced.same hw.whole _
  · have hs := hw _ _ hv
    have hm := hm b x hv
    cases x with
    | unit n => exact hs.elim
    | vec t es cap =>
      intro r s' e
      rcases hr : m (.vec t es cap, o) with ⟨r1, x1, o1⟩
      simp only [hr] at e
      cases e
      obtain ⟨es', cap', rfl, h2, h3⟩ := hm _ _ _ _ _ _ hs.2.1 hs.2.2 hr
      have hp := hp (.vec b (.vec t es' cap'))
      rw [hv] at hp
      simp only [weighO, YItem.weigh, XVec.weigh] at hp h2 h3
      exact ⟨hw.whole.put trivial, h2, by simp only; omega⟩
  · exact Balanced.same hw.whole _
  · exact Balanced.same hw.whole _

theorem read_ok {s s' : YVars × Outside U} {p : Option Place} (h : YOp.read Γ cfg k i s = (.ok p, s')) :
    s' = s ∧ (p = none ↔ s.1 k = none) ∧ ∀ q, p = some q → ∃ b, s.1 k = some b ∧ b.at Γ cfg i = some q := by
  simp only [YOp.read] at h
  cases hv : s.1 k with
  | none => rw [hv] at h; cases h; exact ⟨rfl, by simp, by simp⟩
  | some b =>
    rw [hv] at h
    simp only at h
    cases hp : b.at Γ cfg i with
    | none => rw [hp] at h; cases h
    | some q => rw [hp] at h; cases h; exact ⟨rfl, by simp, by simp [hp]⟩

theorem balanced_append (hk : k < K) (hj : j < K) (hw : vars.Whole) :
    Balanced a K vars o 0 0 (YOp.append Γ.ledger k j (vars, o)) := by
  simp only [YOp.append]
  by_cases hkj : k = j
  · rw [if_pos hkj]; exact Balanced.same hw _
  rw [if_neg hkj]
  have key : ∀ b t es cap b' es' cap' c, vars k = some (.vec b (.vec t es cap)) → vars j = some (.vec b' (.vec t es' cap')) →
      Balanced a K vars o 0 0 (.ok .done,
        (Slots.put (Slots.put vars k (some (.vec b (.vec t (es ++ es') c)))) j (some (.vec b' (.vec t [] cap'))), o)) := by
    intro b t es cap b' es' cap' c h1 h2 r s' e
    cases e
    have p1 := YVars.weigh_put (a := a) (vars := vars) (b := some (.vec b (.vec t (es ++ es') c))) hk
    have p2 := YVars.weigh_put (a := a) (vars := Slots.put vars k (some (.vec b (.vec t (es ++ es') c))))
      (b := some (.vec b' (.vec t [] cap'))) hj
    rw [Slots.put_other _ _ (Ne.symm hkj), h2] at p2
    rw [h1] at p1
    simp only [weighO, YItem.weigh, XVec.weigh, cnt_append, cnt_nil] at p1 p2
    exact ⟨(hw.put (k := k) (b := .vec b (.vec t (es ++ es') c)) trivial).put trivial, rfl, by simp only; omega⟩
  rcases h1 : vars k with _ | ⟨b, x⟩ | ⟨t, x⟩ | ⟨t, x⟩
  · exact Balanced.same hw _
  · rcases h2 : vars j with _ | ⟨b', x'⟩ | ⟨t', x'⟩ | ⟨t', x'⟩
    · cases x <;> exact Balanced.same hw _
    · cases x with
      | unit n => exact (hw _ _ h1).elim
      | vec t es cap =>
        cases x' with
        | unit n => exact (hw _ _ h2).elim
        | vec t' es' cap' =>
          simp only
          by_cases ht : t = t'
          · subst ht
            rw [if_pos rfl]
            cases growth (Γ.ledger.align t) (Γ.ledger.align t) (perElem Γ.ledger t) cap es.length (es'.length * perElem Γ.ledger t) with
            | keep => exact key _ _ _ _ _ _ _ _ h1 h2
            | grown c => exact key _ _ _ _ _ _ _ _ h1 h2
            | full => exact Balanced.panic _ _
            | torn => exact Balanced.panic _ _
          · rw [if_neg ht]; exact Balanced.same hw _
    · cases x <;> exact Balanced.same hw _
    · cases x <;> exact Balanced.same hw _
  · exact Balanced.same hw _
  · exact Balanced.same hw _

theorem balanced_drop {b : YItem} (hk : k < K) (hw : vars.Whole) (hv : vars k = some b) :
    Balanced a K vars o 0 0 ((do YOp.moveOut k; aside (b.drop Γ.ledger); return .done : M (YVars × Outside (Ledger U)) Obs) (vars, o)) := by
  intro r s' e
  obtain ⟨u, s1, e1, e⟩ := M.bind_ok_inv e
  simp only [YOp.moveOut, M.modify_run] at e1
  cases e1
  obtain ⟨u, s1, e1, e⟩ := M.bind_ok_inv e
  obtain ⟨o1, f1, rfl⟩ := aside_ok e1
  cases e
  obtain ⟨h1, h2⟩ := moves_item_drop (a := a) b _ _ _ f1
  have hp := YVars.weigh_put (a := a) (vars := vars) (b := none) hk
  rw [hv] at hp
  simp only [weighO, outMeter] at h1 h2 hp
  exact ⟨hw.none, by simp only; omega, by simp only; omega⟩

/-- A conversion to another type forgets the values. -/
def YItem.ty : YItem → TyId
  | .vec _ (.vec t _ _) => t
  | .vec b (.unit _) => b
  | .box t _ | .small t _ => t

/-- ... and the block, for a box. -/
def YItem.boxed (Γ : TyEnv U) : YItem → Nat
  | .box t _ => boxBlock Γ t
  | _ => 0

theorem balanced_consume {b : YItem} (hk : k < K) (hw : vars.Whole) (hv : vars k = some b) :
    Balanced a K vars o (if b.ty = t then 0 else b.boxed Γ) (if b.ty = t then 0 else -b.weigh a)
      ((do YOp.moveOut k; aside (b.consume Γ.ledger t) : M (YVars × Outside (Ledger U)) Obs) (vars, o)) := by
  intro r s' e
  obtain ⟨u, s1, e1, e⟩ := M.bind_ok_inv e
  simp only [YOp.moveOut, M.modify_run] at e1
  cases e1
  obtain ⟨o1, f, rfl⟩ := aside_ok e
  clear e
  have hp := YVars.weigh_put (a := a) (vars := vars) (b := none) hk
  rw [hv] at hp
  simp only [weighO] at hp
  refine ⟨hw.none, ?_⟩
  have moved : ∀ (m : M (Outside (Ledger U)) Unit) (r : Obs), (outMeter a).Moves (b.weigh a) m (fun _ => 0) →
      (m >>= fun _ => Pure.pure r : M (Outside (Ledger U)) Obs) o = (.ok r, o1) →
      o1.leaked = o.leaked + 0 ∧ o1.user.net a + YVars.weigh a K (Slots.put vars k none) = o.user.net a + vars.weigh a K + 0 := by
    intro m r h e
    obtain ⟨u, s1, e1, e2⟩ := M.bind_ok_inv e
    cases e2
    obtain ⟨h1, h2⟩ := h _ _ _ e1
    simp only [outMeter] at h1 h2
    exact ⟨h1, by omega⟩
  cases b with
  | vec d x =>
    cases x with
    | unit n => exact (hw _ _ hv).elim
    | vec t' es cap =>
      have f' : (if t = t' then do dropAll Γ.ledger t es; return .done else return .refused : M (Outside (Ledger U)) Obs) o = (.ok r, o1) := f
      by_cases ht : t = t'
      · subst ht
        rw [if_pos rfl] at f'
        have e1 : YItem.ty (.vec d (.vec t es cap)) = t := rfl
        rw [if_pos e1, if_pos e1]
        obtain ⟨u, s1, e1, e2⟩ := M.bind_ok_inv f'
        cases e2
        exact moved _ _ (moves_dropAll t es) f'
      · rw [if_neg ht] at f'
        have e1 : ¬ YItem.ty (.vec d (.vec t' es cap)) = t := Ne.symm ht
        rw [if_neg e1, if_neg e1]
        cases f'
        exact ⟨rfl, by simp only; omega⟩
  | box t' x =>
    have f' : (if t = t' then do call (Γ.ledger.drop t x); return .done else (do leak (boxBlock Γ.ledger t'); return .refused) : M (Outside (Ledger U)) Obs) o = (.ok r, o1) := f
    by_cases ht : t = t'
    · subst ht
      rw [if_pos rfl] at f'
      have e1 : YItem.ty (.box t x) = t := rfl
      rw [if_pos e1, if_pos e1]
      obtain ⟨u, s1, e1, e2⟩ := M.bind_ok_inv f'
      cases e2
      exact moved _ _ (moves_call (moves_drop t x)) f'
    · rw [if_neg ht] at f'
      have e1 : ¬ YItem.ty (.box t' x) = t := Ne.symm ht
      rw [if_neg e1, if_neg e1]
      cases f'
      exact ⟨rfl, by simp only; omega⟩
  | small t' x =>
    have f' : (if t = t' then do call (Γ.ledger.drop t x); return .done else return .refused : M (Outside (Ledger U)) Obs) o = (.ok r, o1) := f
    by_cases ht : t = t'
    · subst ht
      rw [if_pos rfl] at f'
      have e1 : YItem.ty (.small t x) = t := rfl
      rw [if_pos e1, if_pos e1]
      obtain ⟨u, s1, e1, e2⟩ := M.bind_ok_inv f'
      cases e2
      exact moved _ _ (moves_call (moves_drop t x)) f'
    · rw [if_neg ht] at f'
      have e1 : ¬ YItem.ty (.small t' x) = t := Ne.symm ht
      rw [if_neg e1, if_neg e1]
      cases f'
      exact ⟨rfl, by simp only; omega⟩

/-! ### Places -/

theorem weigh_write {b : YItem} {p : Place} {x : Bytes} (hk : k < K) (h : Fits Γ cfg i) (hs : vars.Shaped Γ)
    (hv : vars k = some b) (hp : b.at Γ cfg i = some p) (hx : x.length = Γ.size p.ty) :
    (b.store Γ cfg i x).Whole ∧
      YVars.weigh a K (Slots.put vars k (some (b.store Γ cfg i x))) + cnt a p.ty [p.bytes] = vars.weigh a K + cnt a p.ty [x] := by
  obtain ⟨-, -, h2⟩ := place_weigh (a := a) h (hs _ _ hv) hp
  obtain ⟨h3, h4⟩ := h2 x hx
  have hp := YVars.weigh_put (a := a) (vars := vars) (b := some (b.store Γ cfg i x)) hk
  rw [hv] at hp
  simp only [weighO] at hp
  exact ⟨h3, by omega⟩

theorem balanced_assignPlace {x : Bytes} {mk : TyId → Bytes → YItem} (hk : k < K) (hj : j < K) (hkj : k ≠ j) (h : Fits Γ cfg i)
    (hs : vars.Shaped Γ) (hv : vars j = some (mk t x)) (hx : x.length = Γ.size t) (hwt : ∀ y, (mk t y).weigh a = cnt a t [y]) 
    (hkv : vars k ≠ none) :
    Balanced a K vars o 0 0 (YOp.assignPlace Γ.ledger cfg k i j t x mk (vars, o)) := by
  intro r s' e
  obtain ⟨p, s1, e1, e⟩ := M.bind_ok_inv e
  obtain ⟨rfl, hn, hp⟩ := read_ok e1
  cases p with
  | none => exact (hkv (hn.1 rfl)).elim
  | some p =>
    obtain ⟨b, hb, hat⟩ := hp p rfl
    simp only at e
    obtain ⟨u, s1, e1, e⟩ := M.bind_ok_inv e
    simp only [YOp.moveOut, M.modify_run] at e1
    cases e1
    have pj := YVars.weigh_put (a := a) (vars := vars) (b := none) hj
    rw [hv] at pj
    simp only [weighO, hwt] at pj
    have hw := hs.whole.none (k := j)
    by_cases ht : p.ty = t
    · rw [if_pos ht] at e
      obtain ⟨u, s1, e1, e⟩ := M.bind_ok_inv e
      simp only [YOp.write, M.modify_run] at e1
      cases e1
      obtain ⟨u, s1, e1, e⟩ := M.bind_ok_inv e
      obtain ⟨o1, f1, rfl⟩ := aside_ok e1
      cases e
      obtain ⟨h1, h2⟩ := moves_item_drop (a := a) (mk t p.bytes) _ _ _ f1
      have hb' : Slots.put vars j none k = some b := by rw [Slots.put_other _ _ hkj]; exact hb
      obtain ⟨w1, w2⟩ := weigh_write (a := a) (K := K) (x := x) hk h (hs.none (k := j)) hb' hat (by rw [ht]; exact hx)
      simp only [hb', Option.map_some]
      rw [ht] at w2
      simp only [outMeter, hwt] at h1 h2
      refine ⟨hw.put w1, h1, ?_⟩
      have : YItem.store Γ.ledger cfg i x b = YItem.store Γ cfg i x b := by cases b <;> rfl
      rw [this]
      omega
    · rw [if_neg ht] at e
      obtain ⟨u, s1, e1, e⟩ := M.bind_ok_inv e
      obtain ⟨o1, f1, rfl⟩ := aside_ok e1
      cases e
      obtain ⟨h1, h2⟩ := moves_item_drop (a := a) (mk t x) _ _ _ f1
      simp only [outMeter, hwt] at h1 h2
      exact ⟨hw, h1, by simp only; omega⟩

end Dync
