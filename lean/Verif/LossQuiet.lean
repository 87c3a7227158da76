import Verif.LossDyn
/-!
# What panics leave behind if the user code does not panic (helper lemmas)
-/
namespace Dync
variable {U V σ τ α β : Type} {Γ : TyEnv U} {cfg : Cfg} {t : TyId} {es : List Bytes} {cap len n k : Nat} {o : Outside U} {P : Prop}

/-- The user code does not panic. -/
structure QuietUser (Γ : TyEnv U) : Prop where
  drop : ∀ t b u y, (Γ.drop t b u).1 ≠ .panic y
  clone : ∀ t b u y, (Γ.clone t b u).1 ≠ .panic y
  cloneFrom : ∀ t b s y, (Γ.cloneFrom t b s).1 ≠ .panic y

/-- `m` does not panic. -/
def Calm (m : M σ α) : Prop := ∀ s y, (m s).1 ≠ .panic y

namespace Calm
variable {m : M σ α} {d : M σ Unit}

theorem pure (a : α) : Calm (Pure.pure a : M σ α) := fun _ _ h => by cases h
theorem ub : Calm (M.ub : M σ α) := fun _ _ h => by cases h
theorem get : Calm (M.get : M σ σ) := fun _ _ h => by cases h
theorem modify (f : σ → σ) : Calm (M.modify f : M σ Unit) := fun _ _ h => by cases h
theorem bind {f : α → M σ β} (h : Calm m) (hf : ∀ a, Calm (f a)) : Calm (m >>= f) := by
  intro s y
  have hs := h s
  rw [M.bind_run]
  rcases hm : m s with ⟨r, s'⟩
  rw [hm] at hs
  cases r with
  | ok a => exact hf a s' y
  | panic z => exact absurd rfl (hs z)
  | _ => intro h; cases h
theorem zoom {g : τ → σ} {f : σ → τ → τ} (h : Calm m) : Calm (M.zoom g f m) := fun s => h (g s)
theorem unwindDrop : Calm (M.unwindDrop d) := by
  intro s y
  unfold M.unwindDrop
  rcases hm : d s with ⟨r, s'⟩
  cases r <;> simp only [hm] <;> (intro h; cases h)
theorem thenDrop (h : Calm m) (hd : Calm d) : Calm (M.thenDrop m d) := by
  intro s y
  have hs := h s
  unfold M.thenDrop
  rcases hm : m s with ⟨r, s'⟩
  rw [hm] at hs
  have hd' := hd s'
  rcases he : d s' with ⟨r', s''⟩
  rw [he] at hd'
  cases r with
  | panic z => exact absurd rfl (hs z)
  | ok => cases r' with
    | panic z => exact absurd rfl (hd' z)
    | _ => simp only [hm, he]; intro h; cases h
  | _ => simp only [hm]; intro h; cases h
theorem forEach {body : β → M σ Unit} (h : ∀ b, Calm (body b)) : ∀ xs, Calm (M.forEach xs body)
  | [] => Calm.pure ()
  | x :: xs => (h x).bind fun _ => Calm.forEach h xs
theorem mapEach {f : β → M σ α} (h : ∀ b, Calm (f b)) : ∀ xs, Calm (M.mapEach xs f)
  | [] => Calm.pure []
  | x :: xs => (h x).bind fun _ => (Calm.mapEach h xs).bind fun _ => Calm.pure _
theorem dropEach {f : β → M σ Unit} (h : ∀ b, Calm (f b)) : ∀ xs, Calm (M.dropEach xs f)
  | [] => Calm.pure ()
  | x :: xs => (h x).thenDrop (Calm.dropEach h xs)
theorem call {m : M U α} (h : Calm m) : Calm (call m) := h.zoom
theorem aside {m : M (Outside U) α} (h : Calm m) : Calm (aside m : M (σ × Outside U) α) := h.zoom
theorem leak (n : Nat) : Calm (leak n : M (Outside U) Unit) := modify _
theorem leaking {m : M (Outside U) α} (h : Calm m) (n : Nat) : Calm (leaking n m) := by
  intro s y
  have hs := h s
  unfold Dync.leaking
  rcases hm : m s with ⟨r, s'⟩
  rw [hm] at hs
  cases r with
  | panic z => exact absurd rfl (hs z)
  | _ => simp only [hm]; intro h; cases h
theorem ite {c : Prop} [Decidable c] {m n : M σ α} (h1 : Calm m) (h2 : Calm n) : Calm (if c then m else n) := by
  split
  · exact h1
  · exact h2
end Calm

section
variable (S : QuietUser Γ)
include S

theorem QuietUser.dropQ (t b) : Calm (Γ.drop t b) := fun u => S.drop t b u
theorem QuietUser.cloneQ (t b) : Calm (Γ.clone t b) := fun u => S.clone t b u
theorem QuietUser.dropAllQ (t es) : Calm (dropAll Γ t es) := (Calm.dropEach (S.dropQ t) es).call

theorem QuietUser.itemDrop {a : YItem} (h : a.Typed) : Calm (a.drop Γ) := by
  rcases a with ⟨b, ⟨t, es, cap⟩ | n⟩ | ⟨t, x⟩ | ⟨t, x⟩
  · exact (Calm.forEach (fun e => (S.dropQ t e).call) es).leaking 1
  · exact absurd rfl (h b n)
  · exact (S.dropQ t x).call.leaking _
  · exact (S.dropQ t x).call

theorem QuietUser.itemConsume (a : YItem) (t : TyId) : Calm (a.consume Γ t) := by
  rcases a with ⟨b, ⟨t', es, cap⟩ | n⟩ | ⟨t', x⟩ | ⟨t', x⟩
  · exact .ite ((S.dropAllQ _ _).bind fun _ => Calm.pure _) (Calm.pure _)
  · exact .ite ((S.dropAllQ _ _).bind fun _ => Calm.pure _) (Calm.pure _)
  · exact .ite ((S.dropQ _ _).call.bind fun _ => Calm.pure _) ((Calm.leak _).bind fun _ => Calm.pure _)
  · exact .ite ((S.dropQ _ _).call.bind fun _ => Calm.pure _) (Calm.pure _)

theorem QuietUser.refuse (x) : Calm (refuse Γ t x) := ((S.dropQ t x).call.aside).bind fun _ => Calm.pure _

theorem QuietUser.extendClones : ∀ xs es u y, (TVec.extendClones Γ t xs es u).1 ≠ .panic y
  | [], es, u, y => by simp [TVec.extendClones]
  | x :: xs, es, u, y => by
    have h := S.clone t x u
    unfold TVec.extendClones
    rcases hc : Γ.clone t x u with ⟨r, u'⟩
    rw [hc] at h
    cases r with
    | ok c => exact QuietUser.extendClones xs _ _ _
    | panic z => exact absurd rfl (h z)
    | _ => intro h; cases h

theorem QuietUser.clones (xs) : Calm (DSpec.clones Γ t xs) := by
  intro u y
  have h := S.extendClones (t := t) xs [] u
  unfold DSpec.clones
  rcases hc : TVec.extendClones Γ t xs [] u with ⟨r, es, u'⟩
  rw [hc] at h
  cases r with
  | panic z => exact absurd rfl (h z)
  | _ => simp only [hc]; intro h; cases h

theorem QuietUser.tfill {x} : ∀ es u y, (TVec.fill Γ t x es u).1 ≠ .panic y
  | [], u, y => by simp [TVec.fill]
  | e :: es, u, y => by
    have h := S.clone t x u
    unfold TVec.fill
    rcases hc : Γ.clone t x u with ⟨r, u1⟩
    rw [hc] at h
    cases r with
    | panic z => exact absurd rfl (h z)
    | ok c =>
      have h' := S.drop t e u1
      rcases hd : Γ.drop t e u1 with ⟨r, u2⟩
      rw [hd] at h'
      cases r with
      | panic z => exact absurd rfl (h' z)
      | ok => simp only [hd]; exact QuietUser.tfill es u2 y
      | _ => simp only [hd]; intro h; cases h
    | _ => intro h; cases h

/-! ### Methods of a container that has its content -/

/-- If the method panics, the container is as it was. -/
def VKept (r : Res Obs × (XVec × Outside U)) (x : XVec) : Prop := ∀ y, r.1 = .panic y → r.2.1 = x

omit S in
theorem VKept.quiet {m : M (XVec × Outside U) Obs} {s : XVec × Outside U} {x : XVec} (h : Calm m) : VKept (m s) x :=
  fun y e => absurd e (h s y)

omit S in
theorem VKept.plain {x : XVec} {f : XVec → After} (h : (f x).Loss x P) (hP : ¬ P) : VKept (XVec.plain f ((x, o) : XVec × Outside U)) x := by
  intro y e
  refine (h.kept hP).2 ?_
  unfold XVec.plain at e
  simp only at e
  cases hf : (f x).out <;> simp only [hf] at e <;> first | rfl | cases e

theorem VKept.pushAs (F : Fit Γ t cap es.length) {x : Bytes} {t' : TyId} (h : ¬ (t' = t ∧ TooLarge Γ t cap es.length 1)) :
    VKept (XVec.dynPushAs Γ t' x ((.vec t es cap, o) : XVec × Outside U)) (.vec t es cap) := by
  unfold XVec.dynPushAs
  rw [M.bind_ok (M.get_run _)]
  simp only
  by_cases ht : t' = t
  · subst t'
    rw [if_pos rfl]
    have h1 := F.growth_typed
    cases hg : growth (Γ.size t) (Γ.align t) 1 cap es.length 1 with
    | keep => exact .quiet ((Calm.modify _).bind fun _ => Calm.pure _)
    | grown c => exact .quiet ((Calm.modify _).bind fun _ => Calm.pure _)
    | torn => exact absurd hg growth_one_torn
    | full => exact absurd ⟨rfl, h1.1 hg⟩ h
  · rw [if_neg ht]
    exact .quiet (S.refuse x)

theorem VKept.pushCloned (F : Fit Γ t cap es.length) {p : Place} (h : ¬ (t = p.ty ∧ NoGrowth Γ t cap es.length 1)) :
    VKept (XVec.dynPushCloned Γ p ((.vec t es cap, o) : XVec × Outside U)) (.vec t es cap) := by
  have hl : Calm (losing (call (Γ.clone t p.bytes))) := by
    intro s y
    have hs := (S.cloneQ t p.bytes).call s.2
    unfold losing
    rcases hm : call (Γ.clone t p.bytes) s.2 with ⟨r, s'⟩
    rw [hm] at hs
    cases r with
    | panic z => exact absurd rfl (hs z)
    | _ => simp only [hm]; intro h; cases h
  unfold XVec.dynPushCloned
  rw [M.bind_ok (M.get_run _)]
  simp only
  by_cases ht : t = p.ty
  swap
  · rw [if_neg ht]; exact .quiet (Calm.pure _)
  rw [if_pos ht]
  have h1 := F.growth_full (n := 1)
  have h2 : _ ↔ BadGrowth Γ t cap (es.length + 1) := torn_three (Γ := Γ) (t := t) (n := 1) F.le F.pos F.per F.units
  rw [Nat.one_mul] at h1 h2
  cases hg : growth (Γ.align t) (Γ.align t) (perElem Γ t) cap es.length (perElem Γ t) with
  | keep => exact .quiet (hl.bind fun _ => (Calm.modify _).bind fun _ => Calm.pure _)
  | grown c => exact .quiet (hl.bind fun _ => (Calm.modify _).bind fun _ => Calm.pure _)
  | full => exact absurd ⟨ht, .inl (h1.1 hg)⟩ h
  | torn => exact absurd ⟨ht, .inr (h2.1 hg)⟩ h

theorem VKept.push (F : Fit Γ t cap es.length) {x : Bytes} {t' : TyId}
    (h : ¬ (t' = t ∧ (Γ.size t ≠ Γ.align t ∨ TooLarge Γ t cap es.length 1))) :
    VKept (XVec.dynPush Γ t' x ((.vec t es cap, o) : XVec × Outside U)) (.vec t es cap) := by
  unfold XVec.dynPush
  rw [M.bind_ok (M.get_run _)]
  simp only
  by_cases ht : t' = t
  · subst t'
    rw [if_pos rfl]
    by_cases ha : Γ.align t = 1
    · rw [if_pos ha]
      exact .plain (Loss.push F) h
    · rw [if_neg ha]; exact .quiet Calm.ub
  · rw [if_neg ht]
    exact .quiet ((S.itemDrop (a := .box t' x) (by intro b n; simp)).aside.bind fun _ => Calm.pure _)

theorem QuietUser.repeat_room {x : Bytes} : ∀ (m : Nat) (es : List Bytes) (o : Outside U) (y : Why), es.length + m ≤ cap →
    (M.repeatN m (do
      let c ← aside (call (Γ.clone t x))
      let _ ← XVec.dynPushAs Γ t c
      pure ()) ((.vec t es cap, o) : XVec × Outside U)).1 ≠ .panic y
  | 0, es, o, y, _ => by intro h; cases h
  | m + 1, es, o, y, h => by
    unfold M.repeatN
    have hq := S.clone t x o.user
    rcases hc : Γ.clone t x o.user with ⟨r, u⟩
    rw [hc] at hq
    have ha : (aside (call (Γ.clone t x)) : M (XVec × Outside U) Bytes) (.vec t es cap, o) = (r, (.vec t es cap, { o with user := u })) := by
      simp only [aside, call, M.zoom_run, hc]
    rw [bind_assoc]
    cases r with
    | ok c =>
      rw [M.bind_ok ha, bind_assoc, M.bind_ok (pushAs_room (by omega)), pure_bind]
      exact QuietUser.repeat_room m _ _ _ (by rw [List.length_append, List.length_singleton]; omega)
    | panic z => exact absurd rfl (hq z)
    | ub => rw [M.bind_ub ha]; intro h; cases h
    | abort => rw [M.bind_abort ha]; intro h; cases h

theorem VKept.resize (F : Fit Γ t cap es.length) (hn : NoWrap cfg (n * Γ.size t)) {x : Bytes} {t' : TyId}
    (h : ¬ (t' = t ∧ es.length ≤ n ∧ NoGrowth Γ t cap es.length (n - es.length))) :
    VKept (XVec.dynResize Γ cfg t' n x ((.vec t es cap, o) : XVec × Outside U)) (.vec t es cap) := by
  -- the body does not panic
  have hb : ∀ y, (XVec.dynResizeBody Γ cfg t' n x ((.vec t es cap, o) : XVec × Outside U)).1 ≠ .panic y := by
    intro y
    unfold XVec.dynResizeBody
    rw [M.bind_ok (M.get_run _)]
    simp only
    by_cases ht : t' = t
    swap
    · rw [if_neg ht]; intro h; cases h
    subst t'
    rw [if_pos rfl]
    by_cases hl : es.length ≤ n
    · rw [if_pos hl]
      have hsub : (n - es.length) * Γ.size t ≤ n * Γ.size t := Nat.mul_le_mul_right _ (Nat.sub_le ..)
      have hn' : NoWrap cfg ((n - es.length) * Γ.size t) := hn.imp id fun h => Nat.le_trans hsub h
      obtain ⟨c, hc, hr⟩ := room_enough (cfg := cfg) F hn' fun hN => h ⟨rfl, hl, hN⟩
      have he : XVec.plain (XVec.reserve Γ cfg (n - es.length)) ((.vec t es cap, o) : XVec × Outside U) = (.ok .done, (.vec t es c, o)) := by
        unfold XVec.plain
        simp only [hr]
        rfl
      rw [M.bind_ok he]
      have h1 := S.repeat_room (cap := c) (t := t) (x := x) (n - es.length) es o
      rw [M.bind_run]
      split
      · intro h; cases h
      · rename_i he; intro _; exact absurd (by rw [he]) (h1 _ hc)
      · intro h; cases h
      · intro h; cases h
    · rw [if_neg hl]
      exact ((Calm.forEach (fun e => (S.dropQ _ e).call.aside) _).bind fun _ => (Calm.modify _).bind fun _ => Calm.pure _) _ _
  intro y e
  exfalso
  unfold XVec.dynResize M.thenDrop at e
  rcases hm : XVec.dynResizeBody Γ cfg t' n x ((.vec t es cap, o) : XVec × Outside U) with ⟨r, s'⟩
  rw [hm] at hb
  have hd := (S.dropQ t' x).call.aside (σ := XVec) s'
  rcases hd' : (aside (call (Γ.drop t' x)) : M (XVec × Outside U) Unit) s' with ⟨r', s''⟩
  rw [hd'] at hd
  simp only [hm] at e
  cases r with
  | panic z => exact hb z rfl
  | ok =>
    simp only [hd'] at e
    cases r' with
    | panic z => exact hd z rfl
    | _ => cases e
  | _ => cases e

theorem VKept.fill {x : Bytes} {t' : TyId} {s : XVec × Outside U} : VKept (XVec.dynFill Γ t' x s) s.1 := by
  refine .quiet (Calm.thenDrop ?_ (S.dropQ t' x).call.aside)
  refine Calm.get.bind fun s => ?_
  split
  · exact .ite (Calm.bind (fun s => S.tfill _ _) fun _ => Calm.pure _) (Calm.pure _)
  · exact .ite (Calm.bind (fun s => S.tfill _ _) fun _ => Calm.pure _) (Calm.pure _)

theorem VKept.clear : VKept (XVec.dynClear Γ ((.vec t es cap, o) : XVec × Outside U)) (.vec t es cap) := by
  unfold XVec.dynClear
  rw [M.bind_ok (M.get_run _)]
  exact .quiet ((Calm.forEach (fun e => (S.dropQ _ e).call.aside) _).bind fun _ => (Calm.modify _).bind fun _ => Calm.pure _)

theorem VKept.setAs {x : Bytes} {t' : TyId} {i : Nat} :
    VKept (XVec.dynSetAs Γ t' i x ((.vec t es cap, o) : XVec × Outside U)) (.vec t es cap) := by
  unfold XVec.dynSetAs
  rw [M.bind_ok (M.get_run _)]
  simp only
  split
  · split
    · exact .quiet ((Calm.modify _).bind fun _ => (S.dropQ _ _).call.aside.bind fun _ => Calm.pure _)
    · exact .quiet (S.refuse x)
  · intro y _; rfl

theorem VKept.cloneIntoVec {t' : TyId} {s : XVec × Outside U} : VKept (XVec.dynCloneIntoVec Γ t' s) s.1 := by
  refine .quiet (Calm.get.bind fun s => ?_)
  split
  · exact .ite ((S.clones _).call.aside.bind fun cs => (S.dropAllQ _ _).aside.bind fun _ => Calm.pure _) (Calm.pure _)
  · exact .ite ((S.clones _).call.aside.bind fun cs => (S.dropAllQ _ _).aside.bind fun _ => Calm.pure _) (Calm.pure _)

/-! ### Operations -/

/-- If `m` panics, variable `k` holds `x` as before. -/
def YKept (k : Nat) (x : YItem) (m : M (YVars × Outside U) α) : Prop :=
  ∀ s, s.1 k = some x → ∀ y, (m s).1 = .panic y → (m s).2.1 k = some x

omit S in
theorem YKept.quiet {m : M (YVars × Outside U) α} {x : YItem} (h : Calm m) : YKept k x m := fun s _ y e => absurd e (h s y)
omit S in
theorem YKept.panic {x : YItem} {y : Why} : YKept k x (M.panic y : M (YVars × Outside U) α) := fun _ h _ _ => h
omit S in
theorem YKept.ite {c : Prop} [Decidable c] {m n : M (YVars × Outside U) α} {x : YItem} (h1 : YKept k x m) (h2 : YKept k x n) :
    YKept k x (if c then m else n) := by
  split
  · exact h1
  · exact h2
omit S in
/-- First something that does not change the variables. -/
theorem YKept.after {m : M (YVars × Outside U) α} {f : α → M (YVars × Outside U) β} {x : YItem} (h : ∀ s, (m s).2.1 = s.1)
    (hf : ∀ a, YKept k x (f a)) : YKept k x (m >>= f) := by
  intro s hs y
  have h := h s
  rw [M.bind_run]
  rcases hm : m s with ⟨r, s'⟩
  rw [hm] at h
  have hs' : s'.1 k = some x := by rw [show s'.1 = s.1 from h]; exact hs
  cases r with
  | ok a => exact hf a s' hs' y
  | panic z => intro _; exact hs'
  | ub => intro h; cases h
  | abort => intro h; cases h

omit S in
theorem aside_same {m : M (Outside U) α} (s : YVars × Outside U) : (aside m s).2.1 = s.1 := rfl

theorem YKept.assign {x a : YItem} {k' : Nat} (hx : x.Typed) : YKept k x (YOp.assign Γ k' a) := by
  intro s hs y e
  unfold YOp.assign at e ⊢
  cases hk : s.1 k' with
  | none => simp only [hk] at e; cases e
  | some old =>
    simp only [hk] at e ⊢
    by_cases h : k = k'
    · subst h
      rw [hs] at hk
      cases hk
      exfalso
      have hq := S.itemDrop hx s.2
      rcases hd : x.drop Γ s.2 with ⟨r, o'⟩
      rw [hd] at hq e
      cases r with
      | panic z => exact hq z rfl
      | _ => cases e
    · simp [Slots.put, h, hs]

theorem YKept.create {x : YItem} {k' : Nat} {m : M (Outside U) YItem} (hx : x.Typed) : YKept k x (YOp.create Γ k' m) :=
  .after aside_same fun _ => .assign S hx

omit S in
theorem YKept.onVec {x : XVec} {b : TyId} {k' : Nat} {m : M (XVec × Outside U) Obs} (h : k' = k → ∀ o, VKept (m (x, o)) x) :
    YKept k (.vec b x) (YOp.onVec k' m) := by
  intro s hs y e
  unfold YOp.onVec at e ⊢
  by_cases hk : k' = k
  · subst hk
    simp only [hs] at e ⊢
    simp only [Slots.put, if_true]
    rw [h rfl _ y e]
  · simp only at e ⊢
    split
    · simp [Slots.put, Ne.symm hk, hs]
    · exact hs

omit S in
theorem YKept.look {x : XVec} {b : TyId} {k' : Nat} {f : TyId → List Bytes → Out} {g : Nat → Out} :
    YKept k (.vec b x) (YOp.look Γ k' f g) := by
  refine .onVec fun _ o y _ => ?_
  unfold XVec.plain
  cases x <;> rfl

end
end Dync
