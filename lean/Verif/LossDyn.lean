import Verif.LossLemmas
import Verif.DynMachineUb
import Verif.Props.DynMachine
/-!
# Which calls lose the content of a `VecDyn` (helper lemmas)
-/
namespace Dync
variable {U V σ α β : Type} {Γ : TyEnv U} {cfg : Cfg} {t : TyId} {es : List Bytes} {cap len n k : Nat} {o : Outside U} {P : Prop}

/-! ### What holds before a computation holds after it -/

/-- `m` keeps `P`, however it ends. -/
def Stays (P : σ → Prop) (m : M σ α) : Prop := ∀ s, P s → P (m s).2

namespace Stays
variable {P : σ → Prop} {m : M σ α} {d : M σ Unit}

theorem pure (a : α) : Stays P (Pure.pure a : M σ α) := fun _ h => h
theorem panic (y : Why) : Stays P (M.panic y : M σ α) := fun _ h => h
theorem ub : Stays P (M.ub : M σ α) := fun _ h => h
theorem get : Stays P (M.get : M σ σ) := fun _ h => h
theorem modify {f : σ → σ} (h : ∀ s, P s → P (f s)) : Stays P (M.modify f : M σ Unit) := h
theorem bind {f : α → M σ β} (h : Stays P m) (hf : ∀ a, Stays P (f a)) : Stays P (m >>= f) := by
  intro s hs
  have := h s hs
  rw [M.bind_run]
  rcases hm : m s with ⟨r, s'⟩
  rw [hm] at this
  cases r with
  | ok a => exact hf a s' this
  | _ => exact this
theorem thenDrop (h : Stays P m) (hd : Stays P d) : Stays P (M.thenDrop m d) := by
  intro s hs
  have := h s hs
  unfold M.thenDrop
  rcases hm : m s with ⟨r, s'⟩
  rw [hm] at this
  have hd' := hd s' this
  rcases he : d s' with ⟨r', s''⟩
  rw [he] at hd'
  cases r <;> simp only [hm]
  · cases r' <;> simp only [he] <;> exact hd'
  · cases r' <;> simp only [he] <;> exact hd'
  · exact this
  · exact this
theorem forEach {body : β → M σ Unit} (h : ∀ b, Stays P (body b)) : ∀ xs, Stays P (M.forEach xs body)
  | [] => Stays.pure ()
  | x :: xs => (h x).bind fun _ => Stays.forEach h xs
theorem ite {c : Prop} [Decidable c] {m n : M σ α} (h1 : Stays P m) (h2 : Stays P n) : Stays P (if c then m else n) := by
  split
  · exact h1
  · exact h2
end Stays

/-- Computations beside the variables do not change them. -/
theorem Stays.aside {P : σ → Prop} {m : M (Outside U) α} : Stays (fun s : σ × Outside U => P s.1) (aside m) := fun _ h => h

/-! ### Methods -/

/-- The container has elements of some type (its content is not lost). -/
def HasType (s : XVec × Outside U) : Prop := ∀ n, s.1 ≠ .unit n

theorem HasType.vec : HasType ((.vec t es cap, o) : XVec × Outside U) := by intro n; simp

theorem Stays.modifyVec {f : XVec × Outside U → TyId} {g : XVec × Outside U → List Bytes} {h : XVec × Outside U → Nat}
    {e : XVec × Outside U → Outside U} : Stays HasType (M.modify fun s => (.vec (f s) (g s) (h s), e s)) :=
  fun _ _ n => by simp

theorem Stays.besides {m : M (Outside U) α} : Stays HasType (Dync.aside m : M (XVec × Outside U) α) := fun _ h => h

theorem Stays.refuse {x : Bytes} : Stays HasType (refuse Γ t x) :=
  Stays.besides.bind fun _ => Stays.pure _

/-- How a method ends: it loses the content if `P`. -/
structure VLoss (r : Res Obs × (XVec × Outside U)) (P : Prop) : Prop where
  lost : r.1 ≠ .ub → r.1 ≠ .abort → P → (∃ y, r.1 = .panic y) ∧ r.2.1 = .unit 0
  kept : ¬ P → HasType r.2

theorem VLoss.calm {r : Res Obs × (XVec × Outside U)} (h : HasType r.2) : VLoss r False := ⟨fun _ _ h => h.elim, fun _ => h⟩
theorem VLoss.congr {r : Res Obs × (XVec × Outside U)} {P Q : Prop} (h : VLoss r P) (e : P ↔ Q) : VLoss r Q :=
  ⟨fun a b q => h.lost a b (e.2 q), fun q => h.kept fun p => q (e.1 p)⟩

theorem VLoss.plain {x : XVec} {f : XVec → After} (h : (f x).Loss x P) : VLoss (XVec.plain f ((x, o) : XVec × Outside U)) P := by
  refine ⟨fun _ _ p => ?_, fun p => (h.kept p).1⟩
  have h := h.lost p
  unfold XVec.plain
  simp only [h.1, h.2]
  exact ⟨⟨_, rfl⟩, trivial⟩

/-- After a destructor that runs while unwinding. -/
theorem VLoss.unwind {d : M (Outside U) Unit} {f : M (XVec × Outside U) Obs} {x : XVec}
    (h : ∀ o, VLoss (f (x, o)) P) (hx : HasType (x, o)) : VLoss ((aside (M.unwindDrop d) >>= fun _ => f) (x, o)) P := by
  have hd : ∀ y, (M.unwindDrop d o).1 ≠ .panic y := by
    intro y e
    unfold M.unwindDrop at e
    rcases hm : d o with ⟨r, s'⟩
    simp only [hm] at e
    cases r <;> cases e
  rcases hm : M.unwindDrop d o with ⟨r, o'⟩
  have ha : (aside (M.unwindDrop d) : M (XVec × Outside U) Unit) (x, o) = (r, (x, o')) := by simp only [aside, M.zoom_run, hm]
  rw [hm] at hd
  cases r with
  | ok a => rw [M.bind_ok ha]; exact h o'
  | panic y => exact absurd rfl (hd y)
  | ub => rw [M.bind_ub ha]; exact ⟨fun h => absurd rfl h, fun _ => hx⟩
  | abort => rw [M.bind_abort ha]; exact ⟨fun _ h => absurd rfl h, fun _ => hx⟩

theorem VLoss.lose {s : XVec × Outside U} : VLoss ((lose : M (XVec × Outside U) Obs) s) True :=
  ⟨fun _ _ _ => ⟨⟨_, rfl⟩, rfl⟩, fun h => absurd trivial h⟩

theorem VLoss.pushAs (F : Fit Γ t cap es.length) {x : Bytes} {t' : TyId} :
    VLoss (XVec.dynPushAs Γ t' x ((.vec t es cap, o) : XVec × Outside U)) (t' = t ∧ TooLarge Γ t cap es.length 1) := by
  unfold XVec.dynPushAs
  rw [M.bind_ok (M.get_run _)]
  simp only
  by_cases ht : t' = t
  · subst t'
    rw [if_pos rfl]
    refine VLoss.congr (P := TooLarge Γ t cap es.length 1) ?_ ⟨fun h => ⟨rfl, h⟩, fun h => h.2⟩
    have h1 := F.growth_typed
    cases hg : growth (Γ.size t) (Γ.align t) 1 cap es.length 1 with
    | keep => exact (VLoss.calm (HasType.vec)).congr ⟨fun h => h.elim, fun h => by rw [h1.2 h] at hg; cases hg⟩
    | grown c => exact (VLoss.calm (HasType.vec)).congr ⟨fun h => h.elim, fun h => by rw [h1.2 h] at hg; cases hg⟩
    | torn => exact absurd hg growth_one_torn
    | full =>
      exact (VLoss.unwind (fun o => VLoss.unwind (fun o => VLoss.lose) HasType.vec) HasType.vec).congr
        ⟨fun _ => h1.1 hg, fun _ => trivial⟩
  · rw [if_neg ht]
    exact (VLoss.calm (Stays.refuse _ HasType.vec)).congr ⟨fun h => h.elim, fun h => ht h.1⟩

theorem VLoss.pushCloned (F : Fit Γ t cap es.length) {p : Place} :
    VLoss (XVec.dynPushCloned Γ p ((.vec t es cap, o) : XVec × Outside U))
      (t = p.ty ∧ (NoGrowth Γ t cap es.length 1 ∨ ∃ y, (Γ.clone t p.bytes o.user).1 = .panic y)) := by
  unfold XVec.dynPushCloned
  rw [M.bind_ok (M.get_run _)]
  simp only
  by_cases ht : t = p.ty
  swap
  · rw [if_neg ht]
    exact (VLoss.calm HasType.vec).congr ⟨fun h => h.elim, fun h => ht h.1⟩
  rw [if_pos ht]
  refine VLoss.congr (P := NoGrowth Γ t cap es.length 1 ∨ ∃ y, (Γ.clone t p.bytes o.user).1 = .panic y) ?_ ⟨fun h => ⟨ht, h⟩, fun h => h.2⟩
  have h1 := F.growth_full (n := 1)
  have h2 : _ ↔ BadGrowth Γ t cap (es.length + 1) := torn_three (Γ := Γ) (t := t) (n := 1) F.le F.pos F.per F.units
  rw [Nat.one_mul] at h1 h2
  -- the clone
  have hl : ∀ (f : Bytes → M (XVec × Outside U) Obs),
      ((losing (call (Γ.clone t p.bytes)) >>= f) ((.vec t es cap, o) : XVec × Outside U)) =
        match (Γ.clone t p.bytes o.user) with
        | (.ok c, u) => f c (.vec t es cap, { o with user := u })
        | (.panic y, u) => (.panic y, (.unit 0, { o with user := u }))
        | (.ub, u) => (.ub, (.vec t es cap, { o with user := u }))
        | (.abort, u) => (.abort, (.vec t es cap, { o with user := u })) := by
    intro f
    rw [M.bind_run]
    unfold losing
    simp only [call, M.zoom_run]
    rcases hc : Γ.clone t p.bytes o.user with ⟨r, u⟩
    cases r <;> rfl
  have calm : ∀ c', growth (Γ.align t) (Γ.align t) (perElem Γ t) cap es.length (perElem Γ t) ≠ .full →
      growth (Γ.align t) (Γ.align t) (perElem Γ t) cap es.length (perElem Γ t) ≠ .torn →
      VLoss ((losing (call (Γ.clone t p.bytes)) >>= fun c => do
        M.modify fun s => (.vec t (es ++ [c]) c', s.2)
        return .done) ((.vec t es cap, o) : XVec × Outside U))
        (NoGrowth Γ t cap es.length 1 ∨ ∃ y, (Γ.clone t p.bytes o.user).1 = .panic y) := by
    intro c' g1 g2
    have hN : ¬ NoGrowth Γ t cap es.length 1 := by
      rintro (h | h)
      · exact g1 (h1.2 h)
      · exact g2 (h2.2 h)
    rw [hl]
    rcases hc : Γ.clone t p.bytes o.user with ⟨r, u⟩
    cases r with
    | ok c => exact (VLoss.calm HasType.vec).congr ⟨fun h => h.elim, fun h => by rcases h with h | ⟨y, h⟩; exacts [hN h, by cases h]⟩
    | panic y => exact ⟨fun _ _ _ => ⟨⟨_, rfl⟩, rfl⟩, fun h => absurd (.inr ⟨y, rfl⟩) h⟩
    | ub => exact ⟨fun h => absurd rfl h, fun _ => HasType.vec⟩
    | abort => exact ⟨fun _ h => absurd rfl h, fun _ => HasType.vec⟩
  cases hg : growth (Γ.align t) (Γ.align t) (perElem Γ t) cap es.length (perElem Γ t) with
  | keep => exact calm cap (by rw [hg]; simp) (by rw [hg]; simp)
  | grown c => exact calm c (by rw [hg]; simp) (by rw [hg]; simp)
  | full => exact VLoss.lose.congr ⟨fun _ => .inl (.inl (h1.1 hg)), fun _ => trivial⟩
  | torn =>
    have hB : NoGrowth Γ t cap es.length 1 := .inr (h2.1 hg)
    simp only
    rw [hl]
    rcases hc : Γ.clone t p.bytes o.user with ⟨r, u⟩
    cases r with
    | ok c => exact ⟨fun _ _ _ => ⟨⟨_, rfl⟩, rfl⟩, fun h => absurd (.inl hB) h⟩
    | panic y => exact ⟨fun _ _ _ => ⟨⟨_, rfl⟩, rfl⟩, fun h => absurd (.inl hB) h⟩
    | ub => exact ⟨fun h => absurd rfl h, fun _ => HasType.vec⟩
    | abort => exact ⟨fun _ h => absurd rfl h, fun _ => HasType.vec⟩

theorem VLoss.push (F : Fit Γ t cap es.length) {x : Bytes} {t' : TyId} :
    VLoss (XVec.dynPush Γ t' x ((.vec t es cap, o) : XVec × Outside U))
      (t' = t ∧ (Γ.size t ≠ Γ.align t ∨ TooLarge Γ t cap es.length 1)) := by
  unfold XVec.dynPush
  rw [M.bind_ok (M.get_run _)]
  simp only
  by_cases ht : t' = t
  · subst t'
    rw [if_pos rfl]
    by_cases ha : Γ.align t = 1
    · rw [if_pos ha]
      exact VLoss.plain (Loss.push F)
    · rw [if_neg ha]
      exact ⟨fun h => absurd rfl h, fun _ => HasType.vec⟩
  · rw [if_neg ht]
    refine (VLoss.calm ?_).congr ⟨fun h => h.elim, fun h => ht h.1⟩
    exact (Stays.besides.bind fun _ => Stays.pure _) ((.vec t es cap, o) : XVec × Outside U) HasType.vec

/-- There is room for the elements after the container has grown. -/
theorem growth_enough {u a q c m : Nat} (hq : 0 < q) (hl : len ≤ cap)
    (h : growth u a q cap len (n * q) = .keep ∧ m = cap ∨ growth u a q cap len (n * q) = .grown c ∧ m = c) : len + n ≤ m := by
  unfold growth at h
  by_cases h1 : n * q ≤ (cap - len) * q
  · rw [if_pos h1] at h
    have := (Nat.mul_le_mul_right_iff hq).1 h1
    rcases h with ⟨-, rfl⟩ | ⟨h, -⟩
    · omega
    · cases h
  · rw [if_neg h1] at h
    split at h
    · rcases h with ⟨h, -⟩ | ⟨h, -⟩ <;> cases h
    · split at h
      · rcases h with ⟨h, -⟩ | ⟨h, rfl⟩
        · cases h
        · cases h
          rw [Nat.le_div_iff_mul_le hq, Nat.add_mul]
          unfold nextCap
          exact Nat.le_trans (Nat.le_max_right ..) (Nat.le_max_right ..)
      · rcases h with ⟨h, -⟩ | ⟨h, -⟩ <;> cases h

theorem room_enough (F : Fit Γ t cap es.length) (hn : NoWrap cfg (n * Γ.size t)) (h : ¬ NoGrowth Γ t cap es.length n) :
    ∃ c, es.length + n ≤ c ∧ XVec.reserve Γ cfg n (.vec t es cap) = ⟨.ok .done, .vec t es c, false⟩ := by
  have hle : n * perElem Γ t ≤ n * Γ.size t := Nat.mul_le_mul_left _ (by rw [← F.units]; exact Nat.le_mul_of_pos_right _ (align_pos Γ t))
  have h1 := F.growth_full (n := n)
  have h2 : _ ↔ BadGrowth Γ t cap (es.length + n) := torn_three (Γ := Γ) (t := t) (n := n) F.le F.pos F.per F.units
  have ht : times cfg n (perElem Γ t) = some (n * perElem Γ t) := by
    have hk := ((Loss.reserve (cfg := cfg) F hn).kept h).1
    cases ht : times cfg n (perElem Γ t) with
    | none => exact absurd (by simp [XVec.reserve, ht, XVec.room, After.lost]) (hk 0)
    | some m =>
      rcases hn with hd | hn
      · rw [times_debug hd ht]
      · rw [times_small (by unfold usizeMax at hn; omega)] at ht
        rw [ht]
  cases hg : growth (Γ.align t) (Γ.align t) (perElem Γ t) cap es.length (n * perElem Γ t) with
  | keep => exact ⟨cap, growth_enough (c := 0) F.per F.le (.inl ⟨hg, rfl⟩), by simp only [XVec.reserve, XVec.room, ht, hg]⟩
  | grown c => exact ⟨c, growth_enough (c := c) F.per F.le (.inr ⟨hg, rfl⟩), by simp only [XVec.reserve, XVec.room, ht, hg]⟩
  | full => exact absurd (.inl (h1.1 hg)) h
  | torn => exact absurd (.inr (h2.1 hg)) h

/-- Pushing into a container with room. -/
theorem pushAs_room {x : Bytes} (h : es.length + 1 ≤ cap) :
    XVec.dynPushAs Γ t x ((.vec t es cap, o) : XVec × Outside U) = (.ok .done, (.vec t (es ++ [x]) cap, o)) := by
  have hg : growth (Γ.size t) (Γ.align t) 1 cap es.length 1 = .keep := by
    unfold growth
    rw [if_pos (by omega)]
  unfold XVec.dynPushAs
  rw [M.bind_ok (M.get_run _)]
  simp only [if_true, hg]
  rfl

/-- Pushing clones into a container with room: it ends well, or a clone does not, and the container has the elements so far. -/
theorem repeat_room {x : Bytes} : ∀ (m : Nat) (es : List Bytes) (o : Outside U), es.length + m ≤ cap →
    HasType (M.repeatN m (do
      let c ← aside (call (Γ.clone t x))
      let _ ← XVec.dynPushAs Γ t c
      pure ()) ((.vec t es cap, o) : XVec × Outside U)).2
  | 0, es, o, _ => HasType.vec
  | m + 1, es, o, h => by
    unfold M.repeatN
    rcases hc : Γ.clone t x o.user with ⟨r, u⟩
    have ha : (aside (call (Γ.clone t x)) : M (XVec × Outside U) Bytes) (.vec t es cap, o) = (r, (.vec t es cap, { o with user := u })) := by
      simp only [aside, call, M.zoom_run, hc]
    rw [bind_assoc]
    cases r with
    | ok c =>
      rw [M.bind_ok ha, bind_assoc, M.bind_ok (pushAs_room (by omega)), pure_bind]
      exact repeat_room m _ _ (by rw [List.length_append, List.length_singleton]; omega)
    | panic y => rw [M.bind_panic ha]; exact HasType.vec
    | ub => rw [M.bind_ub ha]; exact HasType.vec
    | abort => rw [M.bind_abort ha]; exact HasType.vec

/-- A destructor at the end. -/
theorem VLoss.thenDrop {m : M (XVec × Outside U) Obs} {d : M (Outside U) Unit} {s : XVec × Outside U}
    (h : VLoss (m s) P) : VLoss (M.thenDrop m (aside d) s) P := by
  unfold M.thenDrop
  rcases hm : m s with ⟨r, x, o⟩
  rw [hm] at h
  rcases hd : d o with ⟨r', o'⟩
  have ha : (aside d : M (XVec × Outside U) Unit) (x, o) = (r', (x, o')) := by simp only [aside, M.zoom_run, hd]
  have hk : ¬ P → ∀ o : Outside U, HasType (x, o) := fun p _ => h.kept p
  have hl := h.lost
  cases r <;> simp only [hm]
  · refine ⟨fun a b p => ?_, fun p => ?_⟩
    · obtain ⟨⟨y, e⟩, -⟩ := hl (by simp) (by simp) p
      cases e
    · cases r' <;> simp only [ha] <;> exact hk p _
  · refine ⟨fun a b p => ?_, fun p => ?_⟩
    · have := (hl (by simp) (by simp) p).2
      cases r' <;> simp only [ha] at a b ⊢
      · exact ⟨⟨_, rfl⟩, this⟩
      · exact absurd rfl b
      · exact absurd rfl a
      · exact absurd rfl b
    · cases r' <;> simp only [ha] <;> exact hk p _
  · exact ⟨fun a => absurd rfl a, fun p => hk p _⟩
  · exact ⟨fun _ a => absurd rfl a, fun p => hk p _⟩

theorem VLoss.resize (F : Fit Γ t cap es.length) (hn : NoWrap cfg (n * Γ.size t)) {x : Bytes} {t' : TyId} :
    VLoss (XVec.dynResize Γ cfg t' n x ((.vec t es cap, o) : XVec × Outside U))
      (t' = t ∧ es.length ≤ n ∧ NoGrowth Γ t cap es.length (n - es.length)) := by
  refine VLoss.thenDrop ?_
  unfold XVec.dynResizeBody
  rw [M.bind_ok (M.get_run _)]
  simp only
  by_cases ht : t' = t
  swap
  · rw [if_neg ht]
    exact (VLoss.calm HasType.vec).congr ⟨fun h => h.elim, fun h => ht h.1⟩
  subst t'
  rw [if_pos rfl]
  by_cases hl : es.length ≤ n
  · rw [if_pos hl]
    have hsub : (n - es.length) * Γ.size t ≤ n * Γ.size t := Nat.mul_le_mul_right _ (Nat.sub_le ..)
    have hn' : NoWrap cfg ((n - es.length) * Γ.size t) := hn.imp id fun h => Nat.le_trans hsub h
    refine VLoss.congr (P := NoGrowth Γ t cap es.length (n - es.length)) ?_ ⟨fun h => ⟨rfl, hl, h⟩, fun h => h.2.2⟩
    by_cases hN : NoGrowth Γ t cap es.length (n - es.length)
    · have hp := (VLoss.plain (o := o) (Loss.reserve (cfg := cfg) F hn')).lost (by
        unfold XVec.plain
        simp only [((Loss.reserve (cfg := cfg) F hn').lost hN).1]; simp) (by
        unfold XVec.plain
        simp only [((Loss.reserve (cfg := cfg) F hn').lost hN).1]; simp) hN
      obtain ⟨⟨y, h1⟩, h2⟩ := hp
      rcases he : XVec.plain (XVec.reserve Γ cfg (n - es.length)) ((.vec t es cap, o) : XVec × Outside U) with ⟨r, x', o'⟩
      rw [he] at h1 h2
      obtain rfl : r = .panic y := h1
      obtain rfl : x' = .unit 0 := h2
      rw [M.bind_panic he]
      exact ⟨fun _ _ _ => ⟨⟨_, rfl⟩, rfl⟩, fun h => absurd hN h⟩
    · obtain ⟨c, hc, hr⟩ := room_enough (cfg := cfg) F hn' hN
      have he : XVec.plain (XVec.reserve Γ cfg (n - es.length)) ((.vec t es cap, o) : XVec × Outside U) = (.ok .done, (.vec t es c, o)) := by
        unfold XVec.plain
        simp only [hr]
        rfl
      rw [M.bind_ok he]
      refine (VLoss.calm ?_).congr ⟨fun h => h.elim, fun h => hN h⟩
      have h1 := repeat_room (Γ := Γ) (t := t) (x := x) (n - es.length) es o hc
      rw [M.bind_run]
      split
      · rename_i he; rw [he] at h1; exact h1
      · rename_i he; rw [he] at h1; exact h1
      · rename_i he; rw [he] at h1; exact h1
      · rename_i he; rw [he] at h1; exact h1
  · rw [if_neg hl]
    refine (VLoss.calm ?_).congr ⟨fun h => h.elim, fun h => hl h.2.1⟩
    exact ((Stays.forEach (fun e => Stays.besides) _).bind fun _ => Stays.modifyVec.bind fun _ =>
      Stays.pure _) ((.vec t es cap, o) : XVec × Outside U) HasType.vec

/-! ### Other methods -/

theorem Stays.fill {x : Bytes} {t' : TyId} : HasType (XVec.dynFill Γ t' x ((.vec t es cap, o) : XVec × Outside U)).2 := by
  refine (VLoss.thenDrop (P := False) (VLoss.calm ?_)).kept (fun h => h)
  rw [M.bind_ok (M.get_run _)]
  simp only
  split
  · rw [M.bind_run]
    rcases hf : fillAll Γ t' x (es, o) with ⟨r, es', o'⟩
    cases r <;> simp only [hf] <;> exact HasType.vec
  · exact HasType.vec

theorem Stays.clear : HasType (XVec.dynClear Γ ((.vec t es cap, o) : XVec × Outside U)).2 := by
  unfold XVec.dynClear
  rw [M.bind_ok (M.get_run _)]
  exact ((Stays.forEach (fun e => Stays.besides) _).bind fun _ => Stays.modifyVec.bind fun _ => Stays.pure _)
    ((.vec t es cap, o) : XVec × Outside U) HasType.vec

theorem Stays.setAs {x : Bytes} {t' : TyId} {i : Nat} : HasType (XVec.dynSetAs Γ t' i x ((.vec t es cap, o) : XVec × Outside U)).2 := by
  unfold XVec.dynSetAs
  rw [M.bind_ok (M.get_run _)]
  simp only
  split
  · split
    · exact (Stays.modifyVec.bind fun _ => Stays.besides.bind fun _ => Stays.pure _) ((.vec t es cap, o) : XVec × Outside U) HasType.vec
    · exact Stays.refuse _ HasType.vec
  · exact HasType.vec

theorem Stays.cloneIntoVec {t' : TyId} : HasType (XVec.dynCloneIntoVec Γ t' ((.vec t es cap, o) : XVec × Outside U)).2 := by
  unfold XVec.dynCloneIntoVec
  rw [M.bind_ok (M.get_run _)]
  simp only
  split
  · exact (Stays.besides.bind fun _ => Stays.besides.bind fun _ => Stays.pure _) ((.vec t es cap, o) : XVec × Outside U) HasType.vec
  · exact HasType.vec

theorem Loss.swap {i j : Nat} : (XVec.swap Γ cfg i j (.vec t es cap)).Loss (.vec t es cap) False := by
  have hx : ∀ n, XVec.vec t es cap ≠ .unit n := by simp
  simp only [XVec.swap]
  split
  · exact Loss.same hx
  · split
    · split
      · exact Loss.done (by simp)
      · exact Loss.same hx
    · split
      · exact Loss.done (by simp)
      · exact Loss.same hx

/-! ### Operations -/

/-- What the variable holds is not a lost container. -/
def YItem.Typed (a : YItem) : Prop := ∀ b n, a ≠ .vec b (.unit n)

/-- What variable `k` holds is not a lost container. -/
def TypedAt (k : Nat) (s : YVars × Outside U) : Prop := ∀ a, s.1 k = some a → a.Typed

theorem TypedAt.put {k' : Nat} {vars : YVars} {a : Option YItem} {o o' : Outside U} (h : TypedAt k (vars, o)) (ha : ∀ x, a = some x → x.Typed) :
    TypedAt k (Slots.put vars k' a, o') := by
  intro x hx
  by_cases e : k = k'
  · subst e; exact ha x (by simpa [Slots.put] using hx)
  · exact h x (by simpa [Slots.put, e] using hx)

/-- `m` makes no lost container. -/
def MakesTyped (m : M (Outside U) YItem) : Prop := ∀ o a o', m o = (.ok a, o') → a.Typed

theorem MakesTyped.pure {a : YItem} (h : a.Typed) : MakesTyped (Pure.pure a : M (Outside U) YItem) := by
  intro o a' o' e; cases e; exact h
theorem MakesTyped.panic {y : Why} : MakesTyped (M.panic y : M (Outside U) YItem) := by intro o a o' e; cases e
theorem MakesTyped.bind {m : M (Outside U) α} {f : α → M (Outside U) YItem} (h : ∀ a, MakesTyped (f a)) : MakesTyped (m >>= f) := by
  intro o a o' e
  rw [M.bind_run] at e
  rcases hm : m o with ⟨r, o1⟩
  rw [hm] at e
  cases r with
  | ok b => exact h b o1 a o' e
  | _ => cases e
theorem MakesTyped.ite {c : Prop} [Decidable c] {m n : M (Outside U) YItem} (h1 : MakesTyped m) (h2 : MakesTyped n) : MakesTyped (if c then m else n) := by
  split
  · exact h1
  · exact h2
theorem MakesTyped.wrap {n : Nat} : MakesTyped (wrapVec Γ t es n) :=
  .ite (.bind fun _ => .panic) (.pure (by intro b n; simp))
theorem MakesTyped.clone (a : YItem) : MakesTyped (a.clone Γ) := by
  rcases a with ⟨b, ⟨t, es, cap⟩ | n⟩ | ⟨t, x⟩ | ⟨t, x⟩
  · exact .bind fun _ => .pure (by intro b n; simp)
  · exact .panic
  · exact .bind fun _ => .pure (by intro b n; simp)
  · exact .bind fun _ => .pure (by intro b n; simp)

theorem Stays.assign {k' : Nat} {a : YItem} (h : a.Typed) : Stays (TypedAt k) (YOp.assign Γ k' a) := by
  intro s hs
  have hp : ∀ o', TypedAt k (Slots.put s.1 k' (some a), o') := fun o' => TypedAt.put hs fun x e => by cases e; exact h
  unfold YOp.assign
  cases hk : s.1 k' with
  | none => simp only [hk]; exact hp _
  | some old => simp only [hk]; exact hp _

theorem Stays.create {k' : Nat} {m : M (Outside U) YItem} (h : MakesTyped m) : Stays (TypedAt k) (YOp.create Γ k' m) := by
  intro s hs
  unfold YOp.create
  rcases hm : m s.2 with ⟨r, o'⟩
  have ha : (Dync.aside m : M (YVars × Outside U) YItem) s = (r, (s.1, o')) := by simp only [Dync.aside, M.zoom_run, hm]
  cases r with
  | ok a => rw [M.bind_ok ha]; exact Stays.assign (h _ _ _ hm) _ hs
  | panic y => rw [M.bind_panic ha]; exact hs
  | ub => rw [M.bind_ub ha]; exact hs
  | abort => rw [M.bind_abort ha]; exact hs

theorem Stays.moveOut {j : Nat} : Stays (TypedAt k) (YOp.moveOut j : M (YVars × Outside U) Unit) := by
  intro s hs
  exact TypedAt.put hs (by simp)

theorem Stays.beside {m : M (Outside U) α} : Stays (TypedAt k) (Dync.aside m : M (YVars × Outside U) α) := fun _ h => h

theorem read_same {k' i : Nat} (s : YVars × Outside U) : (YOp.read Γ cfg k' i s).2 = s := by
  unfold YOp.read
  cases hk : s.1 k' with
  | none => simp only [hk]
  | some a =>
    simp only [hk]
    cases a.at Γ cfg i <;> rfl

theorem Stays.read {k' i : Nat} : Stays (TypedAt k) (YOp.read Γ cfg k' i) := by
  intro s hs
  rw [read_same]; exact hs

theorem YItem.Typed.store {a : YItem} {i : Nat} {x : Bytes} (h : a.Typed) : (a.store Γ cfg i x).Typed := by
  rcases a with ⟨b, ⟨t, es, cap⟩ | n⟩ | ⟨t, y⟩ | ⟨t, y⟩
  · simp only [YItem.store]
    split <;> (intro b n; simp)
  · exact absurd rfl (h b n)
  · intro b n; simp [YItem.store]
  · intro b n; simp [YItem.store]

theorem Stays.write {k' i : Nat} {x : Bytes} : Stays (TypedAt k) (YOp.write Γ cfg k' i x) := by
  intro s hs
  show TypedAt k (Slots.put s.1 k' ((s.1 k').map (YItem.store Γ cfg i x)), s.2)
  by_cases e : k = k'
  · subst e
    refine TypedAt.put hs fun y hy => ?_
    cases hk : s.1 k with
    | none => rw [hk] at hy; cases hy
    | some a => rw [hk] at hy; cases hy; exact (hs a hk).store
  · intro y hy
    exact hs y (by simpa [Slots.put, e] using hy)

/-- How an operation ends for the variable `k`, which holds a container made for type `b`. -/
structure YLoss (r : Res Obs × (YVars × Outside U)) (k : Nat) (b : TyId) (P : Prop) : Prop where
  lost : r.1 ≠ .ub → r.1 ≠ .abort → P → (∃ y, r.1 = .panic y) ∧ r.2.1 k = some (.vec b (.unit 0))
  kept : ¬ P → TypedAt k r.2

theorem YLoss.congr {r : Res Obs × (YVars × Outside U)} {b : TyId} {P Q : Prop} (h : YLoss r k b P) (e : P ↔ Q) : YLoss r k b Q :=
  ⟨fun h1 h2 q => h.lost h1 h2 (e.2 q), fun q => h.kept fun p => q (e.1 p)⟩

theorem YLoss.calm {r : Res Obs × (YVars × Outside U)} {b : TyId} {P : Prop} (h : TypedAt k r.2) (hP : ¬ P) : YLoss r k b P :=
  ⟨fun _ _ p => absurd p hP, fun _ => h⟩

theorem YLoss.onVec {vars : YVars} {k' : Nat} {b : TyId} {x : XVec} {m : M (XVec × Outside U) Obs} {P : Prop}
    (hk : vars k = some (.vec b x)) (hx : ∀ n, x ≠ .unit n) (h : k' = k → VLoss (m (x, o)) P) :
    YLoss (YOp.onVec k' m (vars, o)) k b (k' = k ∧ P) := by
  by_cases e : k' = k
  · subst e
    have h := h rfl
    unfold YOp.onVec
    simp only [hk]
    refine ⟨fun h1 h2 p => ?_, fun p a ha => ?_⟩
    · have := h.lost h1 h2 p.2
      exact ⟨this.1, by simp [Slots.put, this.2]⟩
    · simp only [Slots.put, if_true] at ha
      cases ha
      intro b' n e
      injection e with _ hu
      exact h.kept (fun q => p ⟨trivial, q⟩) n hu
  · refine ⟨fun _ _ p => absurd p.1 e, fun _ a ha => ?_⟩
    have : (YOp.onVec k' m (vars, o)).2.1 k = vars k := by
      unfold YOp.onVec
      simp only
      split
      · simp [Slots.put, Ne.symm e]
      · rfl
    rw [this, hk] at ha
    cases ha
    intro b' n e
    cases e
    exact hx n rfl

theorem YLoss.onVec_calm {vars : YVars} {k' : Nat} {b : TyId} {x : XVec} {m : M (XVec × Outside U) Obs} {P : Prop}
    (hk : vars k = some (.vec b x)) (hx : ∀ n, x ≠ .unit n) (h : k' = k → HasType (m (x, o)).2) (hP : ¬ P) :
    YLoss (YOp.onVec k' m (vars, o)) k b P :=
  (YLoss.onVec (P := False) hk hx fun e => VLoss.calm (h e)).congr ⟨fun h => h.2.elim, fun p => absurd p hP⟩

theorem YLoss.look {vars : YVars} {k' : Nat} {b : TyId} {x : XVec} {f : TyId → List Bytes → Out} {g : Nat → Out} {P : Prop}
    (hk : vars k = some (.vec b x)) (hx : ∀ n, x ≠ .unit n) (hP : ¬ P) : YLoss (YOp.look Γ k' f g (vars, o)) k b P := by
  refine YLoss.onVec_calm hk hx (fun _ n => ?_) hP
  unfold XVec.plain
  cases x with
  | vec t es cap => simp [XVec.look, After.same]
  | unit n => exact absurd rfl (hx n)

theorem vec_inj' {b b' : TyId} {t t' : TyId} {es es' : List Bytes} {cap cap' : Nat}
    (h : some (YItem.vec b (XVec.vec t es cap)) = some (.vec b' (.vec t' es' cap'))) : b = b' ∧ t = t' ∧ es = es' ∧ cap = cap' := by
  cases h; exact ⟨rfl, rfl, rfl, rfl⟩

end Dync
