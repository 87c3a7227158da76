import Verif.LossSpec
import Verif.Props.Machine
/-!
# Which calls lose the content of a container (helper lemmas)
-/
namespace Dync
variable {U V : Type} {Γ : TyEnv U} {cfg : Cfg} {t : TyId} {es : List Bytes} {cap len n : Nat}

theorem least_room (u : Nat) (h : 1024 < u → u + (u - 1) ≤ isizeMax) : leastCap u * u + (u - 1) ≤ isizeMax := by
  unfold leastCap
  split
  · subst u; decide
  · split
    · unfold isizeMax; omega
    · rename_i h1; rw [Nat.one_mul]; exact h (by omega)

/-- The numbers of a container. -/
structure Fit (Γ : TyEnv U) (t : TyId) (cap len : Nat) : Prop where
  le : len ≤ cap
  pos : 0 < cap
  room : cap * Γ.size t + (Γ.align t - 1) ≤ isizeMax
  per : 0 < perElem Γ t
  units : perElem Γ t * Γ.align t = Γ.size t

theorem Fit.align_le (F : Fit Γ t cap len) : Γ.align t ≤ Γ.size t := by
  rw [← F.units]; exact Nat.le_mul_of_pos_left _ F.per

theorem Fit.size_le (F : Fit Γ t cap len) : Γ.size t + (Γ.align t - 1) ≤ isizeMax :=
  Nat.le_trans (Nat.add_le_add_right (Nat.le_mul_of_pos_left _ F.pos) _) F.room

/-- The largest of three sizes. -/
theorem over_iff {l a b s r : Nat} (h : l * s + r ≤ isizeMax) :
    isizeMax < max l (max a b) * s + r ↔ isizeMax < max a b * s + r := by
  rcases Nat.le_total l (max a b) with h1 | h1
  · rw [Nat.max_eq_right h1]
  · rw [Nat.max_eq_left h1]
    constructor
    · intro h2; omega
    · intro h2
      have := Nat.mul_le_mul_right s h1
      omega

theorem Fit.growth_full (F : Fit Γ t cap len) :
    growth (Γ.align t) (Γ.align t) (perElem Γ t) cap len (n * perElem Γ t) = .full ↔ TooLarge Γ t cap len n := by
  have hl : leastCap (Γ.align t) * Γ.align t + (Γ.align t - 1) ≤ isizeMax :=
    least_room _ fun _ => Nat.le_trans (Nat.add_le_add_right F.align_le _) F.size_le
  have he : 2 * (cap * perElem Γ t) = 2 * cap * perElem Γ t := by rw [Nat.mul_assoc]
  have hm : ∀ a b, max (a * perElem Γ t) (b * perElem Γ t) * Γ.align t = max a b * Γ.size t := by
    intro a b
    rw [← F.units, ← Nat.mul_assoc]
    congr 1
    rcases Nat.le_total a b with h | h
    · rw [Nat.max_eq_right h, Nat.max_eq_right (Nat.mul_le_mul_right _ h)]
    · rw [Nat.max_eq_left h, Nat.max_eq_left (Nat.mul_le_mul_right _ h)]
  have hk : n * perElem Γ t ≤ (cap - len) * perElem Γ t ↔ ¬ cap < len + n := by
    rw [Nat.mul_le_mul_right_iff F.per]
    have := F.le
    omega
  have ho : isizeMax < nextCap (Γ.align t) (cap * perElem Γ t) (len * perElem Γ t + n * perElem Γ t) * Γ.align t + (Γ.align t - 1) ↔
      isizeMax < max (2 * cap) (len + n) * Γ.size t + (Γ.align t - 1) := by
    unfold nextCap
    rw [over_iff hl, ← Nat.add_mul, he, hm]
  unfold growth TooLarge
  rw [← ho]
  by_cases h1 : n * perElem Γ t ≤ (cap - len) * perElem Γ t
  · rw [if_pos h1]
    exact ⟨fun h => (by cases h), fun h => absurd h.1 (hk.1 h1)⟩
  · rw [if_neg h1]
    have h1 : cap < len + n := Decidable.not_not.1 fun h => h1 (hk.2 h)
    split
    · rename_i h2; exact ⟨fun _ => ⟨h1, h2⟩, fun _ => rfl⟩
    · rename_i h2
      refine ⟨fun h => ?_, fun h => absurd h.2 h2⟩
      split at h <;> cases h

theorem Fit.growth_typed (F : Fit Γ t cap len) :
    growth (Γ.size t) (Γ.align t) 1 cap len 1 = .full ↔ TooLarge Γ t cap len 1 := by
  have hl : leastCap (Γ.size t) * Γ.size t + (Γ.align t - 1) ≤ isizeMax := by
    unfold leastCap
    have := F.align_le
    have := F.size_le
    split
    · rename_i h; rw [h]; unfold isizeMax; omega
    · split
      · unfold isizeMax; omega
      · omega
  have ho : isizeMax < nextCap (Γ.size t) (cap * 1) (len * 1 + 1) * Γ.size t + (Γ.align t - 1) ↔
      isizeMax < max (2 * cap) (len + 1) * Γ.size t + (Γ.align t - 1) := by
    unfold nextCap
    rw [over_iff hl, Nat.mul_one, Nat.mul_one]
  unfold growth TooLarge
  rw [← ho]
  have := F.le
  by_cases h1 : 1 ≤ (cap - len) * 1
  · rw [if_pos h1]
    exact ⟨fun h => (by cases h), fun h => by omega⟩
  · rw [if_neg h1]
    split
    · rename_i h2; exact ⟨fun _ => ⟨by omega, h2⟩, fun _ => rfl⟩
    · rename_i h2
      refine ⟨fun h => ?_, fun h => absurd h.2 h2⟩
      split at h <;> cases h

theorem growth_one_torn {u a cap len k : Nat} : growth u a 1 cap len k ≠ .torn := by
  unfold growth
  split
  · simp
  split
  · simp
  rw [if_pos (Nat.mod_one _)]
  simp

/-- How a method ends on the container `x`: it loses the content if `P`, and if it panics otherwise, the container is as it was. -/
structure After.Loss (a : After) (x : XVec) (P : Prop) : Prop where
  lost : P → a.out = .panic ∧ a.now = .unit 0
  kept : ¬ P → (∀ n, a.now ≠ .unit n) ∧ (a.out = .panic → a.now = x)

theorem Loss.same {x : XVec} {o : Out} (h : ∀ n, x ≠ .unit n) : (After.same x o).Loss x False :=
  ⟨fun h => h.elim, fun _ => ⟨h, fun _ => rfl⟩⟩

theorem Loss.done {x y : XVec} {o : Obs} {b : Bool} (h : ∀ n, y ≠ .unit n) : (After.mk (.ok o) y b).Loss x False :=
  ⟨fun h => h.elim, fun _ => ⟨h, fun h => by cases h⟩⟩

theorem Loss.congr {a : After} {x : XVec} {P Q : Prop} (h : a.Loss x P) (e : P ↔ Q) : a.Loss x Q :=
  ⟨fun q => h.lost (e.2 q), fun q => h.kept fun p => q (e.1 p)⟩

theorem Loss.room (F : Fit Γ t cap len) {x : XVec} {f : Nat → After} (hf : ∀ c, (f c).Loss x False) (hn : NoWrap cfg (n * Γ.size t)) :
    (XVec.room Γ t len cap (times cfg n (perElem Γ t)) f).Loss x (NoGrowth Γ t cap len n) := by
  have hle : n * perElem Γ t ≤ n * Γ.size t := Nat.mul_le_mul_left _ (by rw [← F.units]; exact Nat.le_mul_of_pos_right _ (align_pos Γ t))
  unfold XVec.room
  cases ht : times cfg n (perElem Γ t) with
  | none =>
    refine ⟨fun _ => ⟨rfl, rfl⟩, fun h => absurd (.inl ?_) h⟩
    have hb : 2 ^ 64 ≤ n * perElem Γ t := by
      unfold times at ht
      split at ht
      · cases ht
      · omega
    have hr := F.room
    have hmax : (len + n) * Γ.size t ≤ max (2 * cap) (len + n) * Γ.size t := Nat.mul_le_mul_right _ (Nat.le_max_right ..)
    have hadd : n * Γ.size t ≤ (len + n) * Γ.size t := Nat.mul_le_mul_right _ (Nat.le_add_left ..)
    have h64 : isizeMax < 2 ^ 64 := by decide
    refine ⟨?_, by omega⟩
    apply Nat.lt_of_mul_lt_mul_right (a := Γ.size t)
    omega
  | some m =>
    have hm : m = n * perElem Γ t := by
      rcases hn with hd | hn
      · exact times_debug hd ht
      · unfold times at ht
        rw [if_pos (by unfold usizeMax at hn; omega)] at ht
        exact (Option.some.inj ht).symm
    subst hm
    have h1 := F.growth_full (n := n)
    have h2 := torn_three (Γ := Γ) (t := t) (n := n) F.le F.pos F.per F.units
    have keep : ∀ c, (growth (Γ.align t) (Γ.align t) (perElem Γ t) cap len (n * perElem Γ t) ≠ .full) →
        (growth (Γ.align t) (Γ.align t) (perElem Γ t) cap len (n * perElem Γ t) ≠ .torn) → (f c).Loss x (NoGrowth Γ t cap len n) := by
      intro c g1 g2
      refine Loss.congr (hf c) ⟨fun h => h.elim, ?_⟩
      rintro (h | h)
      · exact g1 (h1.2 h)
      · exact g2 (h2.2 h)
    simp only
    cases hg : growth (Γ.align t) (Γ.align t) (perElem Γ t) cap len (n * perElem Γ t) with
    | keep => exact keep cap (by rw [hg]; simp) (by rw [hg]; simp)
    | grown c => exact keep c (by rw [hg]; simp) (by rw [hg]; simp)
    | full => exact ⟨fun _ => ⟨rfl, rfl⟩, fun h => absurd (.inl (h1.1 hg)) h⟩
    | torn => exact ⟨fun _ => ⟨rfl, rfl⟩, fun h => absurd (.inr (h2.1 hg)) h⟩

theorem Loss.reserve (F : Fit Γ t cap es.length) (hn : NoWrap cfg (n * Γ.size t)) :
    (XVec.reserve Γ cfg n (.vec t es cap)).Loss (.vec t es cap) (NoGrowth Γ t cap es.length n) :=
  Loss.room F (fun _ => Loss.done (by simp)) hn

theorem Loss.resize (F : Fit Γ t cap es.length) (hn : NoWrap cfg (n * Γ.size t)) {x : Bytes} {t' : TyId} :
    (XVec.resize Γ cfg t' n x (.vec t es cap)).Loss (.vec t es cap) (t' = t ∧ es.length ≤ n ∧ NoGrowth Γ t cap es.length (n - es.length)) := by
  simp only [XVec.resize]
  by_cases ht : t' = t
  · subst t'
    rw [if_pos rfl]
    by_cases hl : es.length ≤ n
    · rw [if_pos hl]
      have hsub : (n - es.length) * Γ.size t ≤ n * Γ.size t := Nat.mul_le_mul_right _ (Nat.sub_le ..)
      have hn' : NoWrap cfg ((n - es.length) * Γ.size t) := hn.imp id fun h => Nat.le_trans hsub h
      refine Loss.congr (P := NoGrowth Γ t cap es.length (n - es.length)) ?_ ⟨fun h => ⟨rfl, hl, h⟩, fun h => h.2.2⟩
      by_cases hb : (n - es.length) * perElem Γ t < 2 ^ 64
      · refine Loss.room F (fun c => ?_) hn'
        rw [if_pos hb]
        exact Loss.done (by simp)
      · -- too many elements for the address space
        have hnone : times cfg (n - es.length) (perElem Γ t) = none := by
          have hd : cfg.debug = true := hn'.resolve_right fun h => by
            have hle : (n - es.length) * perElem Γ t ≤ (n - es.length) * Γ.size t :=
              Nat.mul_le_mul_left _ (by rw [← F.units]; exact Nat.le_mul_of_pos_right _ (align_pos Γ t))
            unfold usizeMax at h; omega
          unfold times
          rw [if_neg hb, if_pos hd]
        have h := Loss.room (cfg := cfg) F (x := .vec t es cap) (f := fun _ => After.same (.vec t es cap) (.ok .done))
          (fun _ => Loss.same (by simp)) hn'
        rw [hnone] at h ⊢
        exact h
    · rw [if_neg hl]
      exact Loss.congr (Loss.done (by simp)) ⟨fun h => h.elim, fun h => hl h.2.1⟩
  · rw [if_neg ht]
    exact Loss.congr (Loss.same (by simp)) ⟨fun h => h.elim, fun h => ht h.1⟩

theorem Loss.pushAs (F : Fit Γ t cap es.length) {x : Bytes} {t' : TyId} :
    (XVec.pushAs Γ t' x (.vec t es cap)).Loss (.vec t es cap) (t' = t ∧ TooLarge Γ t cap es.length 1) := by
  simp only [XVec.pushAs]
  by_cases ht : t' = t
  · subst t'
    rw [if_pos rfl]
    have h1 := F.growth_typed
    refine Loss.congr (P := TooLarge Γ t cap es.length 1) ?_ ⟨fun h => ⟨rfl, h⟩, fun h => h.2⟩
    rw [← h1]
    cases hg : growth (Γ.size t) (Γ.align t) 1 cap es.length 1 with
    | keep => exact Loss.congr (Loss.done (by simp)) ⟨fun h => h.elim, fun h => by cases h⟩
    | grown c => exact Loss.congr (Loss.done (by simp)) ⟨fun h => h.elim, fun h => by cases h⟩
    | full => exact ⟨fun _ => ⟨rfl, rfl⟩, fun h => absurd rfl h⟩
    | torn => exact absurd hg growth_one_torn
  · rw [if_neg ht]
    exact Loss.congr (Loss.same (by simp)) ⟨fun h => h.elim, fun h => ht h.1⟩

theorem Loss.push (F : Fit Γ t cap es.length) {x : Bytes} {t' : TyId} :
    (XVec.push Γ t' x (.vec t es cap)).Loss (.vec t es cap) (t' = t ∧ (Γ.size t ≠ Γ.align t ∨ TooLarge Γ t cap es.length 1)) := by
  simp only [XVec.push]
  by_cases hs : Γ.size t' ≠ Γ.size t
  · rw [if_pos hs]
    exact Loss.congr (Loss.same (by simp)) ⟨fun h => h.elim, fun h => hs (by rw [h.1])⟩
  rw [if_neg hs]
  by_cases ht : t' ≠ t
  · rw [if_pos ht]
    exact Loss.congr (Loss.same (by simp)) ⟨fun h => h.elim, fun h => ht h.1⟩
  rw [if_neg ht]
  have ht := Decidable.not_not.1 ht
  subst t'
  have hsa : perElem Γ t = 1 ↔ Γ.size t = Γ.align t := by
    constructor
    · intro e; have := F.units; rw [e, Nat.one_mul] at this; exact this.symm
    · intro e; unfold perElem; rw [e, Nat.div_self (align_pos Γ t)]
  refine Loss.congr (P := Γ.size t ≠ Γ.align t ∨ TooLarge Γ t cap es.length 1) ?_ ⟨fun h => ⟨rfl, h⟩, fun h => h.2⟩
  by_cases h1 : perElem Γ t = 1
  · have hf := F.growth_full (n := 1)
    rw [h1] at hf
    simp only [h1, if_true]
    refine Loss.congr (P := TooLarge Γ t cap es.length 1) ?_ ⟨.inr, fun h => h.resolve_left fun h => h (hsa.1 h1)⟩
    rw [← hf]
    cases hg : growth (Γ.align t) (Γ.align t) 1 cap es.length 1 with
    | keep => exact Loss.congr (Loss.done (by simp)) ⟨fun h => h.elim, fun h => by cases h⟩
    | grown c => exact Loss.congr (Loss.done (by simp)) ⟨fun h => h.elim, fun h => by cases h⟩
    | full => exact ⟨fun _ => ⟨rfl, rfl⟩, fun h => absurd rfl h⟩
    | torn => exact absurd hg growth_one_torn
  · have h2 : Γ.size t ≠ Γ.align t := fun e => h1 (hsa.2 e)
    simp only [if_neg h1]
    refine ⟨fun _ => ?_, fun h => absurd (.inl h2) h⟩
    cases growth (Γ.align t) (Γ.align t) (perElem Γ t) cap es.length 1 <;> exact ⟨rfl, rfl⟩

theorem Loss.rotate (F : Fit Γ t cap es.length) (hn : NoWrap cfg (n * Γ.size t)) {g : Nat → List Bytes} :
    (if 8192 < Γ.align t then After.same (.vec t es cap) .panic
      else match times cfg n (perElem Γ t) with
        | none => .lost
        | some k => if k ≤ es.length * perElem Γ t then ⟨.ok .done, .vec t (g k) cap, false⟩ else .lost).Loss (.vec t es cap)
      (Γ.align t ≤ 8192 ∧ es.length < n) := by
  by_cases ha : 8192 < Γ.align t
  · rw [if_pos ha]
    exact Loss.congr (Loss.same (by simp)) ⟨fun h => h.elim, fun h => absurd h.1 (by omega)⟩
  rw [if_neg ha]
  have hle : n * perElem Γ t ≤ n * Γ.size t := Nat.mul_le_mul_left _ (by rw [← F.units]; exact Nat.le_mul_of_pos_right _ (align_pos Γ t))
  refine Loss.congr (P := es.length < n) ?_ ⟨fun h => ⟨by omega, h⟩, fun h => h.2⟩
  cases ht : times cfg n (perElem Γ t) with
  | none =>
    refine ⟨fun _ => ⟨rfl, rfl⟩, fun h => absurd ?_ h⟩
    have hb : 2 ^ 64 ≤ n * perElem Γ t := by
      unfold times at ht
      split at ht
      · cases ht
      · omega
    have h1 : es.length * Γ.size t ≤ cap * Γ.size t := Nat.mul_le_mul_right _ F.le
    have h2 := F.room
    have h64 : isizeMax < 2 ^ 64 := by decide
    exact Nat.lt_of_mul_lt_mul_right (a := Γ.size t) (by omega)
  | some m =>
    have hm : m = n * perElem Γ t := by
      rcases hn with hd | hn
      · exact times_debug hd ht
      · unfold times at ht
        rw [if_pos (by unfold usizeMax at hn; omega)] at ht
        exact (Option.some.inj ht).symm
    subst hm
    simp only
    have hiff : n * perElem Γ t ≤ es.length * perElem Γ t ↔ ¬ es.length < n := by rw [Nat.mul_le_mul_right_iff F.per]; omega
    by_cases h : es.length < n
    · rw [if_neg fun g => hiff.1 g h]
      exact ⟨fun _ => ⟨rfl, rfl⟩, fun g => absurd h g⟩
    · rw [if_pos (hiff.2 h)]
      exact Loss.congr (Loss.done (by simp)) ⟨fun h => h.elim, fun g => h g⟩

end Dync
