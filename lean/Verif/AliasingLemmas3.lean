import Verif.AliasingLemmas2
import Verif.AliasingSpec
/-!
# Lemmas: what methods make
-/
namespace Dync
variable {U α β : Type} {Γ : TyEnv U} {cfg : Cfg} {cells : TyId → Nat → Bool} {C : Nat → Bool} {R R0 : Rules}

/-- The reference is to elements that have a size, and `C` tells where their cells are. -/
structure Handle.Ok (Γ : TyEnv U) (cells : TyId → Nat → Bool) (C : Nat → Bool) (h : Handle) : Prop where
  elem : h.elem = ElemInfo.new Γ h.elem.type_id
  size : 0 < Γ.size h.elem.type_id
  inner : h.kind ≠ .bytes → ∀ k < h.len, cells h.elem.type_id (k % Γ.size h.elem.type_id) = C (h.addr + k)
  plain : h.kind = .bytes → ∀ k < h.len, C (h.addr + k) = false

theorem Handle.Ok.numBytes {h : Handle} (H : h.Ok Γ cells C) : h.elem.numBytes = Γ.size h.elem.type_id := by
  rw [H.elem, numBytes_new]; simp [ElemInfo.new]

/-- What a method makes is within the reference, in order, and treats cells as cells. -/
structure Plan.Ok (Γ : TyEnv U) (cells : TyId → Nat → Bool) (C : Nat → Bool) (h : Handle) (p : Plan) : Prop where
  inside : ∀ x ∈ p.parts, x.1 + x.2 ≤ h.len
  order : p.parts.Pairwise fun x y => x.1 + x.2 ≤ y.1
  via : ∀ k, p.via = some k → ∀ off < h.len,
    refPerm Γ cells k false h.elem.type_id off = if C (h.addr + off) = true then .sharedRW else .sharedRO
  perm : ∀ x ∈ p.parts, ∀ off < x.2,
    refPerm Γ cells p.kind false h.elem.type_id off = if C (h.addr + x.1 + off) = true then .sharedRW else .sharedRO
  child : ∀ x ∈ p.parts, ∀ t md, Handle.Ok Γ cells C { h with tag := t, addr := h.addr + x.1, len := x.2, kind := p.kind, mode := md }

/-! ### Plans -/

/-- The computation does not touch memory, and its result does not depend on it. -/
def Silent (x : M AMem α) (G : α → Prop) : Prop :=
  ∃ r : Res α, (∀ m, x.run m = (r, m)) ∧ match r with | .ok a => G a | .panic _ => True | _ => False

theorem Silent.pure {G : α → Prop} {a : α} (h : G a) : Silent (pure a) G := ⟨.ok a, fun _ => rfl, h⟩

theorem Silent.panic {G : α → Prop} {w : Why} : Silent (M.panic w : M AMem α) G := ⟨.panic w, fun _ => rfl, trivial⟩

theorem Silent.bind {x : M AMem α} {f : α → M AMem β} {G : α → Prop} {K : β → Prop} (h : Silent x G) (k : ∀ a, G a → Silent (f a) K) :
    Silent (x >>= f) K := by
  obtain ⟨r, hr, hg⟩ := h
  cases r with
  | ok a =>
    obtain ⟨r', hr', hg'⟩ := k a hg
    exact ⟨r', fun m => by rw [M.bind_ok (hr m), hr' m], hg'⟩
  | panic w => exact ⟨.panic w, fun m => M.bind_panic (hr m), trivial⟩
  | ub => exact absurd hg id
  | abort => exact absurd hg id

theorem Silent.assert {b : Bool} : Silent (M.assert b) fun _ => b = true := by
  cases b
  · exact Silent.panic
  · exact Silent.pure rfl

theorem Silent.debugAssert {b : Bool} : Silent (debugAssert cfg b) fun _ => True := by
  unfold Dync.debugAssert
  split
  · obtain ⟨r, h1, h2⟩ := Silent.assert (b := b)
    refine ⟨r, h1, ?_⟩
    revert h2; cases r <;> simp
  · exact Silent.pure trivial

theorem Silent.umul {a b : Nat} : Silent (umul cfg a b) fun _ => True := by
  unfold Dync.umul
  split
  · exact Silent.pure trivial
  · split
    · exact Silent.panic
    · exact Silent.pure trivial

theorem Silent.uadd {a b : Nat} : Silent (uadd cfg a b) fun _ => True := by
  unfold Dync.uadd
  split
  · exact Silent.pure trivial
  · split
    · exact Silent.panic
    · exact Silent.pure trivial

theorem Silent.range {n i : Nat} : Silent (indexByteRange cfg n i) fun _ => True := by
  unfold indexByteRange
  exact Silent.umul.bind fun _ _ => Silent.uadd.bind fun _ _ => Silent.umul.bind fun _ _ => Silent.pure trivial

theorem Silent.scale {n : Nat} (r : Rng) : Silent (r.scale cfg n) fun _ => True := by
  cases r <;> simp only [Rng.scale]
  · exact Silent.umul.bind fun _ _ => Silent.umul.bind fun _ _ => Silent.pure trivial
  · exact Silent.umul.bind fun _ _ => Silent.pure trivial
  · exact Silent.umul.bind fun _ _ => Silent.pure trivial
  · exact Silent.pure trivial
  · exact Silent.umul.bind fun _ _ => Silent.umul.bind fun _ _ => Silent.pure trivial
  · exact Silent.umul.bind fun _ _ => Silent.pure trivial

theorem Silent.bounds {n : Nat} (r : Rng) : Silent (M.lift (r.bounds n)) fun _ => True := by
  cases r <;> simp only [Rng.bounds]
  iterate 4 exact ⟨_, fun _ => rfl, trivial⟩
  all_goals
    split
    · exact ⟨_, fun _ => rfl, trivial⟩
    · exact ⟨_, fun _ => rfl, trivial⟩

theorem Silent.count {h : Handle} : Silent (h.count cfg) fun n => n * h.elem.numBytes ≤ h.len := by
  unfold Handle.count
  split
  · exact Silent.panic
  · exact Silent.debugAssert.bind fun _ _ => Silent.pure (Nat.div_mul_le_self _ _)

theorem Silent.lift {r : Res α} {G : α → Prop} (h : match r with | .ok a => G a | .panic _ => True | _ => False) : Silent (M.lift r) G :=
  ⟨r, fun _ => rfl, h⟩

/-- Without cells, any part of a reference is fine. -/
theorem Plan.ok_plain (hc : ∀ t k, cells t k = false) {h : Handle} (H : h.Ok Γ cells C) {p : Plan}
    (inside : ∀ x ∈ p.parts, x.1 + x.2 ≤ h.len) (order : p.parts.Pairwise fun x y => x.1 + x.2 ≤ y.1) : p.Ok Γ cells C h := by
  have hC : ∀ k < h.len, C (h.addr + k) = false := by
    intro k hk
    by_cases hb : h.kind = .bytes
    · exact H.plain hb k hk
    · rw [← H.inner hb k hk, hc]
  refine ⟨inside, order, ?_, ?_, ?_⟩
  · intro k _ off ho
    simp [refPerm, hc, hC off ho]
  · intro x hx off ho
    have := inside x hx
    have hC' := hC (x.1 + off) (by omega)
    rw [← Nat.add_assoc] at hC'
    simp [refPerm, hc, hC']
  · intro x hx t md
    have := inside x hx
    refine ⟨H.elem, H.size, ?_, ?_⟩
    · intro _ k hk
      have hC' := hC (x.1 + k) (by simp only at hk; omega)
      rw [← Nat.add_assoc] at hC'
      simp [hc, hC']
    · intro _ k hk
      have hC' := hC (x.1 + k) (by simp only at hk; omega)
      rw [← Nat.add_assoc] at hC'
      exact hC'

/-- A typed reference to whole elements, made directly from a container or a typed reference. -/
theorem Plan.ok_typed {h : Handle} (H : h.Ok Γ cells C) (hk : h.kind ≠ .bytes) {a n : Nat} (hd : Γ.size h.elem.type_id ∣ a)
    (hi : a + n ≤ h.len) : Plan.Ok Γ cells C h ⟨none, [(a, n)], .typed⟩ := by
  have hC : ∀ k < n, cells h.elem.type_id (k % Γ.size h.elem.type_id) = C (h.addr + a + k) := by
    intro k hkn
    have := H.inner hk (a + k) (by omega)
    obtain ⟨c, rfl⟩ := hd
    rwa [Nat.mul_add_mod, ← Nat.add_assoc] at this
  refine ⟨by simpa using hi, by simp, by simp, ?_, ?_⟩
  · intro x hx off ho
    simp only [List.mem_singleton] at hx
    subst hx
    simp only at ho ⊢
    rw [← hC off ho]
    simp [refPerm]
  · intro x hx t md
    simp only [List.mem_singleton] at hx
    subst hx
    exact ⟨H.elem, H.size, fun _ k hk => hC k hk, fun h => by simp at h⟩

/-- What a method makes of a good reference is good. -/
theorem RefMethod.plan_ok {h : Handle} (H : h.Ok Γ cells C) (m : RefMethod)
    (hc : (∀ t k, cells t k = false) ∨ (m.TypedOnly ∧ h.kind ≠ .bytes)) :
    Silent (m.plan Γ cfg h) fun o => ∀ p, o = some p → p.Ok Γ cells C h ∧ (m.TypedOnly → h.kind ≠ .bytes → p.kind ≠ .bytes) := by
  have nb := H.numBytes
  cases m with
  | view =>
    refine Silent.pure fun p hp => ?_
    split at hp
    · cases hp
      refine ⟨?_, fun h => h.elim⟩
      rcases hc with hc | hc
      · exact Plan.ok_plain hc H (by simp) (by simp)
      · exact hc.1.elim
    · cases hp
  | again =>
    refine Silent.pure fun p hp => ?_
    split at hp
    · cases hp
    · rename_i hk
      cases hp
      refine ⟨?_, fun _ h => h⟩
      rcases hc with hc | hc
      · exact Plan.ok_plain hc H (by simp) (by simp)
      · have ht : h.kind = .typed := by
          cases hx : h.kind
          · exact absurd hx hk
          · exact absurd hx hc.2
          · rfl
        rw [ht]
        exact Plan.ok_typed H hc.2 (Nat.dvd_zero _) (by omega)
  | get i =>
    rcases hc with hc | hc
    · simp only [RefMethod.plan]
      split
      · exact Silent.pure (by simp)
      · refine Silent.count.bind fun n _ => Silent.debugAssert.bind fun _ _ => Silent.range.bind fun ab _ => ?_
        obtain ⟨a, b⟩ := ab
        refine Silent.bind (G := fun p => p.Ok Γ cells C h) (Silent.lift ?_) fun p hp => Silent.pure fun q hq => ?_
        · unfold Handle.index
          by_cases hab : a ≤ b ∧ b ≤ h.len
          · simp only [if_pos hab]
            exact Plan.ok_plain hc H (by simp; omega) (by simp)
          · simp only [if_neg hab]
        · cases hq
          exact ⟨hp, fun h => h.elim⟩
    · exact hc.1.elim
  | getRef i =>
    rcases hc with hc | hc
    · simp only [RefMethod.plan]
      split
      · exact Silent.pure (by simp)
      · refine Silent.count.bind fun n hn => Silent.assert.bind fun _ hi => Silent.pure fun p hp => ?_
        cases hp
        refine ⟨Plan.ok_plain hc H ?_ (by simp), fun h => h.elim⟩
        simp only [List.mem_singleton, forall_eq]
        have hi : i < n := by simpa using hi
        calc i * h.elem.numBytes + h.elem.numBytes = (i + 1) * h.elem.numBytes := by rw [Nat.add_mul, Nat.one_mul]
          _ ≤ n * h.elem.numBytes := Nat.mul_le_mul_right _ hi
          _ ≤ h.len := hn
    · exact hc.1.elim
  | iter =>
    rcases hc with hc | hc
    · simp only [RefMethod.plan]
      split
      · exact Silent.pure (by simp)
      · refine Silent.bind (G := fun p => p.Ok Γ cells C h) (chunks_ok hc H _) fun p hp => Silent.pure fun q hq => ?_
        cases hq
        exact ⟨hp, fun h => h.elim⟩
    · exact hc.1.elim
  | sub r =>
    rcases hc with hc | hc
    · simp only [RefMethod.plan]
      split
      · exact Silent.pure (by simp)
      · refine (Silent.scale r).bind fun r' _ => (Silent.bounds r').bind fun ab _ => ?_
        obtain ⟨a, b⟩ := ab
        refine Silent.bind (G := fun p => p.Ok Γ cells C h) (Silent.lift ?_) fun p hp => Silent.pure fun q hq => ?_
        · unfold Handle.index
          by_cases hab : a ≤ b ∧ b ≤ h.len
          · simp only [if_pos hab]
            exact Plan.ok_plain hc H (by simp; omega) (by simp)
          · simp only [if_neg hab]
        · cases hq
          exact ⟨hp, fun h => h.elim⟩
    · exact hc.1.elim
  | split mid =>
    rcases hc with hc | hc
    · simp only [RefMethod.plan]
      split
      · exact Silent.pure (by simp)
      · refine Silent.umul.bind fun n _ => Silent.assert.bind fun _ hi => Silent.pure fun p hp => ?_
        cases hp
        have hi : n ≤ h.len := by simpa using hi
        exact ⟨Plan.ok_plain hc H (by simp; omega) (by simp), fun h => h.elim⟩
    · exact hc.1.elim
  | chunks k =>
    rcases hc with hc | hc
    · simp only [RefMethod.plan]
      split
      · exact Silent.pure (by simp)
      · refine Silent.umul.bind fun n _ => Silent.bind (G := fun p => p.Ok Γ cells C h) (chunks_ok hc H _) fun p hp =>
          Silent.pure fun q hq => ?_
        cases hq
        exact ⟨hp, fun h => h.elim⟩
    · exact hc.1.elim
  | typed t =>
    simp only [RefMethod.plan]
    split
    · exact Silent.pure (by simp)
    · split
      · exact Silent.pure (by simp)
      · rename_i hk ht
        have ht : t = h.elem.type_id := by simpa using ht
        subst ht
        refine Silent.count.bind fun n hn => Silent.pure fun p hp => ?_
        cases hp
        rw [nb] at hn
        refine ⟨?_, by simp⟩
        rcases hc with hc | hc
        · exact Plan.ok_plain hc H (by simpa using hn) (by simp)
        · have ho : h.kind = .owner := by
            cases hx : h.kind
            · rfl
            · exact absurd hx hc.2
            · exact absurd hx hk
          rw [if_pos ho]
          exact Plan.ok_typed H hc.2 (Nat.dvd_zero _) (by omega)
  | typedAt t i =>
    simp only [RefMethod.plan]
    split
    · exact Silent.pure (by simp)
    · rename_i hk
      refine Silent.count.bind fun n hn => Silent.assert.bind fun _ hi => ?_
      split
      · exact Silent.pure (by simp)
      · rename_i ht
        have ht : t = h.elem.type_id := by simpa using ht
        subst ht
        refine Silent.pure fun p hp => ?_
        cases hp
        rw [nb] at hn
        have hi : i < n := by simpa using hi
        have hl : i * Γ.size h.elem.type_id + Γ.size h.elem.type_id ≤ h.len := by
          calc i * Γ.size h.elem.type_id + Γ.size h.elem.type_id = (i + 1) * Γ.size h.elem.type_id := by rw [Nat.add_mul, Nat.one_mul]
            _ ≤ n * Γ.size h.elem.type_id := Nat.mul_le_mul_right _ hi
            _ ≤ h.len := hn
        refine ⟨?_, by simp⟩
        rcases hc with hc | hc
        · exact Plan.ok_plain hc H (by simpa using hl) (by simp)
        · have ho : h.kind = .owner := by
            cases hx : h.kind
            · rfl
            · exact absurd hx hc.2
            · exact absurd hx hk
          rw [if_pos ho]
          exact Plan.ok_typed H hc.2 (Nat.dvd_mul_left _ _) hl
  | downcast t =>
    rcases hc with hc | hc
    · simp only [RefMethod.plan]
      split
      · exact Silent.pure (by simp)
      · split
        · exact Silent.pure (by simp)
        · refine Silent.assert.bind fun _ hl => Silent.pure fun p hp => ?_
          cases hp
          have hl : h.len = Γ.size t := by simpa using hl
          exact ⟨Plan.ok_plain hc H (by simp [hl]) (by simp), fun h => h.elim⟩
    · exact hc.1.elim
  | ofTyped =>
    refine Silent.pure fun p hp => ?_
    split at hp
    · cases hp
      refine ⟨?_, fun h => h.elim⟩
      rcases hc with hc | hc
      · exact Plan.ok_plain hc H (by simp) (by simp)
      · exact hc.1.elim
    · cases hp
where
  chunks_ok (hc : ∀ t k, cells t k = false) {h : Handle} (H : h.Ok Γ cells C) (n : Nat) :
      Silent (M.lift (h.chunks n)) fun p => p.Ok Γ cells C h := by
    unfold Handle.chunks
    by_cases hn : n = 0
    · rw [if_pos hn]; exact ⟨_, fun _ => rfl, trivial⟩
    · rw [if_neg hn]
      refine ⟨_, fun _ => rfl, ?_⟩
      refine Plan.ok_plain hc H ?_ ?_
      · intro x hx
        obtain ⟨c, hc, rfl⟩ := List.mem_map.1 hx
        have hc := List.mem_range.1 hc
        calc c * n + n = (c + 1) * n := by rw [Nat.add_mul, Nat.one_mul]
          _ ≤ h.len / n * n := Nat.mul_le_mul_right _ hc
          _ ≤ h.len := Nat.div_mul_le_self _ _
      · refine List.pairwise_map.2 (List.pairwise_lt_range.imp ?_)
        intro c d hcd
        simp only
        calc c * n + n = (c + 1) * n := by rw [Nat.add_mul, Nat.one_mul]
          _ ≤ d * n := Nat.mul_le_mul_right _ hcd

end Dync
