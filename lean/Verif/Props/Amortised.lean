import Verif.Props.Machine
/-!
# C95 Growing a container is amortised

Along every program over `VecCopy` containers, with caught panics and calls of any kind in between, the capacity of a
container never shrinks, and every call that changes it at least doubles it, and only if there was no room.
So the number of such calls is logarithmic, and the elements that are moved to larger buffers are fewer than twice
the elements that the container last had to make room for.
-/
namespace Dync
variable {U V : Type} {Γ : TyEnv U} {t : TyId} {es : List Bytes} {cfg : Cfg} {vt : V} {slots : Slots V} {w : World U} {s : XState}

/-! ### Specification -/

/-- The operation makes a new container for variable `k`. -/
def Op.Creates (k : Nat) : Op → Prop
  | .withType j _ | .withCapacity j _ _ | .fromSlice j _ _ | .clone _ j => j = k
  | _ => False

/-- How many elements the container in a variable has to have room for in a call, if it has `before` elements before the
call and `after` elements after it. -/
def Op.needs (before after : Nat) : Op → Nat
  | .reserve _ n => before + n
  | _ => after

/-- The number of elements and the capacity of the container in variable `k` (nothing, if there is none, or if all that
is left of its content are values `()`). -/
def heldBy (slots : Slots V) (k : Nat) : Option (Nat × Nat) :=
  (slots k).bind fun c => if c.data.elem.size = 0 then none else some (c.data.len, c.data.cap)

/-- The calls of a program that change the capacity of the container in variable `k`: for each of them, the number of
elements before it and the number that was needed. -/
def growths (Γ : TyEnv U) (cfg : Cfg) (vt : V) (k : Nat) : List Op → Slots V × World U → List (Nat × Nat)
  | [], _ => []
  | op :: ops, s =>
    let next := op.exec Γ cfg vt s
    match next.1 with
    | .ub | .abort => []
    | _ =>
      (match heldBy s.1 k, heldBy next.2.1 k with
        | some (n, cap), some (n', cap') => if cap = cap' then [] else [(n, op.needs n n')]
        | _, _ => []) ++ growths Γ cfg vt k ops next.2

/-! ### One call -/

/-- A change of capacity: at least doubled, needed, and not to more than twice what is needed, or to eight. -/
def Enlarged (cap cap' need : Nat) : Prop := 2 * cap ≤ cap' ∧ cap < need ∧ cap' ≤ max (2 * need) 8

theorem growth_grown {u a s cap len k c : Nat} (hs : 0 < s) (hl : len ≤ cap) (h : growth u a s cap len k = .grown c) :
    2 * cap ≤ c ∧ cap * s < len * s + k ∧ c * s ≤ max 8 (max (2 * (cap * s)) (len * s + k)) := by
  unfold growth at h
  split at h
  · cases h
  · rename_i hk
    split at h
    · cases h
    · split at h
      · rename_i hm
        cases h
        refine ⟨?_, ?_, ?_⟩
        · rw [Nat.le_div_iff_mul_le hs]
          unfold nextCap
          calc 2 * cap * s = 2 * (cap * s) := Nat.mul_assoc ..
            _ ≤ max (2 * (cap * s)) (len * s + k) := Nat.le_max_left ..
            _ ≤ _ := Nat.le_max_right ..
        · rw [Nat.sub_mul] at hk
          have := Nat.mul_le_mul_right s hl
          omega
        · refine Nat.le_trans (Nat.div_mul_le_self _ _) ?_
          unfold nextCap leastCap
          split <;> [skip; split] <;> omega
      · cases h

theorem growth_enlarged {u a s cap len k n c : Nat} (hs : 0 < s) (hl : len ≤ cap) (hk : k ≤ n * s)
    (h : growth u a s cap len k = .grown c) : Enlarged cap c (len + n) := by
  obtain ⟨h1, h2, h3⟩ := growth_grown hs hl h
  have hlt : cap < len + n := by
    refine Nat.lt_of_mul_lt_mul_right (a := s) ?_
    rw [Nat.add_mul]
    omega
  refine ⟨h1, hlt, ?_⟩
  have hm : c * s ≤ 8 * s ∨ c * s ≤ (2 * (len + n)) * s := by
    have e1 : len * s + k ≤ (len + n) * s := by rw [Nat.add_mul]; omega
    have e2 : cap * s ≤ (len + n) * s := Nat.mul_le_mul_right s (Nat.le_of_lt hlt)
    have e3 : 8 ≤ 8 * s := Nat.le_mul_of_pos_right 8 hs
    rw [Nat.mul_assoc]
    omega
  rcases hm with hm | hm <;> have := Nat.le_of_mul_le_mul_right hm hs <;> omega

theorem times_le {a b k : Nat} (h : times cfg a b = some k) : k ≤ a * b := by
  unfold times at h
  split at h
  · cases h; exact Nat.le_refl _
  · split at h
    · cases h
    · cases h; exact Nat.mod_le _ _

/-- A method neither makes a container of one whose content was lost, nor changes a capacity without need. -/
def Modest (Γ : TyEnv U) (need : Nat → Nat → Nat) (f : XVec → After) : Prop :=
  (∀ t es cap t' es' cap', es.length ≤ cap → 0 < perElem Γ t → (f (.vec t es cap)).now = .vec t' es' cap' →
    cap = cap' ∨ Enlarged cap cap' (need es.length es'.length)) ∧
  ∀ n t' es' cap', (f (.unit n)).now ≠ .vec t' es' cap'

theorem room_modest {len cap n : Nat} {k : Option Nat} {f : Nat → After} {t' : TyId} {es' : List Bytes} {cap' : Nat} (hs : 0 < perElem Γ t)
    (hl : len ≤ cap) (hk : ∀ j, k = some j → j ≤ n * perElem Γ t) (hf : ∀ c t' es' cap', (f c).now = .vec t' es' cap' → c = cap')
    (h : (XVec.room Γ t len cap k f).now = .vec t' es' cap') : cap = cap' ∨ Enlarged cap cap' (len + n) := by
  unfold XVec.room at h
  split at h
  · cases h
  · split at h
    · exact .inl (hf _ _ _ _ h)
    · rename_i j c hg
      have := hf _ _ _ _ h
      subst this
      exact .inr (growth_enlarged hs hl (hk _ rfl) hg)
    · cases h
    · cases h

/-- The methods that do not make room. -/
theorem Modest.of_same {need : Nat → Nat → Nat} {f : XVec → After}
    (h : ∀ t es cap t' es' cap', (f (.vec t es cap)).now = .vec t' es' cap' → cap = cap')
    (hu : ∀ n t' es' cap', (f (.unit n)).now ≠ .vec t' es' cap') : Modest Γ need f :=
  ⟨fun t es cap t' es' cap' _ _ e => .inl (h _ _ _ _ _ _ e), hu⟩

theorem pushAs_modest (x : Bytes) : Modest Γ (fun _ b => b) (XVec.pushAs Γ t x) := by
  refine ⟨fun t' es cap t'' es' cap' hl hp h => ?_, fun n t' es' cap' h => ?_⟩
  · simp only [XVec.pushAs] at h
    split at h
    · split at h
      · cases h; exact .inl rfl
      · rename_i c hg
        cases h
        right
        have := growth_enlarged (n := 1) Nat.one_pos hl (by omega) hg
        simpa using this
      · cases h
    · cases h; exact .inl rfl
  · simp only [XVec.pushAs] at h
    split at h
    · split at h <;> cases h
    · cases h

theorem push_modest (x : Bytes) : Modest Γ (fun _ b => b) (XVec.push Γ t x) := by
  refine ⟨fun t' es cap t'' es' cap' hl hp h => ?_, fun n t' es' cap' h => ?_⟩
  · simp only [XVec.push] at h
    split at h
    · cases h; exact .inl rfl
    · split at h
      · cases h; exact .inl rfl
      · rename_i ht
        have ht := Decidable.not_not.1 ht
        subst ht
        split at h
        · cases h
        · cases h
        · split at h <;> cases h
          exact .inl rfl
        · rename_i c hg
          split at h
          · cases h
            right
            have := growth_enlarged (n := 1) hp hl (by omega) hg
            simpa using this
          · cases h
  · simp only [XVec.push] at h
    split at h
    · cases h
    · split at h <;> cases h

theorem reserve_modest (n : Nat) : Modest Γ (fun a _ => a + n) (XVec.reserve Γ cfg n) := by
  refine ⟨fun t' es cap t'' es' cap' hl hp h => ?_, fun n t' es' cap' h => by cases h⟩
  exact room_modest hp hl (fun j hj => times_le hj) (fun c t' es' cap' e => by cases e; rfl) h

theorem resize_modest (n : Nat) (x : Bytes) : Modest Γ (fun _ b => b) (XVec.resize Γ cfg t n x) := by
  refine ⟨fun t' es cap t'' es' cap' hl hp h => ?_, fun m t' es' cap' h => ?_⟩
  · simp only [XVec.resize] at h
    split at h
    · rename_i ht
      subst ht
      split at h
      · rename_i hn
        by_cases hw : (n - es.length) * perElem Γ t < 2 ^ 64
        · simp only [if_pos hw] at h
          have hlen : es'.length = es.length + (n - es.length) := by
            unfold XVec.room at h
            split at h
            · cases h
            · split at h
              · cases h; simp
              · cases h; simp
              · cases h
              · cases h
          show _ ∨ Enlarged cap cap' es'.length
          rw [hlen]
          exact room_modest hp hl (fun j hj => times_le hj) (fun c t' es' cap' e => by cases e; rfl) h
        · simp only [if_neg hw] at h
          unfold XVec.room at h
          split at h
          · cases h
          · split at h <;> cases h
      · cases h; exact .inl rfl
    · cases h; exact .inl rfl
  · simp only [XVec.resize] at h
    split at h <;> cases h

theorem look_modest {need : Nat → Nat → Nat} {f : TyId → List Bytes → Out} {g : Nat → Out} : Modest Γ need fun x => x.look Γ f g :=
  .of_same (fun t es cap t' es' cap' h => by cases h; rfl) fun n t' es' cap' h => by cases h

/-- What the machine holds in a variable: number of elements and capacity. -/
def XState.holding (s : XState) (k : Nat) : Option (Nat × Nat) :=
  match s.var k with
  | some (.vec _ es cap) => some (es.length, cap)
  | _ => none

theorem method_modest {j k : Nat} {f : XVec → After} {need : Nat → Nat → Nat} {n' cap' : Nat} (H : s.Holds Γ slots w.heap)
    (hf : Modest Γ need f) (h : (s.method j f).2.holding k = some (n', cap')) :
    ∃ n cap, s.holding k = some (n, cap) ∧ (cap = cap' ∨ Enlarged cap cap' (need n n') ) := by
  unfold XState.method at h
  split at h
  · exact ⟨n', cap', h, .inl rfl⟩
  · rename_i x hx
    by_cases hk : j = k
    · subst hk
      simp only [XState.holding, Slots.put] at h
      split at h
      · rename_i t' es' c' hv
        simp only [if_pos, Option.some.injEq] at hv
        cases h
        cases x with
        | vec t es cap =>
          obtain ⟨h1, h2, h3, -⟩ := holds_vec H hx
          exact ⟨es.length, cap, by simp only [XState.holding, hx], hf.1 _ _ _ _ _ _ h1 h3 hv⟩
        | unit n => exact absurd hv (hf.2 _ _ _ _)
      · cases h
    · refine ⟨n', cap', ?_, .inl rfl⟩
      simpa [XState.holding, Slots.put, hk, Ne.symm hk] using h

theorem create_same {j k n : Nat} {es : List Bytes} (hk : j ≠ k) : (s.create Γ j t es n).2.holding k = s.holding k := by
  unfold XState.create
  split
  · rfl
  · simp [XState.holding, XState.put, Slots.put, Ne.symm hk]

theorem append_modest {i j k n' cap' : Nat} (H : s.Holds Γ slots w.heap) (h : (s.append Γ i j).2.holding k = some (n', cap')) :
    ∃ n cap, s.holding k = some (n, cap) ∧ (cap = cap' ∨ Enlarged cap cap' n') := by
  unfold XState.append at h
  split at h
  · exact ⟨n', cap', h, .inl rfl⟩
  · rename_i hij
    split at h
    · rename_i t es cap t' es' cp hi hj
      split at h
      · rename_i ht
        subst ht
        obtain ⟨h1, h2, h3, -⟩ := holds_vec H hi
        split at h
        · by_cases hkj : k = j
          · subst hkj
            simp only [XState.holding, XState.put, Slots.put, if_pos, Option.some.injEq, Prod.mk.injEq] at h
            exact ⟨es'.length, cp, by simp only [XState.holding, hj], .inl h.2⟩
          · by_cases hki : k = i
            · subst hki
              simp only [XState.holding, XState.put, Slots.put, if_pos, if_neg hkj, Option.some.injEq, Prod.mk.injEq] at h
              exact ⟨es.length, cap, by simp only [XState.holding, hi], .inl h.2⟩
            · simp only [XState.holding, XState.put, Slots.put, if_neg hki, if_neg hkj] at h
              exact ⟨n', cap', h, .inl rfl⟩
        · rename_i c hg
          by_cases hkj : k = j
          · subst hkj
            simp only [XState.holding, XState.put, Slots.put, if_pos, Option.some.injEq, Prod.mk.injEq] at h
            exact ⟨es'.length, cp, by simp only [XState.holding, hj], .inl h.2⟩
          · by_cases hki : k = i
            · subst hki
              simp only [XState.holding, XState.put, Slots.put, if_pos, if_neg hkj, Option.some.injEq, Prod.mk.injEq] at h
              obtain ⟨rfl, rfl⟩ := h
              refine ⟨es.length, cap, by simp only [XState.holding, hi], .inr ?_⟩
              rw [List.length_append]
              exact growth_enlarged h3 h1 (Nat.le_refl _) hg
            · simp only [XState.holding, XState.put, Slots.put, if_neg hki, if_neg hkj] at h
              exact ⟨n', cap', h, .inl rfl⟩
        · by_cases hkj : k = j
          · subst hkj
            simp [XState.holding, XState.put, Slots.put] at h
          · by_cases hki : k = i
            · subst hki
              simp [XState.holding, XState.put, Slots.put, if_neg hkj] at h
            · simp only [XState.holding, XState.put, Slots.put, if_neg hki, if_neg hkj] at h
              exact ⟨n', cap', h, .inl rfl⟩
        · by_cases hkj : k = j
          · subst hkj
            simp only [XState.holding, Slots.put, if_pos, Option.some.injEq, Prod.mk.injEq] at h
            exact ⟨es'.length, cp, by simp only [XState.holding, hj], .inl h.2⟩
          · by_cases hki : k = i
            · subst hki
              simp [XState.holding, Slots.put, if_neg hkj] at h
            · simp only [XState.holding, Slots.put, if_neg hki, if_neg hkj] at h
              exact ⟨n', cap', h, .inl rfl⟩
      · exact ⟨n', cap', h, .inl rfl⟩
    · by_cases hkj : k = j
      · subst hkj
        simp [XState.holding, XState.put, Slots.put] at h
      · by_cases hki : k = i
        · subst hki
          simp [XState.holding, XState.put, Slots.put, if_neg hkj] at h
        · simp only [XState.holding, XState.put, Slots.put, if_neg hki, if_neg hkj] at h
          exact ⟨n', cap', h, .inl rfl⟩
    · exact ⟨n', cap', h, .inl rfl⟩
    · exact ⟨n', cap', h, .inl rfl⟩

theorem put_none_modest {j k n' cap' need : Nat} (h : (s.put j none).holding k = some (n', cap')) :
    ∃ n cap, s.holding k = some (n, cap) ∧ (cap = cap' ∨ Enlarged cap cap' need) := by
  by_cases hk : k = j
  · subst hk; simp [XState.holding, XState.put, Slots.put] at h
  · simp only [XState.holding, XState.put, Slots.put, if_neg hk] at h
    exact ⟨n', cap', h, .inl rfl⟩

/-- What an operation that does not create the container does to its capacity. -/
theorem step_modest {op : Op} {k n' cap' : Nat} (H : s.Holds Γ slots w.heap) (hc : ¬ op.Creates k)
    (h : (op.step Γ cfg s).2.holding k = some (n', cap')) :
    ∃ n cap, s.holding k = some (n, cap) ∧ (cap = cap' ∨ Enlarged cap cap' (op.needs n n')) := by
  cases op with
  | withType j t => simp only [Op.step] at h; rw [create_same hc] at h; exact ⟨n', cap', h, .inl rfl⟩
  | withCapacity j t n => simp only [Op.step] at h; rw [create_same hc] at h; exact ⟨n', cap', h, .inl rfl⟩
  | fromSlice j t xs => simp only [Op.step] at h; rw [create_same hc] at h; exact ⟨n', cap', h, .inl rfl⟩
  | drop j =>
    simp only [Op.step] at h
    split at h
    · exact ⟨n', cap', h, .inl rfl⟩
    · exact put_none_modest h
  | clone i j =>
    have hc : ¬ j = k := hc
    simp only [Op.step] at h
    split at h
    · exact ⟨n', cap', h, .inl rfl⟩
    · simp only [XState.holding, XState.put, Slots.put, if_neg (Ne.symm hc)] at h
      exact ⟨n', cap', h, .inl rfl⟩
    · exact ⟨n', cap', h, .inl rfl⟩
  | append i j => exact append_modest H h
  | roundTrip j t =>
    simp only [Op.step] at h
    split at h
    · exact ⟨n', cap', h, .inl rfl⟩
    · split at h
      · exact ⟨n', cap', h, .inl rfl⟩
      · exact put_none_modest h
    · exact put_none_modest h
  | pushAs j t x => exact method_modest (need := fun _ b => b) H (pushAs_modest x) h
  | push j t x => exact method_modest (need := fun _ b => b) H (push_modest x) h
  | resize j t n x => exact method_modest (need := fun _ b => b) H (resize_modest n x) h
  | reserve j n => exact method_modest (need := fun a _ => a + n) H (reserve_modest n) h
  | clear j => exact method_modest (need := fun _ b => b) H (.of_same (fun _ _ _ _ _ _ e => by cases e; rfl) fun _ _ _ _ e => by cases e) h
  | fill j t x =>
    refine method_modest (need := fun _ b => b) H (.of_same (fun _ _ _ _ _ _ e => ?_) fun _ _ _ _ e => by cases e) h
    simp only [XVec.fill] at e
    split at e <;> cases e <;> rfl
  | copyFromSlice j t xs =>
    refine method_modest (need := fun _ b => b) H (.of_same (fun _ _ _ _ _ _ e => ?_) fun _ _ _ _ e => by cases e) h
    simp only [XVec.copyFromSlice] at e
    split at e
    · split at e <;> cases e <;> rfl
    · cases e; rfl
  | rotateLeft j n =>
    refine method_modest (need := fun _ b => b) H (.of_same (fun _ _ _ _ _ _ e => ?_) fun _ _ _ _ e => by cases e) h
    simp only [XVec.rotateLeft] at e
    split at e
    · cases e; rfl
    · split at e
      · cases e
      · split at e <;> cases e
        rfl
  | rotateRight j n =>
    refine method_modest (need := fun _ b => b) H (.of_same (fun _ _ _ _ _ _ e => ?_) fun _ _ _ _ e => by cases e) h
    simp only [XVec.rotateRight] at e
    split at e
    · cases e; rfl
    · split at e
      · cases e
      · split at e <;> cases e
        rfl
  | swap j i i' =>
    refine method_modest (need := fun _ b => b) H (.of_same (fun _ _ _ _ _ _ e => ?_) fun _ _ _ _ e => by cases e) h
    simp only [XVec.swap] at e
    split at e
    · cases e; rfl
    · split at e
      · split at e <;> cases e <;> rfl
      · split at e <;> cases e <;> rfl
  | setAs j t i x =>
    refine method_modest (need := fun _ b => b) H (.of_same (fun _ _ _ _ _ _ e => ?_) fun _ _ _ _ e => by cases e) h
    simp only [XVec.setAs] at e
    split at e
    · split at e <;> cases e <;> rfl
    · cases e; rfl
  | setValue j i t x =>
    refine method_modest (need := fun _ b => b) H (.of_same (fun _ _ _ _ _ _ e => ?_) fun _ _ _ _ e => by cases e) h
    simp only [XVec.setValue] at e
    split at e
    · split at e
      · split at e <;> cases e <;> rfl
      · cases e; rfl
    · split at e
      · split at e <;> cases e <;> rfl
      · cases e; rfl
  | mapAll j f => exact method_modest (need := fun _ b => b) H (.of_same (fun _ _ _ _ _ _ e => by cases e; rfl) fun _ _ _ _ e => by cases e) h
  | len j => exact method_modest (need := fun _ b => b) H look_modest h
  | typeId j => exact method_modest (need := fun _ b => b) H look_modest h
  | getAs j t i => exact method_modest (need := fun _ b => b) H look_modest h
  | get j i => exact method_modest (need := fun _ b => b) H look_modest h
  | asSlice j t => exact method_modest (need := fun _ b => b) H look_modest h
  | iter j => exact method_modest (need := fun _ b => b) H look_modest h

/-- The variable of the program and that of the machine hold the same number of elements with the same capacity. -/
theorem holds_holding (H : s.Holds Γ slots w.heap) (k : Nat) : heldBy slots k = s.holding k := by
  unfold heldBy XState.holding
  cases hs : slots k with
  | none => rw [(H.none_iff k).1 hs]; rfl
  | some c =>
    cases hv : s.var k with
    | none => rw [(H.none_iff k).2 hv] at hs; cases hs
    | some x =>
      have I := H.is k c x hs hv
      cases x with
      | vec t es cap =>
        obtain ⟨R, rfl⟩ := I
        have hp : c.data.elem.size ≠ 0 := by
          intro h0
          have := R.chunks
          have := R.pos
          rw [h0] at *
          omega
        simp only [Option.bind_some, if_neg hp, R.len]
      | unit n =>
        have I : IsUnits Γ n c.data := I
        simp only [Option.bind_some]
        rw [if_pos I.good.size]

/-! ### Programs -/

/-- What one call does to the number of elements and the capacity of a container that it does not create: nothing but
the number of elements changes, or the capacity is at least doubled because more elements are needed than it allows, to at most
twice what is needed, or to eight. -/
theorem C95_step {op : Op} {k n' cap' : Nat} {slots' : Slots V} {w' : World U} {r : Res Obs} (H : s.Holds Γ slots w.heap) (ht : op.Typed Γ)
    (hc : ¬ op.Creates k) (he : op.exec Γ cfg vt (slots, w) = (r, (slots', w'))) (hr : r ≠ .ub) (hk : heldBy slots' k = some (n', cap')) :
    ∃ n cap, heldBy slots k = some (n, cap) ∧ n ≤ cap ∧ n' ≤ cap' ∧ (cap' = cap ∨ 2 * cap ≤ cap' ∧ cap < op.needs n n' ∧ cap' ≤ max (2 * op.needs n n') 8) := by
  have hs := C70_step (cfg := cfg) (vt := vt) H ht
  have key : ∀ s' : XState, (op.step Γ cfg s).2 = s' → s'.Holds Γ slots' w'.heap →
      ∃ n cap, heldBy slots k = some (n, cap) ∧ n ≤ cap ∧ n' ≤ cap' ∧ (cap' = cap ∨ 2 * cap ≤ cap' ∧ cap < op.needs n n' ∧ cap' ≤ max (2 * op.needs n n') 8) := by
    intro s' e H'
    have hk' := hk
    rw [holds_holding H', ← e] at hk
    obtain ⟨n, cap, h1, h2⟩ := step_modest H hc hk
    refine ⟨n, cap, by rw [holds_holding H]; exact h1, ?_, ?_, ?_⟩
    · unfold XState.holding at h1
      split at h1
      · rename_i hv; cases h1; exact (holds_vec H hv).1
      · cases h1
    · rw [holds_holding H'] at hk'
      unfold XState.holding at hk'
      split at hk'
      · rename_i hv; cases hk'; exact (holds_vec H' hv).1
      · cases hk'
    · exact h2.imp Eq.symm id
  rcases hst : op.step Γ cfg s with ⟨o, s'⟩
  rw [hst] at hs
  cases o with
  | ub => rw [he] at hs; exact absurd hs hr
  | panic =>
    obtain ⟨y, slots1, h1, e1, H1⟩ := hs
    rw [he] at e1
    cases e1
    exact key s' (by rw [hst]) H1
  | ok o =>
    obtain ⟨slots1, h1, e1, H1⟩ := hs
    rw [he] at e1
    cases e1
    exact key s' (by rw [hst]) H1

/-- How the list of growths goes on after a call. -/
theorem growths_cons {op : Op} {ops : List Op} {k : Nat} (H : s.Holds Γ slots w.heap) (ht : op.Typed Γ) :
    growths Γ cfg vt k (op :: ops) (slots, w) = [] ∨ ∃ (r : Res Obs) (slots' : Slots V) (w' : World U) (s' : XState), op.exec Γ cfg vt (slots, w) = (r, (slots', w')) ∧ r ≠ .ub ∧
      s'.Holds Γ slots' w'.heap ∧ growths Γ cfg vt k (op :: ops) (slots, w) =
        (match heldBy slots k, heldBy slots' k with
          | some (n, cap), some (n', cap') => if cap = cap' then [] else [(n, op.needs n n')]
          | _, _ => []) ++ growths Γ cfg vt k ops (slots', w') := by
  have hs := C70_step (cfg := cfg) (vt := vt) H ht
  rcases hst : op.step Γ cfg s with ⟨o, s'⟩
  rw [hst] at hs
  cases o with
  | ub =>
    left
    simp only [growths]
    have hs : (op.exec Γ cfg vt (slots, w)).1 = .ub := hs
    rw [hs]
  | panic =>
    obtain ⟨y, slots1, h1, e1, H1⟩ := hs
    exact .inr ⟨_, _, _, s', e1, (by intro h; cases h), H1, by simp only [growths, e1]⟩
  | ok o =>
    obtain ⟨slots1, h1, e1, H1⟩ := hs
    exact .inr ⟨_, _, _, s', e1, (by intro h; cases h), H1, by simp only [growths, e1]⟩

/-- A variable that holds no container with content gets one only by an operation that creates it. -/
theorem growths_none {k : Nat} : ∀ (ops : List Op) {s : XState} {slots : Slots V} {w : World U}, s.Holds Γ slots w.heap →
    (∀ o ∈ ops, o.Typed Γ) → (∀ o ∈ ops, ¬ o.Creates k) → heldBy slots k = none → growths Γ cfg vt k ops (slots, w) = []
  | [], _, _, _, _, _, _, _ => rfl
  | op :: ops, s, slots, w, H, ht, hc, hk => by
    rcases growths_cons (cfg := cfg) (vt := vt) (k := k) (ops := ops) H (ht op List.mem_cons_self) with h | ⟨r, slots', w', s', he, hr, H', h⟩
    · exact h
    · rw [h, hk]
      have hn : heldBy slots' k = none := by
        cases h' : heldBy slots' k with
        | none => rfl
        | some p =>
          obtain ⟨n, cap, h1, -⟩ := C95_step (n' := p.1) (cap' := p.2) H (ht op List.mem_cons_self) (hc op List.mem_cons_self) he hr h'
          rw [hk] at h1; cases h1
      exact growths_none ops H' (fun o h => ht o (List.mem_cons_of_mem _ h)) (fun o h => hc o (List.mem_cons_of_mem _ h)) hn

/-- A program with caught panics that does not assign a new container to variable `k`, which holds one with capacity
`cap`: if `g` lists the calls that changed its capacity, and `need` is the number of elements that the last of them had
to make room for, then `cap` was doubled by all but the last of them and was still not enough; and the elements that
the container had at these calls — those that were moved to a larger buffer — are fewer than `2 * need`. -/
theorem C95_amortised {k n cap : Nat} {op : List Op} {m need : Nat} (H : s.Holds Γ slots w.heap) (ht : ∀ o ∈ op, o.Typed Γ)
    (hc : ∀ o ∈ op, ¬ o.Creates k) (hk : heldBy slots k = some (n, cap))
    (hg : (growths Γ cfg vt k op (slots, w)).getLast? = some (m, need)) :
    2 ^ ((growths Γ cfg vt k op (slots, w)).length - 1) * cap < need ∧
    ((growths Γ cfg vt k op (slots, w)).map Prod.fst).sum + cap < 2 * need := by
  induction op generalizing s slots w n cap with
  | nil => cases hg
  | cons o ops ih =>
    have ht' : ∀ o ∈ ops, o.Typed Γ := fun o h => ht o (List.mem_cons_of_mem _ h)
    have hc' : ∀ o ∈ ops, ¬ o.Creates k := fun o h => hc o (List.mem_cons_of_mem _ h)
    rcases growths_cons (cfg := cfg) (vt := vt) (k := k) (ops := ops) H (ht o List.mem_cons_self) with h | ⟨r, slots', w', s', he, hr, H', h⟩
    · rw [h] at hg; cases hg
    · rw [h] at hg ⊢
      cases h' : heldBy slots' k with
      | none =>
        rw [h', hk, growths_none ops H' ht' hc' h'] at hg
        cases hg
      | some p =>
        obtain ⟨n1, cap1, e1, hn, hn', hcap⟩ :=
          C95_step (n' := p.1) (cap' := p.2) H (ht o List.mem_cons_self) (hc o List.mem_cons_self) he hr h'
        rw [hk] at e1
        cases e1
        rw [h', hk] at hg
        simp only [hk]
        dsimp only at hg
        by_cases hcc : cap = p.2
        · rw [if_pos hcc, List.nil_append] at hg ⊢
          rw [hcc]
          exact ih H' ht' hc' h' hg
        · rw [if_neg hcc] at hg ⊢
          obtain ⟨h2, hlt, -⟩ := hcap.resolve_left (fun e => hcc e.symm)
          rcases hgs : growths Γ cfg vt k ops (slots', w') with _ | ⟨a, l⟩
          · rw [hgs] at hg
            simp only [List.append_nil, List.getLast?_singleton, Option.some.injEq, Prod.mk.injEq] at hg
            obtain ⟨rfl, rfl⟩ := hg
            simp only [List.append_nil, List.length_singleton, List.map_cons, List.map_nil, List.sum_cons, List.sum_nil]
            omega
          · have hl : (growths Γ cfg vt k ops (slots', w')).getLast? = some (m, need) := by
              rw [hgs] at hg ⊢
              simpa using hg
            obtain ⟨i1, i2⟩ := ih H' ht' hc' h' hl
            rw [hgs] at i1 i2
            simp only [List.cons_append, List.nil_append, List.length_cons, List.map_cons, List.sum_cons, Nat.add_sub_cancel] at i1 i2 ⊢
            refine ⟨?_, by omega⟩
            calc 2 ^ (l.length + 1) * cap = 2 ^ l.length * (2 * cap) := by rw [Nat.pow_succ, Nat.mul_assoc]
              _ ≤ 2 ^ l.length * p.2 := Nat.mul_le_mul_left _ h2
              _ < need := i1

/-! ### Examples -/

namespace Ex

/-- Two pushes onto three elements with capacity 4, all elements removed, room for 9 reserved, a refused push. -/
def pushes : List Op := [.pushAs 7 2 a1, .pushAs 7 2 a2, .clear 7, .reserve 7 9, .pushAs 7 4 (a1 ++ a2), .rotateLeft 7 1]

/-- The second push doubles the capacity (4 elements are moved, 5 are needed), and the reservation does (none, 9). -/
theorem pushes_growths : growths env ⟨true⟩ () 7 pushes (slots123, world 2 4) = [(4, 5), (0, 9)] := by decide +kernel

theorem pushes_typed : ∀ op ∈ pushes, op.Typed env := by
  simp only [pushes, List.forall_mem_cons]
  exact ⟨⟨typed 2 (by decide), by decide⟩, ⟨typed 2 (by decide), by decide⟩, trivial, trivial, ⟨typed 4 (by decide), by decide⟩, trivial, (fun _ h => by cases h)⟩

example : 2 ^ 1 * 4 < 9 ∧ 4 + 0 + 4 < 2 * 9 :=
  C95_amortised (cfg := ⟨true⟩) (vt := ()) (w := world 2 4) (m := 0) (need := 9) (op := pushes) m123_holds pushes_typed
    (by simp only [pushes, List.forall_mem_cons]; exact ⟨id, id, id, id, id, id, (fun _ h => by cases h)⟩)
    (k := 7) (n := 3) (cap := 4) rfl (by decide +kernel)

end Ex

end Dync
