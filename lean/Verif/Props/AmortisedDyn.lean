import Verif.Props.Amortised
import Verif.Props.DynMachine
/-!
# C95 Growing a container is amortised: `VecDyn`

The same as `Verif/Props/Amortised.lean` for programs over `VecDyn` containers and values, with arbitrary user code:
`Clone` and `Drop` may panic at any call.
-/
namespace Dync
variable {U V α β σ : Type} {Γ : TyEnv U} {t : TyId} {cfg : Cfg}

/-! ### Specification -/

/-- The operation assigns something new to variable `k`. -/
def DOp.Creates (k : Nat) : DOp → Prop
  | .withType j _ | .withCapacity j _ _ | .fromVec j _ _ | .fromSlice j _ _ | .withSize j _ _ _ | .newBox j _ _ | .newSmall j _ _
  | .clone _ j | .cloneValue _ _ j | .cloneSmall _ _ j => j = k
  | _ => False

/-- How many elements the container in a variable has to have room for in a call, if it has `after` elements after it. -/
def DOp.needs (after : Nat) : DOp → Nat
  | .resize _ _ n _ => n
  | _ => after

/-- The number of elements and the capacity of the container in variable `k` (nothing, if there is none, or if all that
is left of its content are values `()`). -/
def dynHolding (slots : DSlots V) (k : Nat) : Option (Nat × Nat) :=
  match slots k with
  | some (.vec c) => if c.data.elem.size = 0 then none else some (c.data.len, c.data.cap)
  | _ => none

/-- The calls of a program that change the capacity of the container in variable `k`: for each of them, the number of
elements before it and the number that was needed. -/
def dynGrowths [HasDrop U V] [HasClone U V] (Γ : TyEnv U) (cfg : Cfg) (vt : TyId → V) (k : Nat) :
    List DOp → DSlots V × World U → List (Nat × Nat)
  | [], _ => []
  | op :: ops, s =>
    let next := op.exec Γ cfg vt s
    match next.1 with
    | .ub | .abort => []
    | _ =>
      (match dynHolding s.1 k, dynHolding next.2.1 k with
        | some (n, cap), some (n', cap') => if cap = cap' then [] else [(n, op.needs n')]
        | _, _ => []) ++ dynGrowths Γ cfg vt k ops next.2

/-- Number of elements and capacity in a variable of the machine. -/
def YVars.holding (vars : YVars) (k : Nat) : Option (Nat × Nat) :=
  match vars k with
  | some (.vec _ (.vec _ es cap)) => some (es.length, cap)
  | _ => none

namespace Cap

/-! ### Computations that do not change a capacity -/

/-- A computation changes the first part of the state only as `R` allows. -/
def MovesBy (R : σ → σ → Prop) (m : M (σ × Outside U) α) : Prop := ∀ s, R s.1 (m s).2.1

/-- A reflexive and transitive relation. -/
structure Preorder' (R : σ → σ → Prop) : Prop where
  refl : ∀ a, R a a
  trans : ∀ a b c, R a b → R b c → R a c

namespace MovesBy
variable {R : σ → σ → Prop} {m : M (σ × Outside U) α} {f : α → M (σ × Outside U) β}

theorem of_state (P : Preorder' R) (h : ∀ s, (m s).2.1 = s.1) : MovesBy R m := fun s => by rw [h s]; exact P.refl _
theorem pure (P : Preorder' R) (a : α) : MovesBy R (Pure.pure a : M (σ × Outside U) α) := of_state P fun _ => rfl
theorem get (P : Preorder' R) : MovesBy R (M.get : M (σ × Outside U) _) := of_state P fun _ => rfl
theorem panic (P : Preorder' R) (y : Why) : MovesBy R (M.panic y : M (σ × Outside U) α) := of_state P fun _ => rfl
theorem ub (P : Preorder' R) : MovesBy R (M.ub : M (σ × Outside U) α) := of_state P fun _ => rfl
theorem aside (P : Preorder' R) (n : M (Outside U) α) : MovesBy R (aside n : M (σ × Outside U) α) := of_state P fun _ => rfl
theorem bind (P : Preorder' R) (h : MovesBy R m) (hf : ∀ a, MovesBy R (f a)) : MovesBy R (m >>= f) := by
  intro s
  have h0 := h s
  rcases hm : m s with ⟨r, s'⟩
  rw [hm] at h0
  cases r with
  | ok a => rw [M.bind_ok hm]; exact P.trans _ _ _ h0 (hf a s')
  | panic y => rw [M.bind_panic hm]; exact h0
  | ub => rw [M.bind_ub hm]; exact h0
  | abort => rw [M.bind_abort hm]; exact h0
theorem forEach (P : Preorder' R) {g : β → M (σ × Outside U) Unit} (h : ∀ x, MovesBy R (g x)) : ∀ xs : List β, MovesBy R (M.forEach xs g)
  | [] => pure P ()
  | x :: xs => bind P (h x) fun _ => forEach P h xs
theorem thenDrop (P : Preorder' R) {d : M (σ × Outside U) Unit} (h : MovesBy R m) (hd : MovesBy R d) : MovesBy R (M.thenDrop m d) := by
  intro s
  have h0 := h s
  rcases hm : m s with ⟨r, s'⟩
  rw [hm] at h0
  have h1 := P.trans _ _ _ h0 (hd s')
  rcases hdd : d s' with ⟨r', s''⟩
  rw [hdd] at h1
  cases r <;> cases r' <;> simp only [M.thenDrop, hm, hdd] <;> first | exact h1 | exact h0
end MovesBy

/-- The capacity of a container stays what it was. -/
def SameCap (x y : XVec) : Prop := ∀ t es cap, y = .vec t es cap → ∃ es', x = .vec t es' cap

theorem sameCap : Preorder' SameCap :=
  ⟨fun _ t es cap h => ⟨es, h⟩, fun a b c h1 h2 t es cap h => by obtain ⟨es', h3⟩ := h2 _ _ _ h; exact h1 _ _ _ h3⟩

/-- The capacity of the container in variable `k` stays what it was. -/
def SameCapAt (k : Nat) (a b : YVars) : Prop := ∀ n cap, b.holding k = some (n, cap) → ∃ n', a.holding k = some (n', cap)

theorem sameCapAt (k : Nat) : Preorder' (SameCapAt k) :=
  ⟨fun _ n cap h => ⟨n, h⟩, fun a b c h1 h2 n cap h => by obtain ⟨es', h3⟩ := h2 _ _ h; exact h1 _ _ h3⟩

theorem holding_put {vars : YVars} {j k : Nat} (b : Option YItem) (h : j ≠ k) : YVars.holding (Slots.put vars j b) k = vars.holding k := by
  simp only [YVars.holding, Slots.put, if_neg (Ne.symm h)]

theorem moveOut_same {j k : Nat} : MovesBy (SameCapAt k) (YOp.moveOut j : M (YVars × Outside U) Unit) := by
  intro s n cap h
  by_cases hk : j = k
  · subst hk
    simp [YOp.moveOut, M.modify, YVars.holding, Slots.put] at h
  · exact ⟨n, by rw [← h]; exact (holding_put none hk).symm⟩

theorem assign_same {j k : Nat} (a : YItem) (hk : j ≠ k) : MovesBy (SameCapAt k) (YOp.assign Γ j a) := by
  intro s n cap h
  refine ⟨n, ?_⟩
  rw [← h]
  simp only [YOp.assign]
  split <;> exact (holding_put _ hk).symm

theorem create_same' {j k : Nat} (m : M (Outside U) YItem) (hk : j ≠ k) : MovesBy (SameCapAt k) (YOp.create Γ j m) :=
  .bind (sameCapAt k) (.aside (sameCapAt k) m) fun a => assign_same a hk

theorem read_same {i j k : Nat} : MovesBy (SameCapAt k) (YOp.read Γ cfg j i) := by
  refine .of_state (sameCapAt k) fun s => ?_
  simp only [YOp.read]
  split
  · rfl
  · split <;> rfl

theorem write_same {i j k : Nat} (b : Bytes) : MovesBy (SameCapAt k) (YOp.write Γ cfg j i b) := by
  intro s n cap h
  by_cases hk : j = k
  · subst hk
    simp only [YOp.write, M.modify, YVars.holding, Slots.put, if_pos] at h
    cases hv : s.1 j with
    | none => rw [hv] at h; cases h
    | some a =>
      rw [hv] at h
      cases a with
      | vec d x =>
        cases x with
        | vec t es c =>
          refine ⟨es.length, ?_⟩
          simp only [Option.map_some, YItem.store] at h
          simp only [YVars.holding, hv]
          split at h
          · rename_i e
            split at e <;> · cases e; cases h; rfl
          · cases h
        | unit m => cases h
      | box t x => cases h
      | small t x => cases h
  · exact ⟨n, by rw [← h]; exact (holding_put _ hk).symm⟩

theorem onVec_same {j k : Nat} {m : M (XVec × Outside U) Obs} (hm : MovesBy SameCap m) : MovesBy (SameCapAt k) (YOp.onVec j m) := by
  intro s n cap h
  simp only [YOp.onVec] at h
  split at h
  · rename_i b x hv
    by_cases hk : j = k
    · subst hk
      simp only [YVars.holding, Slots.put, if_pos] at h
      split at h
      · rename_i e
        cases h
        simp only [Option.some.injEq, YItem.vec.injEq] at e
        obtain ⟨es', h1⟩ := hm (x, s.2) _ _ _ e.2
        have h1 : x = _ := h1
        exact ⟨es'.length, by simp only [YVars.holding, hv, h1]⟩
      · cases h
    · exact ⟨n, by rw [← h]; exact (holding_put _ hk).symm⟩
  · exact ⟨n, h⟩

theorem onVec_other {j k : Nat} {m : M (XVec × Outside U) Obs} (hk : j ≠ k) : MovesBy (SameCapAt k) (YOp.onVec j m) := by
  intro s n cap h
  simp only [YOp.onVec] at h
  split at h
  · exact ⟨n, by rw [← h]; exact (holding_put _ hk).symm⟩
  · exact ⟨n, h⟩

theorem plain_same {f : XVec → After} (h : ∀ t es cap t' es' cap', (f (.vec t es cap)).now = .vec t' es' cap' → t = t' ∧ cap = cap')
    (hu : ∀ n t' es' cap', (f (.unit n)).now ≠ .vec t' es' cap') : MovesBy SameCap (XVec.plain f : M (XVec × Outside U) Obs) := by
  intro s t' es' cap' e
  have e : (f s.1).now = _ := e
  rcases hs : s.1 with ⟨t, es, cap⟩ | n
  · rw [hs] at e
    obtain ⟨rfl, rfl⟩ := h _ _ _ _ _ _ e
    exact ⟨es, rfl⟩
  · rw [hs] at e; exact absurd e (hu _ _ _ _)

theorem look_same {j k : Nat} {f : TyId → List Bytes → Out} {g : Nat → Out} : MovesBy (SameCapAt k) (YOp.look Γ j f g : M (YVars × Outside U) Obs) :=
  onVec_same (plain_same (fun t es cap t' es' cap' h => by cases h; exact ⟨rfl, rfl⟩) fun n t' es' cap' h => by cases h)

/-! ### Methods -/

theorem refuse_same (x : Bytes) : MovesBy SameCap (refuse Γ t x) := .bind sameCap (.aside sameCap _) fun _ => .pure sameCap _

theorem lose_same : MovesBy SameCap (lose : M (XVec × Outside U) α) := by
  intro s t es cap h
  cases h

theorem losing_same (m : M (Outside U) α) : MovesBy SameCap (losing m) := by
  intro s t es cap h
  simp only [losing] at h
  split at h
  · cases h
  · exact ⟨es, h⟩

theorem eqPre : Preorder' (Eq : σ → σ → Prop) := ⟨fun _ => rfl, fun _ _ _ => Eq.trans⟩

/-- First something that leaves the first part of the state alone, then more. -/
theorem MovesBy.after {R : σ → σ → Prop} {m : M (σ × Outside U) α} {f : α → M (σ × Outside U) β} (P : Preorder' R) (h : MovesBy Eq m)
    {s : σ × Outside U} (hf : ∀ a o, R s.1 (f a (s.1, o)).2.1) : R s.1 ((m >>= f) s).2.1 := by
  have h0 := h s
  rcases hm : m s with ⟨r, s', o⟩
  rw [hm] at h0
  have h0 : s.1 = s' := h0
  subst h0
  cases r with
  | ok a => rw [M.bind_ok hm]; exact hf a o
  | panic y => rw [M.bind_panic hm]; exact P.refl _
  | ub => rw [M.bind_ub hm]; exact P.refl _
  | abort => rw [M.bind_abort hm]; exact P.refl _

theorem MovesBy.get_bind {R : σ → σ → Prop} {f : σ × Outside U → M (σ × Outside U) β} (h : ∀ s, R s.1 (f s s).2.1) : MovesBy R (M.get >>= f) := by
  intro s
  simp only [M.bind_run, M.get_run]
  exact h s

theorem ends_with {m : M (XVec × Outside U) Unit} {x : XVec} {s : XVec × Outside U} {a : α} (h : SameCap x (m s).2.1) :
    SameCap x ((m >>= fun _ => pure a) s).2.1 := by
  rcases hms : m s with ⟨r, s'⟩
  rw [hms] at h
  cases r with
  | ok a => rw [M.bind_ok hms]; exact h
  | panic y => rw [M.bind_panic hms]; exact h
  | ub => rw [M.bind_ub hms]; exact h
  | abort => rw [M.bind_abort hms]; exact h

theorem fill_same (x : Bytes) : MovesBy SameCap (XVec.dynFill Γ t x) := by
  refine .thenDrop sameCap (.get_bind fun s => ?_) (.aside sameCap _)
  rcases s with ⟨⟨t', es, cap⟩ | n, o⟩
  · dsimp only
    split
    · rename_i ht
      subst ht
      exact ends_with fun _ _ _ h => by cases h; exact ⟨es, rfl⟩
    · exact MovesBy.pure sameCap _ _
  · dsimp only
    split
    · exact ends_with fun _ _ _ h => by cases h
    · exact MovesBy.pure sameCap _ _

theorem clear_same : MovesBy SameCap (XVec.dynClear Γ) := by
  refine .get_bind fun s => ?_
  rcases s with ⟨⟨t', es, cap⟩ | n, o⟩
  · refine MovesBy.after (s := (.vec t' es cap, o)) sameCap (.forEach eqPre (fun _ => .aside eqPre _) _) fun _ o' => ?_
    intro t es' cap' h
    cases h; exact ⟨es, rfl⟩
  · exact MovesBy.panic sameCap _ _

theorem setAs_same (i : Nat) (x : Bytes) : MovesBy SameCap (XVec.dynSetAs Γ t i x) := by
  refine .get_bind fun s => ?_
  rcases s with ⟨⟨t', es, cap⟩ | n, o⟩
  · dsimp only
    split
    · split
      · rename_i ht
        subst ht
        have : ∀ (m : M (XVec × Outside U) Obs), MovesBy SameCap m →
            SameCap (.vec t es cap) ((M.modify (fun s => (XVec.vec t (es.set i x) cap, s.2)) >>= fun _ => m) (.vec t es cap, o)).2.1 := by
          intro m hm
          refine sameCap.trans _ (.vec t (es.set i x) cap) _ (fun _ _ _ h => by cases h; exact ⟨es, rfl⟩) ?_
          exact hm (.vec t (es.set i x) cap, o)
        exact this _ (.bind sameCap (.aside sameCap _) fun _ => .pure sameCap _)
      · exact refuse_same x _
    · exact MovesBy.panic sameCap _ _
  · dsimp only
    split
    · split
      · exact (MovesBy.bind sameCap (.aside sameCap _) fun _ => .pure sameCap _) _
      · exact refuse_same x _
    · exact MovesBy.panic sameCap _ _

theorem cloneInto_same : MovesBy SameCap (XVec.dynCloneIntoVec Γ t) := by
  refine .bind sameCap (.get sameCap) fun s => ?_
  split
  · split
    · exact .bind sameCap (.aside sameCap _) fun _ => .bind sameCap (.aside sameCap _) fun _ => .pure sameCap _
    · exact .pure sameCap _
  · split
    · exact .bind sameCap (.aside sameCap _) fun _ => .bind sameCap (.aside sameCap _) fun _ => .pure sameCap _
    · exact .pure sameCap _

/-- The capacity changes only if it has to. -/
def Grown (Γ : TyEnv U) (need : Nat → Nat) (x y : XVec) : Prop :=
  ∀ t' es' cap', y = .vec t' es' cap' → ∃ t es cap, x = .vec t es cap ∧
    (es.length ≤ cap → 0 < perElem Γ t → cap = cap' ∨ Enlarged cap cap' (need es'.length))

/-- A method changes a capacity only if it has to. -/
def GrowsBy (Γ : TyEnv U) (need : Nat → Nat) (m : M (XVec × Outside U) α) : Prop := MovesBy (Grown Γ need) m

theorem SameCap.grown {need : Nat → Nat} {x y : XVec} (h : SameCap x y) : Grown Γ need x y := by
  intro t es' cap' e
  obtain ⟨es, h1⟩ := h _ _ _ e
  exact ⟨t, es, cap', h1, fun _ _ => .inl rfl⟩

theorem MovesBy.grows {need : Nat → Nat} {m : M (XVec × Outside U) α} (h : MovesBy SameCap m) : GrowsBy Γ need m :=
  fun s => (h s).grown

theorem dynPushAs_grows (x : Bytes) : GrowsBy Γ (fun b => b) (XVec.dynPushAs Γ t x) := by
  refine .get_bind fun s => ?_
  rcases s with ⟨⟨t', es, cap⟩ | n, o⟩
  · dsimp only
    split
    · rename_i ht
      subst ht
      split
      · intro t' es' cap' h
        cases h
        exact ⟨_, es, cap, rfl, fun _ _ => .inl rfl⟩
      · rename_i c hg
        intro t' es' cap' h
        cases h
        refine ⟨_, es, cap, rfl, fun hl _ => .inr ?_⟩
        have := growth_enlarged (n := 1) Nat.one_pos hl (by omega) hg
        simpa using this
      · exact MovesBy.grows (need := fun b => b) (.bind sameCap (.aside sameCap _) fun _ => .bind sameCap (.aside sameCap _) fun _ => lose_same) _
    · exact (refuse_same x).grows (need := fun b => b) _
  · dsimp only
    split
    · split
      · exact MovesBy.grows (need := fun b => b) (.bind sameCap (.aside sameCap _) fun _ => .bind sameCap (.aside sameCap _) fun _ => lose_same) _
      · intro t' es' cap' h
        cases h
    · exact (refuse_same x).grows (need := fun b => b) _

theorem plain_grows {f : XVec → After} {need : Nat → Nat → Nat} {need' : Nat → Nat} (h : Modest Γ need f)
    (hn : ∀ t es cap t' es' cap', (f (.vec t es cap)).now = .vec t' es' cap' → t = t' ∧ need es.length es'.length = need' es'.length) :
    GrowsBy Γ need' (XVec.plain f : M (XVec × Outside U) Obs) := by
  intro s t' es' cap' e
  have e : (f s.1).now = _ := e
  rcases hs : s.1 with ⟨t, es, cap⟩ | n
  · rw [hs] at e
    obtain ⟨rfl, h2⟩ := hn _ _ _ _ _ _ e
    exact ⟨_, es, cap, rfl, fun h3 h4 => by rw [← h2]; exact h.1 _ _ _ _ _ _ h3 h4 e⟩
  · rw [hs] at e; exact absurd e (h.2 _ _ _ _)

theorem push_type (x : Bytes) {es es' : List Bytes} {t' t'' : TyId} {cap cap' : Nat} (h : (XVec.push Γ t x (.vec t' es cap)).now = .vec t'' es' cap') :
    t' = t'' := by
  simp only [XVec.push] at h
  split at h
  · cases h; rfl
  · split at h
    · cases h; rfl
    · rename_i ht
      have ht := Decidable.not_not.1 ht
      subst ht
      split at h
      · cases h
      · cases h
      · split at h <;> cases h
        rfl
      · split at h <;> cases h
        rfl

theorem dynPush_grows (x : Bytes) : GrowsBy Γ (fun b => b) (XVec.dynPush Γ t x) := by
  refine .get_bind fun s => ?_
  rcases s with ⟨⟨t', es, cap⟩ | n, o⟩
  · dsimp only
    split
    · split
      · exact plain_grows (need' := fun b => b) (push_modest x) (fun _ _ _ _ _ _ h => ⟨push_type x h, rfl⟩) _
      · exact (MovesBy.ub sameCap).grows (need := fun b => b) _
    · exact MovesBy.grows (need := fun b => b) (.bind sameCap (.aside sameCap _) fun _ => .pure sameCap _) _
  · dsimp only
    split
    · exact (MovesBy.ub sameCap).grows (need := fun b => b) _
    · exact MovesBy.grows (need := fun b => b) (.bind sameCap (.aside sameCap _) fun _ => .pure sameCap _) _

/-- First something that may lose the content, then the container gets a content. -/
theorem losing_then {m : M (Outside U) Bytes} {need : Nat → Nat} {s : XVec × Outside U} {f : Bytes → XVec} {a : Obs}
    (h : ∀ c t es' cap', f c = .vec t es' cap' → ∃ t es cap, s.1 = .vec t es cap ∧
      (es.length ≤ cap → 0 < perElem Γ t → cap = cap' ∨ Enlarged cap cap' (need es'.length))) :
    ∀ t es' cap', ((losing m >>= fun c => M.modify (fun s => (f c, s.2)) >>= fun _ => pure a) s).2.1 = .vec t es' cap' → ∃ t es cap,
      s.1 = .vec t es cap ∧ (es.length ≤ cap → 0 < perElem Γ t → cap = cap' ∨ Enlarged cap cap' (need es'.length)) := by
  intro t es' cap' e
  rcases hm : m s.2 with ⟨r, o'⟩
  cases r with
  | ok c =>
    have hl : losing m s = (.ok c, (s.1, o')) := by simp only [losing, hm]
    rw [M.bind_ok hl] at e
    exact h c _ _ _ e
  | panic y =>
    have hl : losing m s = (.panic y, (.unit 0, o')) := by simp only [losing, hm]
    rw [M.bind_panic hl] at e
    cases e
  | ub =>
    have hl : losing m s = (.ub, (s.1, o')) := by simp only [losing, hm]
    rw [M.bind_ub hl] at e
    exact ⟨t, es', cap', e, fun _ _ => .inl rfl⟩
  | abort =>
    have hl : losing m s = (.abort, (s.1, o')) := by simp only [losing, hm]
    rw [M.bind_abort hl] at e
    exact ⟨t, es', cap', e, fun _ _ => .inl rfl⟩

theorem dynPushCloned_grows (p : Place) : GrowsBy Γ (fun b => b) (XVec.dynPushCloned Γ p) := by
  refine .get_bind fun s => ?_
  rcases s with ⟨⟨t', es, cap⟩ | n, o⟩
  · dsimp only
    split
    · split
      · exact lose_same.grows (need := fun b => b) _
      · exact MovesBy.grows (need := fun b => b) (.bind sameCap (losing_same _) fun _ => .bind sameCap (.aside sameCap _) fun _ => lose_same) _
      · refine losing_then (need := fun b => b) (s := (.vec t' es cap, o)) (f := fun c => .vec t' (es ++ [c]) cap) fun c t es' cap' h => ?_
        cases h
        exact ⟨_, es, cap, rfl, fun _ _ => .inl rfl⟩
      · rename_i cp hg
        refine losing_then (need := fun b => b) (s := (.vec t' es cap, o)) (f := fun c => .vec t' (es ++ [c]) cp) fun c t es' cap' h => ?_
        cases h
        refine ⟨_, es, cap, rfl, fun hl hp => .inr ?_⟩
        have := growth_enlarged (n := 1) hp hl (by omega) hg
        simpa using this
    · exact (MovesBy.pure sameCap _).grows (need := fun b => b) _
  · dsimp only
    split
    · exact lose_same.grows (need := fun b => b) _
    · exact (MovesBy.pure sameCap _).grows (need := fun b => b) _

theorem growth_fits {u a cap len k c : Nat} (h : growth u a 1 cap len k = .grown c) : len + k ≤ c := by
  unfold growth at h
  split at h
  · cases h
  · split at h
    · cases h
    · split at h
      · cases h
        rw [Nat.div_one]
        unfold nextCap
        omega
      · cases h

/-- The container stays as it is, or its content is lost. -/
def SameOrLost (x y : XVec) : Prop := ∀ t es cap, y = .vec t es cap → x = .vec t es cap

theorem sameOrLost : Preorder' SameOrLost := ⟨fun _ _ _ _ h => h, fun _ _ _ h1 h2 _ _ _ h => h1 _ _ _ (h2 _ _ _ h)⟩

theorem lose_sameOrLost : MovesBy SameOrLost (lose : M (XVec × Outside U) α) := fun s t es cap h => by cases h

theorem pushAs_one (x : Bytes) {es es' : List Bytes} {cap cap' : Nat} {t' : TyId} {o : Outside U} (hl : es.length ≤ cap)
    (h : (XVec.dynPushAs Γ t x (.vec t es cap, o)).2.1 = .vec t' es' cap') :
    t' = t ∧ es'.length ≤ es.length + 1 ∧ es'.length ≤ cap' ∧ (cap = cap' ∨ Enlarged cap cap' (es.length + 1)) := by
  simp only [XVec.dynPushAs, M.bind_run, M.get_run, if_pos] at h
  split at h
  · rename_i hg
    cases h
    have : es.length + 1 ≤ cap := by
      unfold growth at hg
      split at hg
      · omega
      · split at hg
        · cases hg
        · split at hg <;> cases hg
    exact ⟨rfl, by simp, by simpa using this, .inl rfl⟩
  · rename_i c hg
    cases h
    have := growth_fits hg
    exact ⟨rfl, by simp, by simpa using this, .inr (growth_enlarged (n := 1) Nat.one_pos hl (by omega) hg)⟩
  · have h1 := (MovesBy.bind sameOrLost (.aside sameOrLost _) fun _ => .bind sameOrLost (.aside sameOrLost _) fun _ => lose_sameOrLost)
      (.vec t es cap, o) _ _ _ h
    cases h1
    exact ⟨rfl, by omega, hl, .inl rfl⟩

/-- A content that was lost stays lost. -/
def StaysLost (x y : XVec) : Prop := ∀ n, x = .unit n → ∃ m, y = .unit m

theorem staysLost : Preorder' StaysLost :=
  ⟨fun _ n h => ⟨n, h⟩, fun _ _ _ h1 h2 n h => by obtain ⟨m, h3⟩ := h1 n h; exact h2 m h3⟩

theorem GrowsBy.staysLost {need : Nat → Nat} {m : M (XVec × Outside U) α} (h : GrowsBy Γ need m) : MovesBy StaysLost m := by
  intro s n hs
  rcases hx : (m s).2.1 with ⟨t, es, cap⟩ | k
  · obtain ⟨t', es', cap', h1, -⟩ := h s _ _ _ hx
    rw [hs] at h1
    cases h1
  · exact ⟨k, rfl⟩

/-- One round of `resize`. -/
def resizeRound (Γ : TyEnv U) (t : TyId) (x : Bytes) : M (XVec × Outside U) Unit := do
  let c ← aside (call (Γ.clone t x))
  let _ ← XVec.dynPushAs Γ t c
  pure ()

theorem round_lost (x : Bytes) : MovesBy StaysLost (resizeRound Γ t x) :=
  .bind staysLost (.aside staysLost _) fun c => .bind staysLost (dynPushAs_grows c).staysLost fun _ => .pure staysLost _

theorem round_one (x : Bytes) {es es' : List Bytes} {cap cap' : Nat} {t' : TyId} {o : Outside U} (hl : es.length ≤ cap)
    (h : (resizeRound Γ t x (.vec t es cap, o)).2.1 = .vec t' es' cap') :
    t' = t ∧ es'.length ≤ es.length + 1 ∧ es'.length ≤ cap' ∧ (cap = cap' ∨ Enlarged cap cap' (es.length + 1)) := by
  rcases hc : (aside (call (Γ.clone t x)) : M (XVec × Outside U) Bytes) (.vec t es cap, o) with ⟨r, x', o'⟩
  have hx : x' = .vec t es cap := by
    have := congrArg (fun p => p.2.1) hc
    exact this.symm
  subst hx
  have same : ∀ {y}, y = XVec.vec t es cap → y = .vec t' es' cap' → t' = t ∧ es'.length ≤ es.length + 1 ∧ es'.length ≤ cap' ∧
      (cap = cap' ∨ Enlarged cap cap' (es.length + 1)) := by
    intro y h1 h2
    rw [h1] at h2
    cases h2
    exact ⟨rfl, by omega, hl, .inl rfl⟩
  unfold resizeRound at h
  cases r with
  | ok c =>
    rw [M.bind_ok hc] at h
    refine pushAs_one (Γ := Γ) c (o := o') hl (Eq.trans ?_ h)
    rcases hp : XVec.dynPushAs Γ t c (.vec t es cap, o') with ⟨r, s⟩
    cases r with
    | ok a => rw [M.bind_ok hp]; rfl
    | panic y => rw [M.bind_panic hp]
    | ub => rw [M.bind_ub hp]
    | abort => rw [M.bind_abort hp]
  | panic y => rw [M.bind_panic hc] at h; exact same rfl h
  | ub => rw [M.bind_ub hc] at h; exact same rfl h
  | abort => rw [M.bind_abort hc] at h; exact same rfl h

theorem Enlarged.trans {a b c n m : Nat} (h1 : a = b ∨ Enlarged a b n) (h2 : b = c ∨ Enlarged b c m) (hn : n ≤ m) : a = c ∨ Enlarged a c m := by
  unfold Enlarged at *
  omega

theorem rounds_grow (x : Bytes) {n : Nat} : ∀ (j : Nat) {es es' : List Bytes} {cap cap' : Nat} {t' : TyId} {o : Outside U}, es.length ≤ cap →
    es.length + j ≤ n → (M.repeatN j (resizeRound Γ t x) (.vec t es cap, o)).2.1 = .vec t' es' cap' →
    t' = t ∧ (cap = cap' ∨ Enlarged cap cap' n)
  | 0, es, es', cap, cap', t', o, hl, hn, h => by cases h; exact ⟨rfl, .inl rfl⟩
  | j + 1, es, es', cap, cap', t', o, hl, hn, h => by
    rw [M.repeatN] at h
    rcases hr : resizeRound Γ t x (.vec t es cap, o) with ⟨r, y, o'⟩
    have hlost := round_lost (Γ := Γ) (t := t) x
    have key : ∀ {t1 es1 cap1}, y = .vec t1 es1 cap1 →
        t1 = t ∧ es1.length ≤ es.length + 1 ∧ es1.length ≤ cap1 ∧ (cap = cap1 ∨ Enlarged cap cap1 (es.length + 1)) :=
      fun {t1 es1 cap1} e => round_one x (o := o) hl (by rw [hr]; exact e)
    have weak : ∀ {t1 es1 cap1}, y = .vec t1 es1 cap1 → t1 = t ∧ (cap = cap1 ∨ Enlarged cap cap1 n) := by
      intro t1 es1 cap1 e
      obtain ⟨h1, -, -, h4⟩ := key e
      refine ⟨h1, h4.imp id fun h => ⟨h.1, ?_⟩⟩
      have := h.2
      omega
    cases r with
    | ok a =>
      rw [M.bind_ok hr] at h
      rcases hy : y with ⟨t1, es1, cap1⟩ | m
      · obtain ⟨h1, h2, h3, h4⟩ := key hy
        rw [hy, h1] at h
        obtain ⟨h6, h5⟩ := rounds_grow (n := n) x j (o := o') h3 (by omega) h
        exact ⟨h6, Enlarged.trans h4 h5 (by omega)⟩
      · exfalso
        have : ∀ j, MovesBy StaysLost (M.repeatN j (resizeRound Γ t x)) := by
          intro j
          induction j with
          | zero => exact .pure staysLost _
          | succ j ih => exact .bind staysLost hlost fun _ => ih
        obtain ⟨m', h1⟩ := this j (y, o') m hy
        rw [h1] at h
        cases h
    | panic y => rw [M.bind_panic hr] at h; exact weak h
    | ub => rw [M.bind_ub hr] at h; exact weak h
    | abort => rw [M.bind_abort hr] at h; exact weak h

theorem dynReserve_grows (n : Nat) {es es' : List Bytes} {cap cap' : Nat} {t' : TyId} (hl : es.length ≤ cap) (hp : 0 < perElem Γ t)
    (h : (XVec.reserve Γ cfg n (.vec t es cap)).now = .vec t' es' cap') :
    t' = t ∧ es' = es ∧ es.length ≤ cap' ∧ (cap = cap' ∨ Enlarged cap cap' (es.length + n)) := by
  have hm := (reserve_modest (Γ := Γ) (cfg := cfg) n).1 _ _ _ _ _ _ hl hp h
  have : t' = t ∧ es' = es := by
    simp only [XVec.reserve, XVec.room] at h
    split at h
    · cases h
    · split at h <;> cases h <;> exact ⟨rfl, rfl⟩
  refine ⟨this.1, this.2, ?_, hm⟩
  rcases hm with h | h
  · omega
  · have := h.1; omega

theorem thenDrop_fst (m : M (σ × Outside U) α) (d : M (Outside U) Unit) (s : σ × Outside U) :
    (M.thenDrop m (aside d) s).2.1 = (m s).2.1 := by
  rcases hm : m s with ⟨r, s'⟩
  have h1 : ((aside d : M (σ × Outside U) Unit) s').2.1 = s'.1 := rfl
  rcases hd : (aside d : M (σ × Outside U) Unit) s' with ⟨r', s''⟩
  rw [hd] at h1
  cases r <;> cases r' <;> simp only [M.thenDrop, hm, hd] <;> first | exact h1 | rfl

theorem dynResize_grows (n : Nat) (x : Bytes) : GrowsBy Γ (fun _ => n) (XVec.dynResize Γ cfg t n x) := by
  have body : GrowsBy Γ (fun _ => n) (XVec.dynResizeBody Γ cfg t n x) := by
    refine .get_bind fun s => ?_
    rcases s with ⟨⟨t', es, cap⟩ | m, o⟩
    · dsimp only
      split
      · rename_i ht
        subst ht
        split
        · rename_i hn
          intro t' es' cap' h
          by_cases hf : es.length ≤ cap ∧ 0 < perElem Γ t
          · obtain ⟨hl, hp⟩ := hf
            suffices hh : t' = t ∧ (cap = cap' ∨ Enlarged cap cap' n) by
              obtain ⟨rfl, h2⟩ := hh
              exact ⟨_, es, cap, rfl, fun _ _ => h2⟩
            rcases hr : (XVec.plain (XVec.reserve Γ cfg (n - es.length)) : M (XVec × Outside U) Obs) (.vec t es cap, o) with ⟨r, y, o'⟩
            have hy : (XVec.reserve Γ cfg (n - es.length) (.vec t es cap)).now = y := congrArg (fun p => p.2.1) hr
            have key : ∀ {t1 es1 cap1}, y = .vec t1 es1 cap1 → t1 = t ∧ es1 = es ∧ es.length ≤ cap1 ∧ (cap = cap1 ∨ Enlarged cap cap1 n) := by
              intro t1 es1 cap1 e
              have h1 := dynReserve_grows (cfg := cfg) (n - es.length) hl hp (hy.trans e)
              rw [Nat.add_sub_cancel' hn] at h1
              exact h1
            cases r with
            | ok a =>
              rw [M.bind_ok hr] at h
              change ((M.repeatN (n - es.length) (resizeRound Γ t x) >>= fun _ => pure Obs.done) (y, o')).2.1 = _ at h
              have hfin : (M.repeatN (n - es.length) (resizeRound Γ t x) (y, o')).2.1 = .vec t' es' cap' := by
                rw [← h]
                rcases hq : M.repeatN (n - es.length) (resizeRound Γ t x) (y, o') with ⟨r, s⟩
                cases r with
                | ok a => rw [M.bind_ok hq]; rfl
                | panic y => rw [M.bind_panic hq]
                | ub => rw [M.bind_ub hq]
                | abort => rw [M.bind_abort hq]
              rcases y with ⟨t1, es1, cap1⟩ | m
              · obtain ⟨h1, h2, h3, h4⟩ := key rfl
                subst h1; subst h2
                obtain ⟨h5, h6⟩ := rounds_grow (n := n) x _ h3 (by omega) hfin
                exact ⟨h5, Enlarged.trans h4 h6 (Nat.le_refl _)⟩
              · exfalso
                have : ∀ j, MovesBy StaysLost (M.repeatN j (resizeRound Γ t x)) := by
                  intro j
                  induction j with
                  | zero => exact .pure staysLost _
                  | succ j ih => exact .bind staysLost (round_lost x) fun _ => ih
                obtain ⟨m', h1⟩ := this (n - es.length) (.unit m, o') m rfl
                rw [h1] at hfin
                cases hfin
            | panic z => rw [M.bind_panic hr] at h; obtain ⟨h1, -, -, h4⟩ := key h; exact ⟨h1, h4⟩
            | ub => rw [M.bind_ub hr] at h; obtain ⟨h1, -, -, h4⟩ := key h; exact ⟨h1, h4⟩
            | abort => rw [M.bind_abort hr] at h; obtain ⟨h1, -, -, h4⟩ := key h; exact ⟨h1, h4⟩
          · exact ⟨t, es, cap, rfl, fun h1 h2 => absurd ⟨h1, h2⟩ hf⟩
        · refine SameCap.grown (MovesBy.after (s := (.vec t es cap, o)) sameCap (.forEach eqPre (fun _ => .aside eqPre _) _) fun _ o' t1 es1 cap1 h => ?_)
          cases h
          exact ⟨es, rfl⟩
      · exact (MovesBy.pure sameCap _).grows (need := fun _ => n) _
    · dsimp only
      split
      · split
        · exact lose_same.grows (need := fun _ => n) _
        · exact (MovesBy.panic sameCap _).grows (need := fun _ => n) _
      · exact (MovesBy.pure sameCap _).grows (need := fun _ => n) _
  intro s
  rw [XVec.dynResize, thenDrop_fst]
  exact body s

/-! ### Operations -/

/-- The container in variable `k` is a proper one. -/
def FitsAt (Γ : TyEnv U) (vars : YVars) (k : Nat) : Prop :=
  ∀ b t es cap, vars k = some (.vec b (.vec t es cap)) → es.length ≤ cap ∧ 0 < perElem Γ t

/-- The capacity of the container in variable `k` changes only if it has to. -/
def GrownAt (k : Nat) (need : Nat → Nat) (a b : YVars) : Prop :=
  ∀ n' cap', b.holding k = some (n', cap') → ∃ n cap, a.holding k = some (n, cap) ∧ (cap = cap' ∨ Enlarged cap cap' (need n'))

theorem SameCapAt.grown {k : Nat} {need : Nat → Nat} {a b : YVars} (h : SameCapAt k a b) : GrownAt k need a b := by
  intro n' cap' e
  obtain ⟨n, h1⟩ := h _ _ e
  exact ⟨n, cap', h1, .inl rfl⟩

theorem onVec_grows {j k : Nat} {need : Nat → Nat} {m : M (XVec × Outside U) Obs} (hm : GrowsBy Γ need m) {s : YVars × Outside U}
    (hf : FitsAt Γ s.1 k) : GrownAt k need s.1 (YOp.onVec j m s).2.1 := by
  by_cases hk : j = k
  · subst hk
    intro n' cap' h
    simp only [YOp.onVec] at h
    split at h
    · rename_i b x hv
      simp only [YVars.holding, Slots.put, if_pos] at h
      split at h
      · rename_i e
        cases h
        simp only [Option.some.injEq, YItem.vec.injEq] at e
        obtain ⟨t, es, cap, h1, h2⟩ := hm (x, s.2) _ _ _ e.2
        have h1 : x = _ := h1
        subst h1
        obtain ⟨h3, h4⟩ := hf _ _ _ _ hv
        exact ⟨es.length, cap, by simp only [YVars.holding, hv], h2 h3 h4⟩
      · cases h
    · exact ⟨n', cap', h, .inl rfl⟩
  · exact (onVec_other hk s).grown

theorem append_grows {i j k : Nat} {s : YVars × Outside U} (hf : FitsAt Γ s.1 k) : GrownAt k (fun b => b) s.1 (YOp.append Γ i j s).2.1 := by
  intro n' cap' h
  simp only [YOp.append] at h
  have other : ∀ {a b : Option YItem} , k ≠ i → k ≠ j → YVars.holding (Slots.put (Slots.put s.1 i a) j b) k = s.1.holding k := by
    intro a b h1 h2
    rw [holding_put _ (Ne.symm h2), holding_put _ (Ne.symm h1)]
  split at h
  · exact ⟨n', cap', h, .inl rfl⟩
  · rename_i hij
    split at h
    · rename_i b t es cap b' t' es' cp hi hj
      split at h
      · rename_i ht
        subst ht
        by_cases hkj : k = j
        · subst hkj
          split at h
          · simp only [YVars.holding, Slots.put, if_pos, Option.some.injEq, Prod.mk.injEq] at h
            exact ⟨es'.length, cp, by simp only [YVars.holding, hj], .inl h.2⟩
          · simp only [YVars.holding, Slots.put, if_pos, Option.some.injEq, Prod.mk.injEq] at h
            exact ⟨es'.length, cp, by simp only [YVars.holding, hj], .inl h.2⟩
          · simp [YVars.holding, Slots.put] at h
          · simp only [YVars.holding, Slots.put, if_pos, Option.some.injEq, Prod.mk.injEq] at h
            exact ⟨es'.length, cp, by simp only [YVars.holding, hj], .inl h.2⟩
        · by_cases hki : k = i
          · subst hki
            obtain ⟨h1, h3⟩ := hf _ _ _ _ hi
            split at h
            · simp only [YVars.holding, Slots.put, if_pos, if_neg hkj, Option.some.injEq, Prod.mk.injEq] at h
              exact ⟨es.length, cap, by simp only [YVars.holding, hi], .inl h.2⟩
            · rename_i c hg
              simp only [YVars.holding, Slots.put, if_pos, if_neg hkj, Option.some.injEq, Prod.mk.injEq] at h
              obtain ⟨rfl, rfl⟩ := h
              refine ⟨es.length, cap, by simp only [YVars.holding, hi], .inr ?_⟩
              rw [List.length_append]
              exact growth_enlarged h3 h1 (Nat.le_refl _) hg
            · simp [YVars.holding, Slots.put, if_neg hkj] at h
            · simp [YVars.holding, Slots.put, if_neg hkj] at h
          · split at h <;> · rw [other hki hkj] at h; exact ⟨n', cap', h, .inl rfl⟩
      · exact ⟨n', cap', h, .inl rfl⟩
    · by_cases hkj : k = j
      · subst hkj
        simp [YVars.holding, Slots.put] at h
      · by_cases hki : k = i
        · subst hki
          simp [YVars.holding, Slots.put, if_neg hkj] at h
        · rw [other hki hkj] at h; exact ⟨n', cap', h, .inl rfl⟩
    · exact ⟨n', cap', h, .inl rfl⟩
    · exact ⟨n', cap', h, .inl rfl⟩

theorem rotateLeft_same (n : Nat) : MovesBy SameCap (XVec.plain (XVec.rotateLeft Γ cfg n) : M (XVec × Outside U) Obs) := by
  refine plain_same (fun t es cap t' es' cap' e => ?_) fun _ _ _ _ e => by cases e
  simp only [XVec.rotateLeft] at e
  split at e
  · cases e; exact ⟨rfl, rfl⟩
  · split at e
    · cases e
    · split at e <;> cases e
      exact ⟨rfl, rfl⟩

theorem rotateRight_same (n : Nat) : MovesBy SameCap (XVec.plain (XVec.rotateRight Γ cfg n) : M (XVec × Outside U) Obs) := by
  refine plain_same (fun t es cap t' es' cap' e => ?_) fun _ _ _ _ e => by cases e
  simp only [XVec.rotateRight] at e
  split at e
  · cases e; exact ⟨rfl, rfl⟩
  · split at e
    · cases e
    · split at e <;> cases e
      exact ⟨rfl, rfl⟩

theorem swap_same (i j : Nat) : MovesBy SameCap (XVec.plain (XVec.swap Γ cfg i j) : M (XVec × Outside U) Obs) := by
  refine plain_same (fun t es cap t' es' cap' e => ?_) fun _ _ _ _ e => by cases e
  simp only [XVec.swap] at e
  split at e
  · cases e; exact ⟨rfl, rfl⟩
  · split at e
    · split at e <;> · cases e; exact ⟨rfl, rfl⟩
    · split at e <;> · cases e; exact ⟨rfl, rfl⟩

theorem assignPlace_same {i j k l : Nat} {t : TyId} {x : Bytes} {mk : TyId → Bytes → YItem} :
    MovesBy (SameCapAt k) (YOp.assignPlace Γ cfg l i j t x mk) := by
  have P := sameCapAt k
  refine .bind P read_same fun q => ?_
  cases q with
  | none => exact .pure P _
  | some p =>
    refine .bind P moveOut_same fun _ => ?_
    split
    · exact .bind P (write_same x) fun _ => .bind P (.aside P _) fun _ => .pure P _
    · exact .bind P (.aside P _) fun _ => .pure P _

theorem yread_state {j i : Nat} (s : YVars × Outside U) : (YOp.read Γ cfg j i s).2 = s := by
  simp only [YOp.read]
  split
  · rfl
  · split <;> rfl

theorem SameCapAt.then_grown {k : Nat} {need : Nat → Nat} {a b c : YVars} (h : SameCapAt k a b) (hg : GrownAt k need b c) : GrownAt k need a c := by
  intro n' cap' e
  obtain ⟨n, cap, h1, h2⟩ := hg _ _ e
  obtain ⟨n1, h3⟩ := h _ _ h1
  exact ⟨n1, cap, h3, h2⟩

/-- What an operation does to the capacity of a container that it does not create. -/
theorem dynStep_grows {op : DOp} {k : Nat} (hc : ¬ op.Creates k) {s : YVars × Outside U} (hf : FitsAt Γ s.1 k) :
    GrownAt k op.needs s.1 (op.step Γ cfg s).2.1 := by
  have P := sameCapAt k
  cases op with
  | withType j t => exact (create_same' _ hc s).grown
  | withCapacity j t n => exact (create_same' _ hc s).grown
  | fromVec j t xs => exact (create_same' _ hc s).grown
  | fromSlice j t xs => exact (create_same' _ hc s).grown
  | withSize j t n x => exact (create_same' _ hc s).grown
  | newBox j t x => exact (create_same' _ hc s).grown
  | newSmall j t x => exact (create_same' _ hc s).grown
  | drop j =>
    simp only [DOp.step]
    split
    · exact (P.refl _).grown
    · exact (MovesBy.bind P moveOut_same (fun _ => .bind P (.aside P _) fun _ => .pure P _) s).grown
  | clone i j =>
    simp only [DOp.step]
    split
    · exact (P.refl _).grown
    · exact (create_same' _ hc s).grown
  | consume j t =>
    simp only [DOp.step]
    split
    · exact (P.refl _).grown
    · exact (MovesBy.bind P moveOut_same (fun _ => .aside P _) s).grown
  | roundTrip j t =>
    have hm : SameCapAt k s.1 (Slots.put s.1 j none) := (moveOut_same (U := U) (j := j) (k := k)) s
    simp only [DOp.step]
    split
    · split
      · exact (P.refl _).grown
      · exact hm.grown
    · split
      · exact (MovesBy.bind P moveOut_same (fun _ => .bind P (.aside P _) fun _ => .panic P _) s).grown
      · exact hm.grown
    · exact (P.refl _).grown
  | append i j => exact append_grows hf
  | pushAs j t x => exact onVec_grows (dynPushAs_grows x) hf
  | pushCloned j i i' =>
    simp only [DOp.step]
    split
    · exact (MovesBy.pure P _ s).grown
    · rcases hq : YOp.read Γ cfg i i' s with ⟨r, s'⟩
      have hs : s' = s := (congrArg Prod.snd hq).symm.trans (yread_state s)
      subst hs
      cases r with
      | ok q =>
        rw [M.bind_ok hq]
        cases q with
        | none => exact (P.refl _).grown
        | some p => exact onVec_grows (dynPushCloned_grows p) hf
      | panic y => rw [M.bind_panic hq]; exact (P.refl _).grown
      | ub => rw [M.bind_ub hq]; exact (P.refl _).grown
      | abort => rw [M.bind_abort hq]; exact (P.refl _).grown
  | pushBox j i =>
    simp only [DOp.step]
    split
    · rename_i b x t y hj hi
      refine SameCapAt.then_grown (b := Slots.put s.1 i none) (moveOut_same (U := U) (j := i) (k := k) s) ?_
      refine onVec_grows (s := (Slots.put s.1 i none, s.2)) (dynPush_grows y) fun b t es cap h => ?_
      have hk : k ≠ i := by
        intro hk
        simp only [Slots.put, if_pos hk] at h
        cases h
      simp only [Slots.put, if_neg hk] at h
      exact hf _ _ _ _ h
    · exact (P.refl _).grown
  | resize j t n x => exact onVec_grows (dynResize_grows n x) hf
  | fill j t x => exact (onVec_same (fill_same x) s).grown
  | clear j => exact (onVec_same clear_same s).grown
  | rotateLeft j n => exact (onVec_same (rotateLeft_same n) s).grown
  | rotateRight j n => exact (onVec_same (rotateRight_same n) s).grown
  | swap j a b => exact (onVec_same (swap_same a b) s).grown
  | setAs j t i x => exact (onVec_same (setAs_same i x) s).grown
  | cloneIntoVec j t => exact (onVec_same cloneInto_same s).grown
  | cloneValue l i j =>
    refine SameCapAt.grown (MovesBy.bind P read_same (fun q => ?_) s)
    cases q with
    | none => exact .pure P _
    | some p => exact create_same' _ hc
  | cloneSmall l i j =>
    refine SameCapAt.grown (MovesBy.bind P read_same (fun q => ?_) s)
    cases q with
    | none => exact .pure P _
    | some p => exact create_same' _ hc
  | assign l i j =>
    simp only [DOp.step]
    split
    · exact (P.refl _).grown
    · split
      · exact (assignPlace_same s).grown
      · exact (assignPlace_same s).grown
      · exact (P.refl _).grown
  | cloneFrom l i j i' =>
    refine SameCapAt.grown ?_
    simp only [DOp.step]
    split
    · exact MovesBy.pure P _ s
    · refine MovesBy.bind P read_same (fun q => ?_) s
      cases q with
      | none => exact .pure P _
      | some p =>
        refine .bind P read_same fun q => ?_
        cases q with
        | none => exact .pure P _
        | some d =>
          dsimp only
          split
          · split
            · intro s
              exact write_same _ (s.1, _)
            · exact .panic P _
          · exact .pure P _
  | swapValues l i j i' =>
    refine SameCapAt.grown ?_
    simp only [DOp.step]
    split
    · exact MovesBy.pure P _ s
    · refine MovesBy.bind P read_same (fun q => ?_) s
      cases q with
      | none => exact .pure P _
      | some p =>
        refine .bind P read_same fun q => ?_
        cases q with
        | none => exact .pure P _
        | some q =>
          dsimp only
          split
          · exact .bind P (write_same _) fun _ => .bind P (write_same _) fun _ => .pure P _
          · exact .pure P _
  | len j => exact (look_same s).grown
  | typeId j => exact (look_same s).grown
  | getAs j t i => exact (look_same s).grown
  | get j i =>
    refine SameCapAt.grown (MovesBy.bind P read_same (fun q => ?_) s)
    cases q <;> exact .pure P _
  | asSlice j t => exact (look_same s).grown
  | iter j => exact (look_same s).grown

end Cap
open Cap

/-! ### Programs -/

section
variable [HasDrop U V] [HasClone U V] [TableLaw V] {vt : TyId → V} {slots : DSlots V} {w : World U} {vars : YVars} {o : Outside U}

theorem yholds_fits (H : YHolds Γ slots w vars o) (k : Nat) : FitsAt Γ vars k := by
  intro b t es cap hk
  obtain ⟨-, -, -, h1, h2⟩ := yholds_each H hk
  exact ⟨h1, Nat.div_pos (Nat.le_of_dvd h2 (Γ.align_dvd t)) (align_pos Γ t)⟩

theorem yholds_holding (H : YHolds Γ slots w vars o) (k : Nat) : dynHolding slots k = vars.holding k := by
  unfold dynHolding YVars.holding
  cases hs : slots k with
  | none => rw [(H.none_iff k).1 hs]
  | some c =>
    cases hv : vars k with
    | none => rw [(H.none_iff k).2 hv] at hs; cases hs
    | some x =>
      have I := H.is k c x hs hv
      cases c with
      | vec c =>
        cases x with
        | vec b x =>
          obtain ⟨I, -, -, -⟩ := I
          cases x with
          | vec t es cap =>
            obtain ⟨R, rfl⟩ := I
            have hp : c.data.elem.size ≠ 0 := by
              intro h0
              have := R.chunks
              have := R.pos
              rw [h0] at *
              omega
            simp only [if_neg hp, R.len]
          | unit n => exact if_pos (show IsUnits Γ n c.data from I).good.size
        | box t x => exact I.elim
        | small t x => exact I.elim
      | box v =>
        cases x with
        | vec b x => exact I.elim
        | box t x => rfl
        | small t x => exact I.elim
      | small v =>
        cases x with
        | vec b x => exact I.elim
        | box t x => exact I.elim
        | small t x => rfl

theorem yholds_len (H : YHolds Γ slots w vars o) {k n cap : Nat} (h : vars.holding k = some (n, cap)) : n ≤ cap := by
  unfold YVars.holding at h
  split at h
  · rename_i hv
    cases h
    exact (yholds_fits H k _ _ _ _ hv).1
  · cases h

/-- What one call does to the number of elements and the capacity of a `VecDyn` that it does not create, whether it
returns or panics: nothing but the number of elements changes, or the capacity is at least doubled because more
elements are needed than it allows. -/
theorem C95_vecdyn_step {op : DOp} {k n' cap' : Nat} {slots' : DSlots V} {w' : World U} {r : Res Obs} (H : YHolds Γ slots w vars o)
    (ht : op.IsTyped Γ) (htab : ∀ t, Tab Γ t (vt t)) (hc : ¬ op.Creates k) (he : op.exec Γ cfg vt (slots, w) = (r, (slots', w')))
    (hr : r ≠ .ub) (hr' : r ≠ .abort) (hk : dynHolding slots' k = some (n', cap')) :
    ∃ n cap, dynHolding slots k = some (n, cap) ∧ n ≤ cap ∧ n' ≤ cap' ∧ (cap' = cap ∨ 2 * cap ≤ cap' ∧ cap < op.needs n' ∧ cap' ≤ max (2 * op.needs n') 8) := by
  have hs := C71_step (cfg := cfg) H ht htab
  have hg := dynStep_grows (cfg := cfg) hc (s := (vars, o)) (yholds_fits H k)
  rw [he] at hs
  have key : ∀ vars1 (o1 : Outside U), (op.step Γ cfg (vars, o)).2.1 = vars1 → YHolds Γ slots' w' vars1 o1 →
      ∃ n cap, dynHolding slots k = some (n, cap) ∧ n ≤ cap ∧ n' ≤ cap' ∧ (cap' = cap ∨ 2 * cap ≤ cap' ∧ cap < op.needs n' ∧ cap' ≤ max (2 * op.needs n') 8) := by
    intro vars1 o1 e H1
    rw [yholds_holding H1] at hk
    rw [e] at hg
    obtain ⟨n, cap, h1, h2⟩ := hg _ _ hk
    exact ⟨n, cap, by rw [yholds_holding H]; exact h1, yholds_len H h1, yholds_len H1 hk, h2.imp Eq.symm id⟩
  rcases hst : op.step Γ cfg (vars, o) with ⟨q, vars1, o1⟩
  rw [hst] at hs
  cases q with
  | ok a => exact key vars1 o1 (by rw [hst]) hs.2
  | panic y => exact key vars1 o1 (by rw [hst]) hs.2
  | ub => exact absurd hs hr
  | abort => exact absurd hs hr'

theorem dynGrowths_cons {op : DOp} {ops : List DOp} {k : Nat} (H : YHolds Γ slots w vars o) (ht : op.IsTyped Γ) (htab : ∀ t, Tab Γ t (vt t)) :
    dynGrowths Γ cfg vt k (op :: ops) (slots, w) = [] ∨ ∃ (r : Res Obs) (slots' : DSlots V) (w' : World U) (vars' : YVars) (o' : Outside U),
      op.exec Γ cfg vt (slots, w) = (r, (slots', w')) ∧ r ≠ .ub ∧ r ≠ .abort ∧
      YHolds Γ slots' w' vars' o' ∧ dynGrowths Γ cfg vt k (op :: ops) (slots, w) =
        (match dynHolding slots k, dynHolding slots' k with
          | some (n, cap), some (n', cap') => if cap = cap' then [] else [(n, op.needs n')]
          | _, _ => []) ++ dynGrowths Γ cfg vt k ops (slots', w') := by
  have hs := C71_step (cfg := cfg) H ht htab
  rcases hst : op.step Γ cfg (vars, o) with ⟨q, vars1, o1⟩
  rcases he : op.exec Γ cfg vt (slots, w) with ⟨r, slots', w'⟩
  rw [hst, he] at hs
  cases q with
  | ok a =>
    obtain ⟨h1, h2⟩ := hs
    have h1 : r = .ok a := h1
    subst h1
    exact .inr ⟨_, _, _, vars1, o1, rfl, (by intro h; cases h), (by intro h; cases h), h2, by simp only [dynGrowths, he]⟩
  | panic y =>
    obtain ⟨⟨y, h1⟩, h2⟩ := hs
    have h1 : r = .panic y := h1
    subst h1
    exact .inr ⟨_, _, _, vars1, o1, rfl, (by intro h; cases h), (by intro h; cases h), h2, by simp only [dynGrowths, he]⟩
  | ub =>
    have h1 : r = .ub := hs
    subst h1
    left; simp only [dynGrowths, he]
  | abort =>
    have h1 : r = .abort := hs
    subst h1
    left; simp only [dynGrowths, he]

theorem dynGrowths_none {k : Nat} (htab : ∀ t, Tab Γ t (vt t)) : ∀ (ops : List DOp) {slots : DSlots V} {w : World U} {vars : YVars} {o : Outside U},
    YHolds Γ slots w vars o → (∀ p ∈ ops, p.IsTyped Γ) → (∀ p ∈ ops, ¬ p.Creates k) → dynHolding slots k = none →
    dynGrowths Γ cfg vt k ops (slots, w) = []
  | [], _, _, _, _, _, _, _, _ => rfl
  | op :: ops, slots, w, vars, o, H, ht, hc, hk => by
    rcases dynGrowths_cons (cfg := cfg) (vt := vt) (k := k) (ops := ops) H (ht op List.mem_cons_self) htab with
      h | ⟨r, slots', w', vars', o', he, hr, hr', H', h⟩
    · exact h
    · rw [h, hk]
      have hn : dynHolding slots' k = none := by
        cases h' : dynHolding slots' k with
        | none => rfl
        | some p =>
          obtain ⟨n, cap, h1, -⟩ := C95_vecdyn_step (n' := p.1) (cap' := p.2) H (ht op List.mem_cons_self) htab (hc op List.mem_cons_self) he hr hr' h'
          rw [hk] at h1; cases h1
      exact dynGrowths_none htab ops H' (fun o h => ht o (List.mem_cons_of_mem _ h)) (fun o h => hc o (List.mem_cons_of_mem _ h)) hn

/-- A program over `VecDyn` containers and values, with caught panics and arbitrary user code, that does not assign
something new to variable `k`, which holds a container with capacity `cap`: if `need` is the number of elements that the
last call that changed its capacity had to make room for, then the other such calls had doubled `cap` each and that was
still not enough; and the elements that the container had at the beginning of these calls are fewer than `2 * need`. -/
theorem C95_vecdyn_amortised {k n cap : Nat} {ops : List DOp} {m need : Nat} (H : YHolds Γ slots w vars o) (ht : ∀ p ∈ ops, p.IsTyped Γ)
    (htab : ∀ t, Tab Γ t (vt t)) (hc : ∀ p ∈ ops, ¬ p.Creates k) (hk : dynHolding slots k = some (n, cap))
    (hg : (dynGrowths Γ cfg vt k ops (slots, w)).getLast? = some (m, need)) :
    2 ^ ((dynGrowths Γ cfg vt k ops (slots, w)).length - 1) * cap < need ∧
    ((dynGrowths Γ cfg vt k ops (slots, w)).map Prod.fst).sum + cap < 2 * need := by
  induction ops generalizing slots w vars o n cap with
  | nil => cases hg
  | cons p ops ih =>
    have ht' : ∀ o ∈ ops, o.IsTyped Γ := fun o h => ht o (List.mem_cons_of_mem _ h)
    have hc' : ∀ o ∈ ops, ¬ o.Creates k := fun o h => hc o (List.mem_cons_of_mem _ h)
    rcases dynGrowths_cons (cfg := cfg) (vt := vt) (k := k) (ops := ops) H (ht p List.mem_cons_self) htab with
      h | ⟨r, slots', w', vars', o', he, hr, hr', H', h⟩
    · rw [h] at hg; cases hg
    · rw [h] at hg ⊢
      cases h' : dynHolding slots' k with
      | none =>
        rw [h', hk, dynGrowths_none htab ops H' ht' hc' h'] at hg
        cases hg
      | some q =>
        obtain ⟨n1, cap1, e1, hn, hn', hcap⟩ :=
          C95_vecdyn_step (n' := q.1) (cap' := q.2) H (ht p List.mem_cons_self) htab (hc p List.mem_cons_self) he hr hr' h'
        rw [hk] at e1
        cases e1
        rw [h', hk] at hg
        simp only [hk]
        dsimp only at hg
        by_cases hcc : cap = q.2
        · rw [if_pos hcc, List.nil_append] at hg ⊢
          rw [hcc]
          exact ih H' ht' hc' h' hg
        · rw [if_neg hcc] at hg ⊢
          obtain ⟨h2, hlt, -⟩ := hcap.resolve_left (fun e => hcc e.symm)
          rcases hgs : dynGrowths Γ cfg vt k ops (slots', w') with _ | ⟨a, l⟩
          · rw [hgs] at hg
            simp only [List.append_nil, List.getLast?_singleton, Option.some.injEq, Prod.mk.injEq] at hg
            obtain ⟨rfl, rfl⟩ := hg
            simp only [List.append_nil, List.length_singleton, List.map_cons, List.map_nil, List.sum_cons, List.sum_nil]
            omega
          · have hl : (dynGrowths Γ cfg vt k ops (slots', w')).getLast? = some (m, need) := by
              rw [hgs] at hg ⊢
              simpa using hg
            obtain ⟨i1, i2⟩ := ih H' ht' hc' h' hl
            rw [hgs] at i1 i2
            simp only [List.cons_append, List.nil_append, List.length_cons, List.map_cons, List.sum_cons, Nat.add_sub_cancel] at i1 i2 ⊢
            refine ⟨?_, by omega⟩
            calc 2 ^ (l.length + 1) * cap = 2 ^ l.length * (2 * cap) := by rw [Nat.pow_succ, Nat.mul_assoc]
              _ ≤ 2 ^ l.length * q.2 := Nat.mul_le_mul_left _ h2
              _ < need := i1

end

/-! ### Examples -/

namespace Ex

/-- Three pushes onto two elements with capacity 4, and an attempt to resize to 9 elements that fails because the first
clone panics: it has made room nevertheless. -/
def dynPushes : List DOp := [.pushAs 3 7 g1, .pushAs 3 7 g2, .pushAs 3 7 g1, .resize 3 7 9 badClone, .rotateLeft 3 1]

/-- The third push doubles the capacity (4 elements are moved, 5 are needed), and so does `resize` (5, 9). -/
theorem dynPushes_growths : dynGrowths env ⟨true⟩ cloneVT 3 dynPushes (slots3, world 7 4) = [(4, 5), (5, 9)] := by decide +kernel

theorem dynPushes_typed : ∀ op ∈ dynPushes, op.IsTyped env := by
  simp only [dynPushes, List.forall_mem_cons]
  exact ⟨(by decide : g1.length = size 7), (by decide : g2.length = size 7), (by decide : g1.length = size 7),
    (by decide : badClone.length = size 7), trivial, (fun _ h => by cases h)⟩

example : 2 ^ 1 * 4 < 9 ∧ 4 + 5 + 4 < 2 * 9 := by
  have h := C95_vecdyn_amortised (cfg := ⟨true⟩) (vt := cloneVT) (m := 5) (need := 9) (ops := dynPushes) (k := 3) (n := 2) (cap := 4)
    vars3_holds dynPushes_typed tab (by simp only [dynPushes, List.forall_mem_cons]; exact ⟨id, id, id, id, id, (fun _ h => by cases h)⟩)
    rfl (by rw [dynPushes_growths]; rfl)
  rw [dynPushes_growths] at h
  exact h

end Ex

end Dync
