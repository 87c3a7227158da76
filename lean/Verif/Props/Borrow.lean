import Verif.Borrow
import Mathlib.Data.List.Forall2
/-!
# C59: a view never outlives the memory it views, and mutable views are exclusive

Specification: lifetimes are moments in time (when they end).  A caller may choose any lifetimes that
satisfy the implied bounds (in `&'s X<'a>`, `'a` outlives `'s`) and the declared ones.
-/
namespace Dync
open Borrow

/-- `ρ` gives the end of each lifetime; the choices the compiler accepts. -/
def Borrow.Sig.Accepts (s : Sig) (ρ : Var → Nat) : Prop :=
  (∀ p ∈ s.paramVars, p.Pairwise fun outer inner => ρ outer.2 ≤ ρ inner.2) ∧
  ∀ b ∈ s.bounds, ∀ x y, b = (.named x, .named y) → ρ (.named y) ≤ ρ (.named x)

/-- Whatever lifetimes the caller picks, no reference in the result lives longer than any of the
references on the way to the memory. -/
def Borrow.Sig.NoDangling (s : Sig) : Prop :=
  ∀ outs, s.outVars = some outs → ∀ ρ, s.Accepts ρ → ∀ o ∈ outs, ∀ l ∈ s.srcPath, ρ o.2 ≤ ρ l.2

/-- A unique reference is handed out only through unique references. -/
def Borrow.Sig.Exclusive (s : Sig) : Prop :=
  ∀ outs, s.outVars = some outs → ∀ o ∈ outs, o.1 = .unique → ∀ l ∈ s.srcPath, l.1 = .unique

/-- What a safe program can obtain from an owner that is freed at time `death` and that is borrowed
with access `a`: the kinds and the ends of the lifetimes of the references on the way to its memory. -/
inductive Borrow.Obtains (sigs : List Sig) (death : Nat) (a : Access) : List (Access × Nat) → Prop
  /-- borrow the owner -/
  | borrow (r : Nat) (h : r ≤ death) : Obtains sigs death a [(a, r)]
  /-- borrow a view -/
  | reref (p : List (Access × Nat)) (b : Access) (r : Nat) (h : ∀ x ∈ p, r ≤ x.2)
      (hp : Obtains sigs death a p) : Obtains sigs death a ((b, r) :: p)
  /-- use a unique reference as a shared one, shorten lifetimes -/
  | weaken (p q : List (Access × Nat)) (hp : Obtains sigs death a p)
      (h : List.Forall₂ (fun x y => (x.1 = .shared → y.1 = .shared) ∧ y.2 ≤ x.2) p q) :
      Obtains sigs death a q
  /-- call a function on a view -/
  | call (s : Sig) (hs : s ∈ sigs) (ρ : Var → Nat) (hρ : s.Accepts ρ) (outs : List (Access × Var))
      (ho : s.outVars = some outs) (hp : Obtains sigs death a (s.srcPath.map fun l => (l.1, ρ l.2)))
      (o : Access × Var) (hin : o ∈ outs) : Obtains sigs death a [(o.1, ρ o.2)]

/-- The safe functions other than the two unsound constructors. -/
def Borrow.tied : List Sig :=
  api.filter fun s => s.name ≠ "SliceCopy::from_slice" ∧ s.name ≠ "Slice::from_slice"

/-! ### Helper lemmas -/

/-- Every reference of the result has the outermost lifetime of the source. -/
def Borrow.Sig.outermost (s : Sig) : Bool :=
  match s.outVars, s.srcPath with
  | some outs, l :: _ => outs.all fun o => o.2 = l.2
  | _, [] => true
  | none, _ => true

theorem Borrow.srcPath_pairwise {s : Sig} {ρ : Var → Nat} (h : s.Accepts ρ) :
    s.srcPath.Pairwise fun outer inner => ρ outer.2 ≤ ρ inner.2 := by
  unfold Sig.srcPath
  cases hp : s.paramVars[s.src]? with
  | none => simp
  | some p => exact h.1 p (List.mem_of_getElem? hp)

theorem Borrow.noDangling_of_outermost {s : Sig} (h : s.outermost = true) : s.NoDangling := by
  intro outs ho ρ hρ o hin l hl
  have hpw := srcPath_pairwise hρ
  unfold Sig.outermost at h
  rw [ho] at h
  cases hsp : s.srcPath with
  | nil => rw [hsp] at hl; cases hl
  | cons l0 rest =>
    rw [hsp] at h hl hpw
    have e : o.2 = l0.2 := by
      have := List.all_eq_true.1 h o hin
      simpa using this
    rw [e]
    rcases List.mem_cons.1 hl with rfl | hr
    · exact Nat.le_refl _
    · exact (List.pairwise_cons.1 hpw).1 l hr

/-- Decidable form of `Exclusive`. -/
def Borrow.Sig.exclusiveB (s : Sig) : Bool :=
  match s.outVars with
  | some outs => outs.all fun o => o.1 ≠ .unique || s.srcPath.all fun l => l.1 = .unique
  | none => true

theorem Borrow.exclusive_of {s : Sig} (h : s.exclusiveB = true) : s.Exclusive := by
  intro outs ho o hin hu l hl
  unfold Sig.exclusiveB at h
  rw [ho] at h
  have := List.all_eq_true.1 h o hin
  simp only [hu, ne_eq, not_true_eq_false, decide_false, Bool.false_or] at this
  simpa using List.all_eq_true.1 this l hl

/-- The two constructors whose result lifetime is not tied to the argument. -/
def Borrow.untied : List String := ["SliceCopy::from_slice", "Slice::from_slice"]

theorem Borrow.api_check : api.all (fun s => s.outVars.isSome && s.exclusiveB &&
    (s.outermost == !untied.contains s.name)) = true := by decide +kernel

theorem Borrow.api_ok {s : Sig} (hs : s ∈ api) :
    s.outVars.isSome = true ∧ s.exclusiveB = true ∧ s.outermost = !untied.contains s.name := by
  have := List.all_eq_true.1 api_check s hs
  simpa [Bool.and_eq_true, and_assoc] using this

theorem Borrow.untied_shape : (api.filter fun s => untied.contains s.name).all (fun s =>
    s.outVars == some [(.shared, .named "'a")] && s.srcPath == [(.shared, .anon 0 0)] &&
      s.paramVars == [[(.shared, .anon 0 0)]] && s.bounds == []) = true := by
  decide +kernel

theorem Borrow.untied_eqs {s : Sig} (hs : s ∈ api) (hu : untied.contains s.name = true) :
    s.outVars = some [(.shared, .named "'a")] ∧ s.srcPath = [(.shared, .anon 0 0)] ∧
      s.paramVars = [[(.shared, .anon 0 0)]] ∧ s.bounds = [] := by
  have h : s ∈ api.filter fun s => untied.contains s.name := List.mem_filter.2 ⟨hs, hu⟩
  have := List.all_eq_true.1 untied_shape s h
  simpa [Bool.and_eq_true, and_assoc] using this

/-- The counterexample: the argument ends at 0, the result at 1. -/
def Borrow.late (n : Nat) : Var → Nat
  | .named _ => n + 1
  | .anon _ _ => n

theorem Borrow.late_accepts {s : Sig} (hs : s ∈ api) (hu : untied.contains s.name = true) (n : Nat) :
    s.Accepts (late n) := by
  obtain ⟨_, _, h3, h4⟩ := untied_eqs hs hu
  constructor
  · intro p hp
    rw [h3] at hp
    simp only [List.mem_cons, List.not_mem_nil, or_false] at hp
    subst hp
    simp
  · intro b hb; rw [h4] at hb; cases hb

/-! ### Theorems -/

/-- **C59** (full claim): no safe function returns a view that can outlive the memory it shows. -/
def C59_full : Prop := ∀ s ∈ api, s.NoDangling

/-- Every listed function compiles as far as lifetimes go, hands out unique references only through
unique references, and its result cannot outlive the memory — exactly except for `Slice::from_slice`
and `SliceCopy::from_slice`. -/
theorem C59_exact (s : Sig) (hs : s ∈ api) :
    s.outVars.isSome = true ∧ s.Exclusive ∧
    (s.NoDangling ↔ s.name ≠ "SliceCopy::from_slice" ∧ s.name ≠ "Slice::from_slice") := by
  obtain ⟨h1, h2, h3⟩ := api_ok hs
  refine ⟨h1, exclusive_of h2, ?_⟩
  constructor
  · intro hn
    by_cases hu : untied.contains s.name = true
    · exfalso
      obtain ⟨e1, e2, _, _⟩ := untied_eqs hs hu
      have := hn _ e1 _ (late_accepts hs hu 0) _ (List.mem_singleton.2 rfl) (.shared, .anon 0 0)
        (by rw [e2]; simp)
      simp [late] at this
    · simp only [untied, List.contains_eq_mem, List.mem_cons, List.not_mem_nil, or_false] at hu
      simpa [not_or] using hu
  · rintro ⟨n1, n2⟩
    apply noDangling_of_outermost
    rw [h3]
    simp [untied, n1, n2]

/-- Rust's rule for elided lifetimes in parameters: those at different positions end independently of
each other, so the quantifier in `NoDangling` covers every combination of them. -/
theorem C59_elided_independent {i j i' j' : Nat} (h : (i, j) ≠ (i', j')) (a b : Nat) :
    ∃ ρ : Var → Nat, ρ (Life.elided.var i j) = a ∧ ρ (Life.elided.var i' j') = b := by
  refine ⟨fun v => if v = .anon i j then a else b, by simp [Life.var], ?_⟩
  have : ¬ (i' = i ∧ j' = j) := fun e => h (by rw [e.1, e.2])
  simp [Life.var, this]

example := C59_elided_independent (i := 0) (j := 0) (i' := 1) (j' := 0) (by decide) 3 5

/-- Elision changes lifetimes only: a reference of the result is unique exactly if it is written as `&mut` or as
a mutable view. -/
theorem C59_kinds (s : Sig) (outs : List (Access × Var)) (h : s.outVars = some outs) :
    outs.map Prod.fst = s.outs.map Prod.fst := by
  unfold Sig.outVars at h
  have key : ∀ (l : Path) (os : List (Access × Var)), (l.mapM fun al => match al.2 with
      | .named a => some (al.1, .named a)
      | .elided => s.elidedOut.map fun v => (al.1, v)) = some os → os.map Prod.fst = l.map Prod.fst := by
    intro l
    induction l with
    | nil => intro os h; cases h; rfl
    | cons al l ih =>
      intro os h
      rw [List.mapM_cons] at h
      obtain ⟨b, hb, h⟩ := Option.bind_eq_some_iff.1 h
      obtain ⟨bs, hbs, h⟩ := Option.bind_eq_some_iff.1 h
      cases h
      rw [List.map_cons, List.map_cons, ih bs hbs]
      obtain ⟨a, x⟩ := al
      cases x with
      | named n => cases hb; rfl
      | elided =>
        obtain ⟨v, -, hv⟩ := Option.map_eq_some_iff.1 hb
        cases hv; rfl
  exact key s.outs outs h

example := C59_kinds ⟨"SliceMut::get_mut", [[(.unique, .elided), (.unique, .named "'a")], []], true, 0, [(.unique, .elided)], []⟩ _ rfl

/-- The full claim is false: `Slice::from_slice(&vec)` can be given any lifetime. -/
theorem C59_refuted : ¬ C59_full := by
  intro h
  have hm : (⟨"Slice::from_slice", [[(.shared, .elided)]], false, 0, [(.shared, .named "'a")], []⟩ : Sig) ∈ api := by
    decide +kernel
  have := (C59_exact _ hm).2.2.1 (h _ hm)
  simp at this

theorem Borrow.Obtains.ne_nil {sigs : List Sig} {death : Nat} {a : Access} {p : List (Access × Nat)}
    (h : Obtains sigs death a p) : p ≠ [] := by
  induction h with
  | borrow r h => simp
  | reref p b r h hp ih => simp
  | weaken p q hp h ih => cases h with
    | nil => exact ih
    | cons _ _ => simp
  | call s hs ρ hρ outs ho hp o hin ih => simp

/-- Programs: whatever sequence of safe functions a program calls, starting from a borrow of an owner
freed at time `death`, none of the references it obtains is valid after `death` — as long as it does
not call the two constructors above. -/
theorem C59_programs_partial (death : Nat) (a : Access) (p : List (Access × Nat)) (h : Obtains tied death a p) :
    ∀ x ∈ p, x.2 ≤ death := by
  induction h with
  | borrow r h => simpa using h
  | reref p b r h hp ih =>
    intro x hx
    rcases List.mem_cons.1 hx with rfl | hx
    · cases hq : p with
      | nil => exact absurd hq hp.ne_nil
      | cons y ys => exact Nat.le_trans (h y (by rw [hq]; simp)) (ih y (by rw [hq]; simp))
    · exact ih x hx
  | weaken p q hp h ih =>
    clear hp
    induction h with
    | nil => simp
    | @cons x y p q hxy _ ih2 =>
      intro z hz
      rcases List.mem_cons.1 hz with rfl | hz
      · exact Nat.le_trans hxy.2 (ih x (by simp))
      · exact ih2 (fun w hw => ih w (List.mem_cons_of_mem _ hw)) z hz
  | call s hs ρ hρ outs ho hp o hin ih =>
    intro x hx
    simp only [List.mem_cons, List.not_mem_nil, or_false] at hx
    subst hx
    obtain ⟨hm, hn⟩ := List.mem_filter.1 hs
    have hnd := (C59_exact s hm).2.2.2 (by simpa using hn)
    cases hsp : s.srcPath with
    | nil => exact absurd (by rw [hsp]; rfl) hp.ne_nil
    | cons l rest =>
      have h1 := hnd outs ho ρ hρ o hin l (by rw [hsp]; simp)
      exact Nat.le_trans h1 (ih (l.1, ρ l.2) (by rw [hsp]; simp))

/-- Programs: from a shared borrow of an owner no safe function leads to write access, not even the
two constructors: on the way to the memory there is always a shared reference. -/
theorem C59_programs_exclusive (death : Nat) (p : List (Access × Nat)) (h : Obtains api death .shared p) :
    ∃ x ∈ p, x.1 = .shared := by
  induction h with
  | borrow r h => exact ⟨_, List.mem_singleton.2 rfl, rfl⟩
  | reref p b r h hp ih =>
    obtain ⟨x, hx, e⟩ := ih
    exact ⟨x, List.mem_cons_of_mem _ hx, e⟩
  | weaken p q hp h ih =>
    clear hp
    induction h with
    | nil => exact ih
    | @cons x y p q hxy _ ih2 =>
      obtain ⟨z, hz, e⟩ := ih
      rcases List.mem_cons.1 hz with rfl | hz
      · exact ⟨y, by simp, hxy.1 e⟩
      · obtain ⟨u, hu, e'⟩ := ih2 ⟨z, hz, e⟩
        exact ⟨u, List.mem_cons_of_mem _ hu, e'⟩
  | call s hs ρ hρ outs ho hp o hin ih =>
    refine ⟨_, List.mem_singleton.2 rfl, ?_⟩
    obtain ⟨x, hx, e⟩ := ih
    obtain ⟨l, hl, rfl⟩ := List.mem_map.1 hx
    by_cases hu : o.1 = .unique
    · have := (C59_exact s hs).2.1 outs ho o hin hu l hl
      rw [this] at e
      cases e
    · cases ho1 : o.1 with
      | shared => rfl
      | unique => exact absurd ho1 hu

/-- With them, a safe program can keep a view for any time after the memory is freed. -/
theorem C59_programs_refuted (death late : Nat) : Obtains api death .shared [(.shared, late)] := by
  have hm : (⟨"Slice::from_slice", [[(.shared, .elided)]], false, 0, [(.shared, .named "'a")], []⟩ : Sig) ∈ api := by
    decide +kernel
  obtain ⟨e1, e2, e3, e4⟩ := untied_eqs hm (by decide +kernel)
  have := Obtains.call (death := death) (a := .shared) _ hm (fun v => if v = .named "'a" then late else death)
    ⟨by intro p hp; rw [e3] at hp; simp only [List.mem_cons, List.not_mem_nil, or_false] at hp; subst hp; simp,
      by intro b hb; rw [e4] at hb; cases hb⟩ _ e1
    (by rw [e2]; exact .borrow death (Nat.le_refl _)) (.shared, .named "'a") (List.mem_singleton.2 rfl)
  simpa using this

/-- Not vacuous: borrow a container until 5, take `as_slice`, take a reference to it until 3, call
`subslice`. -/
theorem Ex.borrowChain : Obtains tied 7 .shared [(.shared, 3)] :=
  .call ⟨"Slice::subslice", [[(.shared, .elided), (.shared, .named "'a")], []], true, 0, [(.shared, .elided)], []⟩
    (by decide +kernel) (fun v => if v = .anon 0 0 then 3 else 5)
    ⟨by
      intro p hp
      have : p = [(.shared, .anon 0 0), (.shared, .named "'a")] ∨ p = [] := by
        simpa [Sig.paramVars, List.mapIdx_cons, Life.var] using hp
      rcases this with rfl | rfl <;> simp, by intro b hb; cases hb⟩
    [(.shared, .anon 0 0)] rfl
    (.reref [(.shared, 5)] .shared 3 (by simp)
      (.call ⟨"VecDyn::as_slice", [[(.shared, .elided)]], true, 0, [(.shared, .elided)], []⟩ (by decide +kernel)
        (fun _ => 5) ⟨by
          intro p hp
          have : p = [(.shared, .anon 0 0)] := by
            simpa [Sig.paramVars, List.mapIdx_cons, Life.var] using hp
          subst this; simp, by intro b hb; cases hb⟩ [(.shared, .anon 0 0)] rfl (.borrow 5 (by decide))
        (.shared, .anon 0 0) (by simp)))
    (.shared, .anon 0 0) (by simp)
example := C59_programs_partial 7 .shared _ Ex.borrowChain

end Dync
