import Verif.NestedCompareLemmas2
/-!
# C99 Comparing, hashing and printing containers of containers
-/
namespace Dync
variable {U H F : Type} {Γ : TyEnv U} {t : TyId} {N : Nesting U} {Φ : UserFns U H F} {K : Formatting F}
variable {n : Nat} {s : Depth U n} {a b : Bytes} {x y : Tree n}

/-- `==` of two values at any depth, containers of containers: the user's `==` is called on the same pairs in the same order
as by a comparison of nested lists that goes on up to the end of the shorter list at each level and stops at the first
pair that is not equal or panics; its result is that of this comparison, and nothing but the state of the user's own code
changes. -/
theorem C99_eq (ha : Reads Γ t N n s a x) (hb : Reads Γ t N n s b y) :
    (UserFns.depth K Γ N Φ t n).eq (depthTy t n) a b s = ((eqTree Φ t n x y s.base).1, s.setBase (eqTree Φ t n x y s.base).2) := by
  have h := eq_lifts (K := K) (Φ := Φ) ha hb s.base
  rw [Depth.setBase_base] at h
  exact h

/-- Hashing a value at any depth hashes the values in it from left to right, each once, and nothing else. -/
theorem C99_hash (ha : Reads Γ t N n s a x) (h : H) :
    (UserFns.depth K Γ N Φ t n).hash (depthTy t n) a (h, s) =
      ((M.forEach (leaves n x) (Φ.hash t) (h, s.base)).1, ((M.forEach (leaves n x) (Φ.hash t) (h, s.base)).2.1,
        s.setBase (M.forEach (leaves n x) (Φ.hash t) (h, s.base)).2.2)) := by
  have h1 := hash_lifts (K := K) (Φ := Φ) ha (h, s.base)
  rw [hashTree_leaves] at h1
  have h2 : beside s.setBase (h, s.base) = (h, s) := congrArg (h, ·) (Depth.setBase_base s)
  rw [h2] at h1
  exact h1

/-- So the shape does not matter for the hash: two values with the same values in them, from left to right, are hashed
alike, whatever containers these are in. -/
theorem C99_hash_shape {m : Nat} {s' : Depth U m} {z : Tree m} (ha : Reads Γ t N n s a x) (hb : Reads Γ t N m s' b z) (hl : leaves n x = leaves m z)
    (hu : s.base = s'.base) (h : H) :
    ((UserFns.depth K Γ N Φ t n).hash (depthTy t n) a (h, s)).1 = ((UserFns.depth K Γ N Φ t m).hash (depthTy t m) b (h, s')).1 ∧
    ((UserFns.depth K Γ N Φ t n).hash (depthTy t n) a (h, s)).2.1 = ((UserFns.depth K Γ N Φ t m).hash (depthTy t m) b (h, s')).2.1 := by
  rw [C99_hash ha, C99_hash hb, hl, hu]
  exact ⟨rfl, rfl⟩

/-- Printing a value at any depth, with `{:?}` or `{:#?}`, does to any formatter what `std` does with nested lists. -/
theorem C99_debug (ha : Reads Γ t N n s a x) (f : F) :
    (UserFns.depth K Γ N Φ t n).fmt (depthTy t n) a (f, s) =
      ((fmtTree K Φ t n x (f, s.base)).1, ((fmtTree K Φ t n x (f, s.base)).2.1, s.setBase (fmtTree K Φ t n x (f, s.base)).2.2)) := by
  have h1 := fmt_lifts (K := K) (Φ := Φ) ha (f, s.base)
  have h2 : beside s.setBase (f, s.base) = (f, s) := congrArg (f, ·) (Depth.setBase_base s)
  rw [h2] at h1
  exact h1

/-- The text of `{:?}`: nested lists in brackets. -/
theorem C99_debug_text {Φ : UserFns U H Text} {text : Bytes → List Char} (ha : Reads Γ t N n s a x)
    (hp : ∀ e ∈ leaves n x, PrintsText (Φ.fmt t e) (text e)) (f : Text) (hf : f.pretty = false) :
    ∃ u, (UserFns.depth Text.formatting Γ N Φ t n).fmt (depthTy t n) a (f, s) = (.ok .ok, (f.put (treeText text n x), s.setBase u)) := by
  obtain ⟨u, hu⟩ := fmtTree_plain n x hp f s.base hf
  refine ⟨u, ?_⟩
  rw [C99_debug ha, hu]

/-- The lines of `{:#?}`: each level is indented by four more spaces. -/
theorem C99_debug_pretty {Φ : UserFns U H Text} {lines : Bytes → List (List Char)} (ha : Reads Γ t N n s a x)
    (hp : ∀ e ∈ leaves n x, PrintsText (Φ.fmt t e) (joinLines (lines e)) ∧ lines e ≠ [] ∧ ∀ l ∈ lines e, '\n' ∉ l) (f : Text) (hf : f.pretty = true) :
    ∃ u, (UserFns.depth Text.formatting Γ N Φ t n).fmt (depthTy t n) a (f, s) = (.ok .ok, (f.put (joinLines (treeLines lines n x)), s.setBase u)) := by
  obtain ⟨u, hu⟩ := (fmtTree_pretty n x hp).1 f s.base hf
  refine ⟨u, ?_⟩
  rw [C99_debug ha, hu]

/-- What these functions do to the state is no change that a program could see in its variables, at any level. -/
theorem C99_unchanged {vs : Vars (fun _ => Bytes) (n + 1)} {ts : Vars Tree (n + 1)} (h : ReadsAll Γ t N n s vs ts) (u : U) :
    ReadsAll Γ t N n (s.setBase u) vs ts ∧ (s.setBase u).base = u ∧ (Clean n s → Clean n (s.setBase u)) := by
  refine ⟨h.setBase u, s.base_setBase u, fun hc => ?_⟩
  clear h vs ts
  induction n with
  | zero => trivial
  | succ n ih => exact ⟨hc.1, hc.2.1, ih hc.2.2⟩

/-! ### User code that is a plain function -/

/-- Nested lists agree if their elements do wherever both have one. -/
def TreesAgree (e : Bytes → Bytes → Bool) : (n : Nat) → Tree n → Tree n → Prop
  | 0, x, y => e x y = true
  | n + 1, xs, ys => ∀ (i : Nat) (x y : Tree n), (show List (Tree n) from xs)[i]? = some x → (show List (Tree n) from ys)[i]? = some y → TreesAgree e n x y

theorem allPairs_pure {A : Type} {P : A → A → Prop} {f : A → A → M U Bool} (h : ∀ a b u, ∃ r, f a b u = (.ok r, u) ∧ (r = true ↔ P a b)) :
    ∀ (as bs : List A) (u : U), ∃ r, allPairs f as bs u = (.ok r, u) ∧ (r = true ↔ ∀ (i : Nat) (a b : A), as[i]? = some a → bs[i]? = some b → P a b)
  | [], bs, u => ⟨true, rfl, (fun _ i a b h => by cases h), fun _ => rfl⟩
  | a :: as, [], u => ⟨true, rfl, (fun _ i a b _ h => by cases h), fun _ => rfl⟩
  | a :: as, b :: bs, u => by
    obtain ⟨r, h1, h2⟩ := h a b u
    unfold allPairs
    rw [M.bind_ok h1]
    cases r with
    | false =>
      refine ⟨false, rfl, (fun h => by cases h), fun h => ?_⟩
      exact h2.2 (h 0 a b rfl rfl)
    | true =>
      obtain ⟨r', h3, h4⟩ := allPairs_pure h as bs u
      refine ⟨r', h3, fun hr i a' b' ha hb => ?_, fun hr => h4.2 fun i a' b' ha hb => hr (i + 1) a' b' ha hb⟩
      cases i with
      | zero => cases ha; cases hb; exact h2.1 rfl
      | succ i => exact h4.1 hr i a' b' ha hb

theorem eqTree_pure {e : Bytes → Bytes → Bool} (he : ∀ a b u, Φ.eq t a b u = (.ok (e a b), u)) :
    ∀ (n : Nat) (x y : Tree n) (u : U), ∃ r, eqTree Φ t n x y u = (.ok r, u) ∧ (r = true ↔ TreesAgree e n x y)
  | 0, x, y, u => ⟨_, he x y u, Iff.rfl⟩
  | n + 1, xs, ys, u => allPairs_pure (A := Tree n) (fun a b u => eqTree_pure he n a b u) xs ys u

/-- If the user's `==` is a plain function, then `==` of two values at any depth is `true` if and only if they agree at each
place that both have, at all levels. Lengths are not compared, at no level. -/
theorem C99_eq_pure {e : Bytes → Bytes → Bool} (he : ∀ a b u, Φ.eq t a b u = (.ok (e a b), u)) (ha : Reads Γ t N n s a x) (hb : Reads Γ t N n s b y) :
    ∃ r, (UserFns.depth K Γ N Φ t n).eq (depthTy t n) a b s = (.ok r, s) ∧ (r = true ↔ TreesAgree e n x y) := by
  obtain ⟨r, h1, h2⟩ := eqTree_pure he n x y s.base
  refine ⟨r, ?_, h2⟩
  rw [C99_eq ha hb, h1, Depth.setBase_base]

theorem mapEach_forall₂ {A B S : Type} {f : A → M S B} : ∀ {as : List A} {s s' : S} {bs : List B}, M.mapEach as f s = (.ok bs, s') →
    List.Forall₂ (fun a b => ∃ s s', f a s = (.ok b, s')) as bs
  | [], s, s', bs, h => by cases h; exact .nil
  | a :: as, s, s', bs, h => by
    rw [M.mapEach_cons] at h
    rcases hx : f a s with ⟨r, s1⟩
    cases r with
    | ok b =>
      rw [M.bind_ok hx] at h
      rcases hy : M.mapEach as f s1 with ⟨q, s2⟩
      cases q with
      | ok bs' => rw [M.bind_ok hy] at h; cases h; exact .cons ⟨_, _, hx⟩ (mapEach_forall₂ hy)
      | panic y => rw [M.bind_panic hy] at h; cases h
      | ub => rw [M.bind_ub hy] at h; cases h
      | abort => rw [M.bind_abort hy] at h; cases h
    | panic y => rw [M.bind_panic hx] at h; cases h
    | ub => rw [M.bind_ub hx] at h; cases h
    | abort => rw [M.bind_abort hx] at h; cases h

theorem forall₂_length {A B : Type} {R : A → B → Prop} : ∀ {as : List A} {bs : List B}, List.Forall₂ R as bs → as.length = bs.length
  | _, _, .nil => rfl
  | _, _, .cons _ rs => congrArg (· + 1) (forall₂_length rs)

theorem forall₂_get {A B : Type} {R : A → B → Prop} : ∀ {as : List A} {bs : List B}, List.Forall₂ R as bs → ∀ {i : Nat} {a : A} {b : B},
    as[i]? = some a → bs[i]? = some b → R a b
  | _, _, .nil, i, a, b, h, _ => by cases h
  | _, _, .cons r rs, 0, a, b, h, h' => by cases h; cases h'; exact r
  | _, _, .cons r rs, i + 1, a, b, h, h' => forall₂_get rs (i := i) h h'

theorem cloneTree_agree {e : Bytes → Bytes → Bool} (hc : ∀ a b u u', Γ.clone t a u = (.ok b, u') → e a b = true) :
    ∀ (n : Nat) (x y : Tree n) (u u' : U), cloneTree Γ t n x u = (.ok y, u') → TreesAgree e n x y
  | 0, x, y, u, u', h => hc x y u u' h
  | n + 1, xs, ys, u, u', h => by
    intro i x y hx hy
    obtain ⟨s, s', h'⟩ := forall₂_get (mapEach_forall₂ (A := Tree n) (B := Tree n) h) hx hy
    exact cloneTree_agree hc n x y s s' h'

/-- If the user's `==` is a plain function for which a clone equals the original, then the same holds at every depth. -/
theorem C99_clone_equal {e : Bytes → Bytes → Bool} {leaks : Bool} {v : Bytes × Tree n} {vs : List (Bytes × Tree n)} {B : Below n} {s' : Depth U n}
    (he : ∀ a b u, Φ.eq t a b u = (.ok (e a b), u)) (hc : ∀ a b u u', Γ.clone t a u = (.ok b, u') → e a b = true)
    (hf : Forest Γ t N leaks n s vs B) (hv : v ∈ vs) (h : (Γ.depth N n).clone (depthTy t n) v.1 s = (.ok b, s')) :
    (UserFns.depth K Γ N Φ t n).eq (depthTy t n) v.1 b s' = (.ok true, s') := by
  obtain ⟨T, h1, h2⟩ := clone_forest hf hv h
  obtain ⟨r, h3, h4⟩ := C99_eq_pure (K := K) he (h2.reads v (List.mem_cons_of_mem _ hv)) (h2.reads (b, T) List.mem_cons_self)
  rw [h3, h4.2 (cloneTree_agree hc n v.2 T _ _ h1)]

/-! ### In programs -/

/-- After any program on nested containers (C98), any two of its variables of the outermost level compare as the nested lists
do that they should be. -/
theorem C99_program {as : List (Act n)} {s' : Vars (fun _ => Bytes) (n + 1) × Depth U n} {rs : List (Option Why)} (hpos : 0 < Γ.size t)
    (hc : Clean n s) (hw : Depth.WF n s) (hq : ClearsCalmly Γ t as (Vars.none (n + 1), s.base)) (he : runActs (Act.run Γ t N) as (Vars.none (n + 1), s) = (.ok rs, s')) :
    ∃ trees : Vars Tree (n + 1), runActs (Act.spec Γ t) as (Vars.none (n + 1), s.base) = (.ok rs, (trees, s'.2.base)) ∧
      s'.1.1.length = trees.1.length ∧
      ∀ (i j : Nat) (a b : Bytes) (x y : Tree n), s'.1.1[i]? = some a → s'.1.1[j]? = some b → trees.1[i]? = some x → trees.1[j]? = some y →
        (UserFns.depth K Γ N Φ t n).eq (depthTy t n) a b s'.2 = ((eqTree Φ t n x y s'.2.base).1, s'.2.setBase (eqTree Φ t n x y s'.2.base).2) := by
  obtain ⟨trees, h1, h2⟩ := C98_program hpos hc hw hq he
  have h3 : List.Forall₂ (Reads Γ t N n s'.2) s'.1.1 trees.1 := by
    cases n with
    | zero => exact h2
    | succ n => exact h2.1
  exact ⟨trees, h1, forall₂_length h3, fun i j a b x y hi hj hx hy => C99_eq (forall₂_get h3 hi hx) (forall₂_get h3 hj hy)⟩

/-! ### Examples -/

namespace Ex

/-- The state after building `[[g1, g2], [g1]]` and cloning it, and the two variables. -/
def builtState : Vars (fun _ => Bytes) 3 × Depth Log 2 := (runActs (Act.run env 7 nesting) (building g1) (Vars.none 3, bare)).2

theorem built_reads : ∃ trees, runActs (Act.spec env 7) (building g1) (Vars.none 3, []) = (.ok (List.replicate 12 none), (trees, builtState.2.base)) ∧
    ReadsAll env 7 nesting 2 builtState.2 builtState.1 trees :=
  C98_program (by decide) bare_clean bare_wf (noClear (by decide)) (Prod.ext (y := (_, _)) built rfl)

/-- What the variables should be. -/
def list7 : Tree 2 := ([[g1, g2], [g1]] : List (List Bytes))

theorem spec_vars : (show List (List (List Bytes)) from (runActs (Act.spec env 7) (building g1) (Vars.none 3, [])).2.1.1) = [list7, list7] := by
  show (show List (List (List Bytes)) from (runActs (Act.spec env 7) (building g1) (Vars.none 3, [])).2.1.1) = [[[g1, g2], [g1]], [[g1, g2], [g1]]]
  decide +kernel

/-- The code has returned. -/
def returned {α : Type} : Res α → Bool
  | .ok _ => true
  | _ => false

/-- The original and the clone, in memory. -/
theorem two_reads : ∃ a b, builtState.1.1 = [a, b] ∧ Reads env 7 nesting 2 builtState.2 a list7 ∧ Reads env 7 nesting 2 builtState.2 b list7 := by
  obtain ⟨trees, h1, h2⟩ := built_reads
  have h3 : (show List (List (List Bytes)) from trees.1) = [list7, list7] := by
    rw [← spec_vars, h1]
  have h4 : List.Forall₂ (Reads env 7 nesting 2 builtState.2) builtState.1.1 [list7, list7] := h3 ▸ h2.1
  generalize builtState.1.1 = l at h4
  cases h4 with
  | cons r rs => cases rs with
    | cons r' rs' => cases rs'; exact ⟨_, _, rfl, r, r'⟩

end Ex

open Ex

/-- Comparing the original with its clone runs the user's `==` three times. -/
example : ∃ a b, builtState.1.1 = [a, b] ∧ ((UserFns.depth Text.formatting env nesting fns 7 2).eq 1 a b builtState.2).1 = .ok true ∧
    ((UserFns.depth Text.formatting env nesting fns 7 2).eq 1 a b builtState.2).2.base =
      builtState.2.base ++ [.cloned 7 g1, .cloned 7 g1, .cloned 7 g2, .cloned 7 g2, .cloned 7 g1, .cloned 7 g1] := by
  obtain ⟨a, b, h, ha, hb⟩ := two_reads
  refine ⟨a, b, h, ?_⟩
  have he := C99_eq (K := Text.formatting) (Φ := fns) ha hb
  have he : (UserFns.depth Text.formatting env nesting fns 7 2).eq 1 a b builtState.2 = _ := he
  rw [he, Depth.base_setBase]
  constructor
  · generalize builtState.2.base = u
    rfl
  · generalize builtState.2.base = u
    simp [eqTree, allPairs, list7, M.bind_run, fns, g1, g2, badClone]

/-- Hashing it hashes three values. -/
example : ∃ a b, builtState.1.1 = [a, b] ∧ ((UserFns.depth Text.formatting env nesting fns 7 2).hash 1 a ([], builtState.2)).2.1 = [g1, g2, g1] := by
  obtain ⟨a, b, h, ha, -⟩ := two_reads
  refine ⟨a, b, h, ?_⟩
  have he := C99_hash (K := Text.formatting) (Φ := fns) ha []
  have he : (UserFns.depth Text.formatting env nesting fns 7 2).hash 1 a ([], builtState.2) = _ := he
  rw [he]
  generalize builtState.2.base = u
  rfl

example : treeText (fun _ => ['x']) 2 list7 = "[[x, x], [x]]".toList := by decide +kernel
example : joinLines (treeLines (fun _ => [['x']]) 2 list7) = "[\n    [\n        x,\n        x,\n    ],\n    [\n        x,\n    ],\n]".toList := by
  decide +kernel

example : ∃ a b u, builtState.1.1 = [a, b] ∧ (UserFns.depth Text.formatting env nesting fns 7 2).fmt 1 a (⟨[], true, []⟩, builtState.2) =
    (.ok .ok, (Text.put ⟨[], true, []⟩ (joinLines (treeLines (fun _ => [['x'], ['y']]) 2 list7)), builtState.2.setBase u)) := by
  obtain ⟨a, b, h, ha, -⟩ := two_reads
  obtain ⟨u, hu⟩ := C99_debug_pretty (Φ := fns) (lines := fun _ => [['x'], ['y']]) ha (fun _ _ => ⟨(fun _ _ => ⟨_, rfl⟩), (by decide), (by decide)⟩) ⟨[], true, []⟩ rfl
  exact ⟨a, b, u, h, hu⟩

example : ∃ a b u, builtState.1.1 = [a, b] ∧ (UserFns.depth Text.formatting env nesting fns 7 2).fmt 1 a (⟨[], false, []⟩, builtState.2) =
    (.ok .ok, (Text.put ⟨[], false, []⟩ (treeText (fun _ => ['x', '\n', 'y']) 2 list7), builtState.2.setBase u)) := by
  obtain ⟨a, b, h, ha, -⟩ := two_reads
  obtain ⟨u, hu⟩ := C99_debug_text (Φ := fns) (text := fun _ => ['x', '\n', 'y']) ha (fun _ _ _ _ => ⟨_, rfl⟩) ⟨[], false, []⟩ rfl
  exact ⟨a, b, u, h, hu⟩

/-- The clone and the original are hashed alike, as lists of the same values. -/
example : ∃ a b, builtState.1.1 = [a, b] ∧ ((UserFns.depth Text.formatting env nesting fns 7 2).hash 1 a ([], builtState.2)).2.1 =
    ((UserFns.depth Text.formatting env nesting fns 7 2).hash 1 b ([], builtState.2)).2.1 := by
  obtain ⟨a, b, h, ha, hb⟩ := two_reads
  exact ⟨a, b, h, (C99_hash_shape (K := Text.formatting) (Φ := fns) ha hb rfl rfl []).2⟩

/-- The shapes differ, the values from left to right do not. -/
example : leaves 2 ([[g1], [g2]] : List (List Bytes)) = leaves 2 ([[g1, g2]] : List (List Bytes)) := by decide +kernel

example := C99_program (K := Text.formatting) (Φ := fns) (n := 2) (by decide) bare_clean bare_wf (noClear (by decide)) (Prod.ext (y := (_, _)) built rfl)

example (u : Log) : ∃ trees, ReadsAll env 7 nesting 2 (builtState.2.setBase u) builtState.1 trees := by
  obtain ⟨trees, -, h⟩ := built_reads
  exact ⟨trees, (C99_unchanged h u).1⟩

/-- A further clone of the list equals it. -/
example : ∃ (v : Bytes × Tree 2) (b : Bytes) (s' : Depth Log 2), v.2 = list7 ∧ (env.depth nesting 2).clone 1 v.1 builtState.2 = (.ok b, s') ∧
    (UserFns.depth Text.formatting env nesting { fns with eq := fun _ a b => pure (a == b) } 7 2).eq 1 v.1 b s' = (.ok true, s') := by
  obtain ⟨⟨trees, u⟩, h1, h2, v, lost, h3, h4, -, h5⟩ := acts_agree (Γ := env) (t := 7) (N := nesting) (by decide) (building g1) (noClear (by decide)) (agree_start bare_clean bare_wf)
    (Prod.ext (y := (_, _)) built rfl)
  have h6 : List.map Prod.snd v.1 = [list7, list7] := by
    have : (show List (List (List Bytes)) from trees.1) = [list7, list7] := by
      have h1 : runActs (Act.spec env 7) (building g1) (Vars.none 3, []) = _ := h1
      rw [← spec_vars, h1]
    exact (congrArg Prod.fst h4).trans this
  have h7 : List.map Prod.fst v.1 = builtState.1.1 := congrArg Prod.fst h3
  generalize hv : v.1 = l at h6 h7 h5
  obtain ⟨p, hp, hl⟩ : ∃ p, p.2 = list7 ∧ ∃ q, l = [p, q] := by
    cases l with
    | nil => cases h6
    | cons p l =>
      cases l with
      | nil => have := congrArg List.length h6; cases this
      | cons q l =>
        cases l with
        | nil => exact ⟨p, (List.cons.inj h6).1, q, rfl⟩
        | cons => have := congrArg List.length h6; cases this
  obtain ⟨q, rfl⟩ := hl
  have h8 : (match builtState.1.1 with | [a, _] => returned ((env.depth nesting 2).clone 1 a builtState.2).1 | _ => false) = true := by decide +kernel
  rw [← h7] at h8
  have h8 : returned ((env.depth nesting 2).clone 1 p.1 builtState.2).1 = true := h8
  rcases hc : (env.depth nesting 2).clone 1 p.1 builtState.2 with ⟨r, s'⟩
  rw [hc] at h8
  cases r with
  | ok b =>
    refine ⟨p, b, s', hp, hc, ?_⟩
    refine C99_clone_equal (K := Text.formatting) (e := (· == ·)) (fun _ _ _ => rfl) ?_ h5 (List.mem_append_right _ List.mem_cons_self) hc
    intro a b u u' h
    have h : clone 7 a u = (.ok b, u') := h
    unfold clone at h
    split at h
    · cases h
    · split at h
      · cases h
      · cases h; exact beq_self_eq_true _
  | panic _ => cases h8
  | ub => cases h8
  | abort => cases h8

/-- Nested lists of different lengths agree, if they do up to the shorter length at each level. -/
example : TreesAgree (· == ·) 2 ([[g1], [g2, g1]] : List (List Bytes)) ([[g1, g2], [g2], [g1]] : List (List Bytes)) := by
  obtain ⟨r, h1, h2⟩ := eqTree_pure (Φ := { fns with eq := fun _ a b => pure (a == b) }) (t := 7) (e := (· == ·)) (fun _ _ _ => rfl) 2
    ([[g1], [g2, g1]] : List (List Bytes)) ([[g1, g2], [g2], [g1]] : List (List Bytes)) []
  have h3 : (eqTree (H := List Bytes) (F := Text) { fns with eq := fun _ a b => pure (a == b) } 7 2 ([[g1], [g2, g1]] : List (List Bytes))
    ([[g1, g2], [g2], [g1]] : List (List Bytes)) []).1 = .ok true := by decide +kernel
  rw [h1] at h3
  cases h3
  exact h2.1 rfl

end Dync
