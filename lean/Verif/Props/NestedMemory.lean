import Verif.NestedMemory2
import Verif.Props.Nested
/-!
# C100: the memory of containers of containers

One buffer for each container that exists; what dropping and cloning containers of containers does to their number, also
when user code panics on the way.
-/
namespace Dync
variable {U : Type} {Γ : TyEnv U} {t : TyId} {N : Nesting U}

section
variable {n k : Nat} {leaks : Bool} {s u' : Depth U n} {v : Bytes × Tree n} {rest vs : List (Bytes × Tree n)} {B : Below n} {m : Nat}

/-- After a program in which nothing panicked there is at each level exactly one buffer for each list of that level in the
variables of the program with nested lists. -/
theorem C100_program {s : Depth U n} {s' : Vars (fun _ => Bytes) (n + 1) × Depth U n} {as : List (Act n)} {rs : List (Option Why)} (hpos : 0 < Γ.size t)
    (hc : Clean n s) (hw : Depth.WF n s) (hq : ClearsCalmly Γ t as (Vars.none (n + 1), s.base))
    (he : runActs (Act.run Γ t N) as (Vars.none (n + 1), s) = (.ok rs, s')) (hr : ∀ r ∈ rs, r = none) :
    ∃ trees, runActs (Act.spec Γ t) as (Vars.none (n + 1), s.base) = (.ok rs, (trees, s'.2.base)) ∧ ∀ k, (Depth.heap k s'.2).Count (listsHeld k trees) := by
  obtain ⟨⟨trees, u⟩, h1, h2, v, lost, -, h4, h5, h6⟩ := acts_agree hpos as hq (agree_start hc hw) he
  have h2 : s'.2.base = u := h2
  have h4 : v.map (fun _ => Prod.snd) = trees := h4
  subst h2 h4
  have hany : (false || rs.any Option.isSome) = false := by
    rw [Bool.false_or, List.any_eq_false]
    intro r hx
    rw [hr r hx]
    intro h; cases h
  rw [hany] at h5 h6
  cases h5 rfl
  refine ⟨_, h1, fun k => ?_⟩
  obtain ⟨vs, B⟩ := v
  have h7 := Forest.count (k := k) h6
  have e : listsHeld k (Vars.map (B := Tree) (n := n + 1) (fun _ => Prod.snd) (vs, B)) =
      (vs.map fun v => listsAt k n v.2).sum + listsHeld k (B.map (B := Tree) fun _ => Prod.snd) := by
    show ((vs.map Prod.snd).map (listsAt k n)).sum + _ = _
    rw [List.map_map]
    rfl
  rw [e]
  exact h7

/-- After a program in which user code may panic (`Drop` not while a container is cleared) there is at each level one buffer
for each list of that level in the variables, and one for each that was leaked: of a dropped list those that were not
dropped completely, of a clone that panicked those that had been completed. Nothing else leaks, and nothing is freed
twice. -/
theorem C100_leaks {s : Depth U n} {s' : Vars (fun _ => Bytes) (n + 1) × Depth U n} {as : List (Act n)} {rs : List (Option Why)} (hpos : 0 < Γ.size t)
    (hc : Clean n s) (hw : Depth.WF n s) (hq : ClearsCalmly Γ t as (Vars.none (n + 1), s.base))
    (he : runActs (Act.run Γ t N) as (Vars.none (n + 1), s) = (.ok rs, s')) :
    ∃ trees, runActs (Act.spec Γ t) as (Vars.none (n + 1), s.base) = (.ok rs, (trees, s'.2.base)) ∧
      ∀ k, (Depth.heap k s'.2).Count (listsHeld k trees + leakedBy Γ t k as (Vars.none (n + 1), s.base)) := by
  obtain ⟨trees, h1, -⟩ := C98_program hpos hc hw hq he
  refine ⟨trees, h1, fun k => ?_⟩
  obtain ⟨none', h2, h3⟩ := C100_program (Γ := Γ) (t := t) (N := N) (as := []) (rs := []) hpos hc hw trivial rfl (fun r hr => by cases hr)
  cases h2
  have h4 := acts_memory (k := k) hpos as hq (agree_start hc hw) he (L := 0) (h3 k)
  rw [h1] at h4
  exact h4

/-- Only panics leak: what a program leaks is nothing if none of its actions panics. -/
theorem C100_no_leaks {s : Depth U n} {s' : Vars (fun _ => Bytes) (n + 1) × Depth U n} {as : List (Act n)} {rs : List (Option Why)} (hpos : 0 < Γ.size t)
    (hc : Clean n s) (hw : Depth.WF n s) (hq : ClearsCalmly Γ t as (Vars.none (n + 1), s.base))
    (he : runActs (Act.run Γ t N) as (Vars.none (n + 1), s) = (.ok rs, s')) (hr : ∀ r ∈ rs, r = none) (k : Nat) :
    leakedBy Γ t k as (Vars.none (n + 1), s.base) = 0 := by
  obtain ⟨trees, h1, h2⟩ := C100_program hpos hc hw hq he hr
  obtain ⟨trees', h3, h4⟩ := C100_leaks hpos hc hw hq he
  cases h1.symm.trans h3
  have := (h2 k).unique (h4 k)
  omega

/-- Each leak in `C100_leaks` is due to an action that did not return. -/
theorem C100_leaks_panic {a : Act n} {q : Vars Tree (n + 1) × U} (h : a.leaked Γ t k q ≠ 0) : (a.spec Γ t q).1.returned = false := by
  cases hr : (a.spec Γ t q).1.returned with
  | false => rfl
  | true => exact absurd (leaked_ok a q hr) h

/-- And if it is a drop that panics, it leaks at each level, whatever the list and wherever the panic. -/
theorem C100_drop_leaks {i : Nat} {q : Vars Tree (n + 1) × U} {y : Why} (hk : 0 < k) (hkn : k ≤ n) (h : ((Act.drop i).spec Γ t q).1 = .panic y) :
    (Act.drop i).leaked Γ t k q ≠ 0 := by
  obtain ⟨⟨vs, low⟩, u⟩ := q
  simp only [Act.spec, Act.leaked] at h ⊢
  cases hT : vs[i]? with
  | none => rw [hT] at h; cases h
  | some T =>
    rw [hT] at h
    dsimp only at h ⊢
    have := finished_lt (Γ := Γ) (t := t) (k := k) (n := n) (T := T) (u := u) hk hkn (y := y) (u' := (dropTree Γ t n T u).2) (Prod.ext h rfl)
    exact Nat.sub_ne_zero_of_lt this

/-- Dropping a container of containers frees at each level one buffer for each container that has been dropped completely,
and no other, whether the user's `Drop` panics or not. -/
theorem C100_drop {r : Res Unit} (hf : Forest Γ t N leaks n s (v :: rest) B) (he : (Γ.depth N n).drop (depthTy t n) v.1 s = (r, u'))
    (hr : r = .ok () ∨ ∃ y, r = .panic y) (hm : (Depth.heap k s).Count m) :
    ∃ m', (Depth.heap k u').Count m' ∧ m = m' + finished Γ t k n v.2 s.base :=
  drop_memory hf he hr hm

/-- If nothing panics, it frees the buffers of all containers in it. -/
theorem C100_drop_all (hf : Forest Γ t N leaks n s (v :: rest) B) (he : (Γ.depth N n).drop (depthTy t n) v.1 s = (.ok (), u'))
    (hm : (Depth.heap k s).Count m) : ∃ m', (Depth.heap k u').Count m' ∧ m = m' + listsAt k n v.2 := by
  obtain ⟨m', h1, h2⟩ := drop_memory hf he (.inl rfl) hm
  rw [finished_all (drop_forest hf he).1] at h2
  exact ⟨m', h1, h2⟩

/-- If the user's `Drop` panics, buffers are leaked at each level: fewer are freed than there are containers. -/
theorem C100_drop_panic {y : Why} (hf : Forest Γ t N leaks n s (v :: rest) B) (he : (Γ.depth N n).drop (depthTy t n) v.1 s = (.panic y, u'))
    (hk : 0 < k) (hkn : k ≤ n) (hm : (Depth.heap k s).Count m) : ∃ m', (Depth.heap k u').Count m' ∧ m < m' + listsAt k n v.2 := by
  obtain ⟨m', h1, h2⟩ := drop_memory hf he (.inr ⟨y, rfl⟩) hm
  have h3 := finished_lt hk hkn (drop_forest hf he).1
  exact ⟨m', h1, by omega⟩

/-- Cloning a container of containers makes at each level one buffer for each container that has been cloned completely.
They stay there if the user's `Clone` panics afterwards, although nothing owns them then. -/
theorem C100_clone {r : Res Bytes} (hf : Forest Γ t N leaks n s vs B) (hv : v ∈ vs) (he : (Γ.depth N n).clone (depthTy t n) v.1 s = (r, u'))
    (hr : (∃ b, r = .ok b) ∨ ∃ y, r = .panic y) (hm : (Depth.heap k s).Count m) :
    (Depth.heap k u').Count (m + copied Γ t k n v.2 s.base) :=
  clone_memory hf hv he (hr.imp (fun ⟨_, h⟩ => by rw [h]; rfl) id) hm

/-- If nothing panics, there is one new buffer for each container in it. -/
theorem C100_clone_all {b : Bytes} (hf : Forest Γ t N leaks n s vs B) (hv : v ∈ vs) (he : (Γ.depth N n).clone (depthTy t n) v.1 s = (.ok b, u'))
    (hm : (Depth.heap k s).Count m) : (Depth.heap k u').Count (m + listsAt k n v.2) := by
  have h := C100_clone (k := k) hf hv he (.inl ⟨_, rfl⟩) hm
  obtain ⟨T, h1, -⟩ := clone_forest hf hv he
  rwa [copied_all h1] at h

/-- If the user's `Clone` panics, the buffer that the outermost container would have got is freed again. -/
theorem C100_clone_panic {s u' : Depth U (n + 1)} {v : Bytes × Tree (n + 1)} {vs : List (Bytes × Tree (n + 1))} {B : Below (n + 1)} {y : Why}
    (hf : Forest Γ t N leaks (n + 1) s vs B) (hv : v ∈ vs) (he : (Γ.depth N (n + 1)).clone (depthTy t (n + 1)) v.1 s = (.panic y, u'))
    (hm : (Depth.heap (n + 1) s).Count m) : (Depth.heap (n + 1) u').Count m := by
  have h := C100_clone (k := n + 1) hf hv he (.inr ⟨_, rfl⟩) hm
  have h1 := (clone_forest hf hv he).1
  have e : copied Γ t (n + 1) (n + 1) v.2 s.base = 0 :=
    Nat.add_eq_zero_iff.2 ⟨untilStop_zero (f := copied Γ t (n + 1) n) (run := cloneTree Γ t n) (fun x u => copied_above (by omega) x u) v.2 s.base,
      if_neg fun hk => by rw [h1] at hk; cases hk.2⟩
  rwa [e] at h

end

namespace Ex

theorem pair_held (k : Nat) : (Depth.heap k pairState.2).Count (listsHeld k (runActs (Act.spec env 7) pair (Vars.none 3, [])).2.1) := by
  obtain ⟨trees, h1, h2⟩ := C100_program (Γ := env) (t := 7) (N := nesting) (n := 2) (s' := pairState) (as := pair) (by decide) bare_clean bare_wf
    (noClear (by decide)) (Prod.ext (y := (_, _)) paired rfl) (by decide)
  have e : (runActs (Act.spec env 7) pair (Vars.none 3, [])).2.1 = trees := congrArg (fun x => x.2.1) h1
  rw [e]
  exact h2 k

example (k : Nat) : leakedBy env 7 k pair (Vars.none 3, []) = 0 :=
  C100_no_leaks (Γ := env) (t := 7) (N := nesting) (n := 2) (s' := pairState) (as := pair) (by decide) bare_clean bare_wf
    (noClear (by decide)) (Prod.ext (y := (_, _)) paired rfl) (by decide) k

/-- The list `[[g1], [badDrop]]` has one buffer for itself and two for what is in it. -/
theorem pair_count : (Depth.heap 1 pairState.2).Count 2 ∧ (Depth.heap 2 pairState.2).Count 1 := by
  have h1 : listsHeld 1 (runActs (Act.spec env 7) pair (Vars.none 3, [])).2.1 = 2 := by decide +kernel
  have h2 : listsHeld 2 (runActs (Act.spec env 7) pair (Vars.none 3, [])).2.1 = 1 := by decide +kernel
  have c1 := pair_held 1
  have c2 := pair_held 2
  rw [h1] at c1
  rw [h2] at c2
  exact ⟨c1, c2⟩

/-- Dropping it panics in the second of the inner lists: the buffer of the first is freed, the other two are leaked. -/
example : ∃ b u', (env.depth nesting 2).drop 1 b pairState.2 = (.panic .user, u') ∧ (Depth.heap 1 u').Count 1 ∧ (Depth.heap 2 u').Count 1 := by
  obtain ⟨b, lost, B, leaks, h1, h2, h3⟩ := pair_reached
  rcases hd : (env.depth nesting 2).drop 1 b pairState.2 with ⟨r, u'⟩
  obtain ⟨h4, -⟩ := C98_drop h3 hd
  rw [h2] at h4
  have h5 : dropTree env 7 2 list2 [] = (.panic .user, [.dropped 7 g1]) := by rfl
  rw [h5] at h4
  have h6 : Res.panic .user = r := congrArg Prod.fst h4
  subst h6
  obtain ⟨m1, c1, d1⟩ := C100_drop (k := 1) h3 hd (.inr ⟨_, rfl⟩) pair_count.1
  obtain ⟨m2, c2, d2⟩ := C100_drop (k := 2) h3 hd (.inr ⟨_, rfl⟩) pair_count.2
  rw [h2] at d1 d2
  have d1 : 2 = m1 + 1 := d1
  have d2 : 1 = m2 + 0 := d2
  exact ⟨b, u', hd, by rwa [show m1 = 1 by omega] at c1, by rwa [show m2 = 1 by omega] at c2⟩

/-- Cloning it returns, with three new buffers. -/
example : ∃ b b' u', (env.depth nesting 2).clone 1 b pairState.2 = (.ok b', u') ∧ (Depth.heap 1 u').Count 4 ∧ (Depth.heap 2 u').Count 2 := by
  obtain ⟨b, lost, B, leaks, h1, h2, h3⟩ := pair_reached
  have h4 : (match pairState.1.1 with
    | [b] => ((env.depth nesting 2).clone 1 b pairState.2).1.returned
    | _ => false) = true := by decide +kernel
  rw [h1] at h4
  rcases hd : (env.depth nesting 2).clone 1 b pairState.2 with ⟨r, u'⟩
  have h4 : ((env.depth nesting 2).clone 1 b pairState.2).1.returned = true := h4
  rw [hd] at h4
  cases r with
  | ok b' => exact ⟨b, b', u', hd, C100_clone_all (k := 1) h3 List.mem_cons_self hd pair_count.1, C100_clone_all (k := 2) h3 List.mem_cons_self hd pair_count.2⟩
  | panic _ => cases h4
  | ub => cases h4
  | abort => cases h4

/-- The list `[[g1], [badClone]]`. -/
def half : List (Act 2) := [.inner (.inner (.value badClone)), .inner (.inner (.value g1)), .inner .new, .inner (.push 0 0), .inner .new, .inner (.push 0 0), .new,
  .push 0 1, .push 0 0]

def halfState : Vars (fun _ => Bytes) 3 × Depth Log 2 := (runActs (Act.run env 7 nesting) half (Vars.none 3, bare)).2

theorem halved : (runActs (Act.run env 7 nesting) half (Vars.none 3, bare)).1 = .ok (List.replicate 9 none) := by decide +kernel

def list3 : Tree 2 := ([[g1], [badClone]] : List (List Bytes))

theorem half_spec : (show List (List (List Bytes)) from (runActs (Act.spec env 7) half (Vars.none 3, [])).2.1.1) = [[[g1], [badClone]]] := by decide +kernel

theorem half_user : (runActs (Act.spec env 7) half (Vars.none 3, [])).2.2 = [] := by decide +kernel

theorem half_count : (Depth.heap 1 halfState.2).Count 2 ∧ (Depth.heap 2 halfState.2).Count 1 := by
  obtain ⟨trees, h1, h2⟩ := C100_program (Γ := env) (t := 7) (N := nesting) (n := 2) (s' := halfState) (as := half) (by decide) bare_clean bare_wf
    (noClear (by decide)) (Prod.ext (y := (_, _)) halved rfl) (by decide)
  have e : (runActs (Act.spec env 7) half (Vars.none 3, [])).2.1 = trees := congrArg (fun x => x.2.1) h1
  have e1 : listsHeld 1 (runActs (Act.spec env 7) half (Vars.none 3, [])).2.1 = 2 := by decide +kernel
  have e2 : listsHeld 2 (runActs (Act.spec env 7) half (Vars.none 3, [])).2.1 = 1 := by decide +kernel
  have c1 := h2 1
  have c2 := h2 2
  rw [← e, e1] at c1
  rw [← e, e2] at c2
  exact ⟨c1, c2⟩

/-- Cloning it panics in the second of the inner lists: the clone of the first is leaked, the new buffer for the outer one is not. -/
example : ∃ b u', (env.depth nesting 2).clone 1 b halfState.2 = (.panic .user, u') ∧ (Depth.heap 1 u').Count 3 ∧ (Depth.heap 2 u').Count 1 := by
  obtain ⟨b, lost, B, leaks, h1, h2, h3⟩ := reached_one (Γ := env) (t := 7) (N := nesting) (n := 2) (T := list3) (by decide) bare_clean bare_wf
    (noClear (by decide)) (Prod.ext (y := (_, _)) halved rfl) half_spec
  have h1 : halfState.1.1 = [b] := h1
  have h2 : halfState.2.base = [] := h2.symm.trans half_user
  have h3 : Forest env 7 nesting leaks 2 halfState.2 ((b, list3) :: lost) B := h3
  have h4 : (match halfState.1.1 with
    | [b] => why? ((env.depth nesting 2).clone 1 b halfState.2).1
    | _ => none) = some .user := by decide +kernel
  rw [h1] at h4
  rcases hd : (env.depth nesting 2).clone 1 b halfState.2 with ⟨r, u'⟩
  have h4 : why? ((env.depth nesting 2).clone 1 b halfState.2).1 = some .user := h4
  rw [hd] at h4
  cases r with
  | panic y =>
    cases h4
    have c1 := C100_clone (k := 1) h3 List.mem_cons_self hd (.inr ⟨_, rfl⟩) half_count.1
    rw [h2] at c1
    exact ⟨b, u', hd, c1, C100_clone_panic h3 List.mem_cons_self hd half_count.2⟩
  | ok _ => cases h4
  | ub => cases h4
  | abort => cases h4

/-- Dropping `[[g1], [badDrop]]` panics and leaks at both levels. -/
example : ((Act.drop (n := 2) 0).spec env 7 (([list2], Vars.none 2), [])).1 = .panic .user ∧
    (Act.drop (n := 2) 0).leaked env 7 1 (([list2], Vars.none 2), []) ≠ 0 ∧ (Act.drop (n := 2) 0).leaked env 7 2 (([list2], Vars.none 2), []) ≠ 0 := by
  have h : ((Act.drop (n := 2) 0).spec env 7 (([list2], Vars.none 2), [])).1 = .panic .user := by rfl
  exact ⟨h, C100_drop_leaks (by decide) (by decide) h, C100_drop_leaks (by decide) (by decide) h⟩

/-- It did not return, as it has leaked something. -/
example : ((Act.drop (n := 2) 0).spec env 7 (([list2], Vars.none 2), [])).1.returned = false :=
  C100_leaks_panic (k := 1) (C100_drop_leaks (y := .user) (by decide) (by decide) rfl)

/-- Dropping the list `[[g1], [badDrop]]` panics: the program ends with no variables, and two buffers are left. -/
example : ∃ s', runActs (Act.run env 7 nesting) (pair ++ [.drop 0]) (Vars.none 3, bare) = (.ok (List.replicate 9 none ++ [some .user]), s') ∧
    (Depth.heap 1 s'.2).Count 1 ∧ (Depth.heap 2 s'.2).Count 1 := by
  rcases hd : runActs (Act.run env 7 nesting) (pair ++ [.drop 0]) (Vars.none 3, bare) with ⟨r, s'⟩
  have hr : (runActs (Act.run env 7 nesting) (pair ++ [.drop 0]) (Vars.none 3, bare)).1 = .ok (List.replicate 9 none ++ [some .user]) := by decide +kernel
  rw [hd] at hr
  cases hr
  obtain ⟨trees, h1, h2⟩ := C100_leaks (Γ := env) (t := 7) (N := nesting) (n := 2) (by decide) bare_clean bare_wf (noClear (by decide)) hd
  have e : (runActs (Act.spec env 7) (pair ++ [.drop 0]) (Vars.none 3, [])).2.1 = trees := congrArg (fun x => x.2.1) h1
  have e1 : listsHeld 1 (runActs (Act.spec env 7) (pair ++ [.drop 0]) (Vars.none 3, [])).2.1 + leakedBy env 7 1 (pair ++ [.drop 0]) (Vars.none 3, []) = 1 := by decide +kernel
  have e2 : listsHeld 2 (runActs (Act.spec env 7) (pair ++ [.drop 0]) (Vars.none 3, [])).2.1 + leakedBy env 7 2 (pair ++ [.drop 0]) (Vars.none 3, []) = 1 := by decide +kernel
  subst e
  exact ⟨_, hd, (h2 1).of_eq e1, (h2 2).of_eq e2⟩

/-- Cloning the list `[[g1], [badClone]]` panics, then the list is dropped: the clone of `[g1]` is left. -/
example : ∃ s', runActs (Act.run env 7 nesting) (half ++ [.clone 0, .drop 0]) (Vars.none 3, bare) = (.ok (List.replicate 9 none ++ [some .user, none]), s') ∧
    (Depth.heap 1 s'.2).Count 1 ∧ (Depth.heap 2 s'.2).Count 0 := by
  rcases hd : runActs (Act.run env 7 nesting) (half ++ [.clone 0, .drop 0]) (Vars.none 3, bare) with ⟨r, s'⟩
  have hr : (runActs (Act.run env 7 nesting) (half ++ [.clone 0, .drop 0]) (Vars.none 3, bare)).1 = .ok (List.replicate 9 none ++ [some .user, none]) := by decide +kernel
  rw [hd] at hr
  cases hr
  obtain ⟨trees, h1, h2⟩ := C100_leaks (Γ := env) (t := 7) (N := nesting) (n := 2) (by decide) bare_clean bare_wf (noClear (by decide)) hd
  have e : (runActs (Act.spec env 7) (half ++ [.clone 0, .drop 0]) (Vars.none 3, [])).2.1 = trees := congrArg (fun x => x.2.1) h1
  have e1 : listsHeld 1 (runActs (Act.spec env 7) (half ++ [.clone 0, .drop 0]) (Vars.none 3, [])).2.1 + leakedBy env 7 1 (half ++ [.clone 0, .drop 0]) (Vars.none 3, []) = 1 := by
    decide +kernel
  have e2 : listsHeld 2 (runActs (Act.spec env 7) (half ++ [.clone 0, .drop 0]) (Vars.none 3, [])).2.1 + leakedBy env 7 2 (half ++ [.clone 0, .drop 0]) (Vars.none 3, []) = 0 := by
    decide +kernel
  subst e
  exact ⟨_, hd, (h2 1).of_eq e1, (h2 2).of_eq e2⟩

end Ex
end Dync
