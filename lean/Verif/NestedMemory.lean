import Verif.NestedLemmas3
/-!
# The memory of containers of containers

How many buffers exist at each level, and how many of them are freed when a container is dropped, also when the user's
`Drop` panics on the way (src/vec_dyn.rs:84-99), and how many are there after it has been cloned, also when the user's
`Clone` panics (src/vec_dyn.rs:101-122).
-/
namespace Dync
variable {U : Type}

/-- The memory of the containers of level `k` (level 1 are the containers of the user's values). -/
def Depth.heap (k : Nat) : {n : Nat} → Depth U n → Heap
  | 0, _ => Heap.empty
  | n + 1, s => if k = n + 1 then (Nest.world s).heap else Depth.heap k (Nest.world s).user

/-- Exactly `m` blocks of memory exist. -/
def Heap.Count (h : Heap) (m : Nat) : Prop := ∃ L : List Nat, L.Nodup ∧ L.length = m ∧ ∀ i, i ∈ L ↔ (h.live i).isSome = true

/-! ### Specification -/

/-- The sum of `f` over the elements for which `run` is called, one after the other until one of them does not return. -/
def untilStop {α β : Type} (f : α → U → Nat) (run : α → M U β) : List α → U → Nat
  | [], _ => 0
  | x :: l, u => f x u + match run x u with
    | (.ok _, u') => untilStop f run l u'
    | _ => 0

/-- The number of lists of level `k` in a nested list that have been dropped completely when dropping it ends: those in which
no value panics, and that come before the one that does. -/
def finished (Γ : TyEnv U) (t : TyId) (k : Nat) : (n : Nat) → Tree n → U → Nat
  | 0, _, _ => 0
  | n + 1, T, u => untilStop (α := Tree n) (finished Γ t k n) (dropTree Γ t n) T u +
      if k = n + 1 ∧ (dropTree Γ t (n + 1) T u).1 = .ok () then 1 else 0

/-- The call returned. -/
def Res.returned {α : Type} : Res α → Bool
  | .ok _ => true
  | _ => false

/-- The number of lists of level `k` in a nested list that have been cloned completely when cloning it ends. -/
def copied (Γ : TyEnv U) (t : TyId) (k : Nat) : (n : Nat) → Tree n → U → Nat
  | 0, _, _ => 0
  | n + 1, T, u => untilStop (α := Tree n) (copied Γ t k n) (cloneTree Γ t n) T u +
      if k = n + 1 ∧ (cloneTree Γ t (n + 1) T u).1.returned = true then 1 else 0

/-- The number of lists of level `k` in a nested list. -/
def listsAt (k : Nat) : (n : Nat) → Tree n → Nat
  | 0, _ => 0
  | n + 1, T => (List.map (α := Tree n) (listsAt k n) T).sum + if k = n + 1 then 1 else 0

/-- The number of lists of level `k` in all the variables. -/
def listsHeld (k : Nat) : {n : Nat} → Vars Tree n → Nat
  | 0, _ => 0
  | n + 1, (Ts, below) => (List.map (α := Tree n) (listsAt k n) Ts).sum + listsHeld k below

/-! ### Lemmas -/

theorem Heap.Count.free {h : Heap} {m i : Nat} (hc : h.Count m) (hi : (h.live i).isSome = true) : ∃ m', (h.free i).Count m' ∧ m = m' + 1 := by
  obtain ⟨L, h1, h2, h3⟩ := hc
  have hm : i ∈ L := (h3 i).2 hi
  refine ⟨(L.erase i).length, ⟨L.erase i, h1.erase i, rfl, fun j => ?_⟩, ?_⟩
  · rw [h1.mem_erase_iff, h3 j]
    show j ≠ i ∧ _ ↔ (if j = i then none else h.live j).isSome = true
    by_cases hj : j = i
    · rw [if_pos hj]; exact ⟨fun h => absurd hj h.1, fun h => by cases h⟩
    · rw [if_neg hj]; exact ⟨fun h => h.2, fun h => ⟨hj, h⟩⟩
  · rw [List.length_erase_of_mem hm, h2]
    have := List.length_pos_of_mem hm
    omega

variable {Γ : TyEnv U} {t : TyId} {N : Nesting U}

theorem count_top {n m : Nat} {s : Nest (Depth U n)} : (Depth.heap (n + 1) (n := n + 1) s).Count m ↔ s.world.heap.Count m := by
  show (if n + 1 = n + 1 then s.world.heap else _).Count m ↔ _
  rw [if_pos rfl]

theorem count_below {k n m : Nat} (h : k ≠ n + 1) {s : Nest (Depth U n)} : (Depth.heap k (n := n + 1) s).Count m ↔ (Depth.heap k s.world.user).Count m := by
  show (if k = n + 1 then s.world.heap else _).Count m ↔ _
  rw [if_neg h]

theorem untilStop_zero {α β : Type} {f : α → U → Nat} {run : α → M U β} (h : ∀ x u, f x u = 0) : ∀ (l : List α) (u : U), untilStop f run l u = 0
  | [], _ => rfl
  | x :: l, u => by
    unfold untilStop
    rw [h x u]
    split
    · rw [untilStop_zero h l]
    · rfl

/-- There are no lists of a level above. -/
theorem finished_above {k : Nat} : ∀ {n : Nat} (_ : n < k) (T : Tree n) (u : U), finished Γ t k n T u = 0
  | 0, _, _, _ => rfl
  | n + 1, h, T, u => by
    exact Nat.add_eq_zero_iff.2 ⟨untilStop_zero (f := finished Γ t k n) (run := dropTree Γ t n) (fun x u => finished_above (by omega) x u) T u,
      if_neg fun hk => by omega⟩

/-- Dropping values one after the other. -/
theorem forEach_memory {k n : Nat} {B : Below n} {leaks : Bool}
    (ih : ∀ {u : Depth U n} {v rest} {r : Res Unit} {u'}, Forest Γ t N leaks n u (v :: rest) B → (Γ.depth N n).drop (depthTy t n) v.1 u = (r, u') →
      (r = .ok () ∨ ∃ y, r = .panic y) → ∀ {m}, (Depth.heap k u).Count m → ∃ m', (Depth.heap k u').Count m' ∧ m = m' + finished Γ t k n v.2 u.base) :
    ∀ {l rest : List (Bytes × Tree n)} {u u' : Depth U n} {r : Res Unit}, Forest Γ t N leaks n u (l ++ rest) B →
      M.forEach (l.map Prod.fst) ((Γ.depth N n).drop (depthTy t n)) u = (r, u') → (r = .ok () ∨ ∃ y, r = .panic y) →
      ∀ {m}, (Depth.heap k u).Count m →
      ∃ m', (Depth.heap k u').Count m' ∧ m = m' + untilStop (finished Γ t k n) (dropTree Γ t n) (l.map Prod.snd) u.base := by
  intro l
  induction l with
  | nil =>
    intro rest u u' r _ he _ m hm
    cases he
    exact ⟨m, hm, rfl⟩
  | cons v l ihl =>
    intro rest u u' r hf he hr m hm
    simp only [List.map_cons, M.forEach_cons] at he ⊢
    rcases hd : (Γ.depth N n).drop (depthTy t n) v.1 u with ⟨r1, u1⟩
    obtain ⟨h1, h2, -⟩ := drop_forest hf hd
    unfold untilStop
    rw [h1]
    cases r1 with
    | ok _ =>
      rw [M.bind_ok hd] at he
      obtain ⟨m1, k1, k2⟩ := ih hf hd (.inl rfl) hm
      obtain ⟨m2, k3, k4⟩ := ihl (h2 rfl) he hr k1
      exact ⟨m2, k3, by dsimp only; omega⟩
    | panic y =>
      rw [M.bind_panic hd] at he
      cases he
      obtain ⟨m1, k1, k2⟩ := ih hf hd (.inr ⟨y, rfl⟩) hm
      exact ⟨m1, k1, by dsimp only; omega⟩
    | ub =>
      rw [M.bind_ub hd] at he
      cases he
      rcases hr with hr | ⟨_, hr⟩ <;> cases hr
    | abort =>
      rw [M.bind_abort hd] at he
      cases he
      rcases hr with hr | ⟨_, hr⟩ <;> cases hr

theorem drop_memory {k : Nat} : ∀ {n : Nat} {leaks : Bool} {u u' : Depth U n} {v : Bytes × Tree n} {rest : List (Bytes × Tree n)} {B : Below n} {r : Res Unit},
    Forest Γ t N leaks n u (v :: rest) B → (Γ.depth N n).drop (depthTy t n) v.1 u = (r, u') → (r = .ok () ∨ ∃ y, r = .panic y) →
    ∀ {m : Nat}, (Depth.heap k u).Count m → ∃ m', (Depth.heap k u').Count m' ∧ m = m' + finished Γ t k n v.2 u.base
  | 0, leaks, u, u', v, rest, B, r, hf, he, hr, m, hm => ⟨m, hm, rfl⟩
  | n + 1, leaks, s, s', v, rest, B, r, hf, he, hr, m, hm => by
    obtain ⟨p, ns, lost, rfl, hv, hn, hl, hb⟩ := hf.pick
    obtain ⟨-, d, hc, R⟩ := hn.is p List.mem_cons_self
    obtain ⟨i, hi, hli⟩ := R.block
    have he : Nest.drop N.cfg p.1 s = (r, s') := by
      have he : (if Nest.ty = Nest.ty then Nest.drop N.cfg p.1 else pure ()).run s = (r, s') := he
      rwa [if_pos rfl] at he
    rcases hk : M.forEach (p.2.map Prod.fst) ((Γ.depth N n).drop (depthTy t n)) s.world.user with ⟨q, u1⟩
    obtain ⟨h1, -, -⟩ := forEach_forest (fun hf he => drop_forest hf he) hb hk
    have h1' : dropTree Γ t (n + 1) p.value.2 (Depth.base (n := n + 1) s) = (q, u1.base) := h1
    have hrun : ∀ {x : Res Unit} {w : World (Depth U n)}, VecDyn.drop N.cfg ⟨d, CloneVTable.build (Γ.depth N n) (depthTy t n)⟩ s.world = (x, w) →
        r = x ∧ s' = s.set p.1 none w := by
      intro x w hx
      unfold Nest.drop at he
      dsimp only at he
      rw [hc] at he
      dsimp only at he
      rw [hx] at he
      cases he
      exact ⟨rfl, rfl⟩
    have hin : ∀ (hq : q = .ok () ∨ ∃ y, q = .panic y), k ≠ n + 1 → ∃ m', (Depth.heap k u1).Count m' ∧
        m = m' + untilStop (finished Γ t k n) (dropTree Γ t n) (p.2.map Prod.snd) s.world.user.base := by
      intro hq hne
      exact forEach_memory (fun hf he hr _ hm => drop_memory hf he hr hm) hb hk hq ((count_below hne).1 hm)
    have hnone : k = n + 1 → untilStop (finished Γ t k n) (dropTree Γ t n) (p.2.map Prod.snd) s.world.user.base = 0 :=
      fun h => untilStop_zero (fun x u => finished_above (by omega) x u) _ _
    have hfin : finished Γ t k (n + 1) p.value.2 (Depth.base (n := n + 1) s) =
        untilStop (finished Γ t k n) (dropTree Γ t n) (p.2.map Prod.snd) s.world.user.base + if k = n + 1 ∧ q = .ok () then 1 else 0 := by
      have : (dropTree Γ t (n + 1) p.value.2 (Depth.base (n := n + 1) s)).1 = q := congrArg Prod.fst h1'
      subst this
      rfl
    rw [hfin]
    cases q with
    | ok _ =>
      obtain ⟨j, hj, hd⟩ := VecDyn.drop_ok (cfg := N.cfg) (c := ⟨d, CloneVTable.build (Γ.depth N n) (depthTy t n)⟩) R (lawfulDrop_build _ _) hk
      obtain ⟨rfl, rfl⟩ := hrun hd
      have hj : d.ptr = some j := hj
      rw [hi] at hj
      cases hj
      by_cases hne : k = n + 1
      · rw [hnone hne, if_pos ⟨hne, rfl⟩]
        subst hne
        obtain ⟨m', g1, g2⟩ := (count_top.1 hm).free (by rw [hli]; rfl)
        exact ⟨m', count_top.2 g1, by omega⟩
      · rw [if_neg fun h => hne h.1]
        obtain ⟨m', g1, g2⟩ := hin (.inl rfl) hne
        exact ⟨m', (count_below hne).2 g1, by omega⟩
    | panic y =>
      have hd := VecDyn.drop_panic (cfg := N.cfg) (c := ⟨d, CloneVTable.build (Γ.depth N n) (depthTy t n)⟩) R (lawfulDrop_build _ _) hk
      obtain ⟨rfl, rfl⟩ := hrun hd
      rw [if_neg fun h => by cases h.2]
      by_cases hne : k = n + 1
      · rw [hnone hne]
        subst hne
        have hm := count_top.1 hm
        exact ⟨m, count_top.2 hm, rfl⟩
      · obtain ⟨m', g1, g2⟩ := hin (.inr ⟨y, rfl⟩) hne
        exact ⟨m', (count_below hne).2 g1, by omega⟩
    | ub =>
      have hd : VecDyn.drop N.cfg ⟨d, CloneVTable.build (Γ.depth N n) (depthTy t n)⟩ s.world = (.ub, { s.world with user := u1 }) := by
        unfold VecDyn.drop
        rw [M.bind_ok (VecCopy.byteChunks_ok R _), VecDyn.dropLoop_eq (lawfulDrop_build _ _) R.each, M.bind_ub (worldUser_of hk)]
      obtain ⟨rfl, rfl⟩ := hrun hd
      rcases hr with hr | ⟨_, hr⟩ <;> cases hr
    | abort =>
      have hd : VecDyn.drop N.cfg ⟨d, CloneVTable.build (Γ.depth N n) (depthTy t n)⟩ s.world = (.abort, { s.world with user := u1 }) := by
        unfold VecDyn.drop
        rw [M.bind_ok (VecCopy.byteChunks_ok R _), VecDyn.dropLoop_eq (lawfulDrop_build _ _) R.each, M.bind_abort (worldUser_of hk)]
      obtain ⟨rfl, rfl⟩ := hrun hd
      rcases hr with hr | ⟨_, hr⟩ <;> cases hr

/-! ### What the numbers of the specification mean -/

theorem untilStop_le {α β : Type} {f : α → U → Nat} {g : α → Nat} {run : α → M U β} (h : ∀ x u, f x u ≤ g x) : ∀ (l : List α) (u : U), untilStop f run l u ≤ (l.map g).sum
  | [], _ => Nat.le_refl _
  | x :: l, u => by
    unfold untilStop
    rw [List.map_cons, List.sum_cons]
    refine Nat.add_le_add (h x u) ?_
    split
    · exact untilStop_le h l _
    · exact Nat.zero_le _

/-- No more lists are dropped than there are. -/
theorem finished_le {k : Nat} : ∀ (n : Nat) (T : Tree n) (u : U), finished Γ t k n T u ≤ listsAt k n T
  | 0, _, _ => Nat.le_refl _
  | n + 1, T, u => by
    refine Nat.add_le_add (untilStop_le (fun x u => finished_le n x u) _ u) ?_
    split
    · rename_i h; rw [if_pos h.1]
    · exact Nat.zero_le _

theorem untilStop_all {α : Type} {f : α → U → Nat} {g : α → Nat} {run : α → M U Unit} (h : ∀ x u u', run x u = (.ok (), u') → f x u = g x) :
    ∀ (l : List α) (u u' : U), M.forEach l run u = (.ok (), u') → untilStop f run l u = (l.map g).sum
  | [], _, _, _ => rfl
  | x :: l, u, u', he => by
    rw [M.forEach_cons] at he
    unfold untilStop
    rw [List.map_cons, List.sum_cons]
    rcases hx : run x u with ⟨r, u1⟩
    cases r with
    | ok _ =>
      rw [M.bind_ok hx] at he
      rw [h x u u1 hx]
      dsimp only
      rw [untilStop_all h l u1 u' he]
    | panic _ => rw [M.bind_panic hx] at he; cases he
    | ub => rw [M.bind_ub hx] at he; cases he
    | abort => rw [M.bind_abort hx] at he; cases he

/-- If nothing panics, all of the lists are dropped. -/
theorem finished_all {k : Nat} : ∀ {n : Nat} {T : Tree n} {u u' : U}, dropTree Γ t n T u = (.ok (), u') → finished Γ t k n T u = listsAt k n T
  | 0, _, _, _, _ => rfl
  | n + 1, T, u, u', he => by
    have e1 := untilStop_all (f := finished Γ t k n) (g := listsAt k n) (run := dropTree Γ t n) (fun x u u' h => finished_all h) T u u' he
    have e2 : (dropTree Γ t (n + 1) T u).1 = .ok () := congrArg Prod.fst he
    have e3 : (if k = n + 1 ∧ (dropTree Γ t (n + 1) T u).1 = .ok () then 1 else 0) = (if k = n + 1 then 1 else 0) := by simp only [e2, and_true]
    exact congrArg₂ (· + ·) e1 e3

theorem untilStop_lt {α : Type} {f : α → U → Nat} {g : α → Nat} {run : α → M U Unit} (hle : ∀ x u, f x u ≤ g x)
    (h : ∀ x u u' y, run x u = (.panic y, u') → f x u < g x) :
    ∀ (l : List α) (u u' : U) (y : Why), M.forEach l run u = (.panic y, u') → untilStop f run l u < (l.map g).sum
  | [], _, _, _, he => by cases he
  | x :: l, u, u', y, he => by
    rw [M.forEach_cons] at he
    unfold untilStop
    rw [List.map_cons, List.sum_cons]
    rcases hx : run x u with ⟨r, u1⟩
    cases r with
    | ok _ =>
      rw [M.bind_ok hx] at he
      exact Nat.add_lt_add_of_le_of_lt (hle x u) (untilStop_lt hle h l u1 u' y he)
    | panic z => exact Nat.lt_of_lt_of_le (h x u u1 z hx) (Nat.le_add_right _ _)
    | ub => rw [M.bind_ub hx] at he; cases he
    | abort => rw [M.bind_abort hx] at he; cases he

/-- If something panics, at each level there is a list that is not dropped. -/
theorem finished_lt {k : Nat} (hk : 0 < k) : ∀ {n : Nat} {T : Tree n} {u u' : U} {y : Why} (_ : k ≤ n), dropTree Γ t n T u = (.panic y, u') →
    finished Γ t k n T u < listsAt k n T
  | 0, _, _, _, _, h, _ => by omega
  | n + 1, T, u, u', y, h, he => by
    show untilStop (α := Tree n) (finished Γ t k n) (dropTree Γ t n) T u + (if k = n + 1 ∧ (dropTree Γ t (n + 1) T u).1 = .ok () then 1 else 0) < 
      (List.map (α := Tree n) (listsAt k n) T).sum + if k = n + 1 then 1 else 0
    rw [he, if_neg (fun h => by cases h.2)]
    by_cases hkn : k = n + 1
    · rw [if_pos hkn]
      have := untilStop_le (run := dropTree Γ t n) (fun x u => finished_le (Γ := Γ) (t := t) (k := k) n x u) T u
      omega
    · rw [if_neg hkn]
      exact untilStop_lt (fun x u => finished_le n x u) (fun x u u' y h => finished_lt hk (by omega) h) T u u' y he

/-! ### Cloning -/

theorem Heap.Count.same {h h' : Heap} {m : Nat} (hc : h.Count m) (hre : Realloc h none h' none) : h'.Count m := by
  obtain ⟨L, h1, h2, h3⟩ := hc
  refine ⟨L, h1, h2, fun i => ?_⟩
  rw [hre.other i (by intro h; cases h) (by intro h; cases h)]
  exact h3 i

theorem Heap.Count.alloc {h h' : Heap} {m i : Nat} (hc : h.Count m) (wf : h.WF) (hre : Realloc h none h' (some i)) (hi : (h'.live i).isSome = true) :
    h'.Count (m + 1) := by
  obtain ⟨L, h1, h2, h3⟩ := hc
  have hfresh : h.next ≤ i := hre.new_fresh (by intro h; cases h) i rfl
  have hout : i ∉ L := by
    intro hm
    have := (h3 i).1 hm
    cases hl : h.live i with
    | none => rw [hl] at this; cases this
    | some l => have := Heap.lt_next wf hl; omega
  refine ⟨i :: L, List.nodup_cons.2 ⟨hout, h1⟩, by rw [List.length_cons, h2], fun j => ?_⟩
  rw [List.mem_cons]
  by_cases hj : j = i
  · subst hj; exact ⟨fun _ => hi, fun _ => .inl rfl⟩
  · rw [hre.other j (by intro h; cases h) (by intro h; cases h; exact hj rfl), ← h3 j]
    exact ⟨fun h => h.resolve_left hj, .inr⟩

theorem copied_above {k : Nat} : ∀ {n : Nat} (_ : n < k) (T : Tree n) (u : U), copied Γ t k n T u = 0
  | 0, _, _, _ => rfl
  | n + 1, h, T, u => by
    exact Nat.add_eq_zero_iff.2 ⟨untilStop_zero (f := copied Γ t k n) (run := cloneTree Γ t n) (fun x u => copied_above (by omega) x u) T u,
      if_neg fun hk => by omega⟩

/-- Cloning values one after the other. -/
theorem mapEach_memory {k n : Nat} {B : Below n} {leaks : Bool}
    (ih : ∀ {u : Depth U n} {v vs} {r : Res Bytes} {u'}, Forest Γ t N leaks n u vs B → v ∈ vs → (Γ.depth N n).clone (depthTy t n) v.1 u = (r, u') →
      (r.returned = true ∨ ∃ y, r = .panic y) → ∀ {m}, (Depth.heap k u).Count m → (Depth.heap k u').Count (m + copied Γ t k n v.2 u.base)) :
    ∀ {l vs : List (Bytes × Tree n)} {u u' : Depth U n} {r : Res (List Bytes)}, Forest Γ t N leaks n u vs B → (∀ v ∈ l, v ∈ vs) →
      M.mapEach (l.map Prod.fst) ((Γ.depth N n).clone (depthTy t n)) u = (r, u') → (r.returned = true ∨ ∃ y, r = .panic y) →
      ∀ {m}, (Depth.heap k u).Count m → (Depth.heap k u').Count (m + untilStop (copied Γ t k n) (cloneTree Γ t n) (l.map Prod.snd) u.base) := by
  intro l
  induction l with
  | nil =>
    intro vs u u' r _ _ he _ m hm
    cases he
    exact hm
  | cons v l ihl =>
    intro vs u u' r hf hk he hr m hm
    simp only [List.map_cons, M.mapEach_cons] at he ⊢
    rcases hd : (Γ.depth N n).clone (depthTy t n) v.1 u with ⟨r1, u1⟩
    have h1 := clone_forest hf (hk v List.mem_cons_self) hd
    unfold untilStop
    cases r1 with
    | ok b =>
      rw [M.bind_ok hd] at he
      obtain ⟨T, h2, h3⟩ := h1
      rw [h2]
      have k1 := ih hf (hk v List.mem_cons_self) hd (.inl rfl) hm
      rcases hm2 : M.mapEach (l.map Prod.fst) ((Γ.depth N n).clone (depthTy t n)) u1 with ⟨r2, u2⟩
      have h4 := ihl (r := r2) h3 (fun w hw => List.mem_cons_of_mem _ (hk w (List.mem_cons_of_mem _ hw))) hm2
      dsimp only
      rw [← Nat.add_assoc]
      cases r2 with
      | ok bs =>
        rw [M.bind_ok hm2] at he
        cases he
        exact h4 (.inl rfl) k1
      | panic y =>
        rw [M.bind_panic hm2] at he
        cases he
        exact h4 (.inr ⟨y, rfl⟩) k1
      | ub =>
        rw [M.bind_ub hm2] at he
        cases he
        rcases hr with hr | ⟨_, hr⟩ <;> cases hr
      | abort =>
        rw [M.bind_abort hm2] at he
        cases he
        rcases hr with hr | ⟨_, hr⟩ <;> cases hr
    | panic y =>
      rw [M.bind_panic hd] at he
      cases he
      rw [h1.1]
      exact ih hf (hk v List.mem_cons_self) hd (.inr ⟨y, rfl⟩) hm
    | ub =>
      rw [M.bind_ub hd] at he
      cases he
      rcases hr with hr | ⟨_, hr⟩ <;> cases hr
    | abort =>
      rw [M.bind_abort hd] at he
      cases he
      rcases hr with hr | ⟨_, hr⟩ <;> cases hr

theorem clone_memory {k : Nat} : ∀ {n : Nat} {leaks : Bool} {u u' : Depth U n} {v : Bytes × Tree n} {vs : List (Bytes × Tree n)} {B : Below n} {r : Res Bytes},
    Forest Γ t N leaks n u vs B → v ∈ vs → (Γ.depth N n).clone (depthTy t n) v.1 u = (r, u') → (r.returned = true ∨ ∃ y, r = .panic y) →
    ∀ {m : Nat}, (Depth.heap k u).Count m → (Depth.heap k u').Count (m + copied Γ t k n v.2 u.base)
  | 0, leaks, u, u', v, vs, B, r, hf, hm, he, hr, m, hc => hc
  | n + 1, leaks, s, s', v, vs, B, r, hf, hm, he, hr, m, hcount => by
    obtain ⟨a, b, rfl⟩ := List.append_of_mem hm
    obtain ⟨p, ns, lost, rfl, hv, hn, hl, hb⟩ := (hf.perm List.perm_middle).pick
    obtain ⟨-, d, hc, R⟩ := hn.is p List.mem_cons_self
    have he : Nest.clone N.cfg (8 * N.words) N.fresh p.1 s = (r, s') := by
      have he : (if Nest.ty = Nest.ty then Nest.clone N.cfg (8 * N.words) N.fresh p.1 else pure []).run s = (r, s') := he
      rwa [if_pos rfl] at he
    unfold Nest.clone at he
    dsimp only at he
    rw [hc] at he
    dsimp only at he
    rcases hk : M.mapEach (p.2.map Prod.fst) ((Γ.depth N n).clone (depthTy t n)) s.world.user with ⟨q, u1⟩
    have h1 := mapEach_forest (fun hf hm he => clone_forest hf hm he) hb (fun w hw => List.mem_append_left _ hw) hk
    have hin : ∀ (hq : q.returned = true ∨ ∃ y, q = .panic y), k ≠ n + 1 →
        (Depth.heap k u1).Count (m + untilStop (copied Γ t k n) (cloneTree Γ t n) (p.2.map Prod.snd) s.world.user.base) := by
      intro hq hne
      exact mapEach_memory (fun hf hm he hr _ hc => clone_memory hf hm he hr hc) hb (fun w hw => List.mem_append_left _ hw) hk hq ((count_below hne).1 hcount)
    have hnone : k = n + 1 → untilStop (copied Γ t k n) (cloneTree Γ t n) (p.2.map Prod.snd) s.world.user.base = 0 :=
      fun h => untilStop_zero (fun x u => copied_above (by omega) x u) _ _
    have hcop : copied Γ t k (n + 1) p.value.2 (Depth.base (n := n + 1) s) = untilStop (copied Γ t k n) (cloneTree Γ t n) (p.2.map Prod.snd) s.world.user.base +
        if k = n + 1 ∧ (M.mapEach (p.2.map Prod.snd) (cloneTree Γ t n) s.world.user.base).1.returned = true then 1 else 0 := rfl
    rw [hcop]
    cases q with
    | ok bs =>
      obtain ⟨l, rfl, h2, h3⟩ := h1
      rw [h2]
      obtain ⟨d', h', hd, R', -, hre⟩ := VecDyn.clone_ok (cfg := N.cfg) (c := ⟨d, CloneVTable.build (Γ.depth N n) (depthTy t n)⟩) R (lawfulClone_build _ _) hn.wf hk
      rw [hd] at he
      dsimp only at he
      rcases enter_cases (8 * N.words) N.fresh (⟨d', CloneVTable.build (Γ.depth N n) (depthTy t n)⟩ : VecDyn (CloneVTable (Depth U n))) ⟨s.pool, ⟨h', u1⟩⟩
        with e2 | ⟨b', e2, -, -⟩
      · have he := e2.symm.trans he
        cases he
        rcases hr with hr | ⟨_, hr⟩ <;> cases hr
      · have he := e2.symm.trans he
        cases he
        by_cases hne : k = n + 1
        · rw [hnone hne, if_pos ⟨hne, rfl⟩]
          subst hne
          obtain ⟨i, hi, hli⟩ := R'.block
          rw [hi] at hre
          have := (count_top.1 hcount).alloc hn.wf hre (by rw [hli]; rfl)
          rw [Nat.zero_add]
          exact count_top.2 this
        · rw [if_neg fun h => hne h.1]
          exact (count_below hne).2 (hin (.inl rfl) hne)
    | panic y =>
      rw [h1.1]
      obtain ⟨h', hd, hre⟩ := VecDyn.clone_panic (cfg := N.cfg) (c := ⟨d, CloneVTable.build (Γ.depth N n) (depthTy t n)⟩) R (lawfulClone_build _ _) hn.wf hk
      rw [hd] at he
      cases he
      rw [if_neg fun h => by cases h.2]
      by_cases hne : k = n + 1
      · rw [hnone hne]
        subst hne
        have := (count_top.1 hcount).same hre
        exact count_top.2 this
      · exact (count_below hne).2 (hin (.inr ⟨y, rfl⟩) hne)
    | ub =>
      have hd := clone_stop (cfg := N.cfg) (c := ⟨d, CloneVTable.build (Γ.depth N n) (depthTy t n)⟩) R (tab_build _ _) (b := true) hk
      rcases hx : VecDyn.clone N.cfg ⟨d, CloneVTable.build (Γ.depth N n) (depthTy t n)⟩ s.world with ⟨x, w⟩
      rw [hx] at hd he
      have hd : x = .ub := hd
      subst hd
      cases he
      rcases hr with hr | ⟨_, hr⟩ <;> cases hr
    | abort =>
      have hd := clone_stop (cfg := N.cfg) (c := ⟨d, CloneVTable.build (Γ.depth N n) (depthTy t n)⟩) R (tab_build _ _) (b := false) hk
      rcases hx : VecDyn.clone N.cfg ⟨d, CloneVTable.build (Γ.depth N n) (depthTy t n)⟩ s.world with ⟨x, w⟩
      rw [hx] at hd he
      have hd : x = .abort := hd
      subst hd
      cases he
      rcases hr with hr | ⟨_, hr⟩ <;> cases hr

theorem copied_le {k : Nat} : ∀ (n : Nat) (T : Tree n) (u : U), copied Γ t k n T u ≤ listsAt k n T
  | 0, _, _ => Nat.le_refl _
  | n + 1, T, u => by
    refine Nat.add_le_add (untilStop_le (fun x u => copied_le n x u) _ u) ?_
    split
    · rename_i h; rw [if_pos h.1]
    · exact Nat.zero_le _

theorem untilStop_mapped {α β : Type} {f : α → U → Nat} {g : α → Nat} {run : α → M U β} (h : ∀ x u u' b, run x u = (.ok b, u') → f x u = g x) :
    ∀ (l : List α) (u u' : U) (bs : List β), M.mapEach l run u = (.ok bs, u') → untilStop f run l u = (l.map g).sum
  | [], _, _, _, _ => rfl
  | x :: l, u, u', bs, he => by
    rw [M.mapEach_cons] at he
    unfold untilStop
    rw [List.map_cons, List.sum_cons]
    rcases hx : run x u with ⟨r, u1⟩
    cases r with
    | ok b =>
      rw [M.bind_ok hx] at he
      rw [h x u u1 b hx]
      dsimp only
      rcases hm : M.mapEach l run u1 with ⟨r2, u2⟩
      cases r2 with
      | ok bs => rw [untilStop_mapped h l u1 u2 bs hm]
      | panic _ => rw [M.bind_panic hm] at he; cases he
      | ub => rw [M.bind_ub hm] at he; cases he
      | abort => rw [M.bind_abort hm] at he; cases he
    | panic _ => rw [M.bind_panic hx] at he; cases he
    | ub => rw [M.bind_ub hx] at he; cases he
    | abort => rw [M.bind_abort hx] at he; cases he

/-- If nothing panics, all of the lists are cloned. -/
theorem copied_all {k : Nat} : ∀ {n : Nat} {T T' : Tree n} {u u' : U}, cloneTree Γ t n T u = (.ok T', u') → copied Γ t k n T u = listsAt k n T
  | 0, _, _, _, _, _ => rfl
  | n + 1, T, T', u, u', he => by
    have e1 := untilStop_mapped (f := copied Γ t k n) (g := listsAt k n) (run := cloneTree Γ t n) (fun x u u' b h => copied_all h) T u u' T' he
    have e2 : (cloneTree Γ t (n + 1) T u).1.returned = true := by rw [he]; rfl
    have e3 : (if k = n + 1 ∧ (cloneTree Γ t (n + 1) T u).1.returned = true then 1 else 0) = (if k = n + 1 then 1 else 0) := by simp only [e2, and_true]
    exact congrArg₂ (· + ·) e1 e3

/-! ### Everything that exists -/

theorem sum_zero {l : List Nat} (h : ∀ x ∈ l, x = 0) : l.sum = 0 := by
  induction l with
  | nil => rfl
  | cons x l ih => rw [List.sum_cons, h x List.mem_cons_self, ih fun y hy => h y (List.mem_cons_of_mem _ hy)]

theorem sum_perm {l l' : List Nat} (h : l.Perm l') : l.sum = l'.sum := by
  induction h with
  | nil => rfl
  | cons x _ ih => rw [List.sum_cons, List.sum_cons, ih]
  | swap x y l => rw [List.sum_cons, List.sum_cons, List.sum_cons, List.sum_cons]; omega
  | trans _ _ h1 h2 => exact h1.trans h2

theorem sum_one {α : Type} (l : List α) : (l.map fun _ => 1).sum = l.length := by
  induction l with
  | nil => rfl
  | cons x l ih => rw [List.map_cons, List.sum_cons, ih, List.length_cons]; omega

theorem listsAt_above {k : Nat} : ∀ {n : Nat} (_ : n < k) (T : Tree n), listsAt k n T = 0
  | 0, _, _ => rfl
  | n + 1, h, T => by
    refine Nat.add_eq_zero_iff.2 ⟨?_, if_neg fun hk => by omega⟩
    refine sum_zero fun x hx => ?_
    obtain ⟨y, -, rfl⟩ := List.mem_map.1 hx
    exact listsAt_above (by omega) y

theorem listsHeld_above {k : Nat} : ∀ {n : Nat} (_ : n ≤ k) (V : Vars Tree n), listsHeld k V = 0
  | 0, _, _ => rfl
  | n + 1, h, (Ts, V) => by
    refine Nat.add_eq_zero_iff.2 ⟨?_, listsHeld_above (by omega) V⟩
    refine sum_zero fun x hx => ?_
    obtain ⟨y, -, rfl⟩ := List.mem_map.1 hx
    exact listsAt_above (by omega) y

theorem Nodes.count {n : Nat} {s : Nest (Depth U n)} {ns : List (Node n)} (h : Nodes Γ t N false n s ns) : s.world.heap.Count ns.length := by
  let f : Node n → Nat := fun p => ((s.pool p.1).bind (·.data.ptr)).getD 0
  have hf : ∀ p ∈ ns, ∃ c, s.pool p.1 = some c ∧ c.data.ptr = some (f p) ∧ (s.world.heap.live (f p)).isSome = true := by
    intro p hp
    obtain ⟨-, d, hc, R⟩ := h.is p hp
    obtain ⟨i, hi, hl⟩ := R.block
    have e : f p = i := by
      show ((s.pool p.1).bind (·.data.ptr)).getD 0 = i
      rw [hc]
      show d.ptr.getD 0 = i
      rw [hi]; rfl
    rw [e]
    exact ⟨_, hc, hi, by rw [hl]; rfl⟩
  refine ⟨ns.map f, ?_, List.length_map _, fun i => ⟨fun hi => ?_, fun hi => ?_⟩⟩
  · refine List.pairwise_map.2 ((List.pairwise_map.1 h.nodup).imp_of_mem ?_)
    intro p q hp hq hne he
    obtain ⟨c, c1, c2, -⟩ := hf p hp
    obtain ⟨c', c1', c2', -⟩ := hf q hq
    exact hne (h.apart _ _ _ _ c1 c1' (by rw [c2, c2', he]))
  · obtain ⟨p, hp, rfl⟩ := List.mem_map.1 hi
    obtain ⟨c, -, -, h3⟩ := hf p hp
    exact h3
  · obtain ⟨l, hl⟩ := Option.isSome_iff_exists.1 hi
    obtain ⟨b, c, hc, hp⟩ := h.blocks rfl i l hl
    obtain ⟨p, hm, rfl⟩ := List.mem_map.1 (h.only b c hc)
    obtain ⟨c', c1, c2, -⟩ := hf p hm
    have : c' = c := Option.some.inj (c1.symm.trans hc)
    subst this
    exact List.mem_map.2 ⟨p, hm, Option.some.inj (c2.symm.trans hp)⟩

/-- If nothing has been leaked, there is one buffer for each list. -/
theorem Forest.count {k : Nat} : ∀ {n : Nat} {s : Depth U n} {vs : List (Bytes × Tree n)} {B : Below n}, Forest Γ t N false n s vs B →
    (Depth.heap k s).Count ((vs.map fun v => listsAt k n v.2).sum + listsHeld k (B.map (B := Tree) fun _ => Prod.snd))
  | 0, s, vs, B, _ => by
    have e : (vs.map fun v => listsAt k 0 v.2).sum = 0 := by
      refine sum_zero fun x hx => ?_
      obtain ⟨y, -, rfl⟩ := List.mem_map.1 hx
      rfl
    rw [e]
    exact ⟨[], List.nodup_nil, rfl, fun i => ⟨(fun h => by cases h), (fun h => by cases h)⟩⟩
  | n + 1, s, vs, (m, B), ⟨ns, lost, h1, h2, h3, h4⟩ => by
    cases h3 rfl
    have ih := Forest.count (k := k) h4
    have hsum : (vs.map fun v => listsAt k (n + 1) v.2).sum = (ns.map fun p => listsAt k (n + 1) p.value.2).sum := by
      rw [← sum_perm (h1.map (fun v : Bytes × Tree (n + 1) => listsAt k (n + 1) v.2)), List.map_map]
      rfl
    have hone : ∀ p : Node n, listsAt k (n + 1) p.value.2 = (p.2.map fun v => listsAt k n v.2).sum + if k = n + 1 then 1 else 0 := by
      intro p
      show ((p.2.map Prod.snd).map (listsAt k n)).sum + _ = _
      rw [List.map_map]
      rfl
    rw [hsum]
    by_cases hk : k = n + 1
    · subst hk
      have e1 : listsHeld (n + 1) (Vars.map (B := Tree) (n := n + 1) (fun _ => Prod.snd) (m, B)) = 0 := listsHeld_above (Nat.le_refl _) _
      have e2 : (ns.map fun p => listsAt (n + 1) (n + 1) p.value.2).sum = ns.length := by
        have : (ns.map fun p => listsAt (n + 1) (n + 1) p.value.2) = ns.map fun _ => 1 := by
          refine List.map_congr_left fun p _ => ?_
          rw [hone p, if_pos rfl]
          have : (p.2.map fun v => listsAt (n + 1) n v.2).sum = 0 := by
            refine sum_zero fun x hx => ?_
            obtain ⟨y, -, rfl⟩ := List.mem_map.1 hx
            exact listsAt_above (by omega) _
          omega
        rw [this]; exact sum_one ns
      rw [e1, e2]
      exact count_top.2 h2.count
    · refine (count_below hk).2 ?_
      have e : (List.map (α := Bytes × Tree n) (fun v => listsAt k n v.2) (([] ++ m) ++ ns.flatMap Prod.snd)).sum + listsHeld k (B.map (B := Tree) fun _ => Prod.snd) =
          (ns.map fun p => listsAt k (n + 1) p.value.2).sum + listsHeld k (Vars.map (B := Tree) (n := n + 1) (fun _ => Prod.snd) (m, B)) := by
        have e1 : listsHeld k (Vars.map (B := Tree) (n := n + 1) (fun _ => Prod.snd) (m, B)) =
            (m.map fun v => listsAt k n v.2).sum + listsHeld k (B.map (B := Tree) fun _ => Prod.snd) := by
          show ((m.map Prod.snd).map (listsAt k n)).sum + _ = _
          rw [List.map_map]
          rfl
        have e2 : ∀ ns : List (Node n), ((ns.flatMap Prod.snd).map fun v => listsAt k n v.2).sum = (ns.map fun p => listsAt k (n + 1) p.value.2).sum := by
          intro ns
          induction ns with
          | nil => rfl
          | cons p ns ih => rw [List.flatMap_cons, List.map_append, List.sum_append, ih, List.map_cons, List.sum_cons, hone p, if_neg hk]; rfl
        rw [e1, List.nil_append, List.map_append, List.sum_append, e2]
        exact (congrArg (· + _) (Nat.add_comm _ _)).trans (Nat.add_assoc _ _ _)
      rw [← e]
      exact ih

end Dync
