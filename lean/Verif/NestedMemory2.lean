import Verif.NestedMemory
/-!
# The memory of programs with containers of containers

What each action does to the number of buffers of each level, and what the panics of a program leak in total.
-/
namespace Dync
variable {U : Type} {Γ : TyEnv U} {t : TyId} {N : Nesting U}

/-! ### Specification -/

/-- The buffers of level `k` that an action leaks: those of the lists that have not been dropped when the user's `Drop` panics,
and those of the clones that are there when the user's `Clone` panics. -/
def Act.leaked (Γ : TyEnv U) (t : TyId) (k : Nat) : {n : Nat} → Act n → Vars Tree (n + 1) × U → Nat
  | n, .drop i, ((vs, _), u) =>
    match vs[i]? with
    | none => 0
    | some T => listsAt k n T - finished Γ t k n T u
  | n, .clone i, ((vs, _), u) =>
    match vs[i]? with
    | none => 0
    | some T => if (cloneTree Γ t n T u).1.returned = true then 0 else copied Γ t k n T u
  | n + 1, .pick i j, ((vs, _), u) =>
    match vs[i]? with
    | none => 0
    | some T =>
      match (show List (Tree n) from T)[j]? with
      | none => 0
      | some x => if (cloneTree Γ t n x u).1.returned = true then 0 else copied Γ t k n x u
  | _ + 1, .inner a, ((_, low), u) => a.leaked Γ t k (low, u)
  | _, _, _ => 0

/-- The buffers of level `k` that a program leaks. -/
def leakedBy (Γ : TyEnv U) (t : TyId) (k : Nat) {n : Nat} : List (Act n) → Vars Tree (n + 1) × U → Nat
  | [], _ => 0
  | a :: as, q => a.leaked Γ t k q + leakedBy Γ t k as (a.spec Γ t q).2

/-! ### Lemmas -/

/-- The number of buffers is one number. -/
theorem Heap.Count.unique {h : Heap} {m m' : Nat} (a : h.Count m) (b : h.Count m') : m = m' := by
  obtain ⟨L, a1, a2, a3⟩ := a
  obtain ⟨L', b1, b2, b3⟩ := b
  rw [← a2, ← b2]
  exact ((List.perm_ext_iff_of_nodup a1 b1).2 fun i => (a3 i).trans (b3 i).symm).length_eq

/-- The buffer of a container is replaced by another one, or not. -/
theorem Heap.Count.realloc {h h' : Heap} {m i j : Nat} (hc : h.Count m) (wf : h.WF) (hi : (h.live i).isSome = true) (hre : Realloc h (some i) h' (some j))
    (hj : (h'.live j).isSome = true) : h'.Count m := by
  obtain ⟨L, h1, h2, h3⟩ := hc
  by_cases hij : j = i
  · subst hij
    refine ⟨L, h1, h2, fun x => ?_⟩
    by_cases hx : x = j
    · subst hx; exact ⟨fun _ => hj, fun _ => (h3 x).2 hi⟩
    · rw [hre.other x (by intro h; cases h; exact hx rfl) (by intro h; cases h; exact hx rfl)]; exact h3 x
  · have hne : (some j : Option Nat) ≠ some i := by intro h; cases h; exact hij rfl
    have hdead := hre.old_dead hne i rfl
    have hfresh := hre.new_fresh hne j rfl
    have hout : j ∉ L := by
      intro hm
      obtain ⟨l, hl⟩ := Option.isSome_iff_exists.1 ((h3 j).1 hm)
      have := Heap.lt_next wf hl; omega
    have him : i ∈ L := (h3 i).2 hi
    refine ⟨j :: L.erase i, List.nodup_cons.2 ⟨fun h => hout (List.mem_of_mem_erase h), h1.erase i⟩, ?_, fun x => ?_⟩
    · rw [List.length_cons, List.length_erase_of_mem him, h2]
      have := List.length_pos_of_mem him
      omega
    · rw [List.mem_cons, h1.mem_erase_iff]
      by_cases hx : x = j
      · subst hx; exact ⟨fun _ => hj, fun _ => .inl rfl⟩
      · by_cases hx' : x = i
        · subst hx'
          rw [hdead]
          exact ⟨fun h => (h.elim hx fun h => h.1 rfl).elim, fun h => by cases h⟩
        · rw [hre.other x (by intro h; cases h; exact hx' rfl) (by intro h; cases h; exact hx rfl), ← h3 x]
          exact ⟨fun h => (h.resolve_left hx).2, fun h => .inr ⟨hx', h⟩⟩

/-- One if the containers are of level `k`. -/
def one (k n : Nat) : Nat := if k = n + 1 then 1 else 0

theorem one_same (n : Nat) : one (n + 1) n = 1 := if_pos rfl

theorem one_other {k n : Nat} (h : k ≠ n + 1) : one k n = 0 := if_neg h

theorem count_same {k n m : Nat} {s s' : Nest (Depth U n)} (hu : s'.world.user = s.world.user) (hh : k = n + 1 → s.world.heap.Count m → s'.world.heap.Count m)
    (hc : (Depth.heap k (n := n + 1) s).Count m) : (Depth.heap k (n := n + 1) s').Count m := by
  by_cases hk : k = n + 1
  · subst hk
    exact count_top.2 (hh rfl (count_top.1 hc))
  · rw [count_below hk, hu]
    exact (count_below hk).1 hc

theorem new_memory {leaks : Bool} {n k m : Nat} {s s' : Nest (Depth U n)} {vs : List (Bytes × Tree (n + 1))} {B : Below (n + 1)} {b : Bytes}
    (hpos : 0 < (Γ.depth N n).size (depthTy t n)) (hf : Forest Γ t N leaks (n + 1) s vs B)
    (he : Nest.new (8 * N.words) N.fresh (Γ.depth N n) (depthTy t n) s = (.ok b, s')) (hc : (Depth.heap k (n := n + 1) s).Count m) :
    (Depth.heap k (n := n + 1) s').Count (m + one k n) := by
  have hu : s'.world.user = s.world.user := by
    rcases new_forest hpos hf he with h | ⟨_, _, h, _⟩
    · cases h
    · exact h
  by_cases hk : k = n + 1
  · subst hk
    rw [one_same]
    refine count_top.2 ?_
    have hc := count_top.1 hc
    obtain ⟨ns, lost, hv, hn, hl, hb⟩ := hf
    obtain ⟨c, h', hrun, R, hvt, hre, -⟩ := VecCopy.withType_ok (vt := CloneVTable.build (Γ.depth N n) (depthTy t n)) hn.wf hpos
    unfold Nest.new at he
    dsimp only at he
    rw [hrun] at he
    dsimp only at he
    rcases enter_cases (8 * N.words) N.fresh c ⟨s.pool, ⟨h', s.world.user⟩⟩ with e | ⟨b', e, -, -⟩
    · have he := e.symm.trans he; cases he
    · have he := e.symm.trans he
      cases he
      obtain ⟨i, hi, hli⟩ := R.block
      rw [hi] at hre
      have hres := hc.alloc hn.wf hre (by rw [hli]; rfl)
      exact hres
  · rw [one_other hk, count_below hk, hu]
    exact (count_below hk).1 hc

theorem push_memory {leaks : Bool} {n k m : Nat} {s s' : Nest (Depth U n)} {v : Bytes × Tree (n + 1)} {x : Bytes × Tree n} {vs : List (Bytes × Tree (n + 1))}
    {l : List (Bytes × Tree n)} {B : Below n} {b : Bytes} (hx : x.1.length = (Γ.depth N n).size (depthTy t n))
    (hf : Forest Γ t N leaks (n + 1) s (v :: vs) (x :: l, B))
    (he : Nest.push N.cfg (8 * N.words) N.fresh (Γ.depth N n) (depthTy t n) v.1 x.1 s = (.ok b, s')) (hc : (Depth.heap k (n := n + 1) s).Count m) :
    (Depth.heap k (n := n + 1) s').Count m := by
  refine count_same ?_ (fun _ hcount => ?_) hc
  · rcases push_forest hx hf he with h | ⟨_, _, h, _⟩
    · cases h
    · exact h
  · obtain ⟨p, ns, lost, rfl, hv, hn, hl, hb⟩ := hf.pick
    obtain ⟨-, d, hc, R⟩ := hn.is p List.mem_cons_self
    obtain ⟨i, hi, hli⟩ := R.block
    have he : Nest.push N.cfg (8 * N.words) N.fresh (Γ.depth N n) (depthTy t n) p.1 x.1 s = (.ok b, s') := he
    unfold Nest.push at he
    dsimp only at he
    rw [hc] at he
    dsimp only at he
    split at he
    · rename_i hroom
      obtain ⟨d', h', hrun, hev⟩ := VecCopy.pushAs_ok (cfg := N.cfg) (c := ⟨d, CloneVTable.build (Γ.depth N n) (depthTy t n)⟩) R hn.wf hx
        (by rw [← R.len]; exact hroom)
      rw [hrun] at he
      dsimp only at he
      rcases enter_cases (8 * N.words) N.fresh ⟨d', CloneVTable.build (Γ.depth N n) (depthTy t n)⟩ (s.set p.1 none ⟨h', s.world.user⟩) with e | ⟨b', e, -, -⟩
      · have he := e.symm.trans he; cases he
      · have he := e.symm.trans he
        cases he
        obtain ⟨j, hj, hlj⟩ := hev.repr.block
        have hre := hev.realloc
        have hi : d.ptr = some i := hi
        rw [show (VecCopy.data (⟨d, CloneVTable.build (Γ.depth N n) (depthTy t n)⟩ : VecDyn (CloneVTable (Depth U n)))).ptr = some i from hi, hj] at hre
        have hres := hcount.realloc hn.wf (by rw [hli]; rfl) hre (by rw [hlj]; rfl)
        exact hres
    · cases he

theorem take_memory {leaks : Bool} {n k m : Nat} {s s' : Nest (Depth U n)} {v : Bytes × Tree (n + 1)} {vs : List (Bytes × Tree (n + 1))}
    {l : List (Bytes × Tree n)} {B : Below n} {r : Res (List Bytes)} (hf : Forest Γ t N leaks (n + 1) s (v :: vs) (l, B))
    (he : Nest.take N.cfg (Γ.depth N n) (depthTy t n) v.1 s = (r, s')) (hc : (Depth.heap k (n := n + 1) s).Count m) :
    ∃ m', (Depth.heap k (n := n + 1) s').Count m' ∧ m = m' + one k n := by
  obtain ⟨-, -, -, hu, -⟩ := take_forest hf he
  by_cases hk : k = n + 1
  · subst hk
    rw [one_same]
    have hcount := count_top.1 hc
    obtain ⟨p, ns, lost, rfl, hv, hn, hl, hb⟩ := hf.pick
    obtain ⟨-, d, hc, R⟩ := hn.is p List.mem_cons_self
    obtain ⟨i, hi, hli⟩ := R.block
    have he : Nest.take N.cfg (Γ.depth N n) (depthTy t n) p.1 s = (r, s') := he
    unfold Nest.take at he
    dsimp only at he
    rw [hc] at he
    dsimp only at he
    rw [intoVec_vec (c := ⟨d, CloneVTable.build (Γ.depth N n) (depthTy t n)⟩) R] at he
    dsimp only at he
    have hpos : d.cap * (Γ.depth N n).size (depthTy t n) ≠ 0 := Nat.mul_ne_zero (by have := R.cap_pos; omega) (by have := R.pos; omega)
    have hfree : d.typedView.dropBuf ((Γ.depth N n).layout (depthTy t n)) s.world = (.ok (), { s.world with heap := s.world.heap.free i }) := by
      have h1 : dealloc d.ptr ⟨d.cap * (Γ.depth N n).size (depthTy t n), (Γ.depth N n).align (depthTy t n)⟩ s.world.heap = (.ok (), s.world.heap.free i) := by
        unfold dealloc
        dsimp only
        rw [if_neg hpos, hi]
        dsimp only
        rw [if_pos hli]
      show worldHeap (dealloc d.ptr ⟨d.cap * (Γ.depth N n).size (depthTy t n), (Γ.depth N n).align (depthTy t n)⟩) s.world = _
      unfold worldHeap
      simp only [M.zoom_run, h1]
    rw [hfree] at he
    cases he
    obtain ⟨m', h1, h2⟩ := hcount.free (i := i) (by rw [hli]; rfl)
    exact ⟨m', count_top.2 h1, h2⟩
  · rw [one_other hk]
    refine ⟨m, ?_, rfl⟩
    rw [count_below hk, hu]
    exact (count_below hk).1 hc

theorem swap_memory {leaks : Bool} {n k m i : Nat} {s s' : Nest (Depth U n)} {v : Bytes × Tree (n + 1)} {x : Bytes × Tree n} {vs : List (Bytes × Tree (n + 1))}
    {l : List (Bytes × Tree n)} {B : Below n} {b : Bytes} (hx : x.1.length = (Γ.depth N n).size (depthTy t n))
    (hf : Forest Γ t N leaks (n + 1) s (v :: vs) (x :: l, B)) (he : Nest.swap (Γ.depth N n) (depthTy t n) v.1 i x.1 s = (.ok b, s'))
    (hc : (Depth.heap k (n := n + 1) s).Count m) : (Depth.heap k (n := n + 1) s').Count m := by
  obtain ⟨h1, h2⟩ := swap_forest hx hf he
  cases hk : (show List (Tree n) from v.2)[i]? with
  | none => have := (h1 hk).1; cases this
  | some T =>
    obtain ⟨_, -, hu, -⟩ := h2 T hk
    refine count_same hu (fun _ hcount => ?_) hc
    obtain ⟨p, ns, lost, rfl, hv, hn, hl, hb⟩ := hf.pick
    obtain ⟨hlen, d, hc, R⟩ := hn.is p List.mem_cons_self
    have he : Nest.swap (Γ.depth N n) (depthTy t n) p.1 i x.1 s = (.ok b, s') := he
    unfold Nest.swap at he
    dsimp only at he
    rw [hc] at he
    dsimp only at he
    have hk : (p.2.map Prod.snd)[i]? = some T := hk
    obtain ⟨y, hy, rfl⟩ := getElem?_of_map hk
    obtain ⟨hlt, hye⟩ := List.getElem?_eq_some_iff.1 hy
    have hlt' : i < (p.2.map Prod.fst).length := by rw [List.length_map]; exact hlt
    obtain ⟨d', hrun, hev⟩ := VecCopy.getMutAs_ok (c := ⟨d, CloneVTable.build (Γ.depth N n) (depthTy t n)⟩) R hn.wf hlt'
      (m := (⟨fun e => (.ok e.1, (x.1, e.2))⟩ : M (Bytes × World (Depth U n)) Bytes)) rfl hx
    rw [hrun] at he
    cases he
    exact hcount

theorem rotate_memory {leaks : Bool} {n k m i : Nat} {s s' : Nest (Depth U n)} {v : Bytes × Tree (n + 1)} {vs : List (Bytes × Tree (n + 1))} {B : Below (n + 1)}
    {r : Res Unit} {left : Bool} (ha : (Γ.depth N n).align (depthTy t n) ≤ 8192) (hf : Forest Γ t N leaks (n + 1) s (v :: vs) B)
    (he : Nest.rotate N.cfg left (Γ.depth N n) v.1 i s = (r, s'))
    (hc : (Depth.heap k (n := n + 1) s).Count m) : (Depth.heap k (n := n + 1) s').Count m := by
  obtain ⟨h1, h2⟩ := rotate_forest ha hf he
  by_cases hk : i ≤ List.length (α := Tree n) v.2
  · obtain ⟨-, hu, -⟩ := h1 hk
    refine count_same hu (fun _ hcount => ?_) hc
    obtain ⟨p, ns, lost, rfl, hv, hn, hl, hb⟩ := hf.pick
    obtain ⟨hlen, d, hc, R⟩ := hn.is p List.mem_cons_self
    have he : Nest.rotate N.cfg left (Γ.depth N n) p.1 i s = (r, s') := he
    unfold Nest.rotate at he
    dsimp only at he
    rw [hc] at he
    dsimp only at he
    have hL : VecCopy.len (⟨d, CloneVTable.build (Γ.depth N n) (depthTy t n)⟩ : VecDyn (CloneVTable (Depth U n))) = p.2.length := by
      show d.len = _
      rw [R.len, List.length_map]
    have hT : List.length (α := Tree n) p.value.2 = p.2.length := List.length_map (f := Prod.snd) (as := p.2)
    rw [hT] at hk
    rw [hL, if_pos hk] at he
    have hk' : i ≤ (p.2.map Prod.fst).length := by rw [List.length_map]; exact hk
    have hrun : ∃ d', (if left then VecCopy.rotateLeft (Γ.depth N n) N.cfg i else VecCopy.rotateRight (Γ.depth N n) N.cfg i)
        ((⟨d, CloneVTable.build (Γ.depth N n) (depthTy t n)⟩ : VecDyn (CloneVTable (Depth U n))), s.world) =
        (.ok (), (⟨d', CloneVTable.build (Γ.depth N n) (depthTy t n)⟩, s.world)) := by
      cases left with
      | true =>
        obtain ⟨d', h, -⟩ := VecCopy.rotateLeft_ok (cfg := N.cfg) (c := ⟨d, CloneVTable.build (Γ.depth N n) (depthTy t n)⟩) R hn.wf hk' ha
        exact ⟨d', h⟩
      | false =>
        obtain ⟨d', h, -⟩ := VecCopy.rotateRight_ok (cfg := N.cfg) (c := ⟨d, CloneVTable.build (Γ.depth N n) (depthTy t n)⟩) R hn.wf hk' ha
        exact ⟨d', h⟩
    obtain ⟨d', hrun⟩ := hrun
    rw [hrun] at he
    cases he
    exact hcount
  · obtain ⟨-, rfl⟩ := h2 hk
    exact hc

theorem append_memory {leaks : Bool} {n k m : Nat} {s s' : Nest (Depth U n)} {v v' : Bytes × Tree (n + 1)} {vs : List (Bytes × Tree (n + 1))} {B : Below (n + 1)}
    {x : Bytes × Bytes} (h3 : (Γ.depth N n).align (depthTy t n) ≠ 1) (hf : Forest Γ t N leaks (n + 1) s (v :: v' :: vs) B)
    (he : Nest.append N.cfg (8 * N.words) N.fresh (Γ.depth N n) v.1 v'.1 (depthTy t n) s = (.ok x, s'))
    (hc : (Depth.heap k (n := n + 1) s).Count m) : (Depth.heap k (n := n + 1) s').Count m := by
  refine count_same ?_ (fun _ hcount => ?_) hc
  · rcases append_forest h3 hf he with h | ⟨_, _, _, h, _⟩
    · cases h
    · exact h
  · obtain ⟨p, ns, lost, rfl, hv, hn, hl, hb⟩ := hf.pick
    obtain ⟨q, hq, rfl⟩ := List.mem_map.1 (hv.mem_iff.2 List.mem_cons_self)
    obtain ⟨-, d, hc, R⟩ := hn.is p List.mem_cons_self
    obtain ⟨-, d2, hc2, R2⟩ := hn.is q (List.mem_cons_of_mem _ hq)
    obtain ⟨i, hi, hli⟩ := R.block
    have he : Nest.append N.cfg (8 * N.words) N.fresh (Γ.depth N n) p.1 q.1 (depthTy t n) s = (.ok x, s') := he
    unfold Nest.append at he
    dsimp only at he
    rw [hc, hc2] at he
    dsimp only at he
    split at he
    · rename_i hroom
      obtain ⟨d', h', hrun, hev⟩ := VecCopy.append_ok (cfg := N.cfg) (c := ⟨d, CloneVTable.build (Γ.depth N n) (depthTy t n)⟩)
        (w := (⟨s.world.heap, (⟨d2, CloneVTable.build (Γ.depth N n) (depthTy t n)⟩, s.world.user)⟩ :
          World (VecDyn (CloneVTable (Depth U n)) × Depth U n))) R R2 hn.wf
        (by rw [← R.len, ← R2.len]; exact hroom) (fun h => h3 h.2.1)
      rw [hrun] at he
      dsimp only at he
      obtain ⟨j, hj, hlj⟩ := hev.repr.block
      have hre := hev.realloc
      rw [show (VecCopy.data (⟨d, CloneVTable.build (Γ.depth N n) (depthTy t n)⟩ : VecDyn (CloneVTable (Depth U n)))).ptr = some i from hi, hj] at hre
      have hres := hcount.realloc hn.wf (by rw [hli]; rfl) hre (by rw [hlj]; rfl)
      rcases enter_cases (8 * N.words) N.fresh ⟨d', CloneVTable.build (Γ.depth N n) (depthTy t n)⟩ (s.set p.1 none ⟨h', s.world.user⟩) with e | ⟨b, e, hb1, hb2⟩
      · rw [e] at he
        cases he
      · rw [e] at he
        dsimp only at he
        generalize hs1 : ((s.set p.1 none ⟨h', s.world.user⟩).set b (some ⟨d', CloneVTable.build (Γ.depth N n) (depthTy t n)⟩)
          (s.set p.1 none ⟨h', s.world.user⟩).world) = s1 at he
        have hw : s1.world = ⟨h', s.world.user⟩ := by rw [← hs1]; rfl
        rcases enter_cases (8 * N.words) N.fresh ⟨⟨d2.ptr, 0, d2.cap, d2.elem, []⟩, CloneVTable.build (Γ.depth N n) (depthTy t n)⟩ (s1.set q.1 none s1.world)
          with e2 | ⟨b', e2, hb3, hb4⟩
        · rw [e2] at he
          cases he
        · rw [e2] at he
          cases he
          show s1.world.heap.Count m
          rw [hw]
          exact hres
    · cases he

theorem pick_memory {leaks : Bool} {n k m i : Nat} {s s' : Nest (Depth U n)} {v : Bytes × Tree (n + 1)} {vs : List (Bytes × Tree (n + 1))}
    {l : List (Bytes × Tree n)} {B : Below n} {r : Res Bytes} {T : Tree n} (hf : Forest Γ t N leaks (n + 1) s vs (l, B)) (hm : v ∈ vs)
    (he : Nest.pick (Γ.depth N n) (depthTy t n) v.1 i s = (r, s')) (hT : (show List (Tree n) from v.2)[i]? = some T) (hr : r.returned = true ∨ ∃ y, r = .panic y)
    (hc : (Depth.heap k (n := n + 1) s).Count m) : (Depth.heap k (n := n + 1) s').Count (m + copied Γ t k n T s.world.user.base) := by
  obtain ⟨ns, lost, hv, hn, hl, hb⟩ := hf
  obtain ⟨p, hp, rfl⟩ := List.mem_map.1 (hv.mem_iff.2 hm)
  obtain ⟨-, d, hpool, R⟩ := hn.is p hp
  have he : Nest.pick (Γ.depth N n) (depthTy t n) p.1 i s = (r, s') := he
  unfold Nest.pick at he
  dsimp only at he
  rw [hpool] at he
  dsimp only at he
  have hk : (p.2.map Prod.snd)[i]? = some T := hT
  obtain ⟨x, hx, rfl⟩ := getElem?_of_map hk
  obtain ⟨hlt, hxe⟩ := List.getElem?_eq_some_iff.1 hx
  have hlt' : i < (p.2.map Prod.fst).length := by rw [List.length_map]; exact hlt
  have hel : (p.2.map Prod.fst)[i] = x.1 := by rw [List.getElem_map, hxe]
  rw [VecCopy.getAs_ok (c := ⟨d, CloneVTable.build (Γ.depth N n) (depthTy t n)⟩) R hlt', hel] at he
  dsimp only at he
  rcases hd : (Γ.depth N n).clone (depthTy t n) x.1 s.world.user with ⟨q, u'⟩
  rw [hd] at he
  cases he
  by_cases hk : k = n + 1
  · subst hk
    rw [copied_above (by omega)]
    have hres := count_top.1 hc
    exact count_top.2 hres
  · exact (count_below hk).2 (clone_memory hb (List.mem_append_right _ (List.mem_flatMap.2 ⟨p, hp, List.mem_of_getElem? hx⟩)) hd hr ((count_below hk).1 hc))

theorem clear_memory {leaks : Bool} {n k m : Nat} {s s' : Nest (Depth U n)} {v : Bytes × Tree (n + 1)} {vs : List (Bytes × Tree (n + 1))} {B : Below (n + 1)}
    {b : Bytes} (hf : Forest Γ t N leaks (n + 1) s (v :: vs) B)
    (he : Nest.clear N.cfg (8 * N.words) N.fresh (Γ.depth N n) v.1 s = (.ok b, s')) (hc : (Depth.heap k (n := n + 1) s).Count m) :
    ∃ m', (Depth.heap k (n := n + 1) s').Count m' ∧ m = m' + (List.map (α := Tree n) (listsAt k n) v.2).sum := by
  obtain ⟨p, ns, lost, rfl, hv, hn, hl, hb⟩ := hf.pick
  obtain ⟨-, d, hpool, R⟩ := hn.is p List.mem_cons_self
  rcases hk : M.forEach (p.2.map Prod.fst) ((Γ.depth N n).drop (depthTy t n)) s.world.user with ⟨q, u1⟩
  obtain ⟨h1, -, -⟩ := forEach_forest (fun hf he => drop_forest hf he) hb hk
  have he : Nest.clear N.cfg (8 * N.words) N.fresh (Γ.depth N n) p.1 s = (.ok b, s') := he
  unfold Nest.clear at he
  dsimp only at he
  rw [hpool] at he
  dsimp only at he
  cases q with
  | ok _ =>
    rw [VecDyn.clear_ok (cfg := N.cfg) (c := ⟨d, CloneVTable.build (Γ.depth N n) (depthTy t n)⟩) R (lawfulDrop_build _ _) hk] at he
    dsimp only at he
    rcases enter_cases (8 * N.words) N.fresh ⟨⟨d.ptr, 0, d.cap, d.elem, []⟩, CloneVTable.build (Γ.depth N n) (depthTy t n)⟩ (s.set p.1 none ⟨s.world.heap, u1⟩)
      with e2 | ⟨b, e2, hb3, hb4⟩
    · rw [e2] at he
      cases he
    · rw [e2] at he
      cases he
      by_cases hkn : k = n + 1
      · subst hkn
        have hres := count_top.1 hc
        refine ⟨m, count_top.2 hres, ?_⟩
        rw [sum_zero (l := List.map (α := Tree n) (listsAt (n + 1) n) p.value.2) (fun x hx => by
          obtain ⟨y, -, rfl⟩ := List.mem_map.1 hx
          exact listsAt_above (by omega) y)]
        rfl
      · obtain ⟨m', g1, g2⟩ := forEach_memory (k := k) (fun hf he hr _ hc => drop_memory hf he hr hc) hb hk (.inl rfl) ((count_below hkn).1 hc)
        refine ⟨m', (count_below hkn).2 g1, ?_⟩
        have h1 : M.forEach (p.2.map Prod.snd) (dropTree Γ t n) s.world.user.base = (.ok (), u1.base) := h1
        rw [g2, untilStop_all (g := listsAt k n) (fun x u u' h => finished_all h) _ _ _ h1]
        rfl
  | panic y =>
    rw [clear_stops R hk (by intro h; cases h)] at he
    cases he
  | ub =>
    rw [clear_stops R hk (by intro h; cases h)] at he
    cases he
  | abort =>
    rw [clear_stops R hk (by intro h; cases h)] at he
    cases he

/-! ### Actions -/

theorem Heap.Count.of_eq {h : Heap} {m m' : Nat} (hc : h.Count m) (e : m = m') : h.Count m' := e ▸ hc

theorem held_cons {k n : Nat} (T : Tree n) (Ts : List (Tree n)) (low : Vars Tree n) :
    listsHeld k (n := n + 1) (T :: Ts, low) = listsAt k n T + listsHeld k (n := n + 1) (Ts, low) := by
  show (List.map (listsAt k n) (T :: Ts)).sum + listsHeld k low = _ + ((List.map (listsAt k n) Ts).sum + listsHeld k low)
  rw [List.map_cons, List.sum_cons, Nat.add_assoc]

theorem held_erase {k n i : Nat} {T : Tree n} {Ts : List (Tree n)} (h : Ts[i]? = some T) (low : Vars Tree n) :
    listsHeld k (n := n + 1) (Ts, low) = listsAt k n T + listsHeld k (n := n + 1) (Ts.eraseIdx i, low) := by
  rw [← held_cons]
  show (List.map (listsAt k n) Ts).sum + listsHeld k low = (List.map (listsAt k n) (T :: Ts.eraseIdx i)).sum + listsHeld k low
  rw [sum_perm ((perm_eraseIdx h).map _)]

theorem held_set {k n i : Nat} {T : Tree n} {Ts : List (Tree n)} (h : Ts[i]? = some T) (w : Tree n) (low : Vars Tree n) :
    listsHeld k (n := n + 1) (Ts.set i w, low) = listsAt k n w + listsHeld k (n := n + 1) (Ts.eraseIdx i, low) := by
  rw [← held_cons]
  show (List.map (listsAt k n) (Ts.set i w)).sum + listsHeld k low = (List.map (listsAt k n) (w :: Ts.eraseIdx i)).sum + listsHeld k low
  rw [sum_perm ((set_perm_eraseIdx h w).map _)]

theorem held_append {k n : Nat} (Ts Us : List (Tree n)) (low : Vars Tree n) :
    listsHeld k (n := n + 1) (Ts ++ Us, low) = (Ts.map (listsAt k n)).sum + listsHeld k (n := n + 1) (Us, low) := by
  show (List.map (listsAt k n) (Ts ++ Us)).sum + listsHeld k low = _ + ((List.map (listsAt k n) Us).sum + listsHeld k low)
  rw [List.map_append, List.sum_append, Nat.add_assoc]

/-- The variables of one level and those below. -/
theorem held_low {k n : Nat} (Ts : List (Tree n)) (low : Vars Tree n) :
    listsHeld k (n := n + 1) (Ts, low) = (Ts.map (listsAt k n)).sum + listsHeld k low := rfl

theorem listsAt_succ {k n : Nat} (T : List (Tree n)) : listsAt k (n + 1) T = (T.map (listsAt k n)).sum + one k n := rfl

theorem listsAt_cloned {k n : Nat} (h : ∀ {T T' : Tree n} {u u' : U}, cloneTree Γ t n T u = (.ok T', u') → listsAt k n T' = listsAt k n T) :
    ∀ (l l' : List (Tree n)) (u u' : U), M.mapEach l (cloneTree Γ t n) u = (.ok l', u') → (l'.map (listsAt k n)).sum = (l.map (listsAt k n)).sum
  | [], l', u, u', he => by cases he; rfl
  | T :: l, l', u, u', he => by
    rw [M.mapEach_cons] at he
    rcases hx : cloneTree Γ t n T u with ⟨r, u1⟩
    cases r with
    | ok T' =>
      rw [M.bind_ok hx] at he
      rcases hm : M.mapEach l (cloneTree Γ t n) u1 with ⟨r2, u2⟩
      cases r2 with
      | ok l2 =>
        rw [M.bind_ok hm] at he
        cases he
        rw [List.map_cons, List.map_cons, List.sum_cons, List.sum_cons, h hx, listsAt_cloned h l l2 u1 _ hm]
      | panic _ => rw [M.bind_panic hm] at he; cases he
      | ub => rw [M.bind_ub hm] at he; cases he
      | abort => rw [M.bind_abort hm] at he; cases he
    | panic _ => rw [M.bind_panic hx] at he; cases he
    | ub => rw [M.bind_ub hx] at he; cases he
    | abort => rw [M.bind_abort hx] at he; cases he

/-- A clone has as many lists of each level. -/
theorem listsAt_clone {k : Nat} : ∀ {n : Nat} {T T' : Tree n} {u u' : U}, cloneTree Γ t n T u = (.ok T', u') → listsAt k n T' = listsAt k n T
  | 0, _, _, _, _, _ => rfl
  | n + 1, T, T', u, u', he => congrArg (· + one k n) (listsAt_cloned (fun h => listsAt_clone h) T T' u u' he)

theorem held_push {k n i j : Nat} {T : List (Tree n)} {x : Tree n} {Ts : List (Tree (n + 1))} {Us : List (Tree n)} {low : Vars Tree n}
    (h : Ts[i]? = some T) (h' : Us[j]? = some x) (L : Nat) :
    listsHeld k (n := n + 2) (Ts, (Us, low)) + L = listsHeld k (n := n + 2) (Ts.set i (List.append (α := Tree n) T [x]), (Us.eraseIdx j, low)) + L + 0 := by
  have e1 := held_erase (k := k) h (show Vars Tree (n + 1) from (Us, low))
  have e2 := held_set (k := k) h (show Tree (n + 1) from List.append (α := Tree n) T [x]) (show Vars Tree (n + 1) from (Us.eraseIdx j, low))
  have e3 := held_erase (k := k) h' low
  have e4 : listsAt k (n + 1) (List.append (α := Tree n) T [x]) = listsAt k (n + 1) T + listsAt k n x := by
    show (List.map (listsAt k n) (T ++ [x])).sum + one k n = (List.map (listsAt k n) T).sum + one k n + listsAt k n x
    rw [List.map_append, List.sum_append]
    show _ + (listsAt k n x + 0) + _ = _
    omega
  have e5 := held_low (k := k) (Ts.eraseIdx i) (show Vars Tree (n + 1) from (Us, low))
  have e6 := held_low (k := k) (Ts.eraseIdx i) (show Vars Tree (n + 1) from (Us.eraseIdx j, low))
  dsimp only at *
  omega

theorem held_take {k n i m' : Nat} {T : List (Tree n)} {Ts : List (Tree (n + 1))} {Us : List (Tree n)} {low : Vars Tree n}
    (h : Ts[i]? = some T) (L : Nat) (g : listsHeld k (n := n + 2) (Ts, (Us, low)) + L = m' + one k n) :
    m' = listsHeld k (n := n + 2) (Ts.eraseIdx i, (List.append (α := Tree n) T Us, low)) + L + 0 := by
  have e1 := held_erase (k := k) h (show Vars Tree (n + 1) from (Us, low))
  have e2 := held_low (k := k) (Ts.eraseIdx i) (show Vars Tree (n + 1) from (Us, low))
  have e3 := held_low (k := k) (Ts.eraseIdx i) (show Vars Tree (n + 1) from (T ++ Us, low))
  have e4 := held_append (k := k) T Us low
  have e5 := listsAt_succ (k := k) T
  show m' = listsHeld k (n := n + 2) (Ts.eraseIdx i, (T ++ Us, low)) + L + 0
  dsimp only at *
  omega

theorem held_pick {k n : Nat} {T T' : Tree n} {Ts : List (Tree (n + 1))} {Us : List (Tree n)} {low : Vars Tree n} (h : listsAt k n T' = listsAt k n T) (L : Nat) :
    listsHeld k (n := n + 2) (Ts, (Us, low)) + L + listsAt k n T = listsHeld k (n := n + 2) (Ts, (T' :: Us, low)) + L + 0 := by
  have e1 := held_low (k := k) Ts (show Vars Tree (n + 1) from (Us, low))
  have e2 := held_low (k := k) Ts (show Vars Tree (n + 1) from (T' :: Us, low))
  have e3 := held_cons (k := k) T' Us low
  dsimp only at *
  omega

theorem held_clone {k n : Nat} {T T' : Tree n} {Ts : List (Tree n)} {low : Vars Tree n} (h : listsAt k n T' = listsAt k n T) (L : Nat) :
    listsHeld k (n := n + 1) (Ts, low) + L + listsAt k n T = listsHeld k (n := n + 1) (T' :: Ts, low) + L + 0 := by
  have e1 := held_cons (k := k) T' Ts low
  omega

theorem held_swap {k n i j j' : Nat} {T : List (Tree n)} {x y : Tree n} {Ts : List (Tree (n + 1))} {Us : List (Tree n)} {low : Vars Tree n}
    (h : Ts[i]? = some T) (h' : Us[j]? = some x) (hy : T[j']? = some y) (L : Nat) :
    listsHeld k (n := n + 2) (Ts, (Us, low)) + L = listsHeld k (n := n + 2) (Ts.set i (List.set (α := Tree n) T j' x), (Us.set j y, low)) + L + 0 := by
  have e1 := held_erase (k := k) h (show Vars Tree (n + 1) from (Us, low))
  have e2 := held_set (k := k) h (show Tree (n + 1) from List.set (α := Tree n) T j' x) (show Vars Tree (n + 1) from (Us.set j y, low))
  have e3 := held_erase (k := k) h' low
  have e4 := held_set (k := k) h' y low
  have e5 : listsAt k (n + 1) (List.set (α := Tree n) T j' x) + listsAt k n y = listsAt k (n + 1) T + listsAt k n x := by
    show (List.map (listsAt k n) (T.set j' x)).sum + one k n + listsAt k n y = (List.map (listsAt k n) T).sum + one k n + listsAt k n x
    rw [sum_perm ((set_perm_eraseIdx hy x).map (listsAt k n)), sum_perm ((perm_eraseIdx hy).map (listsAt k n)), List.map_cons, List.map_cons, List.sum_cons, List.sum_cons]
    omega
  have e6 := held_low (k := k) (Ts.eraseIdx i) (show Vars Tree (n + 1) from (Us, low))
  have e7 := held_low (k := k) (Ts.eraseIdx i) (show Vars Tree (n + 1) from (Us.set j y, low))
  dsimp only at *
  omega

theorem held_clear {k n i m' : Nat} {T : List (Tree n)} {Ts : List (Tree (n + 1))} {low : Vars Tree (n + 1)}
    (h : Ts[i]? = some T) (L : Nat) (g : listsHeld k (n := n + 2) (Ts, low) + L = m' + (List.map (α := Tree n) (listsAt k n) T).sum) :
    m' = listsHeld k (n := n + 2) (Ts.set i (List.nil (α := Tree n)), low) + L + 0 := by
  have e1 := held_erase (k := k) h low
  have e2 := held_set (k := k) h (show Tree (n + 1) from List.nil (α := Tree n)) low
  have e3 := listsAt_succ (k := k) T
  have e4 : listsAt k (n + 1) (List.nil (α := Tree n)) = one k n := Nat.zero_add _
  dsimp only at *
  omega

theorem held_rotate {k n i : Nat} {T : List (Tree n)} {Ts : List (Tree (n + 1))} {low : Vars Tree (n + 1)}
    (h : Ts[i]? = some T) (left : Bool) (j L : Nat) :
    listsHeld k (n := n + 2) (Ts, low) + L = listsHeld k (n := n + 2) (Ts.set i (rotated (α := Tree n) left j T), low) + L + 0 := by
  have e1 := held_erase (k := k) h low
  have e2 := held_set (k := k) h (show Tree (n + 1) from rotated (α := Tree n) left j T) low
  have e3 : listsAt k (n + 1) (rotated (α := Tree n) left j T) = listsAt k (n + 1) T := by
    show (List.map (listsAt k n) (rotated (α := Tree n) left j T)).sum + one k n = (List.map (listsAt k n) T).sum + one k n
    rw [sum_perm ((rotated_perm left j T).map (listsAt k n))]
  dsimp only at *
  omega

theorem held_append2 {k n i j : Nat} {T T' : List (Tree n)} {Ts : List (Tree (n + 1))} {low : Vars Tree (n + 1)}
    (hij : i ≠ j) (h : Ts[i]? = some T) (h' : Ts[j]? = some T') (L : Nat) :
    listsHeld k (n := n + 2) (Ts, low) + L =
      listsHeld k (n := n + 2) ((Ts.set i (List.append (α := Tree n) T T')).set j (List.nil (α := Tree n)), low) + L + 0 := by
  obtain ⟨rest, h1, h2⟩ := two_set hij h h'
  have e1 : listsHeld k (n := n + 2) (Ts, low) = (List.map (listsAt k (n + 1)) (T :: T' :: rest)).sum + listsHeld k low := by
    rw [held_low, sum_perm (h1.map _)]
  have e2 : listsHeld k (n := n + 2) ((Ts.set i (List.append (α := Tree n) T T')).set j (List.nil (α := Tree n)), low) =
      (List.map (α := Tree (n + 1)) (listsAt k (n + 1)) (List.append (α := Tree n) T T' :: List.nil (α := Tree n) :: rest)).sum + listsHeld k low := by
    exact congrArg (· + listsHeld k low) (sum_perm ((h2 (List.append (α := Tree n) T T') (List.nil (α := Tree n))).map (listsAt k (n + 1))))
  have e3 : listsAt k (n + 1) (List.append (α := Tree n) T T') + listsAt k (n + 1) (List.nil (α := Tree n)) = listsAt k (n + 1) T + listsAt k (n + 1) T' := by
    show (List.map (listsAt k n) (T ++ T')).sum + one k n + (0 + one k n) = (List.map (listsAt k n) T).sum + one k n + ((List.map (listsAt k n) T').sum + one k n)
    rw [List.map_append, List.sum_append]
    omega
  rw [e1, e2]
  show listsAt k (n + 1) T + (listsAt k (n + 1) T' + (List.map (listsAt k (n + 1)) rest).sum) + _ + L =
    listsAt k (n + 1) (List.append (α := Tree n) T T') + (listsAt k (n + 1) (List.nil (α := Tree n)) + (List.map (listsAt k (n + 1)) rest).sum) + _ + L + 0
  omega

theorem held_swap_sides {k n : Nat} (Ts : List (Tree (n + 1))) (low : Vars Tree (n + 1)) (L : Nat) :
    listsHeld k (n := n + 2) (Ts, low) + L = listsHeld k low + ((List.map (α := Tree (n + 1)) (listsAt k (n + 1)) Ts).sum + L) := by
  rw [held_low]
  omega

theorem held_pack {k n i : Nat} {Ts : List (Tree (n + 1))} {Us : List (Tree n)} {low : Vars Tree n} (L : Nat) :
    listsHeld k (n := n + 2) (Ts, (Us, low)) + L + one k n =
      listsHeld k (n := n + 2) (List.cons (α := Tree (n + 1)) (Us.take i) Ts, (Us.drop i, low)) + L + 0 := by
  have e1 := held_cons (k := k) (show Tree (n + 1) from Us.take i) Ts (show Vars Tree (n + 1) from (Us.drop i, low))
  have e2 := held_low (k := k) Ts (show Vars Tree (n + 1) from (Us, low))
  have e3 := held_low (k := k) Ts (show Vars Tree (n + 1) from (Us.drop i, low))
  have e4 := held_append (k := k) (Us.take i) (Us.drop i) low
  rw [List.take_append_drop] at e4
  have e5 := listsAt_succ (k := k) (Us.take i)
  dsimp only at *
  omega

theorem room_memory {leaks : Bool} {n k c m : Nat} {s s' : Nest (Depth U n)} {vs : List (Bytes × Tree (n + 1))} {B : Below (n + 1)} {b : Bytes}
    (hpos : 0 < (Γ.depth N n).size (depthTy t n)) (hf : Forest Γ t N leaks (n + 1) s vs B)
    (he : Nest.room (8 * N.words) N.fresh (Γ.depth N n) (depthTy t n) c s = (.ok b, s')) (hc : (Depth.heap k (n := n + 1) s).Count m) :
    (Depth.heap k (n := n + 1) s').Count (m + one k n) := by
  obtain ⟨hu, i, hre, hi⟩ : s'.world.user = s.world.user ∧ ∃ i, Realloc s.world.heap none s'.world.heap (some i) ∧ (s'.world.heap.live i).isSome = true := by
    rcases room_forest hpos hf he with h | ⟨_, _, h, _, h'⟩
    · cases h
    · exact ⟨h, h'⟩
  by_cases hk : k = n + 1
  · subst hk
    rw [one_same]
    obtain ⟨ns, lost, hv, hn, hl, hb⟩ := hf
    exact count_top.2 ((count_top.1 hc).alloc hn.wf hre hi)
  · rw [one_other hk, count_below hk, hu]
    exact (count_below hk).1 hc

theorem pack_memory {leaks : Bool} {n k m : Nat} {s s' : Nest (Depth U n)} {vs : List (Bytes × Tree (n + 1))} {xs l : List (Bytes × Tree n)} {B : Below n} {b : Bytes}
    (hpos : 0 < (Γ.depth N n).size (depthTy t n)) (hf : Forest Γ t N leaks (n + 1) s vs (xs ++ l, B))
    (he : Nest.pack (8 * N.words) N.fresh (Γ.depth N n) (depthTy t n) (xs.map Prod.fst) s = (.ok b, s')) (hc : (Depth.heap k (n := n + 1) s).Count m) :
    (Depth.heap k (n := n + 1) s').Count (m + one k n) := by
  obtain ⟨hu, i, hre, hi⟩ : s'.world.user = s.world.user ∧ ∃ i, Realloc s.world.heap none s'.world.heap (some i) ∧ (s'.world.heap.live i).isSome = true := by
    rcases pack_forest hpos hf he with h | ⟨_, _, h, _, h'⟩
    · cases h
    · exact ⟨h, h'⟩
  by_cases hk : k = n + 1
  · subst hk
    rw [one_same]
    obtain ⟨ns, lost, hv, hn, hl, hb⟩ := hf
    exact count_top.2 ((count_top.1 hc).alloc hn.wf hre hi)
  · rw [one_other hk, count_below hk, hu]
    exact (count_below hk).1 hc

theorem leaked_above {k : Nat} : ∀ {n : Nat} (_ : n < k) (a : Act n) (q : Vars Tree (n + 1) × U), a.leaked Γ t k q = 0
  | _, h, .drop i, ((vs, _), u) => by
    unfold Act.leaked
    split
    · rfl
    · rw [listsAt_above h]; exact Nat.zero_sub _
  | _, h, .clone i, ((vs, _), u) => by
    unfold Act.leaked
    split
    · rfl
    · rw [copied_above h]; exact ite_self _
  | n + 1, h, .pick i j, ((vs, _), u) => by
    unfold Act.leaked
    split
    · rfl
    · split
      · rfl
      · rw [copied_above (by omega)]; exact ite_self _
  | n + 1, h, .inner a, ((_, low), u) => leaked_above (n := n) (by omega) a (low, u)
  | _, _, .value _, _ => rfl
  | _, _, .new, _ => rfl
  | _, _, .room _, _ => rfl
  | _, _, .push _ _, _ => rfl
  | _, _, .take _, _ => rfl
  | _, _, .pack _, _ => rfl
  | _, _, .swap _ _ _, _ => rfl
  | _, _, .clear _, _ => rfl
  | _, _, .append _ _, _ => rfl
  | _, _, .rotate _ _ _, _ => rfl

theorem act_memory (hpos : 0 < Γ.size t) {k : Nat} : ∀ {n : Nat} (a : Act n) {leaks : Bool} {s : Depth U n} {E : List (Bytes × Tree n)}
    {l : List (Bytes × Tree n)} {B : Below n} (_ : a.clears = true → ∀ y, (a.spec Γ t (Vars.map (n := n + 1) (fun _ => Prod.snd) (l, B), s.base)).1 ≠ .panic y)
    {r : Res Unit} {s' : Vars (fun _ => Bytes) (n + 1) × Depth U n},
    Forest Γ t N leaks n s (E ++ l) B → a.run Γ t N (Vars.map (n := n + 1) (fun _ => Prod.fst) (l, B), s) = (r, s') →
    (r.returned = true ∨ ∃ y, r = .panic y) → ∀ {L : Nat}, (Depth.heap k s).Count (listsHeld k (Vars.map (B := Tree) (n := n + 1) (fun _ => Prod.snd) (l, B)) + L) →
    (Depth.heap k s'.2).Count (listsHeld k (a.spec Γ t (Vars.map (n := n + 1) (fun _ => Prod.snd) (l, B), s.base)).2.1 + L +
      a.leaked Γ t k (Vars.map (n := n + 1) (fun _ => Prod.snd) (l, B), s.base))
  | _, .value x, leaks, s, E, l, B, hc, r, s', hf, he, hr, L, hcount => by
    simp only [Act.run, Act.spec, Act.leaked, Vars.map] at he ⊢ hcount
    by_cases hx : x.length = Γ.size t
    · rw [if_pos hx] at he ⊢
      cases he
      exact hcount.of_eq (congrArg (· + L) ((held_cons (n := 0) x _ _).trans (Nat.zero_add _)).symm)
    · rw [if_neg hx] at he ⊢
      cases he
      exact hcount
  | n, .drop i, leaks, s, E, l, B, hc, r, s', hf, he, hr, L, hcount => by
    simp only [Act.run, Act.spec, Act.leaked, Vars.map] at he ⊢ hcount
    cases hb : (l.map Prod.fst)[i]? with
    | none =>
      rw [hb] at he
      rw [getElem?_none_map (g := Prod.snd) hb]
      cases he
      exact hcount
    | some b =>
      rw [hb] at he
      obtain ⟨v, hv, rfl⟩ := getElem?_of_map hb
      have hT : (l.map Prod.snd)[i]? = some v.2 := by rw [List.getElem?_map, hv]; rfl
      rw [hT]
      dsimp only at he ⊢
      rcases hd : (Γ.depth N n).drop (depthTy t n) v.1 s with ⟨r1, s1⟩
      rw [hd] at he
      cases he
      have hf' : Forest Γ t N leaks n s (v :: (E ++ l.eraseIdx i)) B :=
        hf.perm (((perm_eraseIdx hv).append_left E).trans List.perm_middle)
      have hr' : r1 = .ok () ∨ ∃ y, r1 = .panic y := by
        rcases hr with hr | hr
        · cases r1 with
          | ok _ => exact .inl rfl
          | panic _ => cases hr
          | ub => cases hr
          | abort => cases hr
        · exact .inr hr
      obtain ⟨m', g1, g2⟩ := drop_memory hf' hd hr' hcount
      refine g1.of_eq ?_
      have e1 := held_erase (k := k) hT (Vars.map (fun _ => Prod.snd) B)
      have e2 := finished_le (Γ := Γ) (t := t) (k := k) n v.2 s.base
      rw [e1] at g2
      generalize listsAt k n v.2 = x at *
      generalize finished Γ t k n v.2 s.base = y at *
      generalize listsHeld k (n := n + 1) ((l.map Prod.snd).eraseIdx i, Vars.map (fun _ => Prod.snd) B) = z at *
      omega
  | n, .clone i, leaks, s, E, l, B, hc, r, s', hf, he, hr, L, hcount => by
    simp only [Act.run, Act.spec, Act.leaked, Vars.map] at he ⊢ hcount
    cases hb : (l.map Prod.fst)[i]? with
    | none =>
      rw [hb] at he
      rw [getElem?_none_map (g := Prod.snd) hb]
      cases he
      exact hcount
    | some b =>
      rw [hb] at he
      obtain ⟨v, hv, rfl⟩ := getElem?_of_map hb
      have hT : (l.map Prod.snd)[i]? = some v.2 := by rw [List.getElem?_map, hv]; rfl
      rw [hT]
      dsimp only at he ⊢
      rcases hd : (Γ.depth N n).clone (depthTy t n) v.1 s with ⟨r1, s1⟩
      rw [hd] at he
      have hmem := List.mem_append_right E (List.mem_of_getElem? hv)
      have hcl := clone_forest hf hmem hd
      cases r1 with
      | ok b =>
        cases he
        obtain ⟨T, h1, h2⟩ := hcl
        have g := clone_memory hf hmem hd (.inl rfl) hcount
        rw [copied_all h1] at g
        rw [h1]
        refine g.of_eq ?_
        exact held_clone (listsAt_clone h1) L
      | panic y =>
        cases he
        have h1 := hcl.1
        have g := clone_memory hf hmem hd (.inr ⟨y, rfl⟩) hcount
        rw [h1]
        exact g
      | ub => cases he; rcases hr with hr | ⟨_, hr⟩ <;> cases hr
      | abort => cases he; rcases hr with hr | ⟨_, hr⟩ <;> cases hr
  | n + 1, .new, leaks, s, E, l, B, hc, r, s', hf, he, hr, L, hcount => by
    simp only [Act.run, Act.spec, Act.leaked, Vars.map] at he ⊢ hcount
    rcases hd : Nest.new (8 * N.words) N.fresh (Γ.depth N n) (depthTy t n) s with ⟨r1, s1⟩
    rw [hd] at he
    rcases new_forest (depth_pos hpos n) hf hd with rfl | ⟨b, rfl, -, -⟩
    · cases he; rcases hr with hr | ⟨_, hr⟩ <;> cases hr
    · cases he
      refine (new_memory (depth_pos hpos n) hf hd hcount).of_eq ?_
      have e1 := held_cons (k := k) (n := n + 1) (List.nil (α := Tree n)) (l.map Prod.snd) (Vars.map (fun _ => Prod.snd) B)
      have e2 : listsAt k (n + 1) (List.nil (α := Tree n)) = one k n := Nat.zero_add _
      rw [e2] at e1
      rw [e1]
      omega
  | n + 1, .room c, leaks, s, E, l, B, hc, r, s', hf, he, hr, L, hcount => by
    simp only [Act.run, Act.spec, Act.leaked, Vars.map] at he ⊢ hcount
    rcases hd : Nest.room (8 * N.words) N.fresh (Γ.depth N n) (depthTy t n) c s with ⟨r1, s1⟩
    rw [hd] at he
    rcases room_forest (depth_pos hpos n) hf hd with rfl | ⟨b, rfl, -, -⟩
    · cases he; rcases hr with hr | ⟨_, hr⟩ <;> cases hr
    · cases he
      refine (room_memory (depth_pos hpos n) hf hd hcount).of_eq ?_
      have e1 := held_cons (k := k) (n := n + 1) (List.nil (α := Tree n)) (l.map Prod.snd) (Vars.map (fun _ => Prod.snd) B)
      have e2 : listsAt k (n + 1) (List.nil (α := Tree n)) = one k n := Nat.zero_add _
      rw [e2] at e1
      rw [e1]
      omega
  | n + 1, .push i j, leaks, s, E, l, (m, B), hc, r, s', hf, he, hr, L, hcount => by
    simp only [Act.run, Act.spec, Act.leaked, Vars.map] at he ⊢ hcount
    cases hb : (l.map Prod.fst)[i]? with
    | none =>
      rw [hb] at he
      rw [getElem?_none_map (g := Prod.snd) hb]
      cases he
      exact hcount
    | some b =>
      rw [hb] at he
      obtain ⟨v, hv, rfl⟩ := getElem?_of_map hb
      have hT : (l.map Prod.snd)[i]? = some v.2 := by rw [List.getElem?_map, hv]; rfl
      rw [hT]
      cases hb' : (m.map Prod.fst)[j]? with
      | none =>
        rw [hb'] at he
        rw [getElem?_none_map (g := Prod.snd) hb']
        cases he
        exact hcount
      | some b' =>
        rw [hb'] at he
        obtain ⟨x, hx, rfl⟩ := getElem?_of_map hb'
        have hT' : (m.map Prod.snd)[j]? = some x.2 := by rw [List.getElem?_map, hx]; rfl
        rw [hT']
        dsimp only at he ⊢
        rcases hd : Nest.push N.cfg (8 * N.words) N.fresh (Γ.depth N n) (depthTy t n) v.1 x.1 s with ⟨r1, s1⟩
        rw [hd] at he
        obtain ⟨ns, lost, g1, g2, g3, g4⟩ := hf
        have hlen : x.1.length = (Γ.depth N n).size (depthTy t n) :=
          g4.len x (List.mem_append_left _ (List.mem_append_right _ (List.mem_of_getElem? hx)))
        have hf' : Forest Γ t N leaks (n + 1) s (v :: (E ++ l.eraseIdx i)) (x :: m.eraseIdx j, B) :=
          ⟨ns, lost, g1.trans (((perm_eraseIdx hv).append_left E).trans List.perm_middle), g2, g3,
            g4.perm (((perm_eraseIdx hx).append_left lost).append_right _)⟩
        rcases push_forest hlen hf' hd with rfl | ⟨b, rfl, -, -⟩
        · cases he; rcases hr with hr | ⟨_, hr⟩ <;> cases hr
        · cases he
          refine (push_memory hlen hf' hd hcount).of_eq ?_
          exact held_push hT hT' L
  | n + 1, .take i, leaks, s, E, l, (m, B), hc, r, s', hf, he, hr, L, hcount => by
    simp only [Act.run, Act.spec, Act.leaked, Vars.map] at he ⊢ hcount
    cases hb : (l.map Prod.fst)[i]? with
    | none =>
      rw [hb] at he
      rw [getElem?_none_map (g := Prod.snd) hb]
      cases he
      exact hcount
    | some b =>
      rw [hb] at he
      obtain ⟨v, hv, rfl⟩ := getElem?_of_map hb
      have hT : (l.map Prod.snd)[i]? = some v.2 := by rw [List.getElem?_map, hv]; rfl
      rw [hT]
      dsimp only at he ⊢
      rcases hd : Nest.take N.cfg (Γ.depth N n) (depthTy t n) v.1 s with ⟨r1, s1⟩
      rw [hd] at he
      have hf' : Forest Γ t N leaks (n + 1) s (v :: (E ++ l.eraseIdx i)) (m, B) :=
        hf.perm (((perm_eraseIdx hv).append_left E).trans List.perm_middle)
      obtain ⟨m', g1, g2⟩ := take_memory hf' hd hcount
      obtain ⟨es, rfl, -, -, -⟩ := take_forest hf' hd
      cases he
      refine g1.of_eq ?_
      exact held_take hT L g2
  | n + 1, .pack i, leaks, s, E, l, (m, B), hc, r, s', hf, he, hr, L, hcount => by
    simp only [Act.run, Act.spec, Act.leaked, Vars.map] at he ⊢ hcount
    rw [← List.map_take, ← List.map_drop] at he
    rcases hd : Nest.pack (8 * N.words) N.fresh (Γ.depth N n) (depthTy t n) ((m.take i).map Prod.fst) s with ⟨r1, s1⟩
    rw [hd] at he
    have hf' : Forest Γ t N leaks (n + 1) s (E ++ l) (m.take i ++ m.drop i, B) := by rw [List.take_append_drop]; exact hf
    rcases pack_forest (depth_pos hpos n) hf' hd with rfl | ⟨b, rfl, -, -, -⟩
    · cases he; rcases hr with hr | ⟨_, hr⟩ <;> cases hr
    · cases he
      exact (pack_memory (depth_pos hpos n) hf' hd hcount).of_eq (held_pack L)
  | n + 1, .pick i j, leaks, s, E, l, (m, B), hc, r, s', hf, he, hr, L, hcount => by
    simp only [Act.run, Act.spec, Act.leaked, Vars.map] at he ⊢ hcount
    cases hb : (l.map Prod.fst)[i]? with
    | none =>
      rw [hb] at he
      rw [getElem?_none_map (g := Prod.snd) hb]
      cases he
      exact hcount
    | some b =>
      rw [hb] at he
      obtain ⟨v, hv, rfl⟩ := getElem?_of_map hb
      have hT : (l.map Prod.snd)[i]? = some v.2 := by rw [List.getElem?_map, hv]; rfl
      rw [hT]
      dsimp only at he ⊢
      rcases hd : Nest.pick (Γ.depth N n) (depthTy t n) v.1 j s with ⟨r1, s1⟩
      rw [hd] at he
      have hmem := List.mem_append_right E (List.mem_of_getElem? hv)
      obtain ⟨h1, h2⟩ := pick_forest hf hmem hd
      cases hk : (show List (Tree n) from v.2)[j]? with
      | none =>
        obtain ⟨rfl, rfl⟩ := h1 hk
        cases he
        exact hcount
      | some T =>
        have h3 := h2 T hk
        dsimp only
        cases r1 with
        | ok b =>
          cases he
          obtain ⟨T', h4, h5⟩ := h3
          have h4 : cloneTree Γ t n T (Depth.base (n := n + 1) s) = (.ok T', Depth.base (n := n + 1) s1) := h4
          have g := pick_memory hf hmem hd hk (.inl rfl) hcount
          rw [h4]
          refine g.of_eq ?_
          have e0 : copied Γ t k n T (Nest.world s).user.base = listsAt k n T := copied_all h4
          rw [e0]
          exact held_pick (listsAt_clone h4) L
        | panic y =>
          cases he
          obtain ⟨h4, h5⟩ := h3
          have h4 : cloneTree Γ t n T (Depth.base (n := n + 1) s) = (.panic y, Depth.base (n := n + 1) s1) := h4
          have g := pick_memory hf hmem hd hk (.inr ⟨y, rfl⟩) hcount
          rw [h4]
          exact g
        | ub => cases he; rcases hr with hr | ⟨_, hr⟩ <;> cases hr
        | abort => cases he; rcases hr with hr | ⟨_, hr⟩ <;> cases hr
  | n + 1, .swap i j' j, leaks, s, E, l, (m, B), hc, r, s', hf, he, hr, L, hcount => by
    simp only [Act.run, Act.spec, Act.leaked, Vars.map] at he ⊢ hcount
    cases hb : (l.map Prod.fst)[i]? with
    | none =>
      rw [hb] at he
      rw [getElem?_none_map (g := Prod.snd) hb]
      cases he
      exact hcount
    | some b =>
      rw [hb] at he
      obtain ⟨v, hv, rfl⟩ := getElem?_of_map hb
      have hT : (l.map Prod.snd)[i]? = some v.2 := by rw [List.getElem?_map, hv]; rfl
      rw [hT]
      cases hb' : (m.map Prod.fst)[j]? with
      | none =>
        rw [hb'] at he
        rw [getElem?_none_map (g := Prod.snd) hb']
        cases he
        exact hcount
      | some b' =>
        rw [hb'] at he
        obtain ⟨x, hx, rfl⟩ := getElem?_of_map hb'
        have hT' : (m.map Prod.snd)[j]? = some x.2 := by rw [List.getElem?_map, hx]; rfl
        rw [hT']
        dsimp only at he ⊢
        rcases hd : Nest.swap (Γ.depth N n) (depthTy t n) v.1 j' x.1 s with ⟨r1, s1⟩
        rw [hd] at he
        obtain ⟨ns, lost, g1, g2, g3, g4⟩ := hf
        have hlen : x.1.length = (Γ.depth N n).size (depthTy t n) :=
          g4.len x (List.mem_append_left _ (List.mem_append_right _ (List.mem_of_getElem? hx)))
        have hf' : Forest Γ t N leaks (n + 1) s (v :: (E ++ l.eraseIdx i)) (x :: m.eraseIdx j, B) :=
          ⟨ns, lost, g1.trans (((perm_eraseIdx hv).append_left E).trans List.perm_middle), g2, g3,
            g4.perm (((perm_eraseIdx hx).append_left lost).append_right _)⟩
        obtain ⟨h1, h2⟩ := swap_forest hlen hf' hd
        cases hk : (show List (Tree n) from v.2)[j']? with
        | none =>
          obtain ⟨rfl, rfl⟩ := h1 hk
          cases he
          exact hcount
        | some T =>
          obtain ⟨b, rfl, -, -⟩ := h2 T hk
          cases he
          refine (swap_memory hlen hf' hd hcount).of_eq ?_
          exact held_swap hT hT' hk L
  | n + 1, .clear i, leaks, s, E, l, (m, B), hc, r, s', hf, he, hr, L, hcount => by
    simp only [Act.run, Act.spec, Act.leaked, Vars.map] at he ⊢ hcount
    cases hb : (l.map Prod.fst)[i]? with
    | none =>
      rw [hb] at he
      rw [getElem?_none_map (g := Prod.snd) hb]
      cases he
      exact hcount
    | some b =>
      rw [hb] at he
      obtain ⟨v, hv, rfl⟩ := getElem?_of_map hb
      have hT : (l.map Prod.snd)[i]? = some v.2 := by rw [List.getElem?_map, hv]; rfl
      have hc := hc rfl
      simp only [Act.spec, Vars.map] at hc
      rw [hT] at hc ⊢
      dsimp only at he hc ⊢
      rcases hd : Nest.clear N.cfg (8 * N.words) N.fresh (Γ.depth N n) v.1 s with ⟨r1, s1⟩
      rw [hd] at he
      have hf' := hf.perm (((perm_eraseIdx hv).append_left E).trans List.perm_middle)
      have h1 := clear_forest hc hf' hd
      cases r1 with
      | ok b =>
        cases he
        obtain ⟨m', g1, g2⟩ := clear_memory hf' hd hcount
        refine g1.of_eq ?_
        exact held_clear hT L g2
      | panic y => exact h1.elim
      | ub => cases he; rcases hr with hr | ⟨_, hr⟩ <;> cases hr
      | abort => cases he; rcases hr with hr | ⟨_, hr⟩ <;> cases hr
  | n + 2, .append i j, leaks, s, E, l, B, hc, r, s', hf, he, hr, L, hcount => by
    simp only [Act.run, Act.spec, Act.leaked, Vars.map] at he ⊢ hcount
    by_cases hij : i = j
    · rw [if_pos hij] at he ⊢
      cases he
      exact hcount
    · rw [if_neg hij] at he ⊢
      cases hb : (l.map Prod.fst)[i]? with
      | none =>
        rw [hb] at he
        rw [getElem?_none_map (g := Prod.snd) hb]
        cases he
        exact hcount
      | some b =>
        rw [hb] at he
        obtain ⟨v, hv, rfl⟩ := getElem?_of_map hb
        have hT : (l.map Prod.snd)[i]? = some v.2 := by rw [List.getElem?_map, hv]; rfl
        rw [hT]
        cases hb' : (l.map Prod.fst)[j]? with
        | none =>
          rw [hb'] at he
          rw [getElem?_none_map (g := Prod.snd) hb']
          cases he
          exact hcount
        | some b' =>
          rw [hb'] at he
          obtain ⟨v', hv', rfl⟩ := getElem?_of_map hb'
          have hT' : (l.map Prod.snd)[j]? = some v'.2 := by rw [List.getElem?_map, hv']; rfl
          rw [hT']
          dsimp only at he ⊢
          rcases hd : Nest.append N.cfg (8 * N.words) N.fresh (Γ.depth N (n + 1)) v.1 v'.1 (depthTy t (n + 1)) s with ⟨r1, s1⟩
          rw [hd] at he
          obtain ⟨rest, h1, h2⟩ := two_set hij hv hv'
          have hmid : ∀ x y : Bytes × Tree (n + 2), (E ++ x :: y :: rest).Perm (x :: y :: (E ++ rest)) := fun x y =>
            List.perm_middle.trans (List.perm_middle.cons x)
          have hf' := hf.perm ((h1.append_left E).trans (hmid v v'))
          have hal : (Γ.depth N (n + 1)).align (depthTy t (n + 1)) ≠ 1 := by show (if Nest.ty = Nest.ty then 8 else 1) ≠ 1; rw [if_pos rfl]; decide
          rcases append_forest (n := n + 1) hal hf' hd with rfl | ⟨b, b', rfl, -, -⟩
          · cases he; rcases hr with hr | ⟨_, hr⟩ <;> cases hr
          · cases he
            refine (append_memory (n := n + 1) hal hf' hd hcount).of_eq ?_
            exact held_append2 hij hT hT' L
  | n + 2, .rotate left i j, leaks, s, E, l, B, hc, r, s', hf, he, hr, L, hcount => by
    simp only [Act.run, Act.spec, Act.leaked, Vars.map] at he ⊢ hcount
    cases hb : (l.map Prod.fst)[i]? with
    | none =>
      rw [hb] at he
      rw [getElem?_none_map (g := Prod.snd) hb]
      cases he
      exact hcount
    | some b =>
      rw [hb] at he
      obtain ⟨v, hv, rfl⟩ := getElem?_of_map hb
      have hT : (l.map Prod.snd)[i]? = some v.2 := by rw [List.getElem?_map, hv]; rfl
      rw [hT]
      dsimp only at he ⊢
      rcases hd : Nest.rotate N.cfg left (Γ.depth N (n + 1)) v.1 j s with ⟨r1, s1⟩
      rw [hd] at he
      cases he
      have hal : (Γ.depth N (n + 1)).align (depthTy t (n + 1)) ≤ 8192 := by show (if Nest.ty = Nest.ty then 8 else 1) ≤ 8192; rw [if_pos rfl]; decide
      have g := rotate_memory (n := n + 1) hal (hf.perm (((perm_eraseIdx hv).append_left E).trans List.perm_middle)) hd hcount
      refine g.of_eq ?_
      by_cases hk : j ≤ List.length (α := Tree (n + 1)) v.2
      · rw [if_pos hk]
        exact held_rotate hT left j L
      · rw [if_neg hk]
        rfl
  | n + 1, .inner a, leaks, s, E, l, (m, B), hc, r, s', hf, he, hr, L, hcount => by
    obtain ⟨ns, lost, g1, g2, g3, g4⟩ := hf
    have hp : ((lost ++ m) ++ ns.flatMap Prod.snd).Perm ((lost ++ ns.flatMap Prod.snd) ++ m) := by
      rw [List.append_assoc, List.append_assoc]
      exact List.perm_append_comm.append_left lost
    rcases hd : a.run Γ t N (Vars.map (n := n + 1) (fun _ => Prod.fst) (m, B), (Nest.world s).user) with ⟨r1, ⟨vars, u'⟩⟩
    have hrun : (Act.inner a).run Γ t N (Vars.map (n := n + 2) (fun _ => Prod.fst) (l, (m, B)), s) =
        (r1, ((l.map Prod.fst, vars), (⟨Nest.pool s, ⟨(Nest.world s).heap, u'⟩⟩ : Nest (Depth U n)))) := by
      show ((a.run Γ t N (Vars.map (n := n + 1) (fun _ => Prod.fst) (m, B), (Nest.world s).user)).1,
        ((_, (a.run Γ t N (Vars.map (n := n + 1) (fun _ => Prod.fst) (m, B), (Nest.world s).user)).2.1),
          (⟨Nest.pool s, ⟨(Nest.world s).heap, (a.run Γ t N (Vars.map (n := n + 1) (fun _ => Prod.fst) (m, B), (Nest.world s).user)).2.2⟩⟩ : Nest (Depth U n)))) = _
      rw [hd]
    have he := hrun.symm.trans he
    cases he
    by_cases hk : k = n + 1
    · subst hk
      have hres := count_top.1 hcount
      have e1 : ∀ low : Vars Tree (n + 1), listsHeld (n + 1) (n := n + 2) (l.map Prod.snd, low) = (List.map (α := Tree (n + 1)) (listsAt (n + 1) (n + 1)) (l.map Prod.snd)).sum := by
        intro low
        rw [held_low, listsHeld_above (Nat.le_refl _)]
        rfl
      have e2 := leaked_above (Γ := Γ) (t := t) (Nat.lt_succ_self n) a (Vars.map (n := n + 1) (fun _ => Prod.snd) (m, B), (Nest.world s).user.base)
      refine count_top.2 (hres.of_eq ?_)
      have e3 : listsHeld (n + 1) (Vars.map (B := Tree) (n := n + 1 + 1) (fun _ => Prod.snd) (l, m, B)) = _ := e1 (Vars.map (B := Tree) (n := n + 1) (fun _ => Prod.snd) (m, B))
      have e4 : listsHeld (n + 1) ((Act.inner a).spec Γ t (Vars.map (n := n + 2) (fun _ => Prod.snd) (l, (m, B)), Depth.base (n := n + 1) s)).2.1 = _ :=
        e1 (a.spec Γ t (Vars.map (n := n + 1) (fun _ => Prod.snd) (m, B), (Nest.world s).user.base)).2.1
      rw [e3, e4]
      exact (congrArg (_ + ·) e2).symm
    · have hres := (count_below hk).1 hcount
      have ih := act_memory hpos (k := k) a (l := m) (B := B) hc (g4.perm hp) hd hr
        (L := (List.map (α := Tree (n + 1)) (listsAt k (n + 1)) (l.map Prod.snd)).sum + L) (hres.of_eq (held_swap_sides _ _ _))
      refine (count_below hk).2 (ih.of_eq ?_)
      exact congrArg (· + _) (held_swap_sides _ _ _).symm

theorem acts_memory (hpos : 0 < Γ.size t) {n k : Nat} : ∀ (as : List (Act n)) {leaks : Bool} {s s' : Vars (fun _ => Bytes) (n + 1) × Depth U n}
    {q : Vars Tree (n + 1) × U} (_ : ClearsCalmly Γ t as q) {rs : List (Option Why)}, ActsAgree Γ t N leaks n s q → runActs (Act.run Γ t N) as s = (.ok rs, s') →
    ∀ {L : Nat}, (Depth.heap k s.2).Count (listsHeld k q.1 + L) →
    (Depth.heap k s'.2).Count (listsHeld k (runActs (Act.spec Γ t) as q).2.1 + L + leakedBy Γ t k as q)
  | [], leaks, s, s', q, _, rs, h, he, L, hc => by
    cases he
    exact hc
  | a :: as, leaks, s, s', q, hq, rs, h, he, L, hc => by
    obtain ⟨vars, s⟩ := s
    obtain ⟨trees, u⟩ := q
    obtain ⟨h0, v, lost, h1, h2, h3, h4⟩ := h
    have h0 : s.base = u := h0
    have h1 : v.map (fun _ => Prod.fst) = vars := h1
    have h2 : v.map (fun _ => Prod.snd) = trees := h2
    subst h0 h1 h2
    have hs := act_forest hpos a (l := v.1) (B := v.2) hq.1 h4
    unfold runActs at he ⊢
    have hs : Acted Γ t N leaks n lost (a.run Γ t N (v.map (fun _ => Prod.fst), s)).1 (a.run Γ t N (v.map (fun _ => Prod.fst), s)).2
      (a.spec Γ t (v.map (fun _ => Prod.snd), s.base)) := hs
    rcases hd : a.run Γ t N (v.map (fun _ => Prod.fst), s) with ⟨x, s1⟩
    have hm : (x.returned = true ∨ ∃ y, x = .panic y) → (Depth.heap k s1.2).Count (listsHeld k (a.spec Γ t (v.map (fun _ => Prod.snd), s.base)).2.1 + L +
        a.leaked Γ t k (v.map (fun _ => Prod.snd), s.base)) := fun hr => act_memory hpos a (l := v.1) (B := v.2) hq.1 h4 hd hr hc
    rw [hd] at hs he
    have hfin : ∀ (c : Vars Tree (n + 1)) (x y : Nat), listsHeld k c + (L + x) + y = listsHeld k c + L + (x + y) := fun c x y => by omega
    cases x with
    | ok _ =>
      obtain ⟨v', g1, g2, g3⟩ := hs
      have hm := hm (.inl rfl)
      dsimp only at he
      rcases hr : runActs (Act.run Γ t N) as s1 with ⟨y, s2⟩
      rw [hr] at he
      cases y with
      | ok rs' =>
        cases he
        have ih := acts_memory hpos as (k := k) (by have := hq.2; rw [g2] at this; exact this) (leaks := leaks) (s := s1) (q := (v'.map (fun _ => Prod.snd), s1.2.base))
          ⟨rfl, v', lost, g1, rfl, h3, g3⟩ hr (L := L + a.leaked Γ t k (v.map (fun _ => Prod.snd), s.base)) (by rw [g2] at hm; exact hm.of_eq (Nat.add_assoc _ _ _))
        rw [leakedBy, g2]
        rcases hz : runActs (Act.spec Γ t) as (v'.map (fun _ => Prod.snd), s1.2.base) with ⟨z, w⟩
        rw [hz] at ih
        have ih := ih.of_eq (hfin _ _ _)
        dsimp only
        rw [hz]
        cases z <;> exact ih
      | panic z => cases he
      | ub => cases he
      | abort => cases he
    | panic y0 =>
      obtain ⟨v', lost', g1, g2, g3⟩ := hs
      have hm := hm (.inr ⟨y0, rfl⟩)
      dsimp only at he
      rcases hr : runActs (Act.run Γ t N) as s1 with ⟨y, s2⟩
      rw [hr] at he
      cases y with
      | ok rs' =>
        cases he
        have ih := acts_memory hpos as (k := k) (by have := hq.2; rw [g2] at this; exact this) (leaks := true) (s := s1) (q := (v'.map (fun _ => Prod.snd), s1.2.base))
          ⟨rfl, v', lost' ++ lost, g1, rfl, (fun h => by cases h), by rw [List.append_assoc]; exact g3⟩ hr
          (L := L + a.leaked Γ t k (v.map (fun _ => Prod.snd), s.base)) (by rw [g2] at hm; exact hm.of_eq (Nat.add_assoc _ _ _))
        rw [leakedBy, g2]
        rcases hz : runActs (Act.spec Γ t) as (v'.map (fun _ => Prod.snd), s1.2.base) with ⟨z, w⟩
        rw [hz] at ih
        have ih := ih.of_eq (hfin _ _ _)
        dsimp only
        rw [hz]
        cases z <;> exact ih
      | panic z => cases he
      | ub => cases he
      | abort => cases he
    | ub => cases he
    | abort => cases he

/-- An action that returns leaks nothing. -/
theorem leaked_ok {k : Nat} : ∀ {n : Nat} (a : Act n) (q : Vars Tree (n + 1) × U), (a.spec Γ t q).1.returned = true → a.leaked Γ t k q = 0
  | n, .drop i, ((vs, low), u), h => by
    simp only [Act.spec, Act.leaked] at h ⊢
    cases hT : vs[i]? with
    | none => rfl
    | some T =>
      rw [hT] at h
      dsimp only at h ⊢
      rcases hd : dropTree Γ t n T u with ⟨r, u'⟩
      rw [hd] at h
      cases r with
      | ok _ => rw [finished_all hd]; exact Nat.sub_self _
      | panic _ => cases h
      | ub => cases h
      | abort => cases h
  | n, .clone i, ((vs, low), u), h => by
    simp only [Act.spec, Act.leaked] at h ⊢
    cases hT : vs[i]? with
    | none => rfl
    | some T =>
      rw [hT] at h
      dsimp only at h ⊢
      rcases hd : cloneTree Γ t n T u with ⟨r, u'⟩
      rw [hd] at h
      cases r with
      | ok _ => rfl
      | panic _ => cases h
      | ub => cases h
      | abort => cases h
  | n + 1, .pick i j, ((vs, (us, low)), u), h => by
    simp only [Act.spec, Act.leaked] at h ⊢
    cases hT : vs[i]? with
    | none => rfl
    | some T =>
      rw [hT] at h
      dsimp only at h ⊢
      cases hx : (show List (Tree n) from T)[j]? with
      | none => rfl
      | some x =>
        rw [hx] at h
        dsimp only at h ⊢
        rcases hd : cloneTree Γ t n x u with ⟨r, u'⟩
        rw [hd] at h
        cases r with
        | ok _ => rfl
        | panic _ => cases h
        | ub => cases h
        | abort => cases h
  | n + 1, .inner a, ((_, low), u), h => leaked_ok (n := n) a (low, u) h
  | _, .value _, _, _ => rfl
  | _, .new, _, _ => rfl
  | _, .room _, _, _ => rfl
  | _, .push _ _, _, _ => rfl
  | _, .take _, _, _ => rfl
  | _, .pack _, _, _ => rfl
  | _, .swap _ _ _, _, _ => rfl
  | _, .clear _, _, _ => rfl
  | _, .append _ _, _, _ => rfl
  | _, .rotate _ _ _, _, _ => rfl

end Dync
