import Verif.NestedLemmas
/-!
# Lemmas for containers of containers: cloning
-/
namespace Dync
variable {U : Type} {Γ : TyEnv U} {t : TyId} {N : Nesting U} {leaks : Bool}

/-- A new container with a buffer of its own. -/
theorem Nodes.insert {n : Nat} {s : Nest (Depth U n)} {ns : List (Node n)} (h : Nodes Γ t N leaks n s ns) {h' : Heap} {d : VecVoid}
    {b : Bytes} {k : List (Bytes × Tree n)} (hre : Realloc s.world.heap none h' d.ptr)
    (R : Repr (Γ.depth N n) h' (depthTy t n) (k.map Prod.fst) d) (hb : b.length = 8 * N.words) (hf : s.pool b = none) (u : Depth U n) :
    Nodes Γ t N leaks n (s.set b (some ⟨d, CloneVTable.build (Γ.depth N n) (depthTy t n)⟩) ⟨h', u⟩) ((b, k) :: ns) := by
  obtain ⟨i, hi, hli⟩ := R.block
  have hfresh : s.world.heap.next ≤ i := hre.new_fresh (by rw [hi]; intro h; cases h) i hi
  have hlive : ∀ {b c}, s.pool b = some c → ∃ j, c.data.ptr = some j ∧ j < s.world.heap.next := by
    intro b c hc
    obtain ⟨p, hp, rfl⟩ := List.mem_map.1 (h.only b c hc)
    obtain ⟨-, d', h1, R'⟩ := h.is p hp
    rw [hc] at h1
    cases h1
    obtain ⟨j, hj, hlj⟩ := R'.block
    exact ⟨j, hj, Heap.lt_next h.wf hlj⟩
  have hpool : ∀ {x c}, (s.set b (some ⟨d, CloneVTable.build (Γ.depth N n) (depthTy t n)⟩) ⟨h', u⟩).pool x = some c →
      (x = b ∧ c = ⟨d, CloneVTable.build (Γ.depth N n) (depthTy t n)⟩) ∨ (x ≠ b ∧ s.pool x = some c) := by
    intro x c hx
    unfold Nest.set at hx
    dsimp only at hx
    split at hx
    · cases hx; exact .inl ⟨by assumption, rfl⟩
    · exact .inr ⟨by assumption, hx⟩
  have hold : ∀ j < s.world.heap.next, h'.live j = s.world.heap.live j := fun j hj =>
    hre.other j (by intro h; cases h) (by rw [hi]; intro e; cases e; omega)
  have hne : ∀ p ∈ ns, p.1 ≠ b := by
    intro p hp e
    obtain ⟨-, d', h1, -⟩ := h.is p hp
    rw [e, hf] at h1
    cases h1
  refine ⟨?_, ?_, ?_, ?_, ?_, hre.wf⟩
  · intro p hp
    rcases List.mem_cons.1 hp with rfl | hp
    · refine ⟨hb, d, ?_, R⟩
      show (if b = b then _ else _) = _
      rw [if_pos rfl]
    · obtain ⟨h1, d', h2, R'⟩ := h.is p hp
      refine ⟨h1, d', ?_, ?_⟩
      · show (if p.1 = b then _ else _) = _
        rw [if_neg (hne p hp), h2]
      · refine R'.frame fun j hj => ?_
        obtain ⟨j', hj', hlt⟩ := hlive h2
        rw [hj] at hj'
        cases hj'
        exact hold j hlt
  · intro x c hx
    rcases hpool hx with ⟨rfl, -⟩ | ⟨-, hx⟩
    · exact List.mem_cons_self
    · exact List.mem_cons_of_mem _ (h.only x c hx)
  · refine List.nodup_cons.2 ⟨?_, h.nodup⟩
    intro hm
    obtain ⟨p, hp, e⟩ := List.mem_map.1 hm
    exact hne p hp e
  · intro x y c c' hx hy e
    rcases hpool hx with ⟨hx1, hx2⟩ | ⟨-, hx'⟩
    · rcases hpool hy with ⟨hy1, -⟩ | ⟨-, hy'⟩
      · rw [hx1, hy1]
      · obtain ⟨j, hj, hlt⟩ := hlive hy'
        have : some i = some j := by rw [← hi, ← hj, ← e, hx2]
        cases this
        omega
    · rcases hpool hy with ⟨hy1, hy2⟩ | ⟨-, hy'⟩
      · obtain ⟨j, hj, hlt⟩ := hlive hx'
        have : some j = some i := by rw [← hi, ← hj, e, hy2]
        cases this
        omega
      · exact h.apart x y c c' hx' hy' e
  · intro hl j l hj
    by_cases e : j = i
    · refine ⟨b, ⟨d, CloneVTable.build (Γ.depth N n) (depthTy t n)⟩, ?_, ?_⟩
      · show (if b = b then _ else _) = _
        rw [if_pos rfl]
      · rw [e]; exact hi
    · have hj : h'.live j = some l := hj
      rw [hre.other j (by intro h; cases h) (by rw [hi]; intro h; cases h; exact e rfl)] at hj
      obtain ⟨x, c, h1, h2⟩ := h.blocks hl j l hj
      refine ⟨x, c, ?_, h2⟩
      show (if x = b then _ else _) = _
      rw [if_neg (by rintro rfl; rw [hf] at h1; cases h1), h1]

/-- The state of user code and the heap change, but not the blocks. -/
theorem Nodes.same {n : Nat} {s : Nest (Depth U n)} {ns : List (Node n)} (h : Nodes Γ t N leaks n s ns) {h' : Heap}
    (hre : Realloc s.world.heap none h' none) (u : Depth U n) : Nodes Γ t N leaks n ⟨s.pool, ⟨h', u⟩⟩ ns := by
  have hall : ∀ i, h'.live i = s.world.heap.live i := fun i => hre.other i (by intro h; cases h) (by intro h; cases h)
  refine ⟨?_, h.only, h.nodup, h.apart, ?_, hre.wf⟩
  · intro p hp
    obtain ⟨h1, d, h2, R⟩ := h.is p hp
    exact ⟨h1, d, h2, R.frame fun j _ => hall j⟩
  · intro hl i l hi
    have hi : h'.live i = some l := hi
    rw [hall] at hi
    exact h.blocks hl i l hi

/-- What cloning one value does: what cloning the lists does, and the clone is new. -/
def Cloned (Γ : TyEnv U) (t : TyId) (N : Nesting U) (leaks : Bool) (n : Nat) (vs : List (Bytes × Tree n)) (B : Below n) (r : Res Bytes) (u' : Depth U n)
    (q : Res (Tree n) × U) : Prop :=
  match r with
  | .ok b => ∃ T, q = (.ok T, u'.base) ∧ Forest Γ t N leaks n u' ((b, T) :: vs) B
  | .panic y => q = (.panic y, u'.base) ∧ ∃ lost, Forest Γ t N true n u' (lost ++ vs) B
  | .ub => q.1 = .ub
  | .abort => True

/-- What cloning several values does. -/
def ClonedAll (Γ : TyEnv U) (t : TyId) (N : Nesting U) (leaks : Bool) (n : Nat) (vs : List (Bytes × Tree n)) (B : Below n) (r : Res (List Bytes)) (u' : Depth U n)
    (q : Res (List (Tree n)) × U) : Prop :=
  match r with
  | .ok bs => ∃ k : List (Bytes × Tree n), k.map Prod.fst = bs ∧ q = (.ok (k.map Prod.snd), u'.base) ∧ Forest Γ t N leaks n u' (k ++ vs) B
  | .panic y => q = (.panic y, u'.base) ∧ ∃ lost, Forest Γ t N true n u' (lost ++ vs) B
  | .ub => q.1 = .ub
  | .abort => True

theorem mapEach_forest {n : Nat} {B : Below n}
    (ih : ∀ {u : Depth U n} {v vs} {r : Res Bytes} {u'}, Forest Γ t N leaks n u vs B → v ∈ vs → (Γ.depth N n).clone (depthTy t n) v.1 u = (r, u') →
      Cloned Γ t N leaks n vs B r u' (cloneTree Γ t n v.2 u.base)) :
    ∀ {k vs : List (Bytes × Tree n)} {u u' : Depth U n} {r : Res (List Bytes)}, Forest Γ t N leaks n u vs B → (∀ v ∈ k, v ∈ vs) →
      M.mapEach (k.map Prod.fst) ((Γ.depth N n).clone (depthTy t n)) u = (r, u') →
      ClonedAll Γ t N leaks n vs B r u' (M.mapEach (k.map Prod.snd) (cloneTree Γ t n) u.base) := by
  intro k
  induction k with
  | nil =>
    intro vs u u' r hf hk he
    cases he
    exact ⟨[], rfl, rfl, hf⟩
  | cons v k ihk =>
    intro vs u u' r hf hk he
    simp only [List.map_cons, M.mapEach_cons] at he ⊢
    rcases hd : (Γ.depth N n).clone (depthTy t n) v.1 u with ⟨r1, u1⟩
    have h1 := ih hf (hk v List.mem_cons_self) hd
    cases r1 with
    | ok b =>
      rw [M.bind_ok hd] at he
      obtain ⟨T, h2, h3⟩ := h1
      rw [M.bind_ok h2]
      rcases hm : M.mapEach (k.map Prod.fst) ((Γ.depth N n).clone (depthTy t n)) u1 with ⟨r2, u2⟩
      have h4 := ihk h3 (fun w hw => List.mem_cons_of_mem _ (hk w (List.mem_cons_of_mem _ hw))) hm
      cases r2 with
      | ok bs =>
        rw [M.bind_ok hm] at he
        cases he
        obtain ⟨k', rfl, h5, h6⟩ := h4
        rw [M.bind_ok h5]
        exact ⟨(b, T) :: k', rfl, rfl, h6.perm List.perm_middle⟩
      | panic y =>
        rw [M.bind_panic hm] at he
        cases he
        obtain ⟨h5, lost, h6⟩ := h4
        rw [M.bind_panic h5]
        exact ⟨rfl, lost ++ [(b, T)], by rw [List.append_assoc]; exact h6⟩
      | ub =>
        rw [M.bind_ub hm] at he
        cases he
        have h4 : (M.mapEach (k.map Prod.snd) (cloneTree Γ t n) u1.base).1 = .ub := h4
        show ((M.mapEach (k.map Prod.snd) (cloneTree Γ t n) >>= _) u1.base).1 = .ub
        rw [M.bind_ub (Prod.ext (y := (_, _)) h4 rfl)]
      | abort =>
        rw [M.bind_abort hm] at he
        cases he
        trivial
    | panic y =>
      rw [M.bind_panic hd] at he
      cases he
      obtain ⟨h2, h3⟩ := h1
      rw [M.bind_panic h2]
      exact ⟨rfl, h3⟩
    | ub =>
      rw [M.bind_ub hd] at he
      cases he
      have h1 : (cloneTree Γ t n v.2 u.base).1 = .ub := h1
      show ((cloneTree Γ t n v.2 >>= _) u.base).1 = .ub
      rw [M.bind_ub (Prod.ext (y := (_, _)) h1 rfl)]
    | abort =>
      rw [M.bind_abort hd] at he
      cases he
      trivial

theorem clone_forest : ∀ {n : Nat} {leaks : Bool} {u u' : Depth U n} {v : Bytes × Tree n} {vs : List (Bytes × Tree n)} {B : Below n} {r : Res Bytes},
    Forest Γ t N leaks n u vs B → v ∈ vs → (Γ.depth N n).clone (depthTy t n) v.1 u = (r, u') →
      Cloned Γ t N leaks n vs B r u' (cloneTree Γ t n v.2 u.base)
  | 0, leaks, u, u', v, vs, B, r, hf, hm, he => by
    obtain ⟨h1, h2⟩ := hf v hm
    have he : Γ.clone t v.1 u = (r, u') := he
    have hq : cloneTree Γ t 0 v.2 u = (r, u') := by
      show Γ.clone t v.2 u = (r, u')
      rw [h1]; exact he
    show Cloned Γ t N leaks 0 vs B r u' (cloneTree Γ t 0 v.2 u)
    rw [hq]
    cases r with
    | ok b =>
      refine ⟨b, rfl, fun w hw => ?_⟩
      rcases List.mem_cons.1 hw with rfl | hw
      · exact ⟨rfl, Γ.clone_len he⟩
      · exact hf w hw
    | panic y => exact ⟨rfl, [], hf⟩
    | ub => rfl
    | abort => trivial
  | n + 1, leaks, s, s', v, vs, B, r, hf, hm, he => by
    obtain ⟨a, b, rfl⟩ := List.append_of_mem hm
    obtain ⟨p, ns, lost, rfl, hv, hn, hl, hb⟩ := (hf.perm List.perm_middle).pick
    have hv : ((p :: ns).map Node.value).Perm (a ++ p.value :: b) := (hv.cons _).trans List.perm_middle.symm
    have hfl : (p.2 ++ ((lost ++ B.1) ++ ns.flatMap Prod.snd)).Perm ((lost ++ B.1) ++ (p :: ns).flatMap Prod.snd) := by
      rw [List.flatMap_cons]
      exact List.perm_append_comm_assoc _ _ _
    obtain ⟨-, d, hc, R⟩ := hn.is p List.mem_cons_self
    have he : Nest.clone N.cfg (8 * N.words) N.fresh p.1 s = (r, s') := by
      have he : (if Nest.ty = Nest.ty then Nest.clone N.cfg (8 * N.words) N.fresh p.1 else pure []).run s = (r, s') := he
      rwa [if_pos rfl] at he
    unfold Nest.clone at he
    dsimp only at he
    rw [hc] at he
    dsimp only at he
    rcases hk : M.mapEach (p.2.map Prod.fst) ((Γ.depth N n).clone (depthTy t n)) s.world.user with ⟨q, u1⟩
    have h1 := mapEach_forest (fun hf hm he => clone_forest hf hm he) hb (fun w hw => List.mem_append_left _ hw) hk
    have htree : cloneTree Γ t (n + 1) p.value.2 s.base = M.mapEach (p.2.map Prod.snd) (cloneTree Γ t n) s.world.user.base := rfl
    rw [htree]
    cases q with
    | ok bs =>
      obtain ⟨k, rfl, h2, h3⟩ := h1
      obtain ⟨d', h', hd, R', -, hre⟩ := VecDyn.clone_ok (cfg := N.cfg) (c := ⟨d, CloneVTable.build (Γ.depth N n) (depthTy t n)⟩) R (lawfulClone_build _ _) hn.wf hk
      rw [hd] at he
      dsimp only at he
      unfold Nest.enter at he
      dsimp only at he
      split at he
      · rename_i hx
        cases he
        refine ⟨k.map Prod.snd, h2, (_, k) :: p :: ns, lost, hv.cons _, ?_, hl, h3.perm ?_⟩
        · exact hn.insert hre R' hx.1 (Option.isNone_iff_eq_none.1 hx.2) u1
        · rw [List.flatMap_cons]
          exact (hfl.append_left k).trans (List.perm_append_comm_assoc _ _ _)
      · cases he
        trivial
    | panic y =>
      obtain ⟨h2, lost', h3⟩ := h1
      obtain ⟨h', hd, hre⟩ := VecDyn.clone_panic (cfg := N.cfg) (c := ⟨d, CloneVTable.build (Γ.depth N n) (depthTy t n)⟩) R (lawfulClone_build _ _) hn.wf hk
      rw [hd] at he
      cases he
      refine ⟨h2, [], p :: ns, lost' ++ lost, hv, (hn.same hre u1).leak, (fun h => by cases h), h3.perm ?_⟩
      rw [List.append_assoc lost', List.append_assoc lost']
      exact hfl.append_left lost'
    | ub =>
      have hd := clone_stop (cfg := N.cfg) (c := ⟨d, CloneVTable.build (Γ.depth N n) (depthTy t n)⟩) R (tab_build _ _) (b := true) hk
      rcases hx : VecDyn.clone N.cfg ⟨d, CloneVTable.build (Γ.depth N n) (depthTy t n)⟩ s.world with ⟨x, w⟩
      rw [hx] at hd he
      have hd : x = .ub := hd
      subst hd
      cases he
      exact h1
    | abort =>
      have hd := clone_stop (cfg := N.cfg) (c := ⟨d, CloneVTable.build (Γ.depth N n) (depthTy t n)⟩) R (tab_build _ _) (b := false) hk
      rcases hx : VecDyn.clone N.cfg ⟨d, CloneVTable.build (Γ.depth N n) (depthTy t n)⟩ s.world with ⟨x, w⟩
      rw [hx] at hd he
      have hd : x = .abort := hd
      subst hd
      cases he
      trivial

end Dync
