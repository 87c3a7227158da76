import Verif.NestedLemmas2
/-!
# Lemmas for containers of containers: new containers, pushing, programs
-/
namespace Dync
variable {U : Type} {Γ : TyEnv U} {t : TyId} {N : Nesting U} {leaks : Bool}

/-! ### Lists of variables -/

theorem map_eraseIdx' {α β : Type} (f : α → β) : ∀ (l : List α) (i : Nat), (l.eraseIdx i).map f = (l.map f).eraseIdx i
  | [], _ => rfl
  | _ :: _, 0 => rfl
  | a :: l, i + 1 => congrArg (f a :: ·) (map_eraseIdx' f l i)

theorem perm_eraseIdx {α : Type} : ∀ {l : List α} {i : Nat} {v : α}, l[i]? = some v → l.Perm (v :: l.eraseIdx i)
  | [], _, _, h => by cases h
  | _ :: _, 0, _, h => by cases h; exact List.Perm.refl _
  | a :: l, i + 1, v, h => ((perm_eraseIdx (l := l) (i := i) h).cons a).trans (List.Perm.swap v a _)

theorem set_perm_eraseIdx {α : Type} : ∀ {l : List α} {i : Nat} {v : α}, l[i]? = some v → ∀ w, (l.set i w).Perm (w :: l.eraseIdx i)
  | [], _, _, h, _ => by cases h
  | _ :: _, 0, _, h, _ => by cases h; exact List.Perm.refl _
  | a :: l, i + 1, _, h, w => ((set_perm_eraseIdx (l := l) (i := i) h w).cons a).trans (List.Perm.swap w a _)

theorem getElem?_of_map {α β : Type} {f : α → β} {l : List α} {i : Nat} {b : β} (h : (l.map f)[i]? = some b) : ∃ a, l[i]? = some a ∧ f a = b := by
  rw [List.getElem?_map] at h
  cases hl : l[i]? with
  | none => rw [hl] at h; cases h
  | some a => rw [hl] at h; cases h; exact ⟨a, rfl, rfl⟩

theorem getElem?_none_map {α β γ : Type} {f : α → β} {g : α → γ} {l : List α} {i : Nat} (h : (l.map f)[i]? = none) : (l.map g)[i]? = none := by
  rw [List.getElem?_map] at h ⊢
  cases hl : l[i]? with
  | none => rfl
  | some a => rw [hl] at h; cases h

theorem set_same {α : Type} : ∀ {l : List α} {i : Nat} {v : α}, l[i]? = some v → l.set i v = l
  | [], _, _, h => by cases h
  | _ :: _, 0, _, h => by cases h; rfl
  | a :: l, i + 1, _, h => congrArg (a :: ·) (set_same (l := l) (i := i) h)

/-! ### Containers -/

/-- A container changes: its content, its buffer and its image. -/
theorem Nodes.change {n : Nat} {s : Nest (Depth U n)} {p : Node n} {ns : List (Node n)} (h : Nodes Γ t N leaks n s (p :: ns)) {h' : Heap}
    {d d' : VecVoid} {b : Bytes} {k : List (Bytes × Tree n)}
    (hc : s.pool p.1 = some ⟨d, CloneVTable.build (Γ.depth N n) (depthTy t n)⟩) (hd : ∃ i, d.ptr = some i ∧ i < s.world.heap.next)
    (hre : Realloc s.world.heap d.ptr h' d'.ptr)
    (R : Repr (Γ.depth N n) h' (depthTy t n) (k.map Prod.fst) d') (hb : b.length = 8 * N.words)
    (hf : (s.set p.1 none ⟨h', s.world.user⟩).pool b = none) :
    Nodes Γ t N leaks n ((s.set p.1 none ⟨h', s.world.user⟩).set b (some ⟨d', CloneVTable.build (Γ.depth N n) (depthTy t n)⟩) ⟨h', s.world.user⟩)
      ((b, k) :: ns) := by
  have hn : p.1 ∉ ns.map Prod.fst ∧ (ns.map Prod.fst).Nodup := List.nodup_cons.1 h.nodup
  have hnp : ∀ q ∈ ns, q.1 ≠ p.1 := fun q hq e => hn.1 (e ▸ List.mem_map_of_mem hq)
  obtain ⟨i, hi, hlt⟩ := hd
  have hlive : ∀ {b c}, s.pool b = some c → ∃ j, c.data.ptr = some j ∧ j < s.world.heap.next := by
    intro b c hc
    obtain ⟨p, hp, rfl⟩ := List.mem_map.1 (h.only b c hc)
    obtain ⟨-, d', h1, R'⟩ := h.is p hp
    rw [hc] at h1
    cases h1
    obtain ⟨j, hj, hlj⟩ := R'.block
    exact ⟨j, hj, Heap.lt_next h.wf hlj⟩
  -- the new buffer is not that of another container
  have hnew : ∀ {x c}, s.pool x = some c → x ≠ p.1 → c.data.ptr ≠ d'.ptr := by
    intro x c hx hxp e
    by_cases hdd : d'.ptr = d.ptr
    · exact hxp (h.apart x p.1 c _ hx hc (e.trans hdd))
    · obtain ⟨j, hj, hjl⟩ := hlive hx
      have := hre.new_fresh hdd j (e ▸ hj)
      omega
  have hkeep : ∀ {x c j}, s.pool x = some c → x ≠ p.1 → c.data.ptr = some j → h'.live j = s.world.heap.live j := by
    intro x c j hx hxp hj
    refine hre.other j ?_ ?_
    · rw [← hj]; intro e; exact hxp (h.apart x p.1 c _ hx hc e)
    · rw [← hj]; exact hnew hx hxp
  have hpool : ∀ {x c}, ((s.set p.1 none ⟨h', s.world.user⟩).set b (some ⟨d', CloneVTable.build (Γ.depth N n) (depthTy t n)⟩) ⟨h', s.world.user⟩).pool x = some c →
      (x = b ∧ c = ⟨d', CloneVTable.build (Γ.depth N n) (depthTy t n)⟩) ∨ (x ≠ b ∧ x ≠ p.1 ∧ s.pool x = some c) := by
    intro x c hx
    unfold Nest.set at hx
    dsimp only at hx
    split at hx
    · cases hx; exact .inl ⟨by assumption, rfl⟩
    · split at hx
      · cases hx
      · exact .inr ⟨by assumption, by assumption, hx⟩
  have hback : ∀ {x c}, x ≠ p.1 → s.pool x = some c → x ≠ b ∧
      ((s.set p.1 none ⟨h', s.world.user⟩).set b (some ⟨d', CloneVTable.build (Γ.depth N n) (depthTy t n)⟩) ⟨h', s.world.user⟩).pool x = some c := by
    intro x c hxp hx
    have hxb : x ≠ b := by
      rintro rfl
      have hf : (if x = p.1 then none else s.pool x) = none := hf
      rw [if_neg hxp, hx] at hf
      cases hf
    refine ⟨hxb, ?_⟩
    show (if x = b then _ else if x = p.1 then none else s.pool x) = _
    rw [if_neg hxb, if_neg hxp, hx]
  have hself : ((s.set p.1 none ⟨h', s.world.user⟩).set b (some ⟨d', CloneVTable.build (Γ.depth N n) (depthTy t n)⟩) ⟨h', s.world.user⟩).pool b =
      some ⟨d', CloneVTable.build (Γ.depth N n) (depthTy t n)⟩ := by
    show (if b = b then _ else _) = _
    rw [if_pos rfl]
  refine ⟨?_, ?_, ?_, ?_, ?_, hre.wf⟩
  · intro q hq
    rcases List.mem_cons.1 hq with rfl | hq
    · exact ⟨hb, d', hself, R⟩
    · obtain ⟨h1, d1, h2, R'⟩ := h.is q (List.mem_cons_of_mem _ hq)
      exact ⟨h1, d1, (hback (hnp q hq) h2).2, R'.frame fun j hj => hkeep h2 (hnp q hq) hj⟩
  · intro x c hx
    rcases hpool hx with ⟨rfl, -⟩ | ⟨-, hxp, hx⟩
    · exact List.mem_cons_self
    · rcases List.mem_cons.1 (h.only x c hx) with e | e
      · exact absurd e hxp
      · exact List.mem_cons_of_mem _ e
  · refine List.nodup_cons.2 ⟨?_, hn.2⟩
    intro hm
    obtain ⟨q, hq, e⟩ := List.mem_map.1 hm
    obtain ⟨-, d1, h2, -⟩ := h.is q (List.mem_cons_of_mem _ hq)
    exact (hback (hnp q hq) h2).1 e
  · intro x y c c' hx hy e
    rcases hpool hx with ⟨hx1, hx2⟩ | ⟨-, hxp, hx'⟩
    · rcases hpool hy with ⟨hy1, -⟩ | ⟨-, hyp, hy'⟩
      · rw [hx1, hy1]
      · exact absurd (by rw [← e, hx2]) (hnew hy' hyp)
    · rcases hpool hy with ⟨hy1, hy2⟩ | ⟨-, hyp, hy'⟩
      · exact absurd (by rw [e, hy2]) (hnew hx' hxp)
      · exact h.apart x y c c' hx' hy' e
  · intro hl j l hj
    have hj : h'.live j = some l := hj
    by_cases e : some j = d'.ptr
    · exact ⟨b, _, hself, e.symm⟩
    · by_cases e2 : some j = d.ptr
      · have := hre.old_dead (fun h => e (by rw [h, e2])) j e2.symm
        rw [this] at hj; cases hj
      · rw [hre.other j e2 e] at hj
        obtain ⟨x, c, h1, h2⟩ := h.blocks hl j l hj
        have hxp : x ≠ p.1 := by
          rintro rfl
          rw [hc] at h1
          cases h1
          exact e2 h2.symm
        exact ⟨x, c, (hback hxp h1).2, h2⟩

/-- A new container. -/
theorem new_forest {n : Nat} {s s' : Nest (Depth U n)} {vs : List (Bytes × Tree (n + 1))} {B : Below (n + 1)} {r : Res Bytes}
    (hpos : 0 < (Γ.depth N n).size (depthTy t n)) (hf : Forest Γ t N leaks (n + 1) s vs B)
    (he : Nest.new (8 * N.words) N.fresh (Γ.depth N n) (depthTy t n) s = (r, s')) :
    r = .abort ∨ ∃ b, r = .ok b ∧ s'.world.user = s.world.user ∧ Forest Γ t N leaks (n + 1) s' ((b, List.nil (α := Tree n)) :: vs) B := by
  obtain ⟨ns, lost, hv, hn, hl, hb⟩ := hf
  obtain ⟨c, h', hrun, R, hvt, hre, -⟩ := VecCopy.withType_ok (vt := CloneVTable.build (Γ.depth N n) (depthTy t n)) hn.wf hpos
  unfold Nest.new at he
  dsimp only at he
  rw [hrun] at he
  dsimp only at he
  unfold Nest.enter at he
  dsimp only at he
  split at he
  · rename_i hx
    cases he
    obtain ⟨d, vt⟩ := c
    cases hvt
    refine .inr ⟨_, rfl, rfl, (_, []) :: ns, lost, hv.cons _, ?_, hl, ?_⟩
    · exact hn.insert (k := []) hre R hx.1 (Option.isNone_iff_eq_none.1 hx.2) s.world.user
    · exact hb
  · cases he
    exact .inl rfl

/-- Pushing a value of the depth below. -/
theorem push_forest {n : Nat} {s s' : Nest (Depth U n)} {v : Bytes × Tree (n + 1)} {x : Bytes × Tree n} {vs : List (Bytes × Tree (n + 1))}
    {l : List (Bytes × Tree n)} {B : Below n} {r : Res Bytes} (hx : x.1.length = (Γ.depth N n).size (depthTy t n))
    (hf : Forest Γ t N leaks (n + 1) s (v :: vs) (x :: l, B))
    (he : Nest.push N.cfg (8 * N.words) N.fresh (Γ.depth N n) (depthTy t n) v.1 x.1 s = (r, s')) :
    r = .abort ∨ ∃ b, r = .ok b ∧ s'.world.user = s.world.user ∧
      Forest Γ t N leaks (n + 1) s' ((b, List.append (α := Tree n) v.2 [x.2]) :: vs) (l, B) := by
  obtain ⟨p, ns, lost, rfl, hv, hn, hl, hb⟩ := hf.pick
  obtain ⟨-, d, hc, R⟩ := hn.is p List.mem_cons_self
  obtain ⟨i, hi, hli⟩ := R.block
  have he : Nest.push N.cfg (8 * N.words) N.fresh (Γ.depth N n) (depthTy t n) p.1 x.1 s = (r, s') := he
  unfold Nest.push at he
  dsimp only at he
  rw [hc] at he
  dsimp only at he
  split at he
  · rename_i hroom
    obtain ⟨d', h', hrun, hev⟩ := VecCopy.pushAs_ok (cfg := N.cfg) (c := ⟨d, CloneVTable.build (Γ.depth N n) (depthTy t n)⟩) R hn.wf hx
      (by rw [← R.len]; exact hroom)
    rw [hrun] at he
    dsimp only at he
    unfold Nest.enter at he
    dsimp only at he
    split at he
    · rename_i hy
      cases he
      refine .inr ⟨_, rfl, rfl, (N.fresh (s.set p.1 none ⟨h', s.world.user⟩), p.2 ++ [x]) :: ns, lost, ?_, ?_, hl, hb.perm ?_⟩
      · have : Node.value (n := n) (N.fresh (s.set p.1 none ⟨h', s.world.user⟩), p.2 ++ [x]) =
            (N.fresh (s.set p.1 none ⟨h', s.world.user⟩), List.append (α := Tree n) p.value.2 [x.2]) := by
          show (_, (p.2 ++ [x]).map Prod.snd) = _
          rw [List.map_append]
          rfl
        rw [List.map_cons, this]
        exact hv.cons _
      · exact hn.change hc ⟨i, hi, Heap.lt_next hn.wf hli⟩ hev.realloc (by rw [List.map_append]; exact hev.repr) hy.1 (Option.isNone_iff_eq_none.1 hy.2)
      · rw [List.flatMap_cons]
        show (p.2 ++ ((lost ++ x :: l) ++ ns.flatMap Prod.snd)).Perm ((lost ++ l) ++ ((p.2 ++ [x]) ++ ns.flatMap Prod.snd))
        rw [← List.append_assoc, ← List.append_assoc (lost ++ l)]
        refine List.Perm.append_right _ ?_
        refine List.perm_append_comm.trans ?_
        rw [← List.append_assoc]
        refine List.Perm.trans ?_ List.perm_append_comm
        show (lost ++ x :: l ++ p.2).Perm (x :: (lost ++ l ++ p.2))
        rw [List.append_assoc, List.append_assoc, List.cons_append]
        exact List.perm_middle
    · cases he
      exact .inl rfl
  · cases he
    exact .inl rfl

theorem Nest.set_set {W : Type} (s : Nest W) (b : Bytes) (c c' : Option (VecDyn (CloneVTable W))) (w w' : World W) :
    (s.set b c w).set b c' w' = s.set b c' w' := by
  unfold Nest.set
  refine congrArg (fun f => Nest.mk f w') (funext fun x => ?_)
  dsimp only
  split <;> rfl

theorem Nest.set_self {W : Type} {s : Nest W} {b : Bytes} {c : Option (VecDyn (CloneVTable W))} (h : s.pool b = c) : s.set b c s.world = s := by
  obtain ⟨pool, w⟩ := s
  unfold Nest.set
  refine congrArg (fun f => Nest.mk f w) (funext fun x => ?_)
  dsimp only
  split
  · rename_i e; rw [e]; exact h.symm
  · rfl

/-- Taking a container apart. -/
theorem take_forest {n : Nat} {s s' : Nest (Depth U n)} {v : Bytes × Tree (n + 1)} {vs : List (Bytes × Tree (n + 1))}
    {l : List (Bytes × Tree n)} {B : Below n} {r : Res (List Bytes)} (hf : Forest Γ t N leaks (n + 1) s (v :: vs) (l, B))
    (he : Nest.take N.cfg (Γ.depth N n) (depthTy t n) v.1 s = (r, s')) :
    ∃ k : List (Bytes × Tree n), r = .ok (k.map Prod.fst) ∧ k.map Prod.snd = v.2 ∧ s'.world.user = s.world.user ∧
      Forest Γ t N leaks (n + 1) s' vs (k ++ l, B) := by
  obtain ⟨p, ns, lost, rfl, hv, hn, hl, hb⟩ := hf.pick
  obtain ⟨-, d, hc, R⟩ := hn.is p List.mem_cons_self
  obtain ⟨i, hi, hli⟩ := R.block
  have he : Nest.take N.cfg (Γ.depth N n) (depthTy t n) p.1 s = (r, s') := he
  unfold Nest.take at he
  dsimp only at he
  rw [hc] at he
  dsimp only at he
  rw [intoVec_vec (c := ⟨d, CloneVTable.build (Γ.depth N n) (depthTy t n)⟩) R] at he
  dsimp only at he
  have hpos : d.cap * (Γ.depth N n).size (depthTy t n) ≠ 0 := Nat.mul_ne_zero (by have := R.cap_pos; omega) (by have := R.pos; omega)
  have hfree : d.typedView.dropBuf ((Γ.depth N n).layout (depthTy t n)) s.world = (.ok (), { s.world with heap := s.world.heap.free i }) := by
    have h1 : dealloc d.ptr ⟨d.cap * (Γ.depth N n).size (depthTy t n), (Γ.depth N n).align (depthTy t n)⟩ s.world.heap = (.ok (), s.world.heap.free i) := by
      unfold dealloc
      dsimp only
      rw [if_neg hpos, hi]
      dsimp only
      rw [if_pos hli]
    show worldHeap (dealloc d.ptr ⟨d.cap * (Γ.depth N n).size (depthTy t n), (Γ.depth N n).align (depthTy t n)⟩) s.world = _
    unfold worldHeap
    simp only [M.zoom_run, h1]
  rw [hfree] at he
  dsimp only at he
  cases he
  refine ⟨p.2, congrArg Res.ok R.isVec.elems, rfl, rfl, ns, lost, hv, (hn.remove hc hi s.world.user).1, hl, hb.perm ?_⟩
  show (p.2 ++ ((lost ++ l) ++ ns.flatMap Prod.snd)).Perm ((lost ++ (p.2 ++ l)) ++ ns.flatMap Prod.snd)
  rw [← List.append_assoc]
  exact (List.perm_append_comm_assoc _ _ _).append_right _

/-- Cloning an element. -/
theorem pick_forest {n : Nat} {s s' : Nest (Depth U n)} {v : Bytes × Tree (n + 1)} {vs : List (Bytes × Tree (n + 1))}
    {l : List (Bytes × Tree n)} {B : Below n} {r : Res Bytes} {k : Nat} (hf : Forest Γ t N leaks (n + 1) s vs (l, B)) (hm : v ∈ vs)
    (he : Nest.pick (Γ.depth N n) (depthTy t n) v.1 k s = (r, s')) :
    ((show List (Tree n) from v.2)[k]? = none → r = .panic .assertion ∧ s' = s) ∧
    (∀ T, (show List (Tree n) from v.2)[k]? = some T →
      match r with
      | .ok b => ∃ T', cloneTree Γ t n T s.world.user.base = (.ok T', s'.world.user.base) ∧ Forest Γ t N leaks (n + 1) s' vs ((b, T') :: l, B)
      | .panic y => cloneTree Γ t n T s.world.user.base = (.panic y, s'.world.user.base) ∧ Forest Γ t N true (n + 1) s' vs (l, B)
      | .ub => (cloneTree Γ t n T s.world.user.base).1 = .ub
      | .abort => True) := by
  obtain ⟨ns, lost, hv, hn, hl, hb⟩ := hf
  obtain ⟨p, hp, rfl⟩ := List.mem_map.1 (hv.mem_iff.2 hm)
  obtain ⟨-, d, hc, R⟩ := hn.is p hp
  have he : Nest.pick (Γ.depth N n) (depthTy t n) p.1 k s = (r, s') := he
  unfold Nest.pick at he
  dsimp only at he
  rw [hc] at he
  dsimp only at he
  constructor
  · intro hk
    have hk : (p.2.map Prod.snd)[k]? = none := hk
    have hk : (p.2.map Prod.fst).length ≤ k := by
      rw [List.length_map, ← List.length_map (f := Prod.snd) (as := p.2)]
      exact List.getElem?_eq_none_iff.1 hk
    rw [VecCopy.getAs_out (c := ⟨d, CloneVTable.build (Γ.depth N n) (depthTy t n)⟩) R hk] at he
    cases he
    exact ⟨rfl, rfl⟩
  · intro T hk
    have hk : (p.2.map Prod.snd)[k]? = some T := hk
    obtain ⟨x, hx, rfl⟩ := getElem?_of_map hk
    obtain ⟨hlt, hxe⟩ := List.getElem?_eq_some_iff.1 hx
    have hlt' : k < (p.2.map Prod.fst).length := by rw [List.length_map]; exact hlt
    have hel : (p.2.map Prod.fst)[k] = x.1 := by rw [List.getElem_map, hxe]
    rw [VecCopy.getAs_ok (c := ⟨d, CloneVTable.build (Γ.depth N n) (depthTy t n)⟩) R hlt', hel] at he
    dsimp only at he
    rcases hd : (Γ.depth N n).clone (depthTy t n) x.1 s.world.user with ⟨q, u'⟩
    rw [hd] at he
    cases he
    have hcl := clone_forest hb (List.mem_append_right _ (List.mem_flatMap.2 ⟨p, hp, List.mem_of_getElem? hx⟩)) hd
    have hn' : Nodes Γ t N leaks n ⟨s.pool, ⟨s.world.heap, u'⟩⟩ ns := ⟨hn.is, hn.only, hn.nodup, hn.apart, hn.blocks, hn.wf⟩
    cases q with
    | ok b =>
      obtain ⟨T', h1, h2⟩ := hcl
      refine ⟨T', h1, ns, lost, hv, hn', hl, h2.perm ?_⟩
      rw [← List.cons_append]
      exact List.Perm.append_right _ List.perm_middle.symm
    | panic y =>
      obtain ⟨h1, lost', h2⟩ := hcl
      refine ⟨h1, ns, lost' ++ lost, hv, hn'.leak, (fun h => by cases h), ?_⟩
      rw [List.append_assoc lost', List.append_assoc lost']
      exact h2
    | ub => exact hcl
    | abort => trivial

/-- Swapping an element and a value of the depth below. -/
theorem swap_forest {n : Nat} {s s' : Nest (Depth U n)} {v : Bytes × Tree (n + 1)} {x : Bytes × Tree n} {vs : List (Bytes × Tree (n + 1))}
    {l : List (Bytes × Tree n)} {B : Below n} {r : Res Bytes} {k : Nat} (hx : x.1.length = (Γ.depth N n).size (depthTy t n))
    (hf : Forest Γ t N leaks (n + 1) s (v :: vs) (x :: l, B)) (he : Nest.swap (Γ.depth N n) (depthTy t n) v.1 k x.1 s = (r, s')) :
    ((show List (Tree n) from v.2)[k]? = none → r = .panic .assertion ∧ s' = s) ∧
    (∀ T, (show List (Tree n) from v.2)[k]? = some T → ∃ b, r = .ok b ∧ s'.world.user = s.world.user ∧
      Forest Γ t N leaks (n + 1) s' ((v.1, List.set (α := Tree n) v.2 k x.2) :: vs) ((b, T) :: l, B)) := by
  obtain ⟨p, ns, lost, rfl, hv, hn, hl, hb⟩ := hf.pick
  obtain ⟨hlen, d, hc, R⟩ := hn.is p List.mem_cons_self
  obtain ⟨i, hi, hli⟩ := R.block
  have he : Nest.swap (Γ.depth N n) (depthTy t n) p.1 k x.1 s = (r, s') := he
  unfold Nest.swap at he
  dsimp only at he
  rw [hc] at he
  dsimp only at he
  constructor
  · intro hk
    have hk : (p.2.map Prod.snd)[k]? = none := hk
    have hk : (p.2.map Prod.fst).length ≤ k := by
      rw [List.length_map, ← List.length_map (f := Prod.snd) (as := p.2)]
      exact List.getElem?_eq_none_iff.1 hk
    have hout : VecCopy.getMutAs (Γ.depth N n) (depthTy t n) k (⟨fun e => (.ok e.1, (x.1, e.2))⟩ : M (Bytes × World (Depth U n)) Bytes)
        ((⟨d, CloneVTable.build (Γ.depth N n) (depthTy t n)⟩ : VecDyn (CloneVTable (Depth U n))), s.world) =
        (.panic .assertion, ((⟨d, CloneVTable.build (Γ.depth N n) (depthTy t n)⟩ : VecDyn (CloneVTable (Depth U n))), s.world)) := by
      have hb : decide (k < VecCopy.len (⟨d, CloneVTable.build (Γ.depth N n) (depthTy t n)⟩ : VecDyn (CloneVTable (Depth U n)))) = false := by
        simp only [VecCopy.len, R.len]; exact decide_eq_false (by omega)
      simp only [VecCopy.getMutAs, M.bind_run, getSelf_run, hb, M.assert_false_run]
    rw [hout] at he
    cases he
    exact ⟨rfl, Nest.set_self hc⟩
  · intro T hk
    have hk : (p.2.map Prod.snd)[k]? = some T := hk
    obtain ⟨y, hy, rfl⟩ := getElem?_of_map hk
    obtain ⟨hlt, hye⟩ := List.getElem?_eq_some_iff.1 hy
    have hlt' : k < (p.2.map Prod.fst).length := by rw [List.length_map]; exact hlt
    have hel : (p.2.map Prod.fst)[k] = y.1 := by rw [List.getElem_map, hye]
    obtain ⟨d', hrun, hev⟩ := VecCopy.getMutAs_ok (c := ⟨d, CloneVTable.build (Γ.depth N n) (depthTy t n)⟩) R hn.wf hlt'
      (m := (⟨fun e => (.ok e.1, (x.1, e.2))⟩ : M (Bytes × World (Depth U n)) Bytes)) rfl hx
    rw [hrun] at he
    rw [hel] at he
    cases he
    refine ⟨_, rfl, rfl, (p.1, p.2.set k x) :: ns, lost, ?_, ?_, hl, hb.perm ?_⟩
    · have : Node.value (n := n) (p.1, p.2.set k x) = (p.value.1, List.set (α := Tree n) p.value.2 k x.2) := by
        show (_, (p.2.set k x).map Prod.snd) = _
        rw [List.map_set]
        rfl
      rw [List.map_cons, this]
      exact hv.cons _
    · have hch := hn.change (b := p.1) (k := p.2.set k x) hc ⟨i, hi, Heap.lt_next hn.wf hli⟩ hev.realloc (by rw [List.map_set]; exact hev.repr) hlen
        (by show (if p.1 = p.1 then none else _) = none; rw [if_pos rfl])
      rw [Nest.set_set] at hch
      exact hch
    · rw [List.flatMap_cons]
      show (p.2 ++ ((lost ++ x :: l) ++ ns.flatMap Prod.snd)).Perm ((lost ++ y :: l) ++ (p.2.set k x ++ ns.flatMap Prod.snd))
      rw [← List.append_assoc, ← List.append_assoc (lost ++ y :: l)]
      refine List.Perm.append_right _ ?_
      refine ((perm_eraseIdx hy).append (List.perm_middle (a := x) (l₁ := lost) (l₂ := l))).trans ?_
      refine List.Perm.trans ?_ ((List.perm_middle (a := y) (l₁ := lost) (l₂ := l)).append (set_perm_eraseIdx hy x)).symm
      show (y :: (p.2.eraseIdx k ++ x :: (lost ++ l))).Perm (y :: ((lost ++ l) ++ x :: p.2.eraseIdx k))
      refine List.Perm.cons y ?_
      refine List.perm_middle.trans (List.Perm.trans (List.Perm.cons x List.perm_append_comm) List.perm_middle.symm)

theorem enter_cases {W : Type} (len : Nat) (fresh : Nest W → Bytes) (c : VecDyn (CloneVTable W)) (s : Nest W) :
    Nest.enter len fresh c s = (.abort, s) ∨ (∃ b, Nest.enter len fresh c s = (.ok b, s.set b (some c) s.world) ∧ b.length = len ∧ s.pool b = none) := by
  unfold Nest.enter
  dsimp only
  split
  · rename_i h; exact .inr ⟨_, rfl, h.1, Option.isNone_iff_eq_none.1 h.2⟩
  · exact .inl rfl

theorem forEach_quiet {α σ : Type} {f : α → M σ Unit} : ∀ {l : List α}, (∀ a ∈ l, ∀ s y, (f a s).1 ≠ .panic y) → ∀ (s : σ) y, (M.forEach l f s).1 ≠ .panic y
  | [], _, s, _ => by intro h; cases h
  | a :: l, h, s, y => by
    rw [M.forEach_cons]
    have ha := h a List.mem_cons_self s
    rcases hx : f a s with ⟨r, s'⟩
    rw [hx] at ha
    cases r with
    | ok _ => rw [M.bind_ok hx]; exact forEach_quiet (fun b hb => h b (List.mem_cons_of_mem _ hb)) s' y
    | panic y => exact absurd rfl (ha y)
    | ub => rw [M.bind_ub hx]; intro h; cases h
    | abort => rw [M.bind_abort hx]; intro h; cases h

theorem dropTree_quiet (h : ∀ x u y, (Γ.drop t x u).1 ≠ .panic y) : ∀ (n : Nat) (T : Tree n) (u : U) y, (dropTree Γ t n T u).1 ≠ .panic y
  | 0, T, u, y => h T u y
  | n + 1, _, u, y => forEach_quiet (fun T _ u y => dropTree_quiet h n T u y) u y

/-- `clear` when the destructors do not all return: the container is as it was. -/
theorem clear_stops {W : Type} {Γ : TyEnv W} {t : TyId} {cfg : Cfg} {d : VecVoid} {es : List Bytes} {w : World W} (R : Repr Γ w.heap t es d)
    {q : Res Unit} {u1 : W} (hk : M.forEach es (Γ.drop t) w.user = (q, u1)) (hne : q ≠ .ok ()) :
    VecDyn.clear Γ cfg ((⟨d, CloneVTable.build Γ t⟩ : VecDyn (CloneVTable W)), w) = (q, (⟨d, CloneVTable.build Γ t⟩, { w with user := u1 })) := by
  have hR : Repr Γ w.heap t es (VecCopy.data (⟨d, CloneVTable.build Γ t⟩ : VecDyn (CloneVTable W))) := R
  unfold VecDyn.clear
  rw [M.bind_ok (getSelf_run _), M.bind_ok (VecCopy.byteChunks_ok hR _), forEach_onWorld, VecDyn.dropLoop_eq (lawfulDrop_build _ _) R.each]
  cases q with
  | ok _ => exact absurd rfl hne
  | panic y => rw [M.bind_panic (onWorld_of (worldUser_of hk))]
  | ub => rw [M.bind_ub (onWorld_of (worldUser_of hk))]
  | abort => rw [M.bind_abort (onWorld_of (worldUser_of hk))]

/-- Clearing a container, if no destructor panics. -/
theorem clear_forest {n : Nat} {s s' : Nest (Depth U n)} {v : Bytes × Tree (n + 1)} {vs : List (Bytes × Tree (n + 1))} {B : Below (n + 1)}
    {r : Res Bytes} (hq : ∀ y, (dropTree Γ t (n + 1) v.2 s.world.user.base).1 ≠ .panic y) (hf : Forest Γ t N leaks (n + 1) s (v :: vs) B)
    (he : Nest.clear N.cfg (8 * N.words) N.fresh (Γ.depth N n) v.1 s = (r, s')) :
    match r with
    | .ok b => dropTree Γ t (n + 1) v.2 s.world.user.base = (.ok (), s'.world.user.base) ∧
        Forest Γ t N leaks (n + 1) s' ((b, List.nil (α := Tree n)) :: vs) B
    | .panic _ => False
    | .ub => (dropTree Γ t (n + 1) v.2 s.world.user.base).1 = .ub
    | .abort => True := by
  obtain ⟨p, ns, lost, rfl, hv, hn, hl, hb⟩ := hf.pick
  obtain ⟨-, d, hc, R⟩ := hn.is p List.mem_cons_self
  obtain ⟨i, hi, hli⟩ := R.block
  rcases hk : M.forEach (p.2.map Prod.fst) ((Γ.depth N n).drop (depthTy t n)) s.world.user with ⟨q, u1⟩
  obtain ⟨h1, h2, h3⟩ := forEach_forest (fun hf he => drop_forest hf he) hb hk
  have h1 : dropTree Γ t (n + 1) p.value.2 s.world.user.base = (q, u1.base) := h1
  have he : Nest.clear N.cfg (8 * N.words) N.fresh (Γ.depth N n) p.1 s = (r, s') := he
  unfold Nest.clear at he
  dsimp only at he
  rw [hc] at he
  dsimp only at he
  cases q with
  | ok _ =>
    rw [VecDyn.clear_ok (cfg := N.cfg) (c := ⟨d, CloneVTable.build (Γ.depth N n) (depthTy t n)⟩) R (lawfulDrop_build _ _) hk] at he
    dsimp only at he
    have hev := Evolves.setContent (n := 0) (k := 0) (m := []) R hn.wf (es' := []) (fun e he => by cases he) (Nat.zero_le _) rfl rfl rfl
    rcases enter_cases (8 * N.words) N.fresh ⟨⟨d.ptr, 0, d.cap, d.elem, []⟩, CloneVTable.build (Γ.depth N n) (depthTy t n)⟩ (s.set p.1 none ⟨s.world.heap, u1⟩)
      with e2 | ⟨b, e2, hb3, hb4⟩
    · rw [e2] at he
      cases he
      trivial
    · rw [e2] at he
      cases he
      refine ⟨h1, (b, []) :: ns, lost, hv.cons _, ?_, hl, h2 rfl⟩
      have hn' : Nodes Γ t N leaks n ⟨s.pool, ⟨s.world.heap, u1⟩⟩ (p :: ns) := ⟨hn.is, hn.only, hn.nodup, hn.apart, hn.blocks, hn.wf⟩
      exact hn'.change (k := []) hc ⟨i, hi, Heap.lt_next hn.wf hli⟩ hev.realloc hev.repr hb3 hb4
  | panic y => exact absurd (congrArg Prod.fst h1) (hq y)
  | ub =>
    rw [clear_stops R hk (by intro h; cases h)] at he
    cases he
    exact congrArg Prod.fst h1
  | abort =>
    rw [clear_stops R hk (by intro h; cases h)] at he
    cases he
    trivial

theorem rotated_map {α β : Type} (f : α → β) (left : Bool) (k : Nat) (l : List α) : (rotated left k l).map f = rotated left k (l.map f) := by
  unfold rotated
  split
  · rw [List.map_append, List.map_drop, List.map_take]
  · rw [List.map_append, List.map_drop, List.map_take, List.length_map]

theorem rotated_perm {α : Type} (left : Bool) (k : Nat) (l : List α) : (rotated left k l).Perm l := by
  unfold rotated
  split
  · exact List.perm_append_comm.trans (List.Perm.of_eq (List.take_append_drop k l))
  · exact List.perm_append_comm.trans (List.Perm.of_eq (List.take_append_drop _ l))

/-- Rotating a container. -/
theorem rotate_forest {n : Nat} {s s' : Nest (Depth U n)} {v : Bytes × Tree (n + 1)} {vs : List (Bytes × Tree (n + 1))} {B : Below (n + 1)}
    {r : Res Unit} {left : Bool} {k : Nat} (ha : (Γ.depth N n).align (depthTy t n) ≤ 8192) (hf : Forest Γ t N leaks (n + 1) s (v :: vs) B)
    (he : Nest.rotate N.cfg left (Γ.depth N n) v.1 k s = (r, s')) :
    (k ≤ List.length (α := Tree n) v.2 → r = .ok () ∧ s'.world.user = s.world.user ∧
      Forest Γ t N leaks (n + 1) s' ((v.1, rotated (α := Tree n) left k v.2) :: vs) B) ∧
    (¬ k ≤ List.length (α := Tree n) v.2 → r = .panic .assertion ∧ s' = s) := by
  obtain ⟨p, ns, lost, rfl, hv, hn, hl, hb⟩ := hf.pick
  obtain ⟨hlen, d, hc, R⟩ := hn.is p List.mem_cons_self
  obtain ⟨i, hi, hli⟩ := R.block
  have he : Nest.rotate N.cfg left (Γ.depth N n) p.1 k s = (r, s') := he
  unfold Nest.rotate at he
  dsimp only at he
  rw [hc] at he
  dsimp only at he
  have hL : VecCopy.len (⟨d, CloneVTable.build (Γ.depth N n) (depthTy t n)⟩ : VecDyn (CloneVTable (Depth U n))) = p.2.length := by
    show d.len = _
    rw [R.len, List.length_map]
  have hT : List.length (α := Tree n) p.value.2 = p.2.length := List.length_map (f := Prod.snd) (as := p.2)
  rw [hL] at he
  rw [hT]
  constructor
  · intro hk
    rw [if_pos hk] at he
    have hk' : k ≤ (p.2.map Prod.fst).length := by rw [List.length_map]; exact hk
    have hrun : ∃ d', (if left then VecCopy.rotateLeft (Γ.depth N n) N.cfg k else VecCopy.rotateRight (Γ.depth N n) N.cfg k)
        ((⟨d, CloneVTable.build (Γ.depth N n) (depthTy t n)⟩ : VecDyn (CloneVTable (Depth U n))), s.world) =
        (.ok (), (⟨d', CloneVTable.build (Γ.depth N n) (depthTy t n)⟩, s.world)) ∧
        Evolves (Γ.depth N n) (depthTy t n) 0 (rotated left k (p.2.map Prod.fst)) s.world.heap d s.world.heap d' := by
      cases left with
      | true => exact VecCopy.rotateLeft_ok (c := ⟨d, CloneVTable.build (Γ.depth N n) (depthTy t n)⟩) R hn.wf hk' ha
      | false => exact VecCopy.rotateRight_ok (c := ⟨d, CloneVTable.build (Γ.depth N n) (depthTy t n)⟩) R hn.wf hk' ha
    obtain ⟨d', hrun, hev⟩ := hrun
    rw [hrun] at he
    cases he
    refine ⟨rfl, rfl, (p.1, rotated left k p.2) :: ns, lost, ?_, ?_, hl, hb.perm ?_⟩
    · have : Node.value (n := n) (p.1, rotated left k p.2) = (p.value.1, rotated (α := Tree n) left k p.value.2) := by
        show (_, (rotated left k p.2).map Prod.snd) = _
        rw [rotated_map]
        rfl
      rw [List.map_cons, this]
      exact hv.cons _
    · have hch := hn.change (b := p.1) (k := rotated left k p.2) hc ⟨i, hi, Heap.lt_next hn.wf hli⟩ hev.realloc (by rw [rotated_map]; exact hev.repr) hlen
        (by show (if p.1 = p.1 then none else _) = none; rw [if_pos rfl])
      rw [Nest.set_set] at hch
      exact hch
    · rw [List.flatMap_cons]
      show (p.2 ++ ((lost ++ B.1) ++ ns.flatMap Prod.snd)).Perm ((lost ++ B.1) ++ (rotated left k p.2 ++ ns.flatMap Prod.snd))
      rw [← List.append_assoc, ← List.append_assoc (lost ++ B.1)]
      exact List.Perm.append_right _ (((rotated_perm left k p.2).symm.append_right _).trans List.perm_append_comm)
  · intro hk
    rw [if_neg hk] at he
    cases he
    exact ⟨rfl, rfl⟩

/-- Two variables change. -/
theorem two_set {α : Type} : ∀ {l : List α} {i j : Nat} {v w : α}, i ≠ j → l[i]? = some v → l[j]? = some w →
    ∃ rest, l.Perm (v :: w :: rest) ∧ ∀ a b, ((l.set i a).set j b).Perm (a :: b :: rest)
  | [], _, _, _, _, _, h, _ => by cases h
  | _ :: _, 0, 0, _, _, h, _, _ => absurd rfl h
  | x :: l, 0, j + 1, _, w, _, hv, hw => by
    cases hv
    have hw : l[j]? = some w := hw
    exact ⟨l.eraseIdx j, (perm_eraseIdx hw).cons x, fun a b => (set_perm_eraseIdx hw b).cons a⟩
  | x :: l, i + 1, 0, v, _, _, hv, hw => by
    cases hw
    have hv : l[i]? = some v := hv
    exact ⟨l.eraseIdx i, ((perm_eraseIdx hv).cons x).trans (List.Perm.swap _ _ _),
      fun a b => ((set_perm_eraseIdx hv a).cons b).trans (List.Perm.swap _ _ _)⟩
  | x :: l, i + 1, j + 1, v, w, h, hv, hw => by
    obtain ⟨rest, h1, h2⟩ := two_set (l := l) (i := i) (j := j) (fun e => h (congrArg (· + 1) e)) hv hw
    have h3 : ∀ a b : α, (x :: a :: b :: rest).Perm (a :: b :: x :: rest) := fun a b =>
      (List.Perm.swap _ _ _).trans ((List.Perm.swap _ _ _).cons a)
    exact ⟨x :: rest, (h1.cons x).trans (h3 v w), fun a b => ((h2 a b).cons x).trans (h3 a b)⟩

/-- Moving the elements of one container to the end of another. -/
theorem append_forest {n : Nat} {s s' : Nest (Depth U n)} {v v' : Bytes × Tree (n + 1)} {vs : List (Bytes × Tree (n + 1))} {B : Below (n + 1)}
    {r : Res (Bytes × Bytes)} (h3 : (Γ.depth N n).align (depthTy t n) ≠ 1) (hf : Forest Γ t N leaks (n + 1) s (v :: v' :: vs) B)
    (he : Nest.append N.cfg (8 * N.words) N.fresh (Γ.depth N n) v.1 v'.1 (depthTy t n) s = (r, s')) :
    r = .abort ∨ ∃ b b', r = .ok (b, b') ∧ s'.world.user = s.world.user ∧
      Forest Γ t N leaks (n + 1) s' ((b, List.append (α := Tree n) v.2 v'.2) :: (b', List.nil (α := Tree n)) :: vs) B := by
  obtain ⟨p, ns, lost, rfl, hv, hn, hl, hb⟩ := hf.pick
  obtain ⟨q, hq, rfl⟩ := List.mem_map.1 (hv.mem_iff.2 List.mem_cons_self)
  obtain ⟨a, a', rfl⟩ := List.append_of_mem hq
  have hperm : (a ++ q :: a').Perm (q :: (a ++ a')) := List.perm_middle
  have hv' : ((a ++ a').map Node.value).Perm vs := List.Perm.cons_inv ((hperm.map Node.value).symm.trans hv)
  have hn := hn.perm (hperm.cons p)
  obtain ⟨-, d, hc, R⟩ := hn.is p List.mem_cons_self
  obtain ⟨-, d2, hc2, R2⟩ := hn.is q (List.mem_cons_of_mem _ List.mem_cons_self)
  obtain ⟨i, hi, hli⟩ := R.block
  have hqp : q.1 ≠ p.1 := by
    intro e
    have h1 : p.1 ∉ (q :: (a ++ a')).map Prod.fst := (List.nodup_cons.1 hn.nodup).1
    exact h1 (List.mem_map.2 ⟨q, List.mem_cons_self, e⟩)
  have he : Nest.append N.cfg (8 * N.words) N.fresh (Γ.depth N n) p.1 q.1 (depthTy t n) s = (r, s') := he
  unfold Nest.append at he
  dsimp only at he
  rw [hc, hc2] at he
  dsimp only at he
  split at he
  · rename_i hroom
    obtain ⟨d', h', hrun, hev⟩ := VecCopy.append_ok (cfg := N.cfg) (c := ⟨d, CloneVTable.build (Γ.depth N n) (depthTy t n)⟩)
      (w := (⟨s.world.heap, (⟨d2, CloneVTable.build (Γ.depth N n) (depthTy t n)⟩, s.world.user)⟩ :
        World (VecDyn (CloneVTable (Depth U n)) × Depth U n))) R R2 hn.wf
      (by rw [← R.len, ← R2.len]; exact hroom) (fun h => h3 h.2.1)
    rw [hrun] at he
    dsimp only at he
    rcases enter_cases (8 * N.words) N.fresh ⟨d', CloneVTable.build (Γ.depth N n) (depthTy t n)⟩ (s.set p.1 none ⟨h', s.world.user⟩) with e | ⟨b, e, hb1, hb2⟩
    · rw [e] at he
      cases he
      exact .inl rfl
    · rw [e] at he
      dsimp only at he
      have hn1 := hn.change (k := p.2 ++ q.2) hc ⟨i, hi, Heap.lt_next hn.wf hli⟩ hev.realloc (by rw [List.map_append]; exact hev.repr) hb1 hb2
      have hqb : q.1 ≠ b := by
        intro e
        have h1 : b ∉ (q :: (a ++ a')).map Prod.fst := (List.nodup_cons.1 hn1.nodup).1
        exact h1 (List.mem_map.2 ⟨q, List.mem_cons_self, e⟩)
      have hn1 := hn1.perm (List.Perm.swap _ _ _)
      generalize hs1 : ((s.set p.1 none ⟨h', s.world.user⟩).set b (some ⟨d', CloneVTable.build (Γ.depth N n) (depthTy t n)⟩) ⟨h', s.world.user⟩) = s1 at hn1
      have hw : s1.world = ⟨h', s.world.user⟩ := by rw [← hs1]; rfl
      have hs1' : ((s.set p.1 none ⟨h', s.world.user⟩).set b (some ⟨d', CloneVTable.build (Γ.depth N n) (depthTy t n)⟩)
          (s.set p.1 none ⟨h', s.world.user⟩).world) = s1 := hs1
      rw [hs1'] at he
      obtain ⟨-, d3, hc3, R3⟩ := hn1.is q List.mem_cons_self
      have hd3 : d3 = d2 := by
        have h1 : s1.pool q.1 = s.pool q.1 := by
          rw [← hs1]
          show (if q.1 = b then _ else if q.1 = p.1 then none else s.pool q.1) = _
          rw [if_neg hqb, if_neg hqp]
        rw [hc3, hc2] at h1
        cases h1
        rfl
      subst hd3
      have hev2 := Evolves.setContent (n := 0) (k := 0) (m := []) R3 hn1.wf (es' := []) (fun e he => by cases he) (Nat.zero_le _) rfl rfl rfl
      obtain ⟨j, hj, hlj⟩ := R3.block
      rcases enter_cases (8 * N.words) N.fresh ⟨⟨d3.ptr, 0, d3.cap, d3.elem, []⟩, CloneVTable.build (Γ.depth N n) (depthTy t n)⟩ (s1.set q.1 none s1.world)
        with e2 | ⟨b', e2, hb3, hb4⟩
      · rw [e2] at he
        cases he
        exact .inl rfl
      · rw [e2] at he
        cases he
        have hn2 := hn1.change (k := []) hc3 ⟨j, hj, Heap.lt_next hn1.wf hlj⟩ hev2.realloc hev2.repr hb3 hb4
        refine .inr ⟨b, b', rfl, by rw [show ((s1.set q.1 none s1.world).set b' _ (s1.set q.1 none s1.world).world).world = s1.world from rfl, hw],
          (b, p.2 ++ q.2) :: (b', []) :: (a ++ a'), lost, ?_, hn2.perm (List.Perm.swap _ _ _), hl, ?_⟩
        · have : Node.value (n := n) (b, p.2 ++ q.2) = (b, List.append (α := Tree n) p.value.2 q.value.2) := by
            show (_, (p.2 ++ q.2).map Prod.snd) = _
            rw [List.map_append]
            rfl
          rw [List.map_cons, List.map_cons, this]
          exact (hv'.cons _).cons _
        · have hu : (Nest.world ((s1.set q.1 none s1.world).set b' (some ⟨⟨d3.ptr, 0, d3.cap, d3.elem, []⟩, CloneVTable.build (Γ.depth N n) (depthTy t n)⟩)
              (s1.set q.1 none s1.world).world)).user = s.world.user := by
            rw [show ((s1.set q.1 none s1.world).set b' _ (s1.set q.1 none s1.world).world).world = s1.world from rfl, hw]
          rw [hu]
          refine hb.perm ?_
          have h5 : ((a ++ q :: a').flatMap Prod.snd).Perm (q.2 ++ (a ++ a').flatMap Prod.snd) := by
            simp only [List.flatMap_append, List.flatMap_cons]
            exact (List.perm_append_comm_assoc _ _ _)
          refine ((h5.append_left (lost ++ B.1)).append_left p.2).trans ?_
          show (p.2 ++ ((lost ++ B.1) ++ (q.2 ++ (a ++ a').flatMap Prod.snd))).Perm ((lost ++ B.1) ++ ((p.2 ++ q.2) ++ ([] ++ (a ++ a').flatMap Prod.snd)))
          rw [List.nil_append, List.append_assoc p.2]
          exact List.perm_append_comm_assoc _ _ _
  · cases he
    exact .inl rfl

/-- A value at depth `n` has the size of its type. -/
theorem Forest.len : ∀ {n : Nat} {leaks : Bool} {s : Depth U n} {vs : List (Bytes × Tree n)} {B : Below n}, Forest Γ t N leaks n s vs B →
    ∀ v ∈ vs, v.1.length = (Γ.depth N n).size (depthTy t n)
  | 0, _, _, _, _, h, v, hv => (h v hv).2
  | n + 1, _, _, _, _, ⟨ns, lost, h1, h2, h3, h4⟩, v, hv => by
    obtain ⟨p, hp, rfl⟩ := List.mem_map.1 (h1.mem_iff.2 hv)
    exact (h2.is p hp).1

theorem depth_pos (hpos : 0 < Γ.size t) : ∀ n, 0 < (Γ.depth N n).size (depthTy t n)
  | 0 => hpos
  | _ + 1 => Nat.mul_pos (by decide) N.pos

/-! ### Actions -/

/-- What an action does when the values `E` exist beside the variables `v`. -/
def Acted (Γ : TyEnv U) (t : TyId) (N : Nesting U) (leaks : Bool) (n : Nat) (E : List (Bytes × Tree n)) (r : Res Unit)
    (s' : Vars (fun _ => Bytes) (n + 1) × Depth U n) (q : Res Unit × (Vars Tree (n + 1) × U)) : Prop :=
  match r with
  | .ok _ => ∃ v' : Below (n + 1), v'.map (fun _ => Prod.fst) = s'.1 ∧ q = (.ok (), (v'.map (fun _ => Prod.snd), s'.2.base)) ∧
      Forest Γ t N leaks n s'.2 (E ++ v'.1) v'.2
  | .panic y => ∃ (v' : Below (n + 1)) (lost : List (Bytes × Tree n)), v'.map (fun _ => Prod.fst) = s'.1 ∧
      q = (.panic y, (v'.map (fun _ => Prod.snd), s'.2.base)) ∧ Forest Γ t N true n s'.2 (lost ++ (E ++ v'.1)) v'.2
  | .ub => q.1 = .ub
  | .abort => True

/-- A new container with room. -/
theorem room_forest {n k : Nat} {s s' : Nest (Depth U n)} {vs : List (Bytes × Tree (n + 1))} {B : Below (n + 1)} {r : Res Bytes}
    (hpos : 0 < (Γ.depth N n).size (depthTy t n)) (hf : Forest Γ t N leaks (n + 1) s vs B)
    (he : Nest.room (8 * N.words) N.fresh (Γ.depth N n) (depthTy t n) k s = (r, s')) :
    r = .abort ∨ ∃ b, r = .ok b ∧ s'.world.user = s.world.user ∧ Forest Γ t N leaks (n + 1) s' ((b, List.nil (α := Tree n)) :: vs) B ∧
      ∃ i, Realloc s.world.heap none s'.world.heap (some i) ∧ (s'.world.heap.live i).isSome = true := by
  obtain ⟨ns, lost, hv, hn, hl, hb⟩ := hf
  unfold Nest.room at he
  dsimp only at he
  split at he
  · rename_i hroom
    obtain ⟨c, h', hrun, R, hvt, hre, -⟩ := VecCopy.withCapacity_ok (vt := CloneVTable.build (Γ.depth N n) (depthTy t n)) hn.wf hpos hroom
    rw [hrun] at he
    dsimp only at he
    unfold Nest.enter at he
    dsimp only at he
    split at he
    · rename_i hx
      cases he
      obtain ⟨d, vt⟩ := c
      cases hvt
      obtain ⟨i, hi, hli⟩ := R.block
      refine .inr ⟨_, rfl, rfl, ⟨(_, []) :: ns, lost, hv.cons _, ?_, hl, ?_⟩, i, ?_, ?_⟩
      · exact hn.insert (k := []) hre R hx.1 (Option.isNone_iff_eq_none.1 hx.2) s.world.user
      · exact hb
      · rw [← hi]; exact hre
      · exact congrArg Option.isSome hli
    · cases he
      exact .inl rfl
  · cases he
    exact .inl rfl

/-- A container of a `Vec` of values of the depth below. -/
theorem pack_forest {n : Nat} {s s' : Nest (Depth U n)} {vs : List (Bytes × Tree (n + 1))} {k l : List (Bytes × Tree n)} {B : Below n} {r : Res Bytes}
    (hpos : 0 < (Γ.depth N n).size (depthTy t n)) (hf : Forest Γ t N leaks (n + 1) s vs (k ++ l, B))
    (he : Nest.pack (8 * N.words) N.fresh (Γ.depth N n) (depthTy t n) (k.map Prod.fst) s = (r, s')) :
    r = .abort ∨ ∃ b, r = .ok b ∧ s'.world.user = s.world.user ∧
      Forest Γ t N leaks (n + 1) s' ((b, k.map Prod.snd) :: vs) (l, B) ∧
      ∃ i, Realloc s.world.heap none s'.world.heap (some i) ∧ (s'.world.heap.live i).isSome = true := by
  obtain ⟨ns, lost, hv, hn, hl, hb⟩ := hf
  unfold Nest.pack at he
  dsimp only at he
  split at he
  · rename_i hroom
    have hx : ∀ x ∈ k.map Prod.fst, x.length = (Γ.depth N n).size (depthTy t n) := by
      intro x hx
      obtain ⟨y, hy, rfl⟩ := List.mem_map.1 hx
      exact hb.len y (List.mem_append_left _ (List.mem_append_right _ (List.mem_append_left _ hy)))
    obtain ⟨p, h1, hrun, wf1, hre1, hiv⟩ := VecDyn.fresh_isVec (w := s.world) hn.wf hpos hroom
    obtain ⟨p2, c, h2, hfv, hR, hre2, -, -⟩ := VecCopy.fromVec_ok (w := { s.world with heap := h1 }) (vt := CloneVTable.build (Γ.depth N n) (depthTy t n))
      (hiv (k.map Prod.fst) (Nat.le_refl _) hx) wf1 hpos
    have hre := Realloc.trans hn.wf (fun i hi => by cases hi) hre1 hre2
    rw [hrun] at he
    dsimp only at he hfv
    rw [hfv] at he
    dsimp only at he
    unfold Nest.enter at he
    dsimp only at he
    split at he
    · rename_i hx
      cases he
      obtain ⟨i, hi, hli⟩ := hR.block
      refine .inr ⟨_, rfl, rfl, ⟨(_, k) :: ns, lost, hv.cons _, ?_, hl, ?_⟩, i, ?_, ?_⟩
      · exact hn.insert (k := k) hre hR hx.1 (Option.isNone_iff_eq_none.1 hx.2) s.world.user
      · refine hb.perm ?_
        show ((lost ++ (k ++ l)) ++ ns.flatMap Prod.snd).Perm ((lost ++ l) ++ (k ++ ns.flatMap Prod.snd))
        rw [List.append_assoc, List.append_assoc, List.append_assoc]
        exact (List.perm_append_comm_assoc _ _ _).append_left lost
      · rw [← hi]; exact hre
      · exact congrArg Option.isSome hli
    · cases he
      exact .inl rfl
  · cases he
    exact .inl rfl

theorem act_forest (hpos : 0 < Γ.size t) : ∀ {n : Nat} (a : Act n) {leaks : Bool} {s : Depth U n} {E : List (Bytes × Tree n)}
    {l : List (Bytes × Tree n)} {B : Below n} (_ : a.clears = true → ∀ y, (a.spec Γ t (Vars.map (n := n + 1) (fun _ => Prod.snd) (l, B), s.base)).1 ≠ .panic y),
    Forest Γ t N leaks n s (E ++ l) B →
    Acted Γ t N leaks n E (a.run Γ t N (Vars.map (n := n + 1) (fun _ => Prod.fst) (l, B), s)).1
      (a.run Γ t N (Vars.map (n := n + 1) (fun _ => Prod.fst) (l, B), s)).2
      (a.spec Γ t (Vars.map (n := n + 1) (fun _ => Prod.snd) (l, B), s.base))
  | _, .value x, leaks, s, E, l, B, hc, hf => by
    simp only [Act.run, Act.spec, Vars.map]
    by_cases hx : x.length = Γ.size t
    · rw [if_pos hx, if_pos hx]
      refine ⟨((x, x) :: l, B), rfl, rfl, fun v hv => ?_⟩
      rcases List.mem_append.1 hv with hv | hv
      · exact hf v (List.mem_append_left _ hv)
      · rcases List.mem_cons.1 hv with rfl | hv
        · exact ⟨rfl, hx⟩
        · exact hf v (List.mem_append_right _ hv)
    · rw [if_neg hx, if_neg hx]
      exact ⟨(l, B), rfl, rfl, hf⟩
  | n, .drop i, leaks, s, E, l, B, hc, hf => by
    simp only [Act.run, Act.spec, Vars.map]
    cases hb : (l.map Prod.fst)[i]? with
    | none =>
      rw [getElem?_none_map (g := Prod.snd) hb]
      exact ⟨(l, B), rfl, rfl, hf⟩
    | some b =>
      obtain ⟨v, hv, rfl⟩ := getElem?_of_map hb
      have hT : (l.map Prod.snd)[i]? = some v.2 := by rw [List.getElem?_map, hv]; rfl
      rw [hT]
      dsimp only
      rcases hd : (Γ.depth N n).drop (depthTy t n) v.1 s with ⟨r, s'⟩
      have hf' : Forest Γ t N leaks n s (v :: (E ++ l.eraseIdx i)) B :=
        hf.perm (((perm_eraseIdx hv).append_left E).trans List.perm_middle)
      obtain ⟨h1, h2, h3⟩ := drop_forest hf' hd
      rw [h1]
      have hm1 : Vars.map (n := n + 1) (fun _ => Prod.fst) (l.eraseIdx i, B) = ((l.map Prod.fst).eraseIdx i, B.map fun _ => Prod.fst) :=
        congrArg (·, _) (map_eraseIdx' _ l i)
      have hm2 : Vars.map (n := n + 1) (fun _ => Prod.snd) (l.eraseIdx i, B) = ((l.map Prod.snd).eraseIdx i, B.map fun _ => Prod.snd) :=
        congrArg (·, _) (map_eraseIdx' _ l i)
      cases r with
      | ok _ => exact ⟨(l.eraseIdx i, B), hm1, by rw [hm2], h2 rfl⟩
      | panic y =>
        obtain ⟨lost, h4⟩ := h3 y rfl
        exact ⟨(l.eraseIdx i, B), lost, hm1, by rw [hm2], h4⟩
      | ub => rfl
      | abort => trivial
  | n, .clone i, leaks, s, E, l, B, hc, hf => by
    simp only [Act.run, Act.spec, Vars.map]
    cases hb : (l.map Prod.fst)[i]? with
    | none =>
      rw [getElem?_none_map (g := Prod.snd) hb]
      exact ⟨(l, B), rfl, rfl, hf⟩
    | some b =>
      obtain ⟨v, hv, rfl⟩ := getElem?_of_map hb
      have hT : (l.map Prod.snd)[i]? = some v.2 := by rw [List.getElem?_map, hv]; rfl
      rw [hT]
      dsimp only
      rcases hd : (Γ.depth N n).clone (depthTy t n) v.1 s with ⟨r, s'⟩
      have hc := clone_forest hf (List.mem_append_right E (List.mem_of_getElem? hv)) hd
      cases r with
      | ok b =>
        obtain ⟨T, h1, h2⟩ := hc
        rw [h1]
        exact ⟨((b, T) :: l, B), rfl, rfl, h2.perm List.perm_middle.symm⟩
      | panic y =>
        obtain ⟨h1, lost, h2⟩ := hc
        rw [h1]
        exact ⟨(l, B), lost, rfl, rfl, h2⟩
      | ub =>
        have hc : (cloneTree Γ t n v.2 s.base).1 = .ub := hc
        rcases hq : cloneTree Γ t n v.2 s.base with ⟨q, u⟩
        rw [hq] at hc
        cases hc
        rfl
      | abort => trivial
  | n + 1, .new, leaks, s, E, l, B, hc, hf => by
    simp only [Act.run, Act.spec, Vars.map]
    rcases hd : Nest.new (8 * N.words) N.fresh (Γ.depth N n) (depthTy t n) s with ⟨r, s'⟩
    rcases new_forest (depth_pos hpos n) hf hd with rfl | ⟨b, rfl, h1, h2⟩
    · trivial
    · refine ⟨((b, List.nil (α := Tree n)) :: l, B), rfl, ?_, h2.perm List.perm_middle.symm⟩
      show _ = (_, (_, Depth.base (Nest.world s').user))
      rw [h1]
      rfl
  | n + 1, .room k, leaks, s, E, l, B, hc, hf => by
    simp only [Act.run, Act.spec, Vars.map]
    rcases hd : Nest.room (8 * N.words) N.fresh (Γ.depth N n) (depthTy t n) k s with ⟨r, s'⟩
    rcases room_forest (depth_pos hpos n) hf hd with rfl | ⟨b, rfl, h1, h2, -⟩
    · trivial
    · refine ⟨((b, List.nil (α := Tree n)) :: l, B), rfl, ?_, h2.perm List.perm_middle.symm⟩
      show _ = (_, (_, Depth.base (Nest.world s').user))
      rw [h1]
      rfl
  | n + 1, .push i j, leaks, s, E, l, (m, B), hc, hf => by
    simp only [Act.run, Act.spec, Vars.map]
    cases hb : (l.map Prod.fst)[i]? with
    | none =>
      rw [getElem?_none_map (g := Prod.snd) hb]
      exact ⟨(l, (m, B)), rfl, rfl, hf⟩
    | some b =>
      obtain ⟨v, hv, rfl⟩ := getElem?_of_map hb
      have hT : (l.map Prod.snd)[i]? = some v.2 := by rw [List.getElem?_map, hv]; rfl
      rw [hT]
      cases hb' : (m.map Prod.fst)[j]? with
      | none =>
        rw [getElem?_none_map (g := Prod.snd) hb']
        exact ⟨(l, (m, B)), rfl, rfl, hf⟩
      | some b' =>
        obtain ⟨x, hx, rfl⟩ := getElem?_of_map hb'
        have hT' : (m.map Prod.snd)[j]? = some x.2 := by rw [List.getElem?_map, hx]; rfl
        rw [hT']
        dsimp only
        rcases hd : Nest.push N.cfg (8 * N.words) N.fresh (Γ.depth N n) (depthTy t n) v.1 x.1 s with ⟨r, s'⟩
        obtain ⟨ns, lost, g1, g2, g3, g4⟩ := hf
        have hlen : x.1.length = (Γ.depth N n).size (depthTy t n) :=
          g4.len x (List.mem_append_left _ (List.mem_append_right _ (List.mem_of_getElem? hx)))
        have hf' : Forest Γ t N leaks (n + 1) s (v :: (E ++ l.eraseIdx i)) (x :: m.eraseIdx j, B) :=
          ⟨ns, lost, g1.trans (((perm_eraseIdx hv).append_left E).trans List.perm_middle), g2, g3,
            g4.perm (((perm_eraseIdx hx).append_left lost).append_right _)⟩
        rcases push_forest hlen hf' hd with rfl | ⟨b, rfl, h1, h2⟩
        · trivial
        · refine ⟨(l.set i (b, List.append (α := Tree n) v.2 [x.2]), (m.eraseIdx j, B)), ?_, ?_, ?_⟩
          · show ((l.set i _).map Prod.fst, ((m.eraseIdx j).map Prod.fst, _)) = _
            rw [List.map_set, map_eraseIdx']
            rfl
          · show _ = (_, (((l.set i _).map Prod.snd, ((m.eraseIdx j).map Prod.snd, _)), Depth.base (Nest.world s').user))
            rw [List.map_set, map_eraseIdx', h1]
            rfl
          · exact h2.perm (((set_perm_eraseIdx hv _).append_left E).trans List.perm_middle).symm
  | n + 1, .take i, leaks, s, E, l, (m, B), hc, hf => by
    simp only [Act.run, Act.spec, Vars.map]
    cases hb : (l.map Prod.fst)[i]? with
    | none =>
      rw [getElem?_none_map (g := Prod.snd) hb]
      exact ⟨(l, (m, B)), rfl, rfl, hf⟩
    | some b =>
      obtain ⟨v, hv, rfl⟩ := getElem?_of_map hb
      have hT : (l.map Prod.snd)[i]? = some v.2 := by rw [List.getElem?_map, hv]; rfl
      rw [hT]
      dsimp only
      rcases hd : Nest.take N.cfg (Γ.depth N n) (depthTy t n) v.1 s with ⟨r, s'⟩
      have hf' : Forest Γ t N leaks (n + 1) s (v :: (E ++ l.eraseIdx i)) (m, B) :=
        hf.perm (((perm_eraseIdx hv).append_left E).trans List.perm_middle)
      obtain ⟨k, rfl, h1, h2, h3⟩ := take_forest hf' hd
      refine ⟨(l.eraseIdx i, (k ++ m, B)), ?_, ?_, h3⟩
      · show ((l.eraseIdx i).map Prod.fst, ((k ++ m).map Prod.fst, _)) = _
        rw [map_eraseIdx', List.map_append]
        rfl
      · show _ = (_, (((l.eraseIdx i).map Prod.snd, ((k ++ m).map Prod.snd, _)), Depth.base (Nest.world s').user))
        rw [map_eraseIdx', List.map_append, h2, h1]
        rfl
  | n + 1, .pack k, leaks, s, E, l, (m, B), hc, hf => by
    simp only [Act.run, Act.spec, Vars.map]
    rw [← List.map_take, ← List.map_take, ← List.map_drop, ← List.map_drop]
    rcases hd : Nest.pack (8 * N.words) N.fresh (Γ.depth N n) (depthTy t n) ((m.take k).map Prod.fst) s with ⟨r, s'⟩
    rcases pack_forest (k := m.take k) (l := m.drop k) (depth_pos hpos n) (by rw [List.take_append_drop]; exact hf) hd with rfl | ⟨b, rfl, h1, h2, -⟩
    · trivial
    · refine ⟨((b, (m.take k).map Prod.snd) :: l, (m.drop k, B)), rfl, ?_, h2.perm List.perm_middle.symm⟩
      show _ = (_, (_, Depth.base (Nest.world s').user))
      rw [h1]
      rfl
  | n + 1, .pick i k, leaks, s, E, l, (m, B), hc, hf => by
    simp only [Act.run, Act.spec, Vars.map]
    cases hb : (l.map Prod.fst)[i]? with
    | none =>
      rw [getElem?_none_map (g := Prod.snd) hb]
      exact ⟨(l, (m, B)), rfl, rfl, hf⟩
    | some b =>
      obtain ⟨v, hv, rfl⟩ := getElem?_of_map hb
      have hT : (l.map Prod.snd)[i]? = some v.2 := by rw [List.getElem?_map, hv]; rfl
      rw [hT]
      dsimp only
      rcases hd : Nest.pick (Γ.depth N n) (depthTy t n) v.1 k s with ⟨r, s'⟩
      obtain ⟨h1, h2⟩ := pick_forest hf (List.mem_append_right E (List.mem_of_getElem? hv)) hd
      cases hk : (show List (Tree n) from v.2)[k]? with
      | none =>
        obtain ⟨rfl, rfl⟩ := h1 hk
        exact ⟨(l, (m, B)), [], rfl, rfl, hf.leak⟩
      | some T =>
        have h3 := h2 T hk
        dsimp only
        cases r with
        | ok b =>
          obtain ⟨T', h4, h5⟩ := h3
          have h4 : cloneTree Γ t n T (Depth.base (n := n + 1) s) = (.ok T', Depth.base (n := n + 1) s') := h4
          rw [h4]
          exact ⟨(l, ((b, T') :: m, B)), rfl, rfl, h5⟩
        | panic y =>
          obtain ⟨h4, h5⟩ := h3
          have h4 : cloneTree Γ t n T (Depth.base (n := n + 1) s) = (.panic y, Depth.base (n := n + 1) s') := h4
          rw [h4]
          exact ⟨(l, (m, B)), [], rfl, rfl, h5⟩
        | ub =>
          have h3 : (cloneTree Γ t n T (Depth.base (n := n + 1) s)).1 = .ub := h3
          rcases hq : cloneTree Γ t n T (Depth.base (n := n + 1) s) with ⟨q, u⟩
          rw [hq] at h3
          cases h3
          rfl
        | abort => trivial
  | n + 1, .swap i k j, leaks, s, E, l, (m, B), hc, hf => by
    simp only [Act.run, Act.spec, Vars.map]
    cases hb : (l.map Prod.fst)[i]? with
    | none =>
      rw [getElem?_none_map (g := Prod.snd) hb]
      exact ⟨(l, (m, B)), rfl, rfl, hf⟩
    | some b =>
      obtain ⟨v, hv, rfl⟩ := getElem?_of_map hb
      have hT : (l.map Prod.snd)[i]? = some v.2 := by rw [List.getElem?_map, hv]; rfl
      rw [hT]
      cases hb' : (m.map Prod.fst)[j]? with
      | none =>
        rw [getElem?_none_map (g := Prod.snd) hb']
        exact ⟨(l, (m, B)), rfl, rfl, hf⟩
      | some b' =>
        obtain ⟨x, hx, rfl⟩ := getElem?_of_map hb'
        have hT' : (m.map Prod.snd)[j]? = some x.2 := by rw [List.getElem?_map, hx]; rfl
        rw [hT']
        dsimp only
        rcases hd : Nest.swap (Γ.depth N n) (depthTy t n) v.1 k x.1 s with ⟨r, s'⟩
        have hf0 := hf
        obtain ⟨ns, lost, g1, g2, g3, g4⟩ := hf
        have hlen : x.1.length = (Γ.depth N n).size (depthTy t n) :=
          g4.len x (List.mem_append_left _ (List.mem_append_right _ (List.mem_of_getElem? hx)))
        have hf' : Forest Γ t N leaks (n + 1) s (v :: (E ++ l.eraseIdx i)) (x :: m.eraseIdx j, B) :=
          ⟨ns, lost, g1.trans (((perm_eraseIdx hv).append_left E).trans List.perm_middle), g2, g3,
            g4.perm (((perm_eraseIdx hx).append_left lost).append_right _)⟩
        obtain ⟨h1, h2⟩ := swap_forest hlen hf' hd
        cases hk : (show List (Tree n) from v.2)[k]? with
        | none =>
          obtain ⟨rfl, rfl⟩ := h1 hk
          exact ⟨(l, (m, B)), [], rfl, rfl, hf0.leak⟩
        | some T =>
          obtain ⟨b, rfl, h3, h4⟩ := h2 T hk
          obtain ⟨ns', lost', k1, k2, k3, k4⟩ := h4
          refine ⟨(l.set i (v.1, List.set (α := Tree n) v.2 k x.2), (m.set j (b, T), B)), ?_, ?_, ?_⟩
          · show ((l.set i _).map Prod.fst, ((m.set j _).map Prod.fst, _)) = _
            rw [List.map_set, List.map_set]
            have : (l.map Prod.fst).set i v.1 = l.map Prod.fst := set_same hb
            show (List.set (l.map Prod.fst) i v.1, _) = _
            rw [this]
            rfl
          · show _ = (_, (((l.set i _).map Prod.snd, ((m.set j _).map Prod.snd, _)), Depth.base (Nest.world s').user))
            rw [List.map_set, List.map_set, h3]
            rfl
          · exact ⟨ns', lost', k1.trans (((set_perm_eraseIdx hv _).append_left E).trans List.perm_middle).symm, k2, k3,
              k4.perm (((set_perm_eraseIdx hx _).append_left lost').append_right _).symm⟩
  | n + 1, .clear i, leaks, s, E, l, (m, B), hc, hf => by
    simp only [Act.run, Act.spec, Vars.map]
    cases hb : (l.map Prod.fst)[i]? with
    | none =>
      rw [getElem?_none_map (g := Prod.snd) hb]
      exact ⟨(l, (m, B)), rfl, rfl, hf⟩
    | some b =>
      obtain ⟨v, hv, rfl⟩ := getElem?_of_map hb
      have hT : (l.map Prod.snd)[i]? = some v.2 := by rw [List.getElem?_map, hv]; rfl
      have hc := hc rfl
      simp only [Act.spec, Vars.map] at hc
      rw [hT] at hc ⊢
      dsimp only at hc ⊢
      rcases hd : Nest.clear N.cfg (8 * N.words) N.fresh (Γ.depth N n) v.1 s with ⟨r, s'⟩
      have h1 := clear_forest hc (hf.perm (((perm_eraseIdx hv).append_left E).trans List.perm_middle)) hd
      cases r with
      | ok b =>
        obtain ⟨h1, h2⟩ := h1
        have h1 : dropTree Γ t (n + 1) v.2 (Depth.base (n := n + 1) s) = (.ok (), Depth.base (n := n + 1) s') := h1
        rw [h1]
        refine ⟨(l.set i (b, List.nil (α := Tree n)), (m, B)), ?_, ?_, ?_⟩
        · show ((l.set i _).map Prod.fst, _) = _
          rw [List.map_set]
          rfl
        · show _ = (_, (((l.set i _).map Prod.snd, _), _))
          rw [List.map_set]
          rfl
        · exact h2.perm (((set_perm_eraseIdx hv _).append_left E).trans List.perm_middle).symm
      | panic y => exact h1.elim
      | ub => exact h1
      | abort => trivial
  | n + 2, .append i j, leaks, s, E, l, B, hc, hf => by
    simp only [Act.run, Act.spec, Vars.map]
    by_cases hij : i = j
    · rw [if_pos hij, if_pos hij]
      exact ⟨(l, B), rfl, rfl, hf⟩
    · rw [if_neg hij, if_neg hij]
      cases hb : (l.map Prod.fst)[i]? with
      | none =>
        rw [getElem?_none_map (g := Prod.snd) hb]
        exact ⟨(l, B), rfl, rfl, hf⟩
      | some b =>
        obtain ⟨v, hv, rfl⟩ := getElem?_of_map hb
        have hT : (l.map Prod.snd)[i]? = some v.2 := by rw [List.getElem?_map, hv]; rfl
        rw [hT]
        cases hb' : (l.map Prod.fst)[j]? with
        | none =>
          rw [getElem?_none_map (g := Prod.snd) hb']
          exact ⟨(l, B), rfl, rfl, hf⟩
        | some b' =>
          obtain ⟨v', hv', rfl⟩ := getElem?_of_map hb'
          have hT' : (l.map Prod.snd)[j]? = some v'.2 := by rw [List.getElem?_map, hv']; rfl
          rw [hT']
          dsimp only
          rcases hd : Nest.append N.cfg (8 * N.words) N.fresh (Γ.depth N (n + 1)) v.1 v'.1 (depthTy t (n + 1)) s with ⟨r, s'⟩
          obtain ⟨rest, h1, h2⟩ := two_set hij hv hv'
          have hmid : ∀ x y : Bytes × Tree (n + 2), (E ++ x :: y :: rest).Perm (x :: y :: (E ++ rest)) := fun x y =>
            List.perm_middle.trans (List.perm_middle.cons x)
          rcases append_forest (n := n + 1) (by show (if Nest.ty = Nest.ty then 8 else 1) ≠ 1; rw [if_pos rfl]; decide)
            (hf.perm ((h1.append_left E).trans (hmid v v'))) hd with rfl | ⟨b, b', rfl, h3, h4⟩
          · trivial
          · refine ⟨((l.set i (b, List.append (α := Tree (n + 1)) v.2 v'.2)).set j (b', List.nil (α := Tree (n + 1))), B), ?_, ?_, ?_⟩
            · show (((l.set i _).set j _).map Prod.fst, _) = _
              rw [List.map_set, List.map_set]
            · show _ = (_, ((((l.set i _).set j _).map Prod.snd, _), Depth.base (Nest.world s').user))
              rw [List.map_set, List.map_set, h3]
              rfl
            · exact h4.perm (((h2 _ _).append_left E).trans (hmid _ _)).symm
  | n + 2, .rotate left i k, leaks, s, E, l, B, hc, hf => by
    simp only [Act.run, Act.spec, Vars.map]
    cases hb : (l.map Prod.fst)[i]? with
    | none =>
      rw [getElem?_none_map (g := Prod.snd) hb]
      exact ⟨(l, B), rfl, rfl, hf⟩
    | some b =>
      obtain ⟨v, hv, rfl⟩ := getElem?_of_map hb
      have hT : (l.map Prod.snd)[i]? = some v.2 := by rw [List.getElem?_map, hv]; rfl
      rw [hT]
      dsimp only
      rcases hd : Nest.rotate N.cfg left (Γ.depth N (n + 1)) v.1 k s with ⟨r, s'⟩
      obtain ⟨h1, h2⟩ := rotate_forest (n := n + 1) (by show (if Nest.ty = Nest.ty then 8 else 1) ≤ 8192; rw [if_pos rfl]; decide)
        (hf.perm (((perm_eraseIdx hv).append_left E).trans List.perm_middle)) hd
      by_cases hk : k ≤ List.length (α := Tree (n + 1)) v.2
      · obtain ⟨rfl, h3, h4⟩ := h1 hk
        rw [if_pos hk]
        refine ⟨(l.set i (v.1, rotated (α := Tree (n + 1)) left k v.2), B), ?_, ?_, ?_⟩
        · show ((l.set i _).map Prod.fst, _) = _
          rw [List.map_set]
          have : (l.map Prod.fst).set i v.1 = l.map Prod.fst := set_same hb
          show (List.set (l.map Prod.fst) i v.1, _) = _
          rw [this]
        · show _ = (_, (((l.set i _).map Prod.snd, _), Depth.base (Nest.world s').user))
          rw [List.map_set, h3]
          rfl
        · exact h4.perm (((set_perm_eraseIdx hv _).append_left E).trans List.perm_middle).symm
      · obtain ⟨rfl, rfl⟩ := h2 hk
        rw [if_neg hk]
        exact ⟨(l, B), [], rfl, rfl, hf.leak⟩
  | n + 1, .inner a, leaks, s, E, l, (m, B), hc, hf => by
    obtain ⟨ns, lost, g1, g2, g3, g4⟩ := hf
    have hp : ((lost ++ m) ++ ns.flatMap Prod.snd).Perm ((lost ++ ns.flatMap Prod.snd) ++ m) := by
      rw [List.append_assoc, List.append_assoc]
      exact List.perm_append_comm.append_left lost
    have ih := act_forest hpos a (l := m) (B := B) hc (g4.perm hp)
    rcases hd : a.run Γ t N (Vars.map (n := n + 1) (fun _ => Prod.fst) (m, B), (Nest.world s).user) with ⟨r, ⟨vars, u'⟩⟩
    rw [hd] at ih
    have hrun : (Act.inner a).run Γ t N (Vars.map (n := n + 2) (fun _ => Prod.fst) (l, (m, B)), s) =
        (r, ((l.map Prod.fst, vars), (⟨Nest.pool s, ⟨(Nest.world s).heap, u'⟩⟩ : Nest (Depth U n)))) := by
      show ((a.run Γ t N (Vars.map (n := n + 1) (fun _ => Prod.fst) (m, B), (Nest.world s).user)).1,
        ((_, (a.run Γ t N (Vars.map (n := n + 1) (fun _ => Prod.fst) (m, B), (Nest.world s).user)).2.1),
          (⟨Nest.pool s, ⟨(Nest.world s).heap, (a.run Γ t N (Vars.map (n := n + 1) (fun _ => Prod.fst) (m, B), (Nest.world s).user)).2.2⟩⟩ : Nest (Depth U n)))) = _
      rw [hd]
    rw [hrun]
    have hspec : (Act.inner a).spec Γ t (Vars.map (n := n + 2) (fun _ => Prod.snd) (l, (m, B)), Depth.base (n := n + 1) s) =
        ((a.spec Γ t (Vars.map (n := n + 1) (fun _ => Prod.snd) (m, B), (Nest.world s).user.base)).1,
          ((l.map Prod.snd, (a.spec Γ t (Vars.map (n := n + 1) (fun _ => Prod.snd) (m, B), (Nest.world s).user.base)).2.1),
            (a.spec Γ t (Vars.map (n := n + 1) (fun _ => Prod.snd) (m, B), (Nest.world s).user.base)).2.2)) := rfl
    rw [hspec]
    have hq : ∀ m' : List (Bytes × Tree n), ((lost ++ ns.flatMap Prod.snd) ++ m').Perm ((lost ++ m') ++ ns.flatMap Prod.snd) := by
      intro m'
      rw [List.append_assoc, List.append_assoc]
      exact List.perm_append_comm.append_left lost
    have hn : Nodes Γ t N leaks n ⟨Nest.pool s, ⟨(Nest.world s).heap, u'⟩⟩ ns := ⟨g2.is, g2.only, g2.nodup, g2.apart, g2.blocks, g2.wf⟩
    cases r with
    | ok _ =>
      obtain ⟨v', h1, h2, h3⟩ := ih
      rw [h2]
      refine ⟨(l, v'), congrArg (_, ·) h1, rfl, ns, lost, g1, hn, g3, h3.perm (hq _)⟩
    | panic y =>
      obtain ⟨v', lost', h1, h2, h3⟩ := ih
      rw [h2]
      refine ⟨(l, v'), [], congrArg (_, ·) h1, rfl, ns, lost' ++ lost, g1, hn.leak, (fun h => by cases h), h3.perm ?_⟩
      refine ((hq v'.1).append_left lost').trans ?_
      show (lost' ++ ((lost ++ v'.1) ++ ns.flatMap Prod.snd)).Perm (((lost' ++ lost) ++ v'.1) ++ ns.flatMap Prod.snd)
      rw [List.append_assoc lost', List.append_assoc lost']
    | ub => exact ih
    | abort => trivial

/-- A program. -/
theorem acts_agree (hpos : 0 < Γ.size t) {n : Nat} : ∀ (as : List (Act n)) {leaks : Bool} {s s' : Vars (fun _ => Bytes) (n + 1) × Depth U n}
    {q : Vars Tree (n + 1) × U} (_ : ClearsCalmly Γ t as q) {r : Res (List (Option Why))}, ActsAgree Γ t N leaks n s q → runActs (Act.run Γ t N) as s = (r, s') →
    match r with
    | .ok rs => ∃ q', runActs (Act.spec Γ t) as q = (.ok rs, q') ∧ ActsAgree Γ t N (leaks || rs.any Option.isSome) n s' q'
    | .panic _ => False
    | .ub => (runActs (Act.spec Γ t) as q).1 = .ub
    | .abort => True
  | [], leaks, s, s', q, _, r, h, he => by
    cases he
    exact ⟨q, rfl, by simpa using h⟩
  | a :: as, leaks, s, s', q, hq, r, h, he => by
    obtain ⟨vars, s⟩ := s
    obtain ⟨trees, u⟩ := q
    obtain ⟨h0, v, lost, h1, h2, h3, h4⟩ := h
    have h0 : s.base = u := h0
    have h1 : v.map (fun _ => Prod.fst) = vars := h1
    have h2 : v.map (fun _ => Prod.snd) = trees := h2
    subst h0 h1 h2
    have hs := act_forest hpos a (l := v.1) (B := v.2) hq.1 h4
    unfold runActs at he ⊢
    have hs : Acted Γ t N leaks n lost (a.run Γ t N (v.map (fun _ => Prod.fst), s)).1 (a.run Γ t N (v.map (fun _ => Prod.fst), s)).2
      (a.spec Γ t (v.map (fun _ => Prod.snd), s.base)) := hs
    rcases hd : a.run Γ t N (v.map (fun _ => Prod.fst), s) with ⟨x, s1⟩
    rw [hd] at hs he
    cases x with
    | ok _ =>
      obtain ⟨v', g1, g2, g3⟩ := hs
      dsimp only at he
      rcases hr : runActs (Act.run Γ t N) as s1 with ⟨y, s2⟩
      rw [hr] at he
      have ih := acts_agree hpos as (by have := hq.2; rw [g2] at this; exact this) (leaks := leaks) (s := s1) (q := (v'.map (fun _ => Prod.snd), s1.2.base)) ⟨rfl, v', lost, g1, rfl, h3, g3⟩ hr
      rw [g2]
      dsimp only
      cases y with
      | ok rs =>
        cases he
        obtain ⟨q', k1, k2⟩ := ih
        rw [k1]
        exact ⟨q', rfl, by simpa using k2⟩
      | panic z => exact ih.elim
      | ub =>
        cases he
        dsimp only at ih ⊢
        rcases hz : runActs (Act.spec Γ t) as (v'.map (fun _ => Prod.snd), s1.2.base) with ⟨z, w⟩
        rw [hz] at ih
        cases ih
        rfl
      | abort => cases he; trivial
    | panic y0 =>
      obtain ⟨v', lost', g1, g2, g3⟩ := hs
      dsimp only at he
      rcases hr : runActs (Act.run Γ t N) as s1 with ⟨y, s2⟩
      rw [hr] at he
      have ih := acts_agree hpos as (by have := hq.2; rw [g2] at this; exact this) (leaks := true) (s := s1) (q := (v'.map (fun _ => Prod.snd), s1.2.base))
        ⟨rfl, v', lost' ++ lost, g1, rfl, (fun h => by cases h), by rw [List.append_assoc]; exact g3⟩ hr
      rw [g2]
      dsimp only
      cases y with
      | ok rs =>
        cases he
        obtain ⟨q', k1, k2⟩ := ih
        rw [k1]
        exact ⟨q', rfl, by simpa using k2⟩
      | panic z => exact ih.elim
      | ub =>
        cases he
        dsimp only at ih ⊢
        rcases hz : runActs (Act.spec Γ t) as (v'.map (fun _ => Prod.snd), s1.2.base) with ⟨z, w⟩
        rw [hz] at ih
        cases ih
        rfl
      | abort => cases he; trivial
    | ub =>
      cases he
      have hs : (a.spec Γ t (v.map (fun _ => Prod.snd), s.base)).1 = .ub := hs
      dsimp only
      rcases hz : a.spec Γ t (v.map (fun _ => Prod.snd), s.base) with ⟨z, w⟩
      rw [hz] at hs
      cases hs
      rfl
    | abort => cases he; trivial

/-- Nothing is left when no values are. -/
theorem Forest.clean : ∀ {n : Nat} {s : Depth U n} {B : Below n}, Forest Γ t N false n s [] B → B.map (B := fun _ => Bytes) (fun _ => Prod.fst) = Vars.none n → Clean n s
  | 0, _, _, _, _ => trivial
  | n + 1, s, (m, B), ⟨ns, lost, h1, h2, h3, h4⟩, hB => by
    have hns : ns = [] := List.map_eq_nil_iff.1 h1.eq_nil
    subst hns
    cases h3 rfl
    have hm : m = [] := List.map_eq_nil_iff.1 (congrArg Prod.fst hB)
    subst hm
    have hp : ∀ b, Nest.pool s b = none := by
      intro b
      cases hc : Nest.pool s b with
      | none => rfl
      | some c => exact absurd (h2.only b c hc) (by intro h; cases h)
    refine ⟨hp, fun i => ?_, Forest.clean h4 (congrArg Prod.snd hB)⟩
    cases hl : (Nest.world s).heap.live i with
    | none => rfl
    | some l =>
      obtain ⟨b, c, hc, -⟩ := h2.blocks rfl i l hl
      have hc : Nest.pool s b = some c := hc
      rw [hp b] at hc
      cases hc

/-- At the start there is nothing. -/
theorem Forest.start : ∀ {n : Nat} {s : Depth U n}, Clean n s → Depth.WF n s → ∃ B : Below n, B.map (B := fun _ => Bytes) (fun _ => Prod.fst) = Vars.none n ∧
    B.map (B := Tree) (fun _ => Prod.snd) = Vars.none n ∧ Forest Γ t N false n s [] B
  | 0, _, _, _ => ⟨(), rfl, rfl, fun v hv => by cases hv⟩
  | n + 1, s, ⟨h1, h2, h3⟩, ⟨w1, w2⟩ => by
    obtain ⟨B, b1, b2, b3⟩ := Forest.start h3 w2
    refine ⟨([], B), congrArg (_, ·) b1, congrArg (_, ·) b2, [], [], List.Perm.refl _, ⟨?_, ?_, ?_, ?_, ?_, w1⟩, fun _ => rfl, b3⟩
    · intro p hp; cases hp
    · intro b c hc
      have hc : Nest.pool s b = some c := hc
      rw [h1] at hc; cases hc
    · exact List.nodup_nil
    · intro b b' c c' hc
      have hc : Nest.pool s b = some c := hc
      rw [h1] at hc; cases hc
    · intro _ i l hl
      have hl : (Nest.world s).heap.live i = some l := hl
      rw [h2] at hl; cases hl

end Dync
