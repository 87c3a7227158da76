import Verif.Nested
/-!
# Lemmas for containers of containers
-/
namespace Dync
variable {U : Type} {Γ : TyEnv U} {t : TyId} {N : Nesting U} {leaks : Bool}

theorem lawfulDrop_build {W : Type} (Γ : TyEnv W) (t : TyId) : LawfulDrop Γ t (CloneVTable.build Γ t) := by
  intro b hb
  exact dropBytes_eq hb

theorem lawfulClone_build {W : Type} (Γ : TyEnv W) (t : TyId) : LawfulClone Γ t (CloneVTable.build Γ t) := lawfulClone_of rfl rfl rfl

theorem tab_build {W : Type} (Γ : TyEnv W) (t : TyId) : Tab Γ t (CloneVTable.build Γ t) := ⟨rfl, rfl, rfl, rfl, trivial⟩

theorem Forest.perm : ∀ {n : Nat} {s : Depth U n} {vs vs' : List (Bytes × Tree n)} {B : Below n}, Forest Γ t N leaks n s vs B → vs.Perm vs' →
    Forest Γ t N leaks n s vs' B
  | 0, _, _, _, _, h, hp => fun v hv => h v (hp.mem_iff.2 hv)
  | _ + 1, _, _, _, _, ⟨ns, lost, h1, h2⟩, hp => ⟨ns, lost, h1.trans hp, h2⟩

theorem Nodes.leak {n : Nat} {s : Nest (Depth U n)} {ns : List (Node n)} (h : Nodes Γ t N leaks n s ns) : Nodes Γ t N true n s ns :=
  ⟨h.is, h.only, h.nodup, h.apart, (fun h => by cases h), h.wf⟩

theorem Forest.leak : ∀ {n : Nat} {s : Depth U n} {vs : List (Bytes × Tree n)} {B : Below n}, Forest Γ t N leaks n s vs B → Forest Γ t N true n s vs B
  | 0, _, _, _, h => h
  | _ + 1, _, _, _, ⟨ns, lost, h1, h2, _, h4⟩ => ⟨ns, lost, h1, h2.leak, (fun h => by cases h), h4.leak⟩

theorem Nodes.perm {n : Nat} {s : Nest (Depth U n)} {ns ns' : List (Node n)} (h : Nodes Γ t N leaks n s ns) (hp : ns.Perm ns') :
    Nodes Γ t N leaks n s ns' :=
  ⟨fun p hq => h.is p (hp.mem_iff.2 hq), fun b c hc => (hp.map _).mem_iff.1 (h.only b c hc), (hp.map _).nodup_iff.1 h.nodup,
    h.apart, h.blocks, h.wf⟩

/-- One value of a level with containers: its container, and the others. -/
theorem Forest.pick {n : Nat} {s : Nest (Depth U n)} {v : Bytes × Tree (n + 1)} {vs : List (Bytes × Tree (n + 1))} {B : Below (n + 1)}
    (h : Forest Γ t N leaks (n + 1) s (v :: vs) B) :
    ∃ (p : Node n) (ns : List (Node n)) (lost : List (Bytes × Tree n)), p.value = v ∧ (ns.map Node.value).Perm vs ∧
      Nodes Γ t N leaks n s (p :: ns) ∧ (leaks = false → lost = []) ∧ Forest Γ t N leaks n s.world.user (p.2 ++ ((lost ++ B.1) ++ ns.flatMap Prod.snd)) B.2 := by
  obtain ⟨ns, lost, h1, h2, h3, h4⟩ := h
  obtain ⟨p, hp, rfl⟩ := List.mem_map.1 (h1.mem_iff.2 List.mem_cons_self)
  obtain ⟨a, b, rfl⟩ := List.append_of_mem hp
  have hq : (a ++ p :: b).Perm (p :: (a ++ b)) := List.perm_middle
  refine ⟨p, a ++ b, lost, rfl, ?_, h2.perm hq, h3, h4.perm ?_⟩
  · exact List.Perm.cons_inv ((hq.map Node.value).symm.trans h1)
  · have h5 : ((a ++ p :: b).flatMap Prod.snd).Perm (p.2 ++ (a ++ b).flatMap Prod.snd) := by
      simp only [List.flatMap_append, List.flatMap_cons]
      exact (List.perm_append_comm_assoc _ _ _)
    exact (h5.append_left (lost ++ B.1)).trans (List.perm_append_comm_assoc _ _ _)

/-- A container is gone, with its block or without. -/
theorem Nodes.remove {n : Nat} {s : Nest (Depth U n)} {p : Node n} {ns : List (Node n)} (h : Nodes Γ t N leaks n s (p :: ns))
    {c : VecDyn (CloneVTable (Depth U n))} {i : Nat} (hc : s.pool p.1 = some c) (hi : c.data.ptr = some i) (u : Depth U n) :
    Nodes Γ t N leaks n (s.set p.1 none ⟨s.world.heap.free i, u⟩) ns ∧ Nodes Γ t N true n (s.set p.1 none ⟨s.world.heap, u⟩) ns := by
  have hn : p.1 ∉ ns.map Prod.fst ∧ (ns.map Prod.fst).Nodup := List.nodup_cons.1 h.nodup
  have hne : ∀ q ∈ ns, q.1 ≠ p.1 := fun q hq e => hn.1 (e ▸ List.mem_map_of_mem hq)
  have hpool : ∀ w b c', (s.set p.1 none w).pool b = some c' → b ≠ p.1 ∧ s.pool b = some c' := by
    intro w b c' hb
    unfold Nest.set at hb
    dsimp only at hb
    split at hb
    · cases hb
    · exact ⟨by assumption, hb⟩
  have honly : ∀ w b c', (s.set p.1 none w).pool b = some c' → b ∈ ns.map Prod.fst := by
    intro w b c' hb
    obtain ⟨h1, h2⟩ := hpool w b c' hb
    rcases List.mem_cons.1 (h.only b c' h2) with e | e
    · exact absurd e h1
    · exact e
  have happart : ∀ w b b' c1 c2, (s.set p.1 none w).pool b = some c1 → (s.set p.1 none w).pool b' = some c2 → c1.data.ptr = c2.data.ptr → b = b' :=
    fun w b b' c1 c2 h1 h2 => h.apart b b' c1 c2 (hpool w b c1 h1).2 (hpool w b' c2 h2).2
  refine ⟨⟨?_, honly _, hn.2, happart _, ?_, h.wf.free i⟩, ⟨?_, honly _, hn.2, happart _, (fun h => by cases h), h.wf⟩⟩
  · intro q hq
    obtain ⟨h1, d, h2, h3⟩ := h.is q (List.mem_cons_of_mem _ hq)
    refine ⟨h1, d, ?_, ?_⟩
    · show (if q.1 = p.1 then none else s.pool q.1) = _
      rw [if_neg (hne q hq), h2]
    · refine h3.frame fun j hj => ?_
      show (if j = i then none else s.world.heap.live j) = _
      rw [if_neg]
      rintro rfl
      exact hne q hq (h.apart _ _ _ _ h2 hc (hj.trans hi.symm))
  · intro hl j l hj
    have hj : (if j = i then none else s.world.heap.live j) = some l := hj
    by_cases e : j = i
    · rw [if_pos e] at hj; cases hj
    · rw [if_neg e] at hj
      obtain ⟨b, c', h1, h2⟩ := h.blocks hl j l hj
      refine ⟨b, c', ?_, h2⟩
      show (if b = p.1 then none else s.pool b) = _
      rw [if_neg, h1]
      rintro rfl
      rw [hc] at h1
      cases h1
      rw [hi] at h2
      cases h2
      exact e rfl
  · intro q hq
    obtain ⟨h1, d, h2, h3⟩ := h.is q (List.mem_cons_of_mem _ hq)
    refine ⟨h1, d, ?_, h3⟩
    show (if q.1 = p.1 then none else s.pool q.1) = _
    rw [if_neg (hne q hq), h2]

/-! ### Dropping -/

/-- What dropping values does: what dropping the lists does, and only they are gone. -/
def Dropped (Γ : TyEnv U) (t : TyId) (N : Nesting U) (leaks : Bool) (n : Nat) (rest : List (Bytes × Tree n)) (B : Below n) (r : Res Unit) (u' : Depth U n) : Prop :=
  (r = .ok () → Forest Γ t N leaks n u' rest B) ∧ (∀ y, r = .panic y → ∃ lost, Forest Γ t N true n u' (lost ++ rest) B)

theorem dropped_stop {n : Nat} {rest : List (Bytes × Tree n)} {B : Below n} {r : Res Unit} {u' : Depth U n} (h1 : r ≠ .ok ()) (h2 : ∀ y, r ≠ .panic y) :
    Dropped Γ t N leaks n rest B r u' := ⟨fun h => absurd h h1, fun y h => absurd h (h2 y)⟩

theorem forEach_forest {n : Nat} {B : Below n}
    (ih : ∀ {u : Depth U n} {v rest} {r : Res Unit} {u'}, Forest Γ t N leaks n u (v :: rest) B → (Γ.depth N n).drop (depthTy t n) v.1 u = (r, u') →
      dropTree Γ t n v.2 u.base = (r, u'.base) ∧ Dropped Γ t N leaks n rest B r u') :
    ∀ {k rest : List (Bytes × Tree n)} {u u' : Depth U n} {r : Res Unit}, Forest Γ t N leaks n u (k ++ rest) B →
      M.forEach (k.map Prod.fst) ((Γ.depth N n).drop (depthTy t n)) u = (r, u') →
      M.forEach (k.map Prod.snd) (dropTree Γ t n) u.base = (r, u'.base) ∧ Dropped Γ t N leaks n rest B r u' := by
  intro k
  induction k with
  | nil =>
    intro rest u u' r hf he
    cases he
    exact ⟨rfl, fun _ => hf, fun y h => by cases h⟩
  | cons v k ihk =>
    intro rest u u' r hf he
    simp only [List.map_cons, M.forEach_cons] at he ⊢
    rcases hd : (Γ.depth N n).drop (depthTy t n) v.1 u with ⟨r1, u1⟩
    obtain ⟨h1, h2, h3⟩ := ih hf hd
    cases r1 with
    | ok _ =>
      rw [M.bind_ok hd] at he
      rw [M.bind_ok h1]
      exact ihk (h2 rfl) he
    | panic y =>
      rw [M.bind_panic hd] at he
      cases he
      rw [M.bind_panic h1]
      refine ⟨rfl, (fun h => by cases h), fun _ _ => ?_⟩
      obtain ⟨lost, hl⟩ := h3 y rfl
      exact ⟨lost ++ k, by rw [List.append_assoc]; exact hl⟩
    | ub =>
      rw [M.bind_ub hd] at he
      cases he
      rw [M.bind_ub h1]
      exact ⟨rfl, dropped_stop (by intro h; cases h) (by intro y h; cases h)⟩
    | abort =>
      rw [M.bind_abort hd] at he
      cases he
      rw [M.bind_abort h1]
      exact ⟨rfl, dropped_stop (by intro h; cases h) (by intro y h; cases h)⟩

theorem drop_forest : ∀ {n : Nat} {leaks : Bool} {u u' : Depth U n} {v : Bytes × Tree n} {rest : List (Bytes × Tree n)} {B : Below n} {r : Res Unit},
    Forest Γ t N leaks n u (v :: rest) B → (Γ.depth N n).drop (depthTy t n) v.1 u = (r, u') →
      dropTree Γ t n v.2 u.base = (r, u'.base) ∧ Dropped Γ t N leaks n rest B r u'
  | 0, leaks, u, u', v, rest, B, r, hf, he => by
    obtain ⟨h1, h2⟩ := hf v List.mem_cons_self
    have hr : ∀ w ∈ rest, w.2 = w.1 ∧ w.1.length = Γ.size t := fun w hw => hf w (List.mem_cons_of_mem _ hw)
    refine ⟨?_, fun _ => hr, fun _ _ => ⟨[], hr⟩⟩
    show Γ.drop t v.2 u = (r, u')
    rw [h1]
    exact he
  | n + 1, leaks, s, s', v, rest, B, r, hf, he => by
    obtain ⟨p, ns, lost, rfl, hv, hn, hl, hb⟩ := hf.pick
    obtain ⟨-, d, hc, R⟩ := hn.is p List.mem_cons_self
    obtain ⟨i, hi, -⟩ := R.block
    have he : Nest.drop N.cfg p.1 s = (r, s') := by
      have he : (if Nest.ty = Nest.ty then Nest.drop N.cfg p.1 else pure ()).run s = (r, s') := he
      rwa [if_pos rfl] at he
    rcases hk : M.forEach (p.2.map Prod.fst) ((Γ.depth N n).drop (depthTy t n)) s.world.user with ⟨q, u1⟩
    obtain ⟨h1, h2, h3⟩ := forEach_forest (fun hf he => drop_forest hf he) hb hk
    have hrun : ∀ {x : Res Unit} {w : World (Depth U n)}, VecDyn.drop N.cfg ⟨d, CloneVTable.build (Γ.depth N n) (depthTy t n)⟩ s.world = (x, w) →
        r = x ∧ s' = s.set p.1 none w := by
      intro x w hx
      unfold Nest.drop at he
      dsimp only at he
      rw [hc] at he
      dsimp only at he
      rw [hx] at he
      cases he
      exact ⟨rfl, rfl⟩
    have hgo : ∀ x w, VecDyn.drop N.cfg ⟨d, CloneVTable.build (Γ.depth N n) (depthTy t n)⟩ s.world = (x, w) → w.user = u1 → x = q →
        dropTree Γ t (n + 1) p.value.2 s.base = (r, s'.base) := by
      intro x w hx hu hq
      obtain ⟨rfl, rfl⟩ := hrun hx
      subst hq
      show M.forEach (p.2.map Prod.snd) (dropTree Γ t n) s.world.user.base = (r, w.user.base)
      rw [h1, hu]
    cases q with
    | ok _ =>
      obtain ⟨j, hj, hd⟩ := VecDyn.drop_ok (cfg := N.cfg) (c := ⟨d, CloneVTable.build (Γ.depth N n) (depthTy t n)⟩) R (lawfulDrop_build _ _) hk
      obtain ⟨rfl, rfl⟩ := hrun hd
      refine ⟨hgo _ _ hd rfl rfl, fun _ => ?_, fun y h => by cases h⟩
      exact ⟨ns, lost, hv, (hn.remove hc hj u1).1, hl, h2 rfl⟩
    | panic y =>
      have hd := VecDyn.drop_panic (cfg := N.cfg) (c := ⟨d, CloneVTable.build (Γ.depth N n) (depthTy t n)⟩) R (lawfulDrop_build _ _) hk
      obtain ⟨rfl, rfl⟩ := hrun hd
      refine ⟨hgo _ _ hd rfl rfl, (fun h => by cases h), fun _ _ => ?_⟩
      obtain ⟨lost', hl'⟩ := h3 y rfl
      refine ⟨[], ns, lost' ++ lost, hv, (hn.remove hc hi u1).2, (fun h => by cases h), ?_⟩
      rw [List.append_assoc lost', List.append_assoc lost']
      exact hl'
    | ub =>
      have hd : VecDyn.drop N.cfg ⟨d, CloneVTable.build (Γ.depth N n) (depthTy t n)⟩ s.world = (.ub, { s.world with user := u1 }) := by
        unfold VecDyn.drop
        rw [M.bind_ok (VecCopy.byteChunks_ok R _), VecDyn.dropLoop_eq (lawfulDrop_build _ _) R.each, M.bind_ub (worldUser_of hk)]
      obtain ⟨rfl, rfl⟩ := hrun hd
      exact ⟨hgo _ _ hd rfl rfl, dropped_stop (by intro h; cases h) (by intro y h; cases h)⟩
    | abort =>
      have hd : VecDyn.drop N.cfg ⟨d, CloneVTable.build (Γ.depth N n) (depthTy t n)⟩ s.world = (.abort, { s.world with user := u1 }) := by
        unfold VecDyn.drop
        rw [M.bind_ok (VecCopy.byteChunks_ok R _), VecDyn.dropLoop_eq (lawfulDrop_build _ _) R.each, M.bind_abort (worldUser_of hk)]
      obtain ⟨rfl, rfl⟩ := hrun hd
      exact ⟨hgo _ _ hd rfl rfl, dropped_stop (by intro h; cases h) (by intro y h; cases h)⟩

end Dync
