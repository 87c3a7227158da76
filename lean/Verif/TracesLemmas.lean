import Verif.TracesSpec
import Verif.ThreadsLemmas
import Verif.Props.Threads

/-! Turns that do not conflict can be exchanged. -/

namespace Dync
variable {S V H F : Type} {Γ : TyEnv (TLS S)} {Φ : UserFns (TLS S) H F} {K : Formatting F} {cfg : Cfg}

/-- The user's own code in a turn is thread-local. -/
def Turn.Local (x : Turn S V H F) : Prop := ∀ L, x.2.Respects (LooksSame x.1 L)

/-- Two states that a turn cannot tell apart. -/
structure LooksAlike (x : Turn S V H F) (s s' : YVars × Outside (TLS S)) : Prop where
  vars : ∀ k, k ∈ x.2.writes ∨ k ∈ x.2.reads → s.1 k = s'.1 k
  store : s.2.user.store x.1 = s'.2.user.store x.1

theorem turn_respects (T : ThreadLocal Γ Φ) {x : Turn S V H F} (hx : x.Local) {s s' : YVars × Outside (TLS S)} (h : LooksAlike x s s') :
    (x.step Γ cfg Φ K s).1 = (x.step Γ cfg Φ K s').1 ∧ LooksAlike x (x.step Γ cfg Φ K s).2 (x.step Γ cfg Φ K s').2 ∧
      (x.step Γ cfg Φ K s).2.2.leaked + s'.2.leaked = (x.step Γ cfg Φ K s').2.2.leaked + s.2.leaked ∧
      (∀ k, k ∉ x.2.writes → (x.step Γ cfg Φ K s).2.1 k = s.1 k) ∧
      ∀ j, j ≠ x.1 → (x.step Γ cfg Φ K s).2.2.user.store j = s.2.user.store j := by
  have hs : SeesSame (· ∈ x.2.writes) (fun k => k ∈ x.2.writes ∨ k ∈ x.2.reads) s.1 (LooksSame x.1 s.2.user.store)
      (s'.2.leaked, s.2.leaked) (s.1, { s.2 with user := s.2.user.switch x.1 }) (s'.1, { s'.2 with user := s'.2.user.switch x.1 }) :=
    ⟨h.vars, fun _ _ => rfl, ⟨rfl, rfl, h.store, fun _ _ => rfl⟩, Nat.add_comm ..⟩
  obtain ⟨g1, g2⟩ := (T x.1 s.2.user.store).whole (K := K) (cfg := cfg) (fun _ h => .inl h) x.2 (fun _ h => h) (fun _ h => .inr h) (hx _) _ _ hs
  obtain ⟨g3, g4⟩ := caught_same g1 g2
  obtain ⟨⟨z1, z2, z3, z4⟩, z5⟩ := g4.user
  exact ⟨g3, ⟨g4.seen, z3⟩, z5, g4.kept, z4⟩

theorem not_conflict {x y : Turn S V H F} (h : ¬ Conflict x y) : x.1 ≠ y.1 ∧ (∀ k ∈ x.2.writes, k ∉ y.2.writes) ∧
    (∀ k ∈ x.2.writes, k ∉ y.2.reads) ∧ ∀ k ∈ y.2.writes, k ∉ x.2.reads :=
  ⟨fun e => h (.inl e), fun k h1 h2 => h (.inr ⟨k, .inl ⟨h1, .inl h2⟩⟩), fun k h1 h2 => h (.inr ⟨k, .inl ⟨h1, .inr h2⟩⟩),
    fun k h1 h2 => h (.inr ⟨k, .inr ⟨h2, h1⟩⟩)⟩

/-- Two turns that do not conflict, in either order. -/
theorem turns_commute (T : ThreadLocal Γ Φ) {x y : Turn S V H F} (hx : x.Local) (hy : y.Local) (hc : ¬ Conflict x y)
    {s s1 s2 : YVars × Outside (TLS S)} {a b : Option (WObs H F)} (e1 : x.step Γ cfg Φ K s = (.ok a, s1))
    (e2 : y.step Γ cfg Φ K s1 = (.ok b, s2)) :
    ∃ t1 t2, y.step Γ cfg Φ K s = (.ok b, t1) ∧ x.step Γ cfg Φ K t1 = (.ok a, t2) ∧ SameBut s2 t2 ∧
      (∀ k ∈ y.2.writes, s1.1 k = s.1 k) ∧ ∀ k ∈ x.2.writes, t1.1 k = s.1 k := by
  obtain ⟨c1, c2, c3, c4⟩ := not_conflict hc
  obtain ⟨-, -, -, x4, x5⟩ := turn_respects (K := K) (cfg := cfg) T hx (s := s) (s' := s) ⟨fun _ _ => rfl, rfl⟩
  rw [e1] at x4 x5
  have ay : LooksAlike y s1 s := ⟨fun k hk => x4 k fun h => hk.elim (c2 k h) (c3 k h), x5 _ c1.symm⟩
  obtain ⟨p1, p2, p3, p4, p5⟩ := turn_respects (K := K) (cfg := cfg) T hy ay
  obtain ⟨-, -, -, y4, y5⟩ := turn_respects (K := K) (cfg := cfg) T hy (s := s) (s' := s) ⟨fun _ _ => rfl, rfl⟩
  rw [e2] at p1 p2 p3 p4 p5
  rcases f1 : y.step Γ cfg Φ K s with ⟨r, t1⟩
  rw [f1] at p1 p2 p3 y4 y5
  cases (show r = .ok b from p1.symm)
  have ax : LooksAlike x t1 s := ⟨fun k hk => y4 k fun h => hk.elim (fun h' => c2 k h' h) (fun h' => c4 k h h'), y5 _ c1⟩
  obtain ⟨q1, q2, q3, q4, q5⟩ := turn_respects (K := K) (cfg := cfg) T hx ax
  rw [e1] at q1 q2 q3
  rcases f2 : x.step Γ cfg Φ K t1 with ⟨r', t2⟩
  rw [f2] at q1 q2 q3 q4 q5
  cases (show r' = .ok a from q1)
  refine ⟨t1, t2, rfl, f2, ⟨?_, ?_, ?_⟩, fun k hk => ay.vars k (.inl hk), fun k hk => ax.vars k (.inl hk)⟩
  · funext k
    by_cases hkx : k ∈ x.2.writes
    · exact (p4 k (c2 k hkx)).trans (q2.vars k (.inl hkx)).symm
    · by_cases hky : k ∈ y.2.writes
      · exact (p2.vars k (.inl hky)).trans (q4 k hkx).symm
      · exact ((p4 k hky).trans (x4 k hkx)).trans ((q4 k hkx).trans (y4 k hky)).symm
  · have h1 : s2.2.leaked + s.2.leaked = t1.2.leaked + s1.2.leaked := p3
    have h2 : t2.2.leaked + s.2.leaked = s1.2.leaked + t1.2.leaked := q3
    omega
  · funext j
    by_cases hjx : j = x.1
    · subst hjx
      exact (p5 _ c1).trans q2.store.symm
    · by_cases hjy : j = y.1
      · subst hjy
        exact p2.store.trans (q5 _ c1.symm).symm
      · exact ((p5 j hjy).trans (x5 j hjx)).trans ((q5 j hjx).trans (y5 j hjy)).symm

theorem SameBut.refl (s : YVars × Outside (TLS S)) : SameBut s s := ⟨rfl, rfl, rfl⟩
theorem SameBut.symm {s s' : YVars × Outside (TLS S)} (h : SameBut s s') : SameBut s' s := ⟨h.1.symm, h.2.symm, h.3.symm⟩
theorem SameBut.trans {s s' s'' : YVars × Outside (TLS S)} (h : SameBut s s') (h' : SameBut s' s'') : SameBut s s'' :=
  ⟨h.1.trans h'.1, h.2.trans h'.2, h.3.trans h'.3⟩

/-- The next turn does not depend on which thread ran last. -/
theorem SameBut.step {s s' : YVars × Outside (TLS S)} (h : SameBut s s') (x : Turn S V H F) : x.step Γ cfg Φ K s = x.step Γ cfg Φ K s' := by
  obtain ⟨vars, l, c, st⟩ := s
  obtain ⟨vars', l', c', st'⟩ := s'
  obtain ⟨h1, h2, h3⟩ := h
  cases h1; cases h2; cases h3
  rfl

theorem SameBut.described {s s' : YVars × Outside (TLS S)} (h : SameBut s s') {xs : List (Turn S V H F)} :
    TurnsDescribed Γ cfg Φ K xs s → TurnsDescribed Γ cfg Φ K xs s' := by
  cases xs with
  | nil => exact id
  | cons x xs => exact fun ⟨h1, h2⟩ => ⟨h.vars ▸ h1, fun o t e => h2 o t (h.step x ▸ e)⟩

/-- All turns are described and run to the end. -/
structure RunsTo (Γ : TyEnv (TLS S)) (cfg : Cfg) (Φ : UserFns (TLS S) H F) (K : Formatting F) (xs : List (Turn S V H F))
    (s : YVars × Outside (TLS S)) (all : List (Nat × Option (WObs H F))) (s' : YVars × Outside (TLS S)) : Prop where
  described : TurnsDescribed Γ cfg Φ K xs s
  runs : stepTurns Γ cfg Φ K xs s = (.ok all, s')

theorem RunsTo.nil {s : YVars × Outside (TLS S)} : RunsTo (V := V) Γ cfg Φ K [] s [] s := ⟨trivial, rfl⟩

theorem RunsTo.cons {x : Turn S V H F} {xs : List (Turn S V H F)} {s s1 s2 : YVars × Outside (TLS S)} {o : Option (WObs H F)}
    {all : List (Nat × Option (WObs H F))} (hd : x.2.Described Γ cfg s.1) (e : x.step Γ cfg Φ K s = (.ok o, s1))
    (h : RunsTo Γ cfg Φ K xs s1 all s2) : RunsTo Γ cfg Φ K (x :: xs) s ((x.1, o) :: all) s2 := by
  refine ⟨⟨hd, fun o' s' e' => ?_⟩, ?_⟩
  · rw [e] at e'; cases e'; exact h.described
  · simp only [stepTurns]
    rw [M.bind_ok e, M.bind_ok h.runs]
    rfl

theorem RunsTo.cons_inv {x : Turn S V H F} {xs : List (Turn S V H F)} {s s2 : YVars × Outside (TLS S)}
    {all : List (Nat × Option (WObs H F))} (h : RunsTo Γ cfg Φ K (x :: xs) s all s2) :
    ∃ o all' s1, x.2.Described Γ cfg s.1 ∧ x.step Γ cfg Φ K s = (.ok o, s1) ∧ RunsTo Γ cfg Φ K xs s1 all' s2 ∧ all = (x.1, o) :: all' := by
  obtain ⟨⟨h1, h2⟩, h3⟩ := h
  simp only [stepTurns] at h3
  rcases e : x.step Γ cfg Φ K s with ⟨r, s1⟩
  cases r with
  | ok o =>
    rw [M.bind_ok e] at h3
    rcases e' : stepTurns Γ cfg Φ K xs s1 with ⟨r', s2'⟩
    cases r' with
    | ok all' =>
      rw [M.bind_ok e'] at h3
      obtain ⟨e1, e2⟩ := Prod.mk.inj h3
      cases (show s2' = s2 from e2)
      exact ⟨o, all', s1, h1, rfl, ⟨h2 _ _ e, e'⟩, (Res.ok.inj e1).symm⟩
    | panic => rw [M.bind_panic e'] at h3; cases h3
    | ub => rw [M.bind_ub e'] at h3; cases h3
    | abort => rw [M.bind_abort e'] at h3; cases h3
  | panic => rw [M.bind_panic e] at h3; cases h3
  | ub => rw [M.bind_ub e] at h3; cases h3
  | abort => rw [M.bind_abort e] at h3; cases h3

/-- Starting in the same state but for the thread that ran last. -/
theorem RunsTo.start {xs : List (Turn S V H F)} {s s' t : YVars × Outside (TLS S)} {all : List (Nat × Option (WObs H F))}
    (h : RunsTo Γ cfg Φ K xs s all t) (hs : SameBut s s') : ∃ t', RunsTo Γ cfg Φ K xs s' all t' ∧ SameBut t t' := by
  cases xs with
  | nil => have := h.runs; cases this; exact ⟨s', RunsTo.nil, hs⟩
  | cons x xs =>
    obtain ⟨o, all', s1, h1, h2, h3, rfl⟩ := h.cons_inv
    exact ⟨t, .cons (hs.vars ▸ h1) (hs.step x ▸ h2) h3, SameBut.refl _⟩

theorem described_of_same {c : WOp (TLS S) V H F} {v v' : YVars} (h : ∀ k ∈ c.writes, v k = v' k) (hd : c.Described Γ cfg v) :
    c.Described Γ cfg v' := by
  cases c with
  | view k p =>
    simp only [WOp.Described] at hd ⊢
    rw [← h k (by simp [WOp.writes])]
    exact hd
  | _ => trivial

/-- The two schedules give every thread the same observations, and end in the same state. -/
def SameRuns (Γ : TyEnv (TLS S)) (cfg : Cfg) (Φ : UserFns (TLS S) H F) (K : Formatting F) (xs ys : List (Turn S V H F)) : Prop :=
  ∀ s all t, RunsTo Γ cfg Φ K xs s all t →
    ∃ all' t', RunsTo Γ cfg Φ K ys s all' t' ∧ SameBut t t' ∧ ∀ i, ofThread i all' = ofThread i all

theorem SameRuns.refl (xs : List (Turn S V H F)) : SameRuns Γ cfg Φ K xs xs := fun _ all t h => ⟨all, t, h, .refl _, fun _ => rfl⟩

theorem SameRuns.trans {xs ys zs : List (Turn S V H F)} (h : SameRuns Γ cfg Φ K xs ys) (h' : SameRuns Γ cfg Φ K ys zs) :
    SameRuns Γ cfg Φ K xs zs := fun s all t r => by
  obtain ⟨all', t', r', b, e⟩ := h s all t r
  obtain ⟨all'', t'', r'', b', e'⟩ := h' s all' t' r'
  exact ⟨all'', t'', r'', b.trans b', fun i => (e' i).trans (e i)⟩

theorem ofThread_cons {α : Type} (i : Nat) (x : Nat × α) (xs : List (Nat × α)) :
    ofThread i (x :: xs) = if x.1 = i then x.2 :: ofThread i xs else ofThread i xs := by
  by_cases h : x.1 = i <;> simp [ofThread, h]

theorem SameRuns.cons (x : Turn S V H F) {xs ys : List (Turn S V H F)} (h : SameRuns Γ cfg Φ K xs ys) :
    SameRuns Γ cfg Φ K (x :: xs) (x :: ys) := fun s all t r => by
  obtain ⟨o, all', s1, h1, h2, h3, rfl⟩ := r.cons_inv
  obtain ⟨all'', t'', r'', b, e⟩ := h s1 all' t h3
  exact ⟨_, t'', .cons h1 h2 r'', b, fun i => by simp only [ofThread_cons, e]⟩

/-- The first two turns are exchanged. -/
theorem SameRuns.swap (T : ThreadLocal Γ Φ) {x y : Turn S V H F} (hx : x.Local) (hy : y.Local) (hc : ¬ Conflict x y)
    (xs : List (Turn S V H F)) : SameRuns Γ cfg Φ K (x :: y :: xs) (y :: x :: xs) := fun s all t r => by
  obtain ⟨a, all1, s1, h1, e1, r1, rfl⟩ := r.cons_inv
  obtain ⟨b, all2, s2, h2, e2, r2, rfl⟩ := r1.cons_inv
  obtain ⟨t1, t2, f1, f2, b2, k1, k2⟩ := turns_commute T hx hy hc e1 e2
  obtain ⟨t', r', b'⟩ := r2.start b2
  refine ⟨(y.1, b) :: (x.1, a) :: all2, t', .cons (described_of_same k1 h2) f1 (.cons (described_of_same (fun k hk => (k2 k hk).symm) h1) f2 r'), b', fun i => ?_⟩
  have hne := (not_conflict hc).1
  simp only [ofThread_cons]
  by_cases hi : x.1 = i
  · have : ¬ y.1 = i := fun h => hne (hi.trans h.symm)
    simp [hi, this]
  · simp [hi]

/-- A turn that conflicts with none of those before it comes first. -/
theorem SameRuns.first (T : ThreadLocal Γ Φ) {x : Turn S V H F} (hx : x.Local) (post : List (Turn S V H F)) :
    ∀ pre : List (Turn S V H F), (∀ y ∈ pre, y.Local ∧ ¬ Conflict x y) →
    SameRuns Γ cfg Φ K (x :: (pre ++ post)) (pre ++ x :: post)
  | [], _ => .refl _
  | y :: pre, h => (SameRuns.swap T hx (h y (List.mem_cons_self ..)).1 (h y (List.mem_cons_self ..)).2 _).trans
      ((SameRuns.first T hx post pre fun z hz => h z (List.mem_cons_of_mem _ hz)).cons y)

theorem sublist_pair {α : Type} {a b : α} {l l' : List α} (ha : a ∈ l) (hb : b ∈ l') : List.Sublist [a, b] (l ++ l') :=
  List.Sublist.append (List.singleton_sublist.2 ha) (List.singleton_sublist.2 hb)

/-- Schedules with the same conflicts. -/
theorem same_runs (T : ThreadLocal Γ Φ) : ∀ (l l' : List (Nat × Turn S V H F)), (∀ x ∈ l, x.2.Local) → l'.Perm l →
    (l.map Prod.fst).Nodup → (∀ a b, List.Sublist [a, b] l → Conflict a.2 b.2 → List.Sublist [a, b] l') →
    SameRuns Γ cfg Φ K (l.map Prod.snd) (l'.map Prod.snd)
  | [], l', _, hp, _, _ => by rw [List.perm_nil.1 hp]; exact .refl _
  | x :: l, l', hl, hp, hn, hc => by
    have hx : x ∈ l' := hp.mem_iff.2 (List.mem_cons_self ..)
    obtain ⟨pre, post, rfl⟩ := List.append_of_mem hx
    have hp' : (pre ++ post).Perm l := List.Perm.cons_inv (List.perm_middle.symm.trans hp)
    have hn' : ((pre ++ x :: post).map Prod.fst).Nodup := (hp.map _).nodup_iff.2 hn
    have hno : (pre ++ x :: post).Nodup := List.Nodup.of_map _ hn'
    have hsub : ∀ a b, List.Sublist [a, b] l → Conflict a.2 b.2 → List.Sublist [a, b] (pre ++ post) := by
      intro a b hab hcab
      have h := hc a b (hab.cons x) hcab
      have hxl : x ∉ l := fun h => by
        have := (List.nodup_cons.1 hn).1
        exact this (List.mem_map_of_mem h)
      have ha : a ≠ x := fun e => hxl (e ▸ hab.subset (List.mem_cons_self ..))
      have hb : b ≠ x := fun e => hxl (e ▸ hab.subset (List.mem_cons_of_mem _ (List.mem_cons_self ..)))
      have h2 := h.filter (fun z => z.1 != x.1)
      have inj : ∀ z ∈ x :: l, z.1 = x.1 → z = x := by
        intro z hz e
        rcases List.mem_cons.1 hz with rfl | hz
        · rfl
        · exact absurd (List.mem_map.2 ⟨z, hz, e⟩) (List.nodup_cons.1 hn).1
      have hal : a ∈ x :: l := List.mem_cons_of_mem _ (hab.subset (List.mem_cons_self ..))
      have hbl : b ∈ x :: l := List.mem_cons_of_mem _ (hab.subset (List.mem_cons_of_mem _ (List.mem_cons_self ..)))
      have fa : (a.1 != x.1) = true := by simpa using fun e => ha (inj a hal e)
      have fb : (b.1 != x.1) = true := by simpa using fun e => hb (inj b hbl e)
      have keep : ∀ zs : List (Nat × Turn S V H F), (∀ z ∈ zs, z ∈ l) → zs.filter (fun z => z.1 != x.1) = zs := by
        intro zs hz
        rw [List.filter_eq_self]
        intro z h
        have : z ≠ x := fun e => hxl (e ▸ hz z h)
        simpa using fun e => this (inj z (List.mem_cons_of_mem _ (hz z h)) e)
      simp only [List.filter_append, List.filter_cons, fa, fb, if_true, bne_self_eq_false, Bool.false_eq_true, if_false, List.filter_nil] at h2
      rw [keep pre fun z h => hp'.mem_iff.1 (List.mem_append_left _ h), keep post fun z h => hp'.mem_iff.1 (List.mem_append_right _ h)] at h2
      exact h2
    have IH := same_runs T l (pre ++ post) (fun z hz => hl z (List.mem_cons_of_mem _ hz)) hp' (List.nodup_cons.1 hn).2 hsub
    have hind : ∀ y ∈ pre, y.2.Local ∧ ¬ Conflict x.2 y.2 := by
      intro y hy
      have hyl : y ∈ l := hp'.mem_iff.1 (List.mem_append_left _ hy)
      refine ⟨hl y (List.mem_cons_of_mem _ hyl), fun hcf => ?_⟩
      have h1 : List.Sublist [x, y] (pre ++ x :: post) := hc x y ((List.singleton_sublist.2 hyl).cons_cons x) hcf
      have h2 : List.Sublist [y, x] (pre ++ x :: post) := sublist_pair hy (List.mem_cons_self ..)
      have hxy : y ≠ x := fun e => by
        subst e
        exact absurd (List.mem_map_of_mem hyl) (List.nodup_cons.1 hn).1
      exact pair_antisymm hno hxy h2 h1
    simp only [List.map_append, List.map_cons] at IH ⊢
    exact (SameRuns.cons x.2 IH).trans (SameRuns.first T (hl x (List.mem_cons_self ..)) (post.map Prod.snd) (pre.map Prod.snd)
      (fun y hy => by obtain ⟨z, hz, rfl⟩ := List.mem_map.1 hy; exact hind z hz))
where
  pair_antisymm {α : Type} {a b : α} : ∀ {l : List α}, l.Nodup → a ≠ b → List.Sublist [a, b] l → List.Sublist [b, a] l → False
    | [], _, _, h, _ => by cases h
    | c :: l, hn, hab, h1, h2 => by
      rw [List.nodup_cons] at hn
      cases h1 with
      | cons _ h1 =>
        cases h2 with
        | cons _ h2 => exact pair_antisymm hn.2 hab h1 h2
        | cons_cons _ h2 => exact hn.1 (h1.subset (List.mem_cons_of_mem _ (List.mem_cons_self ..)))
      | cons_cons _ h1 =>
        cases h2 with
        | cons _ h2 => exact hn.1 (h2.subset (List.mem_cons_of_mem _ (List.mem_cons_self ..)))
        | cons_cons _ h2 => exact hab rfl

/-- It does not matter which of the two schedules comes first. -/
theorem SameConflicts.symm {sched sched' : List (Turn S V H F)} (same : SameConflicts sched sched') : SameConflicts sched' sched := by
  obtain ⟨l, l', hp, hn, rfl, rfl, hc⟩ := same
  have hno : l.Nodup := List.Nodup.of_map _ hn
  refine ⟨l', l, hp.symm, (hp.map _).nodup_iff.2 hn, rfl, rfl, fun a b hab hcf => ?_⟩
  have hab' : a ≠ b := fun e => by
    subst e
    have := hab.nodup (hp.nodup_iff.2 hno)
    simp at this
  have ha : a ∈ l := hp.mem_iff.1 (hab.subset (List.mem_cons_self ..))
  have hb : b ∈ l := hp.mem_iff.1 (hab.subset (List.mem_cons_of_mem _ (List.mem_cons_self ..)))
  rcases pair_total ha hb hab' with h | h
  · exact h
  · exact (same_runs.pair_antisymm (hp.nodup_iff.2 hno) hab' hab (hc b a h (conflict_symm hcf))).elim
where
  conflict_symm {x y : Turn S V H F} : Conflict x y → Conflict y x
    | .inl h => .inl h.symm
    | .inr ⟨k, .inl ⟨h1, .inl h2⟩⟩ => .inr ⟨k, .inl ⟨h2, .inl h1⟩⟩
    | .inr ⟨k, .inl ⟨h1, .inr h2⟩⟩ => .inr ⟨k, .inr ⟨h2, h1⟩⟩
    | .inr ⟨k, .inr ⟨h1, h2⟩⟩ => .inr ⟨k, .inl ⟨h2, .inr h1⟩⟩
  pair_total {α : Type} {a b : α} : ∀ {l : List α}, a ∈ l → b ∈ l → a ≠ b → List.Sublist [a, b] l ∨ List.Sublist [b, a] l
    | c :: l, ha, hb, hab => by
      rcases List.mem_cons.1 ha with e | ha'
      · rcases List.mem_cons.1 hb with e' | hb'
        · exact absurd (e.trans e'.symm) hab
        · rw [e]; exact .inl ((List.singleton_sublist.2 hb').cons_cons _)
      · rcases List.mem_cons.1 hb with e' | hb'
        · rw [e']; exact .inr ((List.singleton_sublist.2 ha').cons_cons _)
        · exact (pair_total ha' hb' hab).imp (·.cons c) (·.cons c)

end Dync
