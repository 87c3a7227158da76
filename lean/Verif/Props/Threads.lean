import Verif.ThreadsLemmas
import Verif.Props.Whole
/-!
# C80: threads do not interfere

Threads that use different containers, or the same containers only for reading, behave under every schedule as if
each of them ran alone.
-/
namespace Dync
variable {S U V H F α β : Type}

theorem ofThread_cons_same {i : Nat} {a : α} {xs : List (Nat × α)} : ofThread i ((i, a) :: xs) = a :: ofThread i xs := by
  simp [ofThread]
theorem ofThread_cons_other {i j : Nat} {a : α} {xs : List (Nat × α)} (h : j ≠ i) : ofThread j ((i, a) :: xs) = ofThread j xs := by
  simp [ofThread, Ne.symm h]

/-- Catching the panics of two machine steps. -/
theorem caught_same {σ : Type} {m m' : M σ α} {s s' : σ} {R : σ → σ → Prop} (h1 : (m s).1 = (m' s').1) (h2 : R (m s).2 (m' s').2) :
    (m.caught s).1 = (m'.caught s').1 ∧ R (m.caught s).2 (m'.caught s').2 := by
  unfold M.caught
  rcases hm : m s with ⟨r, t⟩
  rcases hm' : m' s' with ⟨r', t'⟩
  rw [hm, hm'] at h1 h2
  cases (show r = r' from h1)
  cases r <;> simp only [hm, hm'] <;> exact ⟨trivial, h2⟩

variable {Γ : TyEnv (TLS S)} {Φ : UserFns (TLS S) H F} {K : Formatting F} {cfg : Cfg} {vt : TyId → V}
  [HasDrop (TLS S) V] [HasClone (TLS S) V] [TableLaw V] [HasEqFx (TLS S) V] [HasHashFx (TLS S) H V] [HasFmtFx (TLS S) F V]
  {slots : DSlots V} {w : World (TLS S)} {vars : YVars} {o : Outside (TLS S)} {own sees : Nat → Nat → Prop}

/-- What thread `i` would have done alone, when it runs together with others. -/
structure Solo (Γ : TyEnv (TLS S)) (i : Nat) (sees : Nat → Prop) (x : DSlots V × World (TLS S)) (y : YVars × Outside (TLS S))
    (vars : YVars) (o : Outside (TLS S)) : Prop where
  holds : YHolds Γ x.1 x.2 y.1 y.2
  current : y.2.user.current = i
  store : o.user.store i = y.2.user.store i
  vars : ∀ k, sees k → vars k = y.1 k

omit [HasEqFx (TLS S) V] [HasHashFx (TLS S) H V] [HasFmtFx (TLS S) F V] in
theorem Solo.start (Y : YHolds Γ slots w vars o) (i : Nat) {seen : Nat → Prop} :
    Solo Γ i seen (slots, { w with user := w.user.switch i }) (vars, { o with user := o.user.switch i }) vars o := by
  have Y' := Y.setUser (w.user.switch i)
  refine ⟨?_, rfl, rfl, fun _ _ => rfl⟩
  rw [Y.user] at Y' ⊢
  exact Y'

/-- One turn of thread `i`: it sees what it would have seen alone, and the other threads do not notice. -/
theorem one_turn (L : RunsUserFns V Γ Φ) (htab : ∀ t, Tab Γ t (vt t)) (T : ThreadLocal Γ Φ) (A : Apart own sees)
    {i : Nat} {c : WOp (TLS S) V H F} (ht : c.IsTyped Γ) (hw : ∀ k ∈ c.writes, own i k) (hr : ∀ k ∈ c.reads, sees i k)
    (hc : ∀ L, c.Respects (LooksSame i L)) (Y : YHolds Γ slots w vars o) {x : DSlots V × World (TLS S)} {y : YVars × Outside (TLS S)}
    (D : Solo Γ i (sees i) x y vars o) (hd : c.Described Γ cfg y.1) :
    (∃ a x' slots' w' vars' o' y', (c.exec Γ cfg K vt).caught x = (.ok a, x') ∧
      (c.exec Γ cfg K vt).caught (slots, { w with user := w.user.switch i }) = (.ok a, (slots', w')) ∧
      YHolds Γ slots' w' vars' o' ∧ (c.step Γ cfg Φ K).caught y = (.ok a, y') ∧ Solo Γ i (sees i) x' y' vars' o' ∧
      (∀ j, j ≠ i → o'.user.store j = o.user.store j) ∧ ∀ k, ¬ own i k → vars' k = vars k) ∨
    (∀ a, ((c.exec Γ cfg K vt).caught x).1 ≠ .ok a) ∧
      ((c.exec Γ cfg K vt).caught (slots, { w with user := w.user.switch i })).1 = ((c.exec Γ cfg K vt).caught x).1 := by
  have h1 := whole_caught (whole_step (K := K) (cfg := cfg) (vt := vt) L htab D.holds ht hd)
  rcases hy : (c.step Γ cfg Φ K).caught y with ⟨r, y'⟩
  rw [show (x.1, x.2) = x from rfl, show (y.1, y.2) = y from rfl, hy] at h1
  have hd' : c.Described Γ cfg vars := by
    cases c with
    | view k p =>
      simp only [WOp.Described] at hd ⊢
      rw [D.vars k (A.own_sees _ _ (hw k (by simp [WOp.writes])))]
      exact hd
    | _ => trivial
  have Y' : YHolds Γ slots { w with user := w.user.switch i } vars { o with user := w.user.switch i } := Y.setUser _
  rw [Y.user] at Y'
  have h2 := whole_caught (whole_step (K := K) (cfg := cfg) (vt := vt) L htab Y' ht hd')
  have hs : SeesSame (own i) (sees i) vars (LooksSame i o.user.store) (y.2.leaked, o.leaked) (vars, { o with user := o.user.switch i }) y :=
    ⟨D.vars, fun _ _ => rfl, ⟨rfl, D.current, D.store, fun _ _ => rfl⟩, Nat.add_comm ..⟩
  obtain ⟨g1, g2⟩ := (T i o.user.store).whole (K := K) (cfg := cfg) (A.own_sees i) c hw hr (hc _) _ _ hs
  obtain ⟨g3, g4⟩ := caught_same g1 g2
  rcases hz : (c.step Γ cfg Φ K).caught (vars, { o with user := o.user.switch i }) with ⟨r', vars', o'⟩
  rw [hy, hz] at g3 g4
  cases (show r' = r from g3)
  rw [hz] at h2
  rw [← Y.user] at h2
  cases r with
  | ok b =>
    obtain ⟨a, x', e1, rfl, e2⟩ := h1
    obtain ⟨a', ⟨slots', w'⟩, e3, rfl, e4⟩ := h2
    obtain ⟨⟨z1, z2, z3, z4⟩, -⟩ := g4.user
    exact .inl ⟨_, x', slots', w', vars', o', y', e1, e3, e4, rfl, ⟨e2, z2, z3, g4.seen⟩, z4, g4.kept⟩
  | panic z => obtain ⟨_, _, _, h⟩ := h1; exact h.elim
  | ub =>
    rw [show _ = Res.ub from h1, show _ = Res.ub from h2]
    exact .inr ⟨fun _ h => (by cases h), rfl⟩
  | abort =>
    rw [show _ = Res.abort from h1, show _ = Res.abort from h2]
    exact .inr ⟨fun _ h => (by cases h), rfl⟩

/-- Threads that keep apart: under every schedule, if every thread alone would run to the end, then the whole program does, every
thread sees what it would have seen alone, and what it can see at the end is what would have been there. -/
theorem C80_threads (L : RunsUserFns V Γ Φ) (htab : ∀ t, Tab Γ t (vt t)) (T : ThreadLocal Γ Φ) (A : Apart own sees)
    (sched : List (Nat × WOp (TLS S) V H F)) (hk : Keeping own sees sched) (ht : ∀ x ∈ sched, x.2.IsTyped Γ)
    (Y : YHolds Γ slots w vars o)
    (hd : ∀ i, WOp.AllDescribed Γ cfg Φ K (ofThread i sched) (vars, { o with user := o.user.switch i }))
    {obs : Nat → List (Option (WObs H F))} {fin : Nat → DSlots V × World (TLS S)}
    (alone : ∀ i, WOp.runCaught Γ cfg K vt (ofThread i sched) (slots, { w with user := w.user.switch i }) = (.ok (obs i), fin i)) :
    ∃ all slots' w' vars' o', runThreads Γ cfg K vt sched (slots, w) = (.ok all, (slots', w')) ∧ YHolds Γ slots' w' vars' o' ∧
      (∀ i, ofThread i all = obs i ∧ w'.user.store i = (fin i).2.user.store i ∧
        ∃ vars'' o'', YHolds Γ (fin i).1 (fin i).2 vars'' o'' ∧ ∀ k, sees i k → vars' k = vars'' k) ∧
      ∀ k, (∀ i, ¬ own i k) → vars' k = vars k := by
  have solo : ∀ i, Solo Γ i (sees i) (slots, { w with user := w.user.switch i }) (vars, { o with user := o.user.switch i }) vars o :=
    fun i => Solo.start Y i
  generalize hx : (fun i => (slots, { w with user := w.user.switch i })) = x at *
  generalize hy : (fun i => (vars, { o with user := o.user.switch i })) = y at *
  replace alone : ∀ i, WOp.runCaught Γ cfg K vt (ofThread i sched) (x i) = (.ok (obs i), fin i) := by rw [← hx]; exact alone
  replace hd : ∀ i, WOp.AllDescribed Γ cfg Φ K (ofThread i sched) (y i) := by rw [← hy]; exact hd
  replace solo : ∀ i, Solo Γ i (sees i) (x i) (y i) vars o := by rw [← hx, ← hy]; exact solo
  clear hx hy
  induction sched generalizing slots w vars o x y obs with
  | nil =>
    refine ⟨[], slots, w, vars, o, rfl, Y, fun i => ?_, fun _ _ => rfl⟩
    have e : ((Res.ok [], x i) : Res (List (Option (WObs H F))) × _) = (.ok (obs i), fin i) := alone i
    have e1 : obs i = [] := (Res.ok.inj (Prod.mk.inj e).1).symm
    have e2 : fin i = x i := (Prod.mk.inj e).2.symm
    rw [e1, e2]
    exact ⟨rfl, by rw [(solo i).holds.user, Y.user, (solo i).store], _, _, (solo i).holds, (solo i).vars⟩
  | cons step rest ih =>
    obtain ⟨i, c⟩ := step
    obtain ⟨hw, hr, hc⟩ := hk (i, c) (List.mem_cons_self ..)
    have ai := alone i
    have di := hd i
    rw [ofThread_cons_same] at ai di
    simp only [WOp.runCaught] at ai
    rcases hs : (c.exec Γ cfg K vt).caught (x i) with ⟨r, x'⟩
    cases r with
    | panic z => rw [M.bind_panic hs] at ai; cases ai
    | ub => rw [M.bind_ub hs] at ai; cases ai
    | abort => rw [M.bind_abort hs] at ai; cases ai
    | ok a =>
      rw [M.bind_ok hs] at ai
      rcases hm : WOp.runCaught Γ cfg K vt (ofThread i rest) x' with ⟨r, x''⟩
      cases r with
      | panic z => rw [M.bind_panic hm] at ai; cases ai
      | ub => rw [M.bind_ub hm] at ai; cases ai
      | abort => rw [M.bind_abort hm] at ai; cases ai
      | ok as =>
        rw [M.bind_ok hm] at ai
        replace ai : ((Res.ok (a :: as), x'') : Res (List (Option (WObs H F))) × _) = (.ok (obs i), fin i) := ai
        have e1 : obs i = a :: as := (Res.ok.inj (Prod.mk.inj ai).1).symm
        have e2 : fin i = x'' := (Prod.mk.inj ai).2.symm
        obtain ⟨a', _, slots', w', vars', o', y', f0, f1, f2, f4, f5, f6, f7⟩ | ⟨h, -⟩ :=
          one_turn (K := K) (cfg := cfg) (vt := vt) L htab T A (ht _ (List.mem_cons_self ..)) hw hr hc Y (solo i) di.1
        rotate_left
        · exact absurd (congrArg Prod.fst hs) (h a)
        rw [hs] at f0
        cases f0
        obtain ⟨all, slots'', w'', vars'', o'', g1, g2, g3, g4⟩ := ih (slots := slots') (w := w') (vars := vars') (o := o')
          (fun z hz => hk z (List.mem_cons_of_mem _ hz)) (fun z hz => ht z (List.mem_cons_of_mem _ hz)) f2
          (obs := fun j => if j = i then as else obs j) (fun j => if j = i then x' else x j) (fun j => if j = i then y' else y j)
          (fun j => by
            by_cases hj : j = i
            · subst hj; simp only [if_pos]; rw [e2]; exact hm
            · simp only [if_neg hj]; rw [← alone j, ofThread_cons_other hj])
          (fun j => by
            by_cases hj : j = i
            · subst hj; simp only [if_pos]; exact di.2 _ _ f4
            · simp only [if_neg hj]; have := hd j; rw [ofThread_cons_other hj] at this; exact this)
          (fun j => by
            by_cases hj : j = i
            · subst hj; simp only [if_pos]; exact f5
            · simp only [if_neg hj]
              refine ⟨(solo j).holds, (solo j).current, by rw [f6 j hj, (solo j).store], fun k hkk => ?_⟩
              rw [f7 k fun ho => A.apart i j k (Ne.symm hj) ho hkk, (solo j).vars k hkk])
        refine ⟨(i, a) :: all, slots'', w'', vars'', o'', ?_, g2, fun j => ?_, fun k h => by rw [g4 k h, f7 k (h i)]⟩
        · simp only [runThreads]
          rw [M.bind_ok (show (M.modify _ : M (DSlots V × World (TLS S)) Unit) (slots, w) = (.ok (), (slots, { w with user := w.user.switch i })) from rfl),
            M.bind_ok f1, M.bind_ok g1]
          rfl
        · obtain ⟨h1, h2⟩ := g3 j
          refine ⟨?_, h2⟩
          by_cases hj : j = i
          · subst hj
            rw [ofThread_cons_same, h1, e1]; simp
          · rw [ofThread_cons_other hj, h1]; simp [hj]

/-- The whole program runs to the end exactly if every thread would alone. -/
theorem C80_ends_iff (L : RunsUserFns V Γ Φ) (htab : ∀ t, Tab Γ t (vt t)) (T : ThreadLocal Γ Φ) (A : Apart own sees)
    (sched : List (Nat × WOp (TLS S) V H F)) (hk : Keeping own sees sched) (ht : ∀ x ∈ sched, x.2.IsTyped Γ)
    (Y : YHolds Γ slots w vars o)
    (hd : ∀ i, WOp.AllDescribed Γ cfg Φ K (ofThread i sched) (vars, { o with user := o.user.switch i })) :
    (∃ all, (runThreads Γ cfg K vt sched (slots, w)).1 = .ok all) ↔
      ∀ i, ∃ obs, (WOp.runCaught Γ cfg K vt (ofThread i sched) (slots, { w with user := w.user.switch i })).1 = .ok obs := by
  constructor
  · rintro ⟨all, h⟩
    have solo : ∀ i, Solo Γ i (sees i) (slots, { w with user := w.user.switch i }) (vars, { o with user := o.user.switch i }) vars o :=
      fun i => Solo.start Y i
    generalize hx : (fun i => (slots, { w with user := w.user.switch i })) = x at *
    generalize hy : (fun i => (vars, { o with user := o.user.switch i })) = y at *
    have goal : ∀ i, ∃ obs, (WOp.runCaught Γ cfg K vt (ofThread i sched) (x i)).1 = .ok obs := by
      replace hd : ∀ i, WOp.AllDescribed Γ cfg Φ K (ofThread i sched) (y i) := by rw [← hy]; exact hd
      replace solo : ∀ i, Solo Γ i (sees i) (x i) (y i) vars o := by rw [← hx, ← hy]; exact solo
      clear hx hy
      induction sched generalizing slots w vars o x y all with
      | nil => exact fun i => ⟨[], rfl⟩
      | cons step rest ih =>
        obtain ⟨i, c⟩ := step
        obtain ⟨hw, hr, hc⟩ := hk (i, c) (List.mem_cons_self ..)
        have di := hd i
        rw [ofThread_cons_same] at di
        simp only [runThreads] at h
        rw [M.bind_ok (show (M.modify _ : M (DSlots V × World (TLS S)) Unit) (slots, w) = (.ok (), (slots, { w with user := w.user.switch i })) from rfl)] at h
        obtain ⟨a, x', slots', w', vars', o', y', f0, f1, f2, f4, f5, f6, f7⟩ | ⟨g1, g2⟩ :=
          one_turn (K := K) (cfg := cfg) (vt := vt) L htab T A (ht _ (List.mem_cons_self ..)) hw hr hc Y (solo i) di.1
        · rw [M.bind_ok f1] at h
          rcases hq : runThreads Γ cfg K vt rest (slots', w') with ⟨r, z⟩
          cases r with
          | panic z => rw [M.bind_panic hq] at h; cases h
          | ub => rw [M.bind_ub hq] at h; cases h
          | abort => rw [M.bind_abort hq] at h; cases h
          | ok all' =>
            have IH := ih (slots := slots') (w := w') (vars := vars') (o := o') (fun z hz => hk z (List.mem_cons_of_mem _ hz))
              (fun z hz => ht z (List.mem_cons_of_mem _ hz)) f2 all' (by rw [hq])
              (fun j => if j = i then x' else x j) (fun j => if j = i then y' else y j)
              (fun j => by
                by_cases hj : j = i
                · subst hj; simp only [if_pos]; exact di.2 _ _ f4
                · simp only [if_neg hj]; have := hd j; rw [ofThread_cons_other hj] at this; exact this)
              (fun j => by
                by_cases hj : j = i
                · subst hj; simp only [if_pos]; exact f5
                · simp only [if_neg hj]
                  refine ⟨(solo j).holds, (solo j).current, by rw [f6 j hj, (solo j).store], fun k hkk => ?_⟩
                  rw [f7 k fun ho => A.apart i j k (Ne.symm hj) ho hkk, (solo j).vars k hkk])
            intro j
            obtain ⟨obs, hobs⟩ := IH j
            by_cases hj : j = i
            · subst hj
              simp only [if_pos] at hobs
              rw [ofThread_cons_same]
              simp only [WOp.runCaught]
              rw [M.bind_ok f0]
              rcases hm : WOp.runCaught Γ cfg K vt (ofThread j rest) x' with ⟨r, x''⟩
              rw [hm] at hobs
              cases (show r = .ok obs from hobs)
              rw [M.bind_ok hm]
              exact ⟨_, rfl⟩
            · simp only [if_neg hj] at hobs
              rw [ofThread_cons_other hj]
              exact ⟨obs, hobs⟩
        · rcases hq : (c.exec Γ cfg K vt).caught (slots, { w with user := w.user.switch i }) with ⟨r, z⟩
          rw [hq] at g2
          cases r with
          | ok a => exact absurd g2.symm (g1 a)
          | panic z => rw [M.bind_panic hq] at h; cases h
          | ub => rw [M.bind_ub hq] at h; cases h
          | abort => rw [M.bind_abort hq] at h; cases h
    rw [← hx] at goal
    exact goal
  · intro h
    obtain ⟨obs, hobs⟩ := Classical.axiomOfChoice h
    obtain ⟨all, _, _, _, _, e, -⟩ := C80_threads (K := K) (cfg := cfg) (vt := vt) L htab T A sched hk ht Y hd (obs := obs)
      (fin := fun i => (WOp.runCaught Γ cfg K vt (ofThread i sched) (slots, { w with user := w.user.switch i })).2)
      (fun i => Prod.ext (hobs i) rfl)
    exact ⟨all, by rw [e]⟩

/-- What a thread sees does not depend on the schedule. -/
theorem C80_schedules (L : RunsUserFns V Γ Φ) (htab : ∀ t, Tab Γ t (vt t)) (T : ThreadLocal Γ Φ) (A : Apart own sees)
    (sched sched' : List (Nat × WOp (TLS S) V H F)) (same : ∀ i, ofThread i sched = ofThread i sched')
    (hk : Keeping own sees sched) (hk' : Keeping own sees sched') (ht : ∀ x ∈ sched, x.2.IsTyped Γ) (ht' : ∀ x ∈ sched', x.2.IsTyped Γ)
    (Y : YHolds Γ slots w vars o)
    (hd : ∀ i, WOp.AllDescribed Γ cfg Φ K (ofThread i sched) (vars, { o with user := o.user.switch i }))
    {all : List (Nat × Option (WObs H F))} (h : (runThreads Γ cfg K vt sched (slots, w)).1 = .ok all) :
    ∃ all', (runThreads Γ cfg K vt sched' (slots, w)).1 = .ok all' ∧ ∀ i, ofThread i all' = ofThread i all := by
  obtain ⟨obs, hobs⟩ := Classical.axiomOfChoice
    ((C80_ends_iff (K := K) (cfg := cfg) (vt := vt) L htab T A sched hk ht Y hd).1 ⟨all, h⟩)
  obtain ⟨all1, _, _, _, _, e1, -, g1, -⟩ := C80_threads (K := K) (cfg := cfg) (vt := vt) L htab T A sched hk ht Y hd (obs := obs)
    (fin := fun i => (WOp.runCaught Γ cfg K vt (ofThread i sched) (slots, { w with user := w.user.switch i })).2)
    (fun i => Prod.ext (hobs i) rfl)
  obtain ⟨all2, _, _, _, _, e2, -, g2, -⟩ := C80_threads (K := K) (cfg := cfg) (vt := vt) L htab T A sched' hk' ht' Y
    (fun i => same i ▸ hd i) (obs := obs)
    (fin := fun i => (WOp.runCaught Γ cfg K vt (ofThread i sched') (slots, { w with user := w.user.switch i })).2)
    (fun i => by rw [← same i]; exact Prod.ext (hobs i) rfl)
  rw [e1] at h
  cases h
  exact ⟨all2, by rw [e2], fun i => by rw [(g1 i).1, (g2 i).1]⟩

/-! ### Thread-local user code -/

theorem inThread_respects {m : M S α} {i : Nat} {L : Nat → S} : Respects (LooksSame i L) (inThread m) := by
  rintro x y ⟨h1, h2, h3, h4⟩
  simp only [inThread, M.zoom_run, h1, h2, h3]
  refine ⟨trivial, rfl, rfl, by simp, fun j hj => ?_⟩
  simp only [if_neg hj]
  exact h4 j hj

theorem besideThread_respects {X : Type} {m : M (X × S) α} {i : Nat} {L : Nat → S} : Respects (Beside (LooksSame i L)) (besideThread m) := by
  rintro ⟨a, x⟩ ⟨b, y⟩ ⟨h0, h1, h2, h3, h4⟩
  cases (show a = b from h0)
  simp only at h1 h2 h3 h4
  simp only [besideThread, M.zoom_run, h1, h2, h3]
  refine ⟨trivial, rfl, rfl, rfl, by simp, fun j hj => ?_⟩
  simp only [if_neg hj]
  exact h4 j hj

/-- Any user code is thread-local if every thread has its own copy of the state. It does what it would do with the copy of the
thread that runs it. -/
theorem C80_thread_local (Γ : TyEnv S) (Φ : UserFns S H F) : ThreadLocal Γ.perThread Φ.perThread ∧
    ∀ t b x, (Γ.perThread.drop t b x).1 = (Γ.drop t b (x.store x.current)).1 ∧ (Γ.perThread.drop t b x).2.current = x.current ∧
      ∀ j, (Γ.perThread.drop t b x).2.store j = if j = x.current then (Γ.drop t b (x.store x.current)).2 else x.store j :=
  ⟨fun _ _ => ⟨fun _ _ => inThread_respects, fun _ _ => inThread_respects, fun _ _ => besideThread_respects,
    fun _ _ _ => inThread_respects, fun _ _ => besideThread_respects, fun _ _ => besideThread_respects⟩, fun _ _ _ => ⟨rfl, rfl, fun _ => rfl⟩⟩

omit [TableLaw V] in
theorem AllDescribed_of_noView {U : Type} {Γ : TyEnv U} {Φ : UserFns U H F} {ops : List (WOp U V H F)}
    (h : ∀ c ∈ ops, ∀ k p, c ≠ .view k p) (s : YVars × Outside U) : WOp.AllDescribed Γ cfg Φ K ops s := by
  induction ops generalizing s with
  | nil => trivial
  | cons c ops ih =>
    refine ⟨?_, fun _ s' _ => ih (fun c hc => h c (List.mem_cons_of_mem _ hc)) s'⟩
    cases c with
    | view k p => exact absurd rfl (h _ (List.mem_cons_self ..) k p)
    | _ => trivial

/-! ### Examples -/

namespace Ex

/-- A table with all entries, for code with thread-local state. -/
structure ThreadTable where
  base : CloneVTable (TLS Log)
  eqx : EqTableFx (TLS Log)
  hashx : HashTableFx (TLS Log) (List Bytes)
  fmtx : FmtTableFx (TLS Log) Text

def tenv : TyEnv (TLS Log) := env.perThread
def tfns : UserFns (TLS Log) (List Bytes) Text := fns.perThread

instance : HasDrop (TLS Log) ThreadTable := ⟨fun v => HasDrop.dropFn v.base⟩
instance : HasClone (TLS Log) ThreadTable := ⟨fun v => v.base.clone, fun v => v.base.cloneFrom, fun v => v.base.cloneIntoRaw⟩
instance : HasEqFx (TLS Log) ThreadTable := ⟨fun v => HasEqFx.eqFn v.eqx⟩
instance : HasHashFx (TLS Log) (List Bytes) ThreadTable := ⟨fun v => HasHashFx.hashFn v.hashx⟩
instance : HasFmtFx (TLS Log) Text ThreadTable := ⟨fun v => HasFmtFx.fmtFn v.fmtx⟩
instance : TableLaw ThreadTable := ⟨fun t v =>
  v.eqx = EqTableFx.build tenv tfns t ∧ v.hashx = HashTableFx.build tenv tfns t ∧ v.fmtx = FmtTableFx.build tenv tfns t⟩

/-- The table of a type. -/
def threadVT (t : TyId) : ThreadTable :=
  ⟨CloneVTable.build tenv t, EqTableFx.build tenv tfns t, HashTableFx.build tenv tfns t, FmtTableFx.build tenv tfns t⟩

theorem threadTab (t : TyId) : Tab tenv t (threadVT t) := ⟨rfl, rfl, rfl, rfl, rfl, rfl, rfl⟩

theorem threadRuns : RunsUserFns ThreadTable tenv tfns where
  eq t v h := by
    show HasEqFx.eqFn v.eqx = _
    rw [h.1]; rfl
  hash t v h := by
    show HasHashFx.hashFn v.hashx = _
    rw [h.2.1]; rfl
  fmt t v h := by
    show HasFmtFx.fmtFn v.fmtx = _
    rw [h.2.2]; rfl

/-- Before the threads start, a container is made that both of them read. -/
def sharedProg : List (WOp (TLS Log) ThreadTable (List Bytes) Text) := [.op (.fromVec 2 7 [g1, badClone])]
def tls : TLS Log := ⟨0, fun _ => []⟩
def threadsImpl : DSlots ThreadTable × World (TLS Log) :=
  (WOp.runCaught tenv ⟨true⟩ Text.formatting threadVT sharedProg ((fun _ => none), ⟨emptyHeap, tls⟩)).2
def threadsSpec : YVars × Outside (TLS Log) :=
  (WOp.stepsCaught tenv ⟨true⟩ tfns Text.formatting sharedProg ((fun _ => none), ⟨0, tls⟩)).2

theorem threads_start : YHolds tenv threadsImpl.1 threadsImpl.2 threadsSpec.1 threadsSpec.2 := by
  have h := C79_program (cfg := ⟨true⟩) (K := Text.formatting) (vt := threadVT) threadRuns threadTab sharedProg
    (C71_start emptyHeap tls (fun _ _ => rfl) (fun _ => rfl))
    (by simp only [sharedProg, List.forall_mem_cons]; exact ⟨⟨by decide, by decide⟩, (fun _ h => by cases h)⟩) ⟨trivial, fun _ _ _ => trivial⟩
  exact h.2

/-- Thread 0 clones the shared container, which panics, and copies an element of it; thread 1 compares it with a container of its own
and prints it. -/
def turns : List (Nat × WOp (TLS Log) ThreadTable (List Bytes) Text) :=
  [(0, .op (.clone 2 0)), (1, .op (.fromVec 1 7 [g1, g2])), (1, .eq 1 2), (0, .op (.cloneValue 2 0 0)), (0, .eqAt 2 1 0 0),
    (1, .fmt 2 ⟨[], false, []⟩), (0, .op (.drop 0)), (1, .op (.clear 1))]
def turns' : List (Nat × WOp (TLS Log) ThreadTable (List Bytes) Text) :=
  [(1, .op (.fromVec 1 7 [g1, g2])), (0, .op (.clone 2 0)), (0, .op (.cloneValue 2 0 0)), (1, .eq 1 2), (1, .fmt 2 ⟨[], false, []⟩),
    (1, .op (.clear 1)), (0, .eqAt 2 1 0 0), (0, .op (.drop 0))]

def owns (i k : Nat) : Prop := i = k ∧ k < 2
def sights (i k : Nat) : Prop := owns i k ∨ k = 2

theorem turns_apart : Apart owns sights where
  own_sees _ _ h := .inl h
  apart i j k hij := by
    rintro ⟨rfl, h⟩ (⟨rfl, -⟩ | rfl)
    · exact hij rfl
    · omega

theorem turns_keeping : Keeping owns sights turns := by
  simp only [Keeping, turns, List.forall_mem_cons, WOp.writes, WOp.reads, DOp.writes, DOp.reads, owns, sights]
  simp [WOp.Respects]
theorem turns'_keeping : Keeping owns sights turns' := by
  simp only [Keeping, turns', List.forall_mem_cons, WOp.writes, WOp.reads, DOp.writes, DOp.reads, owns, sights]
  simp [WOp.Respects]
theorem turns_typed : ∀ x ∈ turns, x.2.IsTyped tenv := by
  simp only [turns, List.forall_mem_cons]
  exact ⟨trivial, ⟨by decide, by decide⟩, trivial, trivial, trivial, trivial, trivial, trivial, (fun _ h => by cases h)⟩
theorem turns'_typed : ∀ x ∈ turns', x.2.IsTyped tenv := by
  simp only [turns', List.forall_mem_cons]
  exact ⟨⟨by decide, by decide⟩, trivial, trivial, trivial, trivial, trivial, trivial, trivial, (fun _ h => by cases h)⟩
theorem turns_noView (i : Nat) : ∀ c ∈ ofThread i turns, ∀ k p, c ≠ .view k p := by
  intro c hc k p e
  subst e
  obtain ⟨x, hx, e⟩ := List.mem_map.1 hc
  have := (List.mem_filter.1 hx).1
  simp only [turns, List.mem_cons, List.not_mem_nil, or_false] at this
  rcases this with rfl | rfl | rfl | rfl | rfl | rfl | rfl | rfl <;> cases e
theorem turns_described (i : Nat) (s : YVars × Outside (TLS Log)) :
    WOp.AllDescribed tenv ⟨true⟩ tfns Text.formatting (ofThread i turns) s :=
  AllDescribed_of_noView (turns_noView i) s

/-- What the machine says thread `i` sees alone. -/
def seenAlone (i : Nat) : Option (List (Option Shown)) :=
  match (WOp.stepsCaught tenv ⟨true⟩ tfns Text.formatting (ofThread i turns) (threadsSpec.1, { threadsSpec.2 with user := threadsSpec.2.user.switch i })).1 with
  | .ok os => some (os.map (·.map shown))
  | _ => none

theorem threadSeen0 : seenAlone 0 = some [none, some (.obs .done), none, some (.obs .done)] := by decide +kernel
theorem threadSeen1 : seenAlone 1 = some [some (.obs .done), some (.bool false), some (.text "[x\ny, x\ny]".toList), some (.obs .done)] := by
  decide +kernel
theorem threadSeen2 (i : Nat) (h : 2 ≤ i) : ofThread i turns = [] := by
  have h0 : ¬ 0 = i := by omega
  have h1 : ¬ 1 = i := by omega
  simp [ofThread, turns, h0, h1]

theorem turns_alone (i : Nat) : ∃ obs, (WOp.runCaught tenv ⟨true⟩ Text.formatting threadVT (ofThread i turns)
    (threadsImpl.1, { threadsImpl.2 with user := threadsImpl.2.user.switch i })).1 = .ok obs ∧ seenAlone i = some (obs.map (·.map shown)) := by
  have hd := turns_described i (threadsSpec.1, { threadsSpec.2 with user := threadsSpec.2.user.switch i })
  have h := C79_program (cfg := ⟨true⟩) (K := Text.formatting) (vt := threadVT) threadRuns threadTab (ofThread i turns)
    (Solo.start threads_start i (seen := fun _ => True)).holds
    (fun c hc => by
      obtain ⟨x, hx, rfl⟩ := List.mem_map.1 hc
      exact turns_typed x (List.mem_filter.1 hx).1) hd
  have ok : ∃ l, seenAlone i = some l := by
    match i with
    | 0 => exact ⟨_, threadSeen0⟩
    | 1 => exact ⟨_, threadSeen1⟩
    | n + 2 => exact ⟨[], by unfold seenAlone; rw [threadSeen2 _ (by omega)]; rfl⟩
  obtain ⟨l, hl⟩ := ok
  unfold seenAlone at hl ⊢
  rcases hq : WOp.stepsCaught tenv ⟨true⟩ tfns Text.formatting (ofThread i turns)
    (threadsSpec.1, { threadsSpec.2 with user := threadsSpec.2.user.switch i }) with ⟨r, s⟩
  rw [hq] at h hl
  cases r with
  | ok os => exact ⟨os, h.1, rfl⟩
  | _ => cases hl

theorem turns_same (i : Nat) : ofThread i turns = ofThread i turns' := by
  rcases i with _ | _ | i
  · rfl
  · rfl
  · simp [ofThread, turns, turns']

/-- All hypotheses hold together; the program runs to the end under this schedule, and every thread sees what it sees alone. -/
theorem turns_run : ∃ all, (runThreads tenv ⟨true⟩ Text.formatting threadVT turns threadsImpl).1 = .ok all ∧
    (ofThread 0 all).map (·.map shown) = [none, some (.obs .done), none, some (.obs .done)] ∧
    (ofThread 1 all).map (·.map shown) = [some (.obs .done), some (.bool false), some (.text "[x\ny, x\ny]".toList), some (.obs .done)] := by
  obtain ⟨obs, h⟩ := Classical.axiomOfChoice turns_alone
  obtain ⟨all, _, _, _, _, e, -, g, -⟩ := C80_threads (K := Text.formatting) (cfg := ⟨true⟩) (vt := threadVT) threadRuns threadTab
    (C80_thread_local env fns).1 turns_apart turns turns_keeping turns_typed threads_start (fun i => turns_described i _) (obs := obs)
    (fin := fun i => (WOp.runCaught tenv ⟨true⟩ Text.formatting threadVT (ofThread i turns)
      (threadsImpl.1, { threadsImpl.2 with user := threadsImpl.2.user.switch i })).2) (fun i => Prod.ext (h i).1 rfl)
  refine ⟨all, congrArg Prod.fst e, ?_, ?_⟩
  · have := (h 0).2
    rw [threadSeen0] at this
    rw [(g 0).1]; exact (Option.some.inj this).symm
  · have := (h 1).2
    rw [threadSeen1] at this
    rw [(g 1).1]; exact (Option.some.inj this).symm

example := C80_ends_iff (K := Text.formatting) (cfg := ⟨true⟩) (vt := threadVT) threadRuns threadTab (C80_thread_local env fns).1 turns_apart
  turns turns_keeping turns_typed threads_start (fun i => turns_described i _)
example := C80_schedules (K := Text.formatting) (cfg := ⟨true⟩) (vt := threadVT) threadRuns threadTab (C80_thread_local env fns).1 turns_apart
  turns turns' turns_same turns_keeping turns'_keeping turns_typed turns'_typed threads_start (fun i => turns_described i _)
  (Classical.choose_spec turns_run).1

end Ex
end Dync
