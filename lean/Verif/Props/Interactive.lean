import Verif.InteractiveSpec
import Verif.Props.CopyWhole
import Verif.Props.Threads
/-!
# C83: programs that decide what to do next

The claims of C79, C80 and C82 for programs and threads that choose every step from what they have seen.
-/
namespace Dync

section Containers
variable {U V H F : Type} {Γ : TyEnv U} {Φ : UserFns U H F} {K : Formatting F} {cfg : Cfg} {vt : TyId → V}
  [HasDrop U V] [HasClone U V] [TableLaw V] [HasEqFx U V] [HasHashFx U H V] [HasFmtFx U F V]
  {slots : DSlots V} {w : World U} {vars : YVars} {o : Outside U}

/-- The first `n` steps of every program do what the machine says, for every `n`. -/
theorem C83_program (L : RunsUserFns V Γ Φ) (htab : ∀ t, Tab Γ t (vt t)) (p : Chooser (WOp U V H F) (WObs H F))
    (ht : ∀ seen c, p seen = some c → c.IsTyped Γ) (n : Nat) : ∀ {seen : List (Option (WObs H F))} {slots : DSlots V}
    {w : World U} {vars : YVars} {o : Outside U}, YHolds Γ slots w vars o → WOp.PlayDescribed Γ cfg Φ K p n seen (vars, o) →
    EndsAs Γ (WOp.play Γ cfg K vt p n seen (slots, w)) (WOp.plays Γ cfg Φ K p n seen (vars, o)) := by
  induction n with
  | zero => intro seen slots w vars o Y _; exact ⟨rfl, Y⟩
  | succ n ih =>
    intro seen slots w vars o Y hd
    cases hp : p seen with
    | none => simp only [WOp.play, WOp.plays, hp]; exact ⟨rfl, Y⟩
    | some c =>
      obtain ⟨hd1, hd2⟩ := hd c hp
      have hc := whole_caught (whole_step (K := K) (cfg := cfg) (vt := vt) L htab Y (ht _ _ hp) hd1)
      rcases hq : (c.step Γ cfg Φ K).caught (vars, o) with ⟨r, vars', o'⟩
      rw [hq] at hc
      simp only [WOp.play, WOp.plays, hp]
      cases r with
      | ok b =>
        obtain ⟨a, ⟨slots', w'⟩, h1, rfl, h2⟩ := hc
        rw [M.bind_ok h1, M.bind_ok hq]
        exact ih h2 (hd2 _ _ hq)
      | panic y => exact hc.elim fun _ h => h.elim fun _ h => h.2.elim
      | ub =>
        rcases hm : (c.exec Γ cfg K vt).caught (slots, w) with ⟨r', s'⟩
        rw [hm] at hc
        cases (show r' = .ub from hc)
        rw [M.bind_ub hm, M.bind_ub hq]
        rfl
      | abort =>
        rcases hm : (c.exec Γ cfg K vt).caught (slots, w) with ⟨r', s'⟩
        rw [hm] at hc
        cases (show r' = .abort from hc)
        rw [M.bind_abort hm, M.bind_abort hq]
        rfl

/-- Programs that only take safe steps never reach undefined behaviour, however long they run. -/
theorem C83_defined (L : RunsUserFns V Γ Φ) (htab : ∀ t, Tab Γ t (vt t)) (US : SafeUser Γ) (P : SafeFns Φ K)
    (p : Chooser (WOp U V H F) (WObs H F)) (ht : ∀ seen c, p seen = some c → c.IsTyped Γ) (hs : ∀ seen c, p seen = some c → c.Safe)
    (n : Nat) (Y : YHolds Γ slots w vars o) (hd : WOp.PlayDescribed Γ cfg Φ K p n [] (vars, o)) :
    (WOp.play Γ cfg K vt p n [] (slots, w)).1 ≠ .ub := by
  have h := C83_program (K := K) L htab p ht n Y hd
  have hd' : ∀ n seen, Defined (WOp.plays Γ cfg Φ K p n seen) := by
    intro n
    induction n with
    | zero => intro seen; unfold WOp.plays; exact Defined.pure _
    | succ n ih =>
      intro seen
      cases hp : p seen with
      | none => simp only [WOp.plays, hp]; exact Defined.pure _
      | some c =>
        simp only [WOp.plays, hp]
        refine Defined.bind (fun s => ?_) fun o => ih _
        have h := P.step US (cfg := cfg) c (hs _ _ hp) s
        unfold M.caught
        rcases hq : c.step Γ cfg Φ K s with ⟨r, s'⟩
        rw [hq] at h
        cases r with
        | ub => exact absurd rfl h
        | _ => simp only [hq]; intro h; cases h
  have hd'' := hd' n [] (vars, o)
  rcases hq : WOp.plays Γ cfg Φ K p n [] (vars, o) with ⟨r, vars', o'⟩
  rw [hq] at h hd''
  intro e
  cases r with
  | ok b => rw [h.1] at e; cases e
  | panic y => obtain ⟨z, hz⟩ := h.1; rw [hz] at e; cases e
  | ub => exact hd'' rfl
  | abort => have h : _ = Res.abort := h; rw [h] at e; cases e

end Containers

section Copies
variable {U V : Type} {Γ : TyEnv U} {cfg : Cfg} {vt : V} {slots : Slots V} {w : World U} {s : XState}

/-- The same for programs over `VecCopy`. -/
theorem C83_copy_program (p : Chooser POp (List Read)) (ht : ∀ seen c, p seen = some c → c.Accepted Γ) (n : Nat) :
    ∀ {seen : List (Option (List Read))} {s : XState} {slots : Slots V} {w : World U}, s.Holds Γ slots w.heap →
    POp.PlayDescribed Γ cfg p n seen s →
    match POp.plays Γ cfg p n seen s with
    | none => (POp.play Γ cfg vt p n seen (slots, w)).1 = .ub
    | some (os, s') => ∃ slots' h', POp.play Γ cfg vt p n seen (slots, w) = (.ok os, (slots', { w with heap := h' })) ∧ s'.Holds Γ slots' h' := by
  induction n with
  | zero => intro seen s slots w H _; exact ⟨slots, w.heap, rfl, H⟩
  | succ n ih =>
    intro seen s slots w H hd
    cases hp : p seen with
    | none => simp only [POp.play, POp.plays, hp]; exact ⟨slots, w.heap, rfl, H⟩
    | some c =>
      obtain ⟨hd1, hd2⟩ := hd c hp
      have hs := C82_step (cfg := cfg) (vt := vt) H (ht _ _ hp) hd1
      simp only [POp.play, POp.plays, hp]
      rcases hst : c.step Γ cfg s with ⟨e, s1⟩
      rw [hst] at hs hd2
      cases e with
      | ub =>
        rcases he : c.exec Γ cfg vt (slots, w) with ⟨r, st⟩
        rw [he] at hs
        have hs : r = .ub := hs
        subst hs
        have : (c.exec Γ cfg vt).caught (slots, w) = (.ub, st) := by simp only [M.caught, he]
        rw [M.bind_ub this]
      | ok rs =>
        obtain ⟨slots1, h1, e1, H1⟩ := hs
        have : (c.exec Γ cfg vt).caught (slots, w) = (.ok (some rs), (slots1, { w with heap := h1 })) := by simp only [M.caught, e1]
        rw [M.bind_ok this]
        exact ih (w := { w with heap := h1 }) H1 hd2
      | panic =>
        obtain ⟨y, slots1, h1, e1, H1⟩ := hs
        have : (c.exec Γ cfg vt).caught (slots, w) = (.ok none, (slots1, { w with heap := h1 })) := by simp only [M.caught, e1]
        rw [M.bind_ok this]
        exact ih (w := { w with heap := h1 }) H1 hd2

end Copies

section Together
variable {S V H F : Type} {Γ : TyEnv (TLS S)} {Φ : UserFns (TLS S) H F} {K : Formatting F} {cfg : Cfg} {vt : TyId → V}
  [HasDrop (TLS S) V] [HasClone (TLS S) V] [TableLaw V] [HasEqFx (TLS S) V] [HasHashFx (TLS S) H V] [HasFmtFx (TLS S) F V]
  {slots : DSlots V} {w : World (TLS S)} {vars : YVars} {o : Outside (TLS S)} {own sees : Nat → Nat → Prop}

/-- Threads whose programs keep to the rules of C80. -/
structure KeepingPrograms (Γ : TyEnv (TLS S)) (own sees : Nat → Nat → Prop) (p : Nat → Chooser (WOp (TLS S) V H F) (WObs H F)) : Prop where
  typed : ∀ i seen c, p i seen = some c → c.IsTyped Γ
  writes : ∀ i seen c, p i seen = some c → ∀ k ∈ c.writes, own i k
  reads : ∀ i seen c, p i seen = some c → ∀ k ∈ c.reads, sees i k
  threadLocal : ∀ i seen c, p i seen = some c → ∀ L, c.Respects (LooksSame i L)

omit [TableLaw V] in
theorem play_ended {p : Chooser (WOp (TLS S) V H F) (WObs H F)} {seen : List (Option (WObs H F))} (h : p seen = none) (n : Nat) :
    WOp.play Γ cfg K vt p n seen = pure seen := by
  cases n with
  | zero => rfl
  | succ n => simp only [WOp.play, h]

/-- Threads that keep apart and decide what to do from what they have seen: under every schedule every thread sees exactly what it
would see alone in as many turns, and does what it would do alone. -/
theorem C83_threads (L : RunsUserFns V Γ Φ) (htab : ∀ t, Tab Γ t (vt t)) (T : ThreadLocal Γ Φ) (A : Apart own sees)
    (p : Nat → Chooser (WOp (TLS S) V H F) (WObs H F)) (hk : KeepingPrograms Γ own sees p) (turns : List Nat)
    (Y : YHolds Γ slots w vars o)
    (hd : ∀ i, WOp.PlayDescribed Γ cfg Φ K (p i) (turns.count i) [] (vars, { o with user := o.user.switch i }))
    {obs : Nat → List (Option (WObs H F))} {fin : Nat → DSlots V × World (TLS S)}
    (alone : ∀ i, WOp.play Γ cfg K vt (p i) (turns.count i) [] (slots, { w with user := w.user.switch i }) = (.ok (obs i), fin i)) :
    ∃ slots' w' vars' o', playThreads Γ cfg K vt p turns (fun _ => []) (slots, w) = (.ok obs, (slots', w')) ∧ YHolds Γ slots' w' vars' o' ∧
      (∀ i, w'.user.store i = (fin i).2.user.store i ∧
        ∃ vars'' o'', YHolds Γ (fin i).1 (fin i).2 vars'' o'' ∧ ∀ k, sees i k → vars' k = vars'' k) ∧
      ∀ k, (∀ i, ¬ own i k) → vars' k = vars k := by
  have solo : ∀ i, Solo Γ i (sees i) (slots, { w with user := w.user.switch i }) (vars, { o with user := o.user.switch i }) vars o :=
    fun i => Solo.start Y i
  generalize hx : (fun i => (slots, { w with user := w.user.switch i })) = x at *
  generalize hy : (fun i => (vars, { o with user := o.user.switch i })) = y at *
  generalize hz : (fun _ => [] : Nat → List (Option (WObs H F))) = seen at *
  replace alone : ∀ i, WOp.play Γ cfg K vt (p i) (turns.count i) (seen i) (x i) = (.ok (obs i), fin i) := by rw [← hx, ← hz]; exact alone
  replace hd : ∀ i, WOp.PlayDescribed Γ cfg Φ K (p i) (turns.count i) (seen i) (y i) := by rw [← hy, ← hz]; exact hd
  replace solo : ∀ i, Solo Γ i (sees i) (x i) (y i) vars o := by rw [← hx, ← hy]; exact solo
  clear hx hy hz
  induction turns generalizing slots w vars o x y seen with
  | nil =>
    have e : ∀ i, obs i = seen i ∧ fin i = x i := fun i => by
      have e : ((Res.ok (seen i), x i) : Res (List (Option (WObs H F))) × _) = (.ok (obs i), fin i) := alone i
      exact ⟨(Res.ok.inj (Prod.mk.inj e).1).symm, (Prod.mk.inj e).2.symm⟩
    have e1 : obs = seen := funext fun i => (e i).1
    subst e1
    refine ⟨slots, w, vars, o, rfl, Y, fun i => ?_, fun _ _ => rfl⟩
    rw [(e i).2]
    exact ⟨by rw [(solo i).holds.user, Y.user, (solo i).store], _, _, (solo i).holds, (solo i).vars⟩
  | cons i rest ih =>
    have ai := alone i
    have di := hd i
    rw [List.count_cons_self] at ai di
    cases hp : p i (seen i) with
    | none =>
      obtain ⟨slots', w', vars', o', g⟩ := ih Y x y seen
        (fun j => by
          by_cases hj : j = i
          · subst hj; rw [play_ended hp] at ai ⊢; exact ai
          · rw [← alone j, List.count_cons_of_ne (Ne.symm hj)])
        (fun j => by
          by_cases hj : j = i
          · subst hj
            cases hn : rest.count j with
            | zero => trivial
            | succ n => intro c hc; rw [hp] at hc; cases hc
          · have := hd j; rw [List.count_cons_of_ne (Ne.symm hj)] at this; exact this)
        solo
      exact ⟨slots', w', vars', o', by simp only [playThreads, hp]; exact g.1, g.2⟩
    | some c =>
      obtain ⟨di1, di2⟩ := di c hp
      simp only [WOp.play, hp] at ai
      rcases hs : (c.exec Γ cfg K vt).caught (x i) with ⟨r, x'⟩
      cases r with
      | panic z => rw [M.bind_panic hs] at ai; cases ai
      | ub => rw [M.bind_ub hs] at ai; cases ai
      | abort => rw [M.bind_abort hs] at ai; cases ai
      | ok a =>
        rw [M.bind_ok hs] at ai
        obtain ⟨a', _, slots', w', vars', o', y', f0, f1, f2, f4, f5, f6, f7⟩ | ⟨h, -⟩ :=
          one_turn (K := K) (cfg := cfg) (vt := vt) L htab T A (hk.typed _ _ _ hp) (hk.writes _ _ _ hp) (hk.reads _ _ _ hp)
            (hk.threadLocal _ _ _ hp) Y (solo i) di1
        rotate_left
        · exact absurd (congrArg Prod.fst hs) (h a)
        rw [hs] at f0
        cases f0
        obtain ⟨slots'', w'', vars'', o'', g1, g2, g3, g4⟩ := ih (slots := slots') (w := w') (vars := vars') (o := o') f2
          (fun j => if j = i then x' else x j) (fun j => if j = i then y' else y j) (fun j => if j = i then seen j ++ [a] else seen j)
          (fun j => by
            by_cases hj : j = i
            · subst hj; simp only [if_pos]; exact ai
            · simp only [if_neg hj]; rw [← alone j, List.count_cons_of_ne (Ne.symm hj)])
          (fun j => by
            by_cases hj : j = i
            · subst hj; simp only [if_pos]; exact di2 _ _ f4
            · simp only [if_neg hj]; have := hd j; rw [List.count_cons_of_ne (Ne.symm hj)] at this; exact this)
          (fun j => by
            by_cases hj : j = i
            · subst hj; simp only [if_pos]; exact f5
            · simp only [if_neg hj]
              refine ⟨(solo j).holds, (solo j).current, by rw [f6 j hj, (solo j).store], fun k hkk => ?_⟩
              rw [f7 k fun ho => A.apart i j k (Ne.symm hj) ho hkk, (solo j).vars k hkk])
        refine ⟨slots'', w'', vars'', o'', ?_, g2, g3, fun k h => by rw [g4 k h, f7 k (h i)]⟩
        simp only [playThreads, hp]
        rw [M.bind_ok (show (M.modify _ : M (DSlots V × World (TLS S)) Unit) (slots, w) = (.ok (), (slots, { w with user := w.user.switch i })) from rfl),
          M.bind_ok f1]
        exact g1

/-- A schedule runs to the end exactly if every thread would, alone, in as many turns. -/
theorem C83_ends_iff (L : RunsUserFns V Γ Φ) (htab : ∀ t, Tab Γ t (vt t)) (T : ThreadLocal Γ Φ) (A : Apart own sees)
    (p : Nat → Chooser (WOp (TLS S) V H F) (WObs H F)) (hk : KeepingPrograms Γ own sees p) (turns : List Nat)
    (Y : YHolds Γ slots w vars o)
    (hd : ∀ i, WOp.PlayDescribed Γ cfg Φ K (p i) (turns.count i) [] (vars, { o with user := o.user.switch i })) :
    (∃ obs, (playThreads Γ cfg K vt p turns (fun _ => []) (slots, w)).1 = .ok obs) ↔
      ∀ i, ∃ obs, (WOp.play Γ cfg K vt (p i) (turns.count i) [] (slots, { w with user := w.user.switch i })).1 = .ok obs := by
  constructor
  · rintro ⟨obs, h⟩
    have solo : ∀ i, Solo Γ i (sees i) (slots, { w with user := w.user.switch i }) (vars, { o with user := o.user.switch i }) vars o :=
      fun i => Solo.start Y i
    generalize hx : (fun i => (slots, { w with user := w.user.switch i })) = x at *
    generalize hy : (fun i => (vars, { o with user := o.user.switch i })) = y at *
    generalize hz : (fun _ => [] : Nat → List (Option (WObs H F))) = seen at *
    have goal : ∀ i, ∃ obs, (WOp.play Γ cfg K vt (p i) (turns.count i) (seen i) (x i)).1 = .ok obs := by
      replace hd : ∀ i, WOp.PlayDescribed Γ cfg Φ K (p i) (turns.count i) (seen i) (y i) := by rw [← hy, ← hz]; exact hd
      replace solo : ∀ i, Solo Γ i (sees i) (x i) (y i) vars o := by rw [← hx, ← hy]; exact solo
      clear hx hy hz
      induction turns generalizing slots w vars o x y seen with
      | nil => exact fun i => ⟨seen i, rfl⟩
      | cons i rest ih =>
        have di := hd i
        rw [List.count_cons_self] at di
        cases hp : p i (seen i) with
        | none =>
          simp only [playThreads, hp] at h
          have IH := ih Y x y seen h
            (fun j => by
              by_cases hj : j = i
              · subst hj
                cases hn : rest.count j with
                | zero => trivial
                | succ n => intro c hc; rw [hp] at hc; cases hc
              · have := hd j; rw [List.count_cons_of_ne (Ne.symm hj)] at this; exact this)
            solo
          intro j
          by_cases hj : j = i
          · subst hj; rw [play_ended hp]; exact ⟨_, rfl⟩
          · rw [List.count_cons_of_ne (Ne.symm hj)]; exact IH j
        | some c =>
          obtain ⟨di1, di2⟩ := di c hp
          simp only [playThreads, hp] at h
          rw [M.bind_ok (show (M.modify _ : M (DSlots V × World (TLS S)) Unit) (slots, w) = (.ok (), (slots, { w with user := w.user.switch i })) from rfl)] at h
          obtain ⟨a, x', slots', w', vars', o', y', f0, f1, f2, f4, f5, f6, f7⟩ | ⟨g1, g2⟩ :=
            one_turn (K := K) (cfg := cfg) (vt := vt) L htab T A (hk.typed _ _ _ hp) (hk.writes _ _ _ hp) (hk.reads _ _ _ hp)
              (hk.threadLocal _ _ _ hp) Y (solo i) di1
          · rw [M.bind_ok f1] at h
            have IH := ih (slots := slots') (w := w') (vars := vars') (o := o') f2
              (fun j => if j = i then x' else x j) (fun j => if j = i then y' else y j) (fun j => if j = i then seen j ++ [a] else seen j) h
              (fun j => by
                by_cases hj : j = i
                · subst hj; simp only [if_pos]; exact di2 _ _ f4
                · simp only [if_neg hj]; have := hd j; rw [List.count_cons_of_ne (Ne.symm hj)] at this; exact this)
              (fun j => by
                by_cases hj : j = i
                · subst hj; simp only [if_pos]; exact f5
                · simp only [if_neg hj]
                  refine ⟨(solo j).holds, (solo j).current, by rw [f6 j hj, (solo j).store], fun k hkk => ?_⟩
                  rw [f7 k fun ho => A.apart i j k (Ne.symm hj) ho hkk, (solo j).vars k hkk])
            intro j
            obtain ⟨ob, hobs⟩ := IH j
            by_cases hj : j = i
            · subst hj
              simp only [if_pos] at hobs
              rw [List.count_cons_self]
              simp only [WOp.play, hp]
              rw [M.bind_ok f0]
              exact ⟨ob, hobs⟩
            · simp only [if_neg hj] at hobs
              rw [List.count_cons_of_ne (Ne.symm hj)]
              exact ⟨ob, hobs⟩
          · rcases hq : (c.exec Γ cfg K vt).caught (slots, { w with user := w.user.switch i }) with ⟨r, z⟩
            rw [hq] at g2
            cases r with
            | ok a => exact absurd g2.symm (g1 a)
            | panic z => rw [M.bind_panic hq] at h; cases h
            | ub => rw [M.bind_ub hq] at h; cases h
            | abort => rw [M.bind_abort hq] at h; cases h
    rw [← hx, ← hz] at goal
    exact goal
  · intro h
    obtain ⟨obs, hobs⟩ := Classical.axiomOfChoice h
    obtain ⟨_, _, _, _, e, -⟩ := C83_threads (K := K) (cfg := cfg) (vt := vt) L htab T A p hk turns Y hd (obs := obs)
      (fin := fun i => (WOp.play Γ cfg K vt (p i) (turns.count i) [] (slots, { w with user := w.user.switch i })).2)
      (fun i => Prod.ext (hobs i) rfl)
    exact ⟨obs, by rw [e]⟩

/-- What every thread sees, and with that what it does, does not depend on the order of turns, but only on their number. -/
theorem C83_schedules (L : RunsUserFns V Γ Φ) (htab : ∀ t, Tab Γ t (vt t)) (T : ThreadLocal Γ Φ) (A : Apart own sees)
    (p : Nat → Chooser (WOp (TLS S) V H F) (WObs H F)) (hk : KeepingPrograms Γ own sees p) {turns turns' : List Nat}
    (same : turns.Perm turns') (Y : YHolds Γ slots w vars o)
    (hd : ∀ i, WOp.PlayDescribed Γ cfg Φ K (p i) (turns.count i) [] (vars, { o with user := o.user.switch i }))
    {obs : Nat → List (Option (WObs H F))} (h : (playThreads Γ cfg K vt p turns (fun _ => []) (slots, w)).1 = .ok obs) :
    (playThreads Γ cfg K vt p turns' (fun _ => []) (slots, w)).1 = .ok obs := by
  obtain ⟨obs', hobs⟩ := Classical.axiomOfChoice
    ((C83_ends_iff (K := K) (cfg := cfg) (vt := vt) L htab T A p hk turns Y hd).1 ⟨obs, h⟩)
  have alone : ∀ i, WOp.play Γ cfg K vt (p i) (turns.count i) [] (slots, { w with user := w.user.switch i }) = (.ok (obs' i), _) :=
    fun i => Prod.ext (hobs i) rfl
  obtain ⟨_, _, _, _, e, -⟩ := C83_threads L htab T A p hk turns Y hd alone
  obtain ⟨_, _, _, _, e', -⟩ := C83_threads L htab T A p hk turns' Y (fun i => same.count_eq i ▸ hd i) (fun i => same.count_eq i ▸ alone i)
  rw [e] at h
  rw [e', ← h]

end Together

theorem PlayDescribed_of_noView {U V H F : Type} {Γ : TyEnv U} {Φ : UserFns U H F} {K : Formatting F} {cfg : Cfg}
    {p : Chooser (WOp U V H F) (WObs H F)} (h : ∀ seen c, p seen = some c → ∀ k q, c ≠ .view k q) (n : Nat)
    (seen : List (Option (WObs H F))) (s : YVars × Outside U) : WOp.PlayDescribed Γ cfg Φ K p n seen s := by
  induction n generalizing seen s with
  | zero => trivial
  | succ n ih =>
    intro c hc
    refine ⟨?_, fun _ s' _ => ih _ s'⟩
    cases c with
    | view k q => exact absurd rfl (h _ _ hc k q)
    | _ => trivial

/-! ### Examples -/

namespace Ex

/-- Thread 0 clones the shared container; if that panics it copies an element instead, and drops what it has got. Thread 1 compares
the shared container with one of its own and prints it if they differ. -/
def deciding : Nat → Chooser (WOp (TLS Log) ThreadTable (List Bytes) Text) (WObs (List Bytes) Text)
  | 0, [] => some (.op (.clone 2 0))
  | 0, [none] => some (.op (.cloneValue 2 0 0))
  | 0, [some _] => some (.op (.drop 0))
  | 0, [none, some _] => some (.op (.drop 0))
  | 1, [] => some (.op (.fromVec 1 7 [g1, g2]))
  | 1, [_] => some (.eq 1 2)
  | 1, [_, some (.bool false)] => some (.fmt 2 ⟨[], false, []⟩)
  | 1, [_, some (.bool true)] => some (.op (.clear 1))
  | _, _ => none

/-- Every step the threads may choose is one of these. -/
theorem deciding_steps {i : Nat} {seen : List (Option (WObs (List Bytes) Text))} {c : WOp (TLS Log) ThreadTable (List Bytes) Text}
    (h : deciding i seen = some c) :
    i = 0 ∧ (c = .op (.clone 2 0) ∨ c = .op (.cloneValue 2 0 0) ∨ c = .op (.drop 0)) ∨
    i = 1 ∧ (c = .op (.fromVec 1 7 [g1, g2]) ∨ c = .eq 1 2 ∨ c = .fmt 2 ⟨[], false, []⟩ ∨ c = .op (.clear 1)) := by
  unfold deciding at h
  split at h <;> cases h
  all_goals simp

theorem deciding_keeps : KeepingPrograms tenv owns sights deciding where
  typed i seen c h := by
    rcases deciding_steps h with ⟨rfl, rfl | rfl | rfl⟩ | ⟨rfl, rfl | rfl | rfl | rfl⟩
    all_goals first | trivial | exact ⟨by decide, by decide⟩
  writes i seen c h := by
    rcases deciding_steps h with ⟨rfl, rfl | rfl | rfl⟩ | ⟨rfl, rfl | rfl | rfl | rfl⟩ <;> simp [WOp.writes, DOp.writes, owns]
  reads i seen c h := by
    rcases deciding_steps h with ⟨rfl, rfl | rfl | rfl⟩ | ⟨rfl, rfl | rfl | rfl | rfl⟩ <;> simp [WOp.reads, DOp.reads, sights, owns]
  threadLocal i seen c h L := by
    rcases deciding_steps h with ⟨rfl, rfl | rfl | rfl⟩ | ⟨rfl, rfl | rfl | rfl | rfl⟩ <;> simp [WOp.Respects]

theorem deciding_described (i n : Nat) (s : YVars × Outside (TLS Log)) :
    WOp.PlayDescribed tenv ⟨true⟩ tfns Text.formatting (deciding i) n [] s :=
  PlayDescribed_of_noView (fun seen c h k q e => by
    subst e
    rcases deciding_steps h with ⟨-, h | h | h⟩ | ⟨-, h | h | h | h⟩ <;> cases h) _ _ _

/-- What the machine says thread `i` sees alone in `n` turns. -/
def playAlone (i n : Nat) : Option (List (Option Shown)) :=
  match (WOp.plays tenv ⟨true⟩ tfns Text.formatting (deciding i) n [] (threadsSpec.1, { threadsSpec.2 with user := threadsSpec.2.user.switch i })).1 with
  | .ok os => some (os.map (·.map shown))
  | _ => none

theorem playAlone0 : playAlone 0 5 = some [none, some (.obs .done), some (.obs .done)] := by decide +kernel
theorem playAlone1 : playAlone 1 4 = some [some (.obs .done), some (.bool false), some (.text "[x\ny, x\ny]".toList)] := by decide +kernel

/-- Thread 0 has five turns and thread 1 has four; both end earlier. -/
def order : List Nat := [0, 1, 1, 0, 0, 1, 0, 1, 0]

theorem order_alone (i : Nat) : ∃ obs, (WOp.play tenv ⟨true⟩ Text.formatting threadVT (deciding i) (order.count i) []
    (threadsImpl.1, { threadsImpl.2 with user := threadsImpl.2.user.switch i })).1 = .ok obs ∧
    playAlone i (order.count i) = some (obs.map (·.map shown)) := by
  have h := C83_program (cfg := ⟨true⟩) (K := Text.formatting) (vt := threadVT) threadRuns threadTab (deciding i)
    (fun seen c => deciding_keeps.typed i seen c) (order.count i) (seen := []) (Solo.start threads_start i (seen := fun _ => True)).holds
    (deciding_described i _ _)
  have ok : ∃ l, playAlone i (order.count i) = some l := by
    match i with
    | 0 => exact ⟨_, playAlone0⟩
    | 1 => exact ⟨_, playAlone1⟩
    | n + 2 =>
      have : order.count (n + 2) = 0 := by
        rw [List.count_eq_zero]; simp [order]
      rw [this]; exact ⟨[], rfl⟩
  obtain ⟨l, hl⟩ := ok
  unfold playAlone at hl ⊢
  rcases hq : WOp.plays tenv ⟨true⟩ tfns Text.formatting (deciding i) (order.count i) []
    (threadsSpec.1, { threadsSpec.2 with user := threadsSpec.2.user.switch i }) with ⟨r, s⟩
  rw [hq] at h hl
  cases r with
  | ok os => exact ⟨os, h.1, rfl⟩
  | _ => cases hl

/-- All hypotheses hold together: under this schedule every thread sees what it sees alone. -/
theorem order_run : ∃ obs, (playThreads tenv ⟨true⟩ Text.formatting threadVT deciding order (fun _ => []) threadsImpl).1 = .ok obs ∧
    (obs 0).map (·.map shown) = [none, some (.obs .done), some (.obs .done)] ∧
    (obs 1).map (·.map shown) = [some (.obs .done), some (.bool false), some (.text "[x\ny, x\ny]".toList)] := by
  obtain ⟨obs, h⟩ := Classical.axiomOfChoice order_alone
  obtain ⟨_, _, _, _, e, -⟩ := C83_threads (K := Text.formatting) (cfg := ⟨true⟩) (vt := threadVT) threadRuns threadTab
    (C80_thread_local env fns).1 turns_apart deciding deciding_keeps order threads_start (fun i => deciding_described i _ _) (obs := obs)
    (fin := fun i => (WOp.play tenv ⟨true⟩ Text.formatting threadVT (deciding i) (order.count i) []
      (threadsImpl.1, { threadsImpl.2 with user := threadsImpl.2.user.switch i })).2) (fun i => Prod.ext (h i).1 rfl)
  exact ⟨obs, congrArg Prod.fst e, (Option.some.inj (playAlone0.symm.trans (h 0).2)).symm,
    (Option.some.inj (playAlone1.symm.trans (h 1).2)).symm⟩

example := C83_ends_iff (K := Text.formatting) (cfg := ⟨true⟩) (vt := threadVT) threadRuns threadTab (C80_thread_local env fns).1 turns_apart
  deciding deciding_keeps order threads_start (fun i => deciding_described i _ _)
example := C83_schedules (K := Text.formatting) (cfg := ⟨true⟩) (vt := threadVT) threadRuns threadTab (C80_thread_local env fns).1 turns_apart
  deciding deciding_keeps (turns' := [1, 1, 1, 1, 0, 0, 0, 0, 0]) (by decide) threads_start (fun i => deciding_described i _ _)
  (Classical.choose_spec order_run).1

/-- A program that never ends and makes its container anew whenever a destructor panics. -/
def retrying : Chooser (WOp Log FullTable (List Bytes) Text) (WObs (List Bytes) Text) := fun seen =>
  match seen.getLast? with
  | some (some _) => some (.op (.clear 0))
  | _ => some (.op (.fromVec 0 7 [g1, badDrop]))

theorem retrying_steps {seen : List (Option (WObs (List Bytes) Text))} {c : WOp Log FullTable (List Bytes) Text} (h : retrying seen = some c) :
    c = .op (.clear 0) ∨ c = .op (.fromVec 0 7 [g1, badDrop]) := by
  unfold retrying at h
  split at h <;> cases h <;> simp

example (n : Nat) := C83_defined (cfg := ⟨true⟩) (vt := safeVT) safeRuns safeTab safeEnv_safe fns_safe retrying
  (fun seen c h => by
    rcases retrying_steps h with rfl | rfl
    · trivial
    · exact ⟨by decide, by decide⟩)
  (fun seen c h => by rcases retrying_steps h with rfl | rfl <;> exact fun _ _ h => by cases h)
  n (C71_start emptyHeap [] (fun _ _ => rfl) (fun _ => rfl))
  (PlayDescribed_of_noView (fun seen c h k q e => by subst e; rcases retrying_steps h with h | h <;> cases h) _ _ _)

/-- A program over `VecCopy` that never ends: it collects, reads, extends if it has read one element, clears if it
has read more, and goes on reading. -/
def restless : Chooser POp (List Read) := fun seen =>
  match seen.getLast? with
  | none => some (.collect 0 0 [(2, a1)])
  | some none => some (.collect 0 0 [(2, a1)])
  | some (some []) => some (.view 0 .iter)
  | some (some [_]) => some (.extend 0 4 [(2, a2), (2, a3)])
  | some (some _) => some (.op (.clear 0))

theorem restless_run : (POp.plays env ⟨true⟩ restless 7 [] .start).map (fun p => p.1) =
    some [some [], some [(2, a1)], some [], some [(2, a1), (2, a2), (2, a3)], some [], some [], some []] := by
  decide +kernel

theorem restless_steps {seen : List (Option (List Read))} {c : POp} (h : restless seen = some c) :
    c = .collect 0 0 [(2, a1)] ∨ c = .view 0 .iter ∨ c = .extend 0 4 [(2, a2), (2, a3)] ∨ c = .op (.clear 0) := by
  unfold restless at h
  split at h <;> cases h <;> simp

theorem restless_typed (seen : List (Option (List Read))) (c : POp) (h : restless seen = some c) : c.Accepted env := by
  rcases restless_steps h with rfl | rfl | rfl | rfl
  · simp [POp.Accepted]; decide
  · exact fun _ => trivial
  · simp [POp.Accepted]; decide
  · trivial

theorem restless_described (n : Nat) : ∀ seen s, POp.PlayDescribed env ⟨true⟩ restless n seen s := by
  induction n with
  | zero => intro _ _; trivial
  | succ n ih =>
    intro seen s c h
    refine ⟨?_, ?_⟩
    · rcases restless_steps h with rfl | rfl | rfl | rfl
      any_goals trivial
      simp only [POp.Described]
      split <;> trivial
    · rcases c.step env ⟨true⟩ s with ⟨_ | _ | _, s'⟩
      · exact ih _ _
      · exact ih _ _
      · trivial

example (n : Nat) := C83_copy_program (cfg := ⟨true⟩) (vt := ()) (w := ⟨noHeap, []⟩) restless restless_typed n start_holds (restless_described n [] _)

end Ex
end Dync
