import Verif.TracesLemmas
/-!
# C81: only the order of conflicting calls matters

Threads may share containers in any way and hand them to each other. Two schedules of the same calls in which conflicting
calls come in the same order cannot be told apart by any thread.
-/
namespace Dync
variable {S V H F : Type} {Γ : TyEnv (TLS S)} {Φ : UserFns (TLS S) H F} {K : Formatting F} {cfg : Cfg} {vt : TyId → V}
  [HasDrop (TLS S) V] [HasClone (TLS S) V] [TableLaw V] [HasEqFx (TLS S) V] [HasHashFx (TLS S) H V] [HasFmtFx (TLS S) F V]
  {slots : DSlots V} {w : World (TLS S)} {vars : YVars} {o : Outside (TLS S)}

theorem turns_run (L : RunsUserFns V Γ Φ) (htab : ∀ t, Tab Γ t (vt t)) (sched : List (Turn S V H F)) :
    ∀ {slots : DSlots V} {w : World (TLS S)} {vars : YVars} {o : Outside (TLS S)}, YHolds Γ slots w vars o →
    (∀ x ∈ sched, x.2.IsTyped Γ) → TurnsDescribed Γ cfg Φ K sched (vars, o) →
    InStep (fun a s b x => a = b ∧ YHolds Γ s.1 s.2 x.1 x.2) (fun _ _ => False) (runThreads Γ cfg K vt sched (slots, w))
      (stepTurns Γ cfg Φ K sched (vars, o)) := by
  induction sched with
  | nil => intro slots w vars o Y _ _; exact .ok ⟨rfl, Y⟩
  | cons x sched ih =>
    intro slots w vars o Y ht hd
    obtain ⟨i, c⟩ := x
    have Y' : YHolds Γ slots { w with user := w.user.switch i } vars { o with user := w.user.switch i } := Y.setUser _
    rw [Y.user] at Y'
    have hc := whole_caught (whole_step (K := K) (cfg := cfg) (vt := vt) L htab Y' (ht _ (List.mem_cons_self ..)) hd.1)
    replace hc : InStep (fun a s b x => a = b ∧ YHolds Γ s.1 s.2 x.1 x.2) (fun _ _ => False)
        ((c.exec Γ cfg K vt).caught (slots, { w with user := w.user.switch i })) (Turn.step Γ cfg Φ K (i, c) (vars, o)) := by
      rw [Y.user]; exact hc
    rcases hq : Turn.step Γ cfg Φ K (i, c) (vars, o) with ⟨r, vars', o'⟩
    rw [hq] at hc
    simp only [runThreads, stepTurns]
    rw [M.bind_ok (show (M.modify _ : M (DSlots V × World (TLS S)) Unit) (slots, w) = (.ok (), (slots, { w with user := w.user.switch i })) from rfl)]
    cases r with
    | ok b =>
      obtain ⟨a, ⟨slots', w'⟩, h1, rfl, h2⟩ := hc
      rw [M.bind_ok h1, M.bind_ok hq]
      refine InStep.bind (ih h2 (fun c h => ht c (List.mem_cons_of_mem _ h)) (hd.2 _ _ hq)) (fun a' s' b' x' h' => ?_) (fun _ _ h => h)
      obtain ⟨rfl, H2⟩ := h'
      exact .ok ⟨rfl, H2⟩
    | panic y => exact hc.elim fun _ h => h.elim fun _ h => h.2.elim
    | ub =>
      rcases hm : (c.exec Γ cfg K vt).caught (slots, { w with user := w.user.switch i }) with ⟨r', s'⟩
      rw [hm] at hc
      cases (show r' = .ub from hc)
      rw [M.bind_ub hm, M.bind_ub hq]
      exact .ub
    | abort =>
      rcases hm : (c.exec Γ cfg K vt).caught (slots, { w with user := w.user.switch i }) with ⟨r', s'⟩
      rw [hm] at hc
      cases (show r' = .abort from hc)
      rw [M.bind_abort hm, M.bind_abort hq]
      exact .abort

/-- Every schedule does what the machine does when it makes the same calls in the same order. -/
theorem C81_machine (L : RunsUserFns V Γ Φ) (htab : ∀ t, Tab Γ t (vt t)) (sched : List (Turn S V H F))
    (Y : YHolds Γ slots w vars o) (ht : ∀ x ∈ sched, x.2.IsTyped Γ) (hd : TurnsDescribed Γ cfg Φ K sched (vars, o)) :
    EndsAs Γ (runThreads Γ cfg K vt sched (slots, w)) (stepTurns Γ cfg Φ K sched (vars, o)) := by
  have h := turns_run (K := K) (cfg := cfg) (vt := vt) L htab sched Y ht hd
  rcases hs : stepTurns Γ cfg Φ K sched (vars, o) with ⟨r, vars', o'⟩
  rw [hs] at h
  cases r with
  | ok b => obtain ⟨a, s, h1, rfl, h2⟩ := h; rw [h1]; exact ⟨rfl, h2⟩
  | panic y => obtain ⟨a, s, h1, h2⟩ := h; exact h2.elim
  | ub => exact h
  | abort => exact h

omit [HasEqFx (TLS S) V] [HasHashFx (TLS S) H V] [HasFmtFx (TLS S) F V] in
theorem ends_ok {α : Type} {r : Res α × (DSlots V × World (TLS S))} {q : Res α × (YVars × Outside (TLS S))} (h : EndsAs Γ r q) {a : α}
    {slots' : DSlots V} {w' : World (TLS S)} (e : r = (.ok a, (slots', w'))) : ∃ s, q = (.ok a, s) ∧ YHolds Γ slots' w' s.1 s.2 := by
  subst e
  obtain ⟨q, vars', o'⟩ := q
  cases q with
  | ok b => cases (Res.ok.inj h.1); exact ⟨_, rfl, h.2⟩
  | panic y => obtain ⟨z, hz⟩ := h.1; cases hz
  | ub => cases (show _ = Res.ub from h)
  | abort => cases (show _ = Res.abort from h)

/-- A schedule that runs to the end, and another order of its calls in which conflicting calls come in the same order: that one runs
to the end too, every thread sees the same at each of its calls, all variables have the same contents, the thread-local
state is the same and as many blocks are leaked. -/
theorem C81_reorder (L : RunsUserFns V Γ Φ) (htab : ∀ t, Tab Γ t (vt t)) (T : ThreadLocal Γ Φ) {sched sched' : List (Turn S V H F)}
    (same : SameConflicts sched sched') (ht : ∀ x ∈ sched, x.2.IsTyped Γ) (hl : ∀ x ∈ sched, ∀ L, x.2.Respects (LooksSame x.1 L))
    (Y : YHolds Γ slots w vars o) (hd : TurnsDescribed Γ cfg Φ K sched (vars, o)) {all : List (Nat × Option (WObs H F))}
    {slots1 : DSlots V} {w1 : World (TLS S)} (h : runThreads Γ cfg K vt sched (slots, w) = (.ok all, (slots1, w1))) :
    ∃ all' slots2 w2 vars' o1 o2, runThreads Γ cfg K vt sched' (slots, w) = (.ok all', (slots2, w2)) ∧
      (∀ i, ofThread i all' = ofThread i all) ∧ YHolds Γ slots1 w1 vars' o1 ∧ YHolds Γ slots2 w2 vars' o2 ∧
      o2.leaked = o1.leaked ∧ o2.user.store = o1.user.store := by
  obtain ⟨l, l', hp, hn, rfl, rfl, hc⟩ := same
  obtain ⟨⟨vars', o1⟩, e1, Y1⟩ := ends_ok (C81_machine (K := K) (cfg := cfg) (vt := vt) L htab _ Y ht hd) h
  obtain ⟨all', ⟨vars'', o2⟩, r, b, e⟩ := same_runs (K := K) (cfg := cfg) T l l' (fun x hx => hl _ (List.mem_map_of_mem hx)) hp hn hc _ _ _ ⟨hd, e1⟩
  have ht' : ∀ x ∈ l'.map Prod.snd, x.2.IsTyped Γ := fun x hx => by
    obtain ⟨z, hz, rfl⟩ := List.mem_map.1 hx
    exact ht _ (List.mem_map_of_mem (hp.mem_iff.1 hz))
  have E := C81_machine (K := K) (cfg := cfg) (vt := vt) L htab _ Y ht' r.described
  rw [r.runs] at E
  rcases hr : runThreads Γ cfg K vt (l'.map Prod.snd) (slots, w) with ⟨r', slots2, w2⟩
  rw [hr] at E
  cases (show r' = .ok all' from E.1)
  cases (show vars' = vars'' from b.vars)
  exact ⟨all', slots2, w2, vars', o1, o2, rfl, e, Y1, E.2, b.leaked.symm, b.store.symm⟩

/-- If both orders are in the range of C75, one runs to the end exactly if the other one does. -/
theorem C81_ends_iff (L : RunsUserFns V Γ Φ) (htab : ∀ t, Tab Γ t (vt t)) (T : ThreadLocal Γ Φ) {sched sched' : List (Turn S V H F)}
    (same : SameConflicts sched sched') (ht : ∀ x ∈ sched, x.2.IsTyped Γ) (hl : ∀ x ∈ sched, ∀ L, x.2.Respects (LooksSame x.1 L))
    (Y : YHolds Γ slots w vars o) (hd : TurnsDescribed Γ cfg Φ K sched (vars, o)) (hd' : TurnsDescribed Γ cfg Φ K sched' (vars, o)) :
    (∃ all, (runThreads Γ cfg K vt sched (slots, w)).1 = .ok all) ↔ ∃ all, (runThreads Γ cfg K vt sched' (slots, w)).1 = .ok all := by
  have one : ∀ {a b : List (Turn S V H F)}, SameConflicts a b → (∀ x ∈ a, x.2.IsTyped Γ) → (∀ x ∈ a, ∀ L, x.2.Respects (LooksSame x.1 L)) →
      TurnsDescribed Γ cfg Φ K a (vars, o) → (∃ all, (runThreads Γ cfg K vt a (slots, w)).1 = .ok all) →
      ∃ all, (runThreads Γ cfg K vt b (slots, w)).1 = .ok all := by
    rintro a b h h1 h2 h3 ⟨all, e⟩
    obtain ⟨all', _, _, _, _, _, e', -⟩ := C81_reorder (K := K) (cfg := cfg) (vt := vt) L htab T h h1 h2 Y h3 (all := all)
      (slots1 := (runThreads Γ cfg K vt a (slots, w)).2.1) (w1 := (runThreads Γ cfg K vt a (slots, w)).2.2) (Prod.ext e rfl)
    exact ⟨all', by rw [e']⟩
  have mem : ∀ x, x ∈ sched' → x ∈ sched := by
    obtain ⟨l, l', hp, -, rfl, rfl, -⟩ := same
    exact fun x hx => (hp.map _).mem_iff.1 hx
  exact ⟨one same ht hl hd, one same.symm (fun x h => ht x (mem x h)) (fun x h => hl x (mem x h)) hd'⟩

namespace Ex

/-- Thread 0 makes a container; thread 1 clones it, writes to it, which panics in the destructor of the old element and leaks a box, and
thread 0 reads the new element and drops the container. Thread 2 is busy with a container of its own, which cannot be cloned. -/
def make0 : Turn Log ThreadTable (List Bytes) Text := (0, .op (.fromVec 0 7 [g1, badDrop]))
def make2 : Turn Log ThreadTable (List Bytes) Text := (2, .op (.fromVec 2 7 [badClone]))
def hash1 : Turn Log ThreadTable (List Bytes) Text := (1, .hash 0 [])
def clone2 : Turn Log ThreadTable (List Bytes) Text := (2, .op (.clone 2 4))
def write1 : Turn Log ThreadTable (List Bytes) Text := (1, .view 0 (.assign 1 7 g2))
def print2 : Turn Log ThreadTable (List Bytes) Text := (2, .fmt 2 ⟨[], false, []⟩)
def read0 : Turn Log ThreadTable (List Bytes) Text := (0, .view 0 (.look (.get 1)))
def drop0 : Turn Log ThreadTable (List Bytes) Text := (0, .op (.drop 0))

def handOver : List (Turn Log ThreadTable (List Bytes) Text) := [make0, make2, hash1, clone2, write1, print2, read0, drop0]
def handOver' : List (Turn Log ThreadTable (List Bytes) Text) := [make2, clone2, make0, hash1, write1, read0, print2, drop0]

theorem pair_nil {α : Type} {a b : α} : List.Sublist [a, b] [] ↔ False := by simp
theorem pair_cons {α : Type} {a b c : α} {l : List α} : List.Sublist [a, b] (c :: l) ↔ a = c ∧ b ∈ l ∨ List.Sublist [a, b] l := by
  constructor
  · intro h
    cases h with
    | cons _ h => exact .inr h
    | cons_cons _ h => exact .inl ⟨rfl, List.singleton_sublist.1 h⟩
  · rintro (⟨rfl, h⟩ | h)
    · exact (List.singleton_sublist.2 h).cons_cons _
    · exact h.cons _

set_option linter.unusedSimpArgs false in
set_option linter.unusedTactic false in
set_option linter.unreachableTactic false in
theorem handOver_same : SameConflicts handOver handOver' := by
  refine ⟨[(0, make0), (1, make2), (2, hash1), (3, clone2), (4, write1), (5, print2), (6, read0), (7, drop0)],
    [(1, make2), (3, clone2), (0, make0), (2, hash1), (4, write1), (6, read0), (5, print2), (7, drop0)], ?_, by decide, rfl, rfl, ?_⟩
  · have mid : ∀ {a : Nat × Turn Log ThreadTable (List Bytes) Text} {p q l}, List.Perm (p ++ q) l → List.Perm (p ++ a :: q) (a :: l) :=
      fun h => List.perm_middle.trans (h.cons _)
    refine mid (p := [_, _]) (mid (p := []) (mid (p := [_]) (mid (p := []) (mid (p := []) (mid (p := [_]) ?_)))))
    exact .refl _
  · intro a b hab hc
    simp only [pair_cons, pair_nil, List.mem_cons, List.not_mem_nil, and_false, false_or, or_false, List.mem_singleton] at hab
    rcases hab with ⟨rfl, h⟩ | ⟨rfl, h⟩ | ⟨rfl, h⟩ | ⟨rfl, h⟩ | ⟨rfl, h⟩ | ⟨rfl, h⟩ | ⟨rfl, h⟩
    · rcases h with rfl | rfl | rfl | rfl | rfl | rfl | rfl <;> first | (clear hc; simp [pair_cons]; done) | (simp [Conflict, make0, make2, hash1, clone2, write1, print2, read0, drop0, WOp.writes, WOp.reads, DOp.writes, DOp.reads] at hc)
    · rcases h with rfl | rfl | rfl | rfl | rfl | rfl <;> first | (clear hc; simp [pair_cons]; done) | (simp [Conflict, make0, make2, hash1, clone2, write1, print2, read0, drop0, WOp.writes, WOp.reads, DOp.writes, DOp.reads] at hc)
    · rcases h with rfl | rfl | rfl | rfl | rfl <;> first | (clear hc; simp [pair_cons]; done) | (simp [Conflict, make0, make2, hash1, clone2, write1, print2, read0, drop0, WOp.writes, WOp.reads, DOp.writes, DOp.reads] at hc)
    · rcases h with rfl | rfl | rfl | rfl <;> first | (clear hc; simp [pair_cons]; done) | (simp [Conflict, make0, make2, hash1, clone2, write1, print2, read0, drop0, WOp.writes, WOp.reads, DOp.writes, DOp.reads] at hc)
    · rcases h with rfl | rfl | rfl <;> first | (clear hc; simp [pair_cons]; done) | (simp [Conflict, make0, make2, hash1, clone2, write1, print2, read0, drop0, WOp.writes, WOp.reads, DOp.writes, DOp.reads] at hc)
    · rcases h with rfl | rfl <;> first | (clear hc; simp [pair_cons]; done) | (simp [Conflict, make0, make2, hash1, clone2, write1, print2, read0, drop0, WOp.writes, WOp.reads, DOp.writes, DOp.reads] at hc)
    · subst h; clear hc; simp [pair_cons]

/-- What the machine says is seen and what state it ends in. -/
def turnsSeen (xs : List (Turn Log ThreadTable (List Bytes) Text)) : Option (List (Nat × Option Shown) × Nat × List Log) :=
  match stepTurns tenv ⟨true⟩ tfns Text.formatting xs ((fun _ => none), ⟨0, tls⟩) with
  | (.ok all, s) => some (all.map fun x => (x.1, x.2.map shown), s.2.leaked, (List.range 3).map s.2.user.store)
  | _ => none

theorem handOver_seen : turnsSeen handOver = some
    ([(0, some (.obs .done)), (2, some (.obs .done)), (1, some (.hashed [g1, badDrop])), (2, none), (1, none), (2, some (.text "[x\ny]".toList)),
      (0, some (.reads [(7, g2)])), (0, some (.obs .done))], 1, [[.dropped 7 g1, .dropped 7 g2], [], [.cloned 7 badClone]]) := by
  decide +kernel

theorem handOver_typed : ∀ x ∈ handOver, x.2.IsTyped tenv := by
  simp only [handOver, List.forall_mem_cons]
  exact ⟨⟨by decide, by decide⟩, ⟨by decide, by decide⟩, trivial, trivial, (by decide : g2.length = size 7), trivial, trivial, trivial,
    (fun _ h => by cases h)⟩

theorem handOver_local : ∀ x ∈ handOver, ∀ L, x.2.Respects (LooksSame x.1 L) := by
  simp only [handOver, List.forall_mem_cons]
  simp [WOp.Respects, VProg.Respects, make0, make2, hash1, clone2, write1, print2, read0, drop0]

theorem turn_described {x : Turn Log ThreadTable (List Bytes) Text} {xs : List (Turn Log ThreadTable (List Bytes) Text)}
    {s : YVars × Outside (TLS Log)} (h1 : x.2.Described tenv ⟨true⟩ s.1)
    (h2 : TurnsDescribed tenv ⟨true⟩ tfns Text.formatting xs (x.step tenv ⟨true⟩ tfns Text.formatting s).2) :
    TurnsDescribed tenv ⟨true⟩ tfns Text.formatting (x :: xs) s :=
  ⟨h1, fun o s' h => by rw [h] at h2; exact h2⟩

theorem handOver_described : TurnsDescribed tenv ⟨true⟩ tfns Text.formatting handOver ((fun _ => none), ⟨0, tls⟩) := by
  refine turn_described trivial (turn_described trivial (turn_described trivial (turn_described trivial ?_)))
  refine turn_described ?_ (turn_described trivial (turn_described ?_ ⟨trivial, fun _ _ _ => trivial⟩))
  · show NoWrap ⟨true⟩ ((1 + 1) * tenv.size 7)
    unfold NoWrap; decide
  · show NoWrap ⟨true⟩ ((1 + 1) * tenv.size 7)
    unfold NoWrap; decide

theorem handOver_start : YHolds tenv (V := ThreadTable) (fun _ => none) ⟨emptyHeap, tls⟩ (fun _ => none) ⟨0, tls⟩ :=
  C71_start emptyHeap tls (fun _ _ => rfl) (fun _ => rfl)

/-- The first order runs to the end, with what the machine says. -/
theorem handOver_run : ∃ all, (runThreads tenv ⟨true⟩ Text.formatting threadVT handOver ((fun _ => none), ⟨emptyHeap, tls⟩)).1 = .ok all ∧
    (turnsSeen handOver).map Prod.fst = some (all.map fun x => (x.1, x.2.map shown)) := by
  have h := C81_machine (cfg := ⟨true⟩) (K := Text.formatting) (vt := threadVT) threadRuns threadTab handOver handOver_start handOver_typed
    handOver_described
  have hs := handOver_seen
  unfold turnsSeen at hs ⊢
  rcases hq : stepTurns tenv ⟨true⟩ tfns Text.formatting handOver ((fun _ => none), ⟨0, tls⟩) with ⟨r, s⟩
  rw [hq] at h hs
  cases r with
  | ok all => exact ⟨all, h.1, rfl⟩
  | _ => cases hs

/-- So the other order does too, and all threads see the same. -/
example := C81_reorder (cfg := ⟨true⟩) (K := Text.formatting) (vt := threadVT) threadRuns threadTab (C80_thread_local env fns).1 handOver_same
  handOver_typed handOver_local handOver_start handOver_described (Prod.ext (Classical.choose_spec handOver_run).1 rfl)

theorem handOver'_described : TurnsDescribed tenv ⟨true⟩ tfns Text.formatting handOver' ((fun _ => none), ⟨0, tls⟩) := by
  refine turn_described trivial (turn_described trivial (turn_described trivial (turn_described trivial ?_)))
  refine turn_described ?_ (turn_described ?_ (turn_described trivial ⟨trivial, fun _ _ _ => trivial⟩))
  · show NoWrap ⟨true⟩ ((1 + 1) * tenv.size 7)
    unfold NoWrap; decide
  · show NoWrap ⟨true⟩ ((1 + 1) * tenv.size 7)
    unfold NoWrap; decide

example := C81_ends_iff (cfg := ⟨true⟩) (K := Text.formatting) (vt := threadVT) threadRuns threadTab (C80_thread_local env fns).1 handOver_same
  handOver_typed handOver_local handOver_start handOver_described handOver'_described

/-- The order of calls that conflict does matter: a read before the write gives the old element. -/
example : ¬ SameConflicts [write1, read0] [read0, write1] := by
  rintro ⟨l, l', hp, hn, h1, h2, hc⟩
  obtain ⟨a, _, rfl, ha, h1⟩ := List.map_eq_cons_iff.1 h1
  obtain ⟨b, _, rfl, hb, h1⟩ := List.map_eq_cons_iff.1 h1
  obtain rfl := List.map_eq_nil_iff.1 h1
  have hs := hc a b (.refl _) (.inr ⟨0, .inl ⟨by rw [ha]; simp [write1, WOp.writes], .inl (by rw [hb]; simp [read0, WOp.writes])⟩⟩)
  have e : [a, b] = l' := hs.eq_of_length hp.length_eq.symm
  subst e
  simp only [List.map_cons, List.map_nil, List.cons.injEq, and_true] at h2
  exact absurd (congrArg Prod.fst (ha.symm.trans h2.1)) (by decide)

end Ex
end Dync
