import Verif.IteratorsLemmas
/-!
# C84: `extend` and `collect` with arbitrary iterators

The iterator is user code that may have effects and may panic when it is asked for its size hint, asked for an item, or
dropped.
-/
namespace Dync
variable {U V : Type} {Γ : TyEnv U} {cfg : Cfg} {vt : V} {slots : Slots V} {w : World U} {vars : Nat → Option XVec} {o : Outside U}
  {it : Iter U}

theorem IEnds.of {α : Type} {r : Res α × (Slots V × World U)} {q : Res α × ((Nat → Option XVec) × Outside U)}
    (h : InStep (fun a s b t => a = b ∧ IHolds Γ s t) (IHolds Γ) r q) : IEnds Γ r q := by
  rcases q with ⟨q, t⟩
  cases q with
  | ok b => obtain ⟨a, s, rfl, rfl, h2⟩ := h; exact ⟨rfl, h2⟩
  | panic y => obtain ⟨y, s, rfl, h2⟩ := h; exact ⟨⟨_, rfl⟩, h2⟩
  | ub => exact h
  | abort => exact h

theorem iop_sim {c : IOp U} (H : IHolds Γ (slots, w) (vars, o)) (ha : c.Accepted Γ) (hd : c.Described Γ cfg (vars, o)) :
    InStep (fun a s b t => a = b ∧ IHolds Γ s t) (IHolds Γ) (c.exec Γ cfg vt (slots, w)) (c.step Γ cfg (vars, o)) := by
  obtain ⟨hu, H⟩ := H
  have hu : w.user = o.user := hu
  replace H : XState.Holds Γ slots w.heap ⟨vars, o.leaked⟩ := H
  cases c with
  | op c =>
    have h := step_psim (cfg := cfg) (vt := vt) H ha hd
    simp only [IOp.exec, IOp.step]
    rcases hs : c.step Γ cfg ⟨vars, o.leaked⟩ with ⟨e, s'⟩
    rw [hs] at h
    rcases h with ⟨h1, h2⟩ | ⟨h1, r, slots', h', h2, h3, h4⟩
    · cases (show e = .ub from h1)
      exact h2
    · rw [h2]
      cases e with
      | ok rs => cases (show r = .ok rs from h3); exact .ok ⟨rfl, hu, h4⟩
      | panic => obtain ⟨y, rfl⟩ := h3; exact .panic ⟨hu, h4⟩
      | ub => exact absurd rfl h1
  | extendFrom k it n =>
    obtain ⟨L, hL, O⟩ := H.owned
    simp only [IOp.step]
    cases hk : slots k with
    | none =>
      simp only [show vars k = none from (H.none_iff k).1 hk]
      have : (IOp.extendFrom k it n).exec Γ cfg vt (slots, w) = (.ok [], (slots, w)) := by
        simp only [IOp.exec, Op.onSlot, M.bind_run, hk, M.pure_run]
      rw [this]
      exact .ok ⟨rfl, hu, H⟩
    | some c =>
      obtain ⟨x, hx, I⟩ := O.lookup hk
      simp only [show vars k = some x from hx]
      have B : ApartFrom Γ (Slots.put slots k none) (Slots.put vars k none) (c, w) (x, o) := ⟨hu, I, L, hL, O.take hk⟩
      have S := extendFrom_sim (cfg := cfg) (vt := vt) (it := it) ha n B
      have e : (IOp.extendFrom k it n).exec Γ cfg vt (slots, w) =
          ((VecCopy.extendFrom Γ cfg vt it n (c, w)).1.map fun _ => [],
            (Slots.put slots k (some (VecCopy.extendFrom Γ cfg vt it n (c, w)).2.1), (VecCopy.extendFrom Γ cfg vt it n (c, w)).2.2)) := by
        simp only [IOp.exec, Op.onSlot, M.bind_run, hk]
        rcases VecCopy.extendFrom Γ cfg vt it n (c, w) with ⟨r, c', w'⟩
        cases r <;> rfl
      rw [e]
      have back : ∀ {s : VecCopy V × World U} {t : XVec × Outside U}, ApartFrom Γ (Slots.put slots k none) (Slots.put vars k none) s t →
          IHolds Γ (Slots.put slots k (some s.1), s.2) (Slots.put vars k (some t.1), t.2) := by
        rintro ⟨c', w'⟩ ⟨x', o'⟩ B'
        obtain ⟨L', hL', O'⟩ := B'.owned
        refine ⟨B'.user, ?_⟩
        have := (Owned.put (c := c') (L := L') O' (Slots.put_same _ _ _) B'.is).holds
        rw [Slots.put_put, Slots.put_put, hL'] at this
        exact this
      rcases hr : VecCopy.extendFrom Γ cfg vt it n (c, w) with ⟨r, s⟩
      rcases hq : XVec.extendFrom Γ cfg it n (x, o) with ⟨q, t⟩
      rw [hr, hq] at S
      cases q with
      | ok b => obtain ⟨a, s, h1, h2⟩ := S; cases h1; exact .ok ⟨rfl, back h2⟩
      | panic y => obtain ⟨y, s, h1, h2⟩ := S; cases h1; exact .panic (back h2)
      | ub => cases (show r = .ub from S); exact .ub
      | abort => cases (show r = .abort from S); exact .abort
  | collectFrom k it n =>
    obtain ⟨L, hL, O⟩ := H.owned
    have S := collectFrom_sim (cfg := cfg) (vt := vt) (it := it) ha n (⟨hu, L, hL, O⟩ : Idle Γ slots vars w o)
    simp only [IOp.exec, IOp.step, M.bind_run, onWorld_run, aside, M.zoom_run]
    rcases hr : VecCopy.collectFrom Γ cfg vt it n w with ⟨r, w'⟩
    rcases hq : XVec.collectFrom Γ cfg it n o with ⟨q, o'⟩
    rw [hr, hq] at S
    cases q with
    | ok x =>
      obtain ⟨c, w1, h1, B⟩ := S
      cases h1
      obtain ⟨L', hL', O'⟩ := B.owned
      have key : ∃ h'', Op.assign cfg k c (slots, w') = (.ok (), (Slots.put slots k (some c), { w' with heap := h'' })) ∧
          Owned Γ (Slots.put slots k (some c)) h'' (Slots.put vars k (some x)) L' := by
        cases hk : slots k with
        | none => exact ⟨w'.heap, by simp only [Op.assign, M.bind_run, M.get_run, hk, M.modify_run], O'.put hk B.is⟩
        | some old =>
          obtain ⟨y, hy, J⟩ := O'.lookup hk
          obtain ⟨h2, hrun, re2⟩ := drop_is (cfg := cfg) J O'.wf
          have O2 := (O'.take hk).move re2 (fun i hi => by cases hi)
          have I2 : x.Is Γ h2 c.data := by
            refine B.is.frame fun i hi => re2.other i (fun e => ?_) (by simp)
            exact O'.apart i (by simp [show c.data.ptr = some i from hi]) k old hk e.symm
          have O3 := Owned.put (c := c) (L := L') O2 (Slots.put_same _ _ _) I2
          rw [Slots.put_put, Slots.put_put] at O3
          exact ⟨h2, by simp only [Op.assign, M.bind_run, M.get_run, hk, onWorld, M.zoom_run, hrun, M.modify_run], O3⟩
      obtain ⟨h'', e1, O2⟩ := key
      simp only [e1, M.pure_run, M.modify_run]
      refine .ok ⟨rfl, B.user, ?_⟩
      have := O2.holds
      rw [hL'] at this
      exact this
    | panic y =>
      obtain ⟨y, w1, h1, N⟩ := S
      cases h1
      obtain ⟨L', hL', O'⟩ := N.owned
      refine .panic ⟨N.user, ?_⟩
      have := O'.holds
      rw [hL'] at this
      exact this
    | ub => cases (show r = .ub from S); exact .ub
    | abort => cases (show r = .abort from S); exact .abort

/-- Every step of a program ends as the machine says: it returns, panics, is undefined or aborts exactly where the machine does, with
the user's code in the same state and the variables and lost blocks of the machine. -/
theorem C84_step {c : IOp U} (H : IHolds Γ (slots, w) (vars, o)) (ha : c.Accepted Γ) (hd : c.Described Γ cfg (vars, o)) :
    IEnds Γ (c.exec Γ cfg vt (slots, w)) (c.step Γ cfg (vars, o)) := IEnds.of (iop_sim H ha hd)

/-- So does every program, with all panics caught. -/
theorem C84_program (cs : List (IOp U)) : ∀ {slots : Slots V} {w : World U} {vars : Nat → Option XVec} {o : Outside U},
    IHolds Γ (slots, w) (vars, o) → (∀ c ∈ cs, c.Accepted Γ) → IOp.AllDescribed Γ cfg cs (vars, o) →
    IEnds Γ (IOp.runAll Γ cfg vt cs (slots, w)) (IOp.steps Γ cfg cs (vars, o)) := by
  suffices h : ∀ {slots : Slots V} {w : World U} {vars : Nat → Option XVec} {o : Outside U},
      IHolds Γ (slots, w) (vars, o) → (∀ c ∈ cs, c.Accepted Γ) → IOp.AllDescribed Γ cfg cs (vars, o) →
      InStep (fun a s b t => a = b ∧ IHolds Γ s t) (IHolds Γ) (IOp.runAll Γ cfg vt cs (slots, w)) (IOp.steps Γ cfg cs (vars, o)) from
    fun {_ _ _ _} H ha hd => IEnds.of (h H ha hd)
  induction cs with
  | nil => intro slots w vars o H _ _; exact .ok ⟨rfl, H⟩
  | cons c cs ih =>
    intro slots w vars o H ha hd
    have S := iop_sim (vt := vt) H (ha c (List.mem_cons_self ..)) hd.1
    have hd2 := hd.2
    simp only [IOp.runAll, IOp.steps]
    have S' : InStep (fun a s b t => a = b ∧ IHolds Γ s t ∧ (c.step Γ cfg).caught (vars, o) = (.ok b, t)) (IHolds Γ)
        ((c.exec Γ cfg vt).caught (slots, w)) ((c.step Γ cfg).caught (vars, o)) := by
      simp only [M.caught]
      rcases hr : c.exec Γ cfg vt (slots, w) with ⟨r, s⟩
      rcases hq : c.step Γ cfg (vars, o) with ⟨q, t⟩
      rw [hr, hq] at S
      cases q with
      | ok b => obtain ⟨a, s, h1, rfl, h2⟩ := S; cases h1; exact .ok ⟨rfl, h2, rfl⟩
      | panic y => obtain ⟨y, s, h1, h2⟩ := S; cases h1; exact .ok ⟨rfl, h2, rfl⟩
      | ub => cases (show r = .ub from S); exact .ub
      | abort => cases (show r = .abort from S); exact .abort
    refine S'.bind ?_ fun _ _ h => h
    rintro a ⟨slots', w'⟩ b ⟨vars', o'⟩ ⟨rfl, H', e⟩
    refine (ih H' (fun c h => ha c (List.mem_cons_of_mem _ h)) (hd2 _ _ e)).bind ?_ fun _ _ h => h
    rintro _ _ _ _ ⟨rfl, h⟩
    exact .ok ⟨rfl, h⟩

/-! ### What the machine does -/

theorem plain_ok {f : XVec → After} {x : XVec} {b : Obs} (h : (f x).out = .ok b) (hl : (f x).leak = false) :
    XVec.plain f (x, o) = (.ok b, ((f x).now, o)) := by
  simp only [XVec.plain, h, hl]
  rfl

theorem plain_panic_run {f : XVec → After} {x : XVec} (h : (f x).out = .panic) :
    XVec.plain f (x, o) = (.panic .index, ((f x).now, { o with leaked := o.leaked + if (f x).leak then 1 else 0 })) := by
  simp only [XVec.plain, h]

theorem plain_panic {f : XVec → After} {x : XVec} (h : (f x).out = .panic) :
    ∃ k, k ≤ 1 ∧ XVec.plain f (x, o) = (.panic .index, ((f x).now, { o with leaked := o.leaked + k })) := by
  exact ⟨if (f x).leak then 1 else 0, ite_le_one, by simp only [XVec.plain, h]⟩

theorem aside_call_run {α σ : Type} (m : M U α) (s : σ × Outside U) :
    (aside (call m) : M (σ × Outside U) α) s = ((m s.2.user).1, (s.1, { s.2 with user := (m s.2.user).2 })) := by
  simp only [aside, call, M.zoom_run]

/-- How a loop that got the items `xs` leaves a container with the elements `es`. -/
def LeftBy (t : TyId) (es : List Bytes) (o : Outside U) (xs : List Bytes) (u : U) (r : Res Unit × (XVec × Outside U)) : PullEnd → Prop
  | .done => ∃ cap, r = (.ok (), (.vec t (es ++ xs) cap, { o with user := u }))
  | .panic => ∃ y cap, r = (.panic y, (.vec t (es ++ xs) cap, { o with user := u }))
  | .lost => ∃ y k, k ≤ 1 ∧ r = (.panic y, (.unit 0, ⟨o.leaked + k, u⟩))

theorem pull_left (S : SafeIter it) {t : TyId} (n : Nat) : ∀ {es : List Bytes} {cap : Nat} {o : Outside U},
    ∃ xs e u, Pulls it t n o.user xs e u ∧ LeftBy t es o xs u (XVec.pull Γ it n (.vec t es cap, o)) e := by
  induction n with
  | zero => intro es cap o; exact ⟨[], .done, o.user, .bound, cap, by rw [List.append_nil]; rfl⟩
  | succ n ih =>
    intro es cap o
    simp only [XVec.pull]
    rw [M.bind_run, aside_call_run]
    rcases hn : it.next o.user with ⟨r, u⟩
    have hs := S.next o.user
    rw [hn] at hs
    cases r with
    | ub => exact absurd rfl hs.1
    | abort => exact absurd rfl hs.2
    | panic y => exact ⟨[], .panic, u, .panicked hn, y, cap, by rw [List.append_nil]⟩
    | ok v =>
      cases v with
      | none => exact ⟨[], .done, u, .ended hn, cap, by rw [List.append_nil]; rfl⟩
      | some v =>
        obtain ⟨tv, x⟩ := v
        simp only
        rw [M.bind_ok (show (M.get : M (XVec × Outside U) (XVec × Outside U)) (.vec t es cap, { o with user := u }) =
          (.ok (.vec t es cap, { o with user := u }), _) from rfl)]
        by_cases e : tv = t
        · subst e
          rw [if_pos (show tv = XVec.ty Γ (.vec tv es cap) from rfl)]
          cases ho : (XVec.push Γ tv x (.vec tv es cap)).out with
          | ub => exact absurd ho (push_not_ub _ _)
          | panic =>
            obtain ⟨k, hk, e⟩ := plain_panic (o := { o with user := u }) ho
            rw [M.bind_panic e, push_panic ho]
            exact ⟨[x], .lost, u, .noRoom hn, _, k, hk, rfl⟩
          | ok b =>
            rw [M.bind_ok (plain_ok (o := { o with user := u }) ho (push_ok_vec ho).1)]
            obtain ⟨cap', e'⟩ := push_value ho
            rw [e']
            obtain ⟨xs, e, u', h1, h2⟩ := ih (es := es ++ [x]) (cap := cap') (o := { o with user := u })
            refine ⟨x :: xs, e, u', .more hn h1, ?_⟩
            cases e with
            | done => obtain ⟨c, h⟩ := h2; exact ⟨c, by rw [h]; simp⟩
            | panic => obtain ⟨y, c, h⟩ := h2; exact ⟨y, c, by rw [h]; simp⟩
            | lost => exact h2
        · rw [if_neg (show ¬ tv = XVec.ty Γ (.vec t es cap) from e)]
          exact ⟨[], .panic, u, .other hn e, _, cap, by rw [List.append_nil]; rfl⟩

/-- What `extend` does before it drops the iterator. -/
theorem extending_left (S : SafeIter it) {t : TyId} {n : Nat} {es : List Bytes} {cap : Nat} :
    ∃ xs e u, Extending it t n o.user xs e u ∧ LeftBy t es o xs u ((do
      let hint ← aside (call it.hint)
      let _ ← XVec.plain (XVec.reserve Γ cfg hint)
      XVec.pull Γ it n : M (XVec × Outside U) Unit) (.vec t es cap, o)) e := by
  rw [M.bind_run, aside_call_run]
  rcases hn : it.hint o.user with ⟨r, u⟩
  have hs := S.hint o.user
  rw [hn] at hs
  cases r with
  | ub => exact absurd rfl hs.1
  | abort => exact absurd rfl hs.2
  | panic y => exact ⟨[], .panic, u, .hintPanics hn, y, cap, by rw [List.append_nil]⟩
  | ok hint =>
    simp only
    cases ho : (XVec.reserve Γ cfg hint (.vec t es cap)).out with
    | ub => exact absurd ho (room_out_ub (fun c => by simp))
    | panic =>
      obtain ⟨k, hk, e⟩ := plain_panic (o := { o with user := u }) ho
      rw [M.bind_panic e, reserve_panic ho]
      exact ⟨[], .lost, u, .tooMuch hn, _, k, hk, rfl⟩
    | ok b =>
      rw [M.bind_ok (plain_ok (o := { o with user := u }) ho (reserve_ok_vec ho).1)]
      obtain ⟨cap', e'⟩ := (reserve_ok_vec ho).2
      rw [e']
      obtain ⟨xs, e, u', h1, h2⟩ := pull_left (Γ := Γ) S n (t := t) (es := es) (cap := cap') (o := { o with user := u })
      exact ⟨xs, e, u', .pulls hn h1, h2⟩

/-- What a panic becomes when the iterator is dropped while unwinding. -/
def unwinding {α : Type} (y : Why) : Res Unit → Res α
  | .ok _ => .panic y
  | _ => .abort

theorem thenDrop_ok {σ α : Type} {m : M σ α} {d : M σ Unit} {s s' : σ} {a : α} (h : m s = (.ok a, s')) :
    m.thenDrop d s = ((d s').1.map fun _ => a, (d s').2) := by
  simp only [M.thenDrop, h]
  rcases d s' with ⟨r, s''⟩
  cases r <;> rfl

theorem thenDrop_panic {σ α : Type} {m : M σ α} {d : M σ Unit} {s s' : σ} {y : Why} (h : m s = (.panic y, s')) :
    m.thenDrop d s = (match (d s').1 with | .ok _ => .panic y | .ub => .ub | _ => .abort, (d s').2) := by
  simp only [M.thenDrop, h]
  rcases d s' with ⟨r, s''⟩
  cases r <;> rfl

/-- `extend` of a container of `t` with any iterator: it asks for the size hint and then for items until the iterator ends or panics,
an item is of another type, or there is no room, and never again after that; it then drops the iterator, once. All items of type `t`
that it got are appended in order, unless the content is lost. -/
theorem C84_extend (S : SafeIter it) {t : TyId} {n : Nat} {es : List Bytes} {cap : Nat} :
    ∃ xs e u, Extending it t n o.user xs e u ∧
      match e with
      | .done => ∃ cap', XVec.extendFrom Γ cfg it n (.vec t es cap, o) =
          ((it.drop u).1, (.vec t (es ++ xs) cap', { o with user := (it.drop u).2 }))
      | .panic => ∃ y cap', XVec.extendFrom Γ cfg it n (.vec t es cap, o) =
          (unwinding y (it.drop u).1, (.vec t (es ++ xs) cap', { o with user := (it.drop u).2 }))
      | .lost => ∃ y k, k ≤ 1 ∧ XVec.extendFrom Γ cfg it n (.vec t es cap, o) =
          (unwinding y (it.drop u).1, (.unit 0, ⟨o.leaked + k, (it.drop u).2⟩)) := by
  obtain ⟨xs, e, u, h1, h2⟩ := extending_left (Γ := Γ) (cfg := cfg) (o := o) S (t := t) (n := n) (es := es) (cap := cap)
  refine ⟨xs, e, u, h1, ?_⟩
  cases e with
  | done =>
    obtain ⟨c, h⟩ := h2
    refine ⟨c, ?_⟩
    simp only [XVec.extendFrom]
    rw [thenDrop_ok h, aside_call_run]
    cases (it.drop u).1 <;> rfl
  | panic =>
    obtain ⟨y, c, h⟩ := h2
    refine ⟨y, c, ?_⟩
    simp only [XVec.extendFrom]
    rw [thenDrop_panic h, aside_call_run]
    have hs := S.drop u
    cases hd : (it.drop u).1 with
    | ub => exact absurd hd hs.1
    | abort => rfl
    | ok a => rfl
    | panic z => rfl
  | lost =>
    obtain ⟨y, k, hk, h⟩ := h2
    refine ⟨y, k, hk, ?_⟩
    simp only [XVec.extendFrom]
    rw [thenDrop_panic h, aside_call_run]
    have hs := S.drop u
    cases hd : (it.drop u).1 with
    | ub => exact absurd hd hs.1
    | abort => rfl
    | ok a => rfl
    | panic z => rfl

/-- `extend` of a container that has lost its content loses nothing more: it asks for the size hint, panics, and drops the iterator. -/
theorem C84_extend_lost (S : SafeIter it) {m n : Nat} :
    ∃ y m', XVec.extendFrom Γ cfg it n (.unit m, o) =
      (unwinding y (it.drop (it.hint o.user).2).1, (.unit m', { o with user := (it.drop (it.hint o.user).2).2 })) := by
  have hs := S.hint o.user
  rcases hn : it.hint o.user with ⟨r, u⟩
  rw [hn] at hs
  have hd := S.drop u
  have key : ∃ y m', (do
      let hint ← aside (call it.hint)
      let _ ← XVec.plain (XVec.reserve Γ cfg hint)
      XVec.pull Γ it n : M (XVec × Outside U) Unit) (.unit m, o) = (.panic y, (.unit m', { o with user := u })) := by
    rw [M.bind_run, aside_call_run, hn]
    cases r with
    | ub => exact absurd rfl hs.1
    | abort => exact absurd rfl hs.2
    | panic y => exact ⟨y, _, rfl⟩
    | ok h => exact ⟨_, _, rfl⟩
  obtain ⟨y, m', h⟩ := key
  refine ⟨y, m', ?_⟩
  simp only [XVec.extendFrom]
  rw [thenDrop_panic h, aside_call_run]
  cases he : (it.drop u).1 with
  | ub => exact absurd he hd.1
  | abort => rfl
  | ok a => rfl
  | panic z => rfl

/-- `collect` from any iterator: either the new container has the first item and the items that `extend` got after it, all of
the type of the first one, up to the end of the iterator; or it panics, or aborts, and the container is gone with at most one block
lost. The iterator is dropped once, at the end. -/
theorem C84_collect (S : SafeIter it) {n : Nat} :
    (∃ t x xs cap u u', it.next o.user = (.ok (some (t, x)), u) ∧ Extending it t n u xs .done u' ∧ (it.drop u').1 = .ok () ∧
      XVec.collectFrom Γ cfg it n o = (.ok (.vec t (x :: xs) cap), { o with user := (it.drop u').2 })) ∨
    (∃ r u k, k ≤ 1 ∧ (r = .abort ∨ ∃ y, r = .panic y) ∧
      XVec.collectFrom Γ cfg it n o = (r, ⟨o.leaked + k, (it.drop u).2⟩)) := by
  have unw : ∀ {m : M (Outside U) XVec} {y : Why} {k : Nat} {u : U} {f : XVec → M (Outside U) XVec}, k ≤ 1 →
      m o = (.panic y, ⟨o.leaked + k, u⟩) → ∃ r u k, k ≤ 1 ∧ (r = .abort ∨ ∃ y, r = .panic y) ∧
      (m.onUnwind (call it.drop) >>= f) o = (r, ⟨o.leaked + k, (it.drop u).2⟩) := by
    intro m y k u f hk h
    have hd := S.drop u
    have e : m.onUnwind (call it.drop) o = (unwinding y (it.drop u).1, ⟨o.leaked + k, (it.drop u).2⟩) := by
      simp only [M.onUnwind, h, M.unwindDrop, call, M.zoom_run]
      cases he : (it.drop u).1 with
      | ub => exact absurd he hd.1
      | abort => rfl
      | ok a => rfl
      | panic z => rfl
    cases he : (it.drop u).1 with
    | ub => exact absurd he hd.1
    | ok a => exact ⟨_, u, k, hk, .inr ⟨y, rfl⟩, M.bind_panic (by rw [e, he]; rfl)⟩
    | abort => exact ⟨_, u, k, hk, .inl rfl, M.bind_abort (by rw [e, he]; rfl)⟩
    | panic z => exact ⟨_, u, k, hk, .inl rfl, M.bind_abort (by rw [e, he]; rfl)⟩
  have hs := S.next o.user
  simp only [XVec.collectFrom]
  rcases hn : it.next o.user with ⟨r, u⟩
  rw [hn] at hs
  have hc : (call it.next : M (Outside U) _) o = (r, { o with user := u }) := by simp only [call, M.zoom_run, hn]
  cases r with
  | ub => exact absurd rfl hs.1
  | abort => exact absurd rfl hs.2
  | panic y => exact .inr (unw (y := y) (k := 0) (u := u) (by omega) (M.bind_panic hc))
  | ok v =>
    cases v with
    | none => exact .inr (unw (y := .unwrapNone) (k := 0) (u := u) (by omega) (M.bind_ok hc))
    | some v =>
      obtain ⟨t, x⟩ := v
      by_cases h0 : Γ.size t = 0
      · exact .inr (unw (y := .divZero) (k := 0) (u := u) (by omega) ((M.bind_ok hc).trans (by simp only [if_pos h0]; rfl)))
      · cases ho : (XVec.push Γ t x (.vec t [] 1)).out with
        | ub => exact absurd ho (push_not_ub _ _)
        | panic =>
          obtain ⟨k, hk, e⟩ := plain_panic (o := { o with user := u }) ho
          refine .inr (unw (y := .index) (k := k) (u := u) hk ((M.bind_ok hc).trans ?_))
          simp only [if_neg h0, onNew, M.bind_panic e]
          rfl
        | ok b =>
          have e := plain_ok (o := { o with user := u }) ho (push_ok_vec ho).1
          obtain ⟨cap', e'⟩ := push_value ho
          rw [e'] at e
          have e2 := M.onUnwind_ok (d := call it.drop) ((M.bind_ok hc (f := fun r : Option (TyId × Bytes) => match r with
            | none => M.panic .unwrapNone
            | some v =>
              if Γ.size v.1 = 0 then M.panic .divZero
              else onNew (.vec v.1 [] 1) (do let _ ← XVec.plain (XVec.push Γ v.1 v.2); pure ()))).trans
            (show _ = (Res.ok (XVec.vec t ([] ++ [x]) cap'), { o with user := u }) by
              simp only [if_neg h0, onNew, M.bind_ok e]
              rfl))
          have hd := S.drop
          have e3 := C84_extend (Γ := Γ) (cfg := cfg) (o := { o with user := u }) S (t := t) (n := n) (es := [] ++ [x]) (cap := cap')
          obtain ⟨xs, en, u', h1, h2⟩ := e3
          have e4 : ∀ r y, XVec.extendFrom Γ cfg it n (.vec t ([] ++ [x]) cap', { o with user := u }) = (r, y) →
              XVec.collectFrom Γ cfg it n o = (r.map fun _ => y.1, y.2) := by
            intro r y h
            simp only [XVec.collectFrom]
            refine (M.bind_ok e2).trans ?_
            simp only [onNew, h]
          simp only [XVec.collectFrom] at e4
          have hd := S.drop u'
          cases en with
          | done =>
            obtain ⟨c, h⟩ := h2
            cases he : (it.drop u').1 with
            | ub => exact absurd he hd.1
            | abort => exact absurd he hd.2
            | ok a => exact .inl ⟨t, x, xs, c, u, u', rfl, h1, he, (e4 _ _ h).trans (by rw [he]; rfl)⟩
            | panic z => exact .inr ⟨_, u', 0, by omega, .inr ⟨z, rfl⟩, (e4 _ _ h).trans (by rw [he]; rfl)⟩
          | panic =>
            obtain ⟨y, c, h⟩ := h2
            refine .inr ⟨_, u', 0, by omega, ?_, (e4 _ _ h)⟩
            cases (it.drop u').1 <;> simp [unwinding, Res.map]
          | lost =>
            obtain ⟨y, k, hk, h⟩ := h2
            refine .inr ⟨_, u', k, hk, ?_, (e4 _ _ h)⟩
            cases (it.drop u').1 <;> simp [unwinding, Res.map]

/-- With an iterator whose code is defined, neither call is undefined. -/
theorem C84_defined (S : SafeIter it) {k n : Nat} {s : (Nat → Option XVec) × Outside U} :
    ((IOp.extendFrom k it n).step Γ cfg s).1 ≠ .ub ∧ ((IOp.collectFrom k it n).step Γ cfg s).1 ≠ .ub := by
  constructor
  · simp only [IOp.step]
    cases s.1 k with
    | none => simp
    | some x =>
      simp only
      have key : (XVec.extendFrom Γ cfg it n (x, s.2)).1 ≠ .ub := by
        have hu : ∀ y u, (unwinding y (it.drop u).1 : Res Unit) ≠ .ub := by intro y u; cases (it.drop u).1 <;> simp [unwinding]
        cases x with
        | unit m => obtain ⟨y, m', h⟩ := C84_extend_lost (Γ := Γ) (cfg := cfg) (o := s.2) S (m := m) (n := n); rw [h]; exact hu _ _
        | vec t es cap =>
          obtain ⟨xs, e, u, -, h⟩ := C84_extend (Γ := Γ) (cfg := cfg) (o := s.2) S (t := t) (n := n) (es := es) (cap := cap)
          cases e with
          | done => obtain ⟨c, h⟩ := h; rw [h]; exact (S.drop u).1
          | panic => obtain ⟨y, c, h⟩ := h; rw [h]; exact hu _ _
          | lost => obtain ⟨y, k, -, h⟩ := h; rw [h]; exact hu _ _
      intro h
      cases hr : (XVec.extendFrom Γ cfg it n (x, s.2)).1 with
      | ub => exact key hr
      | ok a => rw [hr] at h; cases h
      | panic a => rw [hr] at h; cases h
      | abort => rw [hr] at h; cases h
  · simp only [IOp.step, M.bind_run, aside, M.zoom_run]
    rcases C84_collect (Γ := Γ) (cfg := cfg) (o := s.2) S (n := n) with ⟨t, x, xs, cap, u, u', -, -, -, h⟩ | ⟨r, u, k, -, hr, h⟩
    · rw [h]; simp [M.modify_run, M.pure_run]
    · rw [h]; rcases hr with rfl | ⟨y, rfl⟩ <;> simp

theorem pull_bound {n : Nat} : ∀ {m : Nat} {x : XVec} {o : Outside U}, it.EndsWithin n o.user → n ≤ m →
    XVec.pull Γ it m (x, o) = XVec.pull Γ it n (x, o) := by
  induction n with
  | zero => intro m x o h; cases h
  | succ n ih =>
    intro m x o h hm
    obtain ⟨m, rfl⟩ : ∃ m', m = m' + 1 := ⟨m - 1, by omega⟩
    simp only [XVec.pull]
    rw [M.bind_run, M.bind_run, aside_call_run]
    rcases hn : it.next o.user with ⟨r, u⟩
    cases r with
    | ub => rfl
    | abort => rfl
    | panic y => rfl
    | ok v =>
      cases v with
      | none => rfl
      | some v =>
        have h' := h v u hn
        simp only [M.bind_run, M.get_run]
        split
        · rw [M.bind_run, M.bind_run]
          have hu : ∀ f : XVec → After, (XVec.plain f (x, { o with user := u })).2.2.user = u := fun f => rfl
          rcases hp : XVec.plain (XVec.push Γ v.1 v.2) (x, { o with user := u }) with ⟨r, x', o'⟩
          have := hu (XVec.push Γ v.1 v.2)
          rw [hp] at this
          cases r with
          | ok a => exact ih (by rw [show o'.user = u from this]; exact h') (by omega)
          | ub => rfl
          | abort => rfl
          | panic y => rfl
        · rfl

/-- The bound on the number of items does not matter for an iterator that ends within it. -/
theorem C84_bound {n m : Nat} {x : XVec} (h : ∀ k u, it.hint o.user = (.ok k, u) → it.EndsWithin n u) (hm : n ≤ m) :
    XVec.extendFrom Γ cfg it m (x, o) = XVec.extendFrom Γ cfg it n (x, o) := by
  have key : (do
      let hint ← aside (call it.hint)
      let _ ← XVec.plain (XVec.reserve Γ cfg hint)
      XVec.pull Γ it m : M (XVec × Outside U) Unit) (x, o) = (do
      let hint ← aside (call it.hint)
      let _ ← XVec.plain (XVec.reserve Γ cfg hint)
      XVec.pull Γ it n : M (XVec × Outside U) Unit) (x, o) := by
    rw [M.bind_run, M.bind_run, aside_call_run]
    rcases hn : it.hint o.user with ⟨r, u⟩
    cases r with
    | ub => rfl
    | abort => rfl
    | panic y => rfl
    | ok k =>
      simp only
      rw [M.bind_run, M.bind_run]
      have hu : (XVec.plain (XVec.reserve Γ cfg k) (x, { o with user := u })).2.2.user = u := rfl
      rcases hp : XVec.plain (XVec.reserve Γ cfg k) (x, { o with user := u }) with ⟨r, x', o'⟩
      rw [hp] at hu
      cases r with
      | ok a => exact pull_bound (by rw [show o'.user = u from hu]; exact h k u hn) hm
      | ub => rfl
      | abort => rfl
      | panic y => rfl
  simp only [XVec.extendFrom, M.thenDrop]
  rw [key]

/-- How a result looks that is described by `a`. -/
def ByAfter (a : After) (o : Outside U) (r : Res Unit × (XVec × Outside U)) : Prop :=
  (match a.out with | .ok _ => r.1 = .ok () | .panic => ∃ y, r.1 = .panic y | .ub => r.1 = .ub) ∧
    r.2.1 = a.now ∧ r.2.2.leaked = o.leaked + if a.leak then 1 else 0

theorem pull_list {n : Nat} : ∀ {vs : List (TyId × Bytes)} {t : TyId} {es : List Bytes} {cap : Nat} {o : Outside U}, it.Yields vs o.user →
    vs.length < n → ByAfter (XVec.pushAll Γ vs (.vec t es cap)) o (XVec.pull Γ it n (.vec t es cap, o)) := by
  induction n with
  | zero => intro vs t es cap o _ h; omega
  | succ n ih =>
    intro vs t es cap o hv hl
    simp only [XVec.pull]
    rw [M.bind_run, aside_call_run]
    cases vs with
    | nil =>
      obtain ⟨u, hn⟩ := hv
      rw [hn]
      exact ⟨rfl, rfl, rfl⟩
    | cons v vs =>
      obtain ⟨u, hn, hv⟩ := hv
      obtain ⟨tv, x⟩ := v
      rw [hn]
      simp only
      rw [M.bind_ok (show (M.get : M (XVec × Outside U) (XVec × Outside U)) (.vec t es cap, { o with user := u }) =
        (.ok (.vec t es cap, { o with user := u }), _) from rfl)]
      by_cases e : tv = t
      · subst e
        rw [if_pos (show tv = XVec.ty Γ (.vec tv es cap) from rfl)]
        simp only [XVec.pushAll]
        rw [if_pos (show tv = XVec.ty Γ (.vec tv es cap) from rfl)]
        cases ho : (XVec.push Γ tv x (.vec tv es cap)).out with
        | ub => exact absurd ho (push_not_ub _ _)
        | panic =>
          simp only [After.next, ho]
          rw [M.bind_panic (plain_panic_run (o := { o with user := u }) ho)]
          exact ⟨by rw [ho]; exact ⟨_, rfl⟩, rfl, rfl⟩
        | ok b =>
          simp only [After.next, ho]
          rw [M.bind_ok (plain_ok (o := { o with user := u }) ho (push_ok_vec ho).1)]
          obtain ⟨cap', e'⟩ := push_value ho
          rw [e']
          exact ih (o := { o with user := u }) hv (by simp only [List.length_cons] at hl; omega)
      · rw [if_neg (show ¬ tv = XVec.ty Γ (.vec t es cap) from e)]
        simp only [XVec.pushAll]
        rw [if_neg (show ¬ tv = XVec.ty Γ (.vec t es cap) from e)]
        exact ⟨⟨_, rfl⟩, rfl, rfl⟩

/-- With an iterator that yields the list `vs` without panics, `extend` is the `extend` of C82 with that list. -/
theorem C84_list {hint n : Nat} {vs : List (TyId × Bytes)} {u : U} {t : TyId} {es : List Bytes} {cap : Nat}
    (hh : it.hint o.user = (.ok hint, u)) (hv : it.Yields vs u) (hd : ∀ u, (it.drop u).1 = .ok ()) (hl : vs.length < n) :
    ByAfter (XVec.extend Γ cfg hint vs (.vec t es cap)) o (XVec.extendFrom Γ cfg it n (.vec t es cap, o)) := by
  have key : ByAfter (XVec.extend Γ cfg hint vs (.vec t es cap)) o ((do
      let hint ← aside (call it.hint)
      let _ ← XVec.plain (XVec.reserve Γ cfg hint)
      XVec.pull Γ it n : M (XVec × Outside U) Unit) (.vec t es cap, o)) := by
    rw [M.bind_run, aside_call_run, hh]
    simp only [XVec.extend]
    cases ho : (XVec.reserve Γ cfg hint (.vec t es cap)).out with
    | ub => exact absurd ho (room_out_ub (fun c => by simp))
    | panic =>
      simp only [After.next, ho]
      rw [M.bind_panic (plain_panic_run (o := { o with user := u }) ho)]
      exact ⟨by rw [ho]; exact ⟨_, rfl⟩, rfl, rfl⟩
    | ok b =>
      simp only [After.next, ho]
      rw [M.bind_ok (plain_ok (o := { o with user := u }) ho (reserve_ok_vec ho).1)]
      obtain ⟨cap', e'⟩ := (reserve_ok_vec ho).2
      rw [e']
      exact pull_list (o := { o with user := u }) hv hl
  obtain ⟨k1, k2, k3⟩ := key
  simp only [XVec.extendFrom]
  rcases hr : (do
      let hint ← aside (call it.hint)
      let _ ← XVec.plain (XVec.reserve Γ cfg hint)
      XVec.pull Γ it n : M (XVec × Outside U) Unit) (.vec t es cap, o) with ⟨r, x', o'⟩
  rw [hr] at k1 k2 k3
  cases hout : (XVec.extend Γ cfg hint vs (.vec t es cap)).out with
  | ok b =>
    rw [hout] at k1
    cases (show r = .ok () from k1)
    rw [thenDrop_ok hr, aside_call_run]
    refine ⟨?_, k2, k3⟩
    simp only [hout, hd]
    rfl
  | panic =>
    rw [hout] at k1
    obtain ⟨y, k1⟩ := k1
    cases (show r = .panic y from k1)
    rw [thenDrop_panic hr, aside_call_run]
    refine ⟨?_, k2, k3⟩
    simp only [hout, hd]
    exact ⟨_, rfl⟩
  | ub =>
    rw [hout] at k1
    cases (show r = .ub from k1)
    simp only [M.thenDrop, hr]
    refine ⟨?_, k2, k3⟩
    simp only [hout]

/-! ### Examples -/

namespace Ex

/-- An iterator over `u32`s that writes every call into the log and panics when it is asked for the item after the third; its
destructor panics if `bad`. -/
def panicIter (bad : Bool) : Iter Log where
  hint := ⟨fun u => (.ok 1, u)⟩
  next := ⟨fun u => (if u.length < 3 then .ok (some (2, a1)) else .panic .user, u ++ [.cloned 2 a1])⟩
  drop := ⟨fun u => (if bad then .panic .user else .ok (), u ++ [.dropped 2 a1])⟩

/-- An iterator that yields two `u32`s and then a `u8`. -/
def mixedIter : Iter Log where
  hint := ⟨fun u => (.ok 0, u)⟩
  next := ⟨fun u => (if u.length < 2 then .ok (some (2, a2)) else .ok (some (1, [some 7])), u ++ [.cloned 2 a2])⟩
  drop := ⟨fun u => (.ok (), u ++ [.dropped 2 a2])⟩

/-- An iterator that yields two `u32`s. -/
def pairIter : Iter Log where
  hint := ⟨fun u => (.ok 0, u)⟩
  next := ⟨fun u => (if u.length < 2 then .ok (some (2, a2)) else .ok none, u ++ [.cloned 2 a2])⟩
  drop := ⟨fun u => (.ok (), u)⟩

theorem panicIter_safe (bad : Bool) : SafeIter (panicIter bad) where
  hint u := by simp [panicIter]
  next u := by simp only [panicIter]; split <;> simp
  drop u := by cases bad <;> simp [panicIter]

theorem panicIter_typed (bad : Bool) : ∀ u v u', (panicIter bad).next u = (.ok (some v), u') → v.2.length = env.size v.1 := by
  intro u v u' h
  simp only [panicIter] at h
  split at h
  · cases h; decide
  · cases h

theorem mixedIter_typed : ∀ u v u', mixedIter.next u = (.ok (some v), u') → v.2.length = env.size v.1 := by
  intro u v u' h
  simp only [mixedIter] at h
  split at h
  · cases h; decide
  · cases h; decide

/-- `collect` from an iterator that panics; `collect` from a good one; extend it with one that panics, and with one that
changes the type. -/
def iterProg : List (IOp Log) :=
  [.op (.op (.withType 0 2)), .extendFrom 0 (panicIter false) 9, .collectFrom 1 (panicIter false) 9, .extendFrom 0 mixedIter 9, .op (.op (.iter 0))]

example : (IOp.steps env ⟨true⟩ iterProg ((fun _ => none), ⟨0, []⟩)).1 =
    .ok [some [], none, none, none, some [(2, a1), (2, a1), (2, a1)]] := by
  decide +kernel

example : (IOp.steps env ⟨true⟩ [.op (.op (.withType 0 2)), .extendFrom 0 (panicIter true) 9] ((fun _ => none), ⟨0, []⟩)).1 = .abort := by
  decide +kernel

theorem iter_start : IHolds env ((fun _ => none : Slots Unit), ⟨noHeap, ([] : Log)⟩) ((fun _ => none), ⟨0, []⟩) := ⟨rfl, start_holds⟩

theorem iterProg_typed : ∀ c ∈ iterProg, c.Accepted env := by
  simp only [iterProg, List.forall_mem_cons]
  exact ⟨typed 2 (by decide), panicIter_typed false, panicIter_typed false, mixedIter_typed, trivial, fun _ h => by cases h⟩

example := C84_program (cfg := ⟨true⟩) (vt := ()) iterProg iter_start iterProg_typed
  ⟨trivial, fun _ _ _ => ⟨trivial, fun _ _ _ => ⟨trivial, fun _ _ _ => ⟨trivial, fun _ _ _ => ⟨trivial, fun _ _ _ => trivial⟩⟩⟩⟩⟩
example := C84_step (cfg := ⟨false⟩) (vt := ()) (w := world 2 4) (vars := m123.var) (o := ⟨0, (world 2 4).user⟩) (c := .extendFrom 7 mixedIter 5)
  ⟨rfl, m123_holds⟩ mixedIter_typed trivial
example := C84_extend (Γ := env) (cfg := ⟨true⟩) (o := ⟨0, []⟩) (panicIter_safe true) (t := 2) (n := 9) (es := [a3]) (cap := 1)
example := C84_extend_lost (Γ := env) (cfg := ⟨true⟩) (o := ⟨0, []⟩) (panicIter_safe true) (m := 4) (n := 9)
example := C84_collect (Γ := env) (cfg := ⟨true⟩) (o := ⟨0, []⟩) (panicIter_safe false) (n := 9)
example := C84_defined (Γ := env) (cfg := ⟨true⟩) (panicIter_safe false) (k := 7) (n := 9) (s := (m123.var, ⟨0, []⟩))

theorem pairIter_ends : pairIter.EndsWithin 3 [] := by
  intro v u h
  simp only [pairIter] at h
  cases h
  intro v u h
  simp at h
  obtain ⟨-, rfl⟩ := h
  intro v u h
  simp [pairIter] at h

example := C84_bound (Γ := env) (cfg := ⟨true⟩) (o := ⟨0, []⟩) (it := pairIter) (n := 3) (m := 100) (x := .vec 2 [a1] 1)
  (fun k u h => by cases h; exact pairIter_ends) (by decide)
example := C84_list (Γ := env) (cfg := ⟨true⟩) (o := ⟨0, []⟩) (it := pairIter) (hint := 0) (n := 3) (vs := [(2, a2), (2, a2)]) (u := []) (t := 2)
  (es := [a1]) (cap := 1) rfl ⟨_, rfl, _, rfl, _, rfl⟩ (fun _ => rfl) (by decide)

/-- The item of another type ends the loop: three calls for items, and one of the destructor. -/
example : (XVec.extendFrom env ⟨true⟩ mixedIter 9 (.vec 2 [a3] 1, ⟨0, []⟩)).2.2.user = [.cloned 2 a2, .cloned 2 a2, .cloned 2 a2, .dropped 2 a2] := by
  decide +kernel

end Ex

end Dync
