import Verif.IteratorsSpec
import Verif.DynMachineLemmas
import Verif.Props.CopyWhole
/-!
# Helper lemmas for `extend` and `collect` with arbitrary iterators
-/
namespace Dync
variable {U V α : Type} {Γ : TyEnv U} {cfg : Cfg} {vt : V} {slots : Slots V} {w : World U} {c : VecCopy V} {x : XVec} {o : Outside U}
  {vars : Nat → Option XVec}

theorem Owned.moves {h h' : Heap} {p p' : Ptr} {L : List Nat} {leak : Bool} (O : Owned Γ slots h vars (p.toList ++ L))
    (m : Moves h p h' p' leak) (hl : ∀ i, p' = some i → h'.live i ≠ none) :
    ∃ L', L'.length = L.length + (if leak then 1 else 0) ∧ Owned Γ slots h' vars (p'.toList ++ L') := by
  cases leak with
  | false => exact ⟨L, rfl, O.move m hl⟩
  | true =>
    obtain ⟨hp, j, hj, re⟩ := m
    refine ⟨j :: L, rfl, ?_⟩
    have := O.move re (fun i hi => by cases hi; exact hj)
    rw [hp]
    exact this

/-- A container beside the variables: `c` is `x`, the user's code is in the same state, and the blocks are those of the
variables, that of `c`, and the lost ones. -/
structure ApartFrom (Γ : TyEnv U) (slots : Slots V) (vars : Nat → Option XVec) (s : VecCopy V × World U) (t : XVec × Outside U) : Prop where
  user : s.2.user = t.2.user
  is : t.1.Is Γ s.2.heap s.1.data
  owned : ∃ L, L.length = t.2.leaked ∧ Owned Γ slots s.2.heap vars (s.1.data.ptr.toList ++ L)

theorem ApartFrom.wf {s : VecCopy V × World U} {t : XVec × Outside U} (B : ApartFrom Γ slots vars s t) : s.2.heap.WF := by
  obtain ⟨L, -, O⟩ := B.owned
  exact O.wf

/-- A method without user code. -/
theorem ApartFrom.plain {f : XVec → After} {m : M (VecCopy V × World U) Obs} (B : ApartFrom Γ slots vars (c, w) (x, o))
    (h : (f x).Agrees Γ m c w) :
    InStep (fun a s b t => a = b ∧ ApartFrom Γ slots vars s t ∧ (f x).out = .ok b ∧ t.1 = (f x).now) (ApartFrom Γ slots vars)
      (m (c, w)) (XVec.plain f (x, o)) := by
  obtain ⟨L, hL, O⟩ := B.owned
  simp only [XVec.plain]
  rcases h with ⟨h1, h2⟩ | ⟨h1, r, d, h', h2, h3, h4, h5⟩
  · simp only [h1]
    exact h2
  · obtain ⟨L', hL', O'⟩ := O.moves (p := c.data.ptr) (p' := d.ptr) h5 (fun i hi => (h4.lt h5.wf i hi).1)
    have B' : ApartFrom Γ slots vars ({ c with data := d }, { w with heap := h' })
        ((f x).now, { o with leaked := o.leaked + if (f x).leak then 1 else 0 }) :=
      ⟨B.user, h4, L', by rw [hL', hL], O'⟩
    rw [h2]
    cases ho : (f x).out with
    | ub => exact absurd ho h1
    | ok b =>
      rw [ho] at h3
      have h3 : r = .ok b := h3
      subst h3
      exact .ok ⟨rfl, B', rfl, rfl⟩
    | panic =>
      rw [ho] at h3
      obtain ⟨y, rfl⟩ := h3
      exact .panic B'

/-- User code. -/
theorem ApartFrom.userStep (B : ApartFrom Γ slots vars (c, w) (x, o)) (m : M U α) :
    InStep (fun a s b t => a = b ∧ ApartFrom Γ slots vars s t ∧ t.1 = x ∧ s.1 = c ∧ ∃ u, m u = (.ok b, t.2.user)) (ApartFrom Γ slots vars)
      ((onWorld (worldUser m) : M (VecCopy V × World U) α) (c, w)) ((aside (call m) : M (XVec × Outside U) α) (x, o)) := by
  have hu : w.user = o.user := B.user
  simp only [onWorld_run, worldUser_run, aside, call, M.zoom_run, hu]
  rcases hm : m o.user with ⟨r, u⟩
  have B' : ApartFrom Γ slots vars (c, { w with user := u }) (x, { o with user := u }) := ⟨rfl, B.is, B.owned⟩
  cases r with
  | ok a => exact .ok ⟨rfl, B', rfl, rfl, _, hm⟩
  | panic y => exact .panic B'
  | ub => exact .ub
  | abort => exact .abort

theorem bind_done {σ : Type} {m : M σ Unit} (s : σ) : (do m; return Obs.done : M σ Obs) s = ((m s).1.map fun _ => Obs.done, (m s).2) := by
  simp only [M.bind_run]
  rcases m s with ⟨r, s'⟩
  cases r <;> rfl

/-- A method without result. -/
theorem ApartFrom.plainUnit {f : XVec → After} {m : M (VecCopy V × World U) Unit} (B : ApartFrom Γ slots vars (c, w) (x, o))
    (h : (f x).Agrees Γ (do m; return .done) c w) :
    InStep (fun _ s _ t => ApartFrom Γ slots vars s t ∧ (∃ b, (f x).out = .ok b) ∧ t.1 = (f x).now) (ApartFrom Γ slots vars)
      (m (c, w)) (XVec.plain f (x, o)) := by
  have h' := B.plain h
  rw [bind_done] at h'
  rcases hr : m (c, w) with ⟨r, s⟩
  rcases hq : XVec.plain f (x, o) with ⟨q, t⟩
  rw [hr, hq] at h'
  cases q with
  | ok b =>
    obtain ⟨a, s', h1, rfl, h2, h3, h4⟩ := h'
    cases r <;> cases h1
    exact .ok ⟨h2, ⟨_, h3⟩, h4⟩
  | panic y =>
    obtain ⟨y', s', h1, h2⟩ := h'
    cases r <;> cases h1
    exact .panic h2
  | ub => cases r <;> first | exact .ub | cases h'
  | abort => cases r <;> first | exact .abort | cases h'

variable {it : Iter U}

theorem pull_sim (ha : ∀ u v u', it.next u = (.ok (some v), u') → v.2.length = Γ.size v.1) (n : Nat) :
    ∀ {c : VecCopy V} {w : World U} {o : Outside U} {t : TyId} {es : List Bytes} {cap : Nat}, ApartFrom Γ slots vars (c, w) (.vec t es cap, o) →
    InStep (fun _ s _ t => ApartFrom Γ slots vars s t) (ApartFrom Γ slots vars) (VecCopy.extendLoop Γ cfg vt it n (c, w))
      (XVec.pull Γ it n (.vec t es cap, o)) := by
  induction n with
  | zero => intro c w o t es cap B; exact .ok B
  | succ n ih =>
    intro c w o t es cap B
    simp only [VecCopy.extendLoop, XVec.pull]
    refine (B.userStep it.next).bind ?_ fun _ _ h => h
    rintro a ⟨c', w'⟩ b ⟨x', o'⟩ ⟨rfl, B', rfl, hc, u, hu⟩
    have hc : c' = c := hc
    subst hc
    cases a with
    | none => exact .ok B'
    | some v =>
      obtain ⟨tv, x⟩ := v
      have hx : x.length = Γ.size tv := ha _ _ _ hu
      obtain ⟨R, rfl⟩ := B'.is
      simp only
      rw [M.bind_ok (show (M.get : M (XVec × Outside U) (XVec × Outside U)) (.vec t es c'.data.cap, o') = (.ok (.vec t es c'.data.cap, o'), _) from rfl)]
      by_cases e : tv = t
      · subst e
        rw [if_pos (show tv = XVec.ty Γ (.vec tv es c'.data.cap) from rfl)]
        refine InStep.bind (Q := fun _ s _ t => ApartFrom Γ slots vars s t ∧ (∃ b, (XVec.push Γ tv x (.vec tv es c'.data.cap)).out = .ok b) ∧
          t.1 = (XVec.push Γ tv x (.vec tv es c'.data.cap)).now) ?_ ?_ fun _ _ h => h
        · refine B'.plainUnit ?_
          refine Agrees.congr (pushData_agrees (cfg := cfg) R B'.wf hx) ?_
          simp only [M.bind_run]
          rw [show VecCopy.extendItem Γ cfg (CopyValue.new Γ tv vt x) (c', w') = _ from pushOne_run (cfg := cfg) R hx]
        · rintro _ ⟨c2, w2⟩ _ ⟨x2, o2⟩ ⟨B2, ⟨b, hb⟩, hx2⟩
          obtain ⟨es', cap', e2⟩ := (push_ok_vec hb).2
          have hx2 : x2 = _ := hx2
          rw [e2] at hx2
          subst hx2
          exact ih B2
      · rw [if_neg (show ¬ tv = XVec.ty Γ (.vec t es c'.data.cap) from e), M.bind_panic (show VecCopy.extendItem Γ cfg (CopyValue.new Γ tv vt x) (c', w') = _ from pushOne_other (cfg := cfg) R e)]
        exact .panic B'

theorem extendFrom_sim (ha : ∀ u v u', it.next u = (.ok (some v), u') → v.2.length = Γ.size v.1) (n : Nat)
    (B : ApartFrom Γ slots vars (c, w) (x, o)) :
    InStep (fun _ s _ t => ApartFrom Γ slots vars s t) (ApartFrom Γ slots vars) (VecCopy.extendFrom Γ cfg vt it n (c, w))
      (XVec.extendFrom Γ cfg it n (x, o)) := by
  unfold VecCopy.extendFrom XVec.extendFrom
  have hd : ∀ {s : VecCopy V × World U} {t : XVec × Outside U}, ApartFrom Γ slots vars s t →
      InStep (fun _ s _ t => ApartFrom Γ slots vars s t) (ApartFrom Γ slots vars)
        ((onWorld (worldUser it.drop) : M (VecCopy V × World U) Unit) s) ((aside (call it.drop) : M (XVec × Outside U) Unit) t) :=
    fun {s t} B => (B.userStep it.drop).mono (fun _ _ _ _ h => h.2.1) fun _ _ h => h
  refine InStep.thenDrop (Q := fun _ s _ t => ApartFrom Γ slots vars s t) (E := ApartFrom Γ slots vars) ?_ (fun _ _ _ _ B => hd B)
    fun _ _ B => (hd B).mono (fun _ _ _ _ h => h) fun _ _ _ => trivial
  refine (B.userStep it.hint).bind ?_ fun _ _ h => h
  rintro hint ⟨c', w'⟩ b ⟨x', o'⟩ ⟨rfl, B', rfl, hc, -⟩
  have hc : c' = c := hc
  subst hc
  cases x' with
  | unit m =>
    refine InStep.bind (Q := fun _ _ _ _ => False) ?_ (fun _ _ _ _ h => h.elim) fun _ _ h => h
    refine (B'.plainUnit (unit_reserve B'.is B'.wf hint)).mono ?_ fun _ _ h => h
    rintro _ _ _ _ ⟨-, ⟨b, hb⟩, -⟩
    cases hb
  | vec t es cap =>
    obtain ⟨R, rfl⟩ := B'.is
    refine InStep.bind (B'.plainUnit (reserve_agrees (cfg := cfg) R B'.wf hint)) ?_ fun _ _ h => h
    rintro _ ⟨c2, w2⟩ _ ⟨x2, o2⟩ ⟨B2, ⟨b, hb⟩, hx2⟩
    obtain ⟨cap', e2⟩ := (reserve_ok_vec hb).2
    have hx2 : x2 = _ := hx2
    rw [e2] at hx2
    subst hx2
    exact pull_sim ha n B2

theorem onUnwind_bind {σ β : Type} (m : M σ α) (f : α → M σ β) (d : M σ Unit) :
    (m >>= f).onUnwind d = m.onUnwind d >>= fun a => (f a).onUnwind d := by
  apply M.ext'
  intro s
  simp only [M.bind_run, M.onUnwind]
  rcases m s with ⟨r, s'⟩
  cases r with
  | panic y =>
    simp only
    rcases M.unwindDrop d s' with ⟨q, s2⟩
    cases q <;> rfl
  | _ => rfl

theorem InStep.onUnwind {σ τ β : Type} {Q : α → σ → β → τ → Prop} {E E' : σ → τ → Prop} {m : M σ α} {n : M τ β} {d : M σ Unit}
    {e : M τ Unit} {s : σ} {t : τ} (h : InStep Q E (m s) (n t))
    (hE : ∀ s t, E s t → InStep (fun _ s _ t => E' s t) (fun _ _ => True) (d s) (e t)) :
    InStep Q E' (m.onUnwind d s) (n.onUnwind e t) := by
  simp only [M.onUnwind, M.unwindDrop]
  rcases hm : m s with ⟨r, s'⟩
  rcases hn : n t with ⟨q, t'⟩
  rw [hm, hn] at h
  cases q with
  | ok b => obtain ⟨a, s2, h1, h2⟩ := h; cases h1; exact .ok h2
  | panic y =>
    obtain ⟨y, s2, h1, h2⟩ := h
    cases h1
    have h3 := hE _ _ h2
    simp only
    rcases hd : d s' with ⟨r2, s2⟩
    rcases he : e t' with ⟨q2, t2⟩
    rw [hd, he] at h3
    cases q2 with
    | ok b2 => obtain ⟨a2, s2, h4, h5⟩ := h3; cases h4; exact .panic h5
    | panic z => obtain ⟨z, s2, h4, h5⟩ := h3; cases h4; exact .abort
    | ub => cases (show r2 = .ub from h3); exact .ub
    | abort => cases (show r2 = .abort from h3); exact .abort
  | ub => cases (show r = .ub from h); exact .ub
  | abort => cases (show r = .abort from h); exact .abort

/-- No container beside the variables. -/
structure Idle (Γ : TyEnv U) (slots : Slots V) (vars : Nat → Option XVec) (w : World U) (o : Outside U) : Prop where
  user : w.user = o.user
  owned : ∃ L, L.length = o.leaked ∧ Owned Γ slots w.heap vars L

theorem Idle.userStep (N : Idle Γ slots vars w o) (m : M U α) :
    InStep (fun a w b o => a = b ∧ Idle Γ slots vars w o ∧ ∃ u, m u = (.ok b, o.user)) (Idle Γ slots vars)
      (worldUser m w) (call m o) := by
  have hu := N.user
  simp only [worldUser_run, call, M.zoom_run, hu]
  rcases hm : m o.user with ⟨r, u⟩
  have N' : Idle Γ slots vars { w with user := u } { o with user := u } := ⟨rfl, N.owned⟩
  cases r with
  | ok a => exact .ok ⟨rfl, N', _, hm⟩
  | panic y => exact .panic N'
  | ub => exact .ub
  | abort => exact .abort

/-- The container beside the variables is dropped. -/
theorem ApartFrom.dropped (B : ApartFrom Γ slots vars (c, w) (x, o)) :
    ∃ h', VecCopy.drop cfg c w = (.ok (), { w with heap := h' }) ∧ Idle Γ slots vars { w with heap := h' } o := by
  obtain ⟨L, hL, O⟩ := B.owned
  obtain ⟨h', h1, h2⟩ := drop_is (cfg := cfg) B.is B.wf
  exact ⟨h', h1, B.user, L, hL, O.move h2 fun i hi => by cases hi⟩

/-- A local container. -/
theorem ApartFrom.onLocal {m : M (VecCopy V × World U) α} {n : M (XVec × Outside U) Unit}
    (h : InStep (fun _ s _ t => ApartFrom Γ slots vars s t) (ApartFrom Γ slots vars) (m (c, w)) (n (x, o))) :
    InStep (fun a w b o => ApartFrom Γ slots vars (a.2, w) (b, o)) (Idle Γ slots vars) (withLocal c (VecCopy.drop cfg) m w) (onNew x n o) := by
  simp only [withLocal, onNew]
  rcases hm : m (c, w) with ⟨r, c', w'⟩
  rcases hn : n (x, o) with ⟨q, x', o'⟩
  rw [hm, hn] at h
  cases q with
  | ok b => obtain ⟨a, s2, h1, h2⟩ := h; cases h1; exact .ok h2
  | panic y =>
    obtain ⟨y, s2, h1, h2⟩ := h
    cases h1
    obtain ⟨h', h3, h4⟩ := h2.dropped (cfg := cfg)
    simp only [h3]
    exact .panic h4
  | ub => cases (show r = .ub from h); exact .ub
  | abort => cases (show r = .abort from h); exact .abort

theorem collectFrom_sim (ha : ∀ u v u', it.next u = (.ok (some v), u') → v.2.length = Γ.size v.1) (n : Nat)
    (N : Idle Γ slots vars w o) :
    InStep (fun a w b o => ApartFrom Γ slots vars (a, w) (b, o)) (Idle Γ slots vars) (VecCopy.collectFrom Γ cfg vt it n w)
      (XVec.collectFrom Γ cfg it n o) := by
  have e : VecCopy.collectFrom Γ cfg vt it n = (do
      let p ← (do
        match ← worldUser it.next with
        | none => M.panic .unwrapNone
        | some v => do
          let data ← VecCopy.withTypeFrom (Meta.ofValue v.2 v.1 (Γ.align v.1) vt)
          withLocal data (VecCopy.drop cfg) (VecCopy.push Γ cfg (CopyValue.new Γ v.1 vt v.2)) :
            M (World U) (Option Unit × VecCopy V)).onUnwind (worldUser it.drop)
      let q ← withLocal p.2 (VecCopy.drop cfg) (VecCopy.extendFrom Γ cfg vt it n)
      pure q.2) := by
    apply M.ext'
    intro s
    simp only [VecCopy.collectFrom, onUnwind_bind]
    simp only [M.bind_run, M.onUnwind]
    rcases worldUser it.next s with ⟨r, s'⟩
    cases r with
    | ok v =>
      cases v with
      | none =>
        simp only [M.panic_run]
        rcases M.unwindDrop (worldUser it.drop) s' with ⟨q, s2⟩
        cases q <;> rfl
      | some v =>
        simp only [M.pure_run, M.bind_run, show (CopyValue.new Γ v.1 vt v.2).bytes = v.2 from rfl,
          show (CopyValue.new Γ v.1 vt v.2).type_id = v.1 from rfl, show (CopyValue.new Γ v.1 vt v.2).alignment = Γ.align v.1 from rfl,
          show (CopyValue.new Γ v.1 vt v.2).vtable = vt from rfl]
        rcases VecCopy.withTypeFrom (Meta.ofValue v.2 v.1 (Γ.align v.1) vt) s' with ⟨r, s2⟩
        cases r with
        | panic y =>
          simp only
          rcases M.unwindDrop (worldUser it.drop) s2 with ⟨q, s3⟩
          cases q <;> rfl
        | _ => rfl
    | panic y =>
      simp only
      rcases M.unwindDrop (worldUser it.drop) s' with ⟨q, s2⟩
      cases q <;> rfl
    | ub => rfl
    | abort => rfl
  rw [e]
  unfold XVec.collectFrom
  have hd : ∀ w o, Idle Γ slots vars w o → InStep (fun _ w _ o => Idle Γ slots vars w o) (fun _ _ => True) (worldUser it.drop w) (call it.drop o) :=
    fun w o N => (N.userStep it.drop).mono (fun _ _ _ _ h => h.2.1) fun _ _ _ => trivial
  refine InStep.bind (Q := fun a w b o => ApartFrom Γ slots vars (a.2, w) (b, o)) (E := Idle Γ slots vars) ?_ ?_ fun _ _ h => h
  · refine InStep.onUnwind (E := Idle Γ slots vars) ?_ hd
    refine (N.userStep it.next).bind ?_ fun _ _ h => h
    rintro a w1 b o1 ⟨rfl, N1, u, hu⟩
    cases a with
    | none => exact .panic N1
    | some v =>
      obtain ⟨t, x⟩ := v
      have hx : x.length = Γ.size t := ha _ _ _ hu
      have hm : Meta.ofValue x t (Γ.align t) vt = ⟨ElemInfo.new Γ t, vt⟩ := by simp only [Meta.ofValue, ElemInfo.new, hx]
      simp only [hm]
      obtain ⟨L, hL, O⟩ := N1.owned
      by_cases h0 : Γ.size t = 0
      · rw [if_pos h0]
        obtain ⟨y, hy⟩ := withTypeFrom_zst (vt := vt) (w := w1) h0
        rw [M.bind_panic hy]
        exact .panic N1
      · rw [if_neg h0]
        obtain ⟨c, h1, hw, R, hvt, hcap, re⟩ := C46_with_type_from (Nat.pos_of_ne_zero h0) O.wf vt
        rw [M.bind_ok hw]
        have I : XVec.Is Γ h1 c.data (.vec t [] 1) := ⟨R, hcap⟩
        have B : ApartFrom Γ slots vars (c, { w1 with heap := h1 }) (.vec t [] 1, o1) :=
          ⟨N1.user, I, L, hL, Owned.move (p := none) O re fun i hi => (I.lt re.wf i hi).1⟩
        refine ApartFrom.onLocal ?_
        have k1 : ((CopyValue.new Γ t vt x).size == c.elementSize) = true := by
          rw [repr_elementSize (w := { w1 with heap := h1 }) R]; simp [CopyValue.new, CopyValue.size, hx]
        have k2 : (CopyValue.new Γ t vt x).type_id = c.elementTypeId := by
          rw [repr_elementTypeId (w := { w1 with heap := h1 }) R]; rfl
        have k3 : VecCopy.push Γ cfg (CopyValue.new Γ t vt x) (c, { w1 with heap := h1 }) =
            (VecCopy.onData (VecVoid.push Γ cfg x) >>= fun _ => pure (some ())) (c, { w1 with heap := h1 }) := by
          simp only [VecCopy.push, M.bind_run, getSelf_run, k1, M.assert_true_run, if_pos k2]
          rfl
        rw [k3]
        refine InStep.bind (B.plainUnit (m := VecCopy.onData (VecVoid.push Γ cfg x)) (f := XVec.push Γ t x) ?_)
          (fun _ _ _ _ h => .ok h.1) fun _ _ h => h
        have := pushData_agrees (cfg := cfg) (c := c) (w := { w1 with heap := h1 }) R re.wf hx
        rw [show c.data.cap = 1 from hcap] at this
        exact this
  · rintro ⟨_, c1⟩ w1 x1 o1 B
    have e2 : (onNew x1 (XVec.extendFrom Γ cfg it n) : M (Outside U) XVec) = (onNew x1 (XVec.extendFrom Γ cfg it n) >>= pure) := by
      rw [bind_pure]
    rw [e2]
    exact (ApartFrom.onLocal (extendFrom_sim ha n B)).bind (fun _ _ _ _ h => .ok h) fun _ _ h => h

end Dync
