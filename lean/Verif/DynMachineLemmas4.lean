import Verif.DynMachineLemmas3
/-!
# Methods of a container: the implementation and the machine of `DynMachine.lean` in step
-/
namespace Dync
variable {U V α β γ δ σ τ : Type} {Γ : TyEnv U} {t t' tb : TyId} {n : Nat} {w : World U} {o : Outside U} {cfg : Cfg}
  {F : Nat → Option Layout} {O : List Nat} {vt : V} {es es' : List Bytes} {rv : RVec} {b : Bytes} {c : VecDyn V} {x x' : XVec}

variable [HasDrop U V] [HasClone U V] [TableLaw V]

/-! ### Rules -/

theorem InStep.unmap {Q : β → σ → γ → τ → Prop} {E : σ → τ → Prop} {m : M σ α} {f : α → β} {s : σ} {q : Res γ × τ}
    (h : InStep Q E ((m >>= fun a => pure (f a)) s) q) : InStep (fun a s b t => Q (f a) s b t) E (m s) q := by
  rw [M.bind_run] at h
  rcases hm : m s with ⟨r, s'⟩
  rw [hm] at h
  rcases q with ⟨r2, t'⟩
  cases r2 with
  | ok b =>
    obtain ⟨a, s2, h1, h2⟩ := h
    cases r with
    | ok a' => cases h1; exact .ok h2
    | panic y => cases h1
    | ub => cases h1
    | abort => cases h1
  | panic y =>
    obtain ⟨a, s2, h1, h2⟩ := h
    cases r with
    | ok a' => cases h1
    | panic y => cases h1; exact .panic h2
    | ub => cases h1
    | abort => cases h1
  | ub => cases r with
    | ub => exact .ub
    | _ => cases h
  | abort => cases r with
    | abort => exact .abort
    | _ => cases h

theorem InStep.repeatN {E : σ → τ → Prop} {m : M σ Unit} {k : M τ Unit}
    (h : ∀ s t, E s t → InStep (fun _ s _ t => E s t) E (m s) (k t)) (n : Nat) :
    ∀ s t, E s t → InStep (fun _ s _ t => E s t) E (M.repeatN n m s) (M.repeatN n k t) := by
  induction n with
  | zero => exact fun s t he => .ok he
  | succ n ih => exact fun s t he => (h s t he).bind (fun _ s _ t he => ih s t he) (fun _ _ he => he)

theorem InStep.forEach {E : σ → τ → Prop} {f : α → M σ Unit} {g : α → M τ Unit} (xs : List α)
    (h : ∀ x ∈ xs, ∀ s t, E s t → InStep (fun _ s _ t => E s t) E (f x s) (g x t)) :
    ∀ s t, E s t → InStep (fun _ s _ t => E s t) E (M.forEach xs f s) (M.forEach xs g t) := by
  induction xs with
  | nil => exact fun s t he => .ok he
  | cons x xs ih =>
    exact fun s t he => (h x (by simp) s t he).bind
      (fun _ s _ t he => ih (fun y hy => h y (by simp [hy])) s t he) (fun _ _ he => he)

/-! ### Containers -/

/-- The container `s.1` holds `q.1`. Its table was built for `tb`; `O` are the other blocks in use. -/
structure ContIs (Γ : TyEnv U) (F : Nat → Option Layout) (O : List Nat) (tb : TyId) (vt : V) (s : VecDyn V × World U)
    (q : XVec × Outside U) : Prop where
  vtable : s.1.vtable = vt
  worlds : Worlds F (s.1.data.ptr.toList ++ O) s.2 q.2
  is : q.1.Is Γ s.2.heap s.1.data
  ty : ∀ t es cap, q.1 = .vec t es cap → t = tb

/-- A method in step. -/
abbrev Method (Γ : TyEnv U) (F : Nat → Option Layout) (O : List Nat) (tb : TyId) (vt : V)
    (r : Res Obs × (VecDyn V × World U)) (q : Res Obs × (XVec × Outside U)) : Prop :=
  InStep (fun a s b q => a = b ∧ ContIs Γ F O tb vt s q) (ContIs Γ F O tb vt) r q

theorem ContIs.plain {f : XVec → After} {m : M (VecDyn V × World U) Obs} (C : ContIs Γ F O tb vt (c, w) (x, o))
    (hA : (f x).Agrees Γ m c w) (hty : ∀ t es cap, (f x).now = .vec t es cap → t = tb) :
    Method Γ F O tb vt (m (c, w)) (XVec.plain f (x, o)) := by
  rcases hA with ⟨h1, h2⟩ | ⟨h1, r, d, h', h2, h3, h4, h5⟩
  · simp only [XVec.plain, h1]; exact h2
  · have B := C.worlds.blocks.moves h5 (fun i hi => by
      cases hx : (f x).now with
      | vec t es cap =>
        rw [hx] at h4
        obtain ⟨j, hp, hl⟩ := h4.1.block
        have : some i = some j := hi.symm.trans hp
        cases this
        rw [hl]; simp
      | unit n =>
        rw [hx] at h4
        have u : IsUnits Γ n d := h4
        have := u.ptr.symm.trans hi
        cases this)
    have C' : ContIs Γ F O tb vt ({ c with data := d }, { w with heap := h' })
        ((f x).now, { o with leaked := o.leaked + if (f x).leak then 1 else 0 }) :=
      ⟨C.vtable, ⟨C.worlds.user, B⟩, h4, hty⟩
    rw [h2]
    simp only [XVec.plain]
    cases ho : (f x).out with
    | ok a =>
      rw [ho] at h3
      have h3 : r = .ok a := h3
      subst h3
      exact .ok ⟨rfl, C'⟩
    | panic =>
      rw [ho] at h3
      obtain ⟨y, rfl⟩ := h3
      exact .panic C'
    | ub => exact absurd ho h1

theorem ContIs.vec {cap : Nat} (C : ContIs Γ F O tb vt (c, w) (.vec t es cap, o)) :
    Repr Γ w.heap t es c.data ∧ cap = c.data.cap ∧ t = tb := ⟨C.is.1, C.is.2.symm, C.ty _ _ _ rfl⟩

theorem ContIs.unit (C : ContIs Γ F O tb vt (c, w) (.unit n, o)) : IsUnits Γ n c.data := C.is

theorem ContIs.setUser (C : ContIs Γ F O tb vt (c, w) (x, o)) (u : U) :
    ContIs Γ F O tb vt (c, { w with user := u }) (x, { o with user := u }) :=
  ⟨C.vtable, ⟨rfl, C.worlds.blocks⟩, C.is, C.ty⟩

theorem ContIs.user (C : ContIs Γ F O tb vt (c, w) (x, o)) : w.user = o.user := C.worlds.user

theorem ContIs.wf (C : ContIs Γ F O tb vt (c, w) (x, o)) : w.heap.WF := C.worlds.wf

/-- User code that runs beside the container. -/
theorem ContIs.call (C : ContIs Γ F O tb vt (c, w) (x, o)) (m : M U α) :
    InStep (fun a s b q => a = b ∧ ∃ u, s = (c, { w with user := u }) ∧ q = (x, { o with user := u }) ∧ m w.user = (.ok a, u))
      (fun s q => ∃ u, s = (c, { w with user := u }) ∧ q = (x, { o with user := u }))
      (onWorld (worldUser m) (c, w)) (aside (Dync.call m) (x, o)) := by
  simp only [onWorld_run, worldUser_run, aside, M.zoom_run, Dync.call, C.user]
  rcases m o.user with ⟨r, u⟩
  cases r with
  | ok a => exact .ok ⟨rfl, u, rfl, rfl, rfl⟩
  | panic y => exact .panic ⟨u, rfl, rfl⟩
  | ub => exact .ub
  | abort => exact .abort

theorem ContIs.call' {s : VecDyn V × World U} {q : XVec × Outside U} (C : ContIs Γ F O tb vt s q) (m : M U α) :
    InStep (fun a s b q => a = b ∧ ContIs Γ F O tb vt s q) (ContIs Γ F O tb vt)
      (onWorld (worldUser m) s) (aside (Dync.call m) q) := by
  obtain ⟨c, w⟩ := s
  obtain ⟨x, o⟩ := q
  refine (ContIs.call C m).mono ?_ ?_
  · rintro a s b q ⟨h1, u, rfl, rfl, -⟩; exact ⟨h1, C.setUser u⟩
  · rintro s q ⟨u, rfl, rfl⟩; exact C.setUser u

/-- The content of a container of typed elements changes. -/
theorem ContIs.evolves {cap : Nat} (C : ContIs Γ F O tb vt (c, w) (.vec t es cap, o)) {d : VecVoid} {u : U}
    (hev : Evolves Γ t 0 es' w.heap c.data w.heap d) :
    ContIs Γ F O tb vt ({ c with data := d }, { w with user := u }) (.vec t es' cap, { o with user := u }) := by
  have hty := C.ty t es cap rfl
  refine ⟨C.vtable, ?_, ⟨hev.repr, (hev.stay (Nat.zero_le _)).2.1.trans C.is.2⟩, fun _ _ _ e => by cases e; exact hty⟩
  have B := C.worlds.blocks.move hev.realloc (fun i hi => by
    obtain ⟨j, hp, hl⟩ := hev.repr.block
    have : some i = some j := hi.symm.trans hp
    cases this
    rw [hl]; simp)
  exact ⟨rfl, B⟩

theorem ContIs.refused (C : ContIs Γ F O tb vt (c, w) (x, o)) (b : Bytes) :
    Method Γ F O tb vt ((do onWorld (worldUser (Γ.drop t b)); return Obs.refused : M (VecDyn V × World U) Obs) (c, w)) (refuse Γ t b (x, o)) :=
  (C.call' (Γ.drop t b)).bind (fun _ _ _ _ h => .ok ⟨rfl, h.2⟩) (fun _ _ h => h)

/-! ### `push_as` -/

theorem pushOwned_lost {v : VecVoid} {y : Why} (hint : ∀ s : VecVoid × World U, VecVoid.intoVecUnchecked cfg Γ t v s = (.ok rv, s))
    (hp : RVec.push (Γ.layout t) b (rv, w) = (.panic y, (rv, w)))
    (T : TypedVec Γ w.heap t es n rv) (W : Worlds F (rv.ptr.toList ++ O) w o) :
    InStep (fun _ _ _ _ => False) (fun s q => s.1 = VecVoid.default Γ ∧ Worlds F O s.2 q.2 ∧ q.1 = .unit 0)
      (VecVoid.applyUnchecked Γ cfg t (RVec.pushOwned Γ t b) (v, w))
      ((do
        aside (M.unwindDrop (call (Γ.drop t b)))
        aside (M.unwindDrop (dropAll Γ t es))
        lose : M (XVec × Outside U) Obs) (x, o)) := by
  simp only [VecVoid.applyUnchecked, M.bind_run, getSelf_run, setSelf_run, hint, onWorld_run, withLocal, RVec.pushOwned, M.onUnwind,
    hp, M.unwindDrop, worldUser_run, aside, call, M.zoom_run, W.user]
  rcases hd : Γ.drop t b o.user with ⟨r, u⟩
  cases r with
  | ok a =>
    have T' := TypedVec.dropTyped (w := { w with user := u }) (o := { o with user := u }) T ⟨rfl, W.blocks⟩
    simp only
    rcases hq : dropAll Γ t es { o with user := u } with ⟨q, o'⟩
    rw [hq] at T'
    rcases hr : RVec.dropTyped Γ t rv { w with user := u } with ⟨r, w'⟩
    rw [hr] at T'
    cases q with
    | ok _ =>
      obtain ⟨a, s, h1, h2⟩ := T'
      cases h1
      exact .panic ⟨rfl, h2, rfl⟩
    | panic z =>
      obtain ⟨a, s, h1, h2⟩ := T'
      cases h1
      exact .abort
    | ub => cases T'; exact .ub
    | abort => cases T'; exact .abort
  | panic z => exact .abort
  | ub => exact .ub
  | abort => exact .abort

theorem lost_method {m : M (VecVoid × World U) Unit} {q : Res Obs × (XVec × Outside U)} (hv : c.vtable = vt)
    (h : InStep (fun _ _ _ _ => False) (fun s q => s.1 = VecVoid.default Γ ∧ Worlds F O s.2 q.2 ∧ q.1 = .unit 0) (m (c.data, w)) q) :
    Method Γ F O tb vt ((do VecCopy.onData m; return Obs.done : M (VecDyn V × World U) Obs) (c, w)) q := by
  rw [M.bind_run, VecCopy.onData_run]
  rcases hm : m (c.data, w) with ⟨r, d, w'⟩
  rw [hm] at h
  obtain ⟨r2, x', o'⟩ := q
  cases r2 with
  | ok b => obtain ⟨_, _, _, h⟩ := h; exact h.elim
  | panic y =>
    obtain ⟨z, s, h1, h2, h3, h4⟩ := h
    cases h1
    cases h2
    cases h4
    exact .panic ⟨hv, h3, IsUnits.default Γ, fun _ _ _ e => by cases e⟩
  | ub => cases h; exact .ub
  | abort => cases h; exact .abort

theorem pushAs_done (hck : c.checkRef t = some c) {q : Res Obs × (XVec × Outside U)}
    (h : Method Γ F O tb vt ((do VecCopy.onData (VecVoid.applyUnchecked Γ cfg t (RVec.pushOwned Γ t b)); return Obs.done
      : M (VecDyn V × World U) Obs) (c, w)) q) :
    Method Γ F O tb vt ((do return Obs.ofUnit (← VecCopy.pushAs Γ cfg t b) : M (VecDyn V × World U) Obs) (c, w)) q := by
  have : (do return Obs.ofUnit (← VecCopy.pushAs Γ cfg t b) : M (VecDyn V × World U) Obs) (c, w) =
      (do VecCopy.onData (VecVoid.applyUnchecked Γ cfg t (RVec.pushOwned Γ t b)); return Obs.done
      : M (VecDyn V × World U) Obs) (c, w) := by
    simp only [VecCopy.pushAs, M.bind_run, getSelf_run, hck]
    rcases VecCopy.onData (VecVoid.applyUnchecked Γ cfg t (RVec.pushOwned Γ t b)) (c, w) with ⟨r, s⟩
    cases r <;> rfl
  rw [this]
  exact h

theorem pushAs_none (hck : c.checkRef t = none) (C : ContIs Γ F O tb vt (c, w) (x, o)) (b : Bytes) :
    Method Γ F O tb vt ((do return Obs.ofUnit (← VecCopy.pushAs Γ cfg t b) : M (VecDyn V × World U) Obs) (c, w)) (refuse Γ t b (x, o)) := by
  have : (do return Obs.ofUnit (← VecCopy.pushAs Γ cfg t b) : M (VecDyn V × World U) Obs) (c, w) =
      (do onWorld (worldUser (Γ.drop t b)); return Obs.refused : M (VecDyn V × World U) Obs) (c, w) := by
    simp only [VecCopy.pushAs, M.bind_run, getSelf_run, hck]
    rcases onWorld (worldUser (Γ.drop t b)) (c, w) with ⟨r, s⟩
    cases r <;> rfl
  rw [this]
  exact C.refused b

theorem pushOwned_ok {s : RVec × World U} (h : RVec.push (Γ.layout t) b (rv, w) = (.ok (), s)) :
    RVec.pushOwned Γ t b (rv, w) = (.ok (), s) := by
  simp only [RVec.pushOwned, M.onUnwind, h]

theorem grown_method {m : M (VecVoid × World U) Unit} {d : VecVoid} {h' : Heap} (C : ContIs Γ F O tb vt (c, w) (x, o))
    (hm : m (c.data, w) = (.ok (), (d, { w with heap := h' }))) (hx : XVec.Is Γ h' d x')
    (hty : ∀ t es cap, x' = .vec t es cap → t = tb)
    (re : Realloc w.heap c.data.ptr h' d.ptr) :
    Method Γ F O tb vt ((do VecCopy.onData m; return Obs.done : M (VecDyn V × World U) Obs) (c, w)) (.ok .done, (x', o)) := by
  rw [onData_done hm]
  have B := C.worlds.blocks.move re (fun i hi => (hx.lt re.wf i hi).1)
  exact .ok ⟨rfl, C.vtable, ⟨C.worlds.user, B⟩, hx, hty⟩

theorem pushAs_method (C : ContIs Γ F O tb vt (c, w) (x, o)) (hb : b.length = Γ.size t) :
    Method Γ F O tb vt ((do return Obs.ofUnit (← VecCopy.pushAs Γ cfg t b) : M (VecDyn V × World U) Obs) (c, w))
      (XVec.dynPushAs Γ t b (x, o)) := by
  cases x with
  | vec t' es cap =>
    obtain ⟨R, rfl, hty⟩ := C.vec
    simp only [XVec.dynPushAs]
    rw [M.bind_ok (M.get_run _)]
    simp only
    by_cases ht : t = t'
    swap
    · rw [if_neg ht]
      exact pushAs_none (VecCopy.checkRef_none R ht) C b
    subst ht
    rw [if_pos rfl]
    refine pushAs_done (VecCopy.checkRef_some R) ?_
    have heach := each_snoc R.each hb
    obtain ⟨i', hp', hl⟩ := R.block
    have hf := RVec.push_eq (T := Γ.layout t) (v := c.data.typedView) (w := w) b R.len_le
    simp only [M.bind_run] at hf
    have hcs := RVec.reserve_cases (T := Γ.layout t) (v := c.data.typedView) (w := w) (s := 1) (cap := c.data.cap) (len := es.length) 1
      R.pos Nat.one_pos (Nat.mul_one _).symm (by rw [Nat.mul_one]; exact R.len) R.cap_pos C.wf hp' hl
    rw [show (Γ.layout t).size = Γ.size t from rfl, show (Γ.layout t).align = Γ.align t from rfl] at hcs
    rcases hcs with ⟨h1, h2, h3⟩ | ⟨k, j, h', h1, h2, h3, h4, h5, h6, h7⟩ | ⟨h1, y, h2⟩ | ⟨h1, K, j, h', h2, h3, h4, h5, h6⟩
    · simp only [h1, h2, M.modify_run] at hf ⊢
      have hlt : es.length + 1 ≤ c.data.cap := by have := R.len_cap; omega
      have hiv : IsVec Γ w.heap t (es ++ [b]) ⟨c.data.ptr, c.data.len + 1, c.data.cap, c.data.mem ++ b⟩ :=
        ⟨by simp [R.mem], heach, by simp [R.len], by simp only [R.len]; exact hlt, R.room, .inr ⟨R.cap_pos, R.block⟩⟩
      have := applyUnchecked_ok (cfg := cfg) R (pushOwned_ok hf) hiv R.cap_pos C.wf
      refine grown_method C (h' := w.heap) this ⟨?_, rfl⟩ (fun _ _ _ e => by cases e; exact hty) (Realloc.refl C.wf _)
      have := R.setContent (es' := es ++ [b]) (by simp; omega) heach
      simpa [VecVoid.typedView, R.mem, R.len] using this
    · simp only [h1, h2, M.modify_run] at hf ⊢
      rw [Nat.mul_one] at hf h4 h7
      have hc0 := Nat.lt_of_lt_of_le R.cap_pos h5
      have hiv : IsVec Γ h' t (es ++ [b]) ⟨some j, c.data.len + 1, k, c.data.mem ++ b⟩ :=
        ⟨by simp [R.mem], heach, by simp [R.len], by simp only [R.len]; omega, h7, .inr ⟨hc0, j, rfl, h4⟩⟩
      have := applyUnchecked_ok (cfg := cfg) R (pushOwned_ok hf) hiv hc0 h3.wf
      refine grown_method C (h' := h') this ⟨?_, rfl⟩ (fun _ _ _ e => by cases e; exact hty) (hp' ▸ h3)
      have := R.regrow (es' := es ++ [b]) (k := k) (j := j) (h' := h') heach (by simp; omega) hc0
        (by rw [Nat.mul_assoc, R.chunks]; exact h4) (by rw [Nat.mul_assoc, R.chunks]; exact h7)
      simpa [VecVoid.typedView, R.mem, R.len] using this
    · simp only [h1, h2] at hf ⊢
      exact lost_method C.vtable (pushOwned_lost (R.intoVec cfg) hf (.ofIsVec R.isVec R.pos) C.worlds)
    · rw [Nat.mod_one] at h6
      exact absurd rfl h6
  | unit n =>
    have u := C.unit
    simp only [XVec.dynPushAs]
    rw [M.bind_ok (M.get_run _)]
    simp only
    by_cases ht : t = Γ.unitTy
    swap
    · rw [if_neg ht]
      exact pushAs_none (by rw [unit_checkRef u, if_neg ht]) C b
    subst ht
    rw [if_pos rfl]
    have hb0 := unit_nil hb
    subst hb0
    refine pushAs_done (by rw [unit_checkRef u, if_pos rfl]) ?_
    by_cases hn : n = usizeMax
    · rw [if_pos hn]
      have hpush : RVec.push (Γ.layout Γ.unitTy) [] (⟨none, c.data.len, usizeMax, []⟩, w) =
          (.panic .capacity, ((⟨none, c.data.len, usizeMax, []⟩ : RVec), w)) := by
        simp [RVec.push, RVec.grow, Γ.unit_size, u.len, hn]
      have W := C.worlds
      rw [show (c, w).1.data.ptr = none from u.ptr] at W
      exact lost_method C.vtable (pushOwned_lost u.good.typedView hpush (typed_unit u) W)
    · rw [if_neg hn]
      have hpush : RVec.push (Γ.layout Γ.unitTy) [] (⟨none, c.data.len, usizeMax, []⟩, w) =
          (.ok (), ((⟨none, c.data.len + 1, usizeMax, []⟩ : RVec), w)) := by
        simp [RVec.push, u.len, hn]
      have hl := withLocal_ok (d := RVec.dropTyped Γ Γ.unitTy) (pushOwned_ok hpush)
      have hne : usizeMax ≠ 0 := by decide
      have hlc : (withLocal (⟨none, c.data.len + 1, usizeMax, []⟩ : RVec) noDrop (VecVoid.intoValidVec (Γ.layout Γ.unitTy)) :
          M (World U) (Unit × RVec)) w = (.ok ((), ⟨none, c.data.len + 1, usizeMax, []⟩), w) := by
        simp [withLocal, VecVoid.intoValidVec, hne]
      refine grown_method C (h' := w.heap) (d := ⟨none, n + 1, usizeMax, ElemInfo.new Γ Γ.unitTy, []⟩) ?_
        (⟨rfl, rfl, rfl, rfl, rfl⟩ : IsUnits Γ (n + 1) _) (fun _ _ _ e => by cases e) (by rw [u.ptr]; exact Realloc.refl C.wf _)
      simp only [VecVoid.applyUnchecked, M.bind_run, getSelf_run, setSelf_run, u.good.typedView, onWorld_run, hl, VecVoid.fromVec, hlc]
      rw [u.len]
      rfl

end Dync
