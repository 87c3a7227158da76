import Verif.HistoryDynPanic
/-!
# Counting the values a program owns

The user state is extended by a ledger that records every value that comes into being by cloning and every
value whose destructor runs. On plain typed values (`DOp.spec`) nothing is ever lost or duplicated: what
is dropped or still held by a variable is what was passed in or cloned. The implementation agrees with the
plain values for every environment, hence also for the one with the ledger (`Props/Ledger.lean`).
-/
namespace Dync
variable {U V : Type}

/-- A typed value. -/
abbrev Obj := TyId × Bytes

/-- User state with a record of values made by cloning and of values whose destructor was started. -/
structure Ledger (U : Type) where
  user : U
  born : List Obj
  dead : List Obj

/-- The start of an instrumented program. -/
def Ledger.start (u : U) : Ledger U := ⟨u, [], []⟩

namespace TyEnv

/-- Run user code. -/
def ledgerUser {α : Type} (m : M U α) : M (Ledger U) α := M.zoom Ledger.user (fun u l => { l with user := u }) m

/-- Run the destructor and record that. -/
def ledgerDrop (Γ : TyEnv U) (t : TyId) (x : Bytes) : M (Ledger U) Unit := do
  M.modify fun l => { l with dead := l.dead ++ [(t, x)] }
  ledgerUser (Γ.drop t x)

/-- Clone; a clone that was returned is recorded. -/
def ledgerClone (Γ : TyEnv U) (t : TyId) (x : Bytes) : M (Ledger U) Bytes := do
  let c ← ledgerUser (Γ.clone t x)
  M.modify fun l => { l with born := l.born ++ [(t, c)] }
  pure c

/-- `clone_from` replaces the old value by a new one. -/
def ledgerCloneFrom (Γ : TyEnv U) (t : TyId) (src : Bytes) : M (Bytes × Ledger U) Unit := ⟨fun s =>
  let out := Γ.cloneFrom t src (s.1, s.2.user)
  (out.1, (out.2.1, ⟨out.2.2, s.2.born ++ [(t, out.2.1)], s.2.dead ++ [(t, s.1)]⟩))⟩

theorem ledgerClone_inv {Γ : TyEnv U} {t : TyId} {x c : Bytes} {l l' : Ledger U}
    (h : Γ.ledgerClone t x l = (.ok c, l')) :
    ∃ u, Γ.clone t x l.user = (.ok c, u) ∧ l' = ⟨u, l.born ++ [(t, c)], l.dead⟩ := by
  simp only [ledgerClone, ledgerUser, M.bind_run, M.zoom_run, M.modify_run, M.pure_run] at h
  rcases hc : Γ.clone t x l.user with ⟨r, u⟩
  rw [hc] at h
  cases r with
  | ok a => cases h; exact ⟨u, rfl, rfl⟩
  | panic y => cases h
  | ub => cases h
  | abort => cases h

/-- The same types; their `Clone` and `Drop` code is recorded in the ledger. -/
def ledger (Γ : TyEnv U) : TyEnv (Ledger U) where
  size := Γ.size
  align := Γ.align
  align_pow := Γ.align_pow
  align_dvd := Γ.align_dvd
  size_le := Γ.size_le
  unitTy := Γ.unitTy
  unit_size := Γ.unit_size
  unit_align := Γ.unit_align
  drop := Γ.ledgerDrop
  clone := Γ.ledgerClone
  clone_len := fun h => by
    obtain ⟨u, hc, -⟩ := ledgerClone_inv h
    exact Γ.clone_len hc
  cloneFrom := Γ.ledgerCloneFrom
  cloneFrom_len := fun {t src d l r d' l'} h hd => by
    simp only [ledgerCloneFrom] at h
    rcases hc : Γ.cloneFrom t src (d, l.user) with ⟨r1, d1, u1⟩
    rw [hc] at h
    cases h
    exact Γ.cloneFrom_len hc hd
  eq := Γ.eq
  hash := Γ.hash
  fmt := Γ.fmt

end TyEnv

/-! ### What a program owns -/

/-- The values held by a variable. -/
def SItem.objs : SItem → List Obj
  | .vec t es => es.map (Prod.mk t)
  | .box t x => [(t, x)]
  | .small t x => [(t, x)]

/-- The values held by the variables below `K`. -/
def DState.live (K : Nat) (s : DState) : List Obj := (List.range K).flatMap fun k => ((s k).map SItem.objs).getD []

/-- A by-value argument of a method on the container in variable `k`. -/
def DState.toVec (s : DState) (k : Nat) (x : Obj) : List Obj :=
  match s k with
  | some (.vec _ _) => [x]
  | _ => []

/-- A value written to element `i` of the container in variable `k`. -/
def DState.toElem (s : DState) (k i : Nat) (x : Obj) : List Obj :=
  match s k with
  | some (.vec _ es) => if i < es.length then [x] else []
  | _ => []

/-- The values that are passed by value to an operation. A variable without container takes nothing; the
right-hand side of `*c.get_mut_as(i)? = x` is made after the place was found. -/
def DOp.given (s : DState) : DOp → List Obj
  | .fromVec _ t xs => xs.map (Prod.mk t)
  | .withSize _ t _ x => [(t, x)]
  | .newBox _ t x => [(t, x)]
  | .newSmall _ t x => [(t, x)]
  | .pushAs k t x => s.toVec k (t, x)
  | .resize k t _ x => s.toVec k (t, x)
  | .fill k t x => s.toVec k (t, x)
  | .setAs k t i x => s.toElem k i (t, x)
  | _ => []

/-- The variables an operation uses. -/
def DOp.vars : DOp → List Nat
  | withType k _ | withCapacity k _ _ | fromVec k _ _ | fromSlice k _ _ | withSize k _ _ _ | newBox k _ _
  | newSmall k _ _ | drop k | consume k _ | roundTrip k _ | pushAs k _ _ | resize k _ _ _ | fill k _ _ | clear k
  | rotateLeft k _ | rotateRight k _ | swap k _ _ | setAs k _ _ _ | cloneIntoVec k _ | len k | typeId k
  | getAs k _ _ | get k _ | asSlice k _ | iter k => [k]
  | clone k j | append k j | pushCloned k j _ | pushBox k j | cloneValue k _ j | cloneSmall k _ j | assign k _ j
  | cloneFrom k _ j _ | swapValues k _ j _ => [k, j]

/-- The values a program with caught panics passes by value. -/
def givenDOps (Γ : TyEnv U) : List DOp → DState × U → List Obj
  | [], _ => []
  | op :: ops, q => op.given q.1 ++ givenDOps Γ ops ((op.spec Γ).caught q).2

/-! ### Counting -/

/-- The outcome is a value or a panic. -/
def Res.Caught {α : Type} (r : Res α) : Prop := r ≠ .ub ∧ r ≠ .abort

/-- How often `a` occurs among elements of type `t`. -/
def cnt (a : Obj) (t : TyId) (es : List Bytes) : Int := ((es.map (Prod.mk t)).count a : Nat)

/-- How often `a` occurs in a variable. -/
def SItem.cnt (a : Obj) (b : SItem) : Int := (b.objs.count a : Nat)
def cntO (a : Obj) (b : Option SItem) : Int := match b with
  | none => 0
  | some b => b.cnt a

/-- Dead minus born. -/
def Ledger.net (a : Obj) (l : Ledger U) : Int := (l.dead.count a : Nat) - ((l.born.count a : Nat) : Int)

/-- How often `a` occurs in the variables below `K`. -/
def DState.cnt (a : Obj) : Nat → DState → Int
  | 0, _ => 0
  | K + 1, s => DState.cnt a K s + cntO a (s K)

/-- Held plus dead minus born. -/
def total (a : Obj) (K : Nat) (q : DState × Ledger U) : Int := q.1.cnt a K + q.2.net a

variable {a : Obj} {t : TyId} {es es' xs : List Bytes} {x : Bytes} {K k i j : Nat} {s : DState}

theorem cnt_nil : cnt a t [] = 0 := rfl
theorem cnt_append : cnt a t (es ++ es') = cnt a t es + cnt a t es' := by simp [cnt]
theorem cnt_cons : cnt a t (x :: es) = cnt a t [x] + cnt a t es := by
  rw [← cnt_append]; rfl
theorem cnt_take_drop (n : Nat) : cnt a t (es.take n) + cnt a t (es.drop n) = cnt a t es := by
  rw [← cnt_append, List.take_append_drop]

theorem cnt_set (hi : i < es.length) : cnt a t (es.set i x) + cnt a t [es[i]] = cnt a t es + cnt a t [x] := by
  induction es generalizing i with
  | nil => cases hi
  | cons e es ih =>
    cases i with
    | zero => simp only [List.set_cons_zero, List.getElem_cons_zero, cnt_cons (es := es)]; omega
    | succ i =>
      have := ih (i := i) (by simpa using hi)
      simp only [List.set_cons_succ, List.getElem_cons_succ, cnt_cons (es := es), cnt_cons (es := es.set i x)]
      omega

theorem SItem.cnt_vec : (SItem.vec t es).cnt a = Dync.cnt a t es := rfl
theorem SItem.cnt_box : (SItem.box t x).cnt a = Dync.cnt a t [x] := rfl
theorem SItem.cnt_small : (SItem.small t x).cnt a = Dync.cnt a t [x] := rfl

theorem DState.cnt_put_ge {b : Option SItem} (h : K ≤ k) : DState.cnt a K (Slots.put s k b) = s.cnt a K := by
  induction K with
  | zero => rfl
  | succ K ih =>
    simp only [DState.cnt]
    rw [ih (by omega), Slots.put_other _ _ (by omega)]

theorem DState.cnt_put {b : Option SItem} (h : k < K) :
    DState.cnt a K (Slots.put s k b) + cntO a (s k) = s.cnt a K + cntO a b := by
  induction K with
  | zero => cases h
  | succ K ih =>
    simp only [DState.cnt]
    by_cases hk : k = K
    · subst hk
      rw [DState.cnt_put_ge (Nat.le_refl _), Slots.put_same]; omega
    · have := ih (by omega)
      rw [Slots.put_other _ _ (Ne.symm hk)]; omega

theorem DState.live_count (K : Nat) (s : DState) : ((s.live K).count a : Nat) = s.cnt a K := by
  induction K with
  | zero => rfl
  | succ K ih =>
    have : s.live (K + 1) = s.live K ++ ((s K).map SItem.objs).getD [] := by
      simp [DState.live, List.range_succ]
    rw [this, List.count_append, Int.natCast_add, ih]
    simp only [DState.cnt]
    cases hs : s K with
    | none => simp [cntO]
    | some b => simp [cntO, SItem.cnt]

/-! ### User code -/

variable {Γ : TyEnv U} {l l' : Ledger U} {r : Res Unit}

theorem ledger_drop_net (h : Γ.ledger.drop t x l = (r, l')) : l'.net a = l.net a + cnt a t [x] := by
  simp only [TyEnv.ledger, TyEnv.ledgerDrop, TyEnv.ledgerUser, M.bind_run, M.modify_run, M.zoom_run] at h
  cases h
  simp only [Ledger.net, cnt, List.map_cons, List.map_nil, List.count_append]
  omega

theorem ledger_clone_net {c : Bytes} (h : Γ.ledger.clone t x l = (.ok c, l')) : l'.net a + cnt a t [c] = l.net a := by
  obtain ⟨u, -, rfl⟩ := TyEnv.ledgerClone_inv h
  simp only [Ledger.net, cnt, List.map_cons, List.map_nil, List.count_append]
  omega

theorem ledger_clone_fail {r : Res Bytes} (h : Γ.ledger.clone t x l = (r, l')) (hr : ∀ c, r ≠ .ok c) : l'.net a = l.net a := by
  simp only [TyEnv.ledger, TyEnv.ledgerClone, TyEnv.ledgerUser, M.bind_run, M.zoom_run, M.modify_run, M.pure_run] at h
  rcases hc : Γ.clone t x l.user with ⟨r1, u⟩
  rw [hc] at h
  cases r1 with
  | ok c => cases h; exact absurd rfl (hr c)
  | panic y => cases h; rfl
  | ub => cases h; rfl
  | abort => cases h; rfl

theorem ledger_cloneFrom_net {d d' : Bytes} (h : Γ.ledger.cloneFrom t x (d, l) = (r, (d', l'))) :
    l'.net a + cnt a t [d'] = l.net a + cnt a t [d] := by
  simp only [TyEnv.ledger, TyEnv.ledgerCloneFrom] at h
  cases h
  simp only [Ledger.net, cnt, List.map_cons, List.map_nil, List.count_append]
  omega

theorem ledger_dropEach_net (h : M.dropEach xs (Γ.ledger.drop t) l = (r, l')) (hr : r.Caught) :
    l'.net a = l.net a + cnt a t xs := by
  induction xs generalizing l l' r with
  | nil => cases h; simp [cnt_nil]
  | cons x xs ih =>
    simp only [M.dropEach, M.thenDrop] at h
    rw [cnt_cons]
    rcases h1 : Γ.ledger.drop t x l with ⟨r1, l1⟩
    have e1 := ledger_drop_net (a := a) h1
    rw [h1] at h
    rcases h2 : M.dropEach xs (Γ.ledger.drop t) l1 with ⟨r2, l2⟩
    have e2 : r2.Caught → l2.net a = l1.net a + cnt a t xs := ih h2
    cases r1 with
    | ok b =>
      simp only [h2] at h
      cases r2 with
      | ok b => cases h; have := e2 ⟨by simp, by simp⟩; omega
      | panic y => cases h; have := e2 ⟨by simp, by simp⟩; omega
      | ub => cases h; exact absurd rfl hr.1
      | abort => cases h; exact absurd rfl hr.2
    | panic y =>
      simp only [h2] at h
      cases r2 with
      | ok b => cases h; have := e2 ⟨by simp, by simp⟩; omega
      | panic y => cases h; exact absurd rfl hr.2
      | ub => cases h; exact absurd rfl hr.1
      | abort => cases h; exact absurd rfl hr.2
    | ub => cases h; exact absurd rfl hr.1
    | abort => cases h; exact absurd rfl hr.2

theorem ledger_item_drop_net {b : SItem} (h : b.drop Γ.ledger l = (r, l')) (hr : r.Caught) :
    l'.net a = l.net a + b.cnt a := by
  cases b with
  | vec t es => exact ledger_dropEach_net h hr
  | box t x => exact ledger_drop_net h
  | small t x => exact ledger_drop_net h

theorem ledger_extendClones_net (h : TVec.extendClones Γ.ledger t xs es l = (r, (es', l'))) :
    l'.net a + cnt a t es' = l.net a + cnt a t es := by
  induction xs generalizing es l with
  | nil => cases h; rfl
  | cons x xs ih =>
    simp only [TVec.extendClones] at h
    rcases hc : Γ.ledger.clone t x l with ⟨r1, l1⟩
    rw [hc] at h
    cases r1 with
    | ok c =>
      have := ih h
      have := ledger_clone_net (a := a) hc
      rw [cnt_append] at *
      omega
    | panic y => cases h; rw [ledger_clone_fail hc (by simp)]
    | ub => cases h; rw [ledger_clone_fail hc (by simp)]
    | abort => cases h; rw [ledger_clone_fail hc (by simp)]

theorem ledger_fill_net (h : TVec.fill Γ.ledger t x es l = (r, (es', l'))) :
    l'.net a + cnt a t es' = l.net a + cnt a t es := by
  induction es generalizing l es' l' r with
  | nil => cases h; rfl
  | cons e es ih =>
    simp only [TVec.fill] at h
    rcases hc : Γ.ledger.clone t x l with ⟨r1, l1⟩
    rw [hc] at h
    cases r1 with
    | ok c =>
      have e1 := ledger_clone_net (a := a) hc
      simp only at h
      rcases hd : Γ.ledger.drop t e l1 with ⟨r2, l2⟩
      have e2 := ledger_drop_net (a := a) hd
      rw [hd] at h
      cases r2 with
      | ok b =>
        simp only at h
        rcases hf : TVec.fill Γ.ledger t x es l2 with ⟨r3, es3, l3⟩
        have := ih hf
        simp only [hf] at h
        cases h
        rw [cnt_cons (es := es3), cnt_cons (es := es)]
        omega
      | panic y => cases h; rw [cnt_cons (x := c), cnt_cons (x := e)]; omega
      | ub => cases h; rw [cnt_cons (x := c), cnt_cons (x := e)]; omega
      | abort => cases h; rw [cnt_cons (x := c), cnt_cons (x := e)]; omega
    | panic y => cases h; rw [ledger_clone_fail hc (by simp)]
    | ub => cases h; rw [ledger_clone_fail hc (by simp)]
    | abort => cases h; rw [ledger_clone_fail hc (by simp)]

theorem ledger_thenDropArg_net {o : Res Unit × (List Bytes × Ledger U)} (h : TVec.thenDropArg Γ.ledger t x o = (r, (es', l')))
    (hr : r.Caught) : es' = o.2.1 ∧ l'.net a = o.2.2.net a + cnt a t [x] := by
  obtain ⟨r0, es0, l0⟩ := o
  simp only [TVec.thenDropArg] at h
  rcases hd : Γ.ledger.drop t x l0 with ⟨r1, l1⟩
  have e1 := ledger_drop_net (a := a) hd
  rw [hd] at h
  cases r0 with
  | ok b => cases h; exact ⟨rfl, e1⟩
  | panic y => cases h; exact ⟨rfl, e1⟩
  | ub => cases h; exact absurd rfl hr.1
  | abort => cases h; exact absurd rfl hr.2

theorem unwind_panic_caught {σ α : Type} {m : M σ Unit} {y : Why} {q q' : σ} {r : Res α}
    (h : (M.unwindDrop m >>= fun _ => (M.panic y : M σ α)) q = (r, q')) (hr : r.Caught) :
    m q = (.ok (), q') ∧ r = .panic y := by
  simp only [M.bind_run, M.unwindDrop] at h
  rcases hm : m q with ⟨r1, q1⟩
  rw [hm] at h
  cases r1 with
  | ok b => cases h; exact ⟨rfl, rfl⟩
  | panic y => cases h; exact absurd rfl hr.2
  | ub => cases h; exact absurd rfl hr.1
  | abort => cases h; exact absurd rfl hr.2

/-- Clones that are returned. -/
def cntRes (a : Obj) (t : TyId) : Res (List Bytes) → Int
  | .ok es => cnt a t es
  | _ => 0

theorem ledger_clones_net {r : Res (List Bytes)} (h : DSpec.clones Γ.ledger t xs l = (r, l')) (hr : r.Caught) :
    l'.net a + cntRes a t r = l.net a := by
  simp only [DSpec.clones] at h
  rcases hx : TVec.extendClones Γ.ledger t xs [] l with ⟨r1, es, l1⟩
  have e1 := ledger_extendClones_net (a := a) hx
  rw [cnt_nil] at e1
  rw [hx] at h
  cases r1 with
  | ok b => cases h; simp only [cntRes]; omega
  | panic y =>
    obtain ⟨hd, rfl⟩ := unwind_panic_caught h hr
    have := ledger_dropEach_net (a := a) hd ⟨by simp, by simp⟩
    simp only [cntRes]; omega
  | ub => cases h; exact absurd rfl hr.1
  | abort => cases h; exact absurd rfl hr.2

theorem M.bind_caught {σ α β : Type} {m : M σ α} {f : α → M σ β} {s s2 : σ} {r : Res β}
    (h : (m >>= f) s = (r, s2)) (hr : r.Caught) :
    (∃ y, r = .panic y ∧ m s = (.panic y, s2)) ∨ ∃ a s1, m s = (.ok a, s1) ∧ f a s1 = (r, s2) := by
  simp only [M.bind_run] at h
  rcases hm : m s with ⟨r1, s1⟩
  rw [hm] at h
  cases r1 with
  | ok a => exact .inr ⟨a, s1, rfl, h⟩
  | panic y => cases h; exact .inl ⟨y, rfl, rfl⟩
  | ub => cases h; exact absurd rfl hr.1
  | abort => cases h; exact absurd rfl hr.2

theorem ledger_vecOf_net {n : Nat} {r : Res (List Bytes)} (h : DSpec.vecOf Γ.ledger t n x l = (r, l')) (hr : r.Caught) :
    l'.net a + cntRes a t r = l.net a + cnt a t [x] := by
  cases n with
  | zero =>
    rcases M.bind_caught h hr with ⟨y, rfl, h1⟩ | ⟨⟨⟩, l1, h1, h2⟩
    · have := ledger_drop_net (a := a) h1; simp only [cntRes]; omega
    · cases h2
      have := ledger_drop_net (a := a) h1; simp only [cntRes, cnt_nil]; omega
  | succ n =>
    simp only [DSpec.vecOf] at h
    rcases hx : TVec.pushClones Γ.ledger t x n [] l with ⟨r1, es, l1⟩
    have e1 := ledger_extendClones_net (a := a) hx
    rw [cnt_nil] at e1
    rw [hx] at h
    cases r1 with
    | ok b => cases h; simp only [cntRes, cnt_append]; omega
    | panic y =>
      obtain ⟨hd, rfl⟩ := unwind_panic_caught h hr
      obtain ⟨⟨⟩, l2, h1, h2⟩ := M.bind_ok_inv hd
      have := ledger_drop_net (a := a) h1
      have := ledger_dropEach_net (a := a) h2 ⟨by simp, by simp⟩
      simp only [cntRes]; omega
    | ub => cases h; exact absurd rfl hr.1
    | abort => cases h; exact absurd rfl hr.2

/-- The item that is returned. -/
def cntItem (a : Obj) : Res SItem → Int
  | .ok b => b.cnt a
  | _ => 0

theorem ledger_cloneS_net {b : SItem} {r : Res SItem} (h : DSpec.cloneS Γ.ledger b l = (r, l')) (hr : r.Caught) :
    l'.net a + cntItem a r = l.net a := by
  cases b with
  | vec t es =>
    rcases M.bind_caught h hr with ⟨y, rfl, h1⟩ | ⟨es', l1, h1, h2⟩
    · have := ledger_clones_net (a := a) h1 ⟨by simp, by simp⟩; exact this
    · cases h2
      have := ledger_clones_net (a := a) h1 ⟨by simp, by simp⟩; exact this
  | box t x =>
    rcases M.bind_caught h hr with ⟨y, rfl, h1⟩ | ⟨es', l1, h1, h2⟩
    · have := ledger_clone_fail (a := a) h1 (by simp); simp only [cntItem]; omega
    · cases h2
      have := ledger_clone_net (a := a) h1; simp only [cntItem, SItem.cnt_box]; omega
  | small t x =>
    rcases M.bind_caught h hr with ⟨y, rfl, h1⟩ | ⟨es', l1, h1, h2⟩
    · have := ledger_clone_fail (a := a) h1 (by simp); simp only [cntItem]; omega
    · cases h2
      have := ledger_clone_net (a := a) h1; simp only [cntItem, SItem.cnt_small]; omega

end Dync
