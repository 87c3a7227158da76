import Verif.Runs
import Verif.Safety
import Verif.Ledger
/-!
# Reasoning about ownership

`NoUb m s Q E`: started in `s`, the computation `m` is not undefined; `Q` holds if it returns, `E` if it
panics; it may abort (a destructor that panics while unwinding).

`Own l l' I O`: between the two states of the ledger the values `I` were given up and the values `O` were
received, and nothing was destroyed that was not given up or cloned meanwhile.
-/
namespace Dync
variable {σ τ α β U : Type}

/-- `m` started in `s` is not undefined: it returns with `Q`, panics with `E`, or aborts. -/
def NoUb (m : M σ α) (s : σ) (Q : α → σ → Prop) (E : σ → Prop) : Prop :=
  match m s with
  | (.ok a, s') => Q a s'
  | (.panic _, s') => E s'
  | (.ub, _) => False
  | (.abort, _) => True

theorem Runs.noUb {m : M σ α} {s : σ} {Q : α → σ → Prop} {E : σ → Prop} (h : Runs m s Q E) : NoUb m s Q E := by
  unfold Runs at h
  unfold NoUb
  rcases hm : m s with ⟨r, s'⟩
  rw [hm] at h
  cases r with
  | ok a => exact h
  | panic y => exact h
  | ub => exact h
  | abort => trivial

namespace NoUb
variable {m : M σ α} {s : σ} {Q Q' : α → σ → Prop} {E E' : σ → Prop}

theorem of_ok {a : α} {s' : σ} (h : m s = (.ok a, s')) (hq : Q a s') : NoUb m s Q E := by simp [NoUb, h, hq]
theorem of_panic {y : Why} {s' : σ} (h : m s = (.panic y, s')) (he : E s') : NoUb m s Q E := by simp [NoUb, h, he]
theorem of_abort {s' : σ} (h : m s = (.abort, s')) : NoUb m s Q E := by simp [NoUb, h]

theorem cases_on (h : NoUb m s Q E) : (∃ a s', m s = (.ok a, s') ∧ Q a s') ∨ (∃ y s', m s = (.panic y, s') ∧ E s') ∨
    ∃ s', m s = (.abort, s') := by
  unfold NoUb at h
  rcases hm : m s with ⟨r, s'⟩
  rw [hm] at h
  cases r with
  | ok a => exact .inl ⟨a, s', rfl, h⟩
  | panic y => exact .inr (.inl ⟨y, s', rfl, h⟩)
  | ub => exact h.elim
  | abort => exact .inr (.inr ⟨s', rfl⟩)

theorem mono (h : NoUb m s Q E) (hq : ∀ a s', Q a s' → Q' a s') (he : ∀ s', E s' → E' s') : NoUb m s Q' E' := by
  rcases h.cases_on with ⟨a, s', e, h'⟩ | ⟨y, s', e, h'⟩ | ⟨s', e⟩
  · exact of_ok e (hq a s' h')
  · exact of_panic e (he s' h')
  · exact of_abort e

theorem pure {a : α} (h : Q a s) : NoUb (Pure.pure a) s Q E := h
theorem panic {y : Why} (h : E s) : NoUb (M.panic y) s Q E := h

theorem bind {x : M σ β} {f : β → M σ α} {R : β → σ → Prop} (hx : NoUb x s R E)
    (hf : ∀ b s', R b s' → NoUb (f b) s' Q E) : NoUb (x >>= f) s Q E := by
  rcases hx.cases_on with ⟨b, s', e, h'⟩ | ⟨y, s', e, h'⟩ | ⟨s', e⟩
  · have := hf b s' h'
    unfold NoUb
    rw [M.bind_ok e]
    exact this
  · exact of_panic (M.bind_panic e) h'
  · exact of_abort (M.bind_abort e)

/-- The first step returns for sure. -/
theorem bind_ok {x : M σ β} {f : β → M σ α} {b : β} {s' : σ} (hx : x s = (.ok b, s')) (hf : NoUb (f b) s' Q E) :
    NoUb (x >>= f) s Q E := by
  unfold NoUb
  rw [M.bind_ok hx]
  exact hf

theorem bind_panic {x : M σ β} {f : β → M σ α} {y : Why} {s' : σ} (hx : x s = (.panic y, s')) (he : E s') :
    NoUb (x >>= f) s Q E := of_panic (M.bind_panic hx) he

theorem assert {b : Bool} {Q : Unit → σ → Prop} (h : b = true → Q () s) (he : b = false → E s) : NoUb (M.assert b) s Q E :=
  (Runs.assert h he).noUb

theorem debugAssert {cfg : Cfg} {b : Bool} {Q : Unit → σ → Prop} (h : (cfg.debug = true → b = true) → Q () s)
    (he : cfg.debug = true → b = false → E s) : NoUb (Dync.debugAssert cfg b) s Q E := (Runs.debugAssert h he).noUb

theorem zoom {g : σ → τ} {st : τ → σ → σ} {n : M τ α} (h : NoUb n (g s) (fun a t => Q a (st t s)) (fun t => E (st t s))) :
    NoUb (M.zoom g st n) s Q E := by
  rcases h.cases_on with ⟨b, s', e, h'⟩ | ⟨y, s', e, h'⟩ | ⟨s', e⟩
  · exact of_ok (by rw [M.zoom_run, e]) h'
  · exact of_panic (by rw [M.zoom_run, e]) h'
  · exact of_abort (s' := st s' s) (by rw [M.zoom_run, e])

/-- A computation given by running another one and rearranging the final state. -/
theorem rearrange {n : M τ α} {t : τ} {f : τ → σ} (h : NoUb n t (fun a t' => Q a (f t')) (fun t' => E (f t')))
    (e : m s = ((n t).1, f (n t).2)) : NoUb m s Q E := by
  rcases h.cases_on with ⟨b, s', e', h'⟩ | ⟨y, s', e', h'⟩ | ⟨s', e'⟩
  · exact of_ok (by rw [e, e']) h'
  · exact of_panic (by rw [e, e']) h'
  · exact of_abort (s' := f s') (by rw [e, e'])

theorem withLocal {x : τ} {d : τ → M (World U) Unit} {n : M (τ × World U) α} {w : World U}
    {Q : α × τ → World U → Prop} {E : World U → Prop}
    (h : NoUb n (x, w) (fun a p => Q (a, p.1) p.2) (fun p => NoUb (d p.1) p.2 (fun _ w' => E w') (fun _ => True))) :
    NoUb (Dync.withLocal x d n) w Q E := by
  rcases h.cases_on with ⟨b, s', e, h'⟩ | ⟨y, s', e, h'⟩ | ⟨s', e⟩
  · exact of_ok (a := (b, s'.1)) (s' := s'.2) (by simp [Dync.withLocal, e]) h'
  · rcases h'.cases_on with ⟨u, w', e2, h2⟩ | ⟨y2, w', e2, h2⟩ | ⟨w', e2⟩
    · exact of_panic (y := y) (s' := w') (by simp [Dync.withLocal, e, e2]) h2
    · exact of_abort (s' := w') (by simp [Dync.withLocal, e, e2])
    · exact of_abort (s' := w') (by simp [Dync.withLocal, e, e2])
  · exact of_abort (s' := s'.2) (by simp [Dync.withLocal, e])

theorem thenDrop {d : M σ Unit} {Q1 : α → σ → Prop} {E1 : σ → Prop} (h : NoUb m s Q1 E1)
    (hq : ∀ a s', Q1 a s' → NoUb d s' (fun _ s'' => Q a s'') E)
    (he : ∀ s', E1 s' → NoUb d s' (fun _ s'' => E s'') (fun _ => True)) : NoUb (M.thenDrop m d) s Q E := by
  rcases h.cases_on with ⟨b, s', e, h'⟩ | ⟨y, s', e, h'⟩ | ⟨s', e⟩
  · rcases (hq _ _ h').cases_on with ⟨u, w', e2, h2⟩ | ⟨y2, w', e2, h2⟩ | ⟨w', e2⟩
    · exact of_ok (M.thenDrop_ok e e2) h2
    · exact of_panic (y := y2) (s' := w') (by simp [M.thenDrop, e, e2]) h2
    · exact of_abort (s' := w') (by simp [M.thenDrop, e, e2])
  · rcases (he _ h').cases_on with ⟨u, w', e2, h2⟩ | ⟨y2, w', e2, h2⟩ | ⟨w', e2⟩
    · exact of_panic (M.thenDrop_panic e e2) h2
    · exact of_abort (s' := w') (by simp [M.thenDrop, e, e2])
    · exact of_abort (s' := w') (by simp [M.thenDrop, e, e2])
  · exact of_abort (s' := s') (by simp [M.thenDrop, e])

theorem unwindDrop {d : M σ Unit} {Q : Unit → σ → Prop} (h : NoUb d s Q (fun _ => True)) : NoUb (M.unwindDrop d) s Q E := by
  rcases h.cases_on with ⟨b, s', e, h'⟩ | ⟨y, s', e, h'⟩ | ⟨s', e⟩
  · exact of_ok (a := b) (s' := s') (by simp [M.unwindDrop, e]) h'
  · exact of_abort (s' := s') (by simp [M.unwindDrop, e])
  · exact of_abort (s' := s') (by simp [M.unwindDrop, e])

theorem onUnwind {d : M σ Unit} {E1 : σ → Prop} (h : NoUb m s Q E1) (hd : ∀ s', E1 s' → NoUb d s' (fun _ => E) (fun _ => True)) :
    NoUb (M.onUnwind m d) s Q E := by
  rcases h.cases_on with ⟨a, s', e, h'⟩ | ⟨y, s', e, h'⟩ | ⟨s', e⟩
  · exact of_ok (a := a) (s' := s') (by simp [M.onUnwind, e]) h'
  · rcases (hd s' h').cases_on with ⟨b, s2, e2, h2⟩ | ⟨y2, s2, e2, h2⟩ | ⟨s2, e2⟩
    · exact of_panic (y := y) (s' := s2) (by simp [M.onUnwind, e, M.unwindDrop, e2]) h2
    · exact of_abort (s' := s2) (by simp [M.onUnwind, e, M.unwindDrop, e2])
    · exact of_abort (s' := s2) (by simp [M.onUnwind, e, M.unwindDrop, e2])
  · exact of_abort (s' := s') (by simp [M.onUnwind, e])

theorem lift {r : Res α} (h : ∀ a, r = .ok a → Q a s) (he : (∃ y, r = .panic y) → E s) (hu : r ≠ .ub) :
    NoUb (M.lift r) s Q E := by
  cases r with
  | ok a => exact h a rfl
  | panic y => exact he ⟨y, rfl⟩
  | ub => exact absurd rfl hu
  | abort => exact trivial

theorem onWorld {ρ : Type} {n : M (World U) α} {s : ρ × World U} {Q : α → ρ × World U → Prop} {E : ρ × World U → Prop}
    (h : NoUb n s.2 (fun a w => Q a (s.1, w)) (fun w => E (s.1, w))) : NoUb (Dync.onWorld n) s Q E := zoom h

theorem worldUser {n : M U α} {w : World U} {Q : α → World U → Prop} {E : World U → Prop}
    (h : NoUb n w.user (fun a u => Q a { w with user := u }) (fun u => E { w with user := u })) :
    NoUb (Dync.worldUser n) w Q E := zoom h

theorem repeatN {n : M σ Unit} {P : σ → Prop} (hn : ∀ s, P s → NoUb n s (fun _ => P) E) (k : Nat) (h : P s) :
    NoUb (M.repeatN k n) s (fun _ => P) E := by
  induction k generalizing s with
  | zero => exact h
  | succ k ih => exact bind (hn s h) fun _ s' h' => ih h'

/-- A loop over a list; `P` speaks about the items still to come. -/
theorem forEach {xs : List β} {f : β → M σ Unit} {P : List β → σ → Prop}
    (hf : ∀ x xs s, P (x :: xs) s → NoUb (f x) s (fun _ => P xs) E) (h : P xs s) :
    NoUb (M.forEach xs f) s (fun _ => P []) E := by
  induction xs generalizing s with
  | nil => exact h
  | cons x xs ih => exact bind (hf x xs s h) fun _ s' h' => ih h'

end NoUb

/-! ### Ownership -/

/-- From `l` to `l'` the values `I` were given up and the values `O` were received: a value is destroyed at
most as often as it was given up or cloned and not received back. (Values may be leaked.) -/
def Own (l l' : Ledger U) (I O : List Obj) : Prop :=
  ∀ a, l'.dead.count a + l.born.count a + O.count a ≤ l.dead.count a + l'.born.count a + I.count a

namespace Own
variable {l l1 l2 : Ledger U} {I O I' O' F : List Obj}

theorem refl (l : Ledger U) (I : List Obj) : Own l l I I := fun _ => Nat.le_refl _
theorem forget (l : Ledger U) (I : List Obj) : Own l l I [] := fun a => by simp
theorem trans (h : Own l l1 I O) (h' : Own l1 l2 O O') : Own l l2 I O' := fun a => by
  have := h a; have := h' a; omega
theorem frame (h : Own l l1 I O) (F : List Obj) : Own l l1 (I ++ F) (O ++ F) := fun a => by
  have := h a; simp only [List.count_append]; omega
theorem mono (h : Own l l1 I O) (hi : ∀ a, I.count a ≤ I'.count a) (ho : ∀ a, O'.count a ≤ O.count a) : Own l l1 I' O' :=
  fun a => by have := h a; have := hi a; have := ho a; omega
theorem lose (h : Own l l1 I O) : Own l l1 I [] := h.mono (fun _ => Nat.le_refl _) fun a => by simp
/-- First one step, then one that does not touch what the first one received. -/
theorem seq (h : Own l l1 I O) (h' : Own l1 l2 I' O') : Own l l2 (I ++ I') (O ++ O') := fun a => by
  have := h a; have := h' a; simp only [List.count_append]; omega

end Own

/-- The elements of a container of type `t` as values. -/
abbrev objs (t : TyId) (es : List Bytes) : List Obj := es.map (Prod.mk t)

/-- The multiset `as` is contained in `bs`. -/
def Within (as bs : List Bytes) : Prop := ∀ x, as.count x ≤ bs.count x

theorem Within.refl (es : List Bytes) : Within es es := fun _ => Nat.le_refl _
theorem Within.nil (es : List Bytes) : Within [] es := fun x => by simp
theorem Within.trans {a b c : List Bytes} (h : Within a b) (h' : Within b c) : Within a c :=
  fun x => Nat.le_trans (h x) (h' x)
theorem Within.mem {a b : List Bytes} (h : Within a b) {x : Bytes} (hx : x ∈ a) : x ∈ b := by
  have := h x
  have h2 := List.count_pos_iff.2 hx
  exact List.count_pos_iff.1 (by omega)
theorem Within.take (es : List Bytes) (n : Nat) : Within (es.take n) es := fun _ =>
  (List.take_sublist n es).count_le _
theorem Within.rotate (es : List Bytes) (n : Nat) : Within (es.drop n ++ es.take n) es := fun x => by
  have h : es.count x = (es.take n ++ es.drop n).count x := by rw [List.take_append_drop]
  rw [h, List.count_append, List.count_append]; omega

theorem count_objs (t : TyId) (es : List Bytes) (a : Obj) : (objs t es).count a = if a.1 = t then es.count a.2 else 0 := by
  induction es with
  | nil => simp [objs]
  | cons e es ih =>
    simp only [objs, List.map_cons, List.count_cons] at ih ⊢
    rw [ih]
    obtain ⟨t', x⟩ := a
    by_cases h1 : t' = t
    · subst h1
      simp [Prod.ext_iff]
    · have h2 : ¬ t = t' := fun e => h1 e.symm
      simp [h1, h2]

theorem Within.objs {t : TyId} {as bs : List Bytes} (h : Within as bs) (a : Obj) :
    (objs t as).count a ≤ (objs t bs).count a := by
  rw [count_objs, count_objs]
  split
  · exact h _
  · exact Nat.le_refl _

/-! ### User code -/

/-- User code that keeps to values: started on values of the type it was written for it is not undefined,
`clone` returns a value, and `clone_from` leaves a value, also when it panics. -/
structure UserOk (Γ : TyEnv U) (S : Values Γ) : Prop where
  drop : ∀ t x u, S.valid t x → NoUb (Γ.drop t x) u (fun _ _ => True) (fun _ => True)
  clone : ∀ t x u, S.valid t x → NoUb (Γ.clone t x) u (fun c _ => S.valid t c) (fun _ => True)
  cloneFrom : ∀ t x d u, S.valid t x → S.valid t d →
    NoUb (Γ.cloneFrom t x) (d, u) (fun _ s => S.valid t s.1) (fun s => S.valid t s.1)

/-- The same with an account of the values. -/
structure Acct (Γ : TyEnv (Ledger U)) (S : Values Γ) : Prop where
  drop : ∀ {t x} l, S.valid t x → NoUb (Γ.drop t x) l (fun _ l' => Own l l' [(t, x)] []) (fun l' => Own l l' [(t, x)] [])
  clone : ∀ {t x} l, S.valid t x → NoUb (Γ.clone t x) l (fun c l' => S.valid t c ∧ Own l l' [] [(t, c)]) (fun l' => Own l l' [] [])
  cloneFrom : ∀ {t x d} l, S.valid t x → S.valid t d → NoUb (Γ.cloneFrom t x) (d, l)
    (fun _ s => S.valid t s.1 ∧ Own l s.2 [(t, d)] [(t, s.1)]) (fun s => S.valid t s.1 ∧ Own l s.2 [(t, d)] [(t, s.1)])

/-- The same values in the environment with the ledger. -/
def Values.ledger {Γ : TyEnv U} (S : Values Γ) : Values Γ.ledger := ⟨S.valid, S.len, S.unit⟩

theorem UserOk.acct {Γ : TyEnv U} {S : Values Γ} (h : UserOk Γ S) : Acct Γ.ledger S.ledger := by
  refine ⟨?_, ?_, ?_⟩
  · intro t x l hx
    refine NoUb.bind_ok (b := ()) (s' := { l with dead := l.dead ++ [(t, x)] }) rfl ?_
    refine NoUb.zoom ((h.drop t x l.user hx).mono (fun _ _ _ => ?_) fun _ _ => ?_)
    · intro a; simp only [List.count_append, List.count_nil]; omega
    · intro a; simp only [List.count_append, List.count_nil]; omega
  · intro t x l hx
    refine NoUb.bind (R := fun c l' => S.valid t c ∧ l'.born = l.born ∧ l'.dead = l.dead)
      (NoUb.zoom ((h.clone t x l.user hx).mono (fun _ _ hc => ⟨hc, rfl, rfl⟩) fun _ _ => ?_)) ?_
    · intro a; simp only [List.count_nil]; omega
    · rintro c l' ⟨h1, h2, h3⟩
      refine ⟨h1, ?_⟩
      intro a
      simp only [List.count_append, List.count_nil, h2, h3]; omega
  · intro t x d l hx hd
    refine NoUb.rearrange (f := fun s => (s.1, (⟨s.2, l.born ++ [(t, s.1)], l.dead ++ [(t, d)]⟩ : Ledger U)))
      (NoUb.mono (h.cloneFrom t x d l.user hx hd) ?_ ?_) rfl
    · rintro _ ⟨d', u⟩ hc
      refine ⟨hc, fun a => ?_⟩
      simp only [List.count_append]; omega
    · rintro ⟨d', u⟩ hc
      refine ⟨hc, fun a => ?_⟩
      simp only [List.count_append]; omega

/-! ### Loops of user code -/

section
variable {Γ : TyEnv (Ledger U)} {S : Values Γ} {t : TyId}

/-- What a computation on the world that only runs user code does. -/
def Usr (w w' : World (Ledger U)) (I O : List Obj) : Prop := w'.heap = w.heap ∧ Own w.user w'.user I O

theorem Usr.refl (w : World (Ledger U)) (I : List Obj) : Usr w w I I := ⟨rfl, Own.refl _ _⟩
theorem Usr.trans {w w1 w2 : World (Ledger U)} {I O O' : List Obj} (h : Usr w w1 I O) (h' : Usr w1 w2 O O') : Usr w w2 I O' :=
  ⟨h'.1.trans h.1, h.2.trans h'.2⟩
theorem Usr.frame {w w1 : World (Ledger U)} {I O : List Obj} (h : Usr w w1 I O) (F : List Obj) : Usr w w1 (I ++ F) (O ++ F) :=
  ⟨h.1, h.2.frame F⟩
theorem Usr.lose {w w1 : World (Ledger U)} {I O : List Obj} (h : Usr w w1 I O) : Usr w w1 I [] := ⟨h.1, h.2.lose⟩
theorem Usr.mono {w w1 : World (Ledger U)} {I O I' O' : List Obj} (h : Usr w w1 I O) (hi : ∀ a, I.count a ≤ I'.count a)
    (ho : ∀ a, O'.count a ≤ O.count a) : Usr w w1 I' O' := ⟨h.1, h.2.mono hi ho⟩
theorem Usr.seq {w w1 w2 : World (Ledger U)} {I O I' O' : List Obj} (h : Usr w w1 I O) (h' : Usr w1 w2 I' O') :
    Usr w w2 (I ++ I') (O ++ O') := ⟨h'.1.trans h.1, h.2.seq h'.2⟩

variable (A : Acct Γ S) {x : Bytes} {w : World (Ledger U)}
include A

theorem Acct.dropW (w : World (Ledger U)) (hx : S.valid t x) : NoUb (worldUser (Γ.drop t x)) w
    (fun _ w' => Usr w w' [(t, x)] []) (fun w' => Usr w w' [(t, x)] []) :=
  NoUb.worldUser ((A.drop w.user hx).mono (fun _ _ h => ⟨rfl, h⟩) fun _ h => ⟨rfl, h⟩)

theorem Acct.cloneW (w : World (Ledger U)) (hx : S.valid t x) : NoUb (worldUser (Γ.clone t x)) w
    (fun c w' => S.valid t c ∧ Usr w w' [] [(t, c)]) (fun w' => Usr w w' [] []) :=
  NoUb.worldUser ((A.clone w.user hx).mono (fun _ _ h => ⟨h.1, rfl, h.2⟩) fun _ h => ⟨rfl, h⟩)

/-- Drop glue of a sequence. -/
theorem Acct.dropEach {xs : List Bytes} (hx : ∀ x ∈ xs, S.valid t x) (w : World (Ledger U)) :
    NoUb (M.dropEach xs fun b => worldUser (Γ.drop t b)) w (fun _ w' => Usr w w' (objs t xs) [])
      (fun w' => Usr w w' (objs t xs) []) := by
  induction xs generalizing w with
  | nil => exact Usr.refl _ _
  | cons x xs ih =>
    have hx1 : S.valid t x := hx x (by simp)
    have hx2 : ∀ y ∈ xs, S.valid t y := fun y hy => hx y (by simp [hy])
    refine NoUb.thenDrop (A.dropW w hx1) (fun _ w1 h1 => ?_) fun w1 h1 => ?_
    · exact (ih hx2 w1).mono (fun _ w2 h2 => h1.seq h2) fun w2 h2 => h1.seq h2
    · exact (ih hx2 w1).mono (fun _ w2 h2 => h1.seq h2) fun w2 h2 => trivial

/-- A loop of calls to the table's `drop`: it stops at the first panic. -/
theorem Acct.dropLoop {xs : List Bytes} (hx : ∀ x ∈ xs, S.valid t x) (w : World (Ledger U)) :
    NoUb (M.forEach xs fun b => worldUser (dropBytes Γ t b)) w (fun _ w' => Usr w w' (objs t xs) [])
      (fun w' => Usr w w' (objs t xs) []) := by
  refine (NoUb.forEach (P := fun rest w' => (∀ x ∈ rest, S.valid t x) ∧ Usr w w' (objs t xs) (objs t rest)) ?_
    ⟨hx, Usr.refl _ _⟩).mono (fun _ _ h => h.2) fun _ h => h
  rintro x rest w1 ⟨h1, h2⟩
  have hv := h1 x (by simp)
  refine NoUb.worldUser ?_
  unfold dropBytes
  refine NoUb.bind_ok (b := ()) (s' := w1.user) ?_ ?_
  · rw [S.len t x hv]; simp
  refine (A.drop w1.user hv).mono (fun _ l h => ⟨fun y hy => h1 y (by simp [hy]), h2.1, ?_⟩) fun l h => ⟨h2.1, ?_⟩
  · exact h2.2.trans ((h.frame (objs t rest)).mono (fun a => Nat.le_refl _) fun a => Nat.le_refl _)
  · exact (h2.2.trans (h.frame (objs t rest))).lose

end

end Dync
