import Verif.Balance
/-!
# The balance of values: methods of a container
-/
namespace Dync
variable {U V σ α β : Type} {Γ : TyEnv U} {cfg : Cfg} {t : TyId} {a : Obj}
open Meter

/-- Whenever `m` returns on a container with content, that container still has content, no block was leaked,
and what is destroyed and held went up by what was passed in. -/
def Tidy (a : Obj) (i : Int) (m : M (XVec × Outside (Ledger U)) α) : Prop :=
  ∀ t es cap o r s', m (.vec t es cap, o) = (.ok r, s') → ∃ es' cap', s'.1 = .vec t es' cap' ∧
    s'.2.leaked = o.leaked ∧ s'.2.user.net a + cnt a t es' = o.user.net a + cnt a t es + i

namespace Tidy
variable {i j : Int}

theorem pure (x : α) : Tidy a 0 (Pure.pure x : M (XVec × Outside (Ledger U)) α) := by
  intro t es cap o r s' h
  cases h
  exact ⟨es, cap, rfl, rfl, (Int.add_zero _).symm⟩

theorem panic (y : Why) : Tidy a i (M.panic y : M (XVec × Outside (Ledger U)) α) := by
  intro t es cap o r s' h
  cases h

theorem bind {m : M (XVec × Outside (Ledger U)) α} {k : α → M (XVec × Outside (Ledger U)) β} (h : Tidy a i m)
    (hk : ∀ x, Tidy a j (k x)) : Tidy a (i + j) (m >>= k) := by
  intro t es cap o r s' e
  obtain ⟨x, ⟨x1, o1⟩, e1, e2⟩ := M.bind_ok_inv e
  obtain ⟨es1, cap1, rfl, h1, h2⟩ := h _ _ _ _ _ _ e1
  obtain ⟨es2, cap2, h3, h4, h5⟩ := hk _ _ _ _ _ _ _ e2
  exact ⟨es2, cap2, h3, h4.trans h1, by simp only at h2; omega⟩

theorem of_eq {m : M (XVec × Outside (Ledger U)) α} (h : Tidy a i m) (e : i = j) : Tidy a j m := e ▸ h

theorem lose : Tidy a i (lose : M (XVec × Outside (Ledger U)) α) := by
  intro t es cap o r s' h
  obtain ⟨_, _, _, h⟩ := M.bind_ok_inv h
  cases h

/-- Something that only runs user code. -/
theorem aside {m : M (Outside (Ledger U)) α} (h : (outMeter a).Moves i m fun _ => 0) : Tidy a i (aside m) := by
  intro t es cap o r s' e
  obtain ⟨o', e1, rfl⟩ := aside_ok e
  obtain ⟨h1, h2⟩ := h _ _ _ e1
  exact ⟨es, cap, rfl, h1, by simp only [outMeter] at h2 ⊢; omega⟩

theorem thenDrop {m : M (XVec × Outside (Ledger U)) α} {d : M (XVec × Outside (Ledger U)) Unit} (h : Tidy a i m)
    (hd : Tidy a j d) : Tidy a (i + j) (M.thenDrop m d) := by
  intro t es cap o r s' e
  simp only [M.thenDrop] at e
  rcases hm : m (.vec t es cap, o) with ⟨r1, x1, o1⟩
  rw [hm] at e
  cases r1 with
  | ok x =>
    simp only at e
    rcases hd1 : d (x1, o1) with ⟨r2, s2⟩
    rw [hd1] at e
    cases r2 with
    | ok y =>
      cases e
      obtain ⟨es1, cap1, rfl, h1, h2⟩ := h _ _ _ _ _ _ hm
      obtain ⟨es2, cap2, h3, h4, h5⟩ := hd _ _ _ _ _ _ hd1
      exact ⟨es2, cap2, h3, h4.trans h1, by simp only at h2; omega⟩
    | panic y => cases e
    | ub => cases e
    | abort => cases e
  | panic y =>
    simp only at e
    rcases hd1 : d (x1, o1) with ⟨r2, s2⟩
    rw [hd1] at e
    cases r2 <;> cases e
  | ub => cases e
  | abort => cases e

theorem repeatN {m : M (XVec × Outside (Ledger U)) Unit} (h : Tidy a 0 m) : ∀ n, Tidy a 0 (M.repeatN n m)
  | 0 => Tidy.pure ()
  | n + 1 => (h.bind fun _ => repeatN h n).of_eq (by omega)

/-- Look at the container first. -/
theorem get {k : XVec × Outside (Ledger U) → M (XVec × Outside (Ledger U)) α}
    (h : ∀ t es cap o r s', k (.vec t es cap, o) (.vec t es cap, o) = (.ok r, s') → ∃ es' cap', s'.1 = .vec t es' cap' ∧
      s'.2.leaked = o.leaked ∧ s'.2.user.net a + cnt a t es' = o.user.net a + cnt a t es + i) :
    Tidy a i (M.get >>= k) := by
  intro t es cap o r s' e
  simp only [M.bind_run, M.get_run] at e
  exact h _ _ _ _ _ _ e

/-- A method without user code. -/
theorem plain {f : XVec → After}
    (h : ∀ t es cap r, (f (.vec t es cap)).out = .ok r → ∃ es' cap', (f (.vec t es cap)).now = .vec t es' cap' ∧
      (f (.vec t es cap)).leak = false ∧ cnt a t es' = cnt a t es + i) :
    Tidy a i (XVec.plain f : M (XVec × Outside (Ledger U)) Obs) := by
  intro t es cap o r s' e
  simp only [XVec.plain] at e
  cases ho : (f (.vec t es cap)).out with
  | ok r1 =>
    rw [ho] at e
    cases e
    obtain ⟨es', cap', h1, h2, h3⟩ := h _ _ _ _ ho
    exact ⟨es', cap', h1, by simp [h2], by simp only; omega⟩
  | panic => rw [ho] at e; cases e
  | ub => rw [ho] at e; cases e

end Tidy

theorem tidy_refuse (x : Bytes) : Tidy a (cnt a t [x]) (refuse Γ.ledger t x) :=
  ((Tidy.aside (moves_call (moves_drop t x))).bind fun _ => Tidy.pure _).of_eq (by omega)

theorem tidy_pushAs (t : TyId) (x : Bytes) : Tidy a (cnt a t [x]) (XVec.dynPushAs Γ.ledger t x) := by
  refine Tidy.get fun t' es cap o r s' e => ?_
  simp only at e
  split at e
  · rename_i ht
    subst ht
    split at e
    · cases e
      exact ⟨_, _, rfl, rfl, by simp only [cnt_append]; omega⟩
    · cases e
      exact ⟨_, _, rfl, rfl, by simp only [cnt_append]; omega⟩
    · obtain ⟨_, _, _, e⟩ := M.bind_ok_inv e
      obtain ⟨_, _, _, e⟩ := M.bind_ok_inv e
      obtain ⟨_, _, _, e⟩ := M.bind_ok_inv e
      cases e
  · exact tidy_refuse x _ _ _ _ _ _ e

theorem losing_ok {x x' : XVec} {o o' : Outside U} {m : M (Outside U) α} {r : α} (h : losing m (x, o) = (.ok r, (x', o'))) :
    m o = (.ok r, o') ∧ x' = x := by
  simp only [losing] at h
  rcases hm : m o with ⟨r1, o1⟩
  rw [hm] at h
  cases r1 with
  | ok y => cases h; exact ⟨rfl, rfl⟩
  | panic y => cases h
  | ub => cases h
  | abort => cases h

theorem tidy_pushCloned (p : Place) : Tidy a 0 (XVec.dynPushCloned Γ.ledger p) := by
  refine Tidy.get fun t es cap o r s' e => ?_
  have key : ∀ c, (losing (call (Γ.ledger.clone t p.bytes)) >>= fun c' => (do
      M.modify fun s => (XVec.vec t (es ++ [c']) c, s.2)
      return Obs.done : M (XVec × Outside (Ledger U)) Obs)) (.vec t es cap, o) = (.ok r, s') →
      ∃ es' cap', s'.1 = .vec t es' cap' ∧ s'.2.leaked = o.leaked ∧
        s'.2.user.net a + cnt a t es' = o.user.net a + cnt a t es + 0 := by
    intro cap' e
    obtain ⟨c, ⟨x1, o1⟩, e1, e2⟩ := M.bind_ok_inv e
    obtain ⟨e3, rfl⟩ := losing_ok e1
    cases e2
    obtain ⟨h1, h2⟩ := moves_call (a := a) (moves_clone t p.bytes) _ _ _ e3
    simp only [outMeter] at h1 h2
    exact ⟨_, _, rfl, h1, by simp only [cnt_append]; omega⟩
  simp only at e
  split at e
  · split at e
    · obtain ⟨_, _, _, e⟩ := M.bind_ok_inv e
      cases e
    · obtain ⟨_, _, _, e⟩ := M.bind_ok_inv e
      obtain ⟨_, _, _, e⟩ := M.bind_ok_inv e
      obtain ⟨_, _, _, e⟩ := M.bind_ok_inv e
      cases e
    · exact key _ e
    · exact key _ e
  · cases e
    exact ⟨es, cap, rfl, rfl, (Int.add_zero _).symm⟩

theorem tidy_push (t : TyId) (x : Bytes) : Tidy a (cnt a t [x]) (XVec.dynPush Γ.ledger t x) := by
  refine Tidy.get fun t' es cap o r s' e => ?_
  simp only at e
  split at e
  · rename_i ht
    subst ht
    split at e
    · by_cases hp : perElem Γ.ledger t = 1
      · cases hg : growth (Γ.ledger.align t) (Γ.ledger.align t) (perElem Γ.ledger t) cap es.length 1 <;>
          simp only [XVec.plain, XVec.push, ne_eq, not_true_eq_false, if_false, hg, if_pos hp] at e <;> cases e
        · exact ⟨_, _, rfl, rfl, by simp only [cnt_append]; omega⟩
        · exact ⟨_, _, rfl, rfl, by simp only [cnt_append]; omega⟩
      · cases hg : growth (Γ.ledger.align t) (Γ.ledger.align t) (perElem Γ.ledger t) cap es.length 1 <;>
          simp only [XVec.plain, XVec.push, ne_eq, not_true_eq_false, if_false, hg, if_neg hp] at e <;> cases e
    · cases e
  · exact ((Tidy.aside (moves_item_drop (.box t x))).bind fun _ => Tidy.pure Obs.refused).of_eq
      (by simp only [YItem.weigh]; omega) _ _ _ _ _ _ e

theorem tidy_clear : Tidy a 0 (XVec.dynClear Γ.ledger) := by
  refine Tidy.get fun t es cap o r s' e => ?_
  simp only at e
  obtain ⟨_, ⟨x1, o1⟩, e1, e2⟩ := M.bind_ok_inv e
  cases e2
  have : ∀ (xs : List Bytes) (o : Outside (Ledger U)) (q : XVec × Outside (Ledger U)),
      M.forEach xs (fun e => aside (call (Γ.ledger.drop t e))) (.vec t es cap, o) = (.ok (), q) →
      q.2.leaked = o.leaked ∧ q.2.user.net a = o.user.net a + cnt a t xs := by
    intro xs
    induction xs with
    | nil =>
      intro o q h
      cases h
      exact ⟨rfl, by simp [cnt_nil]⟩
    | cons x xs ih =>
      intro o q h
      obtain ⟨_, q1, h1, h2⟩ := M.bind_ok_inv h
      obtain ⟨o1, h3, rfl⟩ := aside_ok h1
      obtain ⟨h4, h5⟩ := moves_call (a := a) (moves_drop t x) _ _ _ h3
      obtain ⟨h6, h7⟩ := ih _ _ h2
      simp only [outMeter] at h4 h5
      exact ⟨h6.trans h4, by rw [cnt_cons]; omega⟩
  obtain ⟨h1, h2⟩ := this _ _ _ e1
  exact ⟨[], cap, rfl, h1, by simp only [cnt_nil]; simp only at h2; omega⟩

theorem tidy_setAs (t : TyId) (i : Nat) (x : Bytes) : Tidy a (cnt a t [x]) (XVec.dynSetAs Γ.ledger t i x) := by
  refine Tidy.get fun t' es cap o r s' e => ?_
  simp only at e
  split at e
  · rename_i hi
    split at e
    · rename_i ht
      subst ht
      obtain ⟨_, ⟨x1, o1⟩, e1, e2⟩ := M.bind_ok_inv e
      cases e1
      obtain ⟨_, ⟨x2, o2⟩, e3, e4⟩ := M.bind_ok_inv e2
      cases e4
      obtain ⟨o3, e5, e6⟩ := aside_ok e3
      cases e6
      obtain ⟨h1, h2⟩ := moves_call (a := a) (moves_drop t es[i]) _ _ _ e5
      have := cnt_set (a := a) (t := t) (x := x) hi
      simp only [outMeter] at h1 h2
      exact ⟨_, _, rfl, h1, by simp only; omega⟩
    · exact tidy_refuse x _ _ _ _ _ _ e
  · cases e

theorem tidy_cloneIntoVec (t : TyId) : Tidy a 0 (XVec.dynCloneIntoVec Γ.ledger t) := by
  refine Tidy.get fun t' es cap o r s' e => ?_
  simp only at e
  split at e
  · rename_i ht
    obtain ⟨cs, ⟨x1, o1⟩, e1, e2⟩ := M.bind_ok_inv e
    obtain ⟨o2, e3, e4⟩ := aside_ok e1
    cases e4
    obtain ⟨_, ⟨x2, o3⟩, e5, e6⟩ := M.bind_ok_inv e2
    cases e6
    obtain ⟨o4, e7, e8⟩ := aside_ok e5
    cases e8
    obtain ⟨h1, h2⟩ := moves_call (a := a) (moves_clones t es) _ _ _ e3
    obtain ⟨h3, h4⟩ := moves_dropAll (a := a) t cs _ _ _ e7
    simp only [outMeter] at h1 h2 h3 h4
    exact ⟨es, cap, rfl, h3.trans h1, by simp only; omega⟩
  · cases e
    exact ⟨es, cap, rfl, rfl, (Int.add_zero _).symm⟩

theorem tidy_fill (t : TyId) (x : Bytes) : Tidy a (cnt a t [x]) (XVec.dynFill Γ.ledger t x) := by
  refine ((Tidy.get (i := 0) fun t' es cap o r s' e => ?_).thenDrop (Tidy.aside (moves_call (moves_drop t x)))).of_eq (by omega)
  simp only at e
  split at e
  · rename_i ht
    subst ht
    obtain ⟨_, ⟨x1, o1⟩, e1, e2⟩ := M.bind_ok_inv e
    cases e2
    simp only [fillAll] at e1
    rcases hf : TVec.fill Γ.ledger t x es o.user with ⟨r1, es1, u1⟩
    rw [hf] at e1
    cases e1
    have := ledger_fill_net (a := a) hf
    exact ⟨_, _, rfl, rfl, by simp only; omega⟩
  · cases e
    exact ⟨es, cap, rfl, rfl, (Int.add_zero _).symm⟩

theorem room_ok {len cap : Nat} {k : Option Nat} {next : Nat → After} {r : Obs}
    (h : (XVec.room Γ t len cap k next).out = .ok r) : ∃ c, XVec.room Γ t len cap k next = next c := by
  unfold XVec.room at h ⊢
  cases k with
  | none => cases h
  | some k =>
    simp only at h ⊢
    split at h
    · exact ⟨_, rfl⟩
    · exact ⟨_, rfl⟩
    · cases h
    · cases h

theorem tidy_reserve (n : Nat) : Tidy a 0 (XVec.plain (XVec.reserve Γ cfg n) : M (XVec × Outside (Ledger U)) Obs) := by
  refine Tidy.plain fun t es cap r h => ?_
  obtain ⟨c, hc⟩ := room_ok h
  refine ⟨es, c, ?_, ?_, by omega⟩
  · simp only [XVec.reserve, hc]
  · simp only [XVec.reserve, hc]

theorem tidy_resize (t : TyId) (n : Nat) (x : Bytes) : Tidy a (cnt a t [x]) (XVec.dynResize Γ.ledger cfg t n x) := by
  refine ((Tidy.get (i := 0) fun t' es cap o r s' e => ?_).thenDrop (Tidy.aside (moves_call (moves_drop t x)))).of_eq (by omega)
  simp only at e
  split at e
  · rename_i ht
    subst ht
    split at e
    · have hb : Tidy (U := U) a 0 (do
          let c ← aside (call (Γ.ledger.clone t x))
          let _ ← XVec.dynPushAs Γ.ledger t c
          pure ()) := by
        intro t' es cap o r s' e
        obtain ⟨c, ⟨x1, o1⟩, e1, e2⟩ := M.bind_ok_inv e
        obtain ⟨o2, e3, e4⟩ := aside_ok e1
        cases e4
        obtain ⟨h1, h2⟩ := moves_call (a := a) (moves_clone t x) _ _ _ e3
        obtain ⟨es2, cap2, h3, h4, h5⟩ := ((tidy_pushAs (a := a) t c).bind fun _ => Tidy.pure ()) _ _ _ _ _ _ e2
        simp only [outMeter] at h1 h2
        exact ⟨es2, cap2, h3, h4.trans h1, by omega⟩
      exact (((tidy_reserve _).bind fun _ => (hb.repeatN _).bind fun _ => Tidy.pure Obs.done).of_eq (by omega)) _ _ _ _ _ _ e
    · obtain ⟨_, ⟨x1, o1⟩, e1, e2⟩ := M.bind_ok_inv e
      cases e2
      have : ∀ (xs : List Bytes) (o : Outside (Ledger U)) (q : XVec × Outside (Ledger U)),
          M.forEach xs (fun e => aside (call (Γ.ledger.drop t e))) (.vec t es cap, o) = (.ok (), q) →
          q.2.leaked = o.leaked ∧ q.2.user.net a = o.user.net a + cnt a t xs := by
        intro xs
        induction xs with
        | nil =>
          intro o q h
          cases h
          exact ⟨rfl, by simp [cnt_nil]⟩
        | cons x xs ih =>
          intro o q h
          obtain ⟨_, q1, h1, h2⟩ := M.bind_ok_inv h
          obtain ⟨o1, h3, rfl⟩ := aside_ok h1
          obtain ⟨h4, h5⟩ := moves_call (a := a) (moves_drop t x) _ _ _ h3
          obtain ⟨h6, h7⟩ := ih _ _ h2
          simp only [outMeter] at h4 h5
          exact ⟨h6.trans h4, by rw [cnt_cons]; omega⟩
      obtain ⟨h1, h2⟩ := this _ _ _ e1
      have := cnt_take_drop (a := a) (t := t) (es := es) n
      exact ⟨es.take n, cap, rfl, h1, by simp only at h2 ⊢; omega⟩
  · cases e
    exact ⟨es, cap, rfl, rfl, (Int.add_zero _).symm⟩

theorem tidy_look (f : TyId → List Bytes → Out) (g : Nat → Out) :
    Tidy a 0 (XVec.plain fun x => x.look Γ f g : M (XVec × Outside (Ledger U)) Obs) :=
  Tidy.plain fun _ es cap _ _ => ⟨es, cap, rfl, rfl, by omega⟩

end Dync
