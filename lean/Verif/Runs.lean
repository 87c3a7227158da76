import Verif.SliceLemmas2
/-!
# Reasoning about outcomes

`Runs m s Q E`: started in `s`, the computation `m` returns or panics (it is neither undefined nor
aborts); `Q` holds if it returns, `E` if it panics.
-/
namespace Dync
variable {σ τ α β U : Type}

/-- `m` started in `s` returns with `Q` or panics with `E`. -/
def Runs (m : M σ α) (s : σ) (Q : α → σ → Prop) (E : σ → Prop) : Prop :=
  match m s with
  | (.ok a, s') => Q a s'
  | (.panic _, s') => E s'
  | (.ub, _) => False
  | (.abort, _) => False

namespace Runs
variable {m : M σ α} {s : σ} {Q Q' : α → σ → Prop} {E E' : σ → Prop}

theorem of_ok {a : α} {s' : σ} (h : m s = (.ok a, s')) (hq : Q a s') : Runs m s Q E := by simp [Runs, h, hq]
theorem of_panic {y : Why} {s' : σ} (h : m s = (.panic y, s')) (he : E s') : Runs m s Q E := by simp [Runs, h, he]

theorem cases_on (h : Runs m s Q E) : (∃ a s', m s = (.ok a, s') ∧ Q a s') ∨ ∃ y s', m s = (.panic y, s') ∧ E s' := by
  unfold Runs at h
  rcases hm : m s with ⟨r, s'⟩
  rw [hm] at h
  cases r with
  | ok a => exact .inl ⟨a, s', rfl, h⟩
  | panic y => exact .inr ⟨y, s', rfl, h⟩
  | ub => exact h.elim
  | abort => exact h.elim

theorem mono (h : Runs m s Q E) (hq : ∀ a s', Q a s' → Q' a s') (he : ∀ s', E s' → E' s') : Runs m s Q' E' := by
  rcases h.cases_on with ⟨a, s', e, h'⟩ | ⟨y, s', e, h'⟩
  · exact of_ok e (hq a s' h')
  · exact of_panic e (he s' h')

theorem pure {a : α} (h : Q a s) : Runs (Pure.pure a) s Q E := h
theorem panic {y : Why} (h : E s) : Runs (M.panic y) s Q E := h

theorem bind {x : M σ β} {f : β → M σ α} {R : β → σ → Prop} (hx : Runs x s R E)
    (hf : ∀ b s', R b s' → Runs (f b) s' Q E) : Runs (x >>= f) s Q E := by
  rcases hx.cases_on with ⟨b, s', e, h'⟩ | ⟨y, s', e, h'⟩
  · have := hf b s' h'
    unfold Runs
    rw [M.bind_ok e]
    exact this
  · exact of_panic (M.bind_panic e) h'

/-- The first step returns for sure. -/
theorem bind_ok {x : M σ β} {f : β → M σ α} {b : β} {s' : σ} (hx : x s = (.ok b, s')) (hf : Runs (f b) s' Q E) :
    Runs (x >>= f) s Q E := by
  unfold Runs
  rw [M.bind_ok hx]
  exact hf

theorem assert {b : Bool} {Q : Unit → σ → Prop} (h : b = true → Q () s) (he : b = false → E s) : Runs (M.assert b) s Q E := by
  cases b with
  | true => exact h rfl
  | false => exact he rfl

theorem debugAssert {cfg : Cfg} {b : Bool} {Q : Unit → σ → Prop} (h : (cfg.debug = true → b = true) → Q () s)
    (he : cfg.debug = true → b = false → E s) : Runs (Dync.debugAssert cfg b) s Q E := by
  unfold Dync.debugAssert
  split
  · rename_i hd
    exact assert (fun e => h fun _ => e) (fun e => he hd e)
  · rename_i hd
    exact h fun e => absurd e hd

theorem zoom {g : σ → τ} {st : τ → σ → σ} {n : M τ α} (h : Runs n (g s) (fun a t => Q a (st t s)) (fun t => E (st t s))) :
    Runs (M.zoom g st n) s Q E := by
  rcases h.cases_on with ⟨b, s', e, h'⟩ | ⟨y, s', e, h'⟩
  · exact of_ok (by rw [M.zoom_run, e]) h'
  · exact of_panic (by rw [M.zoom_run, e]) h'

theorem withLocal {x : τ} {d : τ → M (World U) Unit} {n : M (τ × World U) α} {w : World U}
    {Q : α × τ → World U → Prop} {E : World U → Prop}
    (h : Runs n (x, w) (fun a p => Q (a, p.1) p.2) (fun p => Runs (d p.1) p.2 (fun _ w' => E w') (fun _ => False))) :
    Runs (Dync.withLocal x d n) w Q E := by
  rcases h.cases_on with ⟨b, s', e, h'⟩ | ⟨y, s', e, h'⟩
  · exact of_ok (a := (b, s'.1)) (s' := s'.2) (by simp [Dync.withLocal, e]) h'
  · rcases h'.cases_on with ⟨u, w', e2, h2⟩ | ⟨y2, w', e2, h2⟩
    · exact of_panic (y := y) (s' := w') (by simp [Dync.withLocal, e, e2]) h2
    · exact h2.elim

theorem umul {cfg : Cfg} {a b : Nat} {Q : Nat → σ → Prop} (h : a * b ≤ usizeMax → Q (a * b) s)
    (hw : usizeMax < a * b → cfg.debug = false → Q (a * b % (usizeMax + 1)) s) (he : E s) : Runs (umul cfg a b) s Q E := by
  unfold Dync.umul
  split
  · rename_i hl; exact h hl
  · rename_i hl
    split
    · exact he
    · rename_i hd
      exact hw (by omega) (by simpa using hd)

theorem umul_nowrap {cfg : Cfg} {a b : Nat} {Q : Nat → σ → Prop} (hn : NoWrap cfg (a * b))
    (h : a * b ≤ usizeMax → Q (a * b) s) (he : E s) : Runs (Dync.umul cfg a b) s Q E := by
  refine umul h (fun h1 h2 => ?_) he
  rcases hn with hn | hn
  · rw [hn] at h2; cases h2
  · omega

theorem uadd_nowrap {cfg : Cfg} {a b : Nat} {Q : Nat → σ → Prop} (hn : NoWrap cfg (a + b))
    (h : a + b ≤ usizeMax → Q (a + b) s) (he : E s) : Runs (uadd cfg a b) s Q E := by
  unfold Dync.uadd
  split
  · rename_i hl; exact h hl
  · rename_i hl
    rcases hn with hn | hn
    · rw [if_pos hn]; exact he
    · exact absurd hn hl

theorem lift {r : Res α} (h : ∀ a, r = .ok a → Q a s) (he : (∃ y, r = .panic y) → E s) (hu : r ≠ .ub) (ha : r ≠ .abort) :
    Runs (M.lift r) s Q E := by
  cases r with
  | ok a => exact h a rfl
  | panic y => exact he ⟨y, rfl⟩
  | ub => exact absurd rfl hu
  | abort => exact absurd rfl ha

theorem onWorld {ρ : Type} {n : M (World U) α} {s : ρ × World U} {Q : α → ρ × World U → Prop} {E : ρ × World U → Prop}
    (h : Runs n s.2 (fun a w => Q a (s.1, w)) (fun w => E (s.1, w))) : Runs (Dync.onWorld n) s Q E := zoom h

theorem repeatN {n : M σ Unit} {P : σ → Prop} (hn : ∀ s, P s → Runs n s (fun _ => P) E) (k : Nat) (h : P s) :
    Runs (M.repeatN k n) s (fun _ => P) E := by
  induction k generalizing s with
  | zero => exact h
  | succ k ih => exact bind (hn s h) fun _ s' h' => ih h'

theorem forEach {xs : List β} {f : β → M σ Unit} {P : σ → Prop} (hf : ∀ x ∈ xs, ∀ s, P s → Runs (f x) s (fun _ => P) E)
    (h : P s) : Runs (M.forEach xs f) s (fun _ => P) E := by
  induction xs generalizing s with
  | nil => exact h
  | cons x xs ih => exact bind (hf x (by simp) s h) fun _ s' h' => ih (fun y hy => hf y (by simp [hy])) h'

end Runs

/-- Visiting all elements with a step that keeps `P`. -/
theorem visitMut_runs {body : M (τ × σ) Unit} {P : τ → Prop} {L : σ → Prop}
    (hb : ∀ x s, P x → L s → Runs body (x, s) (fun _ r => P r.1 ∧ L r.2) (fun r => P r.1 ∧ L r.2)) (xs : List τ)
    (hx : ∀ x ∈ xs, P x) (s : σ) (hs : L s) :
    (∃ r, (visitMut body xs s).1 = .ok r ∨ ∃ y, (visitMut body xs s).1 = .panic y) ∧
      (∀ x ∈ (visitMut body xs s).2.1, P x) ∧ (visitMut body xs s).2.1.length = xs.length ∧ L (visitMut body xs s).2.2 := by
  induction xs generalizing s with
  | nil => exact ⟨⟨(), .inl rfl⟩, by simp [visitMut], rfl, hs⟩
  | cons x xs ih =>
    rcases (hb x s (hx x (by simp)) hs).cases_on with ⟨_, ⟨x', s'⟩, e, h1, h2⟩ | ⟨y, ⟨x', s'⟩, e, h1, h2⟩
    · obtain ⟨g1, g2, g3, g4⟩ := ih (fun z hz => hx z (by simp [hz])) s' h2
      simp only [visitMut, e]
      refine ⟨g1, ?_, by simp [g3], g4⟩
      intro z hz
      rcases List.mem_cons.1 hz with rfl | hz
      · exact h1
      · exact g2 z hz
    · simp only [visitMut, e]
      refine ⟨⟨(), .inr ⟨y, rfl⟩⟩, ?_, by simp, h2⟩
      intro z hz
      rcases List.mem_cons.1 hz with rfl | hz
      · exact h1
      · exact hx z (by simp [hz])

end Dync
