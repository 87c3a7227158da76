import Verif.HistoryDyn
import Verif.HistoryLemmas
/-!
# Helper lemmas: what calls do to the buffer of a container

However a call ends, the container is in the same buffer with the same capacity, or its capacity has become larger, or its
content is lost.
-/
namespace Dync.Place
variable {σ τ U V α β : Type} {Γ : TyEnv U} {cfg : Cfg} {t : TyId} {T : Layout}

/-- If the computation returns or panics, the states before and after it are related. -/
def Run (P : σ → σ → Prop) (m : M σ α) : Prop := ∀ s r s', m s = (r, s') → r ≠ .ub → r ≠ .abort → P s s'

/-- Reflexive and transitive. -/
structure Pre (P : σ → σ → Prop) : Prop where
  refl : ∀ s, P s s
  trans : ∀ {a b c}, P a b → P b c → P a c

section
variable {P : σ → σ → Prop}

theorem Run.of {m : M σ α} (h : ∀ s, P s (m s).2) : Run P m := fun s r s' e _ _ => by have := h s; rw [e] at this; exact this

theorem Run.pure (hP : Pre P) (x : α) : Run P (Pure.pure x : M σ α) := .of fun s => hP.refl s
theorem Run.panic (hP : Pre P) (y : Why) : Run P (M.panic y : M σ α) := .of fun s => hP.refl s
theorem Run.ub : Run P (M.ub : M σ α) := fun s r s' e h _ => by cases e; exact absurd rfl h
theorem Run.lift (hP : Pre P) (r : Res α) : Run P (M.lift r : M σ α) := .of fun s => hP.refl s
theorem Run.get (hP : Pre P) : Run P (M.get : M σ σ) := .of fun s => hP.refl s
theorem Run.modify {f : σ → σ} (h : ∀ s, P s (f s)) : Run P (M.modify f) := .of h

theorem Run.bind (hP : Pre P) {m : M σ α} {f : α → M σ β} (h : Run P m) (hf : ∀ x, Run P (f x)) : Run P (m >>= f) := by
  intro s r s' e h1 h2
  rw [M.bind_run] at e
  rcases hm : m s with ⟨q, s1⟩
  rw [hm] at e
  cases q with
  | ok x => exact hP.trans (h _ _ _ hm (by intro h; cases h) (by intro h; cases h)) (hf x _ _ _ e h1 h2)
  | panic y => cases e; exact h _ _ _ hm (by intro h; cases h) (by intro h; cases h)
  | ub => cases e; exact absurd rfl h1
  | abort => cases e; exact absurd rfl h2

theorem Run.ite {b : Prop} [Decidable b] {m m' : M σ α} (h : b → Run P m) (h' : ¬ b → Run P m') : Run P (if b then m else m') := by
  split
  · exact h ‹_›
  · exact h' ‹_›

theorem Run.assert (hP : Pre P) (b : Bool) : Run P (M.assert b : M σ Unit) := by
  unfold M.assert; exact .ite (fun _ => .pure hP _) fun _ => .panic hP _
theorem Run.debugAssert (hP : Pre P) (b : Bool) : Run P (debugAssert cfg b : M σ Unit) := by
  unfold Dync.debugAssert; exact .ite (fun _ => .assert hP _) fun _ => .pure hP _
theorem Run.umul (hP : Pre P) (a b : Nat) : Run P (umul cfg a b : M σ Nat) := by
  unfold Dync.umul
  exact .ite (fun _ => .pure hP _) fun _ => .ite (fun _ => .panic hP _) fun _ => .pure hP _
theorem Run.uadd (hP : Pre P) (a b : Nat) : Run P (uadd cfg a b : M σ Nat) := by
  unfold Dync.uadd
  exact .ite (fun _ => .pure hP _) fun _ => .ite (fun _ => .panic hP _) fun _ => .pure hP _

theorem Run.forEach (hP : Pre P) {body : α → M σ Unit} (h : ∀ x, Run P (body x)) : ∀ xs, Run P (M.forEach xs body)
  | [] => .pure hP _
  | x :: xs => .bind hP (h x) fun _ => Run.forEach hP h xs

theorem Run.repeatN (hP : Pre P) {body : M σ Unit} (h : Run P body) : ∀ n, Run P (M.repeatN n body)
  | 0 => .pure hP _
  | n + 1 => .bind hP h fun _ => Run.repeatN hP h n

theorem Run.thenDrop (hP : Pre P) {m : M σ α} {d : M σ Unit} (h : Run P m) (hd : Run P d) : Run P (M.thenDrop m d) := by
  intro s r s' e h1 h2
  unfold M.thenDrop at e
  simp only at e
  rcases hm : m s with ⟨q, s1⟩
  rw [hm] at e
  cases q with
  | ok x =>
    have i := h _ _ _ hm (by intro h; cases h) (by intro h; cases h)
    rcases he : d s1 with ⟨q2, s2⟩
    simp only [he] at e
    cases q2 with
    | ok y => cases e; exact hP.trans i (hd _ _ _ he (by intro h; cases h) (by intro h; cases h))
    | panic y => cases e; exact hP.trans i (hd _ _ _ he (by intro h; cases h) (by intro h; cases h))
    | ub => cases e; exact absurd rfl h1
    | abort => cases e; exact absurd rfl h2
  | panic x =>
    have i := h _ _ _ hm (by intro h; cases h) (by intro h; cases h)
    rcases he : d s1 with ⟨q2, s2⟩
    simp only [he] at e
    cases q2 with
    | ok y => cases e; exact hP.trans i (hd _ _ _ he (by intro h; cases h) (by intro h; cases h))
    | panic y => cases e; exact absurd rfl h2
    | ub => cases e; exact absurd rfl h1
    | abort => cases e; exact absurd rfl h2
  | ub => cases e; exact absurd rfl h1
  | abort => cases e; exact absurd rfl h2

theorem Run.onUnwind (hP : Pre P) {m : M σ α} {d : M σ Unit} (h : Run P m) (hd : Run P d) : Run P (M.onUnwind m d) := by
  intro s r s' e h1 h2
  unfold M.onUnwind M.unwindDrop at e
  simp only at e
  rcases hm : m s with ⟨q, s1⟩
  simp only [hm] at e
  cases q with
  | ok x => cases e; exact h _ _ _ hm h1 h2
  | panic x =>
    have i := h _ _ _ hm (by intro h; cases h) (by intro h; cases h)
    rcases he : d s1 with ⟨q2, s2⟩
    simp only [he] at e
    cases q2 with
    | ok y => cases e; exact hP.trans i (hd _ _ _ he (by intro h; cases h) (by intro h; cases h))
    | panic y => cases e; exact absurd rfl h2
    | ub => cases e; exact absurd rfl h1
    | abort => cases e; exact absurd rfl h2
  | ub => cases e; exact absurd rfl h1
  | abort => cases e; exact absurd rfl h2

theorem Run.zoom {Q : τ → τ → Prop} {g : σ → τ} {st : τ → σ → σ} {m : M τ α} (h : Run Q m)
    (hPQ : ∀ s s', Q (g s) s' → P s (st s' s)) : Run P (M.zoom g st m) := by
  intro s r s' e h1 h2
  rw [M.zoom_run] at e
  cases e
  exact hPQ _ _ (h _ _ _ rfl h1 h2)
end

/-! ### `Vec` -/

/-- What happens to the buffer of a `Vec`: the heap changes at most as `R` says, or the capacity grows. -/
def KeptR (R : Heap → Heap → Prop) (s s' : RVec × World U) : Prop :=
  s'.1.ptr = s.1.ptr ∧ s'.1.cap = s.1.cap ∧ R s.2.heap s'.2.heap ∨ s.1.cap < s'.1.cap

variable {R : Heap → Heap → Prop}

theorem KeptR.pre (hR : Pre R) : Pre (KeptR (U := U) R) where
  refl s := .inl ⟨rfl, rfl, hR.refl _⟩
  trans {a b c} h h' := by
    rcases h with ⟨h1, h2, h3⟩ | h
    · rcases h' with ⟨i1, i2, i3⟩ | h'
      · exact .inl ⟨i1.trans h1, i2.trans h2, hR.trans h3 i3⟩
      · exact .inr (by omega)
    · rcases h' with ⟨-, i2, -⟩ | h'
      · exact .inr (by omega)
      · exact .inr (by omega)

theorem KeptR.user (hR : Pre R) (m : M U α) : Run (KeptR R) (onWorld (worldUser m) : M (RVec × World U) α) :=
  .of fun s => .inl ⟨rfl, rfl, hR.refl _⟩

/-- Growing makes the capacity larger, if there was need. -/
theorem grow_run (hR : Pre R) {n : Nat} {s s' : RVec × World U} {r : Res Unit} (hn : s.1.cap < s.1.len + n)
    (e : RVec.grow T n s = (r, s')) (h1 : r ≠ .ub) (h2 : r ≠ .abort) : KeptR R s s' := by
  obtain ⟨v, w⟩ := s
  unfold RVec.grow at e
  simp only [M.bind_run, M.get_run] at e
  split at e
  · cases e; exact .inl ⟨rfl, rfl, hR.refl _⟩
  · split at e
    · cases e; exact .inl ⟨rfl, rfl, hR.refl _⟩
    · split at e
      · cases e; exact .inl ⟨rfl, rfl, hR.refl _⟩
      · simp only [onHeap, realloc, M.bind_run, M.zoom_run, dealloc, allocM, M.modify_run] at e
        have hc : v.cap < RVec.grownCap T v.cap (v.len + n) := by
          unfold RVec.grownCap
          have : v.cap < v.len + n := hn
          omega
        rcases hd : (dealloc v.ptr ⟨v.cap * T.size, T.align⟩ : M Heap Unit) w.heap with ⟨q, h⟩
        unfold dealloc at hd
        simp only at hd
        rw [hd] at e
        cases q with
        | ok x => simp only at e; cases e; exact .inr hc
        | panic x =>
          split at hd
          · cases hd
          · split at hd
            · cases hd
            · split at hd <;> cases hd
        | ub => cases e; exact absurd rfl h1
        | abort => cases e; exact absurd rfl h2

theorem reserve_run (hR : Pre R) (n : Nat) : Run (KeptR R) (RVec.reserve T n : M (RVec × World U) Unit) := by
  intro s r s' e h1 h2
  unfold RVec.reserve at e
  simp only [M.bind_run, M.get_run] at e
  split at e
  · exact grow_run hR (by omega) e h1 h2
  · cases e; exact (KeptR.pre hR).refl _

theorem push_run (hR : Pre R) (x : Bytes) : Run (KeptR R) (RVec.push T x : M (RVec × World U) Unit) := by
  intro s r s' e h1 h2
  unfold RVec.push at e
  simp only [M.bind_run, M.get_run] at e
  split at e
  · rename_i hl
    rw [M.bind_run] at e
    rcases hg : (RVec.grow T 1 : M (RVec × World U) Unit) s with ⟨q, s1⟩
    rw [hg] at e
    cases q with
    | ok y =>
      simp only [M.modify_run] at e
      cases e
      have := grow_run hR (by omega) hg (by intro h; cases h) (by intro h; cases h)
      exact this
    | panic y => cases e; exact grow_run hR (by omega) hg (by intro h; cases h) (by intro h; cases h)
    | ub => cases e; exact absurd rfl h1
    | abort => cases e; exact absurd rfl h2
  · simp only [M.modify_run] at e
    cases e; exact .inl ⟨rfl, rfl, hR.refl _⟩

theorem KeptR.modify (hR : Pre R) {f : RVec × World U → RVec × World U} (h : ∀ s, (f s).1.ptr = s.1.ptr ∧ (f s).1.cap = s.1.cap ∧ (f s).2.heap = s.2.heap) :
    Run (KeptR R) (M.modify f) := .modify fun s => .inl ⟨(h s).1, (h s).2.1, by rw [(h s).2.2]; exact hR.refl _⟩

theorem truncate_run (hR : Pre R) (n : Nat) : Run (KeptR R) (RVec.truncate T n : M (RVec × World U) Unit) := by
  refine KeptR.modify hR fun s => ?_
  split <;> exact ⟨rfl, rfl, rfl⟩

theorem resizeWith_run (hR : Pre R) (n : Nat) (x : Bytes) : Run (KeptR R) (RVec.resizeWith T n x : M (RVec × World U) Unit) := by
  refine .bind (KeptR.pre hR) (.get (KeptR.pre hR)) fun s => ?_
  refine .ite (fun _ => .bind (KeptR.pre hR) (reserve_run hR _) fun _ => KeptR.modify hR fun _ => ⟨rfl, rfl, rfl⟩) fun _ => truncate_run hR _

theorem append_run (hR : Pre R) (o : RVec) : Run (KeptR R) (RVec.append T o : M (RVec × World U) RVec) :=
  .bind (KeptR.pre hR) (reserve_run hR _) fun _ => .bind (KeptR.pre hR) (KeptR.modify hR fun _ => ⟨rfl, rfl, rfl⟩) fun _ => .pure (KeptR.pre hR) _

theorem intoValidVec_run (hR : Pre R) : Run (KeptR R) (VecVoid.intoValidVec T : M (RVec × World U) Unit) :=
  .bind (KeptR.pre hR) (.of fun _ => (KeptR.pre hR).refl _) fun _ => .ite (fun _ => reserve_run hR _) fun _ => .pure (KeptR.pre hR) _

/-! ### `VecVoid` -/

/-- The element information is that of the type. -/
def Good (Γ : TyEnv U) (v : VecVoid) : Prop := v.elem = ElemInfo.new Γ v.elem.type_id

/-- What a call does to the buffer of a container: it is the same one, or larger, or the content is lost. -/
def Kept (Γ : TyEnv U) (R : Heap → Heap → Prop) (v : VecVoid) (h : Heap) (v' : VecVoid) (h' : Heap) : Prop :=
  Good Γ v → Good Γ v' ∧
    (v'.elem = v.elem ∧ (v'.ptr = v.ptr ∧ v'.cap = v.cap ∧ R h h' ∨ v.cap < v'.cap) ∨ v'.elem.size = 0)

/-- `Kept` for states of `VecVoid` methods. -/
def KeptV (Γ : TyEnv V) (R : Heap → Heap → Prop) (s s' : VecVoid × World U) : Prop := Kept Γ R s.1 s.2.heap s'.1 s'.2.heap

theorem Kept.refl (hR : Pre R) (v : VecVoid) (h : Heap) : Kept Γ R v h v h := fun g => ⟨g, .inl ⟨rfl, .inl ⟨rfl, rfl, hR.refl _⟩⟩⟩

theorem Kept.trans (hR : Pre R) {v v1 v2 : VecVoid} {h h1 h2 : Heap} (i : Kept Γ R v h v1 h1) (j : Kept Γ R v1 h1 v2 h2) : Kept Γ R v h v2 h2 := by
  intro g
  obtain ⟨g1, i⟩ := i g
  obtain ⟨g2, j⟩ := j g1
  refine ⟨g2, ?_⟩
  rcases i with ⟨e1, i⟩ | i
  · rcases j with ⟨e2, j⟩ | j
    · left
      refine ⟨e2.trans e1, ?_⟩
      rcases i with ⟨i1, i2, i3⟩ | i
      · rcases j with ⟨j1, j2, j3⟩ | j
        · exact .inl ⟨j1.trans i1, j2.trans i2, hR.trans i3 j3⟩
        · exact .inr (by omega)
      · rcases j with ⟨-, j2, -⟩ | j
        · exact .inr (by omega)
        · exact .inr (by omega)
    · exact .inr j
  · rcases j with ⟨e2, -⟩ | j
    · exact .inr (by rw [e2]; exact i)
    · exact .inr j

theorem KeptV.pre (hR : Pre R) : Pre (KeptV (U := U) Γ R) := ⟨fun _ => Kept.refl hR _ _, fun h h' => Kept.trans hR h h'⟩

theorem good_default (Γ : TyEnv U) : Good Γ (VecVoid.default Γ) := rfl

theorem lost_default (Γ : TyEnv U) : (VecVoid.default Γ).elem.size = 0 := by
  show Γ.size Γ.unitTy / _ = 0
  rw [Γ.unit_size]; exact Nat.zero_div _

theorem Kept.lost (v : VecVoid) (h h' : Heap) : Kept Γ R v h (VecVoid.default Γ) h' := fun _ => ⟨good_default Γ, .inr (lost_default Γ)⟩

/-- How a sequence of two computations ends. -/
theorem bind_inv {m : M σ α} {f : α → M σ β} {s s' : σ} {r : Res β} (e : (m >>= f) s = (r, s')) (h1 : r ≠ .ub) (h2 : r ≠ .abort) :
    (∃ a s1, m s = (.ok a, s1) ∧ f a s1 = (r, s')) ∨ ∃ y, m s = (.panic y, s') ∧ r = .panic y := by
  rw [M.bind_run] at e
  rcases hm : m s with ⟨q, s1⟩
  rw [hm] at e
  cases q with
  | ok x => exact .inl ⟨x, s1, rfl, e⟩
  | panic y => cases e; exact .inr ⟨y, rfl, rfl⟩
  | ub => cases e; exact absurd rfl h1
  | abort => cases e; exact absurd rfl h2

theorem assert_inv {b : Bool} {s s' : σ} {r : Res Unit} (e : M.assert b s = (r, s')) : s' = s ∧ (r = .ok () → b = true) := by
  unfold M.assert at e
  split at e
  · cases e; exact ⟨rfl, fun _ => ‹_›⟩
  · cases e; exact ⟨rfl, fun h => by cases h⟩

theorem debugAssert_inv {b : Bool} {s s' : σ} {r : Res Unit} (e : debugAssert cfg b s = (r, s')) : s' = s := by
  unfold debugAssert at e
  split at e
  · exact (assert_inv e).1
  · cases e; rfl

theorem fromRawParts_inv {p : Ptr} {n c : Nat} {b : Bytes} {s s' : σ} {r : Res RVec} (e : RVec.fromRawParts T p n c b s = (r, s')) :
    s' = s ∧ ∀ rv, r = .ok rv → rv.ptr = p ∧ rv.cap = c := by
  unfold RVec.fromRawParts at e
  split at e
  · cases e; exact ⟨rfl, fun rv h => by cases h; exact ⟨rfl, rfl⟩⟩
  · cases e; exact ⟨rfl, fun rv h => by cases h⟩

theorem alignedVec_inv {v : VecVoid} {s s' : σ} {r : Res RVec} (e : VecVoid.alignedVec cfg T v s = (r, s')) (h1 : r ≠ .ub) (h2 : r ≠ .abort) :
    s' = s ∧ ∀ rv, r = .ok rv → rv.ptr = v.ptr ∧ rv.cap = v.cap * v.elem.size := by
  rcases bind_inv e h1 h2 with ⟨_, s1, e1, e⟩ | ⟨y, e1, rfl⟩
  · rw [debugAssert_inv e1] at e
    rcases bind_inv e h1 h2 with ⟨_, s1, e1, e⟩ | ⟨y, e1, rfl⟩
    · rw [debugAssert_inv e1] at e
      exact fromRawParts_inv e
    · exact ⟨debugAssert_inv e1, fun _ h => by cases h⟩
  · exact ⟨debugAssert_inv e1, fun _ h => by cases h⟩

theorem intoVecUnchecked_inv {v : VecVoid} {s s' : σ} {r : Res RVec} (e : VecVoid.intoVecUnchecked cfg Γ t v s = (r, s')) (h1 : r ≠ .ub)
    (h2 : r ≠ .abort) : s' = s ∧ ∀ rv, r = .ok rv → rv.ptr = v.ptr ∧ rv.cap = v.cap := by
  rcases bind_inv e h1 h2 with ⟨_, s1, e1, e⟩ | ⟨y, e1, rfl⟩
  · rw [debugAssert_inv e1] at e
    rcases bind_inv e h1 h2 with ⟨_, s1, e1, e⟩ | ⟨y, e1, rfl⟩
    · rw [debugAssert_inv e1] at e
      exact fromRawParts_inv e
    · exact ⟨debugAssert_inv e1, fun _ h => by cases h⟩
  · exact ⟨debugAssert_inv e1, fun _ h => by cases h⟩

theorem fromVecOverride_inv {rv : RVec} {el : ElemInfo} {s s' : σ} {r : Res VecVoid} (e : VecVoid.fromVecOverride T rv el s = (r, s'))
    (h1 : r ≠ .ub) (h2 : r ≠ .abort) :
    s' = s ∧ ∀ v, r = .ok v → v.ptr = rv.ptr ∧ v.elem = el ∧ el.size ≠ 0 ∧ rv.cap * (T.size / T.align) % el.size = 0 ∧
      v.cap = rv.cap * (T.size / T.align) / el.size := by
  simp only [VecVoid.fromVecOverride] at e
  rcases bind_inv e h1 h2 with ⟨_, s1, e1, e⟩ | ⟨y, e1, rfl⟩
  · rw [(assert_inv e1).1] at e
    rcases bind_inv e h1 h2 with ⟨_, s1, e1, e⟩ | ⟨y, e1, rfl⟩
    · rw [(assert_inv e1).1] at e
      split at e
      · cases e; exact ⟨rfl, fun _ h => by cases h⟩
      · rename_i hz
        rcases bind_inv e h1 h2 with ⟨_, s1, e1, e⟩ | ⟨y, e1, rfl⟩
        · rw [(assert_inv e1).1] at e
          rcases bind_inv e h1 h2 with ⟨u, s1, e1, e'⟩ | ⟨y, e1, rfl⟩
          · obtain ⟨rfl, hm⟩ := assert_inv e1
            obtain ⟨rfl, rfl⟩ := Prod.mk.inj e'
            refine ⟨rfl, fun v h => ?_⟩
            cases h
            exact ⟨rfl, rfl, hz, by simpa using hm rfl, rfl⟩
          · exact ⟨(assert_inv e1).1, fun _ h => by cases h⟩
        · exact ⟨(assert_inv e1).1, fun _ h => by cases h⟩
    · exact ⟨(assert_inv e1).1, fun _ h => by cases h⟩
  · exact ⟨(assert_inv e1).1, fun _ h => by cases h⟩

/-- How a computation on a local variable ends. -/
theorem withLocal_inv {x : τ} {d : τ → M (World U) Unit} {m : M (τ × World U) α} {w w' : World U} {r : Res (α × τ)}
    (e : withLocal x d m w = (r, w')) (h1 : r ≠ .ub) (h2 : r ≠ .abort) :
    (∃ a x', m (x, w) = (.ok a, (x', w')) ∧ r = .ok (a, x')) ∨
    ∃ y x' w1, m (x, w) = (.panic y, (x', w1)) ∧ d x' w1 = (.ok (), w') ∧ r = .panic y := by
  unfold withLocal at e
  simp only at e
  rcases hm : m (x, w) with ⟨q, ⟨x', w1⟩⟩
  rw [hm] at e
  cases q with
  | ok a => cases e; exact .inl ⟨a, x', rfl, rfl⟩
  | panic y =>
    rcases hd : d x' w1 with ⟨q2, w2⟩
    simp only [hd] at e
    cases q2 with
    | ok a => cases e; exact .inr ⟨y, x', w1, rfl, hd, rfl⟩
    | panic a => cases e; exact absurd rfl h2
    | ub => cases e; exact absurd rfl h1
    | abort => cases e; exact absurd rfl h2
  | ub => cases e; exact absurd rfl h1
  | abort => cases e; exact absurd rfl h2

theorem dropBuf_user {v : RVec} {w w' : World U} {r : Res Unit} (e : RVec.dropBuf T v w = (r, w')) : w'.user = w.user := by
  unfold RVec.dropBuf worldHeap at e
  rw [M.zoom_run] at e
  cases e; rfl

/-- How a method ends that works on the content as a `Vec`. -/
theorem applyAligned_inv {Γ : TyEnv V} {f : M (RVec × World U) α} {v v' : VecVoid} {w w' : World U} {r : Res α}
    (e : VecVoid.applyAligned Γ cfg T f (v, w) = (r, (v', w'))) (h1 : r ≠ .ub) (h2 : r ≠ .abort) :
    (v' = VecVoid.default Γ ∧ w' = w ∧ ∃ y, r = .panic y) ∨
    ∃ rv q rv' w1, rv.ptr = v.ptr ∧ rv.cap = v.cap * v.elem.size ∧ f (rv, w) = (q, (rv', w1)) ∧ q ≠ .ub ∧ q ≠ .abort ∧ w'.user = w1.user ∧
      (v' = VecVoid.default Γ ∧ (∃ y, r = .panic y) ∨
        (∃ a, q = .ok a) ∧ w' = w1 ∧ v'.ptr = rv'.ptr ∧ v'.elem = v.elem ∧ v.elem.size ≠ 0 ∧
        rv'.cap * (T.size / T.align) % v.elem.size = 0 ∧ v'.cap = rv'.cap * (T.size / T.align) / v.elem.size) := by
  simp only [VecVoid.applyAligned] at e
  rw [M.bind_ok (getSelf_run _), M.bind_ok (setSelf_run _ _)] at e
  rcases bind_inv e h1 h2 with ⟨rv, s1, e1, e⟩ | ⟨y, e1, rfl⟩
  · obtain ⟨rfl, hrv⟩ := alignedVec_inv e1 (by intro h; cases h) (by intro h; cases h)
    obtain ⟨hp, hc⟩ := hrv _ rfl
    rcases bind_inv e h1 h2 with ⟨⟨a, rv'⟩, ⟨v1, w1⟩, e2, e⟩ | ⟨y, e2, rfl⟩
    · rw [onWorld_run] at e2
      injection e2 with e2 e3
      injection e3 with e3 e4
      rcases withLocal_inv (Prod.ext e2 e4) (by intro h; cases h) (by intro h; cases h) with ⟨a', x', hf, hr⟩ | ⟨y, x', w2, -, -, hr⟩
      · cases hr
        right
        rcases bind_inv e h1 h2 with ⟨new, s3, e5, e⟩ | ⟨y, e5, rfl⟩
        · obtain ⟨rfl, hn⟩ := fromVecOverride_inv e5 (by intro h; cases h) (by intro h; cases h)
          obtain ⟨n1, n2, n3, n4, n5⟩ := hn _ rfl
          rw [M.bind_ok (setSelf_run _ _)] at e
          cases e
          exact ⟨rv, _, rv', _, hp, hc, hf, (by intro h; cases h), (by intro h; cases h), rfl, .inr ⟨⟨_, rfl⟩, rfl, n1, n2, n3, n4, n5⟩⟩
        · obtain ⟨hs, -⟩ := fromVecOverride_inv e5 (by intro h; cases h) (by intro h; cases h)
          cases hs
          exact ⟨rv, _, rv', _, hp, hc, hf, (by intro h; cases h), (by intro h; cases h), rfl, .inl ⟨e3.symm, _, rfl⟩⟩
      · cases hr
    · rw [onWorld_run] at e2
      injection e2 with e2 e3
      injection e3 with e3 e4
      rcases withLocal_inv (Prod.ext e2 e4) (by intro h; cases h) (by intro h; cases h) with ⟨a', x', hf, hr⟩ | ⟨y, x', w2, hf, hd, hr⟩
      · cases hr
      · exact .inr ⟨rv, _, x', w2, hp, hc, hf, (by intro h; cases h), (by intro h; cases h), dropBuf_user hd, .inl ⟨e3.symm, _, rfl⟩⟩
  · obtain ⟨hs, -⟩ := alignedVec_inv e1 (by intro h; cases h) (by intro h; cases h)
    cases hs
    exact .inl ⟨rfl, rfl, _, rfl⟩

theorem cap_same {c s : Nat} (hs : s ≠ 0) : c * s * 1 / s = c := by rw [Nat.mul_one]; exact Nat.mul_div_cancel _ (Nat.pos_of_ne_zero hs)

theorem cap_grows {c c' s : Nat} (hs : s ≠ 0) (hm : c' * 1 % s = 0) (h : c * s < c') : c < c' * 1 / s := by
  rw [Nat.mul_one] at *
  obtain ⟨k, rfl⟩ := Nat.dvd_of_mod_eq_zero hm
  rw [Nat.mul_div_cancel_left _ (Nat.pos_of_ne_zero hs)]
  rw [Nat.mul_comm] at h
  exact Nat.lt_of_mul_lt_mul_left h

theorem applyAligned_run (hT : T.size / T.align = 1) {f : M (RVec × World U) α} (hf : Run (KeptR R) f) :
    Run (KeptV Γ R) (VecVoid.applyAligned Γ cfg T f) := by
  rintro ⟨v, w⟩ r ⟨v', w'⟩ e h1 h2
  rcases applyAligned_inv e h1 h2 with ⟨rfl, -, -⟩ | ⟨rv, q, rv', w1, hp, hc, ef, q1, q2, -, ⟨rfl, -⟩ | ⟨-, rfl, p1, p2, p3, p4, p5⟩⟩
  · exact Kept.lost _ _ _
  · exact Kept.lost _ _ _
  · have hk := hf _ _ _ ef q1 q2
    rw [hT] at p4 p5
    intro g
    refine ⟨by unfold Good; rw [show v'.elem = v.elem from p2]; exact g, .inl ⟨p2, ?_⟩⟩
    rcases hk with ⟨k1, k2, k3⟩ | k
    · dsimp only at k1 k2 k3
      refine .inl ⟨p1.trans (k1.trans hp), ?_, k3⟩
      show v'.cap = v.cap
      rw [p5, k2, hc]; exact cap_same p3
    · refine .inr ?_
      show v.cap < v'.cap
      rw [p5]
      exact cap_grows p3 p4 (by rw [← hc]; exact k)

theorem fromVec_run (hR : Pre R) {v : RVec} {w w' : World U} {r : Res VecVoid} (e : VecVoid.fromVec Γ t v w = (r, w')) (h1 : r ≠ .ub)
    (h2 : r ≠ .abort) : (∃ y, r = .panic y) ∨ ∃ v', r = .ok v' ∧ v'.elem = ElemInfo.new Γ t ∧
      (v'.ptr = v.ptr ∧ v'.cap = v.cap ∧ R w.heap w'.heap ∨ v.cap < v'.cap) := by
  rcases bind_inv e h1 h2 with ⟨⟨a, x⟩, w1, e1, e⟩ | ⟨y, e1, rfl⟩
  · cases e
    rcases withLocal_inv e1 (by intro h; cases h) (by intro h; cases h) with ⟨a', x', hf, hr⟩ | ⟨y, x', w2, hf, hd, hr⟩
    · cases hr
      exact .inr ⟨_, rfl, rfl, intoValidVec_run hR _ _ _ hf (by intro h; cases h) (by intro h; cases h)⟩
    · cases hr
  · exact .inl ⟨_, rfl⟩

theorem applyUnchecked_run (hR : Pre R) {f : M (RVec × World U) α} (hf : Run (KeptR R) f) {v v' : VecVoid} {w w' : World U} {r : Res α}
    (ht : v.elem.type_id = t) (e : VecVoid.applyUnchecked Γ cfg t f (v, w) = (r, (v', w'))) (h1 : r ≠ .ub) (h2 : r ≠ .abort) :
    Kept Γ R v w.heap v' w'.heap := by
  simp only [VecVoid.applyUnchecked] at e
  rw [M.bind_ok (getSelf_run _), M.bind_ok (setSelf_run _ _)] at e
  rcases bind_inv e h1 h2 with ⟨rv, s1, e1, e⟩ | ⟨y, e1, rfl⟩
  · obtain ⟨rfl, hrv⟩ := intoVecUnchecked_inv e1 (by intro h; cases h) (by intro h; cases h)
    obtain ⟨hp, hc⟩ := hrv _ rfl
    rcases bind_inv e h1 h2 with ⟨⟨a, rv'⟩, ⟨v1, w1⟩, e2, e⟩ | ⟨y, e2, rfl⟩
    · rw [onWorld_run] at e2
      injection e2 with e2 e3
      injection e3 with e3 e4
      subst e3
      rcases withLocal_inv (Prod.ext e2 e4) (by intro h; cases h) (by intro h; cases h) with ⟨a', x', hf', hr⟩ | ⟨y, x', w2, -, -, hr⟩
      · cases hr
        have hk := hf _ _ _ hf' (by intro h; cases h) (by intro h; cases h)
        rcases bind_inv e h1 h2 with ⟨new, ⟨v3, w3⟩, e5, e⟩ | ⟨y, e5, rfl⟩
        · rw [onWorld_run] at e5
          injection e5 with e5 e6
          injection e6 with e6 e7
          rcases fromVec_run hR (Prod.ext e5 e7) (by intro h; cases h) (by intro h; cases h) with ⟨y, h⟩ | ⟨v4, h, n1, n2⟩
          · cases h
          · cases h
            rw [M.bind_ok (setSelf_run _ _)] at e
            cases e
            intro g
            have hc : rv.cap = v.cap := hc
            have hel : v'.elem = v.elem := by rw [n1, ← ht]; exact g.symm
            refine ⟨by unfold Good; rw [hel]; exact g, .inl ⟨hel, ?_⟩⟩
            rcases hk with ⟨k1, k2, k3⟩ | k
            · dsimp only at k1 k2 k3 n2
              have k2 : rv'.cap = rv.cap := k2
              rcases n2 with ⟨i1, i2, i3⟩ | i
              · exact .inl ⟨i1.trans (k1.trans hp), i2.trans (k2.trans hc), hR.trans k3 i3⟩
              · right; show v.cap < v'.cap; omega
            · have k : rv.cap < rv'.cap := k
              dsimp only at n2
              right
              show v.cap < v'.cap
              rcases n2 with ⟨i1, i2, i3⟩ | i <;> omega
        · rw [onWorld_run] at e5
          injection e5 with e5 e6
          injection e6 with e6 e7
          subst e6
          exact Kept.lost _ _ _
      · cases hr
    · rw [onWorld_run] at e2
      injection e2 with e2 e3
      injection e3 with e3 e4
      subst e3
      exact Kept.lost _ _ _
  · obtain ⟨hs, -⟩ := intoVecUnchecked_inv e1 (by intro h; cases h) (by intro h; cases h)
    cases hs
    exact Kept.lost _ _ _

theorem selectArm_unit {arms : List (Nat × Nat)} {a : Nat} (h : selectArm arms a = some T) : T.size / T.align = 1 := by
  unfold selectArm at h
  split at h
  · have key : ∀ L ∈ alignedTypes, L.size / L.align = 1 := by decide
    exact key T (List.mem_of_getElem? h)
  · cases h

theorem Run.evalAlign {P : σ → σ → Prop} (hP : Pre P) {a : Nat} {f : Layout → M σ α} (h : ∀ T : Layout, T.size / T.align = 1 → Run P (f T)) :
    Run P (evalAlign a f) := by
  unfold Dync.evalAlign
  split
  · exact h _ (selectArm_unit ‹_›)
  · exact .panic hP _

theorem Run.evalAlignLimited {P : σ → σ → Prop} (hP : Pre P) {a : Nat} {f : Layout → M σ α} (h : ∀ T : Layout, T.size / T.align = 1 → Run P (f T)) :
    Run P (evalAlignLimited a f) := by
  unfold Dync.evalAlignLimited
  split
  · exact h _ (selectArm_unit ‹_›)
  · exact .panic hP _

theorem Run.getSelf {P : σ × World U → σ × World U → Prop} (hP : Pre P) : Run P (getSelf : M (σ × World U) σ) := .of fun s => hP.refl s

theorem void_clear (hR : Pre R) : Run (KeptV Γ R) (VecVoid.clear Γ cfg : M (VecVoid × World U) Unit) :=
  .bind (KeptV.pre hR) (.getSelf (KeptV.pre hR)) fun _ => .evalAlign (KeptV.pre hR) fun _ hT => applyAligned_run hT (truncate_run hR _)

theorem void_reserve (hR : Pre R) (n : Nat) : Run (KeptV Γ R) (VecVoid.reserve Γ cfg n : M (VecVoid × World U) Unit) :=
  .bind (KeptV.pre hR) (.getSelf (KeptV.pre hR)) fun _ => .evalAlign (KeptV.pre hR) fun _ hT =>
    applyAligned_run hT (.bind (KeptR.pre hR) (.umul (KeptR.pre hR) _ _) fun _ => reserve_run hR _)

theorem void_truncate (hR : Pre R) (n : Nat) : Run (KeptV Γ R) (VecVoid.truncate Γ cfg n : M (VecVoid × World U) Unit) :=
  .bind (KeptV.pre hR) (.getSelf (KeptV.pre hR)) fun _ => .evalAlign (KeptV.pre hR) fun _ hT =>
    applyAligned_run hT (.bind (KeptR.pre hR) (.umul (KeptR.pre hR) _ _) fun _ => truncate_run hR _)

theorem void_push (hR : Pre R) (x : Bytes) : Run (KeptV Γ R) (VecVoid.push Γ cfg x : M (VecVoid × World U) Unit) :=
  .bind (KeptV.pre hR) (.getSelf (KeptV.pre hR)) fun _ => .evalAlign (KeptV.pre hR) fun _ hT =>
    applyAligned_run hT (.ite (fun _ => push_run hR _) fun _ => .ub)

theorem void_rotateLeft (hR : Pre R) (n : Nat) : Run (KeptV Γ R) (VecVoid.rotateLeft Γ cfg n : M (VecVoid × World U) Unit) :=
  .bind (KeptV.pre hR) (.getSelf (KeptV.pre hR)) fun _ => .evalAlignLimited (KeptV.pre hR) fun _ hT =>
    applyAligned_run hT (.bind (KeptR.pre hR) (.umul (KeptR.pre hR) _ _) fun _ =>
      .bind (KeptR.pre hR) (.get (KeptR.pre hR)) fun _ => .ite (fun _ => KeptR.modify hR fun _ => ⟨rfl, rfl, rfl⟩) fun _ => .panic (KeptR.pre hR) _)

theorem void_rotateRight (hR : Pre R) (n : Nat) : Run (KeptV Γ R) (VecVoid.rotateRight Γ cfg n : M (VecVoid × World U) Unit) :=
  .bind (KeptV.pre hR) (.getSelf (KeptV.pre hR)) fun _ => .evalAlignLimited (KeptV.pre hR) fun _ hT =>
    applyAligned_run hT (.bind (KeptR.pre hR) (.umul (KeptR.pre hR) _ _) fun _ =>
      .bind (KeptR.pre hR) (.get (KeptR.pre hR)) fun _ => .ite (fun _ => KeptR.modify hR fun _ => ⟨rfl, rfl, rfl⟩) fun _ => .panic (KeptR.pre hR) _)

/-- A computation on raw bytes whose effect on the heap is as allowed. -/
def Calm (R : Heap → Heap → Prop) (s s' : σ × World U) : Prop := R s.2.heap s'.2.heap

theorem void_resizeWith (hR : Pre R) (n : Nat) {init : M (Bytes × World U) Unit} (hi : Run (Calm R) init) :
    Run (KeptV Γ R) (VecVoid.resizeWith Γ cfg n init : M (VecVoid × World U) Unit) := by
  have hP := KeptR.pre (U := U) hR
  refine .bind (KeptV.pre hR) (.getSelf (KeptV.pre hR)) fun _ => .evalAlign (KeptV.pre hR) fun _ hT => applyAligned_run hT ?_
  refine .bind hP (.getSelf hP) fun _ => .bind hP (.umul hP _ _) fun _ => .bind hP (resizeWith_run hR _ _) fun _ => .bind hP (.getSelf hP) fun _ => ?_
  refine .ite (fun _ => .panic hP _) fun _ => .ite (fun _ => .ub) fun _ => ?_
  exact .zoom hi fun s s' h => .inl ⟨rfl, rfl, h⟩

end Dync.Place
