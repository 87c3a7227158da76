import Verif.ParallelLemmas2
import Verif.HeldViewsLemmas2
/-!
# A thread alone
-/
namespace Dync
variable {U V α β : Type} {Γ : TyEnv U} {cfg : Cfg} {n : Nat} {m : Mem} {ρ sh : Nat → Option (PtrView V)} {σ σs : Lists}

/-- Only the bytes of the views matter. -/
theorem HeldAt.congr {m' : Mem} (H : HeldAt Γ n m ρ σ) (h : ∀ k v, ρ k = some v → ∀ x, v.Covers x → m'.byte x = m.byte x) : HeldAt Γ n m' ρ σ := by
  refine ⟨H.fresh, H.none_iff, fun k v t es h1 h2 => ?_, H.apart⟩
  have e : v.contents m' = v.contents m := by
    unfold PtrView.contents
    rw [Mem.read_congr fun i h3 h4 => h k v h1 i ⟨h3, h4⟩]
  rw [e]
  exact H.view k v t es h1 h2

/-- Some of the views. -/
theorem HeldAt.given (H : HeldAt Γ n m ρ σ) (owner : Nat → Option Nat) (who : Option Nat) :
    HeldAt Γ n m (given owner who ρ) (given owner who σ) := by
  unfold Dync.given
  refine ⟨fun k hk => ?_, fun k => ?_, fun k v t es h1 h2 => ?_, fun i j v w hij h1 h2 => ?_⟩
  · simp only [H.fresh k hk, ite_self]
  · split
    · exact H.none_iff k
    · exact ⟨fun _ => rfl, fun _ => rfl⟩
  · split at h1
    · rename_i h
      rw [if_pos h] at h2
      exact H.view k v t es h1 h2
    · cases h1
  · split at h1
    · split at h2
      · exact H.apart i j v w hij h1 h2
      · cases h2
    · cases h1

theorem shape_given (owner : Nat → Option Nat) (who : Option Nat) : shape (given owner who σ) = given owner who (shape σ) := by
  funext k
  unfold shape given
  simp only
  split <;> rfl

theorem SProg.Reads.sized {p : SProg} (h : p.Reads) (t : TyId) : p.Sized Γ t := by
  induction p with
  | seq p q ihp ihq => exact ⟨ihp h.1, ihq h.2⟩
  | split mid p q ihp ihq => exact ⟨ihp h.1, ihq h.2⟩
  | sub r p ih => exact ih h
  | chunks k p ih => exact ih h
  | setAs => exact h.elim
  | setValue => exact h.elim
  | mapAll => exact h.elim
  | mapAs => exact h.elim
  | copyFromSlice => exact h.elim
  | _ => trivial

/-- What a thread does alone, compared with lists. -/
structure ThreadSim (Γ : TyEnv U) (n : Nat) (m : Mem) (ρ sh : Nat → Option (PtrView V)) (σ : Lists) (R : Res α × Mem) (P : Res α × Lists) :
    Prop where
  res : R.1.Agrees P.1
  held : HeldAt Γ n R.2 ρ P.2
  shape : shape P.2 = shape σ
  frame : ∀ x, (∀ k v, ρ k = some v → ¬ v.Covers x) → R.2.byte x = m.byte x
  log : ∃ l, R.2.log = m.log ++ l ∧ ∀ a ∈ l, (∃ k v, ρ k = some v ∧ a.Within v.addr v.len) ∨
    (a.write = false ∧ ∃ k v, sh k = some v ∧ a.Within v.addr v.len)

theorem HeldSim.thread {R : Res α × Mem} {P : Res α × Lists} (h : HeldSim Γ n m ρ σ R P) : ThreadSim Γ n m ρ sh σ R P := by
  obtain ⟨l, e, hl⟩ := h.log
  exact ⟨h.res, h.held, h.shape, h.frame, l, e, fun a ha => .inl (hl a ha)⟩

theorem ThreadSim.bind {a : M Mem α} {b : M Lists α} {f : α → M Mem β} {g : α → M Lists β} (h : ThreadSim Γ n m ρ sh σ (a m) (b σ))
    (hf : ∀ x m1 σ1, a m = (.ok x, m1) → b σ = (.ok x, σ1) → HeldAt Γ n m1 ρ σ1 → Dync.shape σ1 = Dync.shape σ →
      ThreadSim Γ n m1 ρ sh σ1 (f x m1) (g x σ1)) :
    ThreadSim Γ n m ρ sh σ ((a >>= f) m) ((b >>= g) σ) := by
  rcases ha : a m with ⟨r, m1⟩
  rcases hb : b σ with ⟨s, σ1⟩
  rw [ha, hb] at h
  obtain ⟨h1, h2, h3, h4, l, el, hl⟩ := h
  cases r with
  | ok x =>
    cases s with
    | ok y =>
      cases (show x = y from h1)
      rw [M.bind_ok ha, M.bind_ok hb]
      obtain ⟨k1, k2, k3, k4, l', el', hl'⟩ := hf x m1 σ1 ha hb h2 h3
      refine ⟨k1, k2, k3.trans h3, fun z hz => (k4 z hz).trans (h4 z hz), l ++ l', ?_, fun z hz => ?_⟩
      · rw [el', show m1.log = _ from el, List.append_assoc]
      · exact (List.mem_append.1 hz).elim (hl z) (hl' z)
    | _ => exact h1.elim
  | panic x =>
    cases s with
    | panic y => rw [M.bind_panic ha, M.bind_panic hb]; exact ⟨trivial, h2, h3, h4, l, el, hl⟩
    | _ => exact h1.elim
  | ub => cases s <;> exact h1.elim
  | abort => cases s <;> exact h1.elim

theorem caught_snd {σ : Type} (c : M σ α) (s : σ) : (c.caught s).2 = (c s).2 := by
  unfold M.caught
  rcases h : c s with ⟨r, s'⟩
  cases r <;> simp only [h]

theorem ThreadSim.caught {a : M Mem α} {b : M Lists α} (h : ThreadSim Γ n m ρ sh σ (a m) (b σ)) :
    ThreadSim Γ n m ρ sh σ (a.caught m) (b.caught σ) := by
  unfold M.caught
  rcases ha : a m with ⟨r, m1⟩
  rcases hb : b σ with ⟨s, σ1⟩
  rw [ha, hb] at h
  obtain ⟨h1, h2, h3, h4, h5⟩ := h
  cases r with
  | ok x =>
    cases s with
    | ok y => cases (show x = y from h1); simp only [ha, hb]; exact ⟨rfl, h2, h3, h4, h5⟩
    | _ => exact h1.elim
  | panic x =>
    cases s with
    | panic y => simp only [ha, hb]; exact ⟨rfl, h2, h3, h4, h5⟩
    | _ => exact h1.elim
  | ub => cases s <;> exact h1.elim
  | abort => cases s <;> exact h1.elim

/-- Reading a shared view. -/
theorem look_sim (H : HeldAt Γ n m ρ σ) (S : HeldAt Γ n m sh σs) {k : Nat} {p : SProg} (hp : p.Reads)
    (hr : ∀ t j, shape σs k = some (t, j) → p.InRange cfg (Γ.size t)) :
    ThreadSim Γ n m ρ sh σ ((match sh k with | none => pure [] | some v => p.runAt Γ cfg v : M Mem (List Read)) m)
      ((match σs k with | none => pure [] | some (t, es) => M.lift (p.plain t es).1 : M Lists (List Read)) σ) ∧
    ((match sh k with | none => pure [] | some v => p.runAt Γ cfg v : M Mem (List Read)) m).2.byte = m.byte := by
  rcases S.cases k with ⟨h1, h2⟩ | ⟨v, t, es, h1, h2, -, -⟩
  · rw [h1, h2]
    exact ⟨⟨rfl, H, rfl, fun _ _ => rfl, [], (List.append_nil _).symm, fun x h => by cases h⟩, rfl⟩
  · rw [h1, h2]
    have K := keeps_on (cfg := cfg) S h1 h2 (hp.sized t) (hr t es.length (shape_some h2))
    obtain ⟨e, l, el, hl⟩ := (p.made (Γ := Γ) (cfg := cfg) (w := false) v (.inr hp)).reads rfl m
    refine ⟨⟨K.res, H.congr fun _ _ _ _ _ => by rw [e], rfl, fun _ _ => by rw [e], l, el, fun a ha => .inr ⟨hl a ha, ?_⟩⟩, e⟩
    obtain ⟨l', el', hl'⟩ := K.log
    rw [el] at el'
    cases List.append_cancel_left el'
    exact hl' a ha

/-- A thread alone does what it does with lists. -/
theorem TProg.sim (p : TProg) : ∀ {m : Mem} {σ : Lists}, HeldAt Γ n m ρ σ → HeldAt Γ n m sh σs →
    (∀ i j v w, ρ i = some v → sh j = some w → ∀ x, ¬ (v.Covers x ∧ w.Covers x)) → p.Fits Γ cfg n (shape σ) (shape σs) →
    ThreadSim Γ n m ρ sh σ (p.runAt Γ cfg n ρ sh m) (p.plain n σs σ) := by
  induction p with
  | stop => exact fun H _ _ _ => ⟨rfl, H, rfl, fun _ _ => rfl, [], (List.append_nil _).symm, fun x h => by cases h⟩
  | own p next ih =>
    intro m σ H S A F
    simp only [TProg.runAt, TProg.plain]
    have K := p.sim (cfg := cfg) F.1 n m ρ σ H F.2.1
    refine ThreadSim.bind K.thread.caught fun o m1 σ1 e1 e2 H1 hs => ?_
    have S1 : HeldAt Γ n m1 sh σs := by
      have hm : m1 = ((p.runAt Γ cfg n ρ).caught m).2 := by rw [e1]
      refine S.congr fun k v hk x hx => ?_
      rw [hm]
      exact K.thread (sh := sh).caught.frame x fun i w hi hw => A i k w v hi hk x ⟨hw, hx⟩
    refine ThreadSim.bind (ih o H1 S1 A (hs ▸ F.2.2 o)) fun os m2 σ2 _ _ H2 _ => ?_
    exact ⟨rfl, H2, rfl, fun _ _ => rfl, [], (List.append_nil _).symm, fun x h => by cases h⟩
  | look k p next ih =>
    intro m σ H S A F
    simp only [TProg.runAt, TProg.plain]
    obtain ⟨K, e⟩ := look_sim (cfg := cfg) H S F.1 F.2.1
    refine ThreadSim.bind K.caught fun o m1 σ1 e1 e2 H1 hs => ?_
    have hm : m1.byte = m.byte := by
      have h := congrArg Prod.snd e1
      rw [caught_snd] at h
      rw [← show _ = m1 from h]
      exact e
    refine ThreadSim.bind (ih o H1 (S.congr fun _ _ _ _ _ => by rw [hm]) A (hs ▸ F.2.2 o)) fun os m2 σ2 _ _ H2 _ => ?_
    exact ⟨rfl, H2, rfl, fun _ _ => rfl, [], (List.append_nil _).symm, fun x h => by cases h⟩

end Dync
