import Verif.AliasingLemmas
import Verif.PointersLemmas
import Verif.SliceLemmas
/-!
# Lemmas: what holds of all bytes while references are held
-/
namespace Dync
variable {U α β : Type} {Γ : TyEnv U} {cfg : Cfg} {cells : TyId → Nat → Bool} {C : Nat → Bool} {R : Rules}

/-- The reference is to byte `b`, among others. -/
def Handle.Covers (h : Handle) (b : Nat) : Prop := h.addr ≤ b ∧ b < h.addr + h.len

instance (h : Handle) (b : Nat) : Decidable (h.Covers b) := inferInstanceAs (Decidable (_ ∧ _))

/-- `t` is a held shared reference to byte `b`. -/
def sharedAt (env : List (Option Handle)) (b t : Nat) : Prop := ∃ h, some h ∈ env ∧ h.mode = .shr ∧ h.Covers b ∧ h.tag = t

/-- The stacks allow every use of the references `env` that the borrow checker accepts. `C` tells which bytes are inside cells. -/
structure AInv (C : Nat → Bool) (env : List (Option Handle)) (fl : Nat → Borrows) (m : AMem) : Prop where
  shape : ∀ b, Borrows.Shape (C b) (sharedAt env b) (fl b) (m.stack b)
  own : ∀ h, some h ∈ env → h.mode ≠ .shr → ∀ b, h.Covers b → ∃ r, fl b = ⟨h.tag, .unique⟩ :: r
  nodup : ∀ b, ((m.stack b).map (·.tag)).Nodup
  old : ∀ b, ∀ it ∈ m.stack b, it.tag < m.next
  apart : ∀ (i j : Nat) (g h : Handle), env[i]? = some (some g) → env[j]? = some (some h) → i ≠ j → g.mode = .excl → ∀ b, g.Covers b → ¬ h.Covers b

theorem AInv.congr {env : List (Option Handle)} {fl : Nat → Borrows} {m m' : AMem} (I : AInv C env fl m)
    (hs : m'.stack = m.stack) (hn : m'.next = m.next) : AInv C env fl m' := by
  obtain ⟨a, b, c, d, e⟩ := I
  exact ⟨by rwa [hs], b, by rwa [hs], by rw [hs, hn]; exact d, e⟩

theorem AInv.alone {env : List (Option Handle)} {fl : Nat → Borrows} {m : AMem} {i : Nat} {h : Handle} (I : AInv C env fl m)
    (hi : env[i]? = some (some h)) (he : h.mode = .excl) {b : Nat} (hb : h.Covers b) (t : Nat) : ¬ sharedAt env b t := by
  rintro ⟨g, hg, hm, hc, -⟩
  obtain ⟨j, hj, e⟩ := List.getElem_of_mem hg
  by_cases hij : i = j
  · subst hij
    rw [List.getElem?_eq_getElem hj, e] at hi
    cases hi
    simp [hm] at he
  · exact I.apart i j h g hi (by rw [List.getElem?_eq_getElem hj, e]) hij he b hb hc

theorem AInv.grants {env : List (Option Handle)} {fl : Nat → Borrows} {m : AMem} {h : Handle} (I : AInv C env fl m)
    (hi : some h ∈ env) {b : Nat} (hb : h.Covers b) : sharedAt env b h.tag ∨ ∃ r, fl b = ⟨h.tag, .unique⟩ :: r := by
  by_cases hm : h.mode = .shr
  · exact .inl ⟨h, hi, hm, hb, rfl⟩
  · exact .inr (I.own h hi hm b hb)

/-! ### Rules -/

/-- The stacks after a rule. -/
def AMem.ruled (m : AMem) (a n : Nat) (op : Nat → Borrows → Option Borrows) : Nat → Borrows :=
  fun b => if a ≤ b ∧ b < a + n then (op (b - a) (m.stack b)).getD [] else m.stack b

theorem AMem.rule_on (hR : R.on = true) {m : AMem} {a n : Nat} {op : Nat → Borrows → Option Borrows}
    (h : ∀ k < n, ∃ s', op k (m.stack (a + k)) = some s') :
    (AMem.rule R a n op).run m = (.ok (), { m with stack := m.ruled a n op }) := by
  have : ∀ k < n, (op k (m.stack (a + k))).isSome := fun k hk => by
    obtain ⟨s', e⟩ := h k hk
    simp [e]
  simp only [AMem.rule, hR]
  rw [if_neg (by simp), if_pos this]
  rfl

theorem AMem.rule_off (hR : R.on = false) {m : AMem} {a n : Nat} {op : Nat → Borrows → Option Borrows} :
    (AMem.rule R a n op).run m = (.ok (), m) := by
  simp [AMem.rule, hR]

theorem AMem.ruled_in {m : AMem} {a n k : Nat} {op : Nat → Borrows → Option Borrows} (hk : k < n) {s' : Borrows}
    (e : op k (m.stack (a + k)) = some s') : m.ruled a n op (a + k) = s' := by
  have : a ≤ a + k ∧ a + k < a + n := by omega
  simp [AMem.ruled, this, e]

theorem AMem.ruled_out {m : AMem} {a n b : Nat} {op : Nat → Borrows → Option Borrows} (h : ¬ (a ≤ b ∧ b < a + n)) :
    m.ruled a n op b = m.stack b := by
  simp [AMem.ruled, h]

/-- A rule under which every byte keeps what is needed. -/
theorem AInv.ruled {env : List (Option Handle)} {fl : Nat → Borrows} {m : AMem} {a n : Nat} {op : Nat → Borrows → Option Borrows}
    (I : AInv C env fl m)
    (h : ∀ k < n, ∃ s', op k (m.stack (a + k)) = some s' ∧ Borrows.Shape (C (a + k)) (sharedAt env (a + k)) (fl (a + k)) s' ∧
      s'.Sublist (m.stack (a + k))) : AInv C env fl { m with stack := m.ruled a n op } := by
  have key : ∀ b, Borrows.Shape (C b) (sharedAt env b) (fl b) (m.ruled a n op b) ∧ (m.ruled a n op b).Sublist (m.stack b) := by
    intro b
    by_cases hb : a ≤ b ∧ b < a + n
    · obtain ⟨s', e, hs, hsub⟩ := h (b - a) (by omega)
      have hr := AMem.ruled_in (m := m) (a := a) (n := n) (by omega) e
      rw [show a + (b - a) = b by omega] at *
      rw [hr]; exact ⟨hs, hsub⟩
    · rw [AMem.ruled_out hb]; exact ⟨I.shape b, List.Sublist.refl _⟩
  exact ⟨fun b => (key b).1, I.own, fun b => (I.nodup b).sublist ((key b).2.map _), fun b it hit => I.old b it ((key b).2.subset hit), I.apart⟩

/-! ### Agreement of runs with and without the rules -/

/-- Both computations have the same outcome and do the same to the bytes, from memories that differ in their stacks only. -/
def Agree (P : AMem → Prop) (x y : M AMem α) (Q : α → AMem → Prop) (E : AMem → Prop) : Prop :=
  ∀ m m0 : AMem, m.byte = m0.byte → m.next = m0.next → P m →
    (x.run m).1 = (y.run m0).1 ∧ (x.run m).2.byte = (y.run m0).2.byte ∧ (x.run m).2.next = (y.run m0).2.next ∧
    match (x.run m).1 with
    | .ok a => Q a (x.run m).2
    | .panic _ => E (x.run m).2
    | _ => False

theorem Agree.pure {P : AMem → Prop} {Q : α → AMem → Prop} {E : AMem → Prop} {a : α} (h : ∀ m, P m → Q a m) :
    Agree P (pure a) (pure a) Q E := fun m _ hb hn hP => ⟨rfl, hb, hn, h m hP⟩

theorem Agree.panic {P : AMem → Prop} {Q : α → AMem → Prop} {E : AMem → Prop} {w : Why} (h : ∀ m, P m → E m) :
    Agree P (M.panic w : M AMem α) (M.panic w) Q E := fun m _ hb hn hP => ⟨rfl, hb, hn, h m hP⟩

theorem Agree.bind {P : AMem → Prop} {x y : M AMem α} {Q : α → AMem → Prop} {E : AMem → Prop} {f g : α → M AMem β}
    {T : β → AMem → Prop} (h : Agree P x y Q E) (k : ∀ a, Agree (Q a) (f a) (g a) T E) : Agree P (x >>= f) (y >>= g) T E := by
  intro m m0 hb hn hP
  obtain ⟨e1, e2, e3, e4⟩ := h m m0 hb hn hP
  rcases hx : x.run m with ⟨r, m1⟩
  rcases hy : y.run m0 with ⟨r0, m2⟩
  rw [hx, hy] at e1 e2 e3
  rw [hx] at e4
  simp only at e1 e2 e3 e4
  subst e1
  cases r with
  | ok a =>
    rw [M.bind_ok hx, M.bind_ok hy]
    exact k a m1 m2 e2 e3 e4
  | panic w =>
    rw [M.bind_panic hx, M.bind_panic hy]
    exact ⟨rfl, e2, e3, e4⟩
  | ub => exact absurd e4 id
  | abort => exact absurd e4 id

theorem Agree.weaken {P P' : AMem → Prop} {x y : M AMem α} {Q Q' : α → AMem → Prop} {E E' : AMem → Prop} (h : Agree P x y Q E)
    (hP : ∀ m, P' m → P m) (hQ : ∀ a m, Q a m → Q' a m) (hE : ∀ m, E m → E' m) : Agree P' x y Q' E' := by
  intro m m0 hb hn hp
  obtain ⟨e1, e2, e3, e4⟩ := h m m0 hb hn (hP m hp)
  refine ⟨e1, e2, e3, ?_⟩
  revert e4
  cases (x.run m).1 <;> simp only <;> intro h
  · exact hQ _ _ h
  · exact hE _ h
  · exact h
  · exact h

/-- Facts about the state that do not depend on it may be taken out. -/
theorem Agree.of {P : AMem → Prop} {x y : M AMem α} {Q : α → AMem → Prop} {E : AMem → Prop}
    (h : ∀ m, P m → Agree (fun m' => m' = m) x y Q E) : Agree P x y Q E :=
  fun m m0 hb hn hP => h m hP m m0 hb hn rfl

variable {R0 : Rules}

/-- Apply a rule in one run. -/
theorem rule_agree (hR : R.on = true) (h0 : R0.on = false) {P : AMem → Prop} {Q : Unit → AMem → Prop} {E : AMem → Prop} {a n : Nat}
    {op op' : Nat → Borrows → Option Borrows}
    (h : ∀ m, P m → (∀ k < n, ∃ s', op k (m.stack (a + k)) = some s') ∧ Q () { m with stack := m.ruled a n op }) :
    Agree P (AMem.rule R a n op) (AMem.rule R0 a n op') Q E := by
  intro m m0 hb hn hP
  obtain ⟨h1, h2⟩ := h m hP
  rw [AMem.rule_on hR h1, AMem.rule_off h0]
  exact ⟨rfl, hb, hn, h2⟩

section
variable {env : List (Option Handle)} {fl : Nat → Borrows} {E : AMem → Prop}

theorem AMem.bytes_congr {m m0 : AMem} (h : m.byte = m0.byte) (a n : Nat) : m.bytes a n = m0.bytes a n := by
  simp [AMem.bytes, h]

/-- Read through a held reference. -/
theorem load_agree (hR : R.on = true) (h0 : R0.on = false) {h : Handle} (hi : some h ∈ env) :
    Agree (AInv C env fl) (AMem.load R h.tag h.addr h.len) (AMem.load R0 h.tag h.addr h.len) (fun _ => AInv C env fl) E := by
  unfold AMem.load
  refine Agree.bind (Q := fun _ => AInv C env fl) (rule_agree hR h0 fun m I => ?_) fun _ => ?_
  · have : ∀ k < h.len, ∃ s', Borrows.read h.tag (m.stack (h.addr + k)) = some s' ∧
        Borrows.Shape (C (h.addr + k)) (sharedAt env (h.addr + k)) (fl (h.addr + k)) s' ∧ s'.Sublist (m.stack (h.addr + k)) := by
      intro k hk
      refine (I.shape (h.addr + k)).read ?_
      rcases I.grants hi (b := h.addr + k) ⟨by omega, by omega⟩ with g | ⟨r, g⟩
      · exact .inl g
      · exact .inr ⟨_, r, g⟩
    exact ⟨fun k hk => (this k hk).imp fun _ h => h.1, I.ruled this⟩
  · intro m m0 hb hn I
    refine ⟨?_, hb, hn, I⟩
    show Res.ok _ = Res.ok _
    rw [AMem.bytes_congr hb]

theorem store_agree (hR : R.on = true) (h0 : R0.on = false) {t a n : Nat} {x : Bytes}
    (hk : ∀ m, AInv C env fl m → ∀ k < n, ∃ s', Borrows.write t (m.stack (a + k)) = some s' ∧
        Borrows.Shape (C (a + k)) (sharedAt env (a + k)) (fl (a + k)) s' ∧ s'.Sublist (m.stack (a + k))) :
    Agree (AInv C env fl) (AMem.store R t a n x) (AMem.store R0 t a n x) (fun _ => AInv C env fl) E := by
  unfold AMem.store
  refine Agree.bind (Q := fun _ => AInv C env fl) (rule_agree hR h0 fun m I => ?_) fun _ => ?_
  · exact ⟨fun k h => (hk m I k h).imp fun _ h => h.1, I.ruled (hk m I)⟩
  · intro m m0 hb hn I
    exact ⟨rfl, by simp [M.modify, hb], hn, I.congr rfl rfl⟩

/-- Write through a held exclusive reference. -/
theorem store_excl (hR : R.on = true) (h0 : R0.on = false) {i : Nat} {h : Handle} (hi : env[i]? = some (some h)) (hm : h.mode = .excl)
    {x : Bytes} :
    Agree (AInv C env fl) (AMem.store R h.tag h.addr h.len x) (AMem.store R0 h.tag h.addr h.len x) (fun _ => AInv C env fl) E := by
  refine store_agree hR h0 fun m I k hk => ?_
  have hc : h.Covers (h.addr + k) := ⟨by omega, by omega⟩
  obtain ⟨r, hr⟩ := I.own h (List.mem_of_getElem? hi) (by simp [hm]) _ hc
  exact (I.shape _).write hr (I.alone hi hm hc)

/-- Write inside cells through a held shared reference. -/
theorem store_cell (hR : R.on = true) (h0 : R0.on = false) {h : Handle} (hi : some h ∈ env) (hm : h.mode = .shr) {a : Nat}
    {x : Bytes} (hC : ∀ k < x.length, C (h.addr + a + k) = true) (hl : a + x.length ≤ h.len) :
    Agree (AInv C env fl) (AMem.store R h.tag (h.addr + a) x.length x) (AMem.store R0 h.tag (h.addr + a) x.length x)
      (fun _ => AInv C env fl) E := by
  refine store_agree hR h0 fun m I k hk => ?_
  have hs := I.shape (h.addr + a + k)
  rw [hC k hk] at hs ⊢
  exact hs.writeCell ⟨h, hi, hm, ⟨by omega, by omega⟩, rfl⟩

/-! ### New references -/

theorem retag_agree (hR : R.on = true) (h0 : R0.on = false) {P : AMem → Prop} {Q : Nat → AMem → Prop} {p : Nat → Perm} {t a n : Nat}
    (h : ∀ m, P m → (∀ k < n, ∃ s', Borrows.retag R.strict (p k) t m.next (m.stack (a + k)) = some s') ∧
      Q m.next { m with stack := m.ruled a n (fun k => Borrows.retag R.strict (p k) t m.next), next := m.next + 1 }) :
    Agree P (AMem.retag R p t a n) (AMem.retag R0 p t a n) Q E := by
  intro m m0 hb hn hP
  obtain ⟨h1, h2⟩ := h m hP
  have e1 : (AMem.retag R p t a n).run m =
      (.ok m.next, { m with stack := m.ruled a n (fun k => Borrows.retag R.strict (p k) t m.next), next := m.next + 1 }) := by
    unfold AMem.retag
    rw [M.bind_ok (M.get_run m), M.bind_ok (AMem.rule_on hR h1)]
    rfl
  have e2 : (AMem.retag R0 p t a n).run m0 = (.ok m0.next, { m0 with next := m0.next + 1 }) := by
    unfold AMem.retag
    rw [M.bind_ok (M.get_run m0), M.bind_ok (AMem.rule_off h0)]
    rfl
  rw [e1, e2]
  exact ⟨by simp [hn], hb, by simp [hn], h2⟩

/-- Make a shared reference from a held one that is not used exclusively. -/
theorem retag_shr (hR : R.on = true) (h0 : R0.on = false) {i : Nat} {h : Handle} (hi : env[i]? = some (some h)) (hm : h.mode ≠ .excl)
    {a n : Nat} (ha : a + n ≤ h.len) {p : Nat → Perm}
    (hp : ∀ k < n, p k = if C (h.addr + a + k) = true then .sharedRW else .sharedRO) (k : Referent) :
    Agree (AInv C env fl) (AMem.retag R p h.tag (h.addr + a) n) (AMem.retag R0 p h.tag (h.addr + a) n)
      (fun t => AInv C (env ++ [some { h with tag := t, addr := h.addr + a, len := n, kind := k, mode := .shr }]) fl) E := by
  refine retag_agree hR h0 fun m I => ?_
  have hmem : some h ∈ env := List.mem_of_getElem? hi
  have key : ∀ k < n, ∃ s' it s'', Borrows.retag R.strict (p k) h.tag m.next (m.stack (h.addr + a + k)) = some s' ∧
      Borrows.Shape (C (h.addr + a + k)) (fun u => sharedAt env (h.addr + a + k) u ∨ u = m.next) (fl (h.addr + a + k)) s' ∧
      s'.Perm (it :: s'') ∧ it.tag = m.next ∧ s''.Sublist (m.stack (h.addr + a + k)) := by
    intro k hk
    have hc : h.Covers (h.addr + a + k) := ⟨by omega, by omega⟩
    have hg := I.grants hmem hc
    have hs := I.shape (h.addr + a + k)
    rw [hp k hk]
    cases hC : C (h.addr + a + k) with
    | true =>
      rw [hC] at hs
      obtain ⟨s', e, hS, hperm⟩ := hs.retagRW R.strict m.next hg (I.nodup _)
      exact ⟨s', _, _, by simpa using e, hS, hperm, rfl, List.Sublist.refl _⟩
    | false =>
      rw [hC] at hs
      obtain ⟨s', e, hS, hsub⟩ := hs.retagRO R.strict m.next (hg.imp id fun ⟨r, h⟩ => ⟨_, r, h⟩)
      exact ⟨_, _, s', by simpa using e, hS, List.Perm.refl _, rfl, hsub⟩
  refine ⟨fun k hk => (key k hk).imp fun _ ⟨_, _, h, _⟩ => h, ?_⟩
  have stk : ∀ b, (∃ s' it s'', m.ruled (h.addr + a) n (fun k => Borrows.retag R.strict (p k) h.tag m.next) b = s' ∧
      (h.addr + a ≤ b ∧ b < h.addr + a + n) ∧ Borrows.Shape (C b) (fun u => sharedAt env b u ∨ u = m.next) (fl b) s' ∧
      s'.Perm (it :: s'') ∧ it.tag = m.next ∧ s''.Sublist (m.stack b)) ∨
      (m.ruled (h.addr + a) n (fun k => Borrows.retag R.strict (p k) h.tag m.next) b = m.stack b ∧ ¬ (h.addr + a ≤ b ∧ b < h.addr + a + n)) := by
    intro b
    by_cases hb : h.addr + a ≤ b ∧ b < h.addr + a + n
    · left
      obtain ⟨s', it, s'', e, rest⟩ := key (b - (h.addr + a)) (by omega)
      have hr := AMem.ruled_in (m := m) (a := h.addr + a) (n := n) (op := fun k => Borrows.retag R.strict (p k) h.tag m.next) (by omega) e
      rw [show h.addr + a + (b - (h.addr + a)) = b by omega] at hr rest
      exact ⟨s', it, s'', hr, hb, rest⟩
    · exact .inr ⟨AMem.ruled_out hb, hb⟩
  refine ⟨?_, ?_, ?_, ?_, ?_⟩
  · intro b
    rcases stk b with ⟨s', it, s'', e, hb, hS, -⟩ | ⟨e, hb⟩
    · rw [show ({ m with stack := _, next := _ } : AMem).stack b = _ from e]
      refine hS.mono ?_
      rintro u ⟨g, hg, hgm, hgc, hgt⟩
      rcases List.mem_append.1 hg with hg | hg
      · exact .inl ⟨g, hg, hgm, hgc, hgt⟩
      · simp only [List.mem_singleton, Option.some.injEq] at hg
        subst hg
        exact .inr hgt.symm
    · rw [show ({ m with stack := _, next := _ } : AMem).stack b = _ from e]
      refine (I.shape b).mono ?_
      rintro u ⟨g, hg, hgm, hgc, hgt⟩
      rcases List.mem_append.1 hg with hg | hg
      · exact ⟨g, hg, hgm, hgc, hgt⟩
      · simp only [List.mem_singleton, Option.some.injEq] at hg
        subst hg
        exact absurd hgc hb
  · intro g hg hgm b hgc
    rcases List.mem_append.1 hg with hg | hg
    · exact I.own g hg hgm b hgc
    · simp only [List.mem_singleton, Option.some.injEq] at hg
      subst hg
      exact absurd rfl hgm
  · intro b
    rcases stk b with ⟨s', it, s'', e, hb, hS, hperm, hit, hsub⟩ | ⟨e, hb⟩
    · rw [show ({ m with stack := _, next := _ } : AMem).stack b = _ from e, (hperm.map _).nodup_iff]
      refine List.nodup_cons.2 ⟨?_, (I.nodup b).sublist (hsub.map _)⟩
      intro hx
      obtain ⟨x, hx, ex⟩ := List.mem_map.1 hx
      have := I.old b x (hsub.subset hx)
      simp only at ex
      omega
    · rw [show ({ m with stack := _, next := _ } : AMem).stack b = _ from e]
      exact I.nodup b
  · intro b x hx
    rcases stk b with ⟨s', it, s'', e, hb, hS, hperm, hit, hsub⟩ | ⟨e, hb⟩
    · rw [show ({ m with stack := _, next := _ } : AMem).stack b = _ from e] at hx
      show x.tag < m.next + 1
      rcases List.mem_cons.1 (hperm.subset hx) with rfl | hx
      · omega
      · have := I.old b x (hsub.subset hx)
        omega
    · rw [show ({ m with stack := _, next := _ } : AMem).stack b = _ from e] at hx
      have := I.old b x hx
      show x.tag < m.next + 1
      omega
  · intro j l g g' hj hl hjl hg b hb hb'
    have split : ∀ j g, (env ++ [some { h with tag := m.next, addr := h.addr + a, len := n, kind := k, mode := .shr }])[j]? = some (some g) →
        env[j]? = some (some g) ∨ (j = env.length ∧ g = { h with tag := m.next, addr := h.addr + a, len := n, kind := k, mode := .shr }) := by
      intro j g hj
      by_cases hlt : j < env.length
      · rw [List.getElem?_append_left hlt] at hj; exact .inl hj
      · rw [List.getElem?_append_right (by omega)] at hj
        by_cases he : j - env.length = 0
        · rw [he] at hj
          exact .inr ⟨by omega, by simpa using hj.symm⟩
        · rw [List.getElem?_eq_none (by simp; omega)] at hj
          cases hj
    rcases split j g hj with hj | ⟨rfl, rfl⟩
    · rcases split l g' hl with hl | ⟨rfl, rfl⟩
      · exact I.apart j l g g' hj hl hjl hg b hb hb'
      · have hji : j ≠ i := by
          rintro rfl
          rw [hi] at hj
          cases hj
          exact hm hg
        refine I.apart j i g h hj hi hji hg b hb ⟨?_, ?_⟩
        · have := hb'.1; simp only at this; omega
        · have := hb'.2; simp only at this; omega
    · simp at hg

/-- Make an exclusive reference from a held exclusive reference, which it replaces. -/
theorem retag_excl (hR : R.on = true) (h0 : R0.on = false) {i : Nat} {h : Handle} (hi : env[i]? = some (some h)) (hm : h.mode = .excl)
    {p : Nat → Perm} (hp : ∀ k < h.len, p k = .unique) (k : Referent) :
    Agree (AInv C env fl) (AMem.retag R p h.tag h.addr h.len) (AMem.retag R0 p h.tag h.addr h.len)
      (fun t m => ∃ fl', AInv C (env.set i (some { h with tag := t, kind := k })) fl' m ∧
        ∀ b, fl b <:+ fl' b ∧ (¬ h.Covers b → fl' b = fl b)) E := by
  refine retag_agree hR h0 fun m I => ?_
  have hmem : some h ∈ env := List.mem_of_getElem? hi
  have hlt : i < env.length := (List.getElem?_eq_some_iff.1 hi).1
  have key : ∀ k < h.len, ∃ s', Borrows.retag R.strict (p k) h.tag m.next (m.stack (h.addr + k)) = some (⟨m.next, .unique⟩ :: s') ∧
      s'.Sublist (m.stack (h.addr + k)) ∧ fl (h.addr + k) <:+ s' := by
    intro k hk
    have hc : h.Covers (h.addr + k) := ⟨by omega, by omega⟩
    obtain ⟨r, hr⟩ := I.own h hmem (by simp [hm]) _ hc
    rw [hp k hk]
    exact (I.shape _).retagUnique R.strict m.next hr (I.alone hi hm hc)
  refine ⟨fun k hk => (key k hk).elim fun _ h => ⟨_, h.1⟩, ?_⟩
  have stk : ∀ b, (h.Covers b ∧ ∃ s', m.ruled h.addr h.len (fun k => Borrows.retag R.strict (p k) h.tag m.next) b = ⟨m.next, .unique⟩ :: s' ∧
      s'.Sublist (m.stack b) ∧ fl b <:+ s') ∨
      (¬ h.Covers b ∧ m.ruled h.addr h.len (fun k => Borrows.retag R.strict (p k) h.tag m.next) b = m.stack b) := by
    intro b
    by_cases hb : h.Covers b
    · left
      obtain ⟨s', e, rest⟩ := key (b - h.addr) (by have := hb.1; have := hb.2; omega)
      have hr := AMem.ruled_in (m := m) (a := h.addr) (n := h.len) (op := fun k => Borrows.retag R.strict (p k) h.tag m.next)
        (by have := hb.1; have := hb.2; omega) e
      rw [show h.addr + (b - h.addr) = b by have := hb.1; omega] at hr rest
      exact ⟨hb, s', hr, rest⟩
    · exact .inr ⟨hb, AMem.ruled_out hb⟩
  have elim : ∀ g, some g ∈ env.set i (some { h with tag := m.next, kind := k }) →
      (∃ j, j ≠ i ∧ env[j]? = some (some g)) ∨ g = { h with tag := m.next, kind := k } := by
    intro g hg
    obtain ⟨j, hj, e⟩ := List.getElem_of_mem hg
    rw [List.getElem_set] at e
    split at e
    · exact .inr (by simpa using e.symm)
    · exact .inl ⟨j, by omega, by rw [List.getElem?_eq_getElem (by simpa using hj), e]⟩
  refine ⟨fun b => if h.Covers b then
      m.ruled h.addr h.len (fun k => Borrows.retag R.strict (p k) h.tag m.next) b else fl b, ⟨?_, ?_, ?_, ?_, ?_⟩, ?_⟩
  · intro b
    rcases stk b with ⟨hb, s', e, hsub, hsuf⟩ | ⟨hb, e⟩
    · rw [show ({ m with stack := _, next := _ } : AMem).stack b = _ from e, if_pos hb, e]
      refine ⟨[], [], rfl, by simp, ?_⟩
      rintro u ⟨g, hg, hgm, hgc, hgt⟩
      rcases elim g hg with ⟨j, hji, hj⟩ | rfl
      · exact absurd hgc (I.apart i j h g hi hj (by omega) hm b hb)
      · simp [hm] at hgm
    · rw [show ({ m with stack := _, next := _ } : AMem).stack b = _ from e, if_neg hb]
      refine (I.shape b).mono ?_
      rintro u ⟨g, hg, hgm, hgc, hgt⟩
      rcases elim g hg with ⟨j, hji, hj⟩ | rfl
      · exact ⟨g, List.mem_of_getElem? hj, hgm, hgc, hgt⟩
      · simp [hm] at hgm
  · intro g hg hgm b hgc
    rcases elim g hg with ⟨j, hji, hj⟩ | rfl
    · have hb : ¬ h.Covers b := fun hb => I.apart i j h g hi hj (by omega) hm b hb hgc
      rw [if_neg hb]
      exact I.own g (List.mem_of_getElem? hj) hgm b hgc
    · rcases stk b with ⟨hb, s', e, hsub, hsuf⟩ | ⟨hb, e⟩
      · rw [if_pos hb, e]; exact ⟨_, rfl⟩
      · exact absurd hgc hb
  · intro b
    rcases stk b with ⟨hb, s', e, hsub, hsuf⟩ | ⟨hb, e⟩
    · rw [show ({ m with stack := _, next := _ } : AMem).stack b = _ from e]
      refine List.nodup_cons.2 ⟨?_, (I.nodup b).sublist (hsub.map _)⟩
      intro hx
      obtain ⟨x, hx, ex⟩ := List.mem_map.1 hx
      have := I.old b x (hsub.subset hx)
      simp only at ex
      omega
    · rw [show ({ m with stack := _, next := _ } : AMem).stack b = _ from e]
      exact I.nodup b
  · intro b x hx
    show x.tag < m.next + 1
    rcases stk b with ⟨hb, s', e, hsub, hsuf⟩ | ⟨hb, e⟩
    · rw [show ({ m with stack := _, next := _ } : AMem).stack b = _ from e] at hx
      rcases List.mem_cons.1 hx with rfl | hx
      · simp
      · have := I.old b x (hsub.subset hx)
        omega
    · rw [show ({ m with stack := _, next := _ } : AMem).stack b = _ from e] at hx
      have := I.old b x hx
      omega
  · intro j l g g' hj hl hjl hg b hb hb'
    have split : ∀ j g, (env.set i (some { h with tag := m.next, kind := k }))[j]? = some (some g) →
        (j ≠ i ∧ env[j]? = some (some g)) ∨ (j = i ∧ g = { h with tag := m.next, kind := k }) := by
      intro j g hj
      by_cases hji : j = i
      · subst hji
        rw [List.getElem?_set_self hlt] at hj
        exact .inr ⟨rfl, by simpa using hj.symm⟩
      · rw [List.getElem?_set_ne (by omega)] at hj
        exact .inl ⟨hji, hj⟩
    rcases split j g hj with ⟨hji, hj'⟩ | ⟨hji, rfl⟩
    · rcases split l g' hl with ⟨hli, hl'⟩ | ⟨hli, rfl⟩
      · exact I.apart j l g g' hj' hl' hjl hg b hb hb'
      · exact I.apart j i g h hj' hi hji hg b hb hb'
    · rcases split l g' hl with ⟨hli, hl'⟩ | ⟨hli, rfl⟩
      · exact I.apart i l h g' hi hl' (by omega) hm b hb hb'
      · omega
  · intro b
    simp only
    rcases stk b with ⟨hb, s', e, hsub, hsuf⟩ | ⟨hb, e⟩
    · refine ⟨?_, fun h => absurd hb h⟩
      rw [if_pos hb, e]
      exact hsuf.trans (List.suffix_cons _ _)
    · rw [if_neg hb]
      exact ⟨List.suffix_rfl, fun _ => rfl⟩

end
end Dync
