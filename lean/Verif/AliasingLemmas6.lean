import Verif.AliasingLemmas5
/-!
# Lemmas: programs that break the rules at one byte
-/
namespace Dync
variable {U α β : Type} {Γ : TyEnv U} {cfg : Cfg} {cells : TyId → Nat → Bool} {R : Rules} {b : Nat} {s : Borrows} {n : Nat}

/-- From the given stack of byte `b`, and with `n` as the next unused name, the computation is undefined behaviour. -/
def Bad (b : Nat) (x : M AMem α) (s : Borrows) (n : Nat) : Prop := ∀ m : AMem, m.stack b = s → m.next = n → (x.run m).1 = .ub

theorem Bad.rule (hR : R.on = true) {a l : Nat} (h1 : a ≤ b) (h2 : b < a + l) {op : Nat → Borrows → Option Borrows} {f : Unit → M AMem α}
    (h : ∀ s', op (b - a) s = some s' → Bad b (f ()) s' n) : Bad b (AMem.rule R a l op >>= f) s n := by
  intro m hs hn
  by_cases hall : ∀ k < l, (op k (m.stack (a + k))).isSome
  · have e : (AMem.rule R a l op).run m =
        (.ok (), { m with stack := fun b => if a ≤ b ∧ b < a + l then (op (b - a) (m.stack b)).getD [] else m.stack b }) := by
      simp only [AMem.rule, hR, Bool.true_eq_false, if_false]
      rw [if_pos hall]
    rw [M.bind_ok e]
    have := hall (b - a) (by omega)
    rw [Nat.add_sub_cancel' h1, hs] at this
    obtain ⟨s', hs'⟩ := Option.isSome_iff_exists.1 this
    refine h s' hs' _ ?_ hn
    simp only
    rw [if_pos ⟨h1, h2⟩, hs, hs']
    rfl
  · have e : (AMem.rule R a l op).run m = (.ub, m) := by
      simp only [AMem.rule, hR, Bool.true_eq_false, if_false]
      rw [if_neg hall]
    rw [M.bind_ub e]

theorem Bad.quiet {x : M AMem β} {c : β} {f : β → M AMem α} (hx : ∀ m, x.run m = (.ok c, m)) (h : Bad b (f c) s n) :
    Bad b (x >>= f) s n := by
  intro m hs hn
  rw [M.bind_ok (hx m)]
  exact h m hs hn

theorem Bad.retag (hR : R.on = true) {p : Nat → Perm} {t a l : Nat} (h1 : a ≤ b) (h2 : b < a + l) {f : Nat → M AMem α}
    (h : ∀ s', Borrows.retag R.strict (p (b - a)) t n s = some s' → Bad b (f n) s' (n + 1)) : Bad b (AMem.retag R p t a l >>= f) s n := by
  intro m hs hn
  unfold AMem.retag
  rw [bind_assoc, M.bind_ok (M.get_run m), bind_assoc]
  refine Bad.rule (n := n) hR h1 h2 (fun s' e => ?_) m hs hn
  rw [hn] at e ⊢
  intro m' hs' hn'
  rw [bind_assoc]
  exact h s' e { m' with next := m'.next + 1 } hs' (by simp [hn'])

theorem Bad.store (hR : R.on = true) {t a l : Nat} {x : Bytes} (h1 : a ≤ b) (h2 : b < a + l) {f : Unit → M AMem α}
    (h : ∀ s', Borrows.write t s = some s' → Bad b (f ()) s' n) : Bad b (AMem.store R t a l x >>= f) s n := by
  unfold AMem.store
  rw [bind_assoc]
  exact Bad.rule hR h1 h2 fun s' e m hs hn => h s' e _ hs hn

theorem Bad.load (hR : R.on = true) {t a l : Nat} (h1 : a ≤ b) (h2 : b < a + l) {f : Bytes → M AMem α}
    (h : ∀ s', Borrows.read t s = some s' → ∀ c, Bad b (f c) s' n) : Bad b (AMem.load R t a l >>= f) s n := by
  unfold AMem.load
  rw [bind_assoc]
  exact Bad.rule hR h1 h2 fun s' e m hs hn => h s' e _ m hs hn

/-- Leave out what comes after. -/
theorem Bad.bind {x : M AMem β} {f : β → M AMem α} (h : Bad b x s n) : Bad b (x >>= f) s n := by
  intro m hs hn
  have := h m hs hn
  rcases hx : x.run m with ⟨r, m'⟩
  rw [hx] at this
  simp only at this
  subst this
  rw [M.bind_ub hx]

/-- Make one reference. -/
theorem Bad.make (hR : R.on = true) {h : Handle} {p : Plan} {x : Nat × Nat} (hp : p.parts = [x]) (hx : x.1 + x.2 ≤ h.len)
    (h1 : h.addr + x.1 ≤ b) (h2 : b < h.addr + x.1 + x.2) {f : List Handle → M AMem α}
    (hv : p.via = none → ∀ s', Borrows.retag R.strict (refPerm Γ cells p.kind false h.elem.type_id (b - (h.addr + x.1))) h.tag n s = some s' →
      Bad b (f [{ h with tag := n, addr := h.addr + x.1, len := x.2, kind := p.kind, mode := .shr }]) s' (n + 1))
    (hv' : ∀ k, p.via = some k → ∀ s', Borrows.retag R.strict (refPerm Γ cells k false h.elem.type_id (b - h.addr)) h.tag n s = some s' →
      ∀ s'', Borrows.retag R.strict (refPerm Γ cells p.kind false h.elem.type_id (b - (h.addr + x.1))) n (n + 1) s' = some s'' →
      Bad b (f [{ h with tag := n + 1, addr := h.addr + x.1, len := x.2, kind := p.kind, mode := .shr }]) s'' (n + 2)) :
    Bad b (h.make Γ cells R false p >>= f) s n := by
  have one : ∀ (t n : Nat) (s : Borrows), (∀ s', Borrows.retag R.strict (refPerm Γ cells p.kind false h.elem.type_id (b - (h.addr + x.1))) t n s = some s' →
      Bad b (f [{ h with tag := n, addr := h.addr + x.1, len := x.2, kind := p.kind, mode := .shr }]) s' (n + 1)) →
      Bad b (M.mapEach p.parts (h.part Γ cells R false p.kind t) >>= f) s n := by
    intro t n s H
    rw [hp]
    simp only [M.mapEach_cons, M.mapEach, Handle.part, bind_assoc]
    exact Bad.retag hR h1 h2 H
  unfold Handle.make
  rw [bind_assoc]
  cases e : p.via with
  | none => exact Bad.quiet (fun m => rfl) (one h.tag n s (hv e))
  | some k => exact Bad.retag hR (by omega) (by omega) fun s' e' => one n (n + 1) s' (hv' k e s' e')

/-! ### Plans -/

theorem Handle.count_run {h : Handle} (hn : 0 < h.elem.numBytes) (ho : h.kind = .owner ∨ h.len % h.elem.numBytes = 0) (m : AMem) :
    (h.count cfg).run m = (.ok (h.len / h.elem.numBytes), m) := by
  have : (decide (h.kind = .owner) || h.len % h.elem.numBytes == 0) = true := by
    rcases ho with e | e <;> simp [e]
  unfold Handle.count
  rw [if_neg (by omega), this]
  unfold debugAssert
  split <;> rfl

theorem debugAssert_true (m : AMem) : (debugAssert cfg true).run m = (.ok (), m) := by
  unfold debugAssert
  split <;> rfl

theorem indexByteRange_run {k l : Nat} (hl : (k + 1) * l ≤ usizeMax) (h1 : k + 1 ≤ usizeMax) (m : AMem) :
    (indexByteRange cfg l k).run m = (.ok (k * l, (k + 1) * l), m) := by
  have h0 : k * l ≤ usizeMax := Nat.le_trans (Nat.mul_le_mul_right _ (Nat.le_succ _)) hl
  have a : ∀ x y : Nat, x * y ≤ usizeMax → (umul cfg x y : M AMem Nat) = pure (x * y) := by
    intro x y h
    unfold umul
    rw [if_pos h]
  have c : (uadd cfg k 1 : M AMem Nat) = pure (k + 1) := by
    unfold uadd
    rw [if_pos h1]
  unfold indexByteRange
  simp only [a _ _ h0, c, pure_bind, a _ _ hl]
  rfl

end Dync
