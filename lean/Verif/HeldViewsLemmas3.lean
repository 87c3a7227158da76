import Verif.HeldViewsLemmas2
/-!
# What a program does not name does not matter to it
-/
namespace Dync
variable {U V α β : Type} {n i : Nat} {σ σ' : Lists} {t : TyId}

/-- Nothing is in the variables from `n` on. -/
def FreeFrom (n : Nat) (σ : Lists) : Prop := ∀ k, n ≤ k → σ k = none

/-- `m` leaves lists alone outside of `X`, and what it does depends on those in `X` only. -/
structure LocalTo (n : Nat) (X : Nat → Prop) (m : M Lists α) : Prop where
  free : ∀ σ, FreeFrom n σ → FreeFrom n (m σ).2
  other : ∀ σ, FreeFrom n σ → ∀ k, ¬ X k → (m σ).2 k = σ k
  same : ∀ σ σ', FreeFrom n σ → FreeFrom n σ' → (∀ k, X k → σ k = σ' k) → (m σ).1 = (m σ').1 ∧ ∀ k, X k → (m σ).2 k = (m σ').2 k

theorem LocalTo.pure (X : Nat → Prop) (x : α) : LocalTo n X (Pure.pure x) :=
  ⟨fun _ h => h, fun _ _ _ _ => rfl, fun _ _ _ _ h => ⟨rfl, h⟩⟩

theorem LocalTo.mono {X Y : Nat → Prop} {m : M Lists α} (h : LocalTo n X m) (hXY : ∀ k, X k → Y k) : LocalTo n Y m :=
  ⟨h.free, fun σ f k hk => h.other σ f k fun hx => hk (hXY k hx), fun σ σ' f f' e => by
    obtain ⟨h1, h2⟩ := h.same σ σ' f f' fun k hk => e k (hXY k hk)
    refine ⟨h1, fun k hk => ?_⟩
    by_cases hx : X k
    · exact h2 k hx
    · rw [h.other σ f k hx, h.other σ' f' k hx, e k hk]⟩

theorem LocalTo.bind {X : Nat → Prop} {m : M Lists α} {f : α → M Lists β} (h : LocalTo n X m) (hf : ∀ x, LocalTo n X (f x)) :
    LocalTo n X (m >>= f) := by
  refine ⟨fun σ hs => ?_, fun σ hs k hk => ?_, fun σ σ' hs hs' e => ?_⟩
  · rcases hm : m σ with ⟨r, σ1⟩
    have h1 := h.free σ hs
    rw [hm] at h1
    cases r with
    | ok x => rw [M.bind_ok hm]; exact (hf x).free σ1 h1
    | panic => rw [M.bind_panic hm]; exact h1
    | ub => rw [M.bind_ub hm]; exact h1
    | abort => rw [M.bind_abort hm]; exact h1
  · rcases hm : m σ with ⟨r, σ1⟩
    have h1 := h.free σ hs
    have h2 := h.other σ hs k hk
    rw [hm] at h1 h2
    cases r with
    | ok x => rw [M.bind_ok hm, (hf x).other σ1 h1 k hk]; exact h2
    | panic => rw [M.bind_panic hm]; exact h2
    | ub => rw [M.bind_ub hm]; exact h2
    | abort => rw [M.bind_abort hm]; exact h2
  · rcases hm : m σ with ⟨r, σ1⟩
    rcases hm' : m σ' with ⟨r', σ1'⟩
    have h1 := h.free σ hs
    have h1' := h.free σ' hs'
    obtain ⟨h2, h3⟩ := h.same σ σ' hs hs' e
    rw [hm, hm'] at h2 h3
    rw [hm] at h1
    rw [hm'] at h1'
    have h2 : r = r' := h2
    subst h2
    cases r with
    | ok x => rw [M.bind_ok hm, M.bind_ok hm']; exact (hf x).same σ1 σ1' h1 h1' h3
    | panic => rw [M.bind_panic hm, M.bind_panic hm']; exact ⟨rfl, h3⟩
    | ub => rw [M.bind_ub hm, M.bind_ub hm']; exact ⟨rfl, h3⟩
    | abort => rw [M.bind_abort hm, M.bind_abort hm']; exact ⟨rfl, h3⟩

/-- A step that looks at list `i` first. -/
theorem LocalTo.look {X : Nat → Prop} (hi : X i) {none' : Res α} {g : TyId → List Bytes → M Lists α}
    (hg : ∀ t es, i < n → LocalTo n X (g t es)) :
    LocalTo n X ⟨fun σ => match σ i with | none => (none', σ) | some (t, es) => g t es σ⟩ := by
  have lt : ∀ {σ : Lists} {x}, FreeFrom n σ → σ i = some x → i < n := fun f h =>
    Nat.lt_of_not_le fun hh => by rw [f i hh] at h; cases h
  refine ⟨fun σ hs => ?_, fun σ hs k hk => ?_, fun σ σ' hs hs' e => ?_⟩
  · cases h : σ i with
    | none => simp only [h]; exact hs
    | some x => simp only [h]; exact (hg x.1 x.2 (lt hs h)).free σ hs
  · cases h : σ i with
    | none => simp only [h]
    | some x => simp only [h]; exact (hg x.1 x.2 (lt hs h)).other σ hs k hk
  · cases h : σ i with
    | none =>
      have h' : σ' i = none := by rw [← e i hi, h]
      simp only [h, h']
      exact ⟨trivial, e⟩
    | some x =>
      have h' : σ' i = some x := by rw [← e i hi, h]
      simp only [h, h']
      exact (hg x.1 x.2 (lt hs h)).same σ σ' hs hs' e

theorem LocalTo.put {X : Nat → Prop} (hi : X i) (hn : i < n) (r : Res α) (x : Option (TyId × List Bytes)) :
    LocalTo n X ⟨fun σ => (r, Slots.put σ i x)⟩ := by
  refine ⟨fun σ hs k hk => ?_, fun σ hs k hk => ?_, fun σ σ' hs hs' e => ⟨rfl, fun k hk => ?_⟩⟩
  · simp only [Slots.put, if_neg (show ¬ k = i by omega)]; exact hs k hk
  · simp only [Slots.put, if_neg (show ¬ k = i from fun h => hk (h ▸ hi))]
  · simp only [Slots.put]
    split
    · rfl
    · exact e k hk

theorem LocalTo.parts {X : Nat → Prop} (hi : X i) (hn : i < n) (t : TyId) (pre : List Bytes) (parts : List (List Bytes)) (post : List Bytes)
    {q : M Lists α} (hq : LocalTo (n + parts.length) (fun k => X k ∨ n ≤ k) q) : LocalTo n X (inParts n i t pre parts post q) := by
  have fr : ∀ σ, FreeFrom (n + parts.length) (opened σ n i (parts.map fun es => (t, es))) := by
    intro σ k hk
    obtain ⟨c, rfl⟩ : ∃ c, k = n + c := ⟨k - n, by omega⟩
    rw [opened_new hn]
    exact List.getElem?_eq_none (by simp; omega)
  refine ⟨fun σ hs k hk => ?_, fun σ hs k hk => ?_, fun σ σ' hs hs' e => ?_⟩
  · simp only [inParts, if_neg (show ¬ k = i by omega), if_neg (show ¬ k < n by omega)]
  · have hki : ¬ k = i := fun h => hk (h ▸ hi)
    simp only [inParts, if_neg hki]
    by_cases hkn : k < n
    · rw [if_pos hkn, hq.other _ (fr σ) k (by rintro (h | h); exact hk h; omega), opened_old hki hkn]
    · rw [if_neg hkn, hs k (by omega)]
  · obtain ⟨h1, h2⟩ := hq.same _ _ (fr σ) (fr σ') (by
      intro k hk
      by_cases hki : k = i
      · subst hki; rw [opened_self, opened_self]
      · by_cases hkn : k < n
        · rw [opened_old hki hkn, opened_old hki hkn]
          exact e k (by rcases hk with h | h; exact h; omega)
        · simp only [opened, if_neg hki, if_neg hkn])
    refine ⟨h1, fun k hk => ?_⟩
    simp only [inParts]
    have hg : gather (q (opened σ n i (parts.map fun es => (t, es)))).2 n parts.length =
        gather (q (opened σ' n i (parts.map fun es => (t, es)))).2 n parts.length := by
      simp only [gather]
      congr 2
      funext c
      rw [h2 (n + c) (.inr (by omega))]
    split
    · rw [hg]
    · split
      · exact h2 k (.inl hk)
      · rfl

theorem HProg.local (p : HProg) (X : Nat → Prop) (hX : ∀ k, p.Uses k → X k) (n : Nat) : LocalTo n X (p.plain n) := by
  induction p generalizing n X with
  | skip => exact LocalTo.pure X []
  | seq p q ihp ihq =>
    exact LocalTo.bind (ihp X (fun k h => hX k (.inl h)) n) fun _ => LocalTo.bind (ihq X (fun k h => hX k (.inr h)) n) fun _ => LocalTo.pure X _
  | on i p => exact LocalTo.look (hX i rfl) fun t es hn => LocalTo.put (hX i rfl) hn _ _
  | swapValues i a j b =>
    have hi : X i := hX i (.inl rfl)
    have hj : X j := hX j (.inr rfl)
    by_cases hij : i = j
    · simp only [HProg.plain, if_pos hij]; exact LocalTo.pure X _
    · have e : (HProg.swapValues i a j b).plain n = ⟨fun σ => match σ i with
          | none => (.ok [], σ)
          | some (t, es) => (⟨fun σ => match σ j with
            | none => (.ok [], σ)
            | some (t', fs) => (if h : a < es.length ∧ b < fs.length then if t = t' then
                (do
                  (⟨fun σ => (.ok (), Slots.put σ i (some (t, es.set a fs[b])))⟩ : M Lists Unit)
                  (⟨fun σ => (.ok [], Slots.put σ j (some (t', fs.set b es[a])))⟩ : M Lists (List Read))) else Pure.pure []
                else M.lift (.panic .index) : M Lists (List Read)) σ⟩ : M Lists (List Read)) σ⟩ := by
        simp only [HProg.plain, if_neg hij]
        refine congrArg M.mk (funext fun σ => ?_)
        rcases σ i with _ | ⟨t, es⟩ <;> rcases σ j with _ | ⟨t', fs⟩ <;> simp only
        split
        · split <;> rfl
        · rfl
      rw [e]
      refine LocalTo.look hi fun t es hn => LocalTo.look hj fun t' fs hn' => ?_
      split
      · split
        · exact LocalTo.bind (LocalTo.put hi hn _ _) fun _ => LocalTo.put hj hn' _ _
        · exact LocalTo.pure X _
      · exact ⟨fun _ h => h, fun _ _ _ _ => rfl, fun _ _ _ _ h => ⟨rfl, h⟩⟩
  | copyValue i a j b =>
    have hi : X i := hX i (.inl rfl)
    have hj : X j := hX j (.inr rfl)
    by_cases hij : i = j
    · simp only [HProg.plain, if_pos hij]; exact LocalTo.pure X _
    · have e : (HProg.copyValue i a j b).plain n = ⟨fun σ => match σ i with
          | none => (.ok [], σ)
          | some (t, es) => (⟨fun σ => match σ j with
            | none => (.ok [], σ)
            | some (t', fs) => (if h : a < es.length ∧ b < fs.length then if t = t' then
                (⟨fun σ => (.ok [], Slots.put σ i (some (t, es.set a fs[b])))⟩ : M Lists (List Read)) else Pure.pure []
                else M.lift (.panic .index) : M Lists (List Read)) σ⟩ : M Lists (List Read)) σ⟩ := by
        simp only [HProg.plain, if_neg hij]
        refine congrArg M.mk (funext fun σ => ?_)
        rcases σ i with _ | ⟨t, es⟩ <;> rcases σ j with _ | ⟨t', fs⟩ <;> simp only
        split
        · split <;> rfl
        · rfl
      rw [e]
      refine LocalTo.look hi fun t es hn => LocalTo.look hj fun t' fs hn' => ?_
      split
      · split
        · exact LocalTo.put hi hn _ _
        · exact LocalTo.pure X _
      · exact ⟨fun _ h => h, fun _ _ _ _ => rfl, fun _ _ _ _ h => ⟨rfl, h⟩⟩
  | split i mid q ih =>
    have hi : X i := hX i (.inl rfl)
    refine LocalTo.look (none' := .ok []) (g := fun t es => if mid ≤ es.length then inParts n i t [] [es.take mid, es.drop mid] [] (q.plain (n + 2)) else M.lift (.panic .index)) hi ?_ |> (cast (by
      congr 1
      simp only [HProg.plain]
      refine congrArg M.mk (funext fun σ => ?_)
      rcases σ i with _ | ⟨t, es⟩ <;> simp only
      split <;> rfl))
    intro t es hn
    split
    · exact LocalTo.parts hi hn t _ _ _ (ih _ (fun k h => .inl (hX k (.inr h))) _)
    · exact ⟨fun _ h => h, fun _ _ _ _ => rfl, fun _ _ _ _ h => ⟨rfl, h⟩⟩
  | chunks i k q ih =>
    have hi : X i := hX i (.inl rfl)
    refine LocalTo.look (none' := .ok []) (g := fun t es => if k = 0 then M.lift (.panic .index) else inParts n i t [] (pieces k es) (es.drop (es.length / k * k)) (q.plain (n + es.length / k))) hi ?_ |> (cast (by
      congr 1
      simp only [HProg.plain]
      refine congrArg M.mk (funext fun σ => ?_)
      rcases σ i with _ | ⟨t, es⟩ <;> simp only
      split <;> rfl))
    intro t es hn
    split
    · exact ⟨fun _ h => h, fun _ _ _ _ => rfl, fun _ _ _ _ h => ⟨rfl, h⟩⟩
    · exact LocalTo.parts hi hn t _ _ _ (by rw [pieces_length]; exact ih _ (fun k h => .inl (hX k (.inr h))) _)
  | values i q ih =>
    have hi : X i := hX i (.inl rfl)
    exact LocalTo.look hi fun t es hn => LocalTo.parts hi hn t _ _ _ (by rw [List.length_map]; exact ih _ (fun k h => .inl (hX k (.inr h))) _)
  | sub i r q ih =>
    have hi : X i := hX i (.inl rfl)
    refine LocalTo.look (none' := .ok []) (g := fun t es => if r.lo ≤ r.hi es.length ∧ r.hi es.length ≤ es.length then
        inParts n i t (es.take r.lo) [(es.take (r.hi es.length)).drop r.lo] (es.drop (r.hi es.length)) (q.plain (n + 1)) else M.lift (.panic .index)) hi ?_ |> (cast (by
      congr 1
      simp only [HProg.plain]
      refine congrArg M.mk (funext fun σ => ?_)
      rcases σ i with _ | ⟨t, es⟩ <;> simp only
      split <;> rfl))
    intro t es hn
    split
    · exact LocalTo.parts hi hn t _ _ _ (ih _ (fun k h => .inl (hX k (.inr h))) _)
    · exact ⟨fun _ h => h, fun _ _ _ _ => rfl, fun _ _ _ _ h => ⟨rfl, h⟩⟩

theorem LocalTo.below {X : Nat → Prop} {m : M Lists α} (h : LocalTo n X m) : LocalTo n (fun k => X k ∧ k < n) m := by
  refine ⟨h.free, fun σ f k hk => ?_, fun σ σ' f f' e => ?_⟩
  · by_cases hx : X k
    · have hn : n ≤ k := Nat.le_of_not_lt fun hn => hk ⟨hx, hn⟩
      rw [f k hn, h.free σ f k hn]
    · exact h.other σ f k hx
  · obtain ⟨h1, h2⟩ := h.same σ σ' f f' fun k hk => by
      by_cases hn : k < n
      · exact e k ⟨hk, hn⟩
      · rw [f k (Nat.le_of_not_lt hn), f' k (Nat.le_of_not_lt hn)]
    exact ⟨h1, fun k hk => h2 k hk.1⟩

/-- Programs that name different lists can run in any order. -/
theorem HProg.plain_comm (p q : HProg) (hd : ∀ k, k < n → ¬ (p.Uses k ∧ q.Uses k)) {a b : List Read} {σ1 σ2 : Lists} (F : FreeFrom n σ)
    (h1 : p.plain n σ = (.ok a, σ1)) (h2 : q.plain n σ1 = (.ok b, σ2)) :
    ∃ σ1', q.plain n σ = (.ok b, σ1') ∧ p.plain n σ1' = (.ok a, σ2) := by
  have Lp := (p.local p.Uses (fun _ h => h) n).below
  have Lq := (q.local q.Uses (fun _ h => h) n).below
  have e1 : σ1 = (p.plain n σ).2 := by rw [h1]
  have e2 : σ2 = (q.plain n σ1).2 := by rw [h2]
  have F1 : FreeFrom n σ1 := e1 ▸ Lp.free σ F
  obtain ⟨s1, s2⟩ := Lq.same σ σ1 F F1 fun k hk => by rw [e1, Lp.other σ F k fun h => hd k hk.2 ⟨h.1, hk.1⟩]
  have hq : q.plain n σ = (.ok b, (q.plain n σ).2) := Prod.ext (by rw [s1, h2]) rfl
  have F2 := Lq.free σ F
  obtain ⟨s3, s4⟩ := Lp.same σ (q.plain n σ).2 F F2 fun k hk => by rw [Lq.other σ F k fun h => hd k hk.2 ⟨hk.1, h.1⟩]
  refine ⟨_, hq, Prod.ext (by rw [← s3, h1]) (funext fun k => ?_)⟩
  show (p.plain n (q.plain n σ).2).2 k = σ2 k
  by_cases hp : p.Uses k ∧ k < n
  · rw [← s4 k hp, e2, Lq.other σ1 F1 k fun h => hd k hp.2 ⟨hp.1, h.1⟩, e1]
  · rw [Lp.other _ F2 k hp]
    by_cases hq' : q.Uses k ∧ k < n
    · rw [s2 k hq', e2]
    · rw [Lq.other σ F k hq', e2, Lq.other σ1 F1 k hq', e1, Lp.other σ F k hp]

end Dync
