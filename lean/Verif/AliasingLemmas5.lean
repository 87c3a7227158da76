import Verif.AliasingLemmas4
/-!
# Lemmas: programs
-/
namespace Dync
variable {U α β : Type} {Γ : TyEnv U} {cfg : Cfg} {cells : TyId → Nat → Bool} {C : Nat → Bool} {R R0 : Rules}
variable {env : List (Option Handle)} {fl : Nat → Borrows} {E : AMem → Prop}

theorem Silent.agree {x : M AMem α} {G : α → Prop} {P : AMem → Prop} {f g : α → M AMem β} {T : β → AMem → Prop} (h : Silent x G)
    (k : ∀ a, G a → Agree P (f a) (g a) T E) (hE : ∀ m, P m → E m) : Agree P (x >>= f) (x >>= g) T E := by
  obtain ⟨r, hr, hg⟩ := h
  intro m m0 hb hn hP
  cases r with
  | ok a =>
    rw [M.bind_ok (hr m), M.bind_ok (hr m0)]
    exact k a hg m m0 hb hn hP
  | panic w =>
    rw [M.bind_panic (hr m), M.bind_panic (hr m0)]
    exact ⟨rfl, hb, hn, hE m hP⟩
  | ub => exact absurd hg id
  | abort => exact absurd hg id

theorem AProg.agree (hR : R.on = true) (h0 : R0.on = false) (p : AProg) : ∀ (env : List (Option Handle)) (fl : Nat → Borrows),
    (∀ h, some h ∈ env → h.Ok Γ cells C) →
    ((∀ t k, cells t k = false) ∨ (p.TypedOnly ∧ ∀ h, some h ∈ env → h.kind ≠ .bytes)) →
    Agree (AInv C env fl) (p.run Γ cfg cells R env) (p.run Γ cfg cells R0 env) (fun _ => AInv C env fl) (AInv C env fl) := by
  induction p with
  | skip => exact fun env fl _ _ => Agree.pure fun _ I => I
  | seq p q ihp ihq =>
    intro env fl hok hc
    refine (ihp env fl hok (hc.imp id fun h => ⟨h.1.1, h.2⟩)).bind fun a => ?_
    exact (ihq env fl hok (hc.imp id fun h => ⟨h.1.2, h.2⟩)).bind fun b => Agree.pure fun _ I => I
  | attempt p ih =>
    intro env fl hok hc m m0 hb hn I
    obtain ⟨e1, e2, e3, e4⟩ := ih env fl hok (hc.imp id fun h => ⟨h.1, h.2⟩) m m0 hb hn I
    simp only [AProg.run]
    rcases hx : (p.run Γ cfg cells R env).run m with ⟨r, m1⟩
    rcases hy : (p.run Γ cfg cells R0 env).run m0 with ⟨r0, m2⟩
    rw [hx, hy] at e1 e2 e3
    rw [hx] at e4
    simp only at e1 e2 e3 e4
    subst e1
    cases r with
    | ok a => exact ⟨rfl, e2, e3, e4⟩
    | panic w => exact ⟨rfl, e2, e3, e4⟩
    | ub => exact absurd e4 id
    | abort => exact absurd e4 id
  | look i =>
    intro env fl hok hc
    simp only [AProg.run]
    split
    · rename_i h hi
      exact (load_agree hR h0 (List.mem_of_getElem? hi)).bind fun _ => Agree.pure fun _ I => I
    · exact Agree.pure fun _ I => I
  | put i f =>
    intro env fl hok hc
    simp only [AProg.run]
    split
    · rename_i h hi
      split
      · rename_i hm
        exact (load_agree hR h0 (List.mem_of_getElem? hi)).bind fun _ => (store_excl hR h0 hi hm).bind fun _ => Agree.pure fun _ I => I
      · exact Agree.pure fun _ I => I
    · exact Agree.pure fun _ I => I
  | exchange i j =>
    intro env fl hok hc
    simp only [AProg.run]
    split
    · rename_i g h hi hj
      split
      · rename_i hm
        split
        · rename_i hl
          refine (load_agree hR h0 (List.mem_of_getElem? hi)).bind fun _ => (load_agree hR h0 (List.mem_of_getElem? hj)).bind fun _ => ?_
          exact (store_excl hR h0 hi hm.2.1).bind fun _ => (store_excl hR h0 hj hm.2.2).bind fun _ => Agree.pure fun _ I => I
        · exact Agree.panic fun _ I => I
      · exact Agree.pure fun _ I => I
    · exact Agree.pure fun _ I => I
  | copy i j =>
    intro env fl hok hc
    simp only [AProg.run]
    split
    · rename_i g h hi hj
      split
      · rename_i hm
        split
        · exact (load_agree hR h0 (List.mem_of_getElem? hj)).bind fun _ => (store_excl hR h0 hi hm.2).bind fun _ => Agree.pure fun _ I => I
        · exact Agree.panic fun _ I => I
      · exact Agree.pure fun _ I => I
    · exact Agree.pure fun _ I => I
  | cell i a x =>
    intro env fl hok hc
    simp only [AProg.run]
    split
    · rename_i h hi
      split
      · rename_i hm
        obtain ⟨hm, hk, hx⟩ := hm
        have H := hok h (List.mem_of_getElem? hi)
        simp only [Handle.inCells, Bool.and_eq_true, decide_eq_true_eq, List.all_eq_true, List.mem_range] at hx
        refine (store_cell hR h0 (List.mem_of_getElem? hi) hm (fun k hkl => ?_) hx.1).bind fun _ => Agree.pure fun _ I => I
        rw [Nat.add_assoc, ← H.inner (by simp [hk]) (a + k) (by omega)]
        exact hx.2 k hkl
      · exact Agree.pure fun _ I => I
    · exact Agree.pure fun _ I => I
  | shared i mth q ih =>
    intro env fl hok hc
    simp only [AProg.run]
    split
    · rename_i h hi
      have hmem := List.mem_of_getElem? hi
      refine (RefMethod.plan_ok (hok h hmem) mth (hc.imp id fun hc => ⟨hc.1.1, hc.2 h hmem⟩)).agree (fun o ho => ?_) fun _ I => I
      cases o with
      | none => exact Agree.pure fun _ I => I
      | some p =>
        obtain ⟨H, hkind⟩ := ho p rfl
        refine Agree.of fun m I => Agree.weaken (P := AInv C env fl) ?_ (fun m' e => e ▸ I) (fun _ _ h => h) (fun _ h => h)
        refine (make_shr hR h0 hi H).bind fun hs => Agree.assume fun hall => ?_
        refine (ih _ fl ?_ ?_).weaken (fun _ I => I) (fun _ _ I' => I.restore hi I') (fun _ I' => I.restore hi I')
        · intro g hg
          rcases List.mem_append.1 hg with hg | hg
          · rcases List.mem_or_eq_of_mem_set hg with hg | hg
            · exact hok g hg
            · cases hg
              have := hok h hmem
              exact ⟨this.elem, this.size, this.inner, this.plain⟩
          · obtain ⟨g', hg', e⟩ := List.mem_map.1 hg
            cases e
            exact (hall _ hg').1
        · refine hc.imp id fun hc => ⟨hc.1.2, ?_⟩
          intro g hg
          rcases List.mem_append.1 hg with hg | hg
          · rcases List.mem_or_eq_of_mem_set hg with hg | hg
            · exact hc.2 g hg
            · cases hg
              exact hc.2 h hmem
          · obtain ⟨g', hg', e⟩ := List.mem_map.1 hg
            cases e
            rw [(hall _ hg').2]
            exact hkind hc.1.1 (hc.2 h hmem)
    · exact Agree.pure fun _ I => I
  | exclusive i mth q ih =>
    intro env fl hok hc
    simp only [AProg.run]
    split
    · rename_i h hi
      have hmem := List.mem_of_getElem? hi
      split
      · rename_i hm
        refine (RefMethod.plan_ok (hok h hmem) mth (hc.imp id fun hc => ⟨hc.1.1, hc.2 h hmem⟩)).agree (fun o ho => ?_) fun _ I => I
        cases o with
        | none => exact Agree.pure fun _ I => I
        | some p =>
          obtain ⟨H, hkind⟩ := ho p rfl
          refine Agree.of fun m I => Agree.weaken (P := AInv C env fl) ?_ (fun m' e => e ▸ I) (fun _ _ h => h) (fun _ h => h)
          refine (make_excl hR h0 hi hm H).bind fun hs => Agree.assume fun hall => Agree.exists fun fl' => Agree.assume fun hfl => ?_
          refine (ih _ fl' ?_ ?_).weaken (fun _ I => I) (fun _ _ I' => I.restoreExcl hi hm hfl I') (fun _ I' => I.restoreExcl hi hm hfl I')
          · intro g hg
            rcases List.mem_append.1 hg with hg | hg
            · rcases List.mem_or_eq_of_mem_set hg with hg | hg
              · exact hok g hg
              · cases hg
            · obtain ⟨g', hg', e⟩ := List.mem_map.1 hg
              cases e
              exact (hall _ hg').1
          · refine hc.imp id fun hc => ⟨hc.1.2, ?_⟩
            intro g hg
            rcases List.mem_append.1 hg with hg | hg
            · rcases List.mem_or_eq_of_mem_set hg with hg | hg
              · exact hc.2 g hg
              · cases hg
            · obtain ⟨g', hg', e⟩ := List.mem_map.1 hg
              cases e
              rw [(hall _ hg').2]
              exact hkind hc.1.1 (hc.2 h hmem)
      · exact Agree.pure fun _ I => I
    · exact Agree.pure fun _ I => I

/-! ### The start -/

open Classical in
/-- Which bytes of memory are inside cells of the elements of containers. -/
noncomputable def cellsOf (Γ : TyEnv U) (cells : TyId → Nat → Bool) (env : List (Option Handle)) (b : Nat) : Bool :=
  decide (∃ h, some h ∈ env ∧ h.Covers b ∧ cells h.elem.type_id ((b - h.addr) % Γ.size h.elem.type_id) = true)

theorem cellsOf_iff {b : Nat} : cellsOf Γ cells env b = true ↔
    ∃ h, some h ∈ env ∧ h.Covers b ∧ cells h.elem.type_id ((b - h.addr) % Γ.size h.elem.type_id) = true := by
  simp [cellsOf]

theorem OwnedOnly.same {m : AMem} (O : OwnedOnly Γ env m) {g h : Handle} (hg : some g ∈ env) (hh : some h ∈ env) {b : Nat} (h1 : g.Covers b)
    (h2 : h.Covers b) : g = h := by
  obtain ⟨i, hi⟩ := List.getElem?_of_mem hg
  obtain ⟨j, hj⟩ := List.getElem?_of_mem hh
  by_cases hij : i = j
  · subst hij
    rw [hi] at hj
    cases hj; rfl
  · obtain ⟨a1, a2⟩ := h1
    obtain ⟨b1, b2⟩ := h2
    have := O.apart i j g h hi hj hij
    omega

theorem OwnedOnly.ok {m : AMem} (O : OwnedOnly Γ env m) {h : Handle} (hh : some h ∈ env) : h.Ok Γ cells (cellsOf Γ cells env) := by
  refine ⟨(O.elem h hh).1, (O.elem h hh).2, fun _ k hk => ?_, fun e => ?_⟩
  · rw [Bool.eq_iff_iff, cellsOf_iff]
    constructor
    · intro e
      exact ⟨h, hh, ⟨by omega, by omega⟩, by rwa [Nat.add_sub_cancel_left]⟩
    · rintro ⟨g, hg, hc, e⟩
      have := O.same hg hh hc ⟨by omega, by omega⟩
      subst this
      rwa [Nat.add_sub_cancel_left] at e
  · rw [(O.owner h hh).1] at e
    cases e

theorem OwnedOnly.inv {m : AMem} (O : OwnedOnly Γ env m) : AInv (cellsOf Γ cells env) env m.stack m := by
  have noShr : ∀ b t, ¬ sharedAt env b t := by
    rintro b t ⟨h, h1, h2, -⟩
    rw [(O.owner h h1).2] at h2
    cases h2
  have stk : ∀ b, m.stack b = [] ∨ ∃ h, some h ∈ env ∧ h.Covers b ∧ m.stack b = [⟨h.tag, .unique⟩] := by
    intro b
    by_cases hb : ∃ h, some h ∈ env ∧ h.Covers b
    · obtain ⟨h, hh, hc⟩ := hb
      have := O.mine h hh (b - h.addr) (by have := hc.2; have := hc.1; omega)
      rw [Nat.add_sub_cancel' hc.1] at this
      exact .inr ⟨h, hh, hc, this⟩
    · exact .inl (O.none b fun h hh hc => hb ⟨h, hh, hc⟩)
  refine ⟨fun b => ⟨[], [], rfl, by simp, fun t ht => absurd ht (noShr b t)⟩, ?_, ?_, ?_, ?_⟩
  · intro h hh _ b hc
    have := O.mine h hh (b - h.addr) (by have := hc.2; have := hc.1; omega)
    rw [Nat.add_sub_cancel' hc.1] at this
    exact ⟨[], this⟩
  · intro b
    rcases stk b with e | ⟨h, -, -, e⟩ <;> simp [e]
  · intro b it hit
    rcases stk b with e | ⟨h, hh, -, e⟩
    · simp [e] at hit
    · rw [e, List.mem_singleton] at hit
      subst hit
      exact O.fresh h hh
  · intro i j g h hi hj hij _ b hb hb'
    have := O.apart i j g h hi hj hij
    have := hb.1; have := hb.2; have := hb'.1; have := hb'.2
    omega

/-- Programs over containers obey the rules. -/
theorem OwnedOnly.run {m : AMem} (O : OwnedOnly Γ env m) (p : AProg) (strict : Bool) (hc : (∀ t k, cells t k = false) ∨ p.TypedOnly) :
    ∃ r m1 m2, (p.run Γ cfg cells ⟨true, strict⟩ env).run m = (r, m1) ∧ (p.run Γ cfg cells ⟨false, strict⟩ env).run m = (r, m2) ∧
      m1.byte = m2.byte ∧ r ≠ .ub ∧ r ≠ .abort := by
  have := AProg.agree (Γ := Γ) (cfg := cfg) (cells := cells) (C := cellsOf Γ cells env) (R := ⟨true, strict⟩) (R0 := ⟨false, strict⟩) rfl rfl p
    env m.stack (fun h hh => O.ok hh) (hc.imp id fun h => ⟨h, fun h hh => by simp [(O.owner h hh).1]⟩) m m rfl rfl O.inv
  obtain ⟨e1, e2, -, e4⟩ := this
  refine ⟨((p.run Γ cfg cells ⟨true, strict⟩ env).run m).1, _, ((p.run Γ cfg cells ⟨false, strict⟩ env).run m).2, rfl,
    Prod.ext e1.symm rfl, e2, ?_, ?_⟩
  · intro e
    rw [e] at e4
    exact e4
  · intro e
    rw [e] at e4
    exact e4

end Dync
