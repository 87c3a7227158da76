import Verif.Props.Derive
/-!
# C65: on which modules the derive macro returns, and how deep it recurses
-/
namespace Dync
open Derive Relation

/-! ### `union_children` -/

/-- The edges in a map. -/
def InMap (m : TraitMap) (a b : Trait) : Prop := ∃ d, m a = some d ∧ b ∈ d.superTraits

theorem foldlM_inv {g : Trait → Option TSet} : ∀ {l : List Trait} {acc R : TSet},
    l.foldlM (fun res s => (g s).map fun c => TSet.extend res c) acc = some R →
    (∀ s ∈ l, (g s).isSome = true) ∧ ∀ x, x ∈ R ↔ x ∈ acc ∨ ∃ s ∈ l, ∃ c, g s = some c ∧ x ∈ c
  | [], acc, R, h => by cases h; simp
  | s :: l, acc, R, h => by
    rw [List.foldlM_cons] at h
    obtain ⟨r, h1, h2⟩ := Option.bind_eq_some_iff.1 h
    obtain ⟨c, hc, rfl⟩ := Option.map_eq_some_iff.1 h1
    obtain ⟨h3, h4⟩ := foldlM_inv h2
    refine ⟨fun t ht => ?_, fun x => ?_⟩
    · rcases List.mem_cons.1 ht with rfl | ht
      · rw [hc]; rfl
      · exact h3 t ht
    · rw [h4, mem_extend]
      constructor
      · rintro ((h | h) | ⟨t, ht, c', h5, h6⟩)
        · exact .inl h
        · exact .inr ⟨s, by simp, c, hc, h⟩
        · exact .inr ⟨t, List.mem_cons_of_mem _ ht, c', h5, h6⟩
      · rintro (h | ⟨t, ht, c', h5, h6⟩)
        · exact .inl (.inl h)
        · rcases List.mem_cons.1 ht with rfl | ht
          · rw [hc] at h5; cases h5; exact .inl (.inr h6)
          · exact .inr ⟨t, ht, c', h5, h6⟩

theorem uc_some {n : Nat} {m : TraitMap} {k : Trait} {d : TraitData} {R : TSet} (hd : m k = some d)
    (h : unionChildren (n + 1) m k = some R) :
    (∀ s ∈ d.superTraits, (unionChildren n m s).isSome = true) ∧
      ∀ x, x ∈ R ↔ x ∈ d.superTraits ∨ ∃ s ∈ d.superTraits, ∃ c, unionChildren n m s = some c ∧ x ∈ c := by
  unfold unionChildren at h
  simp only [hd] at h
  obtain ⟨h1, h2⟩ := foldlM_inv h
  exact ⟨h1, fun x => by rw [h2, mem_ofList]⟩

/-- Following an endless path does not return. -/
theorem uc_diverges {m : TraitMap} {P : Trait → Prop} (hP : ∀ k, P k → ∃ s, InMap m k s ∧ P s) :
    ∀ (n : Nat) (k : Trait), P k → unionChildren n m k = none
  | 0, _, _ => rfl
  | n + 1, k, hk => by
    cases h : unionChildren (n + 1) m k with
    | none => rfl
    | some R =>
      obtain ⟨s, ⟨d, hd, hs⟩, hps⟩ := hP k hk
      have := (uc_some hd h).1 s hs
      rw [uc_diverges hP n s hps] at this
      cases this

/-- Everything reachable is in the result. -/
theorem uc_complete {m : TraitMap} : ∀ (n : Nat) {k : Trait} {R : TSet}, unionChildren n m k = some R →
    ∀ {x}, TransGen (InMap m) k x → x ∈ R
  | 0, _, _, h, _, _ => by cases h
  | n + 1, k, R, h, x, hx => by
    obtain ⟨s, ⟨d, hd, hs⟩, hr⟩ := TransGen.head'_iff.1 hx
    obtain ⟨h1, h2⟩ := uc_some hd h
    rw [h2]
    rcases reflTransGen_iff_eq_or_transGen.1 hr with e | hr
    · left; rw [e]; exact hs
    · obtain ⟨c, hc⟩ := Option.isSome_iff_exists.1 (h1 s hs)
      exact .inr ⟨s, hs, c, hc, uc_complete n hc hr⟩

/-- Only what is reachable is in the result. -/
theorem uc_sound {E : Trait → Trait → Prop} {m : TraitMap} (hm : ∀ a b, InMap m a b → TransGen E a b) :
    ∀ (n : Nat) {k : Trait} {R : TSet}, unionChildren n m k = some R → ∀ x ∈ R, TransGen E k x
  | 0, _, _, h => by cases h
  | n + 1, k, R, h => by
    intro x hx
    cases hd : m k with
    | none => unfold unionChildren at h; simp only [hd] at h; cases h; cases hx
    | some d =>
      rcases ((uc_some hd h).2 x).1 hx with hx | ⟨s, hs, c, hc, hx⟩
      · exact hm _ _ ⟨d, hd, hx⟩
      · exact (hm _ _ ⟨d, hd, hs⟩).trans (uc_sound hm n hc x hx)

/-- Enough fuel: more than the rank of the trait. -/
theorem uc_returns {m : TraitMap} {r : Trait → Nat} (hr : ∀ a b, InMap m a b → r b < r a) :
    ∀ (n : Nat) {k : Trait}, r k < n → (unionChildren n m k).isSome = true
  | 0, _, h => by cases h
  | n + 1, k, h => by
    unfold unionChildren
    cases hd : m k with
    | none => rfl
    | some d =>
      simp only
      rw [foldlM_extend (f := fun s => (unionChildren n m s).getD []) (g := unionChildren n m)]
      · rfl
      · intro s hs
        have := uc_returns hr n (k := s) (by have := hr k s ⟨d, hd, hs⟩; omega)
        obtain ⟨c, hc⟩ := Option.isSome_iff_exists.1 this
        rw [hc]; rfl

theorem uc_mono {m : TraitMap} : ∀ (n : Nat) {k : Trait} {R : TSet}, unionChildren n m k = some R →
    unionChildren (n + 1) m k = some R
  | 0, _, _, h => by cases h
  | n + 1, k, R, h => by
    cases hd : m k with
    | none => unfold unionChildren at h ⊢; simp only [hd] at h ⊢; exact h
    | some d =>
      have h1 := (uc_some hd h).1
      have e : ∀ s ∈ d.superTraits, unionChildren (n + 1) m s = unionChildren n m s := by
        intro s hs
        obtain ⟨c, hc⟩ := Option.isSome_iff_exists.1 (h1 s hs)
        rw [uc_mono n hc, hc]
      rw [← h]
      unfold unionChildren
      simp only [hd]
      rw [foldlM_extend (f := fun s => (unionChildren n m s).getD []) (g := unionChildren n m),
        foldlM_extend (f := fun s => (unionChildren n m s).getD []) (g := unionChildren (n + 1) m)]
      · intro s hs
        obtain ⟨c, hc⟩ := Option.isSome_iff_exists.1 (h1 s hs)
        rw [e s hs, hc]; rfl
      · intro s hs
        obtain ⟨c, hc⟩ := Option.isSome_iff_exists.1 (h1 s hs)
        rw [hc]; rfl

/-! ### `flatten_inheritance` -/

theorem mapM_inv {g : Trait → Option TSet} : ∀ {l : List Trait} {ps : List TSet},
    l.mapM (fun s => (g s).map fun c => c ++ [s]) = some ps →
    (∀ s ∈ l, (g s).isSome = true) ∧ ∀ x, x ∈ ps.flatten ↔ ∃ s ∈ l, x = s ∨ ∃ c, g s = some c ∧ x ∈ c
  | [], ps, h => by cases h; simp
  | s :: l, ps, h => by
    simp only [List.mapM_cons] at h
    obtain ⟨p, hp, h⟩ := Option.bind_eq_some_iff.1 h
    obtain ⟨ps', hps, h⟩ := Option.bind_eq_some_iff.1 h
    injection h with h
    subst h
    obtain ⟨c, hc, rfl⟩ := Option.map_eq_some_iff.1 hp
    obtain ⟨h3, h4⟩ := mapM_inv hps
    refine ⟨fun t ht => ?_, fun x => ?_⟩
    · rcases List.mem_cons.1 ht with rfl | ht
      · rw [hc]; rfl
      · exact h3 t ht
    · rw [List.flatten_cons, List.mem_append, h4]
      constructor
      · rintro (h | ⟨t, ht, h⟩)
        · rcases List.mem_append.1 h with h | h
          · exact ⟨s, by simp, .inr ⟨c, hc, h⟩⟩
          · exact ⟨s, by simp, .inl (by simpa using h)⟩
        · exact ⟨t, List.mem_cons_of_mem _ ht, h⟩
      · rintro ⟨t, ht, h7⟩
        rcases List.mem_cons.1 ht with rfl | ht
        · left
          rcases h7 with h7 | ⟨c', h5, h6⟩
          · rw [h7]; simp
          · rw [hc] at h5; injection h5 with h5; subst h5; exact List.mem_append_left _ h6
        · exact .inr ⟨t, ht, h7⟩

theorem flatten_some {n : Nat} {m m1 : TraitMap} {it : ItemTrait} (h : flattenInheritance n m it = some m1) :
    ∃ d d1, m (key it) = some d ∧ m1 (key it) = some d1 ∧ (∀ k, k ≠ key it → m1 k = m k) ∧
      (∀ s ∈ d.superTraits, (unionChildren n (m.set (key it) none) s).isSome = true) ∧
      ∀ x, x ∈ d1.superTraits ↔ ∃ s ∈ d.superTraits, x = s ∨ ∃ c, unionChildren n (m.set (key it) none) s = some c ∧ x ∈ c := by
  unfold flattenInheritance at h
  cases hd : m (Trait.ofIdent it.ident) with
  | none => simp [hd] at h
  | some d =>
    simp only [hd] at h
    obtain ⟨ps, hps, h⟩ := Option.bind_eq_some_iff.1 h
    injection h with h
    subst h
    obtain ⟨h1, h2⟩ := mapM_inv hps
    refine ⟨d, { d with superTraits := TSet.ofList ps.flatten }, rfl, by simp [TraitMap.set], ?_, h1, ?_⟩
    · intro k hk; simp [TraitMap.set, hk]
    · intro x; rw [mem_ofList, h2]

/-- Entries only grow. -/
theorem flatten_grows {n : Nat} {m m1 : TraitMap} {it : ItemTrait} (h : flattenInheritance n m it = some m1) {a b : Trait}
    (hab : InMap m a b) : InMap m1 a b := by
  obtain ⟨d, d1, hd, hd1, hother, -, hmem⟩ := flatten_some h
  obtain ⟨da, hda, hb⟩ := hab
  by_cases e : a = key it
  · subst e
    rw [hd] at hda; cases hda
    exact ⟨d1, hd1, (hmem b).2 ⟨b, hb, .inl rfl⟩⟩
  · exact ⟨da, by rw [hother a e]; exact hda, hb⟩

theorem set_none_inMap {m : TraitMap} {T a b : Trait} (h : InMap m a b) (hne : a ≠ T) : InMap (m.set T none) a b := by
  obtain ⟨d, hd, hb⟩ := h
  exact ⟨d, by simp [TraitMap.set, hne, hd], hb⟩

theorem inMap_set_none {m : TraitMap} {T a b : Trait} (h : InMap (m.set T none) a b) : InMap m a b := by
  obtain ⟨d, hd, hb⟩ := h
  unfold TraitMap.set at hd
  split at hd
  · cases hd
  · exact ⟨d, hd, hb⟩

/-- A path that does not come back to its start. -/
theorem avoid {E : Trait → Trait → Prop} {b x : Trait} (h : TransGen E b x) :
    ∃ s, E b s ∧ ReflTransGen (fun u v => E u v ∧ u ≠ b) s x := by
  induction h with
  | single h => exact ⟨_, h, .refl⟩
  | @tail c y _ hcy ih =>
    by_cases e : c = b
    · subst e; exact ⟨y, hcy, .refl⟩
    · obtain ⟨s, h1, h2⟩ := ih
      exact ⟨s, h1, h2.tail ⟨hcy, e⟩⟩

/-- A trait on a cycle ends up among its own supertraits. -/
theorem flatten_self {E : Trait → Trait → Prop} {n : Nat} {m m1 : TraitMap} {it : ItemTrait} (hE : ∀ a b, E a b → InMap m a b)
    (h : flattenInheritance n m it = some m1) (hc : TransGen E (key it) (key it)) : InMap m1 (key it) (key it) := by
  obtain ⟨d, d1, hd, hd1, -, hsome, hmem⟩ := flatten_some h
  obtain ⟨s, hs, hr⟩ := avoid hc
  obtain ⟨d', hd', hs'⟩ := hE _ _ hs
  rw [hd] at hd'; cases hd'
  refine ⟨d1, hd1, (hmem _).2 ⟨s, hs', ?_⟩⟩
  rcases reflTransGen_iff_eq_or_transGen.1 hr with e | hr
  · left; exact e
  · obtain ⟨c, hcu⟩ := Option.isSome_iff_exists.1 (hsome s hs')
    exact .inr ⟨c, hcu, uc_complete n hcu (TransGen.mono (fun u v huv => set_none_inMap (hE _ _ huv.1) huv.2) _ _ hr)⟩

/-- Flattening another trait that reaches it does not return. -/
theorem flatten_stuck {E : Trait → Trait → Prop} {n : Nat} {m : TraitMap} {it : ItemTrait} (hE : ∀ a b, E a b → InMap m a b)
    {a : Trait} (ha : InMap m a a) (hne : a ≠ key it) (hr : TransGen E (key it) a) : flattenInheritance n m it = none := by
  cases h : flattenInheritance n m it with
  | none => rfl
  | some m1 =>
    obtain ⟨d, d1, hd, hd1, -, hsome, hmem⟩ := flatten_some h
    obtain ⟨s, hs, hp⟩ := avoid hr
    obtain ⟨d', hd', hs'⟩ := hE _ _ hs
    rw [hd] at hd'; cases hd'
    have hdiv := uc_diverges (m := m.set (key it) none)
      (P := fun k => k ≠ key it ∧ ReflTransGen (fun u v => E u v ∧ u ≠ key it) k a) (by
        rintro k ⟨hk, hkr⟩
        rcases hkr.cases_head with e | ⟨y, ⟨hky, -⟩, hya⟩
        · subst e
          exact ⟨k, set_none_inMap ha hk, hk, .refl⟩
        · refine ⟨y, set_none_inMap (hE _ _ hky) hk, ?_, hya⟩
          rintro rfl
          rcases hya.cases_head with e | ⟨z, ⟨-, hz⟩, -⟩
          · exact hne e.symm
          · exact hz rfl) n s ⟨by
        rintro rfl
        rcases hp.cases_head with e | ⟨z, ⟨-, hz⟩, -⟩
        · exact hne e.symm
        · exact hz rfl, hp⟩
    have := hsome s hs'
    rw [hdiv] at this
    cases this

/-- Two traits inheriting from each other: flattening both does not return. -/
theorem foldlM_stuck {E : Trait → Trait → Prop} {n : Nat} {a b : Trait} (hab : TransGen E a b) (hba : TransGen E b a)
    (hne : a ≠ b) : ∀ {items : List ItemTrait} {m m1 : TraitMap}, (∀ x y, E x y → InMap m x y) →
      items.foldlM (flattenInheritance n) m = some m1 →
      (a ∈ items.map key → b ∈ items.map key → False) ∧ (InMap m a a → b ∈ items.map key → False) ∧
        (InMap m b b → a ∈ items.map key → False)
  | [], _, _, _, _ => by simp
  | it :: items, m, m1, hE, h => by
    rw [List.foldlM_cons] at h
    obtain ⟨m2, h1, h2⟩ := Option.bind_eq_some_iff.1 h
    have hE2 : ∀ x y, E x y → InMap m2 x y := fun x y hxy => flatten_grows h1 (hE x y hxy)
    obtain ⟨i1, i2, i3⟩ := foldlM_stuck hab hba hne hE2 h2
    have sa : InMap m a a → b ∈ (it :: items).map key → False := by
      intro haa hb
      rcases List.mem_cons.1 hb with e | hb
      · have := flatten_stuck (n := n) hE haa (it := it) (by rw [← e]; exact hne) (by rw [← e]; exact hba)
        rw [h1] at this; cases this
      · exact i2 (flatten_grows h1 haa) hb
    have sb : InMap m b b → a ∈ (it :: items).map key → False := by
      intro hbb ha
      rcases List.mem_cons.1 ha with e | ha
      · have := flatten_stuck (n := n) hE hbb (it := it) (by rw [← e]; exact hne.symm) (by rw [← e]; exact hab)
        rw [h1] at this; cases this
      · exact i3 (flatten_grows h1 hbb) ha
    refine ⟨fun ha hb => ?_, sa, sb⟩
    rcases List.mem_cons.1 ha with ea | ha
    · rcases List.mem_cons.1 hb with eb | hb
      · exact hne (ea.trans eb.symm)
      · subst ea
        exact i2 (flatten_self hE h1 (hab.trans hba)) hb
    · rcases List.mem_cons.1 hb with eb | hb
      · subst eb
        exact i3 (flatten_self hE h1 (hba.trans hab)) ha
      · exact i1 ha hb

/-! ### Depth -/

theorem flatten_mono {n : Nat} {m m1 : TraitMap} {it : ItemTrait} (h : flattenInheritance n m it = some m1) :
    flattenInheritance (n + 1) m it = some m1 := by
  unfold flattenInheritance at h ⊢
  cases hd : m (Trait.ofIdent it.ident) with
  | none => simp [hd] at h
  | some d =>
    simp only [hd] at h ⊢
    obtain ⟨ps, hps, h⟩ := Option.bind_eq_some_iff.1 h
    have h1 := (mapM_inv hps).1
    refine Option.bind_eq_some_iff.2 ⟨ps, ?_, h⟩
    rw [← hps]
    rw [mapM_parts (f := fun s => (unionChildren n (m.set (Trait.ofIdent it.ident) none) s).getD []) (l := d.superTraits),
      mapM_parts (f := fun s => (unionChildren n (m.set (Trait.ofIdent it.ident) none) s).getD []) (l := d.superTraits)]
    · intro s hs
      obtain ⟨c, hc⟩ := Option.isSome_iff_exists.1 (h1 s hs)
      rw [hc]; rfl
    · intro s hs
      obtain ⟨c, hc⟩ := Option.isSome_iff_exists.1 (h1 s hs)
      rw [uc_mono n hc, hc]; rfl

theorem foldlM_mono {n : Nat} : ∀ {items : List ItemTrait} {m m1 : TraitMap}, items.foldlM (flattenInheritance n) m = some m1 →
    items.foldlM (flattenInheritance (n + 1)) m = some m1
  | [], _, _, h => h
  | it :: items, m, m1, h => by
    rw [List.foldlM_cons] at h ⊢
    obtain ⟨m2, h1, h2⟩ := Option.bind_eq_some_iff.1 h
    exact Option.bind_eq_some_iff.2 ⟨m2, flatten_mono h1, foldlM_mono h2⟩

theorem dyncMod_mono {n : Nat} {items : List ItemTrait} {os : List Output} (h : dyncMod n items = some os) :
    dyncMod (n + 1) items = some os := by
  unfold dyncMod fillAndFlatten at h ⊢
  obtain ⟨m, h1, h2⟩ := Option.bind_eq_some_iff.1 h
  exact Option.bind_eq_some_iff.2 ⟨m, foldlM_mono h1, h2⟩

theorem dyncMod_stable {n n' : Nat} {items : List ItemTrait} {os : List Output} (h : dyncMod n items = some os) (hn : n ≤ n') :
    dyncMod n' items = some os := by
  induction hn with
  | refl => exact h
  | step _ ih => exact dyncMod_mono ih

theorem foldlM_returns {E : Trait → Trait → Prop} {r : Trait → Nat} (hr : ∀ a b, TransGen E a b → r b < r a) {n : Nat} :
    ∀ {items : List ItemTrait} {m : TraitMap}, (∀ a b, InMap m a b → TransGen E a b) →
      (∀ it ∈ items, (m (key it)).isSome = true) → (∀ it ∈ items, r (key it) ≤ n) →
      (items.foldlM (flattenInheritance n) m).isSome = true
  | [], _, _, _, _ => rfl
  | it :: items, m, hm, hk, hn => by
    have h1 : (flattenInheritance n m it).isSome = true := by
      unfold flattenInheritance
      obtain ⟨d, hd⟩ := Option.isSome_iff_exists.1 (hk it (by simp))
      unfold key at hd
      simp only [hd]
      rw [mapM_parts (f := fun s => (unionChildren n (m.set (Trait.ofIdent it.ident) none) s).getD [])]
      · rfl
      · intro s hs
        have := uc_returns (m := m.set (Trait.ofIdent it.ident) none) (r := r)
          (fun a b hab => hr a b (hm a b (inMap_set_none hab))) n (k := s) (by
            have h1 := hr _ _ (hm _ _ ⟨d, hd, hs⟩)
            have h2 := hn it (by simp)
            unfold key at h2
            omega)
        obtain ⟨c, hc⟩ := Option.isSome_iff_exists.1 this
        rw [hc]; rfl
    obtain ⟨m1, h1⟩ := Option.isSome_iff_exists.1 h1
    rw [List.foldlM_cons, h1]
    obtain ⟨d, d1, hd, hd1, hother, hsome, hmem⟩ := flatten_some h1
    refine foldlM_returns hr (items := items) (m := m1) ?_ ?_ fun i hi => hn i (List.mem_cons_of_mem _ hi)
    · rintro a b ⟨da, hda, hb⟩
      by_cases e : a = key it
      · subst e
        rw [hd1] at hda; cases hda
        obtain ⟨s, hs, h⟩ := (hmem b).1 hb
        rcases h with rfl | ⟨c, hc, hx⟩
        · exact hm _ _ ⟨d, hd, hs⟩
        · exact (hm _ _ ⟨d, hd, hs⟩).trans (uc_sound (fun x y hxy => hm x y (inMap_set_none hxy)) n hc b hx)
      · rw [hother a e] at hda
        exact hm a b ⟨da, hda, hb⟩
    · intro i hi
      by_cases e : key i = key it
      · rw [e, hd1]; rfl
      · rw [hother _ e]; exact hk i (List.mem_cons_of_mem _ hi)

open Classical in
/-- How deep the inheritance below a trait can be. -/
noncomputable def depthOf (items : List ItemTrait) (k : Trait) : Nat :=
  if k ∈ items.map key then 2 + ((items.map key).filter fun x => TransGen (Edge items) k x).length
  else if k = .eq then 1 else 0

theorem depth_lt {items : List ItemTrait} (hns : NoShadow items) (hac : Acyclic items) {a b : Trait}
    (h : TransGen (Edge items) a b) : depthOf items b < depthOf items a := by
  classical
  have src : a ∈ items.map key ∨ a = .eq := by
    obtain ⟨s, hs, -⟩ := TransGen.head'_iff.1 h
    rcases hs with ⟨it, hit, rfl, -⟩ | ⟨rfl, -⟩
    · exact .inl (List.mem_map_of_mem hit)
    · exact .inr rfl
  have eqNot : Trait.eq ∉ items.map key := by
    intro hm
    obtain ⟨it, hit, e⟩ := List.mem_map.1 hm
    have := hns it hit
    rw [e] at this; cases this
  by_cases hb : b ∈ items.map key
  · have ha : a ∈ items.map key := by
      rcases src with ha | rfl
      · exact ha
      · have := (builtin_exact hns (k := .eq) rfl b).2 h
        rw [List.mem_singleton] at this
        subst this
        obtain ⟨it, hit, e⟩ := List.mem_map.1 hb
        have := hns it hit
        rw [e] at this; cases this
    unfold depthOf
    rw [if_pos hb, if_pos ha]
    apply Nat.add_lt_add_left
    have sub : ((items.map key).filter fun x => TransGen (Edge items) b x).Sublist
        ((items.map key).filter fun x => TransGen (Edge items) a x) := by
      apply List.monotone_filter_right
      intro x hx
      simp only [decide_eq_true_eq] at hx ⊢
      exact h.trans hx
    refine lt_of_le_of_ne sub.length_le fun e => ?_
    have := sub.eq_of_length e
    have hin : b ∈ (items.map key).filter fun x => TransGen (Edge items) a x := by
      rw [List.mem_filter]; exact ⟨hb, by simpa using h⟩
    rw [← this, List.mem_filter] at hin
    exact hac b (by simpa using hin.2)
  · unfold depthOf
    rw [if_neg hb]
    rcases src with ha | rfl
    · rw [if_pos ha]
      split <;> omega
    · rw [if_neg eqNot, if_pos rfl]
      have := (builtin_exact hns (k := .eq) rfl b).2 h
      rw [List.mem_singleton] at this
      subst this
      simp

theorem depth_le {items : List ItemTrait} (hac : Acyclic items) {it : ItemTrait} (hit : it ∈ items) :
    depthOf items (key it) ≤ items.length + 1 := by
  classical
  have hm : key it ∈ items.map key := List.mem_map_of_mem hit
  unfold depthOf
  rw [if_pos hm]
  have : ((items.map key).filter fun x => TransGen (Edge items) (key it) x).length < (items.map key).length := by
    apply List.length_filter_lt_length_iff_exists.2
    exact ⟨key it, hm, by simpa using hac (key it)⟩
  rw [List.length_map] at this
  omega

/-! ### Theorems -/

/-- **C65**: on a module Rust accepts, the recursion is never deeper than the number of traits and one more. -/
theorem C65_depth {items : List ItemTrait} (h : GoodMod items) :
    ∃ os, ∀ n, items.length < n → dyncMod n items = some os := by
  have hns := good_noShadow h.names
  have hac := good_acyclic h
  obtain ⟨h1, -⟩ := foldl_fill_get (m := builtins) hns (good_keys h)
  have hbet := initial_between hns (good_keys h)
  have hret := foldlM_returns (E := Edge items) (r := depthOf items) (fun a b hab => depth_lt hns hac hab) (n := items.length + 1)
    (items := items) (m := items.foldl fillTraitMap builtins) (by
      rintro a b ⟨d, hd, hb⟩
      have := hbet a
      unfold Between at this
      rw [hd] at this
      exact this.2 b hb) (fun it hit => by rw [h1 it hit]; rfl) (fun it hit => depth_le hac hit)
  obtain ⟨m, hm⟩ := Option.isSome_iff_exists.1 hret
  obtain ⟨N, F, hN⟩ : ∃ N F, ∀ n ≥ N, dyncMod n items = some (items.map F) := by
    obtain ⟨N, _, F, hn, -⟩ := module_out h
    exact ⟨N, F, hn⟩
  have hsome : (dyncMod (items.length + 1) items).isSome = true := by
    have hbig := hN (max N (items.length + 1)) (by omega)
    unfold dyncMod at hbig ⊢
    have e : fillAndFlatten (max N (items.length + 1)) items = some m := by
      have : ∀ k, fillAndFlatten (items.length + 1 + k) items = some m := by
        intro k
        induction k with
        | zero => exact hm
        | succ k ih => exact foldlM_mono ih
      obtain ⟨k, hk⟩ : ∃ k, max N (items.length + 1) = items.length + 1 + k := ⟨max N (items.length + 1) - (items.length + 1), by omega⟩
      rw [hk]; exact this k
    rw [e] at hbig
    rw [show fillAndFlatten (items.length + 1) items = some m from hm]
    rw [hbig]; rfl
  obtain ⟨os, hos⟩ := Option.isSome_iff_exists.1 hsome
  exact ⟨os, fun n hn => dyncMod_stable hos hn⟩

/-- **C65**: with good, distinct names and no trait naming itself, the macro returns exactly if the inheritance is
acyclic. On a cycle it recurses without end, instead of leaving it to the compiler to report it. -/
theorem C65_returns_iff {items : List ItemTrait} (hn : ∀ it ∈ items, GoodName it.ident)
    (hd : (items.map ItemTrait.ident).Nodup) (hself : ∀ it ∈ items, ¬ Writes it (.custom it.ident)) :
    (∃ n, (dyncMod n items).isSome = true) ↔ ∀ a, ¬ TransGen (Sup items) a a := by
  constructor
  · rintro ⟨n, hs⟩ a ha
    obtain ⟨os, hos⟩ := Option.isSome_iff_exists.1 hs
    unfold dyncMod at hos
    obtain ⟨m, hm, -⟩ := Option.bind_eq_some_iff.1 hos
    have hns := good_noShadow hn
    have hkeys : (items.map key).Nodup := by
      have : items.map key = items.map fun it => Trait.custom it.ident :=
        List.map_congr_left fun it hit => key_good (hn it hit)
      rw [this]
      have := List.Nodup.map (f := Trait.custom) (fun a b e => by injection e) hd
      rwa [List.map_map] at this
    have hbet := initial_between hns hkeys
    have hE : ∀ x y, Edge items x y → InMap (items.foldl fillTraitMap builtins) x y := by
      intro x y hxy
      have := hbet x
      unfold Between at this
      split at this
      · next d hd => exact ⟨d, hd, this.1 y hxy⟩
      · exact absurd hxy (this y)
    obtain ⟨b, hab, hr⟩ := TransGen.head'_iff.1 ha
    have up : ∀ {x y}, TransGen (Sup items) x y → TransGen (Edge items) x y := by
      intro x y hxy
      have hk : Known items y := by
        obtain ⟨z, -, hz⟩ := TransGen.tail'_iff.1 hxy
        exact sup_known hz
      exact (trans_iff hn hk).2 hxy
    have item : ∀ {x}, TransGen (Sup items) x x → x ∈ items.map key := by
      intro x hx
      have hx' := hx
      obtain ⟨z, hxz, -⟩ := TransGen.head'_iff.1 hx
      rcases hxz with ⟨it, hit, rfl, -⟩ | ⟨rfl, rfl⟩
      · exact List.mem_map.2 ⟨it, hit, key_good (hn it hit)⟩
      · have := (builtin_exact hns (k := .eq) rfl Trait.eq).2 (up hx')
        simp at this
    have hne : a ≠ b := by
      rintro rfl
      rcases hab with ⟨it, hit, rfl, hw, -⟩ | ⟨e1, e2⟩
      · exact hself it hit hw
      · rw [e1] at e2; cases e2
    rcases reflTransGen_iff_eq_or_transGen.1 hr with e | hba
    · exact hne e
    · have hab' : TransGen (Sup items) a b := .single hab
      exact (foldlM_stuck (up hab') (up hba) hne hE hm).1 (item ha) (item (hba.trans hab'))
  · intro hac
    obtain ⟨os, h⟩ := C65_depth ⟨hn, hd, hac⟩
    exact ⟨items.length + 1, by rw [h _ (by omega)]; rfl⟩

namespace Ex
/-- `trait Ping: Pong {}` and `trait Pong: Ping {}` -/
def ping : ItemTrait := ⟨"Ping", [.trait false false (plain ["Pong"])], false, false⟩
def pong : ItemTrait := ⟨"Pong", [.trait false false (plain ["Ping"])], false, false⟩
end Ex

example := C65_depth Ex.goodMod
/-- The bound on the depth is reached. -/
example : dyncMod 2 [Ex.val, ⟨"Base", [.trait false false (plain ["Eq"])], false, false⟩] = none := by decide +kernel
/-- The macro does not return on the cycle. -/
example : ¬ ∃ n, (dyncMod n [Ex.ping, Ex.pong]).isSome = true := by
  rw [C65_returns_iff (by simp [GoodName, stdNames, Ex.ping, Ex.pong]) (by decide) (by decide)]
  intro h
  exact h (.custom "Ping") (.tail (b := .custom "Pong")
    (.single (.inl ⟨Ex.ping, by simp, rfl, by decide, fun s e => ⟨Ex.pong, by simp, by injection e⟩⟩))
    (.inl ⟨Ex.pong, by simp, rfl, by decide, fun s e => ⟨Ex.ping, by simp, by injection e⟩⟩))

end Dync
