import Verif.Derive
import Mathlib.Logic.Relation
import Mathlib.Data.String.Basic
import Mathlib.Data.List.Sort
import Mathlib.Order.WellFounded
/-!
# Lemmas about the derive macros
-/
namespace Dync.Derive
open Relation

/-! ### Sets -/

theorem mem_insertSorted {x y : Trait} {s : TSet} : y ∈ insertSorted x s ↔ y = x ∨ y ∈ s := by
  induction s with
  | nil => simp [insertSorted]
  | cons z s ih =>
    simp only [insertSorted]
    split
    · simp
    · simp only [List.mem_cons, ih]; tauto

theorem mem_insert {x y : Trait} {s : TSet} : y ∈ TSet.insert x s ↔ y = x ∨ y ∈ s := by
  unfold TSet.insert
  split
  · rename_i h
    constructor
    · exact .inr
    · rintro (rfl | h') <;> assumption
  · exact mem_insertSorted

theorem mem_extend {y : Trait} {xs : List Trait} : ∀ {s : TSet}, y ∈ TSet.extend s xs ↔ y ∈ s ∨ y ∈ xs := by
  induction xs with
  | nil => simp [TSet.extend]
  | cons x xs ih =>
    intro s
    have : TSet.extend s (x :: xs) = TSet.extend (TSet.insert x s) xs := rfl
    rw [this, ih, mem_insert]
    simp only [List.mem_cons]; tauto

theorem mem_ofList {y : Trait} {xs : List Trait} : y ∈ TSet.ofList xs ↔ y ∈ xs := by
  simp [TSet.ofList, mem_extend]

/-! ### The order on traits -/

theorem lt_irrefl (a : Trait) : a.lt a = false := by
  cases a <;> simp [Trait.lt, Trait.rank]

theorem lt_trans {a b c : Trait} (h1 : a.lt b = true) (h2 : b.lt c = true) : a.lt c = true := by
  cases a <;> cases b <;> cases c <;> simp_all [Trait.lt, Trait.rank]
  exact List.lt_trans h1 h2

theorem lt_tri {a b : Trait} (h1 : a.lt b = false) (hne : a ≠ b) : b.lt a = true := by
  cases a <;> cases b <;> simp_all [Trait.lt, Trait.rank]
  rename_i s s'
  rcases _root_.lt_trichotomy s.toList s'.toList with h | h | h
  · exact absurd h (not_lt.2 h1)
  · exact absurd (String.ext (by simpa using h)) hne
  · exact h

/-- Strictly increasing lists. -/
abbrev Sorted (s : TSet) : Prop := s.Pairwise fun a b => a.lt b = true

theorem sorted_insertSorted {x : Trait} {s : TSet} (hs : Sorted s) (hx : x ∉ s) : Sorted (insertSorted x s) := by
  induction s with
  | nil => simp [insertSorted, Sorted]
  | cons y s ih =>
    have hs' := List.pairwise_cons.1 hs
    simp only [List.mem_cons, not_or] at hx
    simp only [insertSorted]
    split
    · rename_i h
      refine List.pairwise_cons.2 ⟨?_, hs⟩
      intro z hz
      rcases List.mem_cons.1 hz with rfl | hz
      · exact h
      · exact lt_trans h (hs'.1 z hz)
    · rename_i h
      refine List.pairwise_cons.2 ⟨?_, ih hs'.2 hx.2⟩
      intro z hz
      rcases mem_insertSorted.1 hz with rfl | hz
      · exact lt_tri (by simpa using h) hx.1
      · exact hs'.1 z hz

theorem sorted_insert {x : Trait} {s : TSet} (hs : Sorted s) : Sorted (TSet.insert x s) := by
  unfold TSet.insert
  split
  · exact hs
  · rename_i h; exact sorted_insertSorted hs h

theorem sorted_extend {xs : List Trait} : ∀ {s : TSet}, Sorted s → Sorted (TSet.extend s xs) := by
  induction xs with
  | nil => exact fun h => h
  | cons x xs ih => exact fun h => ih (sorted_insert h)

theorem sorted_ofList (xs : List Trait) : Sorted (TSet.ofList xs) := sorted_extend List.Pairwise.nil

theorem Sorted.nodup {s : TSet} (hs : Sorted s) : s.Nodup := by
  refine List.Pairwise.imp ?_ hs
  rintro a b h rfl
  rw [lt_irrefl] at h
  cases h

/-- A set is determined by its elements. -/
theorem Sorted.ext {s s' : TSet} (hs : Sorted s) (hs' : Sorted s') (h : ∀ x, x ∈ s ↔ x ∈ s') : s = s' := by
  have hp : s.Perm s' := (List.perm_ext_iff_of_nodup hs.nodup hs'.nodup).2 h
  refine hp.eq_of_pairwise ?_ hs hs'
  intro a b _ _ h1 h2
  have := lt_trans h1 h2
  rw [lt_irrefl] at this
  cases this

/-! ### Keys -/

theorem ofIdent_custom {s : String} (h : builtins (Trait.ofIdent s) = none) : Trait.ofIdent s = .custom s := by
  unfold Trait.ofIdent at h ⊢
  repeat' split
  all_goals first | rfl | (exfalso; simp_all [builtins])

/-- Every entry of the map: builtin entries keep path and methods, the others are user traits without
methods. -/
structure Sane (m : TraitMap) : Prop where
  builtin : ∀ k b, builtins k = some b → ∃ d, m k = some d ∧ d.path = b.path ∧ d.methods = b.methods
  user : ∀ k d, builtins k = none → m k = some d → ∃ s, k = .custom s ∧ d.path = [s] ∧ d.methods = []
  sorted : ∀ k d, m k = some d → Sorted d.superTraits

theorem sane_builtins : Sane builtins := by
  refine ⟨fun k b h => ⟨b, h, rfl, rfl⟩, (fun k d h h' => by rw [h] at h'; cases h'), fun k d h => ?_⟩
  cases k <;> simp [builtins] at h <;> subst h <;> simp [Sorted]

theorem sane_fill {m : TraitMap} (h : Sane m) (it : ItemTrait) : Sane (fillTraitMap m it) := by
  unfold fillTraitMap
  split
  · exact h
  · rename_i hn
    have hb : builtins (Trait.ofIdent it.ident) = none := by
      rcases hb : builtins (Trait.ofIdent it.ident) with _ | b
      · rfl
      · obtain ⟨d, hd, -⟩ := h.builtin _ _ hb
        rw [hd] at hn; cases hn
    refine ⟨fun k b hk => ?_, fun k d hk hd => ?_, fun k d hd => ?_⟩
    · have : k ≠ Trait.ofIdent it.ident := by rintro rfl; rw [hb] at hk; cases hk
      simp only [TraitMap.set, if_neg this]
      exact h.builtin k b hk
    · simp only [TraitMap.set] at hd
      split at hd
      · rename_i e
        cases hd
        exact ⟨it.ident, by rw [e, ofIdent_custom hb], rfl, rfl⟩
      · exact h.user k d hk hd
    · simp only [TraitMap.set] at hd
      split at hd
      · cases hd; exact sorted_ofList _
      · exact h.sorted k d hd

theorem sane_foldl_fill (items : List ItemTrait) : ∀ {m : TraitMap}, Sane m → Sane (items.foldl fillTraitMap m) := by
  induction items with
  | nil => exact fun h => h
  | cons it items ih => exact fun h => ih (sane_fill h it)

theorem sane_update {m : TraitMap} (h : Sane m) {k : Trait} {d d' : TraitData} (hd : m k = some d)
    (hp : d'.path = d.path) (hm : d'.methods = d.methods) (hs : Sorted d'.superTraits) :
    Sane ((m.set k none).set k (some d')) := by
  have hv : ∀ k', (m.set k none).set k (some d') k' = if k' = k then some d' else m k' := by
    intro k'; simp only [TraitMap.set]; split <;> rfl
  refine ⟨fun k' b hk => ?_, fun k' e hk he => ?_, fun k' e he => ?_⟩
  · rw [hv]
    obtain ⟨e, he, h1, h2⟩ := h.builtin k' b hk
    split
    · rename_i e'; subst e'; rw [hd] at he; cases he
      exact ⟨d', rfl, hp.trans h1, hm.trans h2⟩
    · exact ⟨e, he, h1, h2⟩
  · rw [hv] at he
    split at he
    · rename_i e'; subst e'; cases he
      obtain ⟨s, h1, h2, h3⟩ := h.user _ d hk hd
      exact ⟨s, h1, hp.trans h2, hm.trans h3⟩
    · exact h.user k' e hk he
  · rw [hv] at he
    split at he
    · cases he; exact hs
    · exact h.sorted k' e he

theorem fillDrop_some {m : TraitMap} {k : Trait} {d : TraitData} (h : fillDrop m k = some d) :
    ∃ d0, m k = some d0 ∧ d.path = d0.path ∧ d.methods = d0.methods ∧
      (∀ x, x ∈ d.superTraits ↔ (x = .drop ∧ k ≠ .drop) ∨ x ∈ d0.superTraits) := by
  unfold fillDrop at h
  split at h
  · rename_i e; exact ⟨d, h, rfl, rfl, fun x => by simp [e]⟩
  · rename_i e
    rcases hm : m k with _ | d0
    · rw [hm] at h; cases h
    · rw [hm] at h; cases h
      exact ⟨d0, rfl, rfl, rfl, fun x => by rw [mem_insert]; simp [e]⟩

theorem fillDrop_isSome {m : TraitMap} {k : Trait} : (fillDrop m k).isSome = (m k).isSome := by
  unfold fillDrop; split <;> simp

theorem sane_fillDrop {m : TraitMap} (h : Sane m) : Sane (fillDrop m) := by
  refine ⟨fun k b hk => ?_, fun k d hk hd => ?_, fun k d hd => ?_⟩
  · obtain ⟨d, hd, h1, h2⟩ := h.builtin k b hk
    unfold fillDrop
    split
    · exact ⟨d, hd, h1, h2⟩
    · rw [hd]; exact ⟨_, rfl, h1, h2⟩
  · obtain ⟨d0, h0, h1, h2, -⟩ := fillDrop_some hd
    obtain ⟨s, a, b, c⟩ := h.user k d0 hk h0
    exact ⟨s, a, h1.trans b, h2.trans c⟩
  · unfold fillDrop at hd
    split at hd
    · exact h.sorted k d hd
    · rcases hm : m k with _ | d0
      · rw [hm] at hd; cases hd
      · rw [hm] at hd; cases hd; exact sorted_insert (h.sorted k d0 hm)

/-! ### Following supertraits -/

theorem mem_foldl_extend {x : Trait} {f : Trait → TSet} : ∀ {l : List Trait} {acc : TSet},
    x ∈ l.foldl (fun res s => TSet.extend res (f s)) acc ↔ x ∈ acc ∨ ∃ s ∈ l, x ∈ f s := by
  intro l
  induction l with
  | nil => simp
  | cons s l ih =>
    intro acc
    simp only [List.foldl_cons, ih, mem_extend, List.mem_cons]
    constructor
    · rintro ((h | h) | ⟨s', h1, h2⟩)
      · exact .inl h
      · exact .inr ⟨s, .inl rfl, h⟩
      · exact .inr ⟨s', .inr h1, h2⟩
    · rintro (h | ⟨s', rfl | h1, h2⟩)
      · exact .inl (.inl h)
      · exact .inl (.inr h2)
      · exact .inr ⟨s', h1, h2⟩

theorem foldlM_extend {f : Trait → TSet} {g : Trait → Option TSet} : ∀ {l : List Trait} {acc : TSet},
    (∀ s ∈ l, g s = some (f s)) →
    l.foldlM (fun res s => (g s).map fun c => TSet.extend res c) acc =
      some (l.foldl (fun res s => TSet.extend res (f s)) acc) := by
  intro l
  induction l with
  | nil => intros; rfl
  | cons s l ih =>
    intro acc h
    rw [List.foldlM_cons, h s (by simp)]
    exact ih fun s' hs' => h s' (by simp [hs'])

/-- Uniform fuel for finitely many traits. -/
theorem uniform_fuel {P : Trait → TSet → Prop} {m : TraitMap} : ∀ (l : List Trait),
    (∀ s ∈ l, ∃ N R, (∀ n ≥ N, unionChildren n m s = some R) ∧ P s R) →
    ∃ (N : Nat) (f : Trait → TSet), ∀ s ∈ l, (∀ n ≥ N, unionChildren n m s = some (f s)) ∧ P s (f s) := by
  intro l
  induction l with
  | nil => intro _; exact ⟨0, fun _ => [], by simp⟩
  | cons s l ih =>
    intro h
    obtain ⟨N1, R, h1, hP⟩ := h s (by simp)
    obtain ⟨N2, f, h2⟩ := ih fun s' hs' => h s' (by simp [hs'])
    refine ⟨max N1 N2, fun x => if x = s then R else f x, ?_⟩
    intro s' hs'
    by_cases e : s' = s
    · subst e
      simp only [if_pos]
      exact ⟨fun n hn => h1 n (by omega), hP⟩
    · simp only [if_neg e]
      rcases List.mem_cons.1 hs' with rfl | hs'
      · exact absurd rfl e
      · exact ⟨fun n hn => (h2 s' hs').1 n (by omega), (h2 s' hs').2⟩

/-- The entries lie between the declared supertraits and everything reachable. -/
def Between (E : Trait → Trait → Prop) (m : TraitMap) (k : Trait) : Prop :=
  match m k with
  | some d => (∀ s, E k s → s ∈ d.superTraits) ∧ (∀ s ∈ d.superTraits, TransGen E k s)
  | none => ∀ s, ¬ E k s

theorem no_reach {E : Trait → Trait → Prop} {k x : Trait} (h : ∀ s, ¬ E k s) : ¬ TransGen E k x := by
  intro hx
  rcases TransGen.head'_iff.1 hx with ⟨s, hs, -⟩
  exact h s hs

theorem unionChildren_spec {E : Trait → Trait → Prop} (wf : WellFounded fun b a => TransGen E a b)
    {m : TraitMap} {T : Trait} (hm : ∀ k, k ≠ T → Between E m k) (k : Trait) :
    k ≠ T → ¬ TransGen E k T →
    ∃ N R, (∀ n ≥ N, unionChildren n m k = some R) ∧ ∀ x, x ∈ R ↔ TransGen E k x := by
  induction k using wf.induction with
  | _ k ih =>
  intro hk hT
  have hb := hm k hk
  unfold Between at hb
  rcases hd : m k with _ | d
  · rw [hd] at hb
    refine ⟨1, [], fun n hn => ?_, fun x => ?_⟩
    · obtain ⟨n, rfl⟩ : ∃ j, n = j + 1 := ⟨n - 1, by omega⟩
      simp [unionChildren, hd]
    · simp only [List.not_mem_nil, false_iff]
      exact no_reach hb
  · rw [hd] at hb
    obtain ⟨h1, h2⟩ := hb
    obtain ⟨N, f, hf⟩ := uniform_fuel (m := m) (P := fun s R => ∀ x, x ∈ R ↔ TransGen E s x) d.superTraits (by
      intro s hs
      have hks := h2 s hs
      exact ih s hks (by rintro rfl; exact hT hks) (fun h => hT (hks.trans h)))
    refine ⟨N + 1, d.superTraits.foldl (fun res s => TSet.extend res (f s)) (TSet.ofList d.superTraits),
      fun n hn => ?_, fun x => ?_⟩
    · obtain ⟨n, rfl⟩ : ∃ j, n = j + 1 := ⟨n - 1, by omega⟩
      simp only [unionChildren, hd]
      exact foldlM_extend fun s hs => (hf s hs).1 n (by omega)
    · rw [mem_foldl_extend, mem_ofList]
      constructor
      · rintro (h | ⟨s, hs, h⟩)
        · exact h2 x h
        · exact (h2 s hs).trans (((hf s hs).2 x).1 h)
      · intro h
        rcases TransGen.head'_iff.1 h with ⟨s, hs, hsx⟩
        rcases reflTransGen_iff_eq_or_transGen.1 hsx with rfl | hsx
        · exact .inl (h1 _ hs)
        · exact .inr ⟨s, h1 s hs, ((hf s (h1 s hs)).2 x).2 hsx⟩

theorem mapM_parts {f : Trait → TSet} {g : Trait → Option TSet} : ∀ {l : List Trait}, (∀ s ∈ l, g s = some (f s)) →
    l.mapM (fun s => (g s).map fun c => c ++ [s]) = some (l.map fun s => f s ++ [s]) := by
  intro l
  induction l with
  | nil => intro _; rfl
  | cons s l ih =>
    intro h
    rw [List.mapM_cons, h s (by simp), ih fun s' hs' => h s' (by simp [hs'])]
    rfl

/-- Flattening one trait makes its entry exactly the reachable set and changes nothing else. -/
theorem flatten_spec {E : Trait → Trait → Prop} (wf : WellFounded fun b a => TransGen E a b)
    {m : TraitMap} (hm : ∀ k, Between E m k) (it : ItemTrait) {d : TraitData}
    (hd : m (Trait.ofIdent it.ident) = some d) :
    ∃ N s, (∀ n ≥ N, flattenInheritance n m it =
        some ((m.set (Trait.ofIdent it.ident) none).set (Trait.ofIdent it.ident) (some { d with superTraits := s }))) ∧
      Sorted s ∧ ∀ x, x ∈ s ↔ TransGen E (Trait.ofIdent it.ident) x := by
  set T := Trait.ofIdent it.ident with hTdef
  have hself : ∀ x, TransGen E x x → False := fun x h => by
    have := wf.apply x
    induction this with
    | intro x _ ih => exact ih x h h
  have hb := hm T
  unfold Between at hb
  rw [hd] at hb
  obtain ⟨h1, h2⟩ := hb
  have hm' : ∀ k, k ≠ T → Between E (m.set T none) k := by
    intro k hk
    have := hm k
    unfold Between at this ⊢
    simpa only [TraitMap.set, if_neg hk] using this
  obtain ⟨N, f, hf⟩ := uniform_fuel (m := m.set T none) (P := fun s R => ∀ x, x ∈ R ↔ TransGen E s x) d.superTraits (by
    intro s hs
    have hks := h2 s hs
    exact unionChildren_spec wf hm' s (by rintro rfl; exact hself _ hks) (fun h => hself _ (hks.trans h)))
  refine ⟨N, TSet.ofList (d.superTraits.map fun s => f s ++ [s]).flatten, fun n hn => ?_, sorted_ofList _, fun x => ?_⟩
  · unfold flattenInheritance
    simp only [← hTdef, hd]
    rw [mapM_parts fun s hs => (hf s hs).1 n hn]
    rfl
  · rw [mem_ofList]
    simp only [List.mem_flatten, List.mem_map]
    constructor
    · rintro ⟨l, ⟨s, hs, rfl⟩, hx⟩
      rcases List.mem_append.1 hx with hx | hx
      · exact (h2 s hs).trans (((hf s hs).2 x).1 hx)
      · simp only [List.mem_singleton] at hx; subst hx; exact h2 x hs
    · intro h
      rcases TransGen.head'_iff.1 h with ⟨s, hs, hsx⟩
      refine ⟨_, ⟨s, h1 s hs, rfl⟩, ?_⟩
      rcases reflTransGen_iff_eq_or_transGen.1 hsx with rfl | hsx
      · simp
      · simp [((hf s (h1 s hs)).2 x).2 hsx]

/-- Flattening a list of traits. -/
theorem foldlM_flatten_spec {E : Trait → Trait → Prop} (wf : WellFounded fun b a => TransGen E a b) :
    ∀ (items : List ItemTrait) {m : TraitMap}, (∀ k, Between E m k) → Sane m →
      (∀ it ∈ items, (m (Trait.ofIdent it.ident)).isSome) →
      ∃ N m', (∀ n ≥ N, items.foldlM (flattenInheritance n) m = some m') ∧ Sane m' ∧ (∀ k, Between E m' k) ∧
        (∀ k, (m' k).isSome = (m k).isSome) ∧
        (∀ k d, m' k = some d → (∃ it ∈ items, Trait.ofIdent it.ident = k) → ∀ x, x ∈ d.superTraits ↔ TransGen E k x) ∧
        (∀ k d, m k = some d → (∀ x, x ∈ d.superTraits ↔ TransGen E k x) →
          ∃ d', m' k = some d' ∧ ∀ x, x ∈ d'.superTraits ↔ TransGen E k x) := by
  intro items
  induction items with
  | nil =>
    intro m hm hs _
    exact ⟨0, m, fun _ _ => rfl, hs, hm, fun _ => rfl, fun k d _ h => by simp at h, fun k d hd h => ⟨d, hd, h⟩⟩
  | cons it items ih =>
    intro m hm hs hdom
    have := hdom it (by simp)
    rcases hd : m (Trait.ofIdent it.ident) with _ | d
    · rw [hd] at this; cases this
    obtain ⟨N1, s, hf, hsort, hex⟩ := flatten_spec wf hm it hd
    set T := Trait.ofIdent it.ident with hT
    set m1 := (m.set T none).set T (some { d with superTraits := s }) with hm1
    have hv : ∀ k, m1 k = if k = T then some { d with superTraits := s } else m k := by
      intro k; simp only [hm1, TraitMap.set]; split <;> rfl
    have hsome : ∀ k, (m1 k).isSome = (m k).isSome := by
      intro k; rw [hv]; split
      · rename_i e; subst e; rw [hd]; rfl
      · rfl
    have hbt : ∀ k, Between E m1 k := by
      intro k
      unfold Between
      rw [hv]
      split
      · rename_i e
        split at e
        · rename_i e'; subst e'; cases e
          exact ⟨fun s' hs' => (hex s').2 (.single hs'), fun s' hs' => (hex s').1 hs'⟩
        · have := hm k; unfold Between at this; rw [e] at this; exact this
      · rename_i e
        split at e
        · cases e
        · have := hm k; unfold Between at this; rw [e] at this; exact this
    obtain ⟨N2, m', hfold, hs', hb', hsome', hall, hkeep⟩ := ih hbt (sane_update hs hd rfl rfl hsort)
      (fun it' h' => by rw [hsome]; exact hdom it' (by simp [h']))
    refine ⟨max N1 N2, m', fun n hn => ?_, hs', hb', fun k => (hsome' k).trans (hsome k), ?_, ?_⟩
    · rw [List.foldlM_cons, hf n (by omega)]
      exact hfold n (by omega)
    · rintro k d' hd' ⟨it', hit', rfl⟩
      rcases List.mem_cons.1 hit' with rfl | hit'
      · obtain ⟨d'', e1, e2⟩ := hkeep T { d with superTraits := s } (by rw [hv, if_pos rfl]) hex
        rw [hd'] at e1; cases e1; exact e2
      · exact hall _ d' hd' ⟨it', hit', rfl⟩
    · intro k d' hd' hex'
      by_cases e : k = T
      · subst e
        exact hkeep T { d with superTraits := s } (by rw [hv, if_pos rfl]) hex
      · exact hkeep k d' (by rw [hv, if_neg e]; exact hd') hex'

end Dync.Derive
