import Verif.DeriveLemmas
import Mathlib.Data.Fintype.Order
/-!
# What the generated tables contain
-/
namespace Dync.Derive
open Relation

/-! ### Specification -/

/-- The functions of the supported std traits: accessor and the function it has to return, for an
element type `T`. -/
def stdFns : Trait → List (String × BytesFn)
  | .drop => [("drop_fn", ⟨⟨true, "DropBytes"⟩, "drop_bytes"⟩)]
  | .clone => [("clone_fn", ⟨⟨true, "CloneBytes"⟩, "clone_bytes"⟩),
      ("clone_from_fn", ⟨⟨true, "CloneBytes"⟩, "clone_from_bytes"⟩),
      ("clone_into_raw_fn", ⟨⟨true, "CloneBytes"⟩, "clone_into_raw_bytes"⟩)]
  | .partialEq => [("eq_fn", ⟨⟨true, "PartialEqBytes"⟩, "eq_bytes"⟩)]
  | .hash => [("hash_fn", ⟨⟨true, "HashBytes"⟩, "hash_bytes"⟩)]
  | .debug => [("fmt_fn", ⟨⟨true, "DebugBytes"⟩, "fmt_bytes"⟩)]
  | .eq | .send | .sync | .custom _ => []

/-- `it` names `k` among its supertraits. -/
def Declares (it : ItemTrait) (k : Trait) : Prop := ∃ b ∈ it.supertraits, resolveBound b = some k

/-- The key under which a user trait is known. -/
abbrev key (it : ItemTrait) : Trait := Trait.ofIdent it.ident

/-- One step of inheritance in a module. -/
def Edge (items : List ItemTrait) (a b : Trait) : Prop :=
  (∃ it ∈ items, key it = a ∧ Declares it b) ∨ (a = .eq ∧ b = .partialEq)

/-- Everything a trait inherits from, and `drop`. -/
def Inherits (items : List ItemTrait) (a b : Trait) : Prop := b = .drop ∨ TransGen (Edge items) a b

/-- No user trait of the module is called like a supported std trait. -/
def NoShadow (items : List ItemTrait) : Prop := ∀ it ∈ items, builtins (key it) = none

/-- No trait inherits from itself. -/
def Acyclic (items : List ItemTrait) : Prop := ∀ a, ¬ TransGen (Edge items) a a

/-! ### Slots -/

theorem stdFns_fun {k k' : Trait} {f : String} {g g' : BytesFn} (h : (f, g) ∈ stdFns k) (h' : (f, g') ∈ stdFns k') :
    g = g' := by
  cases k <;> cases k' <;> simp [stdFns] at h h' <;> grind

/-- Accessor name and function contributed by an entry. -/
def pairsOf (m : TraitMap) (k : Trait) : List (String × Name × BytesFn) :=
  match m k with
  | none => []
  | some d => d.methods.map fun f => (hasFn f, ⟨k.isBuiltin, fnType f⟩, ⟨⟨k.isBuiltin, d.bytesTrait⟩, bytesFn f⟩)

theorem buildOf_eq (m : TraitMap) (k : Trait) : buildOf m k = (pairsOf m k).map (·.2.2) := by
  unfold buildOf pairsOf; cases m k <;> simp

theorem fieldsOf_eq (m : TraitMap) (k : Trait) : fieldsOf m k = (pairsOf m k).map (·.2.1) := by
  unfold fieldsOf pairsOf; cases m k <;> simp

theorem accessorsOf_eq (k : Trait) (d : TraitData) : ∀ (fs : List String) (idx : Nat),
    accessorsOf k idx fs =
      ((fs.map fun f => (hasFn f, (⟨k.isBuiltin, fnType f⟩ : Name), (⟨⟨k.isBuiltin, d.bytesTrait⟩, bytesFn f⟩ : BytesFn))).zipIdx
        idx).map fun p => ⟨p.1.1, p.1.2.1, p.2⟩ := by
  intro fs
  induction fs with
  | nil => intro _; rfl
  | cons f fs ih => intro idx; simp [accessorsOf, ih (idx + 1)]

theorem hasImplsOf_methods (m : TraitMap) : ∀ (ks : List Trait) (idx : Nat),
    (hasImplsOf m idx ks).flatMap HasImpl.methods =
      ((ks.flatMap (pairsOf m)).zipIdx idx).map fun p => ⟨p.1.1, p.1.2.1, p.2⟩ := by
  intro ks
  induction ks with
  | nil => intro _; rfl
  | cons k ks ih =>
    intro idx
    simp only [hasImplsOf, List.flatMap_cons, List.zipIdx_append, List.map_append]
    rcases hd : m k with _ | d
    · simp only [pairsOf, hd]
      simpa using ih idx
    · simp only [List.flatMap_cons, ih, accessorsOf_eq k d]
      simp [pairsOf, hd]

theorem find_zipIdx {α β : Type} (q : α → Bool) (g : α → β) : ∀ (L : List α) (pre : List β),
    (match (L.zipIdx pre.length).find? fun p => q p.1 with
      | some p => (pre ++ L.map g)[p.2]?
      | none => none) = (L.find? q).map g := by
  intro L
  induction L with
  | nil => intro pre; rfl
  | cons x L ih =>
    intro pre
    simp only [List.zipIdx_cons, List.find?_cons, List.map_cons]
    rcases hq : q x
    · have := ih (pre ++ [g x])
      simp only [List.length_append, List.length_singleton, List.append_assoc, List.singleton_append] at this
      exact this
    · simp

/-- A call of an accessor finds the first slot with that name. -/
theorem call_eq {m : TraitMap} {it : ItemTrait} {d : TraitData} {o : Output} (hd : m (key it) = some d)
    (ho : construct m it = some o) (f : String) :
    o.call o.build f = ((d.superTraits.flatMap (pairsOf m)).find? fun p => p.1 == f).map (·.2.2) := by
  unfold construct at ho
  simp only [hd] at ho
  cases ho
  unfold Output.call
  simp only [hasImplsOf_methods]
  rw [List.find?_map]
  have hb : d.superTraits.flatMap (buildOf m) = (d.superTraits.flatMap (pairsOf m)).map (·.2.2) := by
    rw [List.map_flatMap]; congr 1; funext k; exact buildOf_eq m k
  rw [hb]
  have := find_zipIdx (fun p : String × Name × BytesFn => p.1 == f) (·.2.2) (d.superTraits.flatMap (pairsOf m)) []
  simp only [List.length_nil, List.nil_append] at this
  rw [← this]
  have hc : ((fun a : Accessor => a.name == f) ∘ fun p : (String × Name × BytesFn) × Nat => (⟨p.1.1, p.1.2.1, p.2⟩ : Accessor))
      = fun p => p.1.1 == f := rfl
  rw [hc]
  cases List.find? (fun p : (String × Name × BytesFn) × Nat => p.1.1 == f)
    ((List.flatMap (pairsOf m) d.superTraits).zipIdx) <;> rfl

theorem pairsOf_eq {m : TraitMap} (h : Sane m) (k : Trait) :
    (pairsOf m k).map (fun p => (p.1, p.2.2)) = stdFns k := by
  rcases hb : builtins k with _ | b
  · rcases hd : m k with _ | d
    · cases k <;> simp_all [pairsOf, stdFns, builtins]
    · obtain ⟨s, rfl, -, hm⟩ := h.user k d hb hd
      simp [pairsOf, hd, hm, stdFns]
  · obtain ⟨d, hd, hp, hm⟩ := h.builtin k b hb
    cases k <;> simp [builtins] at hb <;> subst hb <;>
      simp [pairsOf, hd, hm, hp, stdFns, hasFn, bytesFn, Trait.isBuiltin, builtins, TraitData.bytesTrait, TraitData.name]

theorem find_pairs {L : List (String × Name × BytesFn)} {f : String} :
    (L.find? fun p => p.1 == f).map (·.2.2) =
      ((L.map fun p => (p.1, p.2.2)).find? fun p => p.1 == f).map (·.2) := by
  rw [List.find?_map]
  have hc : ((fun p : String × BytesFn => p.1 == f) ∘ fun p : String × Name × BytesFn => (p.1, p.2.2)) = fun p => p.1 == f := rfl
  rw [hc]
  cases L.find? (fun p => p.1 == f) <;> rfl

/-- The accessors available in a generated table, and what they return. -/
theorem call_iff {m : TraitMap} (h : Sane m) {it : ItemTrait} {d : TraitData} {o : Output} (hd : m (key it) = some d)
    (ho : construct m it = some o) (f : String) (g : BytesFn) :
    o.call o.build f = some g ↔ ∃ k ∈ d.superTraits, (f, g) ∈ stdFns k := by
  rw [call_eq hd ho, find_pairs, List.map_flatMap]
  simp only [pairsOf_eq h]
  rw [Option.map_eq_some_iff]
  constructor
  · rintro ⟨⟨f', g'⟩, hf, rfl⟩
    have h1 := List.find?_some hf
    have h2 := List.mem_of_find?_eq_some hf
    simp only [beq_iff_eq] at h1
    subst h1
    simpa [List.mem_flatMap] using h2
  · rintro ⟨k, hk, hfg⟩
    rcases hf : (d.superTraits.flatMap stdFns).find? fun p => p.1 == f with _ | ⟨f', g'⟩
    · rw [List.find?_eq_none] at hf
      exact absurd (hf (f, g) (List.mem_flatMap.2 ⟨k, hk, hfg⟩)) (by simp)
    · have h1 := List.find?_some hf
      have h2 := List.mem_of_find?_eq_some hf
      simp only [beq_iff_eq] at h1
      subst h1
      obtain ⟨k', -, h3⟩ := List.mem_flatMap.1 h2
      exact ⟨(f', g'), hf, stdFns_fun h3 hfg⟩

theorem build_eq {m : TraitMap} (h : Sane m) {it : ItemTrait} {d : TraitData} {o : Output} (hd : m (key it) = some d)
    (ho : construct m it = some o) : o.build = (d.superTraits.flatMap stdFns).map (·.2) := by
  unfold construct at ho
  simp only [hd] at ho
  cases ho
  simp only [List.map_flatMap, ← pairsOf_eq h]
  congr 1; funext k
  rw [buildOf_eq]; simp

theorem methods_names {m : TraitMap} (h : Sane m) (k : Trait) :
    (match m k with | none => [] | some ds => ds.methods.map hasFn) = (stdFns k).map (·.1) := by
  rw [← pairsOf_eq h]
  unfold pairsOf
  cases m k <;> simp

theorem convExprs_eq {m : TraitMap} (h : Sane m) {k : Trait} {d : TraitData} (hd : m k = some d) :
    convExprs m d = ((d.superTraits.flatMap stdFns) ++ stdFns k).map (·.1) := by
  unfold convExprs
  rw [List.map_append, List.map_flatMap]
  congr 1
  · congr 1; funext s; exact methods_names h s
  · have := methods_names h k
    simpa only [hd] using this

theorem mapM_call {o : Output} {vt : List BytesFn} : ∀ {ps : List (String × BytesFn)},
    (∀ p ∈ ps, o.call vt p.1 = some p.2) → (ps.map (·.1)).mapM (o.call vt) = some (ps.map (·.2)) := by
  intro ps
  induction ps with
  | nil => intro _; rfl
  | cons p ps ih =>
    intro h
    simp only [List.map_cons, List.mapM_cons]
    rw [h p (by simp), ih fun q hq => h q (by simp [hq])]
    rfl

theorem mapM_call_none {o : Output} {vt : List BytesFn} : ∀ {fs : List String} {f : String}, f ∈ fs →
    o.call vt f = none → fs.mapM (o.call vt) = none := by
  intro fs
  induction fs with
  | nil => intro f h; cases h
  | cons x fs ih =>
    intro f hf hn
    rw [List.mapM_cons]
    rcases List.mem_cons.1 hf with rfl | hf
    · rw [hn]; rfl
    · rw [ih hf hn]
      cases o.call vt x <;> rfl

/-- A conversion whose accessors are all available gives the listed functions. -/
theorem convert_eq {m : TraitMap} (h : Sane m) {it : ItemTrait} {d : TraitData} {o : Output} (hd : m (key it) = some d)
    (ho : construct m it = some o) {k : Trait} {dk : TraitData} (hk : m k = some dk) (hmem : k ∈ d.superTraits)
    (hsub : ∀ s ∈ dk.superTraits, stdFns s ≠ [] → s ∈ d.superTraits) :
    o.convert ⟨⟨k.isBuiltin, dk.vtableName⟩, convExprs m dk⟩ o.build =
      some (((dk.superTraits.flatMap stdFns) ++ stdFns k).map (·.2)) := by
  unfold Output.convert
  simp only [convExprs_eq h hk]
  apply mapM_call
  rintro ⟨f, g⟩ hp
  rw [call_iff h hd ho]
  rcases List.mem_append.1 hp with hp | hp
  · obtain ⟨s, hs, hfg⟩ := List.mem_flatMap.1 hp
    exact ⟨s, hsub s hs (by intro e; rw [e] at hfg; cases hfg), hfg⟩
  · exact ⟨k, hmem, hp⟩

theorem convs_mem {m : TraitMap} {it : ItemTrait} {d : TraitData} {o : Output} (hd : m (key it) = some d)
    (ho : construct m it = some o) {c : Conv} :
    c ∈ o.convs ↔ ∃ k ∈ d.superTraits, ∃ dk, m k = some dk ∧ c = ⟨⟨k.isBuiltin, dk.vtableName⟩, convExprs m dk⟩ := by
  unfold construct at ho
  simp only [hd] at ho
  cases ho
  simp only [List.mem_filterMap, convOf, Option.map_eq_some_iff]
  constructor
  · rintro ⟨k, hk, dk, h1, rfl⟩; exact ⟨k, hk, dk, h1, rfl⟩
  · rintro ⟨k, hk, dk, h1, rfl⟩; exact ⟨k, hk, dk, h1, rfl⟩

/-- Every accessor has the type of the field it returns. -/
theorem accessor_types {m : TraitMap} {it : ItemTrait} {d : TraitData} {o : Output} (hd : m (key it) = some d)
    (ho : construct m it = some o) {i : HasImpl} (hi : i ∈ o.hasImpls) {a : Accessor} (ha : a ∈ i.methods) :
    o.fields[a.idx]? = some a.ret := by
  have hmem : a ∈ o.hasImpls.flatMap HasImpl.methods := List.mem_flatMap.2 ⟨i, hi, ha⟩
  unfold construct at ho
  simp only [hd] at ho
  cases ho
  simp only [hasImplsOf_methods] at hmem
  obtain ⟨⟨p, j⟩, hp, rfl⟩ := List.mem_map.1 hmem
  have hf : d.superTraits.flatMap (fieldsOf m) = (d.superTraits.flatMap (pairsOf m)).map (·.2.1) := by
    rw [List.map_flatMap]; congr 1; funext k; exact fieldsOf_eq m k
  simp only [hf, List.getElem?_map]
  have := List.mem_zipIdx hp
  simp only [Nat.zero_add, Nat.sub_zero] at this
  obtain ⟨-, h1, h2⟩ := this
  rw [List.getElem?_eq_getElem h1, ← h2]
  rfl

/-! ### The maps of a module -/

theorem fill_get {m : TraitMap} {it : ItemTrait} (h : m (key it) = none) (k : Trait) :
    fillTraitMap m it k = if k = key it then some ⟨[it.ident], [], TSet.ofList (it.supertraits.filterMap resolveBound)⟩ else m k := by
  unfold fillTraitMap
  simp only [h]
  rfl

theorem foldl_fill_get : ∀ {items : List ItemTrait} {m : TraitMap}, (∀ it ∈ items, m (key it) = none) →
    (items.map key).Nodup →
    (∀ it ∈ items, items.foldl fillTraitMap m (key it) =
      some ⟨[it.ident], [], TSet.ofList (it.supertraits.filterMap resolveBound)⟩) ∧
    (∀ k, k ∉ items.map key → items.foldl fillTraitMap m k = m k) := by
  intro items
  induction items with
  | nil => intro m _ _; exact ⟨by simp, fun _ _ => rfl⟩
  | cons it items ih =>
    intro m hm hn
    simp only [List.map_cons, List.nodup_cons] at hn
    have h0 := hm it (by simp)
    have hstep : ∀ it' ∈ items, fillTraitMap m it (key it') = none := by
      intro it' h'
      rw [fill_get h0, if_neg]
      · exact hm it' (by simp [h'])
      · intro e; exact hn.1 (List.mem_map.2 ⟨it', h', e⟩)
    obtain ⟨h1, h2⟩ := ih hstep hn.2
    refine ⟨?_, ?_⟩
    · intro it' h'
      rcases List.mem_cons.1 h' with rfl | h'
      · rw [List.foldl_cons, h2 _ hn.1, fill_get h0, if_pos rfl]
      · exact h1 it' h'
    · intro k hk
      simp only [List.map_cons, List.mem_cons, not_or] at hk
      rw [List.foldl_cons, h2 k hk.2, fill_get h0, if_neg hk.1]

theorem mem_declared {it : ItemTrait} {k : Trait} :
    k ∈ TSet.ofList (it.supertraits.filterMap resolveBound) ↔ Declares it k := by
  rw [mem_ofList, List.mem_filterMap]; rfl

theorem edge_builtin {items : List ItemTrait} (hns : NoShadow items) {k s : Trait} (hb : (builtins k).isSome)
    (h : Edge items k s) : k = .eq ∧ s = .partialEq := by
  rcases h with ⟨it, hit, rfl, -⟩ | h
  · rw [hns it hit] at hb; cases hb
  · exact h

theorem edge_wf {items : List ItemTrait} (hac : Acyclic items) :
    WellFounded fun b a => TransGen (Edge items) a b := by
  let A : List Trait := Trait.eq :: items.map key
  have hdom : ∀ a b, Edge items a b → a ∈ A := by
    rintro a b (⟨it, hit, rfl, -⟩ | ⟨rfl, -⟩)
    · exact List.mem_cons_of_mem _ (List.mem_map.2 ⟨it, hit, rfl⟩)
    · exact List.mem_cons_self
  let r' : {a // a ∈ A} → {a // a ∈ A} → Prop := fun b a => TransGen (Edge items) a.1 b.1
  have : Std.Irrefl r' := ⟨fun a h => hac a.1 h⟩
  have : IsTrans _ r' := ⟨fun a b c h1 h2 => h2.trans h1⟩
  have hfin : WellFounded r' := Finite.wellFounded_of_trans_of_irrefl r'
  have hleaf : ∀ a, a ∉ A → Acc (fun b a => TransGen (Edge items) a b) a := by
    intro a ha
    refine ⟨a, fun b hb => ?_⟩
    rcases TransGen.head'_iff.1 hb with ⟨s, hs, -⟩
    exact absurd (hdom _ _ hs) ha
  have hin : ∀ a : {a // a ∈ A}, Acc (fun b a => TransGen (Edge items) a b) a.1 := by
    intro a
    induction a using hfin.induction with
    | _ a ih =>
      refine ⟨a.1, fun b hb => ?_⟩
      by_cases hbA : b ∈ A
      · exact ih ⟨b, hbA⟩ hb
      · exact hleaf b hbA
  refine ⟨fun a => ?_⟩
  by_cases ha : a ∈ A
  · exact hin ⟨a, ha⟩
  · exact hleaf a ha

theorem initial_between {items : List ItemTrait} (hns : NoShadow items) (hnd : (items.map key).Nodup) (k : Trait) :
    Between (Edge items) (items.foldl fillTraitMap builtins) k := by
  obtain ⟨h1, h2⟩ := foldl_fill_get (m := builtins) hns hnd
  unfold Between
  by_cases hk : k ∈ items.map key
  · obtain ⟨it, hit, rfl⟩ := List.mem_map.1 hk
    rw [h1 it hit]
    refine ⟨fun s hs => ?_, fun s hs => ?_⟩
    · simp only [mem_declared]
      rcases hs with ⟨it', hit', he, hd⟩ | ⟨he, -⟩
      · have : it' = it := List.inj_on_of_nodup_map hnd hit' hit he
        subst this; exact hd
      · have := hns it hit
        rw [he] at this; cases this
    · exact .single (.inl ⟨it, hit, rfl, mem_declared.1 hs⟩)
  · rw [h2 k hk]
    rcases hb : builtins k with _ | b
    · intro s hs
      rcases hs with ⟨it, hit, rfl, -⟩ | ⟨rfl, -⟩
      · exact hk (List.mem_map.2 ⟨it, hit, rfl⟩)
      · cases hb
    · refine ⟨fun s hs => ?_, fun s hs => ?_⟩
      · obtain ⟨rfl, rfl⟩ := edge_builtin hns (by rw [hb]; rfl) hs
        cases hb; simp
      · cases k <;> simp [builtins] at hb <;> subst hb <;> simp at hs
        subst hs; exact .single (.inr ⟨rfl, rfl⟩)

theorem builtin_exact {items : List ItemTrait} (hns : NoShadow items) {k : Trait} {b : TraitData}
    (hb : builtins k = some b) (x : Trait) : x ∈ b.superTraits ↔ TransGen (Edge items) k x := by
  constructor
  · intro hx
    cases k <;> simp [builtins] at hb <;> subst hb <;> simp at hx
    subst hx; exact .single (.inr ⟨rfl, rfl⟩)
  · intro h
    rcases TransGen.head'_iff.1 h with ⟨s, hs, hsx⟩
    obtain ⟨rfl, rfl⟩ := edge_builtin hns (by rw [hb]; rfl) hs
    cases hb
    rcases reflTransGen_iff_eq_or_transGen.1 hsx with rfl | hsx
    · simp
    · rcases TransGen.head'_iff.1 hsx with ⟨s, hs, -⟩
      have := (edge_builtin hns (k := .partialEq) rfl hs).1
      cases this

/-- The map computed for a module: entries for the std traits and the traits of the module, each with
exactly the traits reachable from it. -/
theorem module_map {items : List ItemTrait} (hns : NoShadow items) (hnd : (items.map key).Nodup) (hac : Acyclic items) :
    ∃ N m, (∀ n ≥ N, fillAndFlatten n items = some m) ∧ Sane m ∧
      (∀ k, (m k).isSome = true ↔ (builtins k).isSome = true ∨ k ∈ items.map key) ∧
      (∀ k d, m k = some d → ∀ x, x ∈ d.superTraits ↔ TransGen (Edge items) k x) := by
  have hwf := edge_wf hac
  obtain ⟨h1, h2⟩ := foldl_fill_get (m := builtins) hns hnd
  obtain ⟨N, m, hfold, hs, -, hsome, hall, hkeep⟩ := foldlM_flatten_spec hwf items
    (m := items.foldl fillTraitMap builtins) (initial_between hns hnd) (sane_foldl_fill items sane_builtins)
    (fun it hit => by rw [h1 it hit]; rfl)
  have hdom : ∀ k, (m k).isSome = true ↔ (builtins k).isSome = true ∨ k ∈ items.map key := by
    intro k
    rw [hsome]
    by_cases hk : k ∈ items.map key
    · obtain ⟨it, hit, rfl⟩ := List.mem_map.1 hk
      rw [h1 it hit]; simp [hk]
    · rw [h2 k hk]; simp [hk]
  refine ⟨N, m, hfold, hs, hdom, ?_⟩
  intro k d hd
  by_cases hk : k ∈ items.map key
  · obtain ⟨it, hit, rfl⟩ := List.mem_map.1 hk
    exact hall _ d hd ⟨it, hit, rfl⟩
  · have hb := (hdom k).1 (by rw [hd]; rfl)
    rcases hb with hb | hb
    · obtain ⟨b, hb⟩ := Option.isSome_iff_exists.1 hb
      obtain ⟨d', hd', hx⟩ := hkeep k b (by rw [h2 k hk]; exact hb) (builtin_exact hns hb)
      rw [hd] at hd'; cases hd'; exact hx
    · exact absurd hb hk

/-- The final map of a module. -/
theorem final_supers {items : List ItemTrait} {m : TraitMap}
    (hex : ∀ k d, m k = some d → ∀ x, x ∈ d.superTraits ↔ TransGen (Edge items) k x) {k : Trait} {d : TraitData}
    (hd : fillDrop m k = some d) (x : Trait) :
    x ∈ d.superTraits ↔ (x = .drop ∧ k ≠ .drop) ∨ TransGen (Edge items) k x := by
  obtain ⟨d0, h0, -, -, hx⟩ := fillDrop_some hd
  rw [hx, hex k d0 h0]

theorem mapM_construct {m : TraitMap} : ∀ {items : List ItemTrait}, (∀ it ∈ items, (m (key it)).isSome = true) →
    ∃ F : ItemTrait → Output, items.mapM (construct m) = some (items.map F) ∧ ∀ it ∈ items, construct m it = some (F it) := by
  intro items h
  refine ⟨fun it => (construct m it).getD ⟨"", [], [], "", [], [], []⟩, ?_⟩
  have h2 : ∀ it ∈ items, construct m it = some ((construct m it).getD ⟨"", [], [], "", [], [], []⟩) := by
    intro it hit
    have := h it hit
    obtain ⟨d, hd⟩ := Option.isSome_iff_exists.1 this
    unfold construct
    simp only [hd, Option.getD_some]
  refine ⟨?_, h2⟩
  clear h
  induction items with
  | nil => rfl
  | cons it items ih =>
    rw [List.mapM_cons, h2 it (by simp)]
    simp only [List.map_cons]
    rw [ih fun it' h' => h2 it' (by simp [h'])]
    simp

end Dync.Derive
