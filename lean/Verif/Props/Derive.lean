import Verif.DeriveLemmas2
/-!
# Properties of the derive macros
-/
namespace Dync
open Derive Relation

/-! ### Specification: what the user wrote -/

/-- How a std trait has to be written for the macros to recognise it. -/
def spelling : Trait → List String
  | .drop => ["Drop"] | .clone => ["Clone"] | .partialEq => ["PartialEq"] | .eq => ["Eq"]
  | .hash => ["std", "hash", "Hash"] | .debug => ["std", "fmt", "Debug"]
  | .send => ["Send"] | .sync => ["Sync"] | .custom s => [s]

/-- The names of the std traits. -/
def stdNames : List String := ["Drop", "Clone", "PartialEq", "Eq", "Hash", "Debug", "Send", "Sync"]

/-- `trait it: … + k + …`, spelled in the supported way. -/
def Writes (it : ItemTrait) (k : Trait) : Prop := Bound.trait false false (plain (spelling k)) ∈ it.supertraits

instance (it : ItemTrait) (k : Trait) : Decidable (Writes it k) := by unfold Writes; infer_instance

/-- One step of inheritance between the traits of a module and the std traits. -/
def Sup (items : List ItemTrait) (a b : Trait) : Prop :=
  (∃ it ∈ items, a = .custom it.ident ∧ Writes it b ∧ ∀ s, b = .custom s → ∃ it' ∈ items, it'.ident = s) ∨
    (a = .eq ∧ b = .partialEq)

/-- The names of the traits are identifiers and not the names of std traits. -/
def GoodName (s : String) : Prop := s ∉ stdNames ∧ s ≠ "" ∧ ' ' ∉ s.toList

/-- A module of traits that Rust accepts: distinct names, no cycles. -/
structure GoodMod (items : List ItemTrait) : Prop where
  names : ∀ it ∈ items, GoodName it.ident
  distinct : (items.map ItemTrait.ident).Nodup
  acyclic : ∀ a, ¬ TransGen (Sup items) a a

/-! ### Auxiliary -/

theorem key_good {it : ItemTrait} (h : GoodName it.ident) : key it = .custom it.ident := by
  have h := h.1
  simp only [stdNames, List.mem_cons, List.not_mem_nil, not_or, or_false] at h
  simp [key, Trait.ofIdent, h]

theorem space_tokens {p : Path} {s : String} (hs : ' ' ∉ s.toList) (h0 : s ≠ "") (h : p.tokens = s) :
    p.leadingColon = false ∧ ∃ x, p.segs = [x] ∧ x.ident = s := by
  obtain ⟨l, segs⟩ := p
  subst h
  cases l
  · rcases segs with _ | ⟨x, _ | ⟨y, l⟩⟩
    · exact absurd rfl h0
    · refine ⟨rfl, x, rfl, ?_⟩
      simp [Path.tokens]
    · exact absurd (by simp [Path.tokens, String.intercalate_cons_cons]) hs
  · exact absurd (by simp [Path.tokens]) hs


theorem ofPath_std {p : Path} {k : Trait} (hk : ∀ s, k ≠ .custom s) :
    Trait.ofPath p = k ↔ p = plain (spelling k) := by
  unfold Trait.ofPath
  constructor
  · intro h
    split_ifs at h <;> first | (subst h; assumption) | exact absurd h.symm (hk _)
  · rintro rfl
    cases k <;> first | rfl | exact absurd rfl (hk _)

theorem ofPath_user {p : Path} {s : String} (hs : GoodName s) (hargs : p.segs.all fun s => !s.hasArgs) :
    Trait.ofPath p = .custom s ↔ p = plain [s] := by
  constructor
  · intro h
    unfold Trait.ofPath at h
    split_ifs at h
    injection h with h
    obtain ⟨h1, x, h2, h3⟩ := space_tokens hs.2.2 hs.2.1 h
    obtain ⟨l, segs⟩ := p
    obtain ⟨xi, xa⟩ := x
    simp only at h1 h2 h3
    subst h1 h2 h3
    simp at hargs
    simp [plain, hargs]
  · rintro rfl
    have h := hs.1
    simp only [stdNames, List.mem_cons, List.not_mem_nil, not_or, or_false] at h
    simp [Trait.ofPath, plain, h, Path.tokens]

theorem resolve_std {b : Bound} {k : Trait} (hk : ∀ s, k ≠ .custom s) :
    resolveBound b = some k ↔ b = .trait false false (plain (spelling k)) := by
  rcases b with ⟨l, q, p⟩ | _
  · simp only [resolveBound]
    constructor
    · intro h
      split_ifs at h with h1 h2
      simp only [Bool.or_eq_true, not_or, Bool.not_eq_true] at h1
      rw [Option.some_inj, ofPath_std hk] at h
      rw [h1.1, h1.2, h]
    · rintro h
      cases h
      have : (plain (spelling k)).segs.all (fun s => !s.hasArgs) = true := by
        simp [plain]
      simp only [Bool.or_self, Bool.false_eq_true, if_false]
      rw [if_pos this, (ofPath_std hk).2 rfl]
  · simp [resolveBound]

theorem resolve_user {b : Bound} {s : String} (hs : GoodName s) :
    resolveBound b = some (.custom s) ↔ b = .trait false false (plain [s]) := by
  rcases b with ⟨l, q, p⟩ | _
  · simp only [resolveBound]
    constructor
    · intro h
      split_ifs at h with h1 h2
      simp only [Bool.or_eq_true, not_or, Bool.not_eq_true] at h1
      rw [Option.some_inj, ofPath_user hs h2] at h
      rw [h1.1, h1.2, h]
    · rintro h
      cases h
      have : (plain [s]).segs.all (fun s => !s.hasArgs) = true := by
        simp [plain]
      simp only [Bool.or_self, Bool.false_eq_true, if_false]
      rw [if_pos this, (ofPath_user hs this).2 rfl]
  · simp [resolveBound]

theorem declares_std {it : ItemTrait} {k : Trait} (hk : ∀ s, k ≠ .custom s) : Declares it k ↔ Writes it k := by
  unfold Declares Writes
  constructor
  · rintro ⟨b, hb, h⟩
    rw [resolve_std hk] at h
    rwa [← h]
  · intro h; exact ⟨_, h, (resolve_std hk).2 rfl⟩

theorem declares_user {it : ItemTrait} {s : String} (hs : GoodName s) : Declares it (.custom s) ↔ Writes it (.custom s) := by
  unfold Declares Writes
  constructor
  · rintro ⟨b, hb, h⟩
    rw [resolve_user hs] at h
    rw [h] at hb; exact hb
  · intro h; exact ⟨_, h, (resolve_user hs).2 rfl⟩

/-- The trait is a std trait or one of the module. -/
def Known (items : List ItemTrait) (k : Trait) : Prop := ∀ s, k = .custom s → ∃ it ∈ items, it.ident = s

theorem edge_iff {items : List ItemTrait} (hn : ∀ it ∈ items, GoodName it.ident) {a b : Trait} (hb : Known items b) :
    Edge items a b ↔ Sup items a b := by
  have hd : ∀ it : ItemTrait, Declares it b ↔ Writes it b := by
    intro it
    by_cases h : ∃ s, b = .custom s
    · obtain ⟨s, rfl⟩ := h
      obtain ⟨it', h1, rfl⟩ := hb s rfl
      exact declares_user (hn it' h1)
    · exact declares_std fun s hs => h ⟨s, hs⟩
  unfold Edge Sup
  constructor
  · rintro (⟨it, hit, rfl, h⟩ | h)
    · exact .inl ⟨it, hit, key_good (hn it hit), (hd it).1 h, hb⟩
    · exact .inr h
  · rintro (⟨it, hit, rfl, h, -⟩ | h)
    · exact .inl ⟨it, hit, key_good (hn it hit), (hd it).2 h⟩
    · exact .inr h

theorem edge_known {items : List ItemTrait} (hn : ∀ it ∈ items, GoodName it.ident) {a b : Trait} (h : Edge items a b) :
    Known items a := by
  rintro s rfl
  rcases h with ⟨it, hit, h, -⟩ | ⟨h, -⟩
  · rw [key_good (hn it hit)] at h
    injection h with h
    exact ⟨it, hit, h⟩
  · cases h

theorem sup_known {items : List ItemTrait} {a b : Trait} (h : Sup items a b) : Known items b := by
  rintro s rfl
  rcases h with ⟨it, hit, -, -, h⟩ | ⟨-, h⟩
  · exact h s rfl
  · cases h

theorem trans_iff {items : List ItemTrait} (hn : ∀ it ∈ items, GoodName it.ident) {a b : Trait} (hb : Known items b) :
    TransGen (Edge items) a b ↔ TransGen (Sup items) a b := by
  constructor
  · intro h
    induction h with
    | single h => exact .single ((edge_iff hn hb).1 h)
    | tail _ h ih => exact (ih (edge_known hn h)).tail ((edge_iff hn hb).1 h)
  · intro h
    induction h with
    | single h => exact .single ((edge_iff hn (sup_known h)).2 h)
    | tail _ h ih =>
      refine (ih ?_).tail ((edge_iff hn (sup_known h)).2 h)
      exact edge_known hn ((edge_iff hn (sup_known h)).2 h)

theorem good_noShadow {items : List ItemTrait} (hn : ∀ it ∈ items, GoodName it.ident) : NoShadow items := by
  intro it hit
  rw [key_good (hn it hit)]; rfl

theorem good_keys {items : List ItemTrait} (h : GoodMod items) : (items.map key).Nodup := by
  have : items.map key = (items.map ItemTrait.ident).map Trait.custom := by
    rw [List.map_map]
    exact List.map_congr_left fun it hit => key_good (h.names it hit)
  rw [this]
  exact h.distinct.map (fun a b e => by injection e)

theorem good_acyclic {items : List ItemTrait} (h : GoodMod items) : Acyclic items := by
  intro a ha
  obtain ⟨s, hs, -⟩ := TransGen.head'_iff.1 ha
  exact h.acyclic a ((trans_iff h.names (edge_known h.names hs)).1 ha)

theorem stdFns_known {items : List ItemTrait} {k : Trait} {p : String × BytesFn} (h : p ∈ stdFns k) : Known items k := by
  rintro s rfl
  cases h

/-- The name of the table of a std trait. -/
def stdTable : Trait → String
  | .drop => "DropVTable" | .clone => "CloneVTable" | .partialEq => "PartialEqVTable" | .eq => "EqVTable"
  | .hash => "HashVTable" | .debug => "DebugVTable" | .send => "SendVTable" | .sync => "SyncVTable"
  | .custom s => s ++ "VTable"

/-! ### `dync_trait` -/

theorem trait_map {it : ItemTrait} (hn : GoodName it.ident) : 
    ∃ d, fillDrop (fillTraitMap builtins it) (key it) = some d ∧ d.path = [it.ident] ∧
      ∀ k, k ∈ d.superTraits ↔ k = .drop ∨ Declares it k := by
  have h0 : builtins (key it) = none := by rw [key_good hn]; rfl
  have hne : key it ≠ .drop := by rw [key_good hn]; simp
  refine ⟨_, by rw [fillDrop, if_neg hne, fill_get h0, if_pos rfl]; rfl, rfl, ?_⟩
  intro k
  rw [mem_insert, mem_declared]

/-- **C36**: for a single trait, whatever its supertraits: the accessors available in its table are
exactly the ones of `Drop` and of the std traits it names, each returns the function of this method,
and each has the type of the field it reads. -/
theorem C36_dync_trait {it : ItemTrait} (hn : GoodName it.ident) (hg : it.hasGenerics = false) (hw : it.hasWhere = false) :
    ∃ o, dyncTrait it = some o ∧ o.vtable = it.ident ++ "VTable" ∧
      (∀ f g, o.call o.build f = some g ↔ ∃ k, (k = .drop ∨ Writes it k) ∧ (f, g) ∈ stdFns k) ∧
      (∀ i ∈ o.hasImpls, ∀ a ∈ i.methods, o.fields[a.idx]? = some a.ret) ∧ o.fields.length = o.build.length := by
  obtain ⟨d, hd, hp, hs⟩ := trait_map hn
  have hsane : Sane (fillDrop (fillTraitMap builtins it)) := sane_fillDrop (sane_fill sane_builtins it)
  obtain ⟨o, ho⟩ : ∃ o, construct (fillDrop (fillTraitMap builtins it)) it = some o := by
    unfold construct; simp only [hd]; exact ⟨_, rfl⟩
  refine ⟨o, ?_, ?_, ?_, ?_, ?_⟩
  · unfold dyncTrait; rw [hg, hw]; exact ho
  · unfold construct at ho; simp only [hd] at ho; cases ho
    simp [TraitData.vtableName, TraitData.name, hp]
  · intro f g
    rw [call_iff hsane hd ho]
    constructor
    · rintro ⟨k, hk, hfg⟩
      refine ⟨k, ?_, hfg⟩
      rcases (hs k).1 hk with h | h
      · exact .inl h
      · exact .inr ((declares_std fun s e => by subst e; cases hfg).1 h)
    · rintro ⟨k, hk, hfg⟩
      refine ⟨k, (hs k).2 ?_, hfg⟩
      rcases hk with h | h
      · exact .inl h
      · exact .inr ((declares_std fun s e => by subst e; cases hfg).2 h)
  · intro i hi a ha; exact accessor_types hd ho hi ha
  · unfold construct at ho; simp only [hd] at ho; cases ho
    have : ∀ (l : List Trait) (m : TraitMap), (l.flatMap (fieldsOf m)).length = (l.flatMap (buildOf m)).length := by
      intro l m
      induction l with
      | nil => rfl
      | cons k l ih => simp only [List.flatMap_cons, List.length_append, ih, fieldsOf_eq, buildOf_eq, List.length_map]
    exact this _ _


/-- The entry of a std trait: the conversion into its table gives its table. -/
theorem std_entry {m : TraitMap} (h : Sane m) {k : Trait} (hk : ∀ s, k ≠ .custom s) {d : TraitData} (hd : m k = some d)
    (hx : ∀ x, x ∈ d.superTraits ↔ (x = .drop ∧ k ≠ .drop) ∨ (k = .eq ∧ x = .partialEq)) :
    some (((d.superTraits.flatMap stdFns) ++ stdFns k).map (·.2)) = builtinTable k ∧
      (⟨k.isBuiltin, d.vtableName⟩ : Name) = ⟨true, stdTable k⟩ := by
  have hs := h.sorted k d hd
  obtain ⟨b, hb⟩ : ∃ b, builtins k = some b := by
    cases k <;> first | exact ⟨_, rfl⟩ | exact absurd rfl (hk _)
  obtain ⟨d', hd', hp, -⟩ := h.builtin k b hb
  rw [hd] at hd'; cases hd'
  have he : d.superTraits = if k = .drop then [] else if k = .eq then [.drop, .partialEq] else [.drop] := by
    apply hs.ext
    · split_ifs <;> simp [Sorted, Trait.lt, Trait.rank]
    · intro x
      rw [hx]
      split_ifs with h1 h2 <;> simp [h1]
      · subst h2; simp
      · simp [h2]
  rw [he]
  cases k <;> simp [builtins] at hb <;> subst hb <;>
    simp [stdFns, builtinTable, Trait.isBuiltin, builtins, TraitData.vtableName, TraitData.name, hp, stdTable]

theorem trait_entry {it : ItemTrait} (hn : GoodName it.ident) {k : Trait} {d : TraitData} (hk : ∀ s, k ≠ .custom s)
    (hd : fillDrop (fillTraitMap builtins it) k = some d) (x : Trait) :
    x ∈ d.superTraits ↔ (x = .drop ∧ k ≠ .drop) ∨ (k = .eq ∧ x = .partialEq) := by
  obtain ⟨d0, h0, -, -, hx⟩ := fillDrop_some hd
  rw [hx]
  have hb : builtins (key it) = none := by rw [key_good hn]; rfl
  rw [fill_get hb, if_neg (by rw [key_good hn]; exact hk _)] at h0
  cases k <;> simp [builtins] at h0 <;> subst h0 <;> simp

/-- **C37** for a single trait, as far as it holds: the conversion into the table of every std trait it
names yields this trait's table; for `Eq` only if `PartialEq` is named as well. Missing: `trait T: Eq`
without `PartialEq` (`C37_dync_trait_refuted`). -/
theorem C37_dync_trait_partial {it : ItemTrait} (hn : GoodName it.ident) {o : Output} (ho : dyncTrait it = some o)
    {k : Trait} (hk : ∀ s, k ≠ .custom s) (hw : k = .drop ∨ Writes it k) (heq : k = .eq → Writes it .partialEq) :
    ∃ c ∈ o.convs, c.dst = ⟨true, stdTable k⟩ ∧ o.convert c o.build = builtinTable k := by
  obtain ⟨d, hd, -, hs⟩ := trait_map hn
  have hsane : Sane (fillDrop (fillTraitMap builtins it)) := sane_fillDrop (sane_fill sane_builtins it)
  have ho' : construct (fillDrop (fillTraitMap builtins it)) it = some o := by
    unfold dyncTrait at ho
    split_ifs at ho
    exact ho
  obtain ⟨b, hb⟩ : ∃ b, builtins k = some b := by
    cases k <;> first | exact ⟨_, rfl⟩ | exact absurd rfl (hk _)
  obtain ⟨dk, hdk, -⟩ := hsane.builtin k b hb
  have hmem : k ∈ d.superTraits := (hs k).2 (hw.imp id (declares_std hk).2)
  have hx := trait_entry hn hk hdk
  obtain ⟨e1, e2⟩ := std_entry hsane hk hdk hx
  refine ⟨⟨⟨k.isBuiltin, dk.vtableName⟩, convExprs _ dk⟩, (convs_mem hd ho').2 ⟨k, hmem, dk, hdk, rfl⟩, e2, ?_⟩
  rw [convert_eq hsane hd ho' hdk hmem, e1]
  intro s hs' _
  rcases (hx s).1 hs' with ⟨rfl, -⟩ | ⟨rfl, rfl⟩
  · exact (hs _).2 (.inl rfl)
  · exact (hs _).2 (.inr ((declares_std fun s e => by cases e).2 (heq rfl)))

/-- The full claim **C37** for `dync_trait`. -/
def C37_dync_trait_full : Prop := ∀ (it : ItemTrait) (o : Output), GoodName it.ident → dyncTrait it = some o →
  ∀ k, (∀ s, k ≠ .custom s) → (k = .drop ∨ Writes it k) →
    ∃ c ∈ o.convs, c.dst = ⟨true, stdTable k⟩ ∧ o.convert c o.build = builtinTable k

/-- `#[dync_trait] trait T: Eq {}` is legal Rust, but the conversion into `EqVTable` generated for it
calls `eq_fn`, which the table does not have. -/
theorem C37_dync_trait_refuted : ¬ C37_dync_trait_full := by
  intro h
  obtain ⟨c, hc, hdst, hconv⟩ := h ⟨"T", [.trait false false (plain ["Eq"])], false, false⟩ _
    (by unfold GoodName; decide) rfl .eq (by simp) (.inr (by unfold Writes; decide))
  revert hconv hdst hc
  revert c
  decide

/-- **C39**: a std trait is honoured iff it is spelled in the one supported way. -/
theorem C39_dync_trait_partial {it : ItemTrait} (hn : GoodName it.ident) {o : Output} (ho : dyncTrait it = some o)
    {k : Trait} (hk : k ≠ .drop) {f : String} {g : BytesFn} (hf : (f, g) ∈ stdFns k) :
    o.call o.build f = some g ↔ Bound.trait false false (plain (spelling k)) ∈ it.supertraits := by
  have hgw : it.hasGenerics = false ∧ it.hasWhere = false := by
    unfold dyncTrait at ho
    split_ifs at ho with h
    simpa using h
  obtain ⟨o', ho', -, h, -⟩ := C36_dync_trait hn hgw.1 hgw.2
  rw [ho] at ho'; cases ho'
  rw [h]
  constructor
  · rintro ⟨k', hk', hf'⟩
    have : k' = k := by
      cases k <;> cases k' <;> simp [stdFns] at hf hf' <;> grind
    subst this
    exact hk'.resolve_left hk
  · intro h; exact ⟨k, .inr h, hf⟩

/-- The paths naming a std trait, given the usual prelude. -/
def stdPaths : Trait → List Path
  | .clone => [plain ["Clone"], plain ["std", "clone", "Clone"], ⟨true, (plain ["std", "clone", "Clone"]).segs⟩,
      plain ["core", "clone", "Clone"]]
  | .partialEq => [plain ["PartialEq"], plain ["std", "cmp", "PartialEq"], ⟨true, (plain ["std", "cmp", "PartialEq"]).segs⟩,
      plain ["core", "cmp", "PartialEq"]]
  | .hash => [plain ["std", "hash", "Hash"], ⟨true, (plain ["std", "hash", "Hash"]).segs⟩, plain ["core", "hash", "Hash"]]
  | .debug => [plain ["std", "fmt", "Debug"], ⟨true, (plain ["std", "fmt", "Debug"]).segs⟩, plain ["core", "fmt", "Debug"]]
  | _ => []

/-- The full claim **C39**. -/
def C39_full : Prop := ∀ (it : ItemTrait) (o : Output), GoodName it.ident → dyncTrait it = some o →
  ∀ k, ∀ p ∈ stdPaths k, Bound.trait false false p ∈ it.supertraits → ∀ f g, (f, g) ∈ stdFns k →
    o.call o.build f = some g

/-- `trait T: std::clone::Clone` has no `clone_fn`. -/
theorem C39_refuted : ¬ C39_full := by
  intro h
  have := h ⟨"T", [.trait false false (plain ["std", "clone", "Clone"])], false, false⟩ _
    (by unfold GoodName; decide) rfl .clone (plain ["std", "clone", "Clone"]) (by decide) (by decide) "clone_fn" _
    (by simp [stdFns]; rfl)
  revert this
  decide

/-- Nor does `trait T: ::std::hash::Hash` have `hash_fn`. -/
theorem C39_refuted_leading_colon : ¬ C39_full := by
  intro h
  have := h ⟨"T", [.trait false false ⟨true, (plain ["std", "hash", "Hash"]).segs⟩], false, false⟩ _
    (by unfold GoodName; decide) rfl .hash ⟨true, (plain ["std", "hash", "Hash"]).segs⟩ (by decide) (by decide) "hash_fn" _
    (by simp [stdFns]; rfl)
  revert this
  decide

/-! ### `dync_mod` -/

/-- `it` inherits from `k`, directly or transitively; everything inherits from `Drop`. -/
def InheritsMod (items : List ItemTrait) (it : ItemTrait) (k : Trait) : Prop :=
  k = .drop ∨ TransGen (Sup items) (.custom it.ident) k

/-- The outputs of `dync_mod`, in terms of the map it computes. -/
theorem module_out {items : List ItemTrait} (h : GoodMod items) :
    ∃ N m F, (∀ n ≥ N, dyncMod n items = some (items.map F)) ∧ Sane m ∧
      (∀ n ≥ N, (fillAndFlatten n items).map fillDrop = some m) ∧
      (∀ it ∈ items, construct m it = some (F it)) ∧
      (∀ k, (m k).isSome = true ↔ Known items k) ∧
      (∀ k d, m k = some d → ∀ x, x ∈ d.superTraits ↔ (x = .drop ∧ k ≠ .drop) ∨ TransGen (Edge items) k x) := by
  obtain ⟨N, m, hm, hsane, hdom, hex⟩ := module_map (good_noShadow h.names) (good_keys h) (good_acyclic h)
  have hdom' : ∀ k, (fillDrop m k).isSome = true ↔ Known items k := by
    intro k
    rw [fillDrop_isSome, hdom]
    constructor
    · rintro (hb | hk) s rfl
      · cases hb
      · obtain ⟨it, hit, e⟩ := List.mem_map.1 hk
        rw [key_good (h.names it hit)] at e
        injection e with e
        exact ⟨it, hit, e⟩
    · intro hk
      by_cases hc : ∃ s, k = .custom s
      · obtain ⟨s, rfl⟩ := hc
        obtain ⟨it, hit, rfl⟩ := hk s rfl
        exact .inr (List.mem_map.2 ⟨it, hit, key_good (h.names it hit)⟩)
      · left
        cases k <;> first | rfl | exact absurd ⟨_, rfl⟩ hc
  obtain ⟨F, hF, hF'⟩ := mapM_construct (m := fillDrop m) (items := items) (fun it hit => by
    rw [hdom']; intro s e; rw [key_good (h.names it hit)] at e; injection e with e; exact ⟨it, hit, e⟩)
  refine ⟨N, fillDrop m, F, ?_, sane_fillDrop hsane, ?_, hF', hdom', ?_⟩
  · intro n hn
    unfold dyncMod
    rw [hm n hn]
    exact hF
  · intro n hn; rw [hm n hn]; rfl
  · intro k d hd x; exact final_supers hex hd x

theorem inherits_iff {items : List ItemTrait} (h : GoodMod items) {it : ItemTrait} (hit : it ∈ items) {k : Trait} (hk : Known items k) :
    ((k = .drop ∧ key it ≠ .drop) ∨ TransGen (Edge items) (key it) k) ↔ InheritsMod items it k := by
  unfold InheritsMod
  rw [trans_iff h.names hk, key_good (h.names it hit)]
  simp

/-- **C36, C38**: in a module, the accessors available in the table of a trait are exactly the ones of
`Drop` and of the std traits it inherits from, directly or transitively; each returns the function of
this method. -/
theorem C38_dync_mod {items : List ItemTrait} (h : GoodMod items) :
    ∃ N F, (∀ n ≥ N, dyncMod n items = some (items.map F)) ∧ ∀ it ∈ items,
      (F it).vtable = it.ident ++ "VTable" ∧
      ∀ f g, (F it).call (F it).build f = some g ↔ ∃ k, InheritsMod items it k ∧ (f, g) ∈ stdFns k := by
  obtain ⟨N, m, F, hn, hsane, -, hF, hdom, hsup⟩ := module_out h
  refine ⟨N, F, hn, fun it hit => ?_⟩
  obtain ⟨d, hd⟩ := Option.isSome_iff_exists.1 ((hdom (key it)).2 (by
    intro s e; rw [key_good (h.names it hit)] at e; injection e with e; exact ⟨it, hit, e⟩))
  refine ⟨?_, fun f g => ?_⟩
  · have hp : d.path = [it.ident] := by
      obtain ⟨s, h1, h2, -⟩ := hsane.user _ d (good_noShadow h.names it hit) hd
      rw [key_good (h.names it hit)] at h1; injection h1 with h1
      rw [h2, h1]
    have ho := hF it hit
    unfold construct at ho; simp only [hd] at ho; rw [← Option.some_inj.1 ho]
    simp [TraitData.vtableName, TraitData.name, hp]
  · rw [call_iff hsane hd (hF it hit)]
    constructor
    · rintro ⟨k, hk, hfg⟩
      exact ⟨k, (inherits_iff h hit (stdFns_known hfg)).1 ((hsup _ d hd k).1 hk), hfg⟩
    · rintro ⟨k, hk, hfg⟩
      exact ⟨k, (hsup _ d hd k).2 ((inherits_iff h hit (stdFns_known hfg)).2 hk), hfg⟩

/-- **C36** in a module: every accessor has the type of the field it reads. -/
theorem C36_dync_mod {items : List ItemTrait} (h : GoodMod items) :
    ∃ N F, (∀ n ≥ N, dyncMod n items = some (items.map F)) ∧ ∀ it ∈ items,
      (∀ i ∈ (F it).hasImpls, ∀ a ∈ i.methods, (F it).fields[a.idx]? = some a.ret) ∧
      (∀ i ∈ (F it).hasImpls, ∀ a ∈ i.methods, ∃ g, (F it).call (F it).build a.name = some g ∧
        ∃ k, InheritsMod items it k ∧ (a.name, g) ∈ stdFns k) := by
  obtain ⟨N, m, F, hn, hsane, -, hF, hdom, hsup⟩ := module_out h
  obtain ⟨N', F', hn', hF2⟩ := C38_dync_mod h
  have hFF : ∀ it ∈ items, F it = F' it := by
    have e := (hn (max N N') (by omega)).symm.trans (hn' (max N N') (by omega))
    exact List.map_inj_left.1 (Option.some_inj.1 e)
  refine ⟨N, F, hn, fun it hit => ?_⟩
  obtain ⟨d, hd⟩ := Option.isSome_iff_exists.1 ((hdom (key it)).2 (by
    intro s e; rw [key_good (h.names it hit)] at e; injection e with e; exact ⟨it, hit, e⟩))
  refine ⟨fun i hi a ha => accessor_types hd (hF it hit) hi ha, fun i hi a ha => ?_⟩
  have hc : ∃ g, (F it).call (F it).build a.name = some g := by
    have hmem : a ∈ (F it).hasImpls.flatMap HasImpl.methods := List.mem_flatMap.2 ⟨i, hi, ha⟩
    rw [call_eq hd (hF it hit)]
    have ho := hF it hit
    unfold construct at ho; simp only [hd] at ho
    rw [← Option.some_inj.1 ho] at hmem
    simp only [hasImplsOf_methods] at hmem
    obtain ⟨⟨p, j⟩, hp, rfl⟩ := List.mem_map.1 hmem
    have hp' := (List.mem_zipIdx hp)
    rcases hf : (d.superTraits.flatMap (pairsOf m)).find? fun q => q.1 == p.1 with _ | q
    · rw [List.find?_eq_none] at hf
      refine absurd (hf p ?_) (by simp)
      rw [hp'.2.2]; exact List.getElem_mem _
    · exact ⟨q.2.2, by simp only; rw [hf]; rfl⟩
  obtain ⟨g, hg⟩ := hc
  refine ⟨g, hg, ?_⟩
  rw [hFF it hit] at hg
  exact ((hF2 it hit).2 _ _).1 hg

/-- **C37** in a module: the conversion of the table of a trait into the table of any trait it inherits
from, std or of the module, yields the table of that trait; and there are no other conversions. -/
theorem C37_dync_mod {items : List ItemTrait} (h : GoodMod items) :
    ∃ N F, (∀ n ≥ N, dyncMod n items = some (items.map F)) ∧ ∀ it ∈ items,
      (∀ k, (∀ s, k ≠ .custom s) → InheritsMod items it k →
        ∃ c ∈ (F it).convs, c.dst = ⟨true, stdTable k⟩ ∧ (F it).convert c (F it).build = builtinTable k) ∧
      (∀ it' ∈ items, InheritsMod items it (.custom it'.ident) →
        ∃ c ∈ (F it).convs, c.dst = ⟨false, (F it').vtable⟩ ∧ (F it).convert c (F it).build = some (F it').build) ∧
      (∀ c ∈ (F it).convs,
        (∃ k, InheritsMod items it k ∧ c.dst = ⟨true, stdTable k⟩ ∧ (F it).convert c (F it).build = builtinTable k) ∨
        (∃ it' ∈ items, InheritsMod items it (.custom it'.ident) ∧ c.dst = ⟨false, (F it').vtable⟩ ∧
          (F it).convert c (F it).build = some (F it').build)) := by
  obtain ⟨N, m, F, hn, hsane, -, hF, hdom, hsup⟩ := module_out h
  refine ⟨N, F, hn, fun it hit => ?_⟩
  have hkey : ∀ it ∈ items, Known items (key it) := by
    intro it hit s e; rw [key_good (h.names it hit)] at e; injection e with e; exact ⟨it, hit, e⟩
  obtain ⟨d, hd⟩ := Option.isSome_iff_exists.1 ((hdom (key it)).2 (hkey it hit))
  have hconv : ∀ k dk, m k = some dk → k ∈ d.superTraits →
      (F it).convert ⟨⟨k.isBuiltin, dk.vtableName⟩, convExprs m dk⟩ (F it).build =
        some (((dk.superTraits.flatMap stdFns) ++ stdFns k).map (·.2)) := by
    intro k dk hdk hmem
    refine convert_eq hsane hd (hF it hit) hdk hmem fun s hs _ => ?_
    rw [hsup _ d hd]
    rcases (hsup _ dk hdk s).1 hs with ⟨rfl, -⟩ | hs
    · exact .inl ⟨rfl, by rw [key_good (h.names it hit)]; simp⟩
    · rcases (hsup _ d hd k).1 hmem with ⟨rfl, -⟩ | hk
      · obtain ⟨x, hx, -⟩ := TransGen.head'_iff.1 hs
        have := (edge_builtin (good_noShadow h.names) (k := .drop) rfl hx).1
        cases this
      · exact .inr (hk.trans hs)
  have hstd : ∀ k dk, (∀ s, k ≠ .custom s) → m k = some dk →
      some (((dk.superTraits.flatMap stdFns) ++ stdFns k).map (·.2)) = builtinTable k ∧
      (⟨k.isBuiltin, dk.vtableName⟩ : Name) = ⟨true, stdTable k⟩ := by
    intro k dk hk hdk
    refine std_entry hsane hk hdk fun x => ?_
    rw [hsup _ dk hdk]
    obtain ⟨b, hb⟩ : ∃ b, builtins k = some b := by
      cases k <;> first | exact ⟨_, rfl⟩ | exact absurd rfl (hk _)
    rw [← builtin_exact (good_noShadow h.names) hb]
    cases k <;> simp [builtins] at hb <;> subst hb <;> simp
  have huser : ∀ it' ∈ items, ∀ dk, m (.custom it'.ident) = some dk →
      ((dk.superTraits.flatMap stdFns) ++ stdFns (.custom it'.ident)).map (·.2) = (F it').build ∧
      (⟨(Trait.custom it'.ident).isBuiltin, dk.vtableName⟩ : Name) = ⟨false, (F it').vtable⟩ := by
    intro it' hit' dk hdk
    have hd' : m (key it') = some dk := by rw [key_good (h.names it' hit')]; exact hdk
    rw [build_eq hsane hd' (hF it' hit')]
    refine ⟨by simp [stdFns], ?_⟩
    have ho := hF it' hit'
    unfold construct at ho; simp only [hd'] at ho; rw [← Option.some_inj.1 ho]
    rfl
  refine ⟨fun k hk hinh => ?_, fun it' hit' hinh => ?_, fun c hc => ?_⟩
  · have hkn : Known items k := fun s e => absurd e (hk s)
    obtain ⟨dk, hdk⟩ := Option.isSome_iff_exists.1 ((hdom k).2 hkn)
    have hmem := (hsup _ d hd k).2 ((inherits_iff h hit hkn).2 hinh)
    refine ⟨_, (convs_mem hd (hF it hit)).2 ⟨k, hmem, dk, hdk, rfl⟩, (hstd k dk hk hdk).2, ?_⟩
    rw [hconv k dk hdk hmem, (hstd k dk hk hdk).1]
  · have hkn : Known items (.custom it'.ident) := fun s e => by injection e with e; exact ⟨it', hit', e⟩
    obtain ⟨dk, hdk⟩ := Option.isSome_iff_exists.1 ((hdom _).2 hkn)
    have hmem := (hsup _ d hd _).2 ((inherits_iff h hit hkn).2 hinh)
    refine ⟨_, (convs_mem hd (hF it hit)).2 ⟨_, hmem, dk, hdk, rfl⟩, (huser it' hit' dk hdk).2, ?_⟩
    rw [hconv _ dk hdk hmem, (huser it' hit' dk hdk).1]
  · obtain ⟨k, hmem, dk, hdk, rfl⟩ := (convs_mem hd (hF it hit)).1 hc
    have hkn : Known items k := (hdom k).1 (by rw [hdk]; rfl)
    have hinh := (inherits_iff h hit hkn).1 ((hsup _ d hd k).1 hmem)
    by_cases hc : ∃ s, k = .custom s
    · obtain ⟨s, rfl⟩ := hc
      obtain ⟨it', hit', rfl⟩ := hkn s rfl
      refine .inr ⟨it', hit', hinh, (huser it' hit' dk hdk).2, ?_⟩
      rw [hconv _ dk hdk hmem, (huser it' hit' dk hdk).1]
    · have hk : ∀ s, k ≠ .custom s := fun s e => hc ⟨s, e⟩
      refine .inl ⟨k, hinh, (hstd k dk hk hdk).2, ?_⟩
      rw [hconv k dk hdk hmem, (hstd k dk hk hdk).1]

theorem sup_perm {items items' : List ItemTrait} (hp : items.Perm items') : Sup items = Sup items' := by
  funext a b
  simp only [Sup, hp.mem_iff]

theorem edge_perm {items items' : List ItemTrait} (hp : items.Perm items') : Edge items = Edge items' := by
  funext a b
  simp only [Edge, hp.mem_iff]

theorem GoodMod.perm {items items' : List ItemTrait} (hp : items.Perm items') (h : GoodMod items) : GoodMod items' :=
  ⟨fun it hit => h.names it (hp.mem_iff.2 hit), (hp.map _).nodup_iff.1 h.distinct, by rw [← sup_perm hp]; exact h.acyclic⟩

/-- **C38**: the order of the declarations in the module does not matter. -/
theorem C38_declaration_order {items items' : List ItemTrait} (hp : items.Perm items') (h : GoodMod items) :
    ∃ N F, ∀ n ≥ N, dyncMod n items = some (items.map F) ∧ dyncMod n items' = some (items'.map F) := by
  obtain ⟨N, m, F, hn, hsane, -, hF, hdom, hsup⟩ := module_out h
  obtain ⟨N', m', F', hn', hsane', -, hF', hdom', hsup'⟩ := module_out (h.perm hp)
  have hkn : ∀ k, Known items k ↔ Known items' k := fun k => by simp only [Known, hp.mem_iff]
  have hmm : m = m' := by
    funext k
    rcases hd : m k with _ | d
    · rcases hd' : m' k with _ | d'
      · rfl
      · have := (hdom k).2 ((hkn k).2 ((hdom' k).1 (by rw [hd']; rfl)))
        rw [hd] at this; cases this
    · obtain ⟨d', hd'⟩ := Option.isSome_iff_exists.1 ((hdom' k).2 ((hkn k).1 ((hdom k).1 (by rw [hd]; rfl))))
      rw [hd']
      have hs : d.superTraits = d'.superTraits := by
        refine (hsane.sorted k d hd).ext (hsane'.sorted k d' hd') fun x => ?_
        rw [hsup k d hd, hsup' k d' hd', edge_perm hp]
      have hpm : d.path = d'.path ∧ d.methods = d'.methods := by
        rcases hb : builtins k with _ | b
        · obtain ⟨s, e1, e2, e3⟩ := hsane.user k d hb hd
          obtain ⟨s', e1', e2', e3'⟩ := hsane'.user k d' hb hd'
          rw [e1] at e1'; injection e1' with e
          exact ⟨by rw [e2, e2', e], by rw [e3, e3']⟩
        · obtain ⟨x, e1, e2, e3⟩ := hsane.builtin k b hb
          obtain ⟨x', e1', e2', e3'⟩ := hsane'.builtin k b hb
          rw [hd] at e1; cases e1
          rw [hd'] at e1'; cases e1'
          exact ⟨by rw [e2, e2'], by rw [e3, e3']⟩
      obtain ⟨p1, p2, p3⟩ := d
      obtain ⟨q1, q2, q3⟩ := d'
      simp only at hs hpm
      rw [hs, hpm.1, hpm.2]
  refine ⟨max N N', F, fun n hnn => ⟨hn n (by omega), ?_⟩⟩
  rw [hn' n (by omega)]
  congr 1
  refine List.map_congr_left fun it hit => ?_
  have e1 := hF it (hp.mem_iff.2 hit)
  have e2 := hF' it hit
  rw [hmm, e2] at e1
  exact Option.some_inj.1 e1


/-! ### A module to which the theorems apply -/

namespace Ex

/-- `trait Base: Clone + std::fmt::Debug {}` -/
def base : ItemTrait := ⟨"Base", [.trait false false (plain ["Clone"]), .trait false false (plain ["std", "fmt", "Debug"])], false, false⟩
/-- `trait Val: Base + Eq + 'static {}` -/
def val : ItemTrait := ⟨"Val", [.trait false false (plain ["Base"]), .trait false false (plain ["Eq"]), .lifetime], false, false⟩

/-- Height of a trait in the module. -/
def height (k : Trait) : Nat :=
  if k = .custom "Val" then 3 else if k = .custom "Base" then 2 else if k = .eq then 1 else 0

theorem writes_val {k : Trait} : Writes val k → k = .custom "Base" ∨ k = .eq ∨ k = .custom "Eq" := by
  intro h
  cases k <;> simp [Writes, val, spelling, plain] at h ⊢
  exact h

theorem writes_base {k : Trait} : Writes base k → k = .clone ∨ k = .debug ∨ k = .custom "Clone" := by
  intro h
  cases k <;> simp [Writes, base, spelling, plain] at h ⊢
  exact h

theorem goodMod : GoodMod [val, base] := by
  refine ⟨?_, by decide, ?_⟩
  · intro it hit
    rcases List.mem_cons.1 hit with rfl | hit
    · unfold GoodName; decide
    · rcases List.mem_cons.1 hit with rfl | hit
      · unfold GoodName; decide
      · cases hit
  · have hlt : ∀ a b, Sup [val, base] a b → height b < height a := by
      rintro a b (⟨it, hit, rfl, hw, hc⟩ | ⟨rfl, rfl⟩)
      · rcases List.mem_cons.1 hit with rfl | hit
        · rcases writes_val hw with rfl | rfl | rfl <;> decide
        · rcases List.mem_cons.1 hit with rfl | hit
          · rcases writes_base hw with rfl | rfl | rfl <;> decide
          · cases hit
      · decide
    intro a ha
    have : ∀ b, TransGen (Sup [val, base]) a b → height b < height a := by
      intro b hb
      induction hb with
      | single h => exact hlt _ _ h
      | tail _ h ih => exact Nat.lt_trans (hlt _ _ h) ih
    exact absurd (this a ha) (Nat.lt_irrefl _)

/-- `Val` inherits from `Clone` through `Base` and from `PartialEq` through `Eq`. -/
theorem val_inherits : InheritsMod [val, base] val .clone ∧ InheritsMod [val, base] val .partialEq := by
  refine ⟨.inr (.tail (b := .custom "Base") (.single (.inl ⟨val, by simp, rfl, by decide, ?_⟩))
      (.inl ⟨base, by simp, rfl, by decide, by simp⟩)),
    .inr (.tail (b := .eq) (.single (.inl ⟨val, by simp, rfl, by decide, by simp⟩)) (.inr ⟨rfl, rfl⟩))⟩
  intro s hs
  injection hs with hs
  exact ⟨base, by simp, hs⟩

end Ex

example := C38_dync_mod Ex.goodMod
example := C37_dync_mod Ex.goodMod
example := C36_dync_mod Ex.goodMod
example := C38_declaration_order (List.Perm.swap Ex.base Ex.val []) Ex.goodMod
example : ((dyncMod 3 [Ex.val, Ex.base]).bind fun os => os[0]?.map fun o => o.call o.build "clone_from_fn") =
    some (some ⟨⟨true, "CloneBytes"⟩, "clone_from_bytes"⟩) := by decide
example := C36_dync_trait (it := Ex.base) (by unfold GoodName; decide) rfl rfl
example := C37_dync_trait_partial (it := Ex.base) (o := (dyncTrait Ex.base).get (by decide)) (by unfold GoodName; decide)
  (by decide) (k := .clone) (by simp) (.inr (by decide)) (by simp)
example := C39_dync_trait_partial (it := Ex.base) (o := (dyncTrait Ex.base).get (by decide)) (by unfold GoodName; decide)
  (by decide) (k := .clone) (by simp) (f := "clone_fn") (g := ⟨⟨true, "CloneBytes"⟩, "clone_bytes"⟩) (by decide)

/-! ### What Rust accepts and the macro does not honour -/

/-- A trait may also be named by a path into the module. -/
def WritesAny (it : ItemTrait) (k : Trait) : Prop :=
  Writes it k ∨ ∃ s, k = .custom s ∧ Bound.trait false false (plain ["self", s]) ∈ it.supertraits

/-- Inheritance as Rust sees it (still only for the spellings of `Writes` and paths into the module). -/
def SupAny (items : List ItemTrait) (a b : Trait) : Prop :=
  (∃ it ∈ items, a = .custom it.ident ∧ WritesAny it b ∧ ∀ s, b = .custom s → ∃ it' ∈ items, it'.ident = s) ∨
    (a = .eq ∧ b = .partialEq)

/-- The full claim **C38**: for any module Rust accepts. -/
def C38_full : Prop := ∀ items : List ItemTrait, (∀ it ∈ items, it.ident ≠ "" ∧ ' ' ∉ it.ident.toList) →
  (items.map ItemTrait.ident).Nodup → (∀ a, ¬ TransGen (SupAny items) a a) →
  ∃ N F, (∀ n ≥ N, dyncMod n items = some (items.map F)) ∧ ∀ it ∈ items, ∀ f g,
    (F it).call (F it).build f = some g ↔
      ∃ k, (k = .drop ∨ TransGen (SupAny items) (.custom it.ident) k) ∧ (f, g) ∈ stdFns k

/-- Where all edges go up in some numbering there are no cycles. -/
theorem no_cycle {α : Type} {r : α → α → Prop} (height : α → Nat) (hlt : ∀ a b, r a b → height b < height a) (a : α) :
    ¬ TransGen r a a := by
  have : ∀ b, TransGen r a b → height b < height a := by
    intro b hb
    induction hb with
    | single h => exact hlt _ _ h
    | tail _ h ih => exact Nat.lt_trans (hlt _ _ h) ih
  exact fun ha => absurd (this a ha) (Nat.lt_irrefl _)

/-- A user trait that happens to be called like a std trait, `trait Debug: Clone {}`, loses its
supertraits: the table generated for it has no `clone_fn`. -/
theorem C38_refuted_shadow : ¬ C38_full := by
  intro h
  obtain ⟨N, F, hn, hF⟩ := h [⟨"Debug", [.trait false false (plain ["Clone"])], false, false⟩] (by decide) (by decide)
    (no_cycle (fun k => if k = .custom "Debug" then 2 else if k = .eq then 1 else 0) (by
      rintro a b (⟨it, hit, rfl, hw, hc⟩ | ⟨rfl, rfl⟩)
      · obtain rfl := List.mem_singleton.1 hit
        rcases hw with hw | ⟨s, rfl, hw⟩
        · cases b <;> simp [Writes, spelling, plain] at hw ⊢
          subst hw; simp
        · simp [plain] at hw
      · decide))
  have h1 := (hF _ (List.mem_singleton.2 rfl) "clone_fn" ⟨⟨true, "CloneBytes"⟩, "clone_bytes"⟩).2
    ⟨.clone, .inr (.single (.inl ⟨_, List.mem_singleton.2 rfl, rfl, .inl (by decide), by simp⟩)), by decide⟩
  have h2 := hn N (Nat.le_refl _)
  have h3 : dyncMod N [⟨"Debug", [.trait false false (plain ["Clone"])], false, false⟩] =
      dyncMod 0 [⟨"Debug", [.trait false false (plain ["Clone"])], false, false⟩] := by rfl
  rw [h3] at h2
  simp only [List.map_cons, List.map_nil] at h2
  generalize F ⟨"Debug", [.trait false false (plain ["Clone"])], false, false⟩ = o at *
  have h4 : (dyncMod 0 [⟨"Debug", [.trait false false (plain ["Clone"])], false, false⟩]).map
      (fun os => os.map fun o => o.call o.build "clone_fn") = some [none] := by decide
  rw [h2] at h4
  simp [h1] at h4

/-- `trait Derived: self::Base {}` does not inherit anything from `Base`. -/
theorem C38_refuted_self_path : ¬ C38_full := by
  intro h
  obtain ⟨N, F, hn, hF⟩ := h [⟨"Base", [.trait false false (plain ["Clone"])], false, false⟩,
      ⟨"Derived", [.trait false false (plain ["self", "Base"])], false, false⟩] (by decide) (by decide)
    (no_cycle (fun k => if k = .custom "Derived" then 3 else if k = .custom "Base" then 2 else if k = .eq then 1 else 0) (by
      rintro a b (⟨it, hit, rfl, hw, hc⟩ | ⟨rfl, rfl⟩)
      · rcases List.mem_cons.1 hit with rfl | hit
        · rcases hw with hw | ⟨s, rfl, hw⟩
          · cases b <;> simp [Writes, spelling, plain] at hw ⊢
            subst hw; simp
          · simp [plain] at hw
        · obtain rfl := List.mem_singleton.1 hit
          rcases hw with hw | ⟨s, rfl, hw⟩
          · cases b <;> simp [Writes, spelling, plain] at hw ⊢
          · simp [plain] at hw
            subst hw; simp
      · decide))
  have h1 := (hF _ (List.mem_cons_of_mem _ (List.mem_singleton.2 rfl)) "clone_fn" ⟨⟨true, "CloneBytes"⟩, "clone_bytes"⟩).2
    ⟨.clone, .inr (.tail (b := .custom "Base")
      (.single (.inl ⟨_, List.mem_cons_of_mem _ (List.mem_singleton.2 rfl), rfl, .inr ⟨"Base", rfl, by decide⟩, by simp⟩))
      (.inl ⟨_, List.mem_cons_self, rfl, .inl (by decide), by simp⟩)), by decide⟩
  have h2 := hn (N + 2) (Nat.le_add_right _ _)
  have h3 : dyncMod (N + 2) [⟨"Base", [.trait false false (plain ["Clone"])], false, false⟩,
      ⟨"Derived", [.trait false false (plain ["self", "Base"])], false, false⟩] =
      dyncMod 2 [⟨"Base", [.trait false false (plain ["Clone"])], false, false⟩,
      ⟨"Derived", [.trait false false (plain ["self", "Base"])], false, false⟩] := by rfl
  rw [h3] at h2
  simp only [List.map_cons, List.map_nil] at h2
  generalize F ⟨"Derived", [.trait false false (plain ["self", "Base"])], false, false⟩ = o at *
  have h4 : (dyncMod 2 [⟨"Base", [.trait false false (plain ["Clone"])], false, false⟩,
      ⟨"Derived", [.trait false false (plain ["self", "Base"])], false, false⟩]).map
      (fun os => os[1]?.map fun o => o.call o.build "clone_fn") = some (some none) := by decide
  rw [h2] at h4
  simp [h1] at h4

end Dync
