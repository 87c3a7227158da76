import Verif.Props.Derive
import Verif.DeriveItems
/-!
# C64: options of the derive macros and the names generated code refers to
-/
namespace Dync
open Derive Relation

/-! ### Specification -/

/-- All paths in an item. -/
def paths : GItem → List GPath
  | .hasImpl _ t _ ms => t :: ms.map GMethod.ret
  | .hasTrait _ ds => ds
  | .downcast m _ => [m]
  | .table _ fs => fs
  | .build _ t _ as => t :: as.map (·.1)
  | .convert _ d g _ _ => [d, g]

/-- Put another crate in front of a path with several segments. -/
def renameP (c : String) : GPath → GPath
  | _ :: x :: p => c :: x :: p
  | p => p

/-- The same item, with the crate renamed. -/
def renameI (c : String) : GItem → GItem
  | .hasImpl u t s ms => .hasImpl u (renameP c t) s (ms.map fun m => ⟨m.name, renameP c m.ret, m.idx⟩)
  | .hasTrait n ds => .hasTrait n (ds.map (renameP c))
  | .downcast m a => .downcast (renameP c m) a
  | .table n fs => .table n (fs.map (renameP c))
  | .build b t s as => .build b (renameP c t) s (as.map fun a => (renameP c a.1, a.2))
  | .convert s d g k cs => .convert s (renameP c d) (renameP c g) k cs

/-- The crate name a user writes: the last `dync_crate_name = ".."`, or `dync`. -/
inductive CrateName : List DynAttrib → String → Prop
  | default {as} : (∀ a ∈ as, ∀ s, a ≠ ⟨"dync_crate_name", some (.str s)⟩) → CrateName as "dync"
  | last {as bs s} : (∀ a ∈ bs, ∀ s, a ≠ ⟨"dync_crate_name", some (.str s)⟩) →
      CrateName (as ++ ⟨"dync_crate_name", some (.str s)⟩ :: bs) s

/-! ### Lemmas -/

theorem step_name (c : Config) (a : DynAttrib) :
    (∃ s, a = ⟨"dync_crate_name", some (.str s)⟩ ∧ (c.step a).dyncCrateName = s) ∨
      (∀ s, a ≠ ⟨"dync_crate_name", some (.str s)⟩) ∧ (c.step a).dyncCrateName = c.dyncCrateName := by
  obtain ⟨i, v⟩ := a
  unfold Config.step
  split
  · next e1 e2 => simp only at e1 e2; subst e1 e2; exact .inr ⟨by simp, rfl⟩
  · next s e1 e2 => simp only at e1 e2; subst e1 e2; exact .inl ⟨s, rfl, rfl⟩
  · next s e1 e2 => simp only at e1 e2; subst e1 e2; exact .inr ⟨by simp, rfl⟩
  · next h1 h2 h3 => exact .inr ⟨fun s e => by injection e with e1 e2; exact h2 s e1 e2, rfl⟩

theorem foldl_name : ∀ {bs : List DynAttrib} {c : Config}, (∀ a ∈ bs, ∀ s, a ≠ ⟨"dync_crate_name", some (.str s)⟩) →
    (bs.foldl Config.step c).dyncCrateName = c.dyncCrateName
  | [], _, _ => rfl
  | a :: bs, c, h => by
    rw [List.foldl_cons, foldl_name fun b hb => h b (List.mem_cons_of_mem _ hb)]
    rcases step_name c a with ⟨s, e, -⟩ | ⟨-, e⟩
    · exact absurd e (h a (by simp) s)
    · exact e

theorem parse_name {as : List DynAttrib} {s : String} (h : CrateName as s) : (Config.parse as).dyncCrateName = s := by
  cases h with
  | default h => exact foldl_name h
  | last h =>
    unfold Config.parse
    rw [List.foldl_append, List.foldl_cons, foldl_name h]
    rcases step_name (List.foldl Config.step Config.default _) ⟨"dync_crate_name", some (.str s)⟩ with ⟨s', e, e'⟩ | ⟨e, -⟩
    · injection e with _ e; injection e with e; injection e with e
      rw [e', e]
    · exact absurd rfl (e s)

/-- Every list of options determines the crate name. -/
theorem crateName_exists (as : List DynAttrib) : ∃ s, CrateName as s := by
  induction as with
  | nil => exact ⟨"dync", .default (by simp)⟩
  | cons a as ih =>
    obtain ⟨s, h⟩ := ih
    cases h with
    | default h =>
      by_cases ha : ∃ s, a = ⟨"dync_crate_name", some (.str s)⟩
      · obtain ⟨s, rfl⟩ := ha
        exact ⟨s, .last (as := []) h⟩
      · refine ⟨"dync", .default fun b hb s e => ?_⟩
        rcases List.mem_cons.1 hb with rfl | hb
        · exact ha ⟨s, e⟩
        · exact h b hb s e
    | last h => exact ⟨s, .last (as := a :: _) h⟩

theorem render_rename (c : String) (n : Name) : n.render c = renameP c (n.render "dync") := by
  unfold Name.render
  split <;> rfl

theorem items_rename (c : String) (it : ItemTrait) (o : Output) :
    o.items c it = (o.items "dync" it).map (renameI c) := by
  have hr : Name.render c = renameP c ∘ Name.render "dync" := funext fun n => render_rename c n
  unfold Output.items
  simp only [List.map_append, List.map_map, List.map_cons, List.map_nil, renameI, Function.comp_def, hr, renameP]

/-! ### Theorems -/

/-- **C64**: `dync_crate_name` is honoured in every path of the generated code, and the other options have no effect:
the items are those generated without options, with the crate renamed. The macro fails only where it fails
without options, or if the name is no identifier. -/
theorem C64_dync_trait {ident : String → Bool} (hd : ident "dync" = true) {as : List DynAttrib} {c : String}
    (h : CrateName as c) (it : ItemTrait) :
    dyncTraitItems ident as it =
      if ident c then (dyncTraitItems ident [] it).map (List.map (renameI c)) else none := by
  unfold dyncTraitItems
  simp only [parse_name h, show (Config.parse []).dyncCrateName = "dync" from rfl, hd, if_true]
  cases dyncTrait it with
  | none => split <;> rfl
  | some o =>
    simp only [Option.bind_some]
    split
    · rw [items_rename c]; rfl
    · rfl

/-- **C64**: the same for a module. -/
theorem C64_dync_mod {ident : String → Bool} (hd : ident "dync" = true) {as : List DynAttrib} {c : String}
    (h : CrateName as c) (n : Nat) {items : List ItemTrait} (hne : items ≠ []) :
    dyncModItems ident as n items =
      if ident c then (dyncModItems ident [] n items).map (List.map (renameI c)) else none := by
  unfold dyncModItems
  simp only [parse_name h, show (Config.parse []).dyncCrateName = "dync" from rfl, hd, Bool.or_true, if_true]
  cases hos : dyncMod n items with
  | none => split <;> rfl
  | some os =>
    have hlen : os.isEmpty = false := by
      unfold dyncMod at hos
      obtain ⟨m, -, hos⟩ := Option.bind_eq_some_iff.1 hos
      cases items with
      | nil => exact absurd rfl hne
      | cons i is =>
        simp only [List.mapM_cons] at hos
        cases e1 : construct (fillDrop m) i with
        | none => rw [e1] at hos; cases hos
        | some o =>
          cases e2 : List.mapM (construct (fillDrop m)) is with
          | none => rw [e1, e2] at hos; cases hos
          | some os' => rw [e1, e2] at hos; cases hos; rfl
    simp only [Option.bind_some, hlen, Bool.false_or]
    split
    · simp only [Option.map_some, List.map_flatMap]
      congr 1
      exact List.flatMap_congr fun p _ => items_rename c p.1 p.2
    · rfl

/-- A trait that is not a std trait, spelled as the map keeps it. -/
theorem custom_not_builtin {k : Trait} (h : k.isBuiltin = false) : ∃ s, k = .custom s := by
  cases k <;> first | exact ⟨_, rfl⟩ | cases h

/-- The public items of `src/traits.rs`. -/
def traitsItems : List String :=
  ["DropBytes", "CloneBytes", "PartialEqBytes", "HashBytes", "DebugBytes",
   "CloneFn", "CloneFromFn", "CloneIntoRawFn", "EqFn", "HashFn", "FmtFn", "DropFn",
   "HasDrop", "HasClone", "HasHash", "HasPartialEq", "HasEq", "HasDebug", "HasSend", "HasSync",
   "DropVTable", "CloneVTable", "PartialEqVTable", "EqVTable", "HashVTable", "DebugVTable", "SendVTable", "SyncVTable"]

/-- A path refers to an existing public item of the named crate (src/lib.rs:25, 47, 62), or to an item generated
for one of these traits. -/
def Hygienic (c : String) (idents : List String) (p : GPath) : Prop :=
  (p = [c, "VTable"] ∨ p = [c, "downcast", "impl_downcast"] ∨ p = [c, "traits"] ∨ ∃ x ∈ traitsItems, p = [c, "traits", x]) ∨
  ∃ a ∈ idents, p = ["Has" ++ a] ∨ p = [a ++ "VTable"]

theorem hygienic_render {m : TraitMap} (hs : Sane m) {idents : List String} (hm : ∀ s, (m (.custom s)).isSome = true → s ∈ idents)
    (c : String) {k : Trait} {d : TraitData} (hd : m k = some d) :
    Hygienic c idents (Name.render c ⟨k.isBuiltin, d.hasTrait⟩) ∧ Hygienic c idents (Name.render c ⟨k.isBuiltin, d.vtableName⟩) ∧
      ∀ f ∈ d.methods, Hygienic c idents (Name.render c ⟨k.isBuiltin, fnType f⟩) ∧
        Hygienic c idents (Name.render c ⟨k.isBuiltin, d.bytesTrait⟩) := by
  cases hb : k.isBuiltin with
  | true =>
    obtain ⟨b, hbk⟩ : ∃ b, builtins k = some b := by
      cases k <;> first | exact ⟨_, rfl⟩ | (cases hb)
    obtain ⟨d1, h1, hp, hmt⟩ := hs.builtin k b hbk
    rw [hd] at h1; cases h1
    have hn : d.name = b.name := by unfold TraitData.name; rw [hp]
    have inn : ∀ x, x ∈ traitsItems → Hygienic c idents (Name.render c ⟨true, x⟩) :=
      fun x hx => .inl (.inr (.inr (.inr ⟨x, hx, rfl⟩)))
    have key : b.hasTrait ∈ traitsItems ∧ b.vtableName ∈ traitsItems ∧ ∀ f ∈ b.methods, fnType f ∈ traitsItems ∧ b.bytesTrait ∈ traitsItems := by
      cases k <;> simp only [builtins, Option.some.injEq, reduceCtorEq] at hbk <;> subst hbk <;> decide
    refine ⟨inn _ ?_, inn _ ?_, fun f hf => ?_⟩
    · unfold TraitData.hasTrait; rw [hn]; exact key.1
    · unfold TraitData.vtableName; rw [hn]; exact key.2.1
    · rw [hmt] at hf
      refine ⟨inn _ (key.2.2 f hf).1, inn _ ?_⟩
      unfold TraitData.bytesTrait; rw [hn]; exact (key.2.2 f hf).2
  | false =>
    obtain ⟨s, rfl⟩ := custom_not_builtin hb
    obtain ⟨s', e, hp, hmt⟩ := hs.user _ d rfl hd
    injection e with e; subst e
    have hn : d.name = s := by unfold TraitData.name; rw [hp]; rfl
    have hi := hm s (by rw [hd]; rfl)
    refine ⟨.inr ⟨s, hi, .inl ?_⟩, .inr ⟨s, hi, .inr ?_⟩, fun f hf => by rw [hmt] at hf; cases hf⟩
    · simp [Name.render, TraitData.hasTrait, hn]
    · simp [Name.render, TraitData.vtableName, hn]

/-- In the items of one trait, every path is into the named crate or to generated items. -/
theorem hygienic_items {m : TraitMap} (hs : Sane m) {idents : List String} (hm : ∀ s, (m (.custom s)).isSome = true → s ∈ idents)
    {it : ItemTrait} (hit : it.ident ∈ idents) {o : Output} (ho : construct m it = some o) (c : String) :
    ∀ i ∈ o.items c it, ∀ p ∈ paths i, Hygienic c idents p := by
  unfold construct at ho
  cases hd : m (Trait.ofIdent it.ident) with
  | none => simp [hd] at ho
  | some d =>
    simp only [hd, Option.some.injEq] at ho
    subst ho
    have impls : ∀ (ks : List Trait) (n : Nat), ∀ i ∈ hasImplsOf m n ks, Hygienic c idents (i.trt.render c) ∧
        ∀ a ∈ i.methods, Hygienic c idents (a.ret.render c) := by
      intro ks
      induction ks with
      | nil => intro n i hi; cases hi
      | cons k ks ih =>
        intro n i hi
        unfold hasImplsOf at hi
        cases hk : m k with
        | none => simp only [hk] at hi; exact ih _ i hi
        | some dk =>
          simp only [hk, List.mem_cons] at hi
          rcases hi with rfl | hi
          · refine ⟨(hygienic_render hs hm c hk).1, fun a ha => ?_⟩
            have acc : ∀ (fs : List String) (n : Nat), ∀ a ∈ accessorsOf k n fs, ∃ f ∈ fs, a.ret = ⟨k.isBuiltin, fnType f⟩ := by
              intro fs
              induction fs with
              | nil => intro n a ha; cases ha
              | cons f fs ih2 =>
                intro n a ha
                unfold accessorsOf at ha
                rcases List.mem_cons.1 ha with rfl | ha
                · exact ⟨f, by simp, rfl⟩
                · obtain ⟨g, hg, e⟩ := ih2 _ a ha
                  exact ⟨g, List.mem_cons_of_mem _ hg, e⟩
            obtain ⟨f, h1, h2⟩ := acc _ _ a ha
            rw [h2]
            exact ((hygienic_render hs hm c hk).2.2 f h1).1
          · exact ih _ i hi
    intro i hi p hp
    unfold Output.items at hi
    rcases List.mem_append.1 hi with hi | hi
    · rcases List.mem_append.1 hi with hi | hi
      · obtain ⟨j, hj, rfl⟩ := List.mem_map.1 hi
        obtain ⟨h1, h2⟩ := impls _ _ j hj
        rcases List.mem_cons.1 hp with rfl | hp
        · exact h1
        · obtain ⟨g, hg, rfl⟩ := List.mem_map.1 hp
          obtain ⟨a, ha, rfl⟩ := List.mem_map.1 hg
          exact h2 a ha
      · simp only [List.mem_cons, List.not_mem_nil, or_false] at hi
        rcases hi with rfl | rfl | rfl | rfl | rfl
        · obtain ⟨n, hn, rfl⟩ := List.mem_map.1 hp
          obtain ⟨k, -, e⟩ := List.mem_filterMap.1 hn
          obtain ⟨dk, hk, rfl⟩ := Option.map_eq_some_iff.1 e
          exact (hygienic_render hs hm c hk).1
        · rw [show p = ["Has" ++ it.ident] by simpa [paths] using hp]
          exact .inr ⟨_, hit, .inl rfl⟩
        · rw [show p = [c, "downcast", "impl_downcast"] by simpa [paths] using hp]
          exact .inl (.inr (.inl rfl))
        · obtain ⟨n, hn, rfl⟩ := List.mem_map.1 hp
          obtain ⟨k, -, hn⟩ := List.mem_flatMap.1 hn
          unfold fieldsOf at hn
          cases hk : m k with
          | none => simp [hk] at hn
          | some dk =>
            simp only [hk] at hn
            obtain ⟨f, hf, rfl⟩ := List.mem_map.1 hn
            exact ((hygienic_render hs hm c hk).2.2 f hf).1
        · rcases List.mem_cons.1 hp with rfl | hp
          · exact .inl (.inl rfl)
          · obtain ⟨q, hq, rfl⟩ := List.mem_map.1 hp
            obtain ⟨b, hb, rfl⟩ := List.mem_map.1 hq
            obtain ⟨k, -, hb⟩ := List.mem_flatMap.1 hb
            unfold buildOf at hb
            cases hk : m k with
            | none => simp [hk] at hb
            | some dk =>
              simp only [hk] at hb
              obtain ⟨f, hf, rfl⟩ := List.mem_map.1 hb
              exact ((hygienic_render hs hm c hk).2.2 f hf).2
    · obtain ⟨v, hv, rfl⟩ := List.mem_map.1 hi
      obtain ⟨k, -, e⟩ := List.mem_filterMap.1 hv
      obtain ⟨dk, hk, rfl⟩ := Option.map_eq_some_iff.1 e
      simp only [paths, List.mem_cons, List.not_mem_nil, or_false] at hp
      rcases hp with rfl | rfl
      · exact (hygienic_render hs hm c hk).2.1
      · exact .inl (.inr (.inr (.inl rfl)))

/-- What is kept while the map is filled and flattened. -/
def MapOk (idents : List String) (m : TraitMap) : Prop := Sane m ∧ ∀ s, (m (.custom s)).isSome = true → s ∈ idents

theorem mapOk_fill {idents : List String} {m : TraitMap} (h : MapOk idents m) {it : ItemTrait} (hit : it.ident ∈ idents) :
    MapOk idents (fillTraitMap m it) := by
  refine ⟨sane_fill h.1 it, fun s hs => ?_⟩
  cases hk : m (key it) with
  | some d =>
    unfold fillTraitMap at hs
    unfold key at hk
    rw [hk] at hs
    exact h.2 s hs
  | none =>
    rw [fill_get hk] at hs
    split at hs
    · next e =>
      have : Trait.ofIdent it.ident = .custom it.ident := ofIdent_custom (by
        unfold key at e; rw [← e]; rfl)
      unfold key at e
      rw [this] at e
      injection e with e
      rw [e]; exact hit
    · exact h.2 s hs

theorem mapOk_flatten {idents : List String} {n : Nat} {m m' : TraitMap} (h : MapOk idents m) {it : ItemTrait}
    (hf : flattenInheritance n m it = some m') : MapOk idents m' := by
  unfold flattenInheritance at hf
  cases hk : m (Trait.ofIdent it.ident) with
  | none => simp [hk] at hf
  | some d =>
    simp only [hk] at hf
    obtain ⟨parts, -, hf⟩ := Option.bind_eq_some_iff.1 hf
    injection hf with hf
    subst hf
    refine ⟨sane_update h.1 hk (d' := { d with superTraits := TSet.ofList parts.flatten }) rfl rfl (sorted_ofList _), fun s hs => ?_⟩
    unfold TraitMap.set at hs
    split at hs
    · next e => exact h.2 s (by rw [e, hk]; rfl)
    · exact h.2 s (by simpa [*] using hs)

theorem mapOk_foldlM {idents : List String} {n : Nat} : ∀ {items : List ItemTrait} {m m' : TraitMap}, MapOk idents m →
    items.foldlM (flattenInheritance n) m = some m' → MapOk idents m'
  | [], m, m', h, e => by cases e; exact h
  | it :: items, m, m', h, e => by
    rw [List.foldlM_cons] at e
    obtain ⟨m1, h1, e⟩ := Option.bind_eq_some_iff.1 e
    exact mapOk_foldlM (mapOk_flatten h h1) e

theorem mapOk_foldl {idents : List String} : ∀ {items : List ItemTrait} {m : TraitMap}, MapOk idents m →
    (∀ it ∈ items, it.ident ∈ idents) → MapOk idents (items.foldl fillTraitMap m)
  | [], _, h, _ => h
  | it :: items, m, h, hi => mapOk_foldl (items := items) (mapOk_fill h (hi it (by simp))) fun i hi' => hi i (List.mem_cons_of_mem _ hi')

theorem mapOk_drop {idents : List String} {m : TraitMap} (h : MapOk idents m) : MapOk idents (fillDrop m) :=
  ⟨sane_fillDrop h.1, fun s hs => h.2 s (by rwa [fillDrop_isSome] at hs)⟩

theorem mapOk_builtins (idents : List String) : MapOk idents builtins := ⟨sane_builtins, fun s hs => by cases hs⟩

theorem mapM_zip {α β : Type} {f : α → Option β} : ∀ {xs : List α} {ys : List β}, xs.mapM f = some ys →
    ∀ p ∈ xs.zip ys, p.1 ∈ xs ∧ f p.1 = some p.2
  | [], ys, _, p, hp => by simp at hp
  | x :: xs, ys, h, p, hp => by
    simp only [List.mapM_cons] at h
    obtain ⟨y, hy, h⟩ := Option.bind_eq_some_iff.1 h
    obtain ⟨ys', hys, h⟩ := Option.bind_eq_some_iff.1 h
    cases h
    rcases List.mem_cons.1 hp with rfl | hp
    · exact ⟨by simp, hy⟩
    · obtain ⟨h1, h2⟩ := mapM_zip hys p hp
      exact ⟨List.mem_cons_of_mem _ h1, h2⟩

/-- **C64**: generated code is hygienic, for every module on which the macro returns. All its paths lead into the crate
the user named or to items generated for the traits of the module; nothing else in the user's scope is picked up,
whatever it is called. -/
theorem C64_hygiene {ident : String → Bool} {as : List DynAttrib} {c : String} (hc : CrateName as c)
    {items : List ItemTrait} {n : Nat} {gs : List GItem} (hg : dyncModItems ident as n items = some gs) :
    ∀ i ∈ gs, ∀ p ∈ paths i, Hygienic c (items.map ItemTrait.ident) p := by
  unfold dyncModItems at hg
  rw [parse_name hc] at hg
  obtain ⟨os, hos, hg⟩ := Option.bind_eq_some_iff.1 hg
  split at hg
  · injection hg with hg
    subst hg
    unfold dyncMod at hos
    obtain ⟨m, hm, hos⟩ := Option.bind_eq_some_iff.1 hos
    have hok : MapOk (items.map ItemTrait.ident) (fillDrop m) :=
      mapOk_drop (mapOk_foldlM (mapOk_foldl (mapOk_builtins _) fun it hit => List.mem_map_of_mem hit) hm)
    intro i hi
    obtain ⟨p, hp, hi⟩ := List.mem_flatMap.1 hi
    obtain ⟨h1, h2⟩ := mapM_zip hos p hp
    exact hygienic_items hok.1 hok.2 (List.mem_map_of_mem h1) h2 c i hi
  · cases hg

/-- An impl is marked `unsafe`, exactly if it is one of the two traits of the crate that are. -/
def SafetyRight (c : String) : GItem → Prop
  | .hasImpl u p _ _ => u = true ↔ p = [c, "traits", "HasSend"] ∨ p = [c, "traits", "HasSync"]
  | _ => True

theorem safety_items {m : TraitMap} (hs : Sane m) {it : ItemTrait} {o : Output} (ho : construct m it = some o) (c : String) :
    ∀ i ∈ o.items c it, SafetyRight c i := by
  unfold construct at ho
  cases hd : m (Trait.ofIdent it.ident) with
  | none => simp [hd] at ho
  | some d =>
    simp only [hd, Option.some.injEq] at ho
    subst ho
    have one : ∀ k dk, m k = some dk → (k.isUnsafe = true ↔
        Name.render c ⟨k.isBuiltin, dk.hasTrait⟩ = [c, "traits", "HasSend"] ∨ Name.render c ⟨k.isBuiltin, dk.hasTrait⟩ = [c, "traits", "HasSync"]) := by
      intro k dk hk
      cases hb : k.isBuiltin with
      | true =>
        obtain ⟨b, hbk⟩ : ∃ b, builtins k = some b := by
          cases k with
          | custom s => cases hb
          | _ => exact ⟨_, rfl⟩
        obtain ⟨d1, h1, hp, -⟩ := hs.builtin k b hbk
        rw [hk] at h1; cases h1
        have hn : dk.hasTrait = b.hasTrait := by unfold TraitData.hasTrait TraitData.name; rw [hp]
        rw [hn]
        cases k <;> simp only [builtins, Option.some.injEq, reduceCtorEq] at hbk <;> subst hbk <;>
          simp only [Name.render, if_true, List.cons.injEq, true_and, and_true] <;> decide
      | false =>
        obtain ⟨s, rfl⟩ := custom_not_builtin hb
        simp [Name.render, Trait.isUnsafe]
    have impls : ∀ (ks : List Trait) (n : Nat), ∀ i ∈ hasImplsOf m n ks,
        (i.isUnsafe = true ↔ i.trt.render c = [c, "traits", "HasSend"] ∨ i.trt.render c = [c, "traits", "HasSync"]) := by
      intro ks
      induction ks with
      | nil => intro n i hi; cases hi
      | cons k ks ih =>
        intro n i hi
        unfold hasImplsOf at hi
        cases hk : m k with
        | none => simp only [hk] at hi; exact ih _ i hi
        | some dk =>
          simp only [hk, List.mem_cons] at hi
          rcases hi with rfl | hi
          · exact one k dk hk
          · exact ih _ i hi
    intro i hi
    unfold Output.items at hi
    rcases List.mem_append.1 hi with hi | hi
    · rcases List.mem_append.1 hi with hi | hi
      · obtain ⟨j, hj, rfl⟩ := List.mem_map.1 hi
        exact impls _ _ j hj
      · simp only [List.mem_cons, List.not_mem_nil, or_false] at hi
        rcases hi with rfl | rfl | rfl | rfl | rfl <;> first | exact trivial | simp [SafetyRight]
    · obtain ⟨v, hv, rfl⟩ := List.mem_map.1 hi
      exact trivial

/-- **C64**: among the generated impls, those of the traits of the crate that are unsafe are marked `unsafe`, and no
other one is: Rust rejects both a missing and a superfluous mark. -/
theorem C64_unsafe_impls {ident : String → Bool} {as : List DynAttrib} {c : String} (hc : CrateName as c)
    {items : List ItemTrait} {n : Nat} {gs : List GItem} (hg : dyncModItems ident as n items = some gs) :
    ∀ i ∈ gs, SafetyRight c i := by
  unfold dyncModItems at hg
  rw [parse_name hc] at hg
  obtain ⟨os, hos, hg⟩ := Option.bind_eq_some_iff.1 hg
  split at hg
  · injection hg with hg
    subst hg
    unfold dyncMod at hos
    obtain ⟨m, hm, hos⟩ := Option.bind_eq_some_iff.1 hos
    have hok : MapOk (items.map ItemTrait.ident) (fillDrop m) :=
      mapOk_drop (mapOk_foldlM (mapOk_foldl (mapOk_builtins _) fun it hit => List.mem_map_of_mem hit) hm)
    intro i hi
    obtain ⟨p, hp, hi⟩ := List.mem_flatMap.1 hi
    obtain ⟨h1, h2⟩ := mapM_zip hos p hp
    exact safety_items hok.1 h2 c i hi
  · cases hg

/-- **C64**: hygiene for a single trait. -/
theorem C64_hygiene_trait {ident : String → Bool} {as : List DynAttrib} {c : String} (hc : CrateName as c)
    {it : ItemTrait} {gs : List GItem} (hg : dyncTraitItems ident as it = some gs) :
    ∀ i ∈ gs, ∀ p ∈ paths i, Hygienic c [it.ident] p := by
  unfold dyncTraitItems at hg
  rw [parse_name hc] at hg
  obtain ⟨o, ho, hg⟩ := Option.bind_eq_some_iff.1 hg
  split at hg
  · injection hg with hg
    subst hg
    unfold dyncTrait at ho
    split at ho
    · cases ho
    have hok : MapOk [it.ident] (fillDrop (fillTraitMap builtins it)) := mapOk_drop (mapOk_fill (mapOk_builtins _) (by simp))
    exact hygienic_items hok.1 hok.2 (by simp) ho c
  · cases hg

/-- **C64**: a module without traits generates nothing, whatever the options are (even a crate name that is not
an identifier is accepted then). -/
theorem C64_dync_mod_empty (ident : String → Bool) (as : List DynAttrib) (n : Nat) : dyncModItems ident as n [] = some [] := rfl

/-- An item is made for the trait `a` with the table `t`: only these names are defined, and the macro of
`downcast_rs` is applied to the `Has` trait. -/
def MadeFor (a t : String) : GItem → Prop
  | .hasImpl _ _ s _ => s = t
  | .hasTrait n _ => n = "Has" ++ a
  | .downcast _ x => x = "Has" ++ a
  | .table n _ => n = t
  | .build b _ s _ => b = a ∧ s = t
  | .convert s _ _ _ _ => s = t

theorem madeFor_items {m : TraitMap} {it : ItemTrait} {o : Output} (ho : construct m it = some o) (c : String) :
    ∀ i ∈ o.items c it, MadeFor it.ident o.vtable i := by
  unfold construct at ho
  cases hd : m (Trait.ofIdent it.ident) with
  | none => simp [hd] at ho
  | some d =>
    simp only [hd, Option.some.injEq] at ho
    have hh : o.hasName = "Has" ++ it.ident := by subst ho; rfl
    intro i hi
    unfold Output.items at hi
    rcases List.mem_append.1 hi with hi | hi
    · rcases List.mem_append.1 hi with hi | hi
      · obtain ⟨j, hj, rfl⟩ := List.mem_map.1 hi; rfl
      · simp only [List.mem_cons, List.not_mem_nil, or_false] at hi
        rcases hi with rfl | rfl | rfl | rfl | rfl
        · exact hh
        · rfl
        · exact hh
        · rfl
        · exact ⟨rfl, rfl⟩
    · obtain ⟨v, hv, rfl⟩ := List.mem_map.1 hi; rfl

/-- **C64**: every generated item belongs to one of the traits of the module: it defines or implements
something for the table of that trait or its `Has` trait. -/
theorem C64_made_for {ident : String → Bool} {as : List DynAttrib} {items : List ItemTrait} {n : Nat} {gs : List GItem}
    (hg : dyncModItems ident as n items = some gs) :
    ∀ i ∈ gs, ∃ it ∈ items, ∃ t fs, GItem.table t fs ∈ gs ∧ MadeFor it.ident t i := by
  unfold dyncModItems at hg
  obtain ⟨os, hos, hg⟩ := Option.bind_eq_some_iff.1 hg
  split at hg
  · injection hg with hg
    subst hg
    unfold dyncMod at hos
    obtain ⟨m, hm, hos⟩ := Option.bind_eq_some_iff.1 hos
    intro i hi
    obtain ⟨p, hp, hi⟩ := List.mem_flatMap.1 hi
    obtain ⟨h1, h2⟩ := mapM_zip hos p hp
    refine ⟨p.1, h1, p.2.vtable, p.2.fields.map (Name.render (Config.parse as).dyncCrateName), List.mem_flatMap.2 ⟨p, hp, ?_⟩, madeFor_items h2 _ i hi⟩
    unfold Output.items
    exact List.mem_append_left _ (List.mem_append_right _ (List.mem_cons_of_mem _ (List.mem_cons_of_mem _
      (List.mem_cons_of_mem _ List.mem_cons_self))))
  · cases hg

theorem table_name {c : String} {it : ItemTrait} {o : Output} {n : String} {fs : List GPath}
    (h : GItem.table n fs ∈ o.items c it) : n = o.vtable := by
  simp [Output.items] at h
  exact h.1

/-- The meaning `suffix` is meant to have (dync-derive/src/lib.rs:314): the end of the name of the generated table. -/
def suffixMeant : Prop := ∀ (ident : String → Bool) (suf : String) (it : ItemTrait) (gs : List GItem), GoodName it.ident →
  dyncTraitItems ident [⟨"suffix", some (.str suf)⟩] it = some gs → ∃ fs, GItem.table (it.ident ++ suf) fs ∈ gs

/-- **C64**: the option is parsed and then ignored. -/
theorem C64_suffix_ignored : ¬ suffixMeant := by
  intro h
  have hn : GoodName "A" := by unfold GoodName; decide
  obtain ⟨o, ho, hv, -⟩ := C36_dync_trait (it := ⟨"A", [], false, false⟩) hn rfl rfl
  obtain ⟨fs, hfs⟩ := h (fun _ => true) "Table" ⟨"A", [], false, false⟩ (o.items "dync" ⟨"A", [], false, false⟩) hn (by
    unfold dyncTraitItems; rw [ho]; rfl)
  have := table_name hfs
  rw [hv] at this
  exact absurd this (by decide)

/-- **C64**: a user trait called like a std trait is taken for that trait: the table has the name of the builtin table
and lacks the functions of every supertrait the user wrote, whichever they are. -/
theorem C64_shadowed {it : ItemTrait} {k : Trait} (hk : ∀ s, k ≠ .custom s) (hid : it.ident ++ "VTable" = stdTable k)
    (hg : it.hasGenerics = false) (hw : it.hasWhere = false) :
    ∃ o, dyncTrait it = some o ∧ o.vtable = stdTable k ∧
      ∀ f g, o.call o.build f = some g ↔ ∃ k', ((k' = .drop ∧ k ≠ .drop) ∨ (k = .eq ∧ k' = .partialEq)) ∧ (f, g) ∈ stdFns k' := by
  obtain ⟨b, hb⟩ : ∃ b, builtins k = some b := by cases k <;> first | exact ⟨_, rfl⟩ | exact absurd rfl (hk _)
  have hkey : key it = k := by
    have : ∀ n, n ++ "VTable" = stdTable k → it.ident = n := fun n e => by
      have := congrArg String.toList (hid.trans e.symm)
      simp only [String.toList_append, List.append_cancel_right_eq] at this
      exact String.toList_inj.1 this
    unfold key
    cases k with
    | drop => rw [this "Drop" rfl]; rfl
    | clone => rw [this "Clone" rfl]; rfl
    | partialEq => rw [this "PartialEq" rfl]; rfl
    | eq => rw [this "Eq" rfl]; rfl
    | hash => rw [this "Hash" rfl]; rfl
    | debug => rw [this "Debug" rfl]; rfl
    | send => rw [this "Send" rfl]; rfl
    | sync => rw [this "Sync" rfl]; rfl
    | custom s => exact absurd rfl (hk s)
  have hfill : fillTraitMap builtins it = builtins := by
    unfold fillTraitMap
    unfold key at hkey
    rw [hkey, hb]
  have hsane := sane_fillDrop sane_builtins
  obtain ⟨d, hd⟩ : ∃ d, fillDrop builtins k = some d := by
    have := fillDrop_isSome (m := builtins) (k := k)
    rw [hb] at this
    exact Option.isSome_iff_exists.1 this
  obtain ⟨d0, h0, hp, hm, hs⟩ := fillDrop_some hd
  have hx : ∀ x, x ∈ d.superTraits ↔ (x = .drop ∧ k ≠ .drop) ∨ (k = .eq ∧ x = .partialEq) := by
    intro x
    rw [hs]
    rw [hb] at h0; cases h0
    cases k <;> simp only [builtins, Option.some.injEq, reduceCtorEq] at hb <;> subst hb <;> simp
  have hd2 : fillDrop builtins (key it) = some d := by rw [hkey]; exact hd
  obtain ⟨o, ho⟩ : ∃ o, construct (fillDrop builtins) it = some o := by
    unfold construct; unfold key at hd2; rw [hd2]; exact ⟨_, rfl⟩
  refine ⟨o, by unfold dyncTrait; rw [hg, hw, hfill]; exact ho, ?_, ?_⟩
  · have := (std_entry hsane hk hd hx).2
    unfold construct at ho
    unfold key at hd2
    simp only [hd2] at ho
    rw [← Option.some_inj.1 ho]
    injection this
  · intro f g
    rw [call_iff hsane hd2 ho]
    constructor
    · rintro ⟨k', h1, h2⟩; exact ⟨k', (hx k').1 h1, h2⟩
    · rintro ⟨k', h1, h2⟩; exact ⟨k', (hx k').2 h1, h2⟩

example := C64_shadowed (it := ⟨"Send", [.trait false false (plain ["Clone"])], false, false⟩) (k := .send) (by simp) (by decide) rfl rfl
example := C64_dync_trait (ident := fun s => s ≠ "my-dync") (by decide) (as := [⟨"suffix", some (.str "T")⟩, ⟨"dync_crate_name", some (.str "d2")⟩])
  (.last (as := [⟨"suffix", some (.str "T")⟩]) (bs := []) (by simp)) Ex.base
example : (dyncTraitItems (fun s => s ≠ "my-dync") [⟨"dync_crate_name", some (.str "d2")⟩] ⟨"A", [], false, false⟩).map List.length = some 7 := by decide
example := C64_dync_mod (ident := fun s => s ≠ "my-dync") (by decide) (as := [⟨"dync_crate_name", some (.str "my-dync")⟩])
  (.last (as := []) (bs := []) (by simp)) 5 (items := [Ex.val, Ex.base]) (by simp)
example {gs : List GItem} (h : dyncModItems (fun _ => true) [] 3 [Ex.val, Ex.base] = some gs) :=
  C64_hygiene (.default (by simp)) h
example : ((dyncModItems (fun _ => true) [] 3 [Ex.val, Ex.base]).map List.length) = some 28 := by decide +kernel
example {gs : List GItem} (h : dyncModItems (fun _ => true) [] 3 [Ex.val, Ex.base] = some gs) := C64_made_for h
example {gs : List GItem} (h : dyncModItems (fun _ => true) [] 3 [⟨"S", [.trait false false (plain ["Send"])], false, false⟩] = some gs) :=
  C64_unsafe_impls (.default (by simp)) h
example : (dyncModItems (fun _ => true) [] 3 [⟨"S", [.trait false false (plain ["Send"])], false, false⟩]).map (fun gs =>
    decide (.hasImpl true ["dync", "traits", "HasSend"] "SVTable" [] ∈ gs)) = some true := by decide +kernel
example := C64_dync_mod_empty (fun s => s ≠ "my-dync") [⟨"dync_crate_name", some (.str "my-dync")⟩] 5
example {gs : List GItem} (h : dyncTraitItems (fun _ => true) [] Ex.base = some gs) := C64_hygiene_trait (.default (by simp)) h

end Dync
