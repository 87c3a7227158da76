/-!
# `dync-derive/src/lib.rs`: `#[dync_trait]` and `#[dync_mod]`

The macros are modelled as functions from the parsed input to the generated code, both as data.
Simplifications:

* strings holding paths are lists of their segments (`syn::parse_str` of the path strings in the
  source always succeeds);
* the case conversions of `heck` are only ever applied to the seven method names of `builtins`, which
  are in snake case already, so `to_snek_case` is the identity on them;
* `Span`s, visibilities and attributes are left out;
* empty argument lists (`Clone<>`) and raw identifiers (`r#Clone`) are left out;
* recursion depth (`union_children`) is bounded by a `fuel`; `none` stands for "the macro does not
  return" (it panics or its stack overflows).
-/
namespace Dync.Derive

/-! ### Input -/

/-- A segment of a path: identifier and whether it has generic arguments. -/
structure Seg where
  ident : String
  hasArgs : Bool
deriving DecidableEq

/-- `syn::Path`. -/
structure Path where
  leadingColon : Bool
  segs : List Seg
deriving DecidableEq


/-- `syn::TypeParamBound`. `maybe` is the modifier `?`. -/
inductive Bound where
  | trait (hasLifetimes maybe : Bool) (path : Path)
  | lifetime
deriving DecidableEq

/-- `syn::ItemTrait`, as far as it is used by the macro. -/
structure ItemTrait where
  ident : String
  supertraits : List Bound
  hasGenerics : Bool := false
  hasWhere : Bool := false
deriving DecidableEq

/-! ### Traits and sets of traits -/

/-- `enum Trait` (dync-derive/src/lib.rs:127-138). -/
inductive Trait where
  | drop | clone | partialEq | eq | hash | debug | send | sync
  | custom (s : String)
deriving DecidableEq

/-- Position of the variant in the derived `Ord` (dync-derive/src/lib.rs:127). -/
def Trait.rank : Trait → Nat
  | .drop => 0 | .clone => 1 | .partialEq => 2 | .eq => 3 | .hash => 4 | .debug => 5 | .send => 6
  | .sync => 7 | .custom _ => 8

/-- The derived `Ord` of `Trait` (dync-derive/src/lib.rs:127). Strings are compared by their UTF-8
bytes, which is the same as comparing the code points. -/
def Trait.lt (a b : Trait) : Bool :=
  match a, b with
  | .custom s, .custom s' => decide (s.toList < s'.toList)
  | a, b => decide (a.rank < b.rank)

/-- `Trait::is_unsafe` (dync-derive/src/lib.rs:141-143). -/
def Trait.isUnsafe : Trait → Bool
  | .send | .sync => true
  | _ => false

/-- `BTreeSet<Trait>`: the elements in the order of iteration. -/
abbrev TSet := List Trait

/-- Put `x` at its place in an ordered list. -/
def insertSorted (x : Trait) : TSet → TSet
  | [] => [x]
  | y :: l => if x.lt y then x :: y :: l else y :: insertSorted x l

/-- `BTreeSet::insert`. -/
def TSet.insert (x : Trait) (s : TSet) : TSet := if x ∈ s then s else insertSorted x s

/-- `BTreeSet::extend`. -/
def TSet.extend (s : TSet) (xs : List Trait) : TSet := xs.foldl (fun s x => TSet.insert x s) s

/-- `BTreeSet::from_iter`. -/
def TSet.ofList (xs : List Trait) : TSet := TSet.extend [] xs

/-- `From<String> for Trait` (dync-derive/src/lib.rs:154-168). Only applied to identifiers, which
contain no `::`. -/
def Trait.ofIdent (s : String) : Trait :=
  if s = "Drop" then .drop
  else if s = "Clone" then .clone
  else if s = "PartialEq" then .partialEq
  else if s = "Eq" then .eq
  else if s = "Hash" then .hash
  else if s = "Debug" then .debug
  else if s = "Send" then .send
  else if s = "Sync" then .sync
  else .custom s

/-- `format!("{}", quote! { #path })`: the tokens separated by spaces. Generic arguments do not
occur here (see `resolveBound`). -/
def Path.tokens (p : Path) : String :=
  (if p.leadingColon then ":: " else "") ++ String.intercalate " :: " (p.segs.map Seg.ident)

/-- A path of plain identifiers. -/
def plain (xs : List String) : Path := ⟨false, xs.map fun s => ⟨s, false⟩⟩

/-- `From<Path> for Trait` (dync-derive/src/lib.rs:170-184). -/
def Trait.ofPath (p : Path) : Trait :=
  if p = plain ["Drop"] then .drop
  else if p = plain ["Clone"] then .clone
  else if p = plain ["PartialEq"] then .partialEq
  else if p = plain ["Eq"] then .eq
  else if p = plain ["std", "hash", "Hash"] then .hash
  else if p = plain ["std", "fmt", "Debug"] then .debug
  else if p = plain ["Send"] then .send
  else if p = plain ["Sync"] then .sync
  else .custom p.tokens

/-! ### Trait data -/

/-- `TraitData` (dync-derive/src/lib.rs:64-69); `path` by segments, `methods` by name. -/
structure TraitData where
  path : List String
  methods : List String
  superTraits : TSet
deriving DecidableEq

/-- The last segment of the path (as used in dync-derive/src/lib.rs:75-90). -/
def TraitData.name (d : TraitData) : String := d.path.getLast?.getD ""
/-- `has_trait` (dync-derive/src/lib.rs:75-79). -/
def TraitData.hasTrait (d : TraitData) : String := "Has" ++ d.name
/-- `bytes_trait` (dync-derive/src/lib.rs:80-84). -/
def TraitData.bytesTrait (d : TraitData) : String := d.name ++ "Bytes"
/-- `vtable_name` (dync-derive/src/lib.rs:85-90): the configured suffix is not used. -/
def TraitData.vtableName (d : TraitData) : String := d.name ++ "VTable"

/-- `TraitMethod::fn_type` (dync-derive/src/lib.rs:107-112): `to_upper_camel_case` on the names that
occur. -/
def fnType (m : String) : String :=
  (if m = "drop" then "Drop" else if m = "clone" then "Clone" else if m = "clone_from" then "CloneFrom"
   else if m = "clone_into_raw" then "CloneIntoRaw" else if m = "eq" then "Eq"
   else if m = "hash" then "Hash" else if m = "fmt" then "Fmt" else m) ++ "Fn"
/-- `TraitMethod::bytes_fn` (dync-derive/src/lib.rs:113-118). -/
def bytesFn (m : String) : String := m ++ "_bytes"
/-- `TraitMethod::has_fn` (dync-derive/src/lib.rs:119-124). -/
def hasFn (m : String) : String := m ++ "_fn"

/-- `TraitMap` (dync-derive/src/lib.rs:12). -/
abbrev TraitMap := Trait → Option TraitData

/-- `BUILTINS` (dync-derive/src/lib.rs:186-259). -/
def builtins : TraitMap
  | .drop => some ⟨["Drop"], ["drop"], []⟩
  | .clone => some ⟨["Clone"], ["clone", "clone_from", "clone_into_raw"], []⟩
  | .partialEq => some ⟨["PartialEq"], ["eq"], []⟩
  | .eq => some ⟨["Eq"], [], [.partialEq]⟩
  | .hash => some ⟨["std", "hash", "Hash"], ["hash"], []⟩
  | .debug => some ⟨["std", "fmt", "Debug"], ["fmt"], []⟩
  | .send => some ⟨["Send"], [], []⟩
  | .sync => some ⟨["Sync"], [], []⟩
  | .custom _ => none

/-- `BUILTINS.contains_key` (dync-derive/src/lib.rs:145). -/
def Trait.isBuiltin (k : Trait) : Bool := (builtins k).isSome

/-- Overwrite one entry of a map. -/
def TraitMap.set (m : TraitMap) (k : Trait) (d : Option TraitData) : TraitMap :=
  fun k' => if k' = k then d else m k'

/-- The closure of `filter_map` in `fill_trait_map_from_item_trait` (dync-derive/src/lib.rs:357-379). -/
def resolveBound : Bound → Option Trait
  | .trait lts q p =>
    if lts || q then none
    else if p.segs.all fun s => !s.hasArgs then some (Trait.ofPath p) else none
  | .lifetime => none

/-- `fill_trait_map_from_item_trait` (dync-derive/src/lib.rs:349-386): an existing entry is kept. -/
def fillTraitMap (m : TraitMap) (it : ItemTrait) : TraitMap :=
  match m (Trait.ofIdent it.ident) with
  | some _ => m
  | none => m.set (Trait.ofIdent it.ident)
      (some ⟨[it.ident], [], TSet.ofList (it.supertraits.filterMap resolveBound)⟩)

/-- `union_children` (dync-derive/src/lib.rs:404-413). -/
def unionChildren : Nat → TraitMap → Trait → Option TSet
  | 0, _, _ => none
  | fuel + 1, m, k =>
    match m k with
    | none => some []
    | some d =>
      d.superTraits.foldlM (fun res s => (unionChildren fuel m s).map fun c => TSet.extend res c)
        (TSet.ofList d.superTraits)

/-- `flatten_inheritance` (dync-derive/src/lib.rs:388-402). The entry is taken out of the map while
its supertraits are followed; `unwrap` panics if there is none. -/
def flattenInheritance (fuel : Nat) (m : TraitMap) (it : ItemTrait) : Option TraitMap :=
  let k := Trait.ofIdent it.ident
  match m k with
  | none => none
  | some d => do
    let m' := m.set k none
    let parts ← d.superTraits.mapM fun s => (unionChildren fuel m' s).map fun c => c ++ [s]
    some (m'.set k (some { d with superTraits := TSet.ofList parts.flatten }))

/-- `fill_and_flatten_trait_map_from_mod` (dync-derive/src/lib.rs:324-338). -/
def fillAndFlatten (fuel : Nat) (items : List ItemTrait) : Option TraitMap :=
  items.foldlM (flattenInheritance fuel) (items.foldl fillTraitMap builtins)

/-- `fill_drop_for_inheritance` (dync-derive/src/lib.rs:341-347). -/
def fillDrop (m : TraitMap) : TraitMap := fun k =>
  if k = .drop then m k else (m k).map fun d => { d with superTraits := TSet.insert .drop d.superTraits }

/-! ### Generated code -/

/-- `#prefix #name`: a name, in the crate's `traits` module if `prefixed` (`Trait::prefix`,
dync-derive/src/lib.rs:144-151). -/
structure Name where
  prefixed : Bool
  name : String
deriving DecidableEq

/-- `fn #has_fn(&self) -> &#prefix #fn_ty { &self.#fn_idx }` (dync-derive/src/lib.rs:522-533). -/
structure Accessor where
  name : String
  ret : Name
  idx : Nat
deriving DecidableEq

/-- `#maybe_unsafe impl #prefix #has_trait for #vtable_name { #methods }` (dync-derive/src/lib.rs:545-551). -/
structure HasImpl where
  isUnsafe : Bool
  trt : Name
  methods : List Accessor
deriving DecidableEq

/-- `<T as #prefix #bytes_trait>::#bytes_fn` (dync-derive/src/lib.rs:581): a function of the element type `T`. -/
structure BytesFn where
  trt : Name
  fn : String
deriving DecidableEq

/-- `impl From<#vtable_name> for #prefix #base_vtable_name` (dync-derive/src/lib.rs:647-655): the accessors called on `derived`. -/
structure Conv where
  dst : Name
  exprs : List String
deriving DecidableEq

/-- What `construct_dync_items` generates for a trait (dync-derive/src/lib.rs:495-662). -/
structure Output where
  /-- name and fields of the struct -/
  vtable : String
  fields : List Name
  hasImpls : List HasImpl
  /-- `trait #has_trait: #has_impl_deps {}` and its impl for the table -/
  hasName : String
  hasDeps : List Name
  /-- arguments of the constructor call in `build_vtable` -/
  build : List BytesFn
  convs : List Conv
deriving DecidableEq

/-- The fields of `vtable_struct_def` (dync-derive/src/lib.rs:465-487) contributed by one supertrait. -/
def fieldsOf (m : TraitMap) (k : Trait) : List Name :=
  match m k with
  | none => []
  | some d => d.methods.map fun f => ⟨k.isBuiltin, fnType f⟩

/-- The arguments of the constructor contributed by one supertrait (dync-derive/src/lib.rs:566-584). -/
def buildOf (m : TraitMap) (k : Trait) : List BytesFn :=
  match m k with
  | none => []
  | some d => d.methods.map fun f => ⟨⟨k.isBuiltin, d.bytesTrait⟩, bytesFn f⟩

/-- The accessors of one supertrait, numbered from `idx` (dync-derive/src/lib.rs:522-533). -/
def accessorsOf (k : Trait) (idx : Nat) : List String → List Accessor
  | [] => []
  | f :: fs => ⟨hasFn f, ⟨k.isBuiltin, fnType f⟩, idx⟩ :: accessorsOf k (idx + 1) fs

/-- The loop generating `Has*` impls (dync-derive/src/lib.rs:513-549). -/
def hasImplsOf (m : TraitMap) (idx : Nat) : List Trait → List HasImpl
  | [] => []
  | k :: ks =>
    match m k with
    | none => hasImplsOf m idx ks
    | some d => ⟨k.isUnsafe, ⟨k.isBuiltin, d.hasTrait⟩, accessorsOf k idx d.methods⟩ ::
        hasImplsOf m (idx + d.methods.length) ks

/-- The accessors a conversion into the table of supertrait `k` calls (dync-derive/src/lib.rs:609-628). -/
def convExprs (m : TraitMap) (d : TraitData) : List String :=
  (d.superTraits.flatMap fun s =>
    match m s with
    | none => []
    | some ds => ds.methods.map hasFn) ++ d.methods.map hasFn

/-- The generated conversion for one supertrait (dync-derive/src/lib.rs:606-655). -/
def convOf (m : TraitMap) (k : Trait) : Option Conv :=
  (m k).map fun d => ⟨⟨k.isBuiltin, d.vtableName⟩, convExprs m d⟩

/-- `construct_dync_items` (dync-derive/src/lib.rs:495-662); `unwrap` panics if the trait has not been
entered into the map. -/
def construct (m : TraitMap) (it : ItemTrait) : Option Output :=
  match m (Trait.ofIdent it.ident) with
  | none => none
  | some d => some {
      vtable := d.vtableName
      fields := d.superTraits.flatMap (fieldsOf m)
      hasImpls := hasImplsOf m 0 d.superTraits
      hasName := "Has" ++ it.ident
      hasDeps := d.superTraits.filterMap fun k => (m k).map fun d => ⟨k.isBuiltin, d.hasTrait⟩
      build := d.superTraits.flatMap (buildOf m)
      convs := d.superTraits.filterMap (convOf m) }

/-- `dync_trait` (dync-derive/src/lib.rs:416-442) with `validate_item_trait` (445-454): generics and
where clauses are rejected. -/
def dyncTrait (it : ItemTrait) : Option Output :=
  if it.hasGenerics || it.hasWhere then none
  else construct (fillDrop (fillTraitMap builtins it)) it

/-- `dync_mod` (dync-derive/src/lib.rs:262-295) on the traits of the module, in order. -/
def dyncMod (fuel : Nat) (items : List ItemTrait) : Option (List Output) := do
  let m ← fillAndFlatten fuel items
  items.mapM (construct (fillDrop m))

/-! ### What the generated code computes

A virtual table for an element type `T` is the list of functions in its fields; functions are kept
symbolic as the `BytesFn` that denotes them. -/

/-- A call `derived.#f()`: the accessor of that name in any of the `Has*` impls (all of which are in
scope in the generated code). -/
def Output.call (o : Output) (vt : List BytesFn) (f : String) : Option BytesFn :=
  match (o.hasImpls.flatMap HasImpl.methods).find? fun a => a.name == f with
  | some a => vt[a.idx]?
  | none => none

/-- `Base::from(derived)` for a conversion `c` of `o` (the generated code of dync-derive/src/lib.rs:647-655). -/
def Output.convert (o : Output) (c : Conv) (vt : List BytesFn) : Option (List BytesFn) :=
  c.exprs.mapM (o.call vt)

/-- `build_vtable` of the builtin tables (src/traits.rs:169-221), in the same notation. -/
def builtinTable : Trait → Option (List BytesFn)
  | .drop => some [⟨⟨true, "DropBytes"⟩, "drop_bytes"⟩]
  | .clone => some [⟨⟨true, "DropBytes"⟩, "drop_bytes"⟩, ⟨⟨true, "CloneBytes"⟩, "clone_bytes"⟩,
      ⟨⟨true, "CloneBytes"⟩, "clone_from_bytes"⟩, ⟨⟨true, "CloneBytes"⟩, "clone_into_raw_bytes"⟩]
  | .partialEq => some [⟨⟨true, "DropBytes"⟩, "drop_bytes"⟩, ⟨⟨true, "PartialEqBytes"⟩, "eq_bytes"⟩]
  | .eq => some [⟨⟨true, "DropBytes"⟩, "drop_bytes"⟩, ⟨⟨true, "PartialEqBytes"⟩, "eq_bytes"⟩]
  | .hash => some [⟨⟨true, "DropBytes"⟩, "drop_bytes"⟩, ⟨⟨true, "HashBytes"⟩, "hash_bytes"⟩]
  | .debug => some [⟨⟨true, "DropBytes"⟩, "drop_bytes"⟩, ⟨⟨true, "DebugBytes"⟩, "fmt_bytes"⟩]
  | .send => some [⟨⟨true, "DropBytes"⟩, "drop_bytes"⟩]
  | .sync => some [⟨⟨true, "DropBytes"⟩, "drop_bytes"⟩]
  | .custom _ => none

end Dync.Derive
