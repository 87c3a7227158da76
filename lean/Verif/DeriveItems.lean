import Verif.Derive
/-!
# `dync-derive/src/lib.rs`: options of the macros and the generated items; the declarations in
`src/traits.rs` the items refer to

`Derive.lean` computes what is generated; here the items are written out in the order in which the macro
emits them, with the paths in front of the names. Bodies that do not depend on the input (`impl_downcast!`)
are single constructors.
-/
namespace Dync.Derive

/-! ### Options -/

/-- `syn::Lit`, as far as it is told apart (dync-derive/src/lib.rs:53-56). -/
inductive Lit where
  | str (s : String)
  | other (s : String)
deriving DecidableEq

/-- `DynAttrib` (dync-derive/src/lib.rs:31-34); parsing one (36-43) accepts `name`, `name = lit` and `name lit`. -/
structure DynAttrib where
  ident : String
  value : Option Lit
deriving DecidableEq

/-- `Config` (dync-derive/src/lib.rs:14-19). -/
structure Config where
  dyncCrateName : String
  suffix : String
  buildVtableOnly : Bool
deriving DecidableEq

/-- `Config::default` (dync-derive/src/lib.rs:21-29). -/
def Config.default : Config := ⟨"dync", "VTable", false⟩

/-- One iteration of the loop in `Config::parse` (dync-derive/src/lib.rs:49-59): unknown options, and known
options with an unexpected value, are ignored. -/
def Config.step (c : Config) (a : DynAttrib) : Config :=
  match a.ident, a.value with
  | "build_vtable_only", none => { c with buildVtableOnly := true }
  | "dync_crate_name", some (.str s) => { c with dyncCrateName := s }
  | "suffix", some (.str s) => { c with suffix := s }
  | _, _ => c

/-- `Config::parse` (dync-derive/src/lib.rs:45-62). -/
def Config.parse (as : List DynAttrib) : Config := as.foldl Config.step Config.default

/-! ### Items -/

/-- A path in the generated code. -/
abbrev GPath := List String

/-- `#prefix #name` with `Trait::prefix` (dync-derive/src/lib.rs:144-151). -/
def Name.render (crate : String) (n : Name) : GPath :=
  if n.prefixed then [crate, "traits", n.name] else [n.name]

/-- `fn #has_fn(&self) -> &#fn_ty { &self.#fn_idx }`. -/
structure GMethod where
  name : String
  ret : GPath
  idx : Nat
deriving DecidableEq

/-- The items `construct_dync_items` emits. -/
inductive GItem where
  /-- `#maybe_unsafe impl #trt for #self { #methods }` -/
  | hasImpl (isUnsafe : Bool) (trt : GPath) (self : String) (methods : List GMethod)
  /-- `trait #name: #deps {}` -/
  | hasTrait (name : String) (deps : List GPath)
  /-- `#mac!(#arg);` -/
  | downcast (mac : GPath) (arg : String)
  /-- `struct #name(#fields);` -/
  | table (name : String) (fields : List GPath)
  /-- `impl<T: #bound + 'static> #trt<T> for #self { fn build_vtable() -> #self { #self(<T as #0>::#1, ..) } }` -/
  | build (bound : String) (trt : GPath) (self : String) (args : List (GPath × String))
  /-- `impl From<#src> for #dst { fn from(derived) { use #glob::*; #ctor(*derived.#0(), ..) } }` -/
  | convert (src : String) (dst : GPath) (glob : GPath) (ctor : String) (calls : List String)
deriving DecidableEq

/-- The list returned by `construct_dync_items` (dync-derive/src/lib.rs:495-662), in order. -/
def Output.items (crate : String) (it : ItemTrait) (o : Output) : List GItem :=
  (o.hasImpls.map fun i => .hasImpl i.isUnsafe (i.trt.render crate) o.vtable
    (i.methods.map fun a => ⟨a.name, a.ret.render crate, a.idx⟩)) ++
  [.hasTrait o.hasName (o.hasDeps.map (Name.render crate)),
   .hasImpl false [o.hasName] o.vtable [],
   .downcast [crate, "downcast", "impl_downcast"] o.hasName,
   .table o.vtable (o.fields.map (Name.render crate)),
   .build it.ident [crate, "VTable"] o.vtable (o.build.map fun b => (b.trt.render crate, b.fn))] ++
  o.convs.map fun c => .convert o.vtable (c.dst.render crate) [crate, "traits"] c.dst.name c.exprs

/-- `#[dync_trait(..)]` (dync-derive/src/lib.rs:415-442). `ident` says whether `Ident::new` accepts a string;
it panics otherwise (dync-derive/src/lib.rs:146, 589). -/
def dyncTraitItems (ident : String → Bool) (as : List DynAttrib) (it : ItemTrait) : Option (List GItem) :=
  let crate := (Config.parse as).dyncCrateName
  (dyncTrait it).bind fun o => if ident crate then some (o.items crate it) else none

/-- `#[dync_mod(..)]` (dync-derive/src/lib.rs:261-295). A module without traits generates nothing, whatever
the options. -/
def dyncModItems (ident : String → Bool) (as : List DynAttrib) (fuel : Nat) (items : List ItemTrait) :
    Option (List GItem) :=
  let crate := (Config.parse as).dyncCrateName
  (dyncMod fuel items).bind fun os =>
    if os.isEmpty || ident crate then some ((items.zip os).flatMap fun p => p.2.items crate p.1) else none

/-! ### `src/traits.rs`, what the generated items refer to -/

/-- A trait declaration. -/
structure HasDecl where
  isUnsafe : Bool
  supers : List Name
  methods : List (String × Name)
deriving DecidableEq

/-- The `Has*` traits (src/traits.rs:116-150). `Downcast` is left out: every `'static` type implements it. -/
def hasDecl : String → Option HasDecl
  | "HasDrop" => some ⟨false, [], [("drop_fn", ⟨true, "DropFn"⟩)]⟩
  | "HasClone" => some ⟨false, [], [("clone_fn", ⟨true, "CloneFn"⟩), ("clone_from_fn", ⟨true, "CloneFromFn"⟩),
      ("clone_into_raw_fn", ⟨true, "CloneIntoRawFn"⟩)]⟩
  | "HasHash" => some ⟨false, [], [("hash_fn", ⟨true, "HashFn"⟩)]⟩
  | "HasPartialEq" => some ⟨false, [], [("eq_fn", ⟨true, "EqFn"⟩)]⟩
  | "HasEq" => some ⟨false, [⟨true, "HasPartialEq"⟩], []⟩
  | "HasDebug" => some ⟨false, [], [("fmt_fn", ⟨true, "FmtFn"⟩)]⟩
  | "HasSend" => some ⟨true, [], []⟩
  | "HasSync" => some ⟨true, [], []⟩
  | _ => none

/-- The types of the functions in the `*Bytes` traits (src/traits.rs:14-48), by the alias that denotes them
(src/traits.rs:106-112). The seven aliases denote different types. -/
def bytesFnType : BytesFn → Option Name
  | ⟨⟨true, "DropBytes"⟩, "drop_bytes"⟩ => some ⟨true, "DropFn"⟩
  | ⟨⟨true, "CloneBytes"⟩, "clone_bytes"⟩ => some ⟨true, "CloneFn"⟩
  | ⟨⟨true, "CloneBytes"⟩, "clone_from_bytes"⟩ => some ⟨true, "CloneFromFn"⟩
  | ⟨⟨true, "CloneBytes"⟩, "clone_into_raw_bytes"⟩ => some ⟨true, "CloneIntoRawFn"⟩
  | ⟨⟨true, "PartialEqBytes"⟩, "eq_bytes"⟩ => some ⟨true, "EqFn"⟩
  | ⟨⟨true, "HashBytes"⟩, "hash_bytes"⟩ => some ⟨true, "HashFn"⟩
  | ⟨⟨true, "DebugBytes"⟩, "fmt_bytes"⟩ => some ⟨true, "FmtFn"⟩
  | _ => none

/-- The std trait a type must implement to have one of the `*Bytes` traits (src/traits.rs:49-103); `none` for
`DropBytes`, which every type has. -/
def bytesBound : Name → Option (Option Trait)
  | ⟨true, "DropBytes"⟩ => some none
  | ⟨true, "CloneBytes"⟩ => some (some .clone)
  | ⟨true, "PartialEqBytes"⟩ => some (some .partialEq)
  | ⟨true, "HashBytes"⟩ => some (some .hash)
  | ⟨true, "DebugBytes"⟩ => some (some .debug)
  | _ => none

/-- The fields of the tables (src/traits.rs:152-167). -/
def tableFields : String → Option (List Name)
  | "DropVTable" => some [⟨true, "DropFn"⟩]
  | "CloneVTable" => some [⟨true, "DropFn"⟩, ⟨true, "CloneFn"⟩, ⟨true, "CloneFromFn"⟩, ⟨true, "CloneIntoRawFn"⟩]
  | "PartialEqVTable" => some [⟨true, "DropFn"⟩, ⟨true, "EqFn"⟩]
  | "EqVTable" => some [⟨true, "DropFn"⟩, ⟨true, "EqFn"⟩]
  | "HashVTable" => some [⟨true, "DropFn"⟩, ⟨true, "HashFn"⟩]
  | "DebugVTable" => some [⟨true, "DropFn"⟩, ⟨true, "FmtFn"⟩]
  | "SendVTable" => some [⟨true, "DropFn"⟩]
  | "SyncVTable" => some [⟨true, "DropFn"⟩]
  | _ => none

end Dync.Derive
