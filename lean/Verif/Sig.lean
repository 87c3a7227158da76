/-!
# Signature translation of `dync_trait_method`

Model of `dync_fn_sig` and its helpers (dync-derive/src/lib.rs:798-1181): the part of the macro that
rewrites the signature of a trait method into a signature on byte slices. Types are `syn` syntax trees;
a panic of the macro (a failed `assert!`, a `panic!` or an `unwrap` on a parse error) is `none`.
-/
namespace Dync.Sig

/-! ## Syntax (`syn::Type` and its parts)

Simplified: spans, attributes of types, `unsafe`/`extern` of function pointers and binders (`for<'a>`)
are dropped; lifetimes are strings; generic arguments that are neither types nor bindings
(lifetimes, constants, constraints) are `other`. -/
mutual
/-- `syn::Type`. A `Type::Path` without `qself` is `path`, with it (`<T as A>::B`, `<T>::B`) `qpath`; the
path of the latter is never a single segment without leading colon (syn stores `<T>::B` with the colon).
`verbatim` stands for `!`, `_`, macros and token streams. -/
inductive Ty where
  | array (elem : Ty) (len : String)
  | bareFn (inputs : List Ty) (output : Option Ty)
  | group (elem : Ty)
  | implTrait (bounds : List Bound)
  | paren (elem : Ty)
  | path (leading : Bool) (segs : List Seg)
  | qpath (qself : Ty) (segs : List Seg)
  | ptr (mutable : Bool) (elem : Ty)
  | reference (lifetime : Option String) (mutable : Bool) (elem : Ty)
  | slice (elem : Ty)
  | traitObject (bounds : List Bound)
  | tuple (elems : List Ty)
  | verbatim (s : String)
/-- `syn::PathSegment`. -/
inductive Seg where
  | mk (ident : String) (args : Args)
/-- `syn::PathArguments`. -/
inductive Args where
  | none
  | angle (args : List GArg)
  | parens (inputs : List Ty) (output : Option Ty)
/-- `syn::GenericArgument`. -/
inductive GArg where
  | ty (t : Ty)
  | binding (name : String) (t : Ty)
  | other (s : String)
/-- `syn::TypeParamBound`. -/
inductive Bound where
  | trait (leading : Bool) (segs : List Seg)
  | lifetime (s : String)
end

def Seg.ident : Seg → String
  | .mk i _ => i
def Seg.args : Seg → Args
  | .mk _ a => a

/-- `PathArguments::is_empty` of syn: no arguments, or `<>`. -/
def Args.isEmpty : Args → Bool
  | .none => true
  | .angle as => as.isEmpty
  | .parens _ _ => false

/-- A plain name, e.g. `u8` or `Self`. -/
def Ty.name (n : String) : Ty := .path false [.mk n .none]

/-- A name applied to types, e.g. `Option<T>`. -/
def Ty.app (n : String) (args : List Ty) : Ty := .path false [.mk n (.angle (args.map .ty))]

/-- `syn::GenericParam` (dync-derive/src/lib.rs:839-863). `colon` is `colon_token.is_some()`. -/
inductive Param where
  | type (name : String) (attrs colon default : Bool) (bounds : List Bound)
  | lifetime (s : String)
  | const (s : String)

/-- `syn::WherePredicate` (dync-derive/src/lib.rs:864-901). -/
inductive Pred where
  | type (lifetimes : Bool) (bounded : Ty) (bounds : List Bound)
  | lifetime (s : String)
  | eq (s : String)

/-- `syn::FnArg`: a receiver `&'a mut self`, or a pattern with a type. `self: T` is `typed "self" T`
(syn 1 parses it so). -/
inductive Arg where
  | receiver (reference : Option (Option String)) (mutable : Bool)
  | typed (pat : String) (ty : Ty)

/-- `syn::Signature`. -/
structure Signature where
  isConst : Bool := false
  isAsync : Bool := false
  abi : Bool := false
  variadic : Bool := false
  isUnsafe : Bool := false
  ident : String
  params : List Param := []
  preds : List Pred := []
  inputs : List Arg
  output : Option Ty := none

/-- `GenericsMap` (dync-derive/src/lib.rs:11 `type GenericsMap = HashMap<Ident, Punctuated<TypeParamBound, Add>>`), newest first. -/
abbrev Generics := List (String × List Bound)

/-- `HashMap::get`. -/
def Generics.get (g : Generics) (n : String) : Option (List Bound) := g.lookup n

/-! ## The functions -/

/-- `[std::mem::MaybeUninit<u8>]` as parsed from the quoted tokens (dync-derive/src/lib.rs:1057-1142). -/
def byteSlice : Ty :=
  .slice (.path false [.mk "std" .none, .mk "mem" .none, .mk "MaybeUninit" (.angle [.ty (.name "u8")])])

/-- `Box<[std::mem::MaybeUninit<u8>]>`. -/
def boxBytes : Ty := .app "Box" [byteSlice]

/-- Parsing `dyn #bounds` (dync-derive/src/lib.rs:1011-1016) with syn fails if no bound is a trait. -/
def dynBounds (bs : List Bound) : Option Ty :=
  if bs.any (fun b => match b with | .trait _ _ => true | .lifetime _ => false) then some (.traitObject bs) else none

/-- dync-derive/src/lib.rs:987-1008 `process_generic_type_path`, for a path without `qself`. -/
def processPath (lead : Bool) (segs : List Seg) (g : Generics) (owned : Bool) : Option Ty :=
  if lead || segs.length != 1 then some (.path lead segs)
  else match segs with
    | .mk i a :: _ =>
      if !a.isEmpty then some (.path lead segs)
      else match g.get i with
        | some bs => (dynBounds bs).map fun d => if owned then .app "Box" [d] else d
        | none => some (.path lead segs)
    | [] => none

/-- dync-derive/src/lib.rs:1010-1016 `generic_ref_to_trait_object`. A `qpath` is returned unchanged by
`process_generic_type_path` because it has a leading colon or at least two segments. -/
def refToTraitObject (g : Generics) : Ty → Option Ty
  | .path l s => processPath l s g false
  | other => some other

/-- The test on paths without `qself` shared by dync-derive/src/lib.rs:1036-1043 and dync-derive/src/lib.rs:1162-1169: true if the
assert passes. -/
def checkPath (lead : Bool) (segs : List Seg) : Bool :=
  if !lead && segs.length == 1 then
    match segs with
    | .mk i a :: _ => a.isEmpty && i == "Self"
    | [] => false
  else true

mutual
/-- dync-derive/src/lib.rs:1018-1055 `check_for_unsupported_generics` and dync-derive/src/lib.rs:1144-1181 `check_for_unsupported_self`:
the two functions have the same body (the generics map is only passed along). True if no assert fails. -/
def check : Ty → Bool
  | .array e _ => check e
  | .bareFn ins out => checkL ins && checkO out
  | .group e => check e
  | .paren e => check e
  | .path l s => checkPath l s
  | .qpath _ _ => false
  | .ptr _ e => check e
  | .reference _ _ e => check e
  | .slice e => check e
  | .tuple es => checkL es
  | .implTrait _ => true
  | .traitObject _ => true
  | .verbatim _ => true
def checkL : List Ty → Bool
  | [] => true
  | t :: ts => check t && checkL ts
def checkO : Option Ty → Bool
  | none => true
  | some t => check t
end

/-- dync-derive/src/lib.rs:963-985 `process_generics`. -/
def processGenerics (g : Generics) : Ty → Option Ty
  | .paren e => (processGenerics g e).map .paren
  | .path l s => processPath l s g true
  | .qpath q s => some (.qpath q s)
  | .ptr m e => (refToTraitObject g e).map (.ptr m)
  | .reference l m e => (refToTraitObject g e).map (.reference l m)
  | t => if check t then some t else none

/-- dync-derive/src/lib.rs:1113-1131 `self_type_path_into`, for a path without `qself`; with it the function panics. -/
def selfPathInto (lead : Bool) (segs : List Seg) (into : Ty) : Option Ty :=
  if !lead && segs.length == 1 then
    match segs with
    | .mk i a :: _ => if a.isEmpty && i == "Self" then some into else some (.path lead segs)
    | [] => none
  else some (.path lead segs)

/-- dync-derive/src/lib.rs:1133-1142 `self_to_byte_slice`. -/
def selfToByteSlice : Ty → Option Ty
  | .path l s => selfPathInto l s byteSlice
  | .qpath _ _ => none
  | other => some other

/-- dync-derive/src/lib.rs:1057-1111 `type_to_bytes`. -/
def typeToBytes : Ty → Option Ty
  | .implTrait bs => some (.traitObject bs)
  | .paren e => (typeToBytes e).map .paren
  | .path l s => selfPathInto l s boxBytes
  | .qpath _ _ => none
  | .ptr m e => (selfToByteSlice e).map (.ptr m)
  | .reference l m e => (selfToByteSlice e).map (.reference l m)
  | t => if check t then some t else none

/-- The composition applied to every argument and return type (dync-derive/src/lib.rs:931-936, 944). -/
def translate (g : Generics) (t : Ty) : Option Ty := (processGenerics g t).bind typeToBytes

/-- dync-derive/src/lib.rs:839-863: the loop over the generic parameters. -/
def collectParams (g : Generics) : List Param → Option Generics
  | [] => some g
  | .type n attrs colon dflt bs :: ps =>
    if attrs || !colon || dflt then none else collectParams ((n, bs) :: g) ps
  | _ :: _ => none

/-- dync-derive/src/lib.rs:864-901: the loop over the where clause. Note the asserted conditions
`segments.len() != 1` and `!seg.arguments.is_empty()`. -/
def collectPreds (g : Generics) : List Pred → Option Generics
  | [] => some g
  | .type lts bounded bs :: ps =>
    if lts then none
    else match bounded with
      | .qpath _ _ => none
      | .path lead segs =>
        if lead || segs.length == 1 then none
        else match segs with
          | .mk i a :: _ => if a.isEmpty then none else collectPreds ((i, bs) :: g) ps
          | [] => none
      | _ => collectPreds g ps
  | .lifetime _ :: _ => none
  | .eq _ :: ps => collectPreds g ps

/-- dync-derive/src/lib.rs:904-940: conversion of one argument. `mut Box<..>` does not parse as a type. -/
def convertArg (g : Generics) : Arg → Option Arg
  | .receiver (some lt) m => some (.typed "_self_" (.reference lt m byteSlice))
  | .receiver none true => none
  | .receiver none false => some (.typed "_self_" boxBytes)
  | .typed p t => (translate g t).map (.typed p)

/-- `Option`-valued map over a list. -/
def mapOpt {α β : Type} (f : α → Option β) : List α → Option (List β)
  | [] => some []
  | x :: xs => (f x).bind fun y => (mapOpt f xs).map (y :: ·)

/-- dync-derive/src/lib.rs:815-961 `dync_fn_sig`. -/
def dyncFnSig (sig : Signature) : Option Signature :=
  if sig.isConst || sig.isAsync || sig.abi || sig.variadic then none
  else
    (collectParams [] sig.params).bind fun g =>
    (collectPreds g sig.preds).bind fun g =>
    (mapOpt (convertArg g) sig.inputs).bind fun ins =>
    (match sig.output with
      | some t => translate g t
      | none => some (.tuple [])).map fun out =>
    { sig with isUnsafe := true, ident := sig.ident ++ "_bytes", params := [], preds := [], inputs := ins, output := some out }

end Dync.Sig
