/-!
# The macros `from_dyn!` and `into_dyn!` (src/lib.rs:66-185): which invocations expand

A `macro_rules!` arm is a list of token patterns.  Fragments `$x:ident` and `$x:path` are matched the
way `rustc` does: a bound fragment is forwarded as one token (`Tok.frag`) which later arms see as a
path (or as an identifier, if it was bound as one).  Paths are lists of identifiers joined by `::`;
generic arguments in paths are not modelled.  What the expansion says is in `Verif/Convert.lean`.
-/
namespace Dync.MacroRules

/-- The fragment specifiers used by the two macros. -/
inductive Frag where
  | ident
  | path
deriving DecidableEq, Repr

/-- Tokens: identifiers, keywords, punctuation, and already matched fragments with the identifiers
they consist of. -/
inductive Tok where
  | id (name : String)
  | kw (name : String)
  | punct (name : String)
  | frag (kind : Frag) (segments : List String)
deriving DecidableEq, Repr

/-- One element of a pattern. -/
inductive Pat where
  | tok (t : Tok)
  | var (name : String) (kind : Frag)
deriving DecidableEq, Repr

/-- One element of the tokens an arm forwards to the macro itself. -/
inductive Tmpl where
  | tok (t : Tok)
  | var (name : String)
deriving DecidableEq, Repr

/-- Values of the macro variables. -/
abbrev Binds := List (String × Tok)

/-- The rest of a path after its first identifier: `:: ident` repeated. -/
def takeSegments : List Tok → List String × List Tok
  | .punct "::" :: .id s :: rest =>
    let (segs, rest') := takeSegments rest
    (s :: segs, rest')
  | ts => ([], ts)

/-- Parse one fragment from the front of the input. -/
def takeFrag : Frag → List Tok → Option (Tok × List Tok)
  | .ident, .id s :: rest => some (.frag .ident [s], rest)
  | .ident, .frag .ident ss :: rest => some (.frag .ident ss, rest)
  | .path, .id s :: rest =>
    let (segs, rest') := takeSegments rest
    some (.frag .path (s :: segs), rest')
  | .path, .frag .ident [s] :: rest =>
    let (segs, rest') := takeSegments rest
    some (.frag .path (s :: segs), rest')
  | .path, .frag .path ss :: rest => some (.frag .path ss, rest)
  | _, _ => none

/-- Match a whole pattern against the whole input. -/
def matchPat : List Pat → List Tok → Option Binds
  | [], [] => some []
  | .tok t :: ps, u :: us => if t = u then matchPat ps us else none
  | .var x k :: ps, us =>
    match takeFrag k us with
    | some (f, rest) => (matchPat ps rest).map fun b => (x, f) :: b
    | none => none
  | _, _ => none

/-- Substitute the macro variables. -/
def subst (b : Binds) : List Tmpl → Option (List Tok)
  | [] => some []
  | .tok t :: ts => (subst b ts).map (t :: ·)
  | .var x :: ts =>
    match b.find? (fun e => e.1 = x) with
    | some e => (subst b ts).map (e.2 :: ·)
    | none => none

/-- Right-hand side of an arm: call the macro again, or produce code. `owned`: the body at
src/lib.rs:88-100 (resp. 148-160), `slice`: the body at 101-122 (resp. 161-184). -/
inductive Body where
  | call (tmpl : List Tmpl)
  | owned
  | slice
deriving DecidableEq, Repr

/-- An arm of `macro_rules!`. -/
structure Arm where
  pat : List Pat
  body : Body
deriving DecidableEq, Repr

/-- Result of an expansion: which body, with which variables. -/
abbrev Expanded := Body × Binds

/-- First matching arm. -/
def firstArm : List Arm → List Tok → Option (Body × Binds)
  | [], _ => none
  | a :: as, ts =>
    match matchPat a.pat ts with
    | some b => some (a.body, b)
    | none => firstArm as ts

/-- Expand an invocation; `limit` is the recursion limit of the compiler (128 by default). -/
def expand (arms : List Arm) : (limit : Nat) → List Tok → Option Expanded
  | 0, _ => none
  | n + 1, ts =>
    match firstArm arms ts with
    | some (.call tmpl, b) =>
      match subst b tmpl with
      | some ts' => expand arms n ts'
      | none => none
    | some (body, b) => some (body, b)
    | none => none

/-! ### `from_dyn!` (src/lib.rs:69-123) -/

def t (s : String) : Pat := .tok (.id s)
def lt : Pat := .tok (.punct "<")
def gt : Pat := .tok (.punct ">")
def at' : Pat := .tok (.punct "@")
def dyn : Pat := .tok (.kw "dyn")
def as' : Pat := .tok (.kw "as")

/-- `(C < dyn $trait:path as $vtable:path >) => { from_dyn![@kind C < dyn $trait as $vtable >] }`
(src/lib.rs:70-87). -/
def fromArm (c kind : String) : Arm :=
  ⟨[t c, lt, dyn, .var "trait" .path, as', .var "vtable" .path, gt],
   .call [.tok (.punct "@"), .tok (.id kind), .tok (.id c), .tok (.punct "<"), .tok (.kw "dyn"),
     .var "trait", .tok (.kw "as"), .var "vtable", .tok (.punct ">")]⟩

/-- The arms of `from_dyn!` (src/lib.rs:70-122), in order. -/
def fromDynArms : List Arm :=
  [ fromArm "Slice" "slice",
    fromArm "SliceMut" "slice",
    fromArm "VecDyn" "owned",
    fromArm "SliceCopy" "slice",
    fromArm "SliceCopyMut" "slice",
    fromArm "VecCopy" "owned",
    ⟨[at', t "owned", .var "vec" .ident, lt, dyn, .var "trait" .path, as', .var "vtable" .path, gt], .owned⟩,
    ⟨[at', t "slice", .var "slice" .ident, lt, dyn, .var "trait" .path, gt], .slice⟩ ]

/-! ### `into_dyn!` (src/lib.rs:129-185) -/

/-- `(C < dyn $trait:frag >) => { into_dyn![@kind C < dyn $trait >] }` (src/lib.rs:130-147). -/
def intoArm (c : String) (f : Frag) (kind : String) : Arm :=
  ⟨[t c, lt, dyn, .var "trait" f, gt],
   .call [.tok (.punct "@"), .tok (.id kind), .tok (.id c), .tok (.punct "<"), .tok (.kw "dyn"),
     .var "trait", .tok (.punct ">")]⟩

/-- The arms of `into_dyn!` (src/lib.rs:130-184), in order. -/
def intoDynArms : List Arm :=
  [ intoArm "Slice" .path "slice",
    intoArm "SliceMut" .ident "slice",
    intoArm "VecDyn" .ident "owned",
    intoArm "SliceCopy" .ident "slice",
    intoArm "SliceCopyMut" .ident "slice",
    intoArm "VecCopy" .ident "owned",
    ⟨[at', t "owned", .var "vec" .ident, lt, dyn, .var "trait" .ident, gt], .owned⟩,
    ⟨[at', t "slice", .var "slice" .ident, lt, dyn, .var "trait" .path, gt], .slice⟩ ]

/-! ### Invocations, and typing of the slice bodies -/

/-- The tokens of a path `s::s₁::s₂…`. -/
def pathToks (s : String) (segs : List String) : List Tok :=
  .id s :: segs.flatMap fun x => [.punct "::", .id x]

/-- The invocation `from_dyn![c<dyn T as V>]`. -/
def fromCall (c : String) (T : String × List String) (V : String × List String) : List Tok :=
  [.id c, .punct "<", .kw "dyn"] ++ pathToks T.1 T.2 ++ [.kw "as"] ++ pathToks V.1 V.2 ++ [.punct ">"]

/-- The invocation `into_dyn![c<dyn T>]`. -/
def intoCall (c : String) (T : String × List String) : List Tok :=
  [.id c, .punct "<", .kw "dyn"] ++ pathToks T.1 T.2 ++ [.punct ">"]

/-- Shared or unique reference. -/
inductive RefKind where
  | shared
  | unique
deriving DecidableEq, Repr

/-- The reference to the data returned by `into_raw_parts` (src/slice.rs:64, 380;
src/slice_copy.rs:69, 427). -/
def rawOut : String → Option RefKind
  | "Slice" => some .shared
  | "SliceMut" => some .shared
  | "SliceCopy" => some .shared
  | "SliceCopyMut" => some .unique
  | _ => none

/-- The reference to the data expected by `from_raw_parts` (src/slice.rs:79-80, 395-396;
src/slice_copy.rs:84-85, 442-443). -/
def rawIn : String → Option RefKind
  | "Slice" => some .shared
  | "SliceMut" => some .unique
  | "SliceCopy" => some .shared
  | "SliceCopyMut" => some .unique
  | _ => none

/-- `&mut T` coerces to `&T`, not the other way round. -/
def coerces : RefKind → RefKind → Bool
  | .shared, .unique => false
  | _, _ => true

/-- The slice bodies pass the data of `into_raw_parts` to `from_raw_parts` (src/lib.rs:164-170). -/
def sliceBodyTypes (c : String) : Bool :=
  match rawOut c, rawIn c with
  | some a, some b => coerces a b
  | _, _ => false

end Dync.MacroRules
