import Verif.Compare
/-!
# Specification of comparison, hashing and formatting with arbitrary user code

`Each f c xs s s'`: calling `f` on `xs` in order, starting in the state `s`, returns `c` every time and
ends in `s'`.  `Stops f c xs s r s'`: the calls on a first part of `xs` return `c`, the next call has the
other outcome `r`, and nothing is called after it.  Text formatting: a formatter that collects text, with
std's indentation.
-/
namespace Dync
variable {U H F V S β γ : Type}

/-- Every call returns `c`. -/
def Each (f : β → M S γ) (c : γ) : List β → S → S → Prop
  | [], s, s' => s' = s
  | x :: xs, s, s' => ∃ m, f x s = (.ok c, m) ∧ Each f c xs m s'

/-- The first call that does not return `c` has the outcome `r`; nothing runs after it. -/
def Stops (f : β → M S γ) (c : γ) (xs : List β) (s : S) (r : Res γ) (s' : S) : Prop :=
  r ≠ .ok c ∧ ∃ pre x post m, xs = pre ++ x :: post ∧ Each f c pre s m ∧ f x m = (r, s')

/-- All calls return `c`, or it stops at the first that does not. -/
def Through (f : β → M S γ) (c : γ) (xs : List β) (s : S) (r : Res γ) (s' : S) : Prop :=
  (r = .ok c ∧ Each f c xs s s') ∨ Stops f c xs s r s'

/-- The `eq` entry of the table runs `PartialEq` of `t`. -/
def LawfulEqFx [HasEqFx U V] (Γ : TyEnv U) (Φ : UserFns U H F) (t : TyId) (vt : V) : Prop :=
  ∀ a b : Bytes, a.length = Γ.size t → b.length = Γ.size t → HasEqFx.eqFn vt a b = Φ.eq t a b
/-- The `hash` entry of the table runs `Hash` of `t`. -/
def LawfulHashFx [HasHashFx U H V] (Γ : TyEnv U) (Φ : UserFns U H F) (t : TyId) (vt : V) : Prop :=
  ∀ a : Bytes, a.length = Γ.size t → HasHashFx.hashFn vt a = Φ.hash t a
/-- The `fmt` entry of the table runs `Debug` of `t`. -/
def LawfulFmtFx [HasFmtFx U F V] (Γ : TyEnv U) (Φ : UserFns U H F) (t : TyId) (vt : V) : Prop :=
  ∀ a : Bytes, a.length = Γ.size t → HasFmtFx.fmtFn vt a = Φ.fmt t a

/-! ### A formatter that collects text -/

/-- A formatter writing to a `String`: the text so far, the alternate flag, and one flag "at the start of
a line" for every enclosing `PadAdapter`, innermost first. -/
structure Text where
  out : List Char
  pretty : Bool
  pads : List Bool
deriving DecidableEq

/-- What one `PadAdapter` makes of a text: four spaces at the start of every line. -/
def padLevel (nl : Bool) : List Char → Bool × List Char
  | [] => (nl, [])
  | c :: cs =>
    let r := padLevel (c == '\n') cs
    (r.1, (if nl then [' ', ' ', ' ', ' '] else []) ++ c :: r.2)

/-- What nested adapters make of a text. -/
def padText : List Bool → List Char → List Bool × List Char
  | [], cs => ([], cs)
  | nl :: ps, cs =>
    let r := padLevel nl cs
    let o := padText ps r.2
    (r.1 :: o.1, o.2)

/-- The formatter after a text has been written to it. -/
def Text.put (f : Text) (cs : List Char) : Text :=
  { f with pads := (padText f.pads cs).1, out := f.out ++ (padText f.pads cs).2 }

/-- std's formatting machinery on such a formatter; writing to a `String` never fails. -/
def Text.formatting : Formatting Text where
  write s := ⟨fun f => (.ok .ok, f.put s.toList)⟩
  pretty := Text.pretty
  wrap f := { f with pads := true :: f.pads }
  unwrap f := { f with pads := f.pads.tail }

/-- Formatting code that writes `cs` to whatever formatter it is given, and returns `Ok`. -/
def PrintsText (m : M (Text × U) FmtRes) (cs : List Char) : Prop :=
  ∀ f u, ∃ u', m (f, u) = (.ok .ok, (f.put cs, u'))

/-- The code prints the text `cs` and then fails: it reports an error or panics. -/
def StopsAfter (m : M (Text × U) FmtRes) (cs : List Char) (r : Res FmtRes) : Prop :=
  (r = .ok .err ∨ ∃ w, r = .panic w) ∧ ∀ f u, ∃ u', m (f, u) = (r, (f.put cs, u'))

/-- Lines of text joined by line ends. -/
def joinLines : List (List Char) → List Char
  | [] => []
  | [l] => l
  | l :: ls => l ++ '\n' :: joinLines ls

/-- What `{:#?}` prints for a list whose entries print these lines. -/
def prettyText (entries : List (List (List Char))) : List Char :=
  match entries with
  | [] => ['[', ']']
  | es => ['[', '\n'] ++ (es.map fun ls => joinLines (ls.map ([' ', ' ', ' ', ' '] ++ ·)) ++ [',', '\n']).flatten ++ [']']

/-- What `{:?}` prints for a list whose entries print these texts. -/
def plainText : List (List Char) → List Char
  | [] => ['[', ']']
  | x :: xs => '[' :: x ++ (xs.map ([',', ' '] ++ ·)).flatten ++ [']']

end Dync
