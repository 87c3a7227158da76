import Verif.Value
/-!
# The error type of `src/value.rs`
-/
namespace Dync
variable {U V : Type}

/-- `Error` (src/value.rs:22-30). `Debug` is derived and not modelled. -/
inductive Error
  | valueTooLarge
  | mismatchedTypes (expected actual : TyId)
deriving DecidableEq

/-- The text of `ValueTooLarge` (src/value.rs:36-38). -/
def Error.tooLargeText : List Char := "Value could not fit into a single pointer sized word.\nTry constructing a BoxValue instead.".toList
/-- Part of the text of `MismatchedTypes` (src/value.rs:39-40). -/
def Error.before : List Char := "Trying to assign a value of one type (with TypeId ".toList
/-- Part of the text of `MismatchedTypes` (src/value.rs:39-40). -/
def Error.between : List Char := ") to a value of another (with TypeId ".toList
/-- Part of the text of `MismatchedTypes` (src/value.rs:39-40). -/
def Error.after : List Char := ").\n".toList

/-- `impl Display for Error` (src/value.rs:32-45): what is written; `dbg` is the text that `{:?}` gives for a `TypeId`.
A formatter that fails is not modelled: the text is what is handed to it. -/
def Error.text (dbg : TyId → List Char) : Error → List Char
  | .valueTooLarge => tooLargeText
  | .mismatchedTypes expected actual => before ++ (dbg actual ++ (between ++ (dbg expected ++ after)))

/-- `ValueMut::clone_from_other` (src/value.rs:665-686) with its error; `ValueRef.cloneFromOther` of `Verif/Value.lean`
forgets what the error says. -/
def ValueRef.cloneFromOtherE [HasClone U V] (other : ValueRef V) : M (ValueRef V × World U) (Except Error Unit) := do
  let self ← getSelf
  if self.type_id = other.type_id then do
    M.zoom (fun s => (s.1.bytes, s.2.user))
      (fun t s => ({ s.1 with bytes := t.1 }, { s.2 with user := t.2 }))
      (HasClone.cloneFromFn self.vtable other.bytes)
    pure (.ok ())
  else pure (.error (.mismatchedTypes self.type_id other.type_id))

end Dync
