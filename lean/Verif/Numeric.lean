import Verif.VecDyn
/-!
# The `numeric` feature: `src/macros.rs`, `cast_into_vec`, `Display`

`num_traits::cast` and `Zero::zero` are parameters; for the integer types they are also given
concretely, on the little-endian two's complement images of the values.
-/
namespace Dync
variable {U V σ F : Type}

/-- The types listed in `call_numeric_buffer_fn!` (src/macros.rs:43-52). -/
inductive NumTy where
  | u8 | i8 | u16 | i16 | u32 | i32 | u64 | i64 | f32 | f64
deriving DecidableEq

/-- `size_of`. -/
def NumTy.size : NumTy → Nat
  | .u8 | .i8 => 1
  | .u16 | .i16 => 2
  | .u32 | .i32 | .f32 => 4
  | .u64 | .i64 | .f64 => 8

/-- The arms of `call_numeric_buffer_fn!` in order (src/macros.rs:43-52, 74-83). -/
def numArms : List NumTy := [.u8, .i8, .u16, .i16, .u32, .i32, .u64, .i64, .f32, .f64]

/-- `TypeId::of` for the numeric types. -/
structure NumIds (Γ : TyEnv U) where
  id : NumTy → TyId
  inj : ∀ {a b}, id a = id b → a = b
  size : ∀ k, Γ.size (id k) = k.size

/-- `T: NumCast + Zero`: `cast::<I, T>` for an input of numeric type `k`, and `T::zero()`. -/
structure NumCast where
  cast : NumTy → Bytes → Option Bytes
  zero : Bytes

/-- `call_numeric_buffer_fn!` (src/macros.rs:36-90): the type at which the function is called. -/
def numDispatch {Γ : TyEnv U} (ids : NumIds Γ) (x : TyId) : Option NumTy :=
  numArms.find? fun k => x == ids.id k

/-- `as_slice_as_unchecked` (src/vec_copy.rs:476-478). -/
def VecCopy.asSliceAsUnchecked (Γ : TyEnv U) (t : TyId) (self : VecCopy V) : M σ (List Bytes) :=
  M.lift (typedSlice (Γ.size t) self.len self.data.mem)

/-- `convert_into_vec` (src/vec_copy.rs:732-742, src/vec_dyn.rs:649-662). -/
def VecCopy.convertIntoVec {Γ : TyEnv U} (ids : NumIds Γ) (cfg : Cfg) (nc : NumCast) (k : NumTy) (self : VecCopy V) :
    M σ (List Bytes) := do
  debugAssert cfg (self.elementTypeId == ids.id k)
  let es ← self.asSliceAsUnchecked Γ (ids.id k)
  pure (es.map fun e => (nc.cast k e).getD nc.zero)

/-- `VecCopy::cast_into_vec` (src/vec_copy.rs:727-744). -/
def VecCopy.castIntoVec {Γ : TyEnv U} (ids : NumIds Γ) (cfg : Cfg) (nc : NumCast) (self : VecCopy V) : M σ (List Bytes) :=
  match numDispatch ids self.elementTypeId with
  | some k => self.convertIntoVec ids cfg nc k
  | none => pure []

/-- `VecDyn::cast_into_vec` (src/vec_dyn.rs:644-664). -/
def VecDyn.castIntoVec {Γ : TyEnv U} (ids : NumIds Γ) (cfg : Cfg) (nc : NumCast) (self : VecDyn V) :
    M σ (Option (List Bytes)) :=
  match numDispatch ids self.elementTypeId with
  | some k => do
    let es ← self.convertIntoVec ids cfg nc k
    pure (some es)
  | none => pure none

/-- A formatter: where `write!` goes, and whether it reports success. The second component of the
state are the lines printed on the standard output. -/
structure Sink (F : Type) where
  write : String → M F Bool

/-- `write!(f, ..)` on the formatter. -/
def Sink.put (k : Sink F) (s : String) : M (F × List String) Bool :=
  M.zoom Prod.fst (fun f s => (f, s.2)) (k.write s)

/-- `reinterpret_display` (src/vec_copy.rs:748-753). `disp` is `T::fmt` (`Display`). -/
def VecCopy.reinterpretDisplay {Γ : TyEnv U} (ids : NumIds Γ) (cfg : Cfg) (disp : NumTy → Bytes → String) (k : NumTy)
    (sink : Sink F) (self : VecCopy V) : M (F × List String) Unit := do
  debugAssert cfg (self.elementTypeId == ids.id k)
  let es ← self.asSliceAsUnchecked Γ (ids.id k)
  M.forEach es fun e => do
    let ok ← sink.put (disp k e ++ " ")
    if ok then pure () else M.panic .unwrapNone

/-- `impl Display for VecCopy` (src/vec_copy.rs:965-972). -/
def VecCopy.display {Γ : TyEnv U} (ids : NumIds Γ) (cfg : Cfg) (disp : NumTy → Bytes → String) (sink : Sink F)
    (self : VecCopy V) : M (F × List String) Bool := do
  match numDispatch ids self.elementTypeId with
  | some k => self.reinterpretDisplay ids cfg disp k sink
  | none => M.modify fun s => (s.1, s.2 ++ ["Unknown VecCopy type for pretty printing."])
  sink.put ""

/-! ### Integers -/

/-- Bits of an integer type and whether it is signed; `none` for the floats. -/
def NumTy.int : NumTy → Option (Nat × Bool)
  | .u8 => some (8, false) | .i8 => some (8, true)
  | .u16 => some (16, false) | .i16 => some (16, true)
  | .u32 => some (32, false) | .i32 => some (32, true)
  | .u64 => some (64, false) | .i64 => some (64, true)
  | .f32 | .f64 => none

/-- Smallest and largest value of an integer type. -/
def intMin (bits : Nat) (signed : Bool) : Int := if signed then -(2 ^ (bits - 1)) else 0
def intMax (bits : Nat) (signed : Bool) : Int := if signed then 2 ^ (bits - 1) - 1 else 2 ^ bits - 1

/-- Value of little-endian bytes. Reading an uninitialised byte as an integer is undefined: `none`. -/
def leValue : Bytes → Option Nat
  | [] => some 0
  | none :: _ => none
  | some b :: bs => (leValue bs).map fun n => b.toNat + 256 * n

/-- The little-endian image of `n` in `k` bytes. -/
def leBytes : Nat → Nat → Bytes
  | 0, _ => []
  | k + 1, n => some (UInt8.ofNat (n % 256)) :: leBytes k (n / 256)

/-- Two's complement. -/
def decodeInt (bits : Nat) (signed : Bool) (b : Bytes) : Option Int :=
  match leValue b with
  | none => none
  | some n => some (if signed ∧ 2 ^ (bits - 1) ≤ n then (n : Int) - 2 ^ bits else n)

/-- The image of an integer. -/
def encodeInt (bits : Nat) (z : Int) : Bytes := leBytes (bits / 8) (z % 2 ^ bits).toNat

/-- `num_traits::cast` from the integer types into the integer type with `bits` and `signed`:
`Some` iff the value is in range. Floats are not covered. -/
def intNumCast (bits : Nat) (signed : Bool) : NumCast where
  cast k b := do
    let (kb, ks) ← k.int
    let z ← decodeInt kb ks b
    if intMin bits signed ≤ z ∧ z ≤ intMax bits signed then some (encodeInt bits z) else none
  zero := encodeInt bits 0

end Dync
