import Verif.StdModel
/-!
# `src/elem.rs`
-/
namespace Dync
variable {U σ α : Type}

/-- `T0`, …, `T29` (src/elem.rs:10-57): `repr(C, align(n)) struct([u8; n])`, so size and alignment
are both `n`. `T_i` is entry `i` of this table. -/
def alignedTypes : List Layout :=
  [⟨1, 1⟩, ⟨2, 2⟩, ⟨4, 4⟩, ⟨8, 8⟩, ⟨16, 16⟩, ⟨32, 32⟩, ⟨64, 64⟩, ⟨128, 128⟩, ⟨256, 256⟩, ⟨512, 512⟩,
   ⟨1024, 1024⟩, ⟨2048, 2048⟩, ⟨4096, 4096⟩, ⟨8192, 8192⟩, ⟨16384, 16384⟩, ⟨32768, 32768⟩,
   ⟨65536, 65536⟩, ⟨131072, 131072⟩, ⟨262144, 262144⟩, ⟨524288, 524288⟩, ⟨1048576, 1048576⟩,
   ⟨2097152, 2097152⟩, ⟨4194304, 4194304⟩, ⟨8388608, 8388608⟩, ⟨16777216, 16777216⟩,
   ⟨33554432, 33554432⟩, ⟨67108864, 67108864⟩, ⟨134217728, 134217728⟩, ⟨268435456, 268435456⟩,
   ⟨536870912, 536870912⟩]

/-- The arms `alignment => T_i` of `eval_align!(limited_stack, ..)` (src/elem.rs:65-83). -/
def limitedArms : List (Nat × Nat) :=
  [(1, 0), (2, 1), (4, 2), (8, 3), (16, 4), (32, 5), (64, 6), (128, 7), (256, 8), (512, 9),
   (1024, 10), (2048, 11), (4096, 12), (8192, 13)]

/-- The arms `alignment => T_i` of `eval_align!` (src/elem.rs:86-120). -/
def fullArms : List (Nat × Nat) :=
  [(1, 0), (2, 1), (4, 2), (8, 3), (16, 4), (32, 5), (64, 6), (128, 7), (256, 8), (512, 9),
   (1024, 10), (2048, 11), (4096, 12), (8192, 13), (16384, 14), (32768, 15), (65536, 16),
   (131072, 17), (262144, 18), (524288, 19), (1048576, 20), (2097152, 21), (4194304, 22),
   (8388608, 23), (16777216, 24), (33554432, 25), (67108864, 26), (134217728, 27),
   (268435456, 28), (536870912, 29)]

/-- The type selected by the first matching arm of the `match` in `eval_align!` (src/elem.rs:60-121). -/
def selectArm (arms : List (Nat × Nat)) (a : Nat) : Option Layout :=
  match arms.find? (fun p => p.1 == a) with
  | some (_, i) => alignedTypes[i]?
  | none => none

/-- `eval_align!($a; $fn::<_>(..))` (src/elem.rs:86-120): call `f` at the selected type, or
`unreachable!`. -/
def evalAlign (a : Nat) (f : Layout → M σ α) : M σ α :=
  match selectArm fullArms a with
  | some T => f T
  | none => M.panic .unreachable

/-- `eval_align!(limited_stack, $a; $fn::<_>(..))` (src/elem.rs:65-83). -/
def evalAlignLimited (a : Nat) (f : Layout → M σ α) : M σ α :=
  match selectArm limitedArms a with
  | some T => f T
  | none => M.panic .unreachable

/-- `ElemInfo` (src/elem.rs:126-136): `size` counts alignment-sized chunks. -/
structure ElemInfo where
  type_id : TyId
  size : Nat
  alignment : Nat
deriving DecidableEq, Repr

/-- `ElemInfo::new::<T>()` (src/elem.rs:140-146). -/
def ElemInfo.new (Γ : TyEnv U) (t : TyId) : ElemInfo :=
  ⟨t, Γ.size t / Γ.align t, Γ.align t⟩

/-- `ElemInfo::num_bytes` (src/elem.rs:149-151). -/
def ElemInfo.numBytes (e : ElemInfo) : Nat := e.size * e.alignment

end Dync
