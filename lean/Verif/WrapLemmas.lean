import Verif.SliceLemmas2
/-!
# `usize` arithmetic in release builds

Products and sums wrap around modulo 2^64. These lemmas describe the index computations of
`src/lib.rs:188-245` and `src/index_slice.rs` for every index.
-/
namespace Dync
variable {U V σ α : Type}

theorem umul_release (a b : Nat) (st : σ) : umul ⟨false⟩ a b st = (.ok (a * b % 2 ^ 64), st) := by
  unfold umul
  have e : usizeMax + 1 = 2 ^ 64 := by decide
  by_cases h : a * b ≤ usizeMax
  · rw [if_pos h, Nat.mod_eq_of_lt (by omega)]; rfl
  · rw [if_neg h, e]; rfl

theorem uadd_release (a b : Nat) (st : σ) : uadd ⟨false⟩ a b st = (.ok ((a + b) % 2 ^ 64), st) := by
  unfold uadd
  have e : usizeMax + 1 = 2 ^ 64 := by decide
  by_cases h : a + b ≤ usizeMax
  · rw [if_pos h, Nat.mod_eq_of_lt (by omega)]; rfl
  · rw [if_neg h, e]; rfl

theorem indexByteRange_release (nb i : Nat) (st : σ) :
    indexByteRange ⟨false⟩ nb i st = (.ok (i * nb % 2 ^ 64, (i * nb % 2 ^ 64 + nb) % 2 ^ 64), st) := by
  unfold indexByteRange
  rw [M.bind_ok (umul_release ..), M.bind_ok (uadd_release ..), M.bind_ok (umul_release ..)]
  have : (i + 1) % 2 ^ 64 * nb % 2 ^ 64 = (i * nb % 2 ^ 64 + nb) % 2 ^ 64 := by
    rw [Nat.mod_mul_mod, Nat.add_mul, Nat.one_mul, Nat.mod_add_mod]
  rw [this]; rfl

/-- The window of `nb` bytes at `a` of a byte string shorter than the address space. -/
theorem sliceIndex_window {l : Bytes} {a nb : Nat} (hl : l.length ≤ isizeMax) (hn : 0 < nb) (hnb : nb ≤ isizeMax)
    (ha : a < 2 ^ 64) : sliceIndex l a ((a + nb) % 2 ^ 64) =
      if a + nb ≤ l.length then .ok ((l.drop a).take nb) else .panic .index := by
  unfold sliceIndex
  have hi : isizeMax = 2 ^ 63 - 1 := by decide
  by_cases h : a + nb ≤ l.length
  · rw [if_pos h, Nat.mod_eq_of_lt (by omega), if_pos ⟨by omega, h⟩, List.drop_take]
    congr 2; omega
  · rw [if_neg h, if_neg]
    intro hc
    by_cases hw : a + nb < 2 ^ 64
    · rw [Nat.mod_eq_of_lt hw] at hc; omega
    · have : (a + nb) % 2 ^ 64 = a + nb - 2 ^ 64 := by
        rw [Nat.mod_eq_sub_mod (by omega), Nat.mod_eq_of_lt (by omega)]
      omega

end Dync
