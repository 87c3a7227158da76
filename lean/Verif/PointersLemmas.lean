import Verif.Pointers
import Verif.ViewLemmas
/-!
# Views as pointers: basic lemmas
-/
namespace Dync
variable {U V α β : Type} {Γ : TyEnv U} {cfg : Cfg} {t : TyId}

/-! ### Memory -/

namespace Mem
variable {m : Mem} {a n k : Nat} {bs : Bytes}

theorem read_length : (m.read a n).length = n := by simp [read]

theorem read_get {i : Nat} (h : i < (m.read a n).length) : (m.read a n)[i] = m.byte (a + i) := by simp [read]

theorem read_drop_take (h : a + n ≤ k) {b : Nat} : ((m.read b k).drop a).take n = m.read (b + a) n := by
  apply List.ext_getElem
  · simp [read_length]; omega
  · intro i h1 h2
    simp only [List.getElem_take, List.getElem_drop, read_get]
    congr 1
    omega

theorem read_take {b : Nat} (h : n ≤ k) : (m.read b k).take n = m.read b n := by
  have := read_drop_take (m := m) (a := 0) (n := n) (k := k) (b := b) (by omega)
  simpa using this

theorem read_drop {b : Nat} (h : n ≤ k) : (m.read b k).drop n = m.read (b + n) (k - n) := by
  have := read_drop_take (m := m) (a := n) (n := k - n) (k := k) (b := b) (by omega)
  rw [← this, List.take_of_length_le (by simp [read_length])]

theorem read_append {j : Nat} : m.read a (n + j) = m.read a n ++ m.read (a + n) j := by
  rw [← List.take_append_drop n (m.read a (n + j)), read_take (by omega), read_drop (by omega)]
  congr 2
  omega

/-- A read only depends on the bytes there. -/
theorem read_congr {m' : Mem} (h : ∀ i, a ≤ i → i < a + n → m'.byte i = m.byte i) : m'.read a n = m.read a n := by
  apply List.ext_getElem
  · simp [read_length]
  · intro i h1 h2
    rw [read_get, read_get]
    rw [read_length] at h2
    exact h _ (by omega) (by omega)

theorem write_byte_in (i : Nat) (h : i < bs.length) : (m.write a bs).byte (a + i) = bs[i] := by
  simp [write, h]

theorem write_byte_out {i : Nat} (h : ¬ (a ≤ i ∧ i < a + bs.length)) : (m.write a bs).byte i = m.byte i := by
  simp only [write]
  split
  · rw [List.getElem?_eq_none (by omega)]; rfl
  · rfl

theorem read_write_same : (m.write a bs).read a bs.length = bs := by
  apply List.ext_getElem
  · simp [read_length]
  · intro i h1 h2
    rw [read_get, write_byte_in _ h2]

theorem read_write {b : Nat} (h1 : b ≤ a) (h2 : a + bs.length ≤ b + n) :
    (m.write a bs).read b n = splice (m.read b n) (a - b) bs := by
  unfold splice
  rw [read_take (by omega), read_drop (by omega)]
  have e : n = (a - b) + (bs.length + (n - (a - b + bs.length))) := by omega
  conv => lhs; rw [e, read_append, read_append]
  rw [read_congr (m := m) (fun i k1 k2 => write_byte_out (by omega)), show b + (a - b) = a by omega, read_write_same,
    read_congr (m := m) (a := a + bs.length) (fun i k1 k2 => write_byte_out (by omega)), List.append_assoc]
  congr 3
  omega

end Mem

/-! ### Arithmetic as outcomes -/

/-- `a * b`. -/
def umulRes (cfg : Cfg) (a b : Nat) : Res Nat :=
  if a * b ≤ usizeMax then .ok (a * b)
  else if cfg.debug then .panic .overflow
  else .ok (a * b % (usizeMax + 1))

theorem umul_eq {σ : Type} (a b : Nat) : (umul cfg a b : M σ Nat) = M.lift (umulRes cfg a b) := by
  unfold umul umulRes
  split
  · rfl
  · split <;> rfl

theorem M.lift_pure {σ : Type} (x : α) : (pure x : M σ α) = M.lift (.ok x) := rfl
theorem M.lift_panic {σ : Type} (y : Why) : (M.panic y : M σ α) = M.lift (.panic y) := rfl

/-- Outcomes in sequence. -/
def Res.bind {α β : Type} (r : Res α) (f : α → Res β) : Res β :=
  match r with
  | .ok a => f a
  | .panic y => .panic y
  | .ub => .ub
  | .abort => .abort

theorem M.lift_bind {σ : Type} (r : Res α) (f : α → Res β) :
    (M.lift r >>= fun a => M.lift (f a) : M σ β) = M.lift (r.bind f) := by
  cases r <;> rfl

/-- `a + b`. -/
def uaddRes (cfg : Cfg) (a b : Nat) : Res Nat :=
  if a + b ≤ usizeMax then .ok (a + b)
  else if cfg.debug then .panic .overflow
  else .ok ((a + b) % (usizeMax + 1))

theorem uadd_eq {σ : Type} (a b : Nat) : (uadd cfg a b : M σ Nat) = M.lift (uaddRes cfg a b) := by
  unfold uadd uaddRes
  split
  · rfl
  · split <;> rfl

/-- `indexByteRange` as an outcome. -/
def rangeRes (cfg : Cfg) (n i : Nat) : Res (Nat × Nat) :=
  (umulRes cfg i n).bind fun a => (uaddRes cfg i 1).bind fun i1 => (umulRes cfg i1 n).bind fun b => .ok (a, b)

theorem indexByteRange_eq {σ : Type} (n i : Nat) : (indexByteRange cfg n i : M σ (Nat × Nat)) = M.lift (rangeRes cfg n i) := by
  simp only [indexByteRange, umul_eq, uadd_eq, M.lift_pure, M.lift_bind, rangeRes]

/-- `Rng.scale` as an outcome. -/
def scaleRes (cfg : Cfg) (n : Nat) : Rng → Res Rng
  | .range a b => (umulRes cfg a n).bind fun a' => (umulRes cfg b n).bind fun b' => .ok (.range a' b')
  | .rangeTo b => (umulRes cfg b n).bind fun b' => .ok (.rangeTo b')
  | .rangeFrom a => (umulRes cfg a n).bind fun a' => .ok (.rangeFrom a')
  | .full => .ok .full
  | .inclusive a b => (umulRes cfg a n).bind fun a' => (umulRes cfg b n).bind fun b' => .ok (.inclusive a' b')
  | .toInclusive b => (umulRes cfg b n).bind fun b' => .ok (.toInclusive b')

theorem scale_eq {σ : Type} (n : Nat) (r : Rng) : (r.scale cfg n : M σ Rng) = M.lift (scaleRes cfg n r) := by
  cases r <;> simp only [Rng.scale, umul_eq, M.lift_pure, M.lift_bind, scaleRes]

theorem Res.bind_ok {r : Res α} {f : α → Res β} {b : β} (h : r.bind f = .ok b) : ∃ a, r = .ok a ∧ f a = .ok b := by
  cases r with
  | ok a => exact ⟨a, rfl, h⟩
  | panic => cases h
  | ub => cases h
  | abort => cases h

/-- A product keeps a divisor of a factor, also if it wraps. -/
theorem umulRes_dvd {a b x d : Nat} (h : umulRes cfg a b = .ok x) (hd : d ∣ a ∨ d ∣ b) (hw : d ∣ usizeMax + 1) : d ∣ x := by
  have hab : d ∣ a * b := by
    rcases hd with h | h
    · exact Nat.dvd_trans h (Nat.dvd_mul_right a b)
    · exact Nat.dvd_trans h (Nat.dvd_mul_left b a)
  unfold umulRes at h
  split at h
  · cases h; exact hab
  · split at h
    · cases h
    · cases h; exact (Nat.dvd_mod_iff hw).2 hab

theorem align_dvd_wrap (Γ : TyEnv U) (t : TyId) : Γ.align t ∣ usizeMax + 1 := by
  obtain ⟨k, hk, e⟩ := Γ.align_pow t
  rw [e, show usizeMax + 1 = 2 ^ 64 from rfl]
  exact Nat.pow_dvd_pow 2 (by omega)

/-- The range of an element: it starts at a multiple of the alignment, and is as long as the element. -/
theorem rangeRes_ok {n i a b d : Nat} (h : rangeRes cfg n i = .ok (a, b)) (hn : n ≤ usizeMax) (hd : d ∣ n) (hw : d ∣ usizeMax + 1) :
    d ∣ a ∧ (a ≤ b → b = a + n) := by
  obtain ⟨a', ha, h⟩ := Res.bind_ok h
  obtain ⟨i1, hi, h⟩ := Res.bind_ok h
  obtain ⟨b', hb, h⟩ := Res.bind_ok h
  cases h
  refine ⟨umulRes_dvd ha (.inr hd) hw, fun hab => ?_⟩
  have hW : 0 < usizeMax + 1 := by omega
  -- all numbers modulo the word size
  have ea : a = i * n % (usizeMax + 1) := by
    unfold umulRes at ha
    split at ha
    · cases ha; exact (Nat.mod_eq_of_lt (by omega)).symm
    · split at ha
      · cases ha
      · cases ha; rfl
  have ei : i1 = (i + 1) % (usizeMax + 1) := by
    unfold uaddRes at hi
    split at hi
    · cases hi; exact (Nat.mod_eq_of_lt (by omega)).symm
    · split at hi
      · cases hi
      · cases hi; rfl
  have eb : b = i1 * n % (usizeMax + 1) := by
    unfold umulRes at hb
    split at hb
    · cases hb; exact (Nat.mod_eq_of_lt (by omega)).symm
    · split at hb
      · cases hb
      · cases hb; rfl
  have e : b = (a + n) % (usizeMax + 1) := by
    rw [eb, ei, ea, Nat.mod_mul_mod, Nat.mod_add_mod, Nat.add_mul, Nat.one_mul]
  have la : a < usizeMax + 1 := by rw [ea]; exact Nat.mod_lt _ hW
  by_cases hl : a + n < usizeMax + 1
  · rw [e, Nat.mod_eq_of_lt hl]
  · rw [Nat.mod_eq_sub_mod (by omega), Nat.mod_eq_of_lt (by omega)] at e
    omega

end Dync
