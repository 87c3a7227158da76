import Verif.WrapLemmas
import Verif.Props.VecCopy2
import Verif.Props.Convert
import Mathlib.Data.Nat.Prime.Basic
/-!
# C68: every index has one of these outcomes

In debug builds the outcome of an index operation on a view is the element or a panic. In release
builds byte offsets are computed modulo 2^64; the theorems give the result for every index, and the
exact set of element sizes for which a wrapped offset can fall inside an element.
-/
namespace Dync
variable {U V σ α : Type} {Γ : TyEnv U} {t : TyId} {es : List Bytes} {s : SliceCopy V}

/-- Debug builds: `get(i)` is the element if there is one, otherwise it panics. -/
theorem C68_get_debug (R : SRepr Γ t es s) (i : Nat) (st : σ) :
    s.get ⟨true⟩ i st = if h : i < es.length then (.ok ⟨es[i], t, Γ.align t, s.vtable⟩, st) else (.panic .assertion, st) := by
  by_cases h : i < es.length
  · rw [dif_pos h, R.get h]
  · rw [dif_neg h]
    simp only [SliceCopy.get, if_true, M.bind_run, R.len, decide_eq_false h, M.assert_false_run]

/-- Release builds: `get(i)` is the window at the wrapped offset if that window lies inside the slice,
otherwise it panics. -/
theorem C68_get_release (R : SRepr Γ t es s) (i : Nat) (st : σ) :
    s.get ⟨false⟩ i st =
      if i * Γ.size t % 2 ^ 64 + Γ.size t ≤ es.length * Γ.size t then
        (.ok ⟨(es.flatten.drop (i * Γ.size t % 2 ^ 64)).take (Γ.size t), t, Γ.align t, s.vtable⟩, st)
      else (.panic .index, st) := by
  have hl : s.data.length ≤ isizeMax := by rw [R.length]; exact R.bound
  simp only [SliceCopy.get, indexByteSlice, Bool.false_eq_true, if_false, R.numBytes]
  simp only [M.bind_run, indexByteRange_release, M.lift_run]
  rw [sliceIndex_window hl R.pos (Γ.size_le t) (Nat.mod_lt _ (by decide)), R.length]
  by_cases h : i * Γ.size t % 2 ^ 64 + Γ.size t ≤ es.length * Γ.size t
  · simp only [if_pos h, M.pure_run, SliceCopy.valueOf, R.elem, ElemInfo.new, R.data]
  · simp only [if_neg h]

/-- A size divides 2^64 exactly if it is a power of two. -/
theorem C68_power_of_two (n : Nat) : n ∣ 2 ^ 64 ↔ ∃ k, k ≤ 64 ∧ n = 2 ^ k := Nat.dvd_prime_pow Nat.prime_two

/-- In release builds, `get` never returns anything but an element, for all slices and indices, exactly
if the element size is a power of two. -/
theorem C68_get_whole_iff (vt : V) (hpos : 0 < Γ.size t) (h2 : 2 * Γ.size t ≤ isizeMax) :
    (∀ (es : List Bytes) (s : SliceCopy V), SRepr Γ t es s → ∀ i ≤ usizeMax, ∀ v,
      (s.get ⟨false⟩ i ()).1 = .ok v → v.bytes ∈ es) ↔ Γ.size t ∣ 2 ^ 64 := by
  constructor
  · intro H
    by_contra hd
    have hr : 0 < 2 ^ 64 % Γ.size t := Nat.pos_of_ne_zero fun h => hd (Nat.dvd_of_mod_eq_zero h)
    have hr' : 2 ^ 64 % Γ.size t < Γ.size t := Nat.mod_lt _ hpos
    have hsz : 2 ≤ Γ.size t := by omega
    generalize hS : Γ.size t = S at *
    have hdiv := Nat.div_add_mod (2 ^ 64) S
    have hq : (2 ^ 64 / S + 1) * S = 2 ^ 64 + (S - 2 ^ 64 % S) := by
      rw [Nat.add_mul, Nat.one_mul, Nat.mul_comm (2 ^ 64 / S)]; omega
    have hi : 2 ^ 64 / S + 1 ≤ usizeMax := by
      have : 2 ^ 64 / S ≤ 2 ^ 64 / 2 := Nat.div_le_div_left hsz (by decide)
      have : usizeMax = 2 ^ 64 - 1 := by decide
      omega
    have hI : isizeMax = 2 ^ 63 - 1 := by decide
    have ho : (2 ^ 64 / S + 1) * S % 2 ^ 64 = S - 2 ^ 64 % S := by
      rw [hq, Nat.add_mod_left, Nat.mod_eq_of_lt (by omega)]
    have R : SRepr Γ t [List.replicate S (some 0), List.replicate S (some 1)]
        (⟨[List.replicate S (some 0), List.replicate S (some 1)].flatten, ElemInfo.new Γ t, vt⟩ : SliceCopy V) :=
      ⟨rfl, by simp [hS], rfl, by omega, by simpa [hS] using h2⟩
    have hin : (2 ^ 64 / S + 1) * S % 2 ^ 64 + S ≤ 2 * S := by omega
    have hg := C68_get_release R (2 ^ 64 / S + 1) ()
    rw [hS, ho] at hg
    rw [if_pos (by simp only [List.length_cons, List.length_nil]; omega)] at hg
    have hb := H _ _ R _ hi _ (by rw [hg])
    have hw : ([List.replicate S (some 0), List.replicate S (some 1)].flatten.drop (S - 2 ^ 64 % S)).take S =
        List.replicate (2 ^ 64 % S) (some 0) ++ List.replicate (S - 2 ^ 64 % S) (some (1 : UInt8)) := by
      simp only [List.flatten_cons, List.flatten_nil, List.append_nil]
      rw [List.drop_append_of_le_length (by simp), List.drop_replicate, List.take_append, List.take_replicate, List.take_replicate]
      simp only [List.length_replicate]
      congr 2 <;> omega
    rw [hw] at hb
    have h0 : (some 0 : Option UInt8) ∈ List.replicate (2 ^ 64 % S) (some 0) ++ List.replicate (S - 2 ^ 64 % S) (some (1 : UInt8)) :=
      List.mem_append_left _ (List.mem_replicate.2 ⟨by omega, rfl⟩)
    have h1 : (some 1 : Option UInt8) ∈ List.replicate (2 ^ 64 % S) (some 0) ++ List.replicate (S - 2 ^ 64 % S) (some (1 : UInt8)) :=
      List.mem_append_right _ (List.mem_replicate.2 ⟨by omega, rfl⟩)
    simp only [List.mem_cons, List.not_mem_nil, or_false] at hb
    rcases hb with hb | hb
    · rw [hb] at h1; exact absurd (List.mem_replicate.1 h1).2 (by decide)
    · rw [hb] at h0; exact absurd (List.mem_replicate.1 h0).2 (by decide)
  · intro hd es s R i _ v hv
    rw [C68_get_release R] at hv
    have ho : Γ.size t ∣ i * Γ.size t % 2 ^ 64 := (Nat.dvd_mod_iff hd).2 (Nat.dvd_mul_left _ _)
    obtain ⟨k, hk⟩ := ho
    rw [Nat.mul_comm (Γ.size t) k] at hk
    rw [hk] at hv
    by_cases h : k * Γ.size t + Γ.size t ≤ es.length * Γ.size t
    · have hk' : k < es.length := by
        have : (k + 1) * Γ.size t ≤ es.length * Γ.size t := by rw [Nat.add_mul]; omega
        exact Nat.le_of_mul_le_mul_right this hpos
      rw [if_pos h] at hv
      cases hv
      show (es.flatten.drop (k * Γ.size t)).take (Γ.size t) ∈ es
      rw [drop_take_flatten R.each hk']
      exact List.getElem_mem hk'
    · rw [if_neg h] at hv; cases hv

/-- `split_at` in debug builds. -/
theorem C68_split_at_debug (R : SRepr Γ t es s) (mid : Nat) (st : σ) :
    (mid ≤ es.length → s.splitAt ⟨true⟩ mid st = (.ok (⟨(es.take mid).flatten, s.elem, s.vtable⟩, ⟨(es.drop mid).flatten, s.elem, s.vtable⟩), st)) ∧
    (es.length < mid → ∃ y, s.splitAt ⟨true⟩ mid st = (.panic y, st)) :=
  ⟨fun h => R.splitAt h st, fun h => R.splitAt_out h (.inl rfl) st⟩

/-- `split_at` in release builds: at the wrapped offset, if it lies inside the slice. -/
theorem C68_split_at_release (R : SRepr Γ t es s) (mid : Nat) (st : σ) :
    s.splitAt ⟨false⟩ mid st =
      if mid * Γ.size t % 2 ^ 64 ≤ es.length * Γ.size t then
        (.ok (⟨es.flatten.take (mid * Γ.size t % 2 ^ 64), s.elem, s.vtable⟩,
              ⟨es.flatten.drop (mid * Γ.size t % 2 ^ 64), s.elem, s.vtable⟩), st)
      else (.panic .assertion, st) := by
  simp only [SliceCopy.splitAt, R.numBytes]
  rw [M.bind_ok (umul_release ..)]
  simp only [M.bind_run, M.lift_run, sliceSplitAt, R.length]
  by_cases h : mid * Γ.size t % 2 ^ 64 ≤ es.length * Γ.size t
  · simp only [if_pos h, R.data]; rfl
  · simp only [if_neg h]

/-- `chunks_exact(k)` in release builds: chunks of `size * k` bytes modulo 2^64; panics if that is 0. -/
theorem C68_chunks_exact_release (R : SRepr Γ t es s) (k : Nat) (st : σ) :
    s.chunksExact ⟨false⟩ k st =
      if Γ.size t * k % 2 ^ 64 = 0 then (.panic .zeroChunk, st)
      else (.ok ((chunks (Γ.size t * k % 2 ^ 64) es.flatten).map fun d => ⟨d, s.elem, s.vtable⟩), st) := by
  simp only [SliceCopy.chunksExact, R.numBytes]
  rw [M.bind_ok (umul_release ..)]
  simp only [M.bind_run, M.lift_run, Dync.chunksExact]
  by_cases h : Γ.size t * k % 2 ^ 64 = 0
  · simp only [if_pos h]
  · simp only [if_neg h, R.data]; rfl

/-- `chunks_exact(k)` in debug builds: `k = 0` and an overflowing chunk size panic. -/
theorem C68_chunks_exact_debug (R : SRepr Γ t es s) (k : Nat) (st : σ) :
    s.chunksExact ⟨true⟩ k st =
      if usizeMax < Γ.size t * k then (.panic .overflow, st)
      else if k = 0 then (.panic .zeroChunk, st)
      else (.ok ((chunks k es).map fun g => ⟨g.flatten, s.elem, s.vtable⟩), st) := by
  by_cases h : usizeMax < Γ.size t * k
  · rw [if_pos h]
    simp only [SliceCopy.chunksExact, R.numBytes, umul, if_neg (Nat.not_le.2 h), if_true]
    rfl
  · rw [if_neg h]
    by_cases hk : k = 0
    · subst hk
      rw [if_pos rfl]
      simp only [SliceCopy.chunksExact, R.numBytes, umul, Nat.mul_zero, Nat.zero_le, if_true]
      rfl
    · rw [if_neg hk, R.chunksExact (Nat.pos_of_ne_zero hk) (by omega)]

/-- Rotating a view in debug builds. -/
theorem C68_rotate_debug (R : SRepr Γ t es s) (n : Nat) :
    (n ≤ es.length → SliceCopy.rotateLeft ⟨true⟩ n s = (.ok (), { s with data := (es.drop n ++ es.take n).flatten }) ∧
      SliceCopy.rotateRight ⟨true⟩ n s =
        (.ok (), { s with data := (es.drop (es.length - n) ++ es.take (es.length - n)).flatten })) ∧
    (es.length < n → (∃ y, SliceCopy.rotateLeft ⟨true⟩ n s = (.panic y, s)) ∧
      ∃ y, SliceCopy.rotateRight ⟨true⟩ n s = (.panic y, s)) :=
  ⟨fun h => ⟨R.rotateLeft h, R.rotateRight h⟩, fun h => R.rotate_out h (.inl rfl)⟩

/-- Rotating a view in release builds: by the wrapped number of bytes, if that does not exceed the
slice. -/
theorem C68_rotate_release (R : SRepr Γ t es s) (n : Nat) :
    SliceCopy.rotateLeft ⟨false⟩ n s =
      (if n * Γ.size t % 2 ^ 64 ≤ es.length * Γ.size t then
        (.ok (), { s with data := es.flatten.drop (n * Γ.size t % 2 ^ 64) ++ es.flatten.take (n * Γ.size t % 2 ^ 64) })
      else (.panic .assertion, s)) ∧
    SliceCopy.rotateRight ⟨false⟩ n s =
      (if n * Γ.size t % 2 ^ 64 ≤ es.length * Γ.size t then
        (.ok (), { s with data := es.flatten.drop (es.length * Γ.size t - n * Γ.size t % 2 ^ 64) ++ es.flatten.take (es.length * Γ.size t - n * Γ.size t % 2 ^ 64) })
      else (.panic .assertion, s)) := by
  constructor
  · simp only [SliceCopy.rotateLeft, M.bind_run, M.get_run, R.numBytes, umul_release, M.lift_run, sliceRotateLeft, R.length]
    by_cases h : n * Γ.size t % 2 ^ 64 ≤ es.length * Γ.size t
    · simp only [if_pos h, R.data, M.set_run]
    · simp only [if_neg h]
  · simp only [SliceCopy.rotateRight, M.bind_run, M.get_run, R.numBytes, umul_release, M.lift_run, sliceRotateRight, R.length]
    by_cases h : n * Γ.size t % 2 ^ 64 ≤ es.length * Γ.size t
    · simp only [if_pos h, R.data, M.set_run]
    · simp only [if_neg h]

/-- The byte interval a range selects in a release build from `n` elements of size `sz`. -/
def Rng.window (sz n : Nat) : Rng → Nat × Nat
  | .range a b => (a * sz % 2 ^ 64, b * sz % 2 ^ 64)
  | .rangeTo b => (0, b * sz % 2 ^ 64)
  | .rangeFrom a => (a * sz % 2 ^ 64, n * sz)
  | .full => (0, n * sz)
  | .inclusive a b => (a * sz % 2 ^ 64, b * sz % 2 ^ 64 + 1)
  | .toInclusive b => (0, b * sz % 2 ^ 64 + 1)

/-- `subslice` in release builds, for every range. -/
theorem C68_subslice_release (R : SRepr Γ t es s) (r : Rng) (st : σ) :
    s.subslice ⟨false⟩ r st =
      if (r.window (Γ.size t) es.length).1 ≤ (r.window (Γ.size t) es.length).2 ∧
        (r.window (Γ.size t) es.length).2 ≤ es.length * Γ.size t then
        (.ok ⟨(es.flatten.take (r.window (Γ.size t) es.length).2).drop (r.window (Γ.size t) es.length).1, s.elem, s.vtable⟩, st)
      else (.panic .index, st) := by
  have key : ∀ a b, (do
      let d ← M.lift (sliceIndex s.data a b)
      pure ⟨d, s.elem, s.vtable⟩ : M σ (SliceCopy V)) st =
      if a ≤ b ∧ b ≤ es.length * Γ.size t then (.ok ⟨(es.flatten.take b).drop a, s.elem, s.vtable⟩, st)
      else (.panic .index, st) := by
    intro a b
    simp only [M.bind_run, M.lift_run, sliceIndex, R.length]
    by_cases h : a ≤ b ∧ b ≤ es.length * Γ.size t
    · simp only [if_pos h, R.data, M.pure_run]
    · simp only [if_neg h]
  have hmax : ∀ a x, x = usizeMax → ¬ (a ≤ x + 1 ∧ x + 1 ≤ es.length * Γ.size t) := by
    intro a x hx hc
    have := R.bound
    have : isizeMax < usizeMax := by decide
    omega
  cases r <;> simp only [SliceCopy.subslice, Rng.scale, R.numBytes, Rng.window]
  case range a b =>
    simp only [M.bind_run, umul_release, M.pure_run, Rng.bounds, M.lift_run]
    exact key _ _
  case rangeTo b =>
    simp only [M.bind_run, umul_release, M.pure_run, Rng.bounds, M.lift_run]
    exact key _ _
  case rangeFrom a =>
    simp only [M.bind_run, umul_release, M.pure_run, Rng.bounds, M.lift_run, R.length]
    exact key _ _
  case full =>
    simp only [M.bind_run, M.pure_run, Rng.bounds, M.lift_run, R.length]
    exact key _ _
  case inclusive a b =>
    simp only [M.bind_run, umul_release, M.pure_run, Rng.bounds, M.lift_run]
    by_cases hb : b * Γ.size t % 2 ^ 64 = usizeMax
    · simp only [if_pos hb]; exact (if_neg (hmax _ _ hb)).symm
    · simp only [if_neg hb]; exact key _ _
  case toInclusive b =>
    simp only [M.bind_run, umul_release, M.pure_run, Rng.bounds, M.lift_run]
    by_cases hb : b * Γ.size t % 2 ^ 64 = usizeMax
    · simp only [if_pos hb]; exact (if_neg (hmax _ _ hb)).symm
    · simp only [if_neg hb]; exact key _ _

/-- `get_ref` of `VecCopy` in release builds has no bounds check: it reads the window at the wrapped
offset, which is undefined behaviour unless the window lies inside the content. -/
theorem C68_get_ref_release {c : VecCopy V} {h : Heap} (R : Repr Γ h t es c.data) (i : Nat) (st : σ) :
    c.getRef ⟨false⟩ i st =
      if i * Γ.size t % 2 ^ 64 + Γ.size t ≤ es.length * Γ.size t then
        (.ok ⟨(es.flatten.drop (i * Γ.size t % 2 ^ 64)).take (Γ.size t), t, Γ.align t, c.vtable⟩, st)
      else (.ub, st) := by
  have hn : c.data.elem.numBytes = Γ.size t := R.numBytes
  have hl : c.data.mem.length = es.length * Γ.size t := by rw [R.mem, length_flatten_eq R.each]
  simp only [VecCopy.getRef, debugAssert, Bool.false_eq_true, if_false, hn, hl, M.bind_run, M.pure_run, umul_release]
  by_cases h : i * Γ.size t % 2 ^ 64 + Γ.size t ≤ es.length * Γ.size t
  · simp only [if_pos h, M.pure_run, VecCopy.valueOf, VecCopy.elementTypeId, R.type_id, R.align, R.mem]
  · simp only [if_neg h]; rfl

/-- `swap(i, j)` in release builds, `i ≠ j`: exchanges the windows at the two wrapped offsets if the
window of the smaller index ends before the other one begins and both lie inside the slice; otherwise
it panics and leaves the slice as it is. -/
theorem C68_swap_release (R : SRepr Γ t es s) {i j : Nat} (hij : i ≠ j) {a b : Nat}
    (ha : a = min i j * Γ.size t % 2 ^ 64) (hb : b = max i j * Γ.size t % 2 ^ 64) :
    (a + Γ.size t ≤ b ∧ b + Γ.size t ≤ es.length * Γ.size t → SliceCopy.swap ⟨false⟩ i j s =
      (.ok (), { s with data := es.flatten.take a ++ (es.flatten.drop b).take (Γ.size t) ++
        (es.flatten.take b).drop (a + Γ.size t) ++ (es.flatten.drop a).take (Γ.size t) ++ es.flatten.drop (b + Γ.size t) })) ∧
    (¬ (a + Γ.size t ≤ b ∧ b + Γ.size t ≤ es.length * Γ.size t) → ∃ y, SliceCopy.swap ⟨false⟩ i j s = (.panic y, s)) := by
  have hl : es.flatten.length = es.length * Γ.size t := length_flatten_eq R.each
  have hpos := R.pos
  have hsz := Γ.size_le t
  have hbd := R.bound
  have hI : isizeMax = 2 ^ 63 - 1 := by decide
  have hA : a < 2 ^ 64 := by rw [ha]; exact Nat.mod_lt _ (by decide)
  have h0 : ∀ st : SliceCopy V, indexByteRange ⟨false⟩ (Γ.size t) 0 st = (.ok (0, Γ.size t), st) := by
    intro st
    rw [indexByteRange_release, Nat.zero_mul, Nat.zero_mod, Nat.zero_add, Nat.mod_eq_of_lt (by omega)]
  have half : ∀ st : SliceCopy V, ∀ lo hi, lo * Γ.size t % 2 ^ 64 = a → hi * Γ.size t % 2 ^ 64 = b →
      (a + Γ.size t ≤ b ∧ b + Γ.size t ≤ es.length * Γ.size t →
        (do
          let (la, lb) ← indexByteRange ⟨false⟩ (Γ.size t) lo
          let m ← umul ⟨false⟩ (Γ.size t) hi
          let (l, r) ← M.lift (sliceSplitAt es.flatten m)
          let ls ← M.lift (sliceIndex l la lb)
          let rs ← M.lift (sliceIndex r 0 (Γ.size t))
          let (ls', rs') ← M.lift (sliceSwapWith ls rs)
          pure (splice l la ls' ++ splice r 0 rs') : M (SliceCopy V) Bytes) st =
          (.ok (es.flatten.take a ++ (es.flatten.drop b).take (Γ.size t) ++
            (es.flatten.take b).drop (a + Γ.size t) ++ (es.flatten.drop a).take (Γ.size t) ++ es.flatten.drop (b + Γ.size t)), st)) ∧
      (¬ (a + Γ.size t ≤ b ∧ b + Γ.size t ≤ es.length * Γ.size t) → ∃ y,
        (do
          let (la, lb) ← indexByteRange ⟨false⟩ (Γ.size t) lo
          let m ← umul ⟨false⟩ (Γ.size t) hi
          let (l, r) ← M.lift (sliceSplitAt es.flatten m)
          let ls ← M.lift (sliceIndex l la lb)
          let rs ← M.lift (sliceIndex r 0 (Γ.size t))
          let (ls', rs') ← M.lift (sliceSwapWith ls rs)
          pure (splice l la ls' ++ splice r 0 rs') : M (SliceCopy V) Bytes) st = (.panic y, st)) := by
    intro st lo hi hlo hhi
    rw [Nat.mul_comm] at hhi
    simp only [M.bind_run, indexByteRange_release, umul_release, hlo, hhi, M.lift_run, sliceSplitAt, hl]
    by_cases h1 : b ≤ es.length * Γ.size t
    · simp only [if_pos h1]
      have htl : (es.flatten.take b).length = b := by rw [List.length_take, hl]; omega
      have hw := sliceIndex_window (l := es.flatten.take b) (a := a) (nb := Γ.size t) (by omega) hpos hsz hA
      rw [htl] at hw
      simp only [hw]
      by_cases h2 : a + Γ.size t ≤ b
      · simp only [if_pos h2]
        by_cases h3 : b + Γ.size t ≤ es.length * Γ.size t
        · have hr : sliceIndex (es.flatten.drop b) 0 (Γ.size t) = .ok ((es.flatten.drop b).take (Γ.size t)) := by
            unfold sliceIndex
            rw [if_pos ⟨Nat.zero_le _, by rw [List.length_drop, hl]; omega⟩, List.drop_zero]
          have e1 : ((es.flatten.take b).drop a).take (Γ.size t) = (es.flatten.drop a).take (Γ.size t) := by
            rw [List.drop_take, List.take_take, Nat.min_eq_left (by omega)]
          have l1 : ((es.flatten.drop a).take (Γ.size t)).length = Γ.size t := by
            rw [List.length_take, List.length_drop, hl]; omega
          have l2 : ((es.flatten.drop b).take (Γ.size t)).length = Γ.size t := by
            rw [List.length_take, List.length_drop, hl]; omega
          refine ⟨fun _ => ?_, fun hc => absurd ⟨h2, h3⟩ hc⟩
          simp only [hr, e1, sliceSwapWith, l1, l2, if_true, M.pure_run, splice, List.take_zero, List.nil_append, Nat.zero_add,
            List.drop_drop]
          rw [List.take_take, Nat.min_eq_left (by omega)]
          simp only [List.append_assoc]
        · refine ⟨fun hc => absurd hc.2 h3, fun _ => ⟨.index, ?_⟩⟩
          have hr : sliceIndex (es.flatten.drop b) 0 (Γ.size t) = .panic .index := by
            unfold sliceIndex
            rw [if_neg]
            intro hc
            rw [List.length_drop, hl] at hc
            omega
          simp only [hr]
      · simp only [if_neg h2]
        exact ⟨fun hc => absurd hc.1 h2, fun _ => ⟨_, rfl⟩⟩
    · simp only [if_neg h1]
      exact ⟨fun hc => by omega, fun _ => ⟨_, rfl⟩⟩
  have sw : (a + Γ.size t ≤ b ∧ b + Γ.size t ≤ es.length * Γ.size t → swapBytes ⟨false⟩ (Γ.size t) es.flatten i j s =
      (.ok (es.flatten.take a ++ (es.flatten.drop b).take (Γ.size t) ++
        (es.flatten.take b).drop (a + Γ.size t) ++ (es.flatten.drop a).take (Γ.size t) ++ es.flatten.drop (b + Γ.size t)), s)) ∧
      (¬ (a + Γ.size t ≤ b ∧ b + Γ.size t ≤ es.length * Γ.size t) →
        ∃ y, swapBytes ⟨false⟩ (Γ.size t) es.flatten i j s = (.panic y, s)) := by
    simp only [swapBytes, if_neg hij]
    rw [M.bind_ok (h0 s)]
    rcases Nat.lt_or_gt_of_ne hij with hlt | hgt
    · rw [Nat.min_eq_left (by omega)] at ha
      rw [Nat.max_eq_right (by omega)] at hb
      simp only [if_pos hlt]
      exact half s i j ha.symm hb.symm
    · rw [Nat.min_eq_right (by omega)] at ha
      rw [Nat.max_eq_left (by omega)] at hb
      simp only [if_neg (Nat.not_lt.2 (Nat.le_of_lt hgt))]
      exact half s j i ha.symm hb.symm
  simp only [SliceCopy.swap, M.bind_run, M.get_run, R.numBytes, R.data]
  refine ⟨fun h => ?_, fun h => ?_⟩
  · simp only [sw.1 h, M.set_run]
  · obtain ⟨y, hy⟩ := sw.2 h
    exact ⟨y, by simp only [hy]⟩

/-- `get_mut(i)` in release builds: the caller works on the window at the wrapped offset. -/
theorem C68_get_mut_release (R : SRepr Γ t es s) (i : Nat) (m : M (CopyValue V) α) {a : Nat} (ha : a = i * Γ.size t % 2 ^ 64) :
    SliceCopy.getMut ⟨false⟩ i m s =
      if a + Γ.size t ≤ es.length * Γ.size t then
        ((m ⟨(es.flatten.drop a).take (Γ.size t), t, Γ.align t, s.vtable⟩).1,
          { s with data := splice es.flatten a (m ⟨(es.flatten.drop a).take (Γ.size t), t, Γ.align t, s.vtable⟩).2.bytes })
      else (.panic .index, s) := by
  have hl : s.data.length ≤ isizeMax := by rw [R.length]; exact R.bound
  simp only [SliceCopy.getMut, Bool.false_eq_true, if_false, R.numBytes]
  simp only [M.bind_run, M.get_run, M.pure_run, R.numBytes, indexByteRange_release, M.lift_run, ← ha]
  rw [sliceIndex_window hl R.pos (Γ.size_le t) (by rw [ha]; exact Nat.mod_lt _ (by decide)), R.length]
  by_cases h : a + Γ.size t ≤ es.length * Γ.size t
  · simp only [if_pos h, SliceCopy.valueOf, R.elem, ElemInfo.new, R.data]
  · simp only [if_neg h]

/-- `swap` in debug builds. -/
theorem C68_swap_debug (R : SRepr Γ t es s) (i j : Nat) :
    (∀ (hi : i < es.length) (hj : j < es.length), SliceCopy.swap ⟨true⟩ i j s =
      (.ok (), { s with data := ((es.set i es[j]).set j es[i]).flatten })) ∧
    (es.length ≤ i ∨ es.length ≤ j → i ≠ j → ∃ y, SliceCopy.swap ⟨true⟩ i j s = (.panic y, s)) ∧
    (i = j → SliceCopy.swap ⟨true⟩ i j s = (.ok (), s)) := by
  refine ⟨fun hi hj => R.swap hi hj, fun ho hij => C22_slice_swap_out_partial R hij ho (.inl rfl) (.inl rfl), fun h => ?_⟩
  subst h
  simp only [SliceCopy.swap, M.bind_run, M.get_run, swapBytes, if_true, M.pure_run, M.set_run]

/-- `subslice` in debug builds, for half-open ranges. -/
theorem C68_subslice_debug (R : SRepr Γ t es s) {r : Rng} (hr : r.halfOpen) (st : σ) :
    (r.lo ≤ r.hi es.length ∧ r.hi es.length ≤ es.length →
      s.subslice ⟨true⟩ r st = (.ok ⟨((es.take (r.hi es.length)).drop r.lo).flatten, s.elem, s.vtable⟩, st)) ∧
    (¬ (r.lo ≤ r.hi es.length ∧ r.hi es.length ≤ es.length) → ∃ y, s.subslice ⟨true⟩ r st = (.panic y, st)) := by
  constructor
  · rintro ⟨h1, h2⟩
    obtain ⟨s', e, S, hv⟩ := C25_subslice_partial (cfg := ⟨true⟩) R (.inl hr) h1 h2 st
    rw [e, S.eq, hv, R.elem]
  · intro h
    exact C25_subslice_out_partial R (.inl hr) (by omega) (.inl rfl) (.inl rfl) st

/-- `get` and `get_mut` of `VecDyn` in release builds: they check the wrapped offset against the
content, and hand out the window there. -/
theorem C68_vecdyn_get_release {c : VecDyn V} {w : World U} (R : Repr Γ w.heap t es c.data) (i : Nat) {a : Nat}
    (ha : a = i * Γ.size t % 2 ^ 64) :
    (∀ st : σ, VecDyn.get ⟨false⟩ i c st =
      if a + Γ.size t ≤ es.length * Γ.size t then (.ok (c.valueOf ((es.flatten.drop a).take (Γ.size t))), st)
      else (.panic .index, st)) ∧
    ∀ m : M (ValueRef V × World U) α, VecDyn.getMut ⟨false⟩ i m (c, w) =
      if a + Γ.size t ≤ es.length * Γ.size t then
        ((m (c.valueOf ((es.flatten.drop a).take (Γ.size t)), w)).1,
          ({ c with data := { c.data with
              mem := splice es.flatten a (m (c.valueOf ((es.flatten.drop a).take (Γ.size t)), w)).2.1.bytes } },
            (m (c.valueOf ((es.flatten.drop a).take (Γ.size t)), w)).2.2))
      else (.panic .index, (c, w)) := by
  have hl : es.flatten.length = es.length * Γ.size t := length_flatten_eq R.each
  have hb := VecCopy.Repr_mul_le R
  have hg : ∀ {τ : Type} (st : τ), c.data.getBytes ⟨false⟩ i st =
      if a + Γ.size t ≤ es.length * Γ.size t then (.ok ((es.flatten.drop a).take (Γ.size t)), st) else (.panic .index, st) := by
    intro τ st
    simp only [VecVoid.getBytes, indexByteSlice, debugAssert, Bool.false_eq_true, if_false, R.bytes, R.numBytes, M.bind_run,
      M.pure_run, M.lift_run, indexByteRange_release, ← ha]
    rw [sliceIndex_window (by omega) R.pos (Γ.size_le t) (by rw [ha]; exact Nat.mod_lt _ (by decide)), hl]
    by_cases h : a + Γ.size t ≤ es.length * Γ.size t
    · simp only [if_pos h]
    · simp only [if_neg h]
  constructor
  · intro st
    simp only [VecDyn.get, debugAssert, Bool.false_eq_true, if_false, M.bind_run, M.pure_run, hg]
    by_cases h : a + Γ.size t ≤ es.length * Γ.size t
    · simp only [if_pos h]
    · simp only [if_neg h]
  · intro m
    simp only [VecDyn.getMut]
    rw [M.bind_ok (getSelf_run _), M.bind_ok (a := ()) (s' := (c, w)) rfl]
    simp only [M.bind_run, hg]
    by_cases h : a + Γ.size t ≤ es.length * Γ.size t
    · simp only [if_pos h, R.numBytes, indexByteRange_release, ← ha, R.mem]
    · simp only [if_neg h]

/-! ### Examples -/

example := C68_get_debug Ex.s123_repr 7 ()
/-- The window at offset 0 (in range) and one that wraps around to it. -/
example : Ex.s64.get ⟨false⟩ (2 ^ 61) () = (.ok ⟨Ex.b1, 5, 8, ()⟩, ()) :=
  (C68_get_release Ex.s64_repr (2 ^ 61) ()).trans (by decide)
/-- 3-byte elements can be torn, 4-byte elements cannot. -/
example : ¬ ∀ (es : List Bytes) (s : SliceCopy Unit), SRepr Ex.env 3 es s → ∀ i ≤ usizeMax, ∀ v,
      (s.get ⟨false⟩ i ()).1 = .ok v → v.bytes ∈ es :=
  fun h => absurd ((C68_get_whole_iff (Γ := Ex.env) (t := 3) () (by decide) (by decide)).1 h) (by decide)
example := (C68_get_whole_iff (Γ := Ex.env) (t := 2) () (by decide) (by decide)).2 (by decide)
example := (C68_split_at_debug Ex.s123_repr 2 ()).1 (by decide)
example := C68_split_at_release Ex.s123_repr (2 ^ 62 + 1) ()
example := C68_chunks_exact_release Ex.s123_repr (2 ^ 62) ()
example := C68_chunks_exact_debug Ex.s123_repr 2 ()
example := (C68_rotate_debug Ex.s123_repr 4).2 (by decide)
example := C68_rotate_release Ex.s123_repr (2 ^ 62 + 1)
example := C68_subslice_release Ex.s123_repr (.inclusive 0 1) ()
example := (C68_subslice_debug Ex.s123_repr (r := .range 1 3) trivial ()).1 (by decide)
example := C68_get_ref_release Ex.c123_repr 3 ()
example := (C68_swap_release Ex.s64_repr (i := 0) (j := 2 ^ 61 + 1) (by decide) (a := 0) (b := 8) (by decide) (by decide)).1 (by decide)
example := C68_get_mut_release Ex.s123_repr (2 ^ 62 + 2) (M.set ⟨Ex.a1, 2, 4, ()⟩) (a := 8) (by decide)
example := (C68_vecdyn_get_release (σ := Unit) (α := Unit) Ex.dynLongs_repr (2 ^ 61) (a := 0) (by decide)).1 ()
example := (C68_swap_debug Ex.s123_repr 0 9).2.1 (by decide) (by decide)

end Dync
