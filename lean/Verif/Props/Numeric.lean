import Verif.Numeric
import Verif.VecCopyLemmas2
import Verif.Props.ExampleDyn
import Mathlib.Tactic.Positivity
import Mathlib.Tactic.Zify
import Mathlib.Tactic.Ring
/-!
# Properties of the `numeric` feature
-/
namespace Dync
variable {U V σ F : Type} {Γ : TyEnv U} {cfg : Cfg}

theorem numArms_all (k : NumTy) : k ∈ numArms := by cases k <;> decide

theorem dispatch_num (ids : NumIds Γ) (k : NumTy) : numDispatch ids (ids.id k) = some k := by
  unfold numDispatch
  rcases h : numArms.find? fun k' => ids.id k == ids.id k' with _ | k'
  · rw [List.find?_eq_none] at h
    exact absurd (h k (numArms_all k)) (by simp)
  · have := List.find?_some h
    simp only [beq_iff_eq] at this
    rw [ids.inj this]

theorem dispatch_other (ids : NumIds Γ) {t : TyId} (h : ∀ k, t ≠ ids.id k) : numDispatch ids t = none := by
  unfold numDispatch
  rw [List.find?_eq_none]
  intro k _
  simpa using h k

/-- The result of a cast, element by element. -/
def castSpec (nc : NumCast) (k : NumTy) (es : List Bytes) : List Bytes :=
  es.map fun e => match nc.cast k e with
    | some x => x
    | none => nc.zero

theorem convert_ok {h : Heap} {es : List Bytes} {c : VecCopy V} (ids : NumIds Γ) (nc : NumCast) {k : NumTy}
    (R : Repr Γ h (ids.id k) es c.data) (s : σ) :
    c.convertIntoVec ids cfg nc k s = (.ok (castSpec nc k es), s) := by
  unfold VecCopy.convertIntoVec
  rw [M.bind_ok (debugAssert_ok (by simp [VecCopy.elementTypeId, R.type_id]) s)]
  have : c.asSliceAsUnchecked Γ (ids.id k) s = (.ok es, s) := by
    simp only [VecCopy.asSliceAsUnchecked, VecCopy.len, M.lift_run, R.mem, R.len]
    rw [typedSlice_flatten R.each rfl]
  rw [M.bind_ok this]
  simp only [castSpec, M.pure_run]
  congr 2
  apply List.map_congr_left
  intro e _
  cases nc.cast k e <;> rfl

/-- **C42**: `VecCopy::cast_into_vec` on a container of any of the numeric types: one output per element,
the cast of the element or zero. -/
theorem C42_veccopy_numeric {h : Heap} {es : List Bytes} {c : VecCopy V} (ids : NumIds Γ) (nc : NumCast) {k : NumTy}
    (R : Repr Γ h (ids.id k) es c.data) (s : σ) :
    c.castIntoVec ids cfg nc s = (.ok (castSpec nc k es), s) := by
  unfold VecCopy.castIntoVec
  have : c.elementTypeId = ids.id k := R.type_id
  rw [this, dispatch_num]
  exact convert_ok ids nc R s

/-- **C42**: on any other element type the result is empty. -/
theorem C42_veccopy_other {h : Heap} {t : TyId} {es : List Bytes} {c : VecCopy V} (ids : NumIds Γ) (nc : NumCast)
    (R : Repr Γ h t es c.data) (ht : ∀ k, t ≠ ids.id k) (s : σ) : c.castIntoVec ids cfg nc s = (.ok [], s) := by
  unfold VecCopy.castIntoVec
  have : c.elementTypeId = t := R.type_id
  rw [this, dispatch_other ids ht]
  rfl

/-- **C42** for `VecDyn`. -/
theorem C42_vecdyn_numeric {h : Heap} {es : List Bytes} {c : VecDyn V} (ids : NumIds Γ) (nc : NumCast) {k : NumTy}
    (R : Repr Γ h (ids.id k) es c.data) (s : σ) :
    VecDyn.castIntoVec ids cfg nc c s = (.ok (some (castSpec nc k es)), s) := by
  unfold VecDyn.castIntoVec
  have : c.elementTypeId = ids.id k := R.type_id
  rw [this, dispatch_num]
  simp only
  rw [M.bind_ok (convert_ok ids nc R s)]
  rfl

/-- **C42**: `VecDyn` reports other element types. -/
theorem C42_vecdyn_other {h : Heap} {t : TyId} {es : List Bytes} {c : VecDyn V} (ids : NumIds Γ) (nc : NumCast)
    (R : Repr Γ h t es c.data) (ht : ∀ k, t ≠ ids.id k) (s : σ) : VecDyn.castIntoVec ids cfg nc c s = (.ok none, s) := by
  unfold VecDyn.castIntoVec
  have : c.elementTypeId = t := R.type_id
  rw [this, dispatch_other ids ht]
  rfl

/-! ### Integers -/

theorem leValue_lt : ∀ {b : Bytes} {n : Nat}, leValue b = some n → n < 256 ^ b.length := by
  intro b
  induction b with
  | nil => intro n h; cases h; simp
  | cons x b ih =>
    intro n h
    cases x with
    | none => cases h
    | some x =>
      simp only [leValue, Option.map_eq_some_iff] at h
      obtain ⟨m, hm, rfl⟩ := h
      have := ih hm
      have hx : x.toNat < 256 := x.toNat_lt
      rw [List.length_cons, Nat.pow_succ]
      omega

theorem leValue_leBytes : ∀ (k n : Nat), n < 256 ^ k → leValue (leBytes k n) = some n := by
  intro k
  induction k with
  | zero => intro n h; simp at h; subst h; rfl
  | succ k ih =>
    intro n h
    simp only [leBytes, leValue]
    rw [ih (n / 256) (by rw [Nat.pow_succ] at h; omega)]
    simp only [Option.map_some, UInt8.toNat_ofNat']
    congr 1
    omega

theorem length_leBytes : ∀ (k n : Nat), (leBytes k n).length = k := by
  intro k
  induction k with
  | zero => intro _; rfl
  | succ k ih => intro n; simp [leBytes, ih]

theorem pow256 (k : Nat) : 256 ^ k = 2 ^ (8 * k) := by
  rw [Nat.pow_mul]

/-- Encoding then decoding gives the value back. -/
theorem decode_encode {bits : Nat} {signed : Bool} {z : Int} (h8 : bits % 8 = 0) (hp : 0 < bits)
    (h1 : intMin bits signed ≤ z) (h2 : z ≤ intMax bits signed) : decodeInt bits signed (encodeInt bits z) = some z := by
  have hb : 8 * (bits / 8) = bits := by omega
  have hpos : (0 : Int) < 2 ^ bits := by positivity
  have hnn := Int.emod_nonneg z (ne_of_gt hpos)
  have hlt := Int.emod_lt_of_pos z hpos
  have hlt' : (z % 2 ^ bits).toNat < 256 ^ (bits / 8) := by
    rw [pow256, hb]
    zify
    rw [Int.toNat_of_nonneg hnn]
    exact hlt
  unfold decodeInt encodeInt
  rw [leValue_leBytes _ _ hlt']
  simp only
  congr 1
  have hsplit : (2 : Int) ^ bits = 2 * 2 ^ (bits - 1) := by
    rw [← pow_succ']; congr 1; omega
  have hcond : (2 ^ (bits - 1) ≤ (z % 2 ^ bits).toNat) ↔ ((2 : Int) ^ (bits - 1) ≤ z % 2 ^ bits) := by
    zify
    rw [Int.toNat_of_nonneg hnn]
  rw [Int.toNat_of_nonneg hnn]
  have hhalf : (0 : Int) < 2 ^ (bits - 1) := by positivity
  cases signed
  · simp only [Bool.false_eq_true, false_and, if_false]
    simp only [intMin, intMax, Bool.false_eq_true, if_false] at h1 h2
    exact Int.emod_eq_of_lt h1 (by omega)
  · simp only [intMin, intMax, if_true] at h1 h2
    simp only [true_and, hcond]
    rcases lt_or_ge z 0 with hz | hz
    · have : z % 2 ^ bits = z + 2 ^ bits := by
        rw [← Int.add_emod_right]
        exact Int.emod_eq_of_lt (by omega) (by omega)
      rw [this, if_pos (by omega)]
      omega
    · have : z % 2 ^ bits = z := Int.emod_eq_of_lt hz (by omega)
      rw [this, if_neg (by omega)]

/-- The integer types. -/
theorem int_bits {k : NumTy} {bits : Nat} {signed : Bool} (h : k.int = some (bits, signed)) :
    bits % 8 = 0 ∧ 0 < bits ∧ bits / 8 = k.size := by
  cases k <;> cases h <;> decide

/-- The values of the integer types, written out. -/
def NumTy.range : NumTy → Option (Int × Int)
  | .u8 => some (0, 255) | .i8 => some (-128, 127)
  | .u16 => some (0, 65535) | .i16 => some (-32768, 32767)
  | .u32 => some (0, 4294967295) | .i32 => some (-2147483648, 2147483647)
  | .u64 => some (0, 18446744073709551615) | .i64 => some (-9223372036854775808, 9223372036854775807)
  | .f32 | .f64 => none

/-- The bounds `C42_integers` speaks about are those of the types, for each of the ten types. -/
theorem C42_ranges (k : NumTy) : (k.int.map fun p => (intMin p.1 p.2, intMax p.1 p.2)) = k.range := by
  cases k <;> decide

/-- Every initialised value of an integer type is in the range of the type. -/
theorem C42_decode_range {k : NumTy} {bits : Nat} {signed : Bool} (hk : k.int = some (bits, signed)) {b : Bytes}
    (hb : b.length = k.size) {z : Int} (hz : decodeInt bits signed b = some z) :
    ∃ lo hi, k.range = some (lo, hi) ∧ lo ≤ z ∧ z ≤ hi := by
  unfold decodeInt at hz
  split at hz
  · cases hz
  · rename_i n hn
    have hlt := leValue_lt hn
    rw [hb] at hlt
    cases k <;> cases hk <;> simp only [NumTy.size] at hlt <;> cases hz <;> refine ⟨_, _, rfl, ?_, ?_⟩ <;>
      first
        | (simp only [Bool.false_eq_true, false_and, if_false]; omega)
        | (split <;> simp only [true_and] at * <;> omega)

/-- **C42** for the integer types, without reference to `num_traits`: casting a container of integers
to an integer type gives, for every element, its value if the target type can represent it and 0
otherwise. -/
theorem C42_integers {h : Heap} {es : List Bytes} {c : VecCopy V} (ids : NumIds Γ) {k k' : NumTy} {b b' : Nat} {g g' : Bool}
    (hk : k.int = some (b, g)) (hk' : k'.int = some (b', g'))
    (R : Repr Γ h (ids.id k) es c.data) {zs : List Int} (hz : es.map (decodeInt b g) = zs.map some) (s : σ) :
    ∃ out, c.castIntoVec ids cfg (intNumCast b' g') s = (.ok out, s) ∧ (∀ o ∈ out, o.length = k'.size) ∧
      out.map (decodeInt b' g') = zs.map fun z => some (if intMin b' g' ≤ z ∧ z ≤ intMax b' g' then z else 0) := by
  obtain ⟨h8, hp, hs⟩ := int_bits hk'
  refine ⟨_, C42_veccopy_numeric ids _ R s, ?_, ?_⟩
  · intro o ho
    simp only [castSpec, List.mem_map] at ho
    obtain ⟨e, -, rfl⟩ := ho
    have hlen : ∀ z, (encodeInt b' z).length = k'.size := by
      intro z; rw [encodeInt, length_leBytes, hs]
    split
    · rename_i x hx
      simp only [intNumCast, hk, Option.bind_eq_bind, Option.bind_some] at hx
      rcases hd : decodeInt b g e with _ | z
      · rw [hd] at hx; cases hx
      · rw [hd] at hx
        simp only [Option.bind_some] at hx
        split at hx
        · cases hx; exact hlen z
        · cases hx
    · exact hlen 0
  · have h0 : decodeInt b' g' (encodeInt b' 0) = some 0 := by
      refine decode_encode h8 hp ?_ ?_
      · unfold intMin; split
        · have : (0 : Int) < 2 ^ (b' - 1) := by positivity
          omega
        · exact Int.le_refl _
      · unfold intMax; split
        · have : (0 : Int) < 2 ^ (b' - 1) := by positivity
          omega
        · have : (0 : Int) < 2 ^ b' := by positivity
          omega
    clear R
    unfold castSpec
    induction es generalizing zs with
    | nil =>
      cases zs with
      | nil => rfl
      | cons z zs => cases hz
    | cons e es ih =>
      cases zs with
      | nil => cases hz
      | cons z zs =>
        simp only [List.map_cons, List.cons.injEq] at hz
        simp only [List.map_cons]
        rw [ih hz.2]
        congr 1
        simp only [intNumCast, hk, Option.bind_eq_bind, Option.bind_some, hz.1]
        by_cases hc : intMin b' g' ≤ z ∧ z ≤ intMax b' g'
        · simp only [if_pos hc]; exact decode_encode h8 hp hc.1 hc.2
        · simp only [if_neg hc]; exact h0

/-! ### `Display` -/

/-- Writing a list of pieces, all of which succeed. -/
def putAll (sink : Sink F) : List String → F → Option F
  | [], f => some f
  | x :: xs, f =>
    match sink.write x f with
    | (.ok true, f') => putAll sink xs f'
    | _ => none

theorem forEach_put (sink : Sink F) (g : Bytes → String) (out : List String) : ∀ {es : List Bytes} {f f' : F},
    putAll sink (es.map g) f = some f' →
    M.forEach es (fun e => do
      let ok ← sink.put (g e)
      if ok then pure () else M.panic .unwrapNone) (f, out) = (.ok (), (f', out)) := by
  intro es
  induction es with
  | nil => intro f f' h; cases h; rfl
  | cons e es ih =>
    intro f f' h
    simp only [List.map_cons, putAll] at h
    rcases hw : sink.write (g e) f with ⟨r, f1⟩
    rw [hw] at h
    cases r with
    | ok b =>
      cases b with
      | true =>
        simp only at h
        simp only [M.forEach_cons]
        have hput : sink.put (g e) (f, out) = (.ok true, (f1, out)) := by
          simp [Sink.put, hw]
        rw [M.bind_ok (a := ()) (s' := (f1, out)) (by rw [M.bind_ok hput]; rfl)]
        exact ih h
      | false => cases h
    | panic _ => cases h
    | ub => cases h
    | abort => cases h

/-- **C49**: printing a numeric container writes every element in order, each followed by a space, and
nothing to the standard output. -/
theorem C49_display {h : Heap} {es : List Bytes} {c : VecCopy V} (ids : NumIds Γ) (disp : NumTy → Bytes → String) {k : NumTy}
    (R : Repr Γ h (ids.id k) es c.data) (sink : Sink F) {f f' : F} (out : List String)
    (hw : putAll sink ((es.map fun e => disp k e ++ " ") ++ [""]) f = some f') :
    c.display ids cfg disp sink (f, out) = (.ok true, (f', out)) := by
  have hsplit : ∀ (xs : List String) (f : F), putAll sink (xs ++ [""]) f = some f' →
      ∃ f1, putAll sink xs f = some f1 ∧ sink.write "" f1 = (.ok true, f') := by
    intro xs
    induction xs with
    | nil =>
      intro f hf
      refine ⟨f, rfl, ?_⟩
      simp only [List.nil_append, putAll] at hf
      rcases hx : sink.write "" f with ⟨r, f1⟩
      rw [hx] at hf
      rcases r with b | _ | _ | _
      · cases b
        · cases hf
        · simp only [Option.some_inj] at hf
          rw [hf]
      all_goals cases hf
    | cons x xs ih =>
      intro f hf
      simp only [List.cons_append, putAll] at hf ⊢
      rcases hx : sink.write x f with ⟨r, f1⟩
      rw [hx] at hf
      rcases r with b | _ | _ | _
      · cases b
        · cases hf
        · exact ih f1 hf
      all_goals cases hf
  obtain ⟨f1, h1, h2⟩ := hsplit _ f hw
  unfold VecCopy.display
  have : c.elementTypeId = ids.id k := R.type_id
  rw [this, dispatch_num]
  have hslice : ∀ s : F × List String, c.asSliceAsUnchecked Γ (ids.id k) s = (.ok es, s) := by
    intro s
    simp only [VecCopy.asSliceAsUnchecked, VecCopy.len, M.lift_run, R.mem, R.len]
    rw [typedSlice_flatten R.each rfl]
  have hr : c.reinterpretDisplay ids cfg disp k sink (f, out) = (.ok (), (f1, out)) := by
    unfold VecCopy.reinterpretDisplay
    rw [M.bind_ok (debugAssert_ok (by simp [VecCopy.elementTypeId, R.type_id]) _), M.bind_ok (hslice _)]
    exact forEach_put sink (fun e => disp k e ++ " ") out h1
  simp only
  rw [M.bind_ok hr]
  simp [Sink.put, h2]

/-- The full claim for **C50**: printing never panics: errors of the sink are reported, and output only
goes to the sink. -/
def C50_full : Prop := ∀ (U V F : Type) (Γ : TyEnv U) (cfg : Cfg) (h : Heap) (t : TyId) (es : List Bytes) (c : VecCopy V)
  (ids : NumIds Γ) (disp : NumTy → Bytes → String) (sink : Sink F) (f : F),
  (∀ x g, ∃ b g', sink.write x g = (.ok b, g')) → Repr Γ h t es c.data →
  ∃ b f', c.display ids cfg disp sink (f, []) = (.ok b, (f', []))

/-- **C50**: a sink that reports an error makes printing panic. -/
theorem C50_sink_error_panics {h : Heap} {e : Bytes} {es : List Bytes} {c : VecCopy V} (ids : NumIds Γ)
    (disp : NumTy → Bytes → String) {k : NumTy} (R : Repr Γ h (ids.id k) (e :: es) c.data) (sink : Sink F) {f f' : F}
    (out : List String) (hw : sink.write (disp k e ++ " ") f = (.ok false, f')) :
    c.display ids cfg disp sink (f, out) = (.panic .unwrapNone, (f', out)) := by
  unfold VecCopy.display
  have : c.elementTypeId = ids.id k := R.type_id
  rw [this, dispatch_num]
  have hslice : ∀ s : F × List String, c.asSliceAsUnchecked Γ (ids.id k) s = (.ok (e :: es), s) := by
    intro s
    simp only [VecCopy.asSliceAsUnchecked, VecCopy.len, M.lift_run, R.mem, R.len]
    rw [typedSlice_flatten R.each rfl]
  have hr : c.reinterpretDisplay ids cfg disp k sink (f, out) = (.panic .unwrapNone, (f', out)) := by
    unfold VecCopy.reinterpretDisplay
    rw [M.bind_ok (debugAssert_ok (by simp [VecCopy.elementTypeId, R.type_id]) _), M.bind_ok (hslice _)]
    rw [M.forEach_cons]
    apply M.bind_panic
    have hput : sink.put (disp k e ++ " ") (f, out) = (.ok false, (f', out)) := by simp [Sink.put, hw]
    rw [M.bind_ok hput]
    rfl
  simp only
  rw [M.bind_panic hr]

/-- **C50**: an element type that is not in the list is reported on the standard output of the process;
nothing is written to the sink and success is returned. -/
theorem C50_other_type_prints {h : Heap} {t : TyId} {es : List Bytes} {c : VecCopy V} (ids : NumIds Γ)
    (disp : NumTy → Bytes → String) (R : Repr Γ h t es c.data) (ht : ∀ k, t ≠ ids.id k) (sink : Sink F) {f f' : F}
    (out : List String) (hw : sink.write "" f = (.ok true, f')) :
    c.display ids cfg disp sink (f, out) = (.ok true, (f', out ++ ["Unknown VecCopy type for pretty printing."])) := by
  unfold VecCopy.display
  have : c.elementTypeId = t := R.type_id
  rw [this, dispatch_other ids ht]
  simp only [M.bind_run, M.modify_run]
  simp [Sink.put, hw]


/-! ### A concrete environment with the numeric types -/

namespace Ex

/-- Type ids 1 to 10 are the numeric types, 11 is `usize`. -/
def numId : NumTy → TyId
  | .u8 => 1 | .i8 => 2 | .u16 => 3 | .i16 => 4 | .u32 => 5 | .i32 => 6 | .u64 => 7 | .i64 => 8 | .f32 => 9 | .f64 => 10

def numSize : TyId → Nat
  | 1 => 1 | 2 => 1 | 3 => 2 | 4 => 2 | 5 => 4 | 6 => 4 | 7 => 8 | 8 => 8 | 9 => 4 | 10 => 8 | 11 => 8 | _ => 0
def numAlign : TyId → Nat
  | 3 => 2 | 4 => 2 | 5 => 4 | 6 => 4 | 7 => 8 | 8 => 8 | 9 => 4 | 10 => 8 | 11 => 8 | _ => 1

def numEnv : TyEnv Unit where
  size := numSize
  align := numAlign
  align_pow := by
    intro t; unfold numAlign
    split <;> first
      | exact ⟨0, by decide, rfl⟩
      | exact ⟨1, by decide, rfl⟩
      | exact ⟨2, by decide, rfl⟩
      | exact ⟨3, by decide, rfl⟩
  align_dvd := by
    intro t
    match t with
    | 0 | 1 | 2 | 3 | 4 | 5 | 6 | 7 | 8 | 9 | 10 | 11 => decide
    | n + 12 => simp [numAlign]
  size_le := by
    intro t
    match t with
    | 0 | 1 | 2 | 3 | 4 | 5 | 6 | 7 | 8 | 9 | 10 | 11 => decide
    | n + 12 => simp [numSize]
  unitTy := 0
  unit_size := rfl
  unit_align := rfl
  drop := fun _ _ => pure ()
  clone := fun t b => if b.length = numSize t then pure b else M.ub
  clone_len := by
    intro t b u b' u' h
    split at h
    · cases h; assumption
    · cases h
  cloneFrom := fun t b => if b.length = numSize t then M.modify fun s => (b, s.2) else M.ub
  cloneFrom_len := by
    intro t src d u r d' u' h hd
    split at h
    · cases h; assumption
    · cases h; exact hd
  eq := fun _ a b => a == b
  hash := fun _ a => a.map fun b => b.getD 0
  fmt := fun _ a => toString (a.map fun b => (b.getD 0).toNat)

def numIds : NumIds numEnv where
  id := numId
  inj := by intro a b; cases a <;> cases b <;> decide
  size := by intro k; cases k <;> rfl

/-- `[-1i16, 300, 7]`, capacity 3. -/
def i16s : VecCopy Unit :=
  ⟨⟨some 0, 3, 3, ElemInfo.new numEnv 4, encodeInt 16 (-1) ++ encodeInt 16 300 ++ encodeInt 16 7⟩, ()⟩

theorem i16s_repr : Repr numEnv (oneHeap ⟨6, 2⟩) (numIds.id .i16) [encodeInt 16 (-1), encodeInt 16 300, encodeInt 16 7] i16s.data :=
  ⟨rfl, rfl, rfl, by decide, rfl, by decide, rfl, by decide, by decide, by unfold Room; decide, 0, rfl, rfl⟩

example := C42_ranges .i16
example := C42_decode_range (k := .i16) rfl (b := encodeInt 16 (-300)) rfl (z := -300) (by decide)

/-- One `usize`. -/
def usizes : VecCopy Unit := ⟨⟨some 0, 1, 1, ElemInfo.new numEnv 11, encodeInt 64 5⟩, ()⟩

theorem usizes_repr : Repr numEnv (oneHeap ⟨8, 8⟩) 11 [encodeInt 64 5] usizes.data :=
  ⟨rfl, rfl, rfl, by decide, rfl, by decide, rfl, by decide, by decide, by unfold Room; decide, 0, rfl, rfl⟩

theorem usize_other (k : NumTy) : (11 : TyId) ≠ numIds.id k := by cases k <;> decide

/-- A `String`. -/
def stringSink : Sink String := ⟨fun x => ⟨fun f => (.ok true, f ++ x)⟩⟩
/-- A sink that is full. -/
def fullSink : Sink Unit := ⟨fun _ => pure false⟩
/-- Some decimal printer (for the integer types). -/
def showInt (k : NumTy) (b : Bytes) : String :=
  match k.int with
  | some (n, g) => match decodeInt n g b with | some z => toString z | none => ""
  | none => ""

end Ex

example := C42_integers (cfg := ⟨true⟩) Ex.numIds (k := .i16) (k' := .u8) rfl rfl Ex.i16s_repr (zs := [-1, 300, 7]) (by decide) ()
example := C42_vecdyn_numeric (cfg := ⟨true⟩) Ex.numIds (intNumCast 8 false) Ex.i16s_repr ()
example := C42_veccopy_other (cfg := ⟨true⟩) Ex.numIds (intNumCast 8 false) Ex.usizes_repr Ex.usize_other ()
example := C42_vecdyn_other (cfg := ⟨true⟩) Ex.numIds (intNumCast 8 false) Ex.usizes_repr Ex.usize_other ()
example := C49_display (cfg := ⟨true⟩) Ex.numIds Ex.showInt Ex.i16s_repr Ex.stringSink (f := "") [] rfl
example := C50_sink_error_panics (cfg := ⟨true⟩) Ex.numIds Ex.showInt Ex.i16s_repr Ex.fullSink (f := ()) [] rfl
example := C50_other_type_prints (cfg := ⟨true⟩) Ex.numIds Ex.showInt Ex.usizes_repr Ex.usize_other Ex.stringSink (f := "") [] rfl

/-- **C50** fails: printing into a full sink panics instead of returning the error. -/
theorem C50_refuted_sink_error : ¬ C50_full := by
  intro h
  obtain ⟨b, f', hb⟩ := h Unit Unit Unit Ex.numEnv ⟨false⟩ _ _ _ _ Ex.numIds Ex.showInt Ex.fullSink ()
    (fun x g => ⟨false, (), rfl⟩) Ex.i16s_repr
  rw [C50_sink_error_panics Ex.numIds Ex.showInt Ex.i16s_repr Ex.fullSink (f' := ()) [] rfl] at hb
  cases hb

/-- **C50** fails: printing a container of another type prints on the standard output. -/
theorem C50_refuted_stdout : ¬ C50_full := by
  intro h
  obtain ⟨b, f', hb⟩ := h Unit Unit String Ex.numEnv ⟨false⟩ _ _ _ _ Ex.numIds Ex.showInt Ex.stringSink ""
    (fun x g => ⟨true, _, rfl⟩) Ex.usizes_repr
  rw [C50_other_type_prints Ex.numIds Ex.showInt Ex.usizes_repr Ex.usize_other Ex.stringSink [] rfl] at hb
  simp at hb

/-- The full claim **C51**: casting a non-empty container of any primitive integer type loses no element.
`usize` is given by its type id. -/
def C51_full : Prop := ∀ (U V : Type) (Γ : TyEnv U) (cfg : Cfg) (h : Heap) (es : List Bytes) (c : VecCopy V)
  (ids : NumIds Γ) (usizeTy : TyId) (nc : NumCast), (∀ k, usizeTy ≠ ids.id k) → Γ.size usizeTy = 8 →
  Repr Γ h usizeTy es c.data → ∃ out, c.castIntoVec ids cfg nc () = (.ok out, ()) ∧ out.length = es.length

/-- **C51** fails: a container of `usize` is cast to an empty vector. -/
theorem C51_refuted : ¬ C51_full := by
  intro h
  obtain ⟨out, h1, h2⟩ := h Unit Unit Ex.numEnv ⟨false⟩ _ _ _ Ex.numIds 11 (intNumCast 8 false) Ex.usize_other rfl Ex.usizes_repr
  rw [C42_veccopy_other Ex.numIds (intNumCast 8 false) Ex.usizes_repr Ex.usize_other ()] at h1
  cases h1
  cases h2

end Dync
