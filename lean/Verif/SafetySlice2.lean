import Verif.SafetySlice
/-!
# Programs on views: parts of views, and all programs
-/
namespace Dync
variable {U V α σ : Type} {Γ : TyEnv U} {S : Values Γ} {t : TyId} {cfg : Cfg}

/-! ### Which programs are covered -/

/-- Index arithmetic with `n` does not wrap around: overflow checks are on, or `n + 1` elements of
any type fit into the address space. -/
def Fits (Γ : TyEnv U) (cfg : Cfg) (n : Nat) : Prop := cfg.debug = true ∨ ∀ t, (n + 1) * Γ.size t ≤ usizeMax

/-- All numbers of a range. -/
def Rng.Fits (Γ : TyEnv U) (cfg : Cfg) : Rng → Prop
  | .range a b => Dync.Fits Γ cfg a ∧ Dync.Fits Γ cfg b
  | .rangeTo b => Dync.Fits Γ cfg b
  | .rangeFrom a => Dync.Fits Γ cfg a
  | .full => True
  | .inclusive a b => Dync.Fits Γ cfg a ∧ Dync.Fits Γ cfg b
  | .toInclusive b => Dync.Fits Γ cfg b

/-- May a subview end inside an element? Views given by inclusive ranges do (finding of C25). -/
def Rng.torn : Rng → Bool → Bool
  | .range _ _, _ => false
  | .rangeTo _, _ => false
  | .rangeFrom _, b => b
  | .full, b => b
  | .inclusive _ _, _ => true
  | .toInclusive _, _ => true

/-- Programs of safe code on a view: values written are values of their type, closures turn values
into values, and indices do not wrap around. -/
def SProg.Ok (Γ : TyEnv U) (S : Values Γ) (cfg : Cfg) : SProg → Prop
  | .skip => True
  | .seq p q => p.Ok Γ S cfg ∧ q.Ok Γ S cfg
  | .get i => Fits Γ cfg i
  | .getAs _ _ => True
  | .iter => True
  | .asSlice _ => True
  | .setAs t _ x => S.valid t x
  | .setValue i t x => Fits Γ cfg i ∧ S.valid t x
  | .mapAll f => ∀ t b, S.valid t b → S.valid t (f t b)
  | .mapAs t f => ∀ es, (∀ e ∈ es, S.valid t e) → (f es).length = es.length ∧ ∀ e ∈ f es, S.valid t e
  | .swap i j => Fits Γ cfg i ∧ Fits Γ cfg j
  | .rotateLeft n => Fits Γ cfg n
  | .rotateRight n => Fits Γ cfg n
  | .copyFromSlice t xs => ∀ x ∈ xs, S.valid t x
  | .sub r p => r.Fits Γ cfg ∧ p.Ok Γ S cfg
  | .split mid p q => Fits Γ cfg mid ∧ p.Ok Γ S cfg ∧ q.Ok Γ S cfg
  | .chunks k p => Fits Γ cfg k ∧ p.Ok Γ S cfg

/-- No rotation of a view that ends inside an element (`torn`: the view at hand may do so). -/
def SProg.Whole : Bool → SProg → Prop
  | torn, .seq p q => p.Whole torn ∧ q.Whole torn
  | torn, .rotateLeft _ => torn = false
  | torn, .rotateRight _ => torn = false
  | torn, .sub r p => p.Whole (r.torn torn)
  | torn, .split _ p q => p.Whole false ∧ q.Whole torn
  | _, .chunks _ p => p.Whole false
  | _, _ => True

/-! ### Lemmas -/

theorem Fits.next {n : Nat} (h : Fits Γ cfg n) (t : TyId) : NoWrap cfg ((n + 1) * Γ.size t) := by
  rcases h with h | h
  · exact .inl h
  · exact .inr (h t)

theorem Fits.here {n : Nat} (h : Fits Γ cfg n) (t : TyId) : NoWrap cfg (n * Γ.size t) := by
  rcases h with h | h
  · exact .inl h
  · have h1 := h t
    have h2 : n * Γ.size t ≤ (n + 1) * Γ.size t := Nat.mul_le_mul_right _ (by omega)
    exact .inr (by omega)

theorem Fits.zero {n : Nat} (h : Fits Γ cfg n) : Fits Γ cfg 0 := by
  rcases h with h | h
  · exact .inl h
  · refine .inr fun t => Nat.le_trans (Nat.mul_le_mul_right _ (by omega)) (h t)

/-- A values-or-not postcondition for reads. -/
def Seen (S : Values Γ) (rs : List Read) : Prop := ∀ r ∈ rs, S.valid r.1 r.2

theorem Seen.nil : Seen S [] := fun _ h => by cases h
theorem Seen.append {a b : List Read} (ha : Seen S a) (hb : Seen S b) : Seen S (a ++ b) := by
  intro r hr
  rcases List.mem_append.1 hr with h | h
  · exact ha r h
  · exact hb r h

namespace SGood
variable {es : List Bytes} {rest : Bytes} {s : SliceCopy V} {P : α → Prop}

/-- Running a computation on the part `[a * size, e)` of a view. -/
theorem part_runs (G : SGood Γ S t es rest s) {a e : Nat} {m : M (SliceCopy V) α}
    (hm : ∀ es1 r1, SGood Γ S t es1 r1 (⟨es1.flatten ++ r1, s.elem, s.vtable⟩ : SliceCopy V) → (e % Γ.size t = 0 → r1 = []) →
      (e = s.data.length → rest = [] → r1 = []) →
      Runs m (⟨es1.flatten ++ r1, s.elem, s.vtable⟩ : SliceCopy V) (fun x s1 => P x ∧ SPost S t es1 r1 ⟨es1.flatten ++ r1, s.elem, s.vtable⟩ s1)
        (fun s1 => SPost S t es1 r1 ⟨es1.flatten ++ r1, s.elem, s.vtable⟩ s1)) :
    Runs (do
      let d ← M.lift (sliceIndex s.data (a * Γ.size t) e)
      (⟨fun s =>
        let out := m ⟨d, s.elem, s.vtable⟩
        (out.1, { s with data := splice s.data (a * Γ.size t) out.2.data })⟩ : M (SliceCopy V) α)) s
      (fun x s' => P x ∧ SPost S t es rest s s') (fun s' => SPost S t es rest s s') := by
  by_cases h : a * Γ.size t ≤ e ∧ e ≤ s.data.length
  · have hp := G.pos
    obtain ⟨L, rfl⟩ := Nat.exists_eq_add_of_le h.1
    obtain ⟨es1, r1, h1, h2, h3, h4, h5, h6⟩ := G.splice_part (a := a) (L := L) h.2
    have hs : sliceIndex s.data (a * Γ.size t) (a * Γ.size t + L) = .ok (es1.flatten ++ r1) := by
      unfold sliceIndex
      rw [if_pos h, h1]
    simp only [hs]
    refine Runs.bind_ok (b := es1.flatten ++ r1) (s' := s) rfl ?_
    have hr := hm es1 r1 ⟨rfl, h4, by rw [h2]; exact Nat.mod_lt _ hp, G.elem⟩ ?_ ?_
    · rcases hr.cases_on with ⟨x, s1, e1, hx, es2, g1, g2, rfl⟩ | ⟨y, s1, e1, es2, g1, g2, rfl⟩
      · refine Runs.of_ok (a := x) (s' := { s with data := splice s.data (a * Γ.size t) (es2.flatten ++ r1) }) (by simp [e1]) ⟨hx, ?_⟩
        exact h6 es2 g2 g1
      · refine Runs.of_panic (y := y) (s' := { s with data := splice s.data (a * Γ.size t) (es2.flatten ++ r1) }) (by simp [e1]) ?_
        exact h6 es2 g2 g1
    · intro hz
      rw [Nat.mul_add_mod_self_right] at hz
      exact List.eq_nil_of_length_eq_zero (by rw [h2, hz])
    · intro hz hrest
      refine List.eq_nil_of_length_eq_zero ?_
      rw [h2, h5 hz, hrest]
      rfl
  · have hs : sliceIndex s.data (a * Γ.size t) e = .panic .index := by
      unfold sliceIndex
      rw [if_neg h]
    simp only [hs]
    exact G.refl

theorem subsliceMut_runs (G : SGood Γ S t es rest s) {r : Rng} (hf : r.Fits Γ cfg) {torn : Bool} (ht : torn = false → rest = [])
    {m : M (SliceCopy V) α}
    (hm : ∀ es1 r1, SGood Γ S t es1 r1 (⟨es1.flatten ++ r1, s.elem, s.vtable⟩ : SliceCopy V) → (r.torn torn = false → r1 = []) →
      Runs m (⟨es1.flatten ++ r1, s.elem, s.vtable⟩ : SliceCopy V) (fun x s1 => P x ∧ SPost S t es1 r1 ⟨es1.flatten ++ r1, s.elem, s.vtable⟩ s1)
        (fun s1 => SPost S t es1 r1 ⟨es1.flatten ++ r1, s.elem, s.vtable⟩ s1)) :
    Runs (SliceCopy.subsliceMut cfg r m) s (fun x s' => P x ∧ SPost S t es rest s s') (fun s' => SPost S t es rest s s') := by
  unfold SliceCopy.subsliceMut
  refine Runs.bind_ok (b := s) (s' := s) rfl ?_
  rw [G.numBytes]
  cases r with
  | range a b =>
    refine Runs.bind (R := fun r' s' => s' = s ∧ r' = .range (a * Γ.size t) (b * Γ.size t)) ?_ ?_
    · unfold Rng.scale
      refine Runs.bind (R := fun n s' => s' = s ∧ n = a * Γ.size t) (Runs.umul_nowrap (hf.1.here t) (fun _ => ⟨rfl, rfl⟩) G.refl) ?_
      rintro n s0 ⟨hs0, rfl⟩
      rw [hs0]
      refine Runs.bind (R := fun n s' => s' = s ∧ n = b * Γ.size t) (Runs.umul_nowrap (hf.2.here t) (fun _ => ⟨rfl, rfl⟩) G.refl) ?_
      rintro n s1 ⟨hs1, rfl⟩
      exact ⟨hs1, rfl⟩
    · rintro r' s0 ⟨hs0, rfl⟩
      rw [hs0]
      refine Runs.bind_ok (b := (a * Γ.size t, b * Γ.size t)) (s' := s) rfl ?_
      exact G.part_runs fun es1 r1 g h1 h2 => hm es1 r1 g fun _ => h1 (Nat.mul_mod_left _ _)
  | rangeTo b =>
    refine Runs.bind (R := fun r' s' => s' = s ∧ r' = .rangeTo (b * Γ.size t)) ?_ ?_
    · unfold Rng.scale
      refine Runs.bind (R := fun n s' => s' = s ∧ n = b * Γ.size t) (Runs.umul_nowrap (hf.here t) (fun _ => ⟨rfl, rfl⟩) G.refl) ?_
      rintro n s1 ⟨hs1, rfl⟩
      exact ⟨hs1, rfl⟩
    · rintro r' s0 ⟨hs0, rfl⟩
      rw [hs0]
      refine Runs.bind_ok (b := (0, b * Γ.size t)) (s' := s) rfl ?_
      have := G.part_runs (a := 0) (e := b * Γ.size t) (P := P) (m := m) fun es1 r1 g h1 h2 => hm es1 r1 g fun _ => h1 (Nat.mul_mod_left _ _)
      simpa only [Nat.zero_mul] using this
  | rangeFrom a =>
    refine Runs.bind (R := fun r' s' => s' = s ∧ r' = .rangeFrom (a * Γ.size t)) ?_ ?_
    · unfold Rng.scale
      refine Runs.bind (R := fun n s' => s' = s ∧ n = a * Γ.size t) (Runs.umul_nowrap (hf.here t) (fun _ => ⟨rfl, rfl⟩) G.refl) ?_
      rintro n s1 ⟨hs1, rfl⟩
      exact ⟨hs1, rfl⟩
    · rintro r' s0 ⟨hs0, rfl⟩
      rw [hs0]
      refine Runs.bind_ok (b := (a * Γ.size t, s.data.length)) (s' := s) rfl ?_
      exact G.part_runs fun es1 r1 g h1 h2 => hm es1 r1 g fun h => h2 rfl (ht h)
  | full =>
    refine Runs.bind_ok (b := .full) (s' := s) rfl ?_
    refine Runs.bind_ok (b := (0, s.data.length)) (s' := s) rfl ?_
    have := G.part_runs (a := 0) (e := s.data.length) (P := P) (m := m) fun es1 r1 g h1 h2 => hm es1 r1 g fun h => h2 rfl (ht h)
    simpa only [Nat.zero_mul] using this
  | inclusive a b =>
    refine Runs.bind (R := fun r' s' => s' = s ∧ r' = .inclusive (a * Γ.size t) (b * Γ.size t)) ?_ ?_
    · unfold Rng.scale
      refine Runs.bind (R := fun n s' => s' = s ∧ n = a * Γ.size t) (Runs.umul_nowrap (hf.1.here t) (fun _ => ⟨rfl, rfl⟩) G.refl) ?_
      rintro n s0 ⟨hs0, rfl⟩
      rw [hs0]
      refine Runs.bind (R := fun n s' => s' = s ∧ n = b * Γ.size t) (Runs.umul_nowrap (hf.2.here t) (fun _ => ⟨rfl, rfl⟩) G.refl) ?_
      rintro n s1 ⟨hs1, rfl⟩
      exact ⟨hs1, rfl⟩
    · rintro r' s0 ⟨hs0, rfl⟩
      rw [hs0]
      by_cases hb : b * Γ.size t = usizeMax
      · refine Runs.of_panic (y := .index) (s' := s) ?_ G.refl
        refine M.bind_panic ?_
        simp [Rng.bounds, hb]
      · refine Runs.bind_ok (b := (a * Γ.size t, b * Γ.size t + 1)) (s' := s) (by simp [Rng.bounds, hb]) ?_
        exact G.part_runs fun es1 r1 g h1 h2 => hm es1 r1 g fun h => by cases h
  | toInclusive b =>
    refine Runs.bind (R := fun r' s' => s' = s ∧ r' = .toInclusive (b * Γ.size t)) ?_ ?_
    · unfold Rng.scale
      refine Runs.bind (R := fun n s' => s' = s ∧ n = b * Γ.size t) (Runs.umul_nowrap (hf.here t) (fun _ => ⟨rfl, rfl⟩) G.refl) ?_
      rintro n s1 ⟨hs1, rfl⟩
      exact ⟨hs1, rfl⟩
    · rintro r' s0 ⟨hs0, rfl⟩
      rw [hs0]
      by_cases hb : b * Γ.size t = usizeMax
      · refine Runs.of_panic (y := .index) (s' := s) ?_ G.refl
        refine M.bind_panic ?_
        simp [Rng.bounds, hb]
      · refine Runs.bind_ok (b := (0, b * Γ.size t + 1)) (s' := s) (by simp [Rng.bounds, hb]) ?_
        have := G.part_runs (a := 0) (e := b * Γ.size t + 1) (P := P) (m := m) fun es1 r1 g h1 h2 => hm es1 r1 g fun h => by cases h
        simpa only [Nat.zero_mul] using this

theorem splitAtMut_runs (G : SGood Γ S t es rest s) {mid : Nat} (hf : Fits Γ cfg mid) {m : M (SliceCopy V × SliceCopy V) α}
    (hm : ∀ es1 es2, SGood Γ S t es1 [] (⟨es1.flatten, s.elem, s.vtable⟩ : SliceCopy V) →
      SGood Γ S t es2 rest (⟨es2.flatten ++ rest, s.elem, s.vtable⟩ : SliceCopy V) →
      Runs m (⟨es1.flatten, s.elem, s.vtable⟩, ⟨es2.flatten ++ rest, s.elem, s.vtable⟩)
        (fun x p => P x ∧ SPost S t es1 [] ⟨es1.flatten, s.elem, s.vtable⟩ p.1 ∧ SPost S t es2 rest ⟨es2.flatten ++ rest, s.elem, s.vtable⟩ p.2)
        (fun p => SPost S t es1 [] ⟨es1.flatten, s.elem, s.vtable⟩ p.1 ∧ SPost S t es2 rest ⟨es2.flatten ++ rest, s.elem, s.vtable⟩ p.2)) :
    Runs (SliceCopy.splitAtMut cfg mid m) s (fun x s' => P x ∧ SPost S t es rest s s') (fun s' => SPost S t es rest s s') := by
  unfold SliceCopy.splitAtMut
  refine Runs.bind_ok (b := s) (s' := s) rfl ?_
  rw [G.numBytes]
  refine Runs.bind (R := fun n s' => s' = s ∧ n = mid * Γ.size t) (Runs.umul_nowrap (hf.here t) (fun _ => ⟨rfl, rfl⟩) G.refl) ?_
  rintro n s0 ⟨hs0, rfl⟩
  rw [hs0]
  by_cases h : mid * Γ.size t ≤ s.data.length
  · have hmid : mid ≤ es.length := le_of_cat G.each G.short (by rw [← G.data]; exact h)
    have hs : sliceSplitAt s.data (mid * Γ.size t) = .ok ((es.take mid).flatten, (es.drop mid).flatten ++ rest) := by
      unfold sliceSplitAt
      rw [if_pos h, G.data, take_cat G.each rest hmid, drop_cat G.each rest hmid]
    simp only [hs]
    refine Runs.bind_ok (b := ((es.take mid).flatten, (es.drop mid).flatten ++ rest)) (s' := s) rfl ?_
    have join : ∀ es1 es2 : List Bytes, es1.length = (es.take mid).length → es2.length = (es.drop mid).length →
        (∀ e ∈ es1, S.valid t e) → (∀ e ∈ es2, S.valid t e) →
        SPost S t es rest s { s with data := es1.flatten ++ [] ++ (es2.flatten ++ rest) } := by
      intro es1 es2 l1 l2 v1 v2
      refine ⟨es1 ++ es2, ?_, ?_, by simp⟩
      · rw [List.length_append, l1, l2, List.length_take, List.length_drop]; omega
      · intro e he
        rcases List.mem_append.1 he with he | he
        · exact v1 e he
        · exact v2 e he
    have hr := hm (es.take mid) (es.drop mid) ⟨by simp, fun e he => G.valid e (List.mem_of_mem_take he), G.pos, G.elem⟩
      ⟨rfl, fun e he => G.valid e (List.mem_of_mem_drop he), G.short, G.elem⟩
    rcases hr.cases_on with ⟨x, p, e1, hx, ⟨es1, g1, g2, g3⟩, es2, g4, g5, g6⟩ | ⟨y, p, e1, ⟨es1, g1, g2, g3⟩, es2, g4, g5, g6⟩
    · refine Runs.of_ok (a := x) (s' := { s with data := es1.flatten ++ [] ++ (es2.flatten ++ rest) }) ?_ ⟨hx, join es1 es2 g1 g4 g2 g5⟩
      simp [SliceCopy.fromRawParts, e1, g3, g6]
    · refine Runs.of_panic (y := y) (s' := { s with data := es1.flatten ++ [] ++ (es2.flatten ++ rest) }) ?_ (join es1 es2 g1 g4 g2 g5)
      simp [SliceCopy.fromRawParts, e1, g3, g6]
  · have hs : sliceSplitAt s.data (mid * Γ.size t) = .panic .assertion := by
      unfold sliceSplitAt
      rw [if_neg h]
    simp only [hs]
    exact G.refl

theorem swap_half_runs (G : SGood Γ S t es rest s) {a b : Nat} (hab : a < b) (ha : Fits Γ cfg a) (hb : Fits Γ cfg b) (st : σ) :
    Runs (do
      let (la, lb) ← indexByteRange cfg (Γ.size t) a
      let m ← umul cfg (Γ.size t) b
      let (l, r) ← M.lift (sliceSplitAt s.data m)
      let ls ← M.lift (sliceIndex l la lb)
      let rs ← M.lift (sliceIndex r (0 * Γ.size t) ((0 + 1) * Γ.size t))
      let (ls', rs') ← M.lift (sliceSwapWith ls rs)
      pure (splice l la ls' ++ splice r (0 * Γ.size t) rs')) st
      (fun d st' => st' = st ∧ SPost S t es rest s { s with data := d }) (fun st' => st' = st) := by
  refine Runs.bind (indexByteRange_runs G.pos (ha.next t) st) ?_
  rintro _ s0 ⟨hs0, rfl⟩
  rw [hs0]
  simp only
  have hb' : NoWrap cfg (Γ.size t * b) := by rw [Nat.mul_comm]; exact hb.here t
  refine Runs.bind (R := fun n st' => st' = st ∧ n = b * Γ.size t)
    (Runs.umul_nowrap hb' (fun _ => ⟨rfl, Nat.mul_comm _ _⟩) rfl) ?_
  rintro n s1 ⟨hs1, rfl⟩
  rw [hs1]
  by_cases h : b * Γ.size t ≤ s.data.length
  · have hbl : b ≤ es.length := le_of_cat G.each G.short (by rw [← G.data]; exact h)
    have hs : sliceSplitAt s.data (b * Γ.size t) = .ok ((es.take b).flatten ++ [], (es.drop b).flatten ++ rest) := by
      unfold sliceSplitAt
      rw [if_pos h, G.data, take_cat G.each rest hbl, drop_cat G.each rest hbl, List.append_nil]
    simp only [hs]
    refine Runs.bind_ok (b := ((es.take b).flatten ++ [], (es.drop b).flatten ++ rest)) (s' := st) rfl ?_
    simp only
    have Gl : SGood Γ S t (es.take b) [] (⟨(es.take b).flatten ++ [], s.elem, s.vtable⟩ : SliceCopy V) :=
      ⟨rfl, fun e he => G.valid e (List.mem_of_mem_take he), G.pos, G.elem⟩
    have Gr : SGood Γ S t (es.drop b) rest (⟨(es.drop b).flatten ++ rest, s.elem, s.vtable⟩ : SliceCopy V) :=
      ⟨rfl, fun e he => G.valid e (List.mem_of_mem_drop he), G.short, G.elem⟩
    rcases Gl.sliceIndex_elem (i := a) with ⟨hla, e1⟩ | e1
    · simp only at e1
      simp only [e1]
      refine Runs.bind_ok (b := (es.take b)[a]) (s' := st) rfl ?_
      rcases Gr.sliceIndex_elem (i := 0) with ⟨hlb, e2⟩ | e2
      · simp only at e2
        simp only [e2]
        refine Runs.bind_ok (b := (es.drop b)[0]) (s' := st) rfl ?_
        have v1 := Gl.valid _ (List.getElem_mem hla)
        have v2 := Gr.valid _ (List.getElem_mem hlb)
        have hs2 : sliceSwapWith (es.take b)[a] (es.drop b)[0] = .ok ((es.drop b)[0], (es.take b)[a]) := by
          unfold sliceSwapWith
          rw [if_pos]
          rw [S.len t _ v1, S.len t _ v2]
        simp only [hs2]
        refine ⟨rfl, ?_⟩
        obtain ⟨es1, g1, g2, g3⟩ := Gl.set_elem hla v2
        obtain ⟨es2, g4, g5, g6⟩ := Gr.set_elem hlb v1
        simp only [SliceCopy.mk.injEq, and_true] at g3 g6
        rw [g3, g6]
        refine ⟨es1 ++ es2, ?_, ?_, by simp⟩
        · rw [List.length_append, g1, g4, List.length_take, List.length_drop]; omega
        · intro e he
          rcases List.mem_append.1 he with he | he
          · exact g2 e he
          · exact g5 e he
      · simp only at e2
        simp only [e2]
        exact rfl
    · simp only at e1
      simp only [e1]
      exact rfl
  · have hs : sliceSplitAt s.data (b * Γ.size t) = .panic .assertion := by
      unfold sliceSplitAt
      rw [if_neg h]
    simp only [hs]
    exact rfl

theorem swap_runs (G : SGood Γ S t es rest s) {i j : Nat} (hi : Fits Γ cfg i) (hj : Fits Γ cfg j) :
    Runs (SliceCopy.swap cfg i j) s (fun _ s' => SPost S t es rest s s') (fun s' => SPost S t es rest s s') := by
  unfold SliceCopy.swap
  refine Runs.bind_ok (b := s) (s' := s) rfl ?_
  rw [G.numBytes]
  refine Runs.bind (R := fun d s' => s' = s ∧ SPost S t es rest s { s with data := d }) ?_ ?_
  · refine Runs.mono (E := fun s' => s' = s) (Q := fun d s' => s' = s ∧ SPost S t es rest s { s with data := d }) ?_
      (fun _ _ h => h) (fun s' e => by rw [e]; exact G.refl)
    unfold swapBytes
    split
    · exact ⟨rfl, G.refl⟩
    · refine Runs.bind (indexByteRange_runs G.pos (hi.zero.next t) s) ?_
      rintro _ s0 ⟨hs0, rfl⟩
      rw [hs0]
      simp only
      split
      · rename_i hlt
        exact G.swap_half_runs hlt hi hj s
      · rename_i hne hlt
        exact G.swap_half_runs (show j < i by omega) hj hi s
  · rintro d s0 ⟨hs0, h⟩
    rw [hs0]
    exact h

/-- Running a program on every chunk. -/
theorem chunks_runs (G : SGood Γ S t es rest s) {k : Nat} (hf : Fits Γ cfg k) {m : M (SliceCopy V) (List Read)}
    (hm : ∀ es1, SGood Γ S t es1 [] (⟨es1.flatten, s.elem, s.vtable⟩ : SliceCopy V) →
      Runs m ⟨es1.flatten, s.elem, s.vtable⟩ (fun x s1 => Seen S x ∧ SPost S t es1 [] ⟨es1.flatten, s.elem, s.vtable⟩ s1)
        (fun s1 => SPost S t es1 [] ⟨es1.flatten, s.elem, s.vtable⟩ s1)) :
    Runs (M.zoom (fun s => (s, [])) (fun s _ => s.1) (do
      SliceCopy.chunksExactMut cfg k (do
        let a ← SProg.onFst m
        SProg.onSnd (M.modify fun log => log ++ a))
      return (← M.get).2)) s (fun x s' => Seen S x ∧ SPost S t es rest s s') (fun s' => SPost S t es rest s s') := by
  refine Runs.zoom ?_
  refine Runs.bind (R := fun _ p => Seen S p.2 ∧ SPost S t es rest s p.1) ?_ (fun _ p h => ⟨h.1, h.2⟩)
  unfold SliceCopy.chunksExactMut
  refine Runs.bind_ok (b := (s, [])) (s' := (s, [])) rfl ?_
  simp only
  rw [G.numBytes]
  have hw : NoWrap cfg (Γ.size t * k) := by rw [Nat.mul_comm]; exact hf.here t
  refine Runs.bind (R := fun n p => p = (s, []) ∧ n = Γ.size t * k) (Runs.umul_nowrap hw (fun _ => ⟨rfl, rfl⟩) G.refl) ?_
  rintro n p ⟨hp, rfl⟩
  rw [hp]
  by_cases hk : k = 0
  · subst hk
    simp only [Nat.mul_zero, Dync.chunksExact, if_true]
    exact G.refl
  have hk0 : 0 < k := by omega
  have h0 : Γ.size t * k ≠ 0 := Nat.ne_of_gt (Nat.mul_pos G.pos hk0)
  have hc : Dync.chunksExact (Γ.size t * k) s.data = .ok ((chunks k es).map List.flatten) := by
    unfold Dync.chunksExact
    rw [if_neg h0, G.data, chunks_cat G.pos hk0 G.each G.short]
  simp only [hc]
  refine Runs.bind_ok (b := (chunks k es).map List.flatten) (s' := (s, [])) rfl ?_
  have hv := visitMut_runs (P := fun x : SliceCopy V => ∃ es1 : List Bytes, es1.length = k ∧ (∀ e ∈ es1, S.valid t e) ∧
      x = ⟨es1.flatten, s.elem, s.vtable⟩) (L := fun log : List Read => Seen S log)
    (body := do
        let a ← SProg.onFst m
        SProg.onSnd (M.modify fun log => log ++ a)) ?_
    (((chunks k es).map List.flatten).map fun d => SliceCopy.fromRawParts d s.elem s.vtable) ?_ [] Seen.nil
  · obtain ⟨⟨_, h1⟩, h2, h3, h4⟩ := hv
    have hgood : SPost S t es rest s { s with data := splice s.data 0 ((visitMut (do
        let a ← SProg.onFst m
        SProg.onSnd (M.modify fun log => log ++ a))
      (((chunks k es).map List.flatten).map fun d => SliceCopy.fromRawParts d s.elem s.vtable) []).2.1.map (·.data)).flatten } := by
      generalize (visitMut (do
        let a ← SProg.onFst m
        SProg.onSnd (M.modify fun log => log ++ a))
        (((chunks k es).map List.flatten).map fun d => SliceCopy.fromRawParts d s.elem s.vtable) ([] : List Read)).2.1 = ys at h2 h3
      -- the new elements, chunk by chunk
      have hex : ∃ zs : List (List Bytes), (∀ z ∈ zs, z.length = k ∧ ∀ e ∈ z, S.valid t e) ∧ zs.length = ys.length ∧
          ys.map (·.data) = zs.map List.flatten := by
        clear h3
        induction ys with
        | nil => exact ⟨[], by simp, rfl, rfl⟩
        | cons y ys ih =>
          obtain ⟨zs, g1, g2, g3⟩ := ih (fun x hx => h2 x (by simp [hx]))
          obtain ⟨z, g4, g5, g6⟩ := h2 y (by simp)
          refine ⟨z :: zs, ?_, by simp [g2], by simp [g3, g6]⟩
          intro z' hz'
          rcases List.mem_cons.1 hz' with rfl | hz'
          · exact ⟨g4, g5⟩
          · exact g1 z' hz'
      obtain ⟨zs, g1, g2, g3⟩ := hex
      have hzl : zs.length = es.length / k := by
        rw [g2, h3, List.length_map, List.length_map, chunks_length hk0]
      have hfl : zs.flatten.length = es.length / k * k := by
        have : ∀ zs : List (List Bytes), (∀ z ∈ zs, z.length = k) → zs.flatten.length = zs.length * k := by
          intro zs hz
          induction zs with
          | nil => simp
          | cons z zs ih =>
            rw [List.flatten_cons, List.length_append, hz z (by simp), ih fun z' hz' => hz z' (by simp [hz']), List.length_cons, Nat.add_mul]
            omega
        rw [this zs fun z hz => (g1 z hz).1, hzl]
      have hle : es.length / k * k ≤ es.length := Nat.div_mul_le_self _ _
      have hval : ∀ e ∈ zs.flatten, S.valid t e := by
        intro e he
        obtain ⟨z, hz, he⟩ := List.mem_flatten.1 he
        exact (g1 z hz).2 e he
      rw [g3]
      have hflat : (zs.map List.flatten).flatten = zs.flatten.flatten := by rw [List.flatten_flatten]
      rw [hflat]
      refine ⟨zs.flatten ++ es.drop (es.length / k * k), ?_, ?_, ?_⟩
      · rw [List.length_append, hfl, List.length_drop]; omega
      · intro e he
        rcases List.mem_append.1 he with he | he
        · exact hval e he
        · exact G.valid e (List.mem_of_mem_drop he)
      · congr 1
        unfold splice
        rw [length_flatten_eq (fun e he => S.len t e (hval e he)), hfl, G.data, Nat.zero_add, drop_cat G.each rest hle]
        simp
    rcases h1 with h1 | ⟨y, h1⟩
    · exact Runs.of_ok (a := ()) (by simp only [h1]; rfl) ⟨h4, hgood⟩
    · exact Runs.of_panic (y := y) (by simp only [h1]; rfl) hgood
  · rintro x log ⟨es1, l1, v1, rfl⟩ hlog
    have hr := hm es1 ⟨by simp, v1, G.pos, G.elem⟩
    rcases hr.cases_on with ⟨x, s1, e1, hx, es2, g1, g2, rfl⟩ | ⟨y, s1, e1, es2, g1, g2, rfl⟩
    · refine Runs.bind_ok (b := x) (s' := (⟨es2.flatten ++ [], s.elem, s.vtable⟩, log)) ?_ ?_
      · simp [SProg.onFst, M.zoom_run, e1]
      · refine ⟨⟨es2, g1.trans l1, g2, by simp⟩, hlog.append hx⟩
    · refine Runs.of_panic (y := y) (s' := (⟨es2.flatten ++ [], s.elem, s.vtable⟩, log)) ?_ ⟨⟨es2, g1.trans l1, g2, by simp⟩, hlog⟩
      refine M.bind_panic ?_
      simp [SProg.onFst, M.zoom_run, e1]
  · intro x hx
    simp only [List.map_map, List.mem_map, Function.comp] at hx
    obtain ⟨c, hc1, rfl⟩ := hx
    exact ⟨c, chunks_each es c hc1, fun e he => G.valid e (chunks_subset hc1 e he), rfl⟩

end SGood
end Dync
