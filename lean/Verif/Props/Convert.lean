import Verif.ConvertLemmas
import Verif.MacroRules
import Verif.Props.VecCopy2
import Verif.Props.VecDyn
/-!
# Properties of conversions: `clone_from` of raw parts, `into_dyn!`/`from_dyn!`, raw parts, `Meta`,
table references
-/
namespace Dync
variable {U V α : Type} {Γ : TyEnv U} {t t' : TyId} {es es' : List Bytes} {v src : VecVoid} {w : World U} {cfg : Cfg}

/-! ### C57 `clone_from` of raw parts -/

/-- The full claim: after `a.clone_from(&b)` the vector `a` is a copy of `b`, whatever it was before. -/
def C57_full : Prop :=
  ∀ (U : Type) (Γ : TyEnv U) (t t' : TyId) (es es' : List Bytes) (v src : VecVoid) (w : World U) (cfg : Cfg),
    Repr Γ w.heap t es v → Repr Γ w.heap t' es' src → v.ptr ≠ src.ptr → w.heap.WF →
    Room Γ t (max 8 (max (2 * v.cap) es'.length)) → ¬ BadGrowth Γ t v.cap es'.length →
    ∃ s', VecVoid.cloneFrom Γ cfg src (v, w) = (.ok (), s') ∧ Repr Γ s'.2.heap t' es' s'.1

/-- For vectors of the same type `clone_from` makes `a` hold exactly the elements of `b`; the buffer is
kept if it is large enough, the source and all other memory is untouched. What is missing: vectors of
different types (see `C57_clone_from_keeps_type`) and the growth step of `BadGrowth`. -/
theorem C57_clone_from_partial (R : Repr Γ w.heap t es v) (Rs : Repr Γ w.heap t es' src) (wf : w.heap.WF)
    (hne : v.ptr ≠ src.ptr)
    (hroom : Room Γ t (max 8 (max (2 * v.cap) es'.length))) (hbad : ¬ BadGrowth Γ t v.cap es'.length) :
    ∃ d h', VecVoid.cloneFrom Γ cfg src (v, w) = (.ok (), (d, { w with heap := h' })) ∧
      Evolves Γ t es'.length es' w.heap v h' d ∧ Repr Γ h' t es' src := by
  obtain ⟨p, c, h', hrun, h1, h2, h3, h4, h5, h6, h7⟩ :=
    VecVoid.cloneFrom_bytes (cfg := cfg) R Rs wf rfl rfl hroom hbad
  refine ⟨_, h', hrun, ⟨⟨R.type_id, R.chunks, R.align, R.pos, Rs.mem, Rs.each, rfl, h1, ?_, h3, h5⟩, h4, h2, h7, h6⟩, ?_⟩
  · exact Nat.lt_of_lt_of_le R.cap_pos h2
  · exact Rs.frame_realloc wf h4 (fun e => hne e.symm)

/-- Three `u32` next to a vector of one `u32`, a vector of two `(u32, u32)`, or one of two `u64`. -/
def Ex.pairWorld (n : Nat) (a : Nat) : World Ex.Log := ⟨Ex.twoHeap ⟨16, 4⟩ ⟨n, a⟩, []⟩
theorem Ex.c123_pair (n a : Nat) : Repr Ex.env (Ex.pairWorld n a).heap 2 [Ex.a1, Ex.a2, Ex.a3] Ex.c123.data :=
  ⟨rfl, rfl, rfl, by decide, rfl, by decide, rfl, by decide, by decide, by unfold Room; decide, 0, rfl, rfl⟩
theorem Ex.other_pair : Repr Ex.env (Ex.pairWorld 8 4).heap 2 [Ex.a3] Ex.other.data :=
  ⟨rfl, rfl, rfl, by decide, rfl, by decide, rfl, by decide, by decide, by unfold Room; decide, 1, rfl, rfl⟩
/-- Two `(u32, u32)`. -/
def Ex.pairs : VecVoid := ⟨some 1, 2, 2, ElemInfo.new Ex.env 4, Ex.b1 ++ Ex.b2⟩
theorem Ex.pairs_repr : Repr Ex.env (Ex.pairWorld 16 4).heap 4 [Ex.b1, Ex.b2] Ex.pairs :=
  ⟨rfl, rfl, rfl, by decide, by decide, by decide, rfl, by decide, by decide, by unfold Room; decide, 1, rfl, rfl⟩
/-- Two `u64`. -/
def Ex.longs : VecVoid := ⟨some 1, 2, 2, ElemInfo.new Ex.env 5, Ex.b1 ++ Ex.b2⟩
theorem Ex.longs_repr : Repr Ex.env (Ex.pairWorld 16 8).heap 5 [Ex.b1, Ex.b2] Ex.longs :=
  ⟨rfl, rfl, rfl, by decide, by decide, by decide, rfl, by decide, by decide, by unfold Room; decide, 1, rfl, rfl⟩

example := C57_clone_from_partial (cfg := ⟨true⟩) (Ex.c123_pair 8 4) Ex.other_pair (Ex.twoHeap_wf _ _) (by decide)
  (by unfold Room; decide) (by unfold BadGrowth; decide)

/-- `clone_from` between vectors of different types of the same alignment: `a` keeps its own type, and
the bytes of the elements of `b` are read as elements of the type of `a`. -/
theorem C57_clone_from_keeps_type (R : Repr Γ w.heap t es v) (Rs : Repr Γ w.heap t' es' src) (wf : w.heap.WF)
    (hal : Γ.align t' = Γ.align t) {n : Nat} (hn : es'.length * Γ.size t' = n * Γ.size t)
    (hroom : Room Γ t (max 8 (max (2 * v.cap) n))) (hbad : ¬ BadGrowth Γ t v.cap n) :
    ∃ d h' fs, VecVoid.cloneFrom Γ cfg src (v, w) = (.ok (), (d, { w with heap := h' })) ∧
      Repr Γ h' t fs d ∧ fs.flatten = es'.flatten ∧ fs.length = n := by
  obtain ⟨p, c, h', hrun, h1, h2, h3, h4, h5, h6, h7⟩ :=
    VecVoid.cloneFrom_bytes (cfg := cfg) R Rs wf hal hn hroom hbad
  have hlen : es'.flatten.length = n * Γ.size t := by
    rw [← hn]; exact length_flatten_eq Rs.each
  have hjoin : (chunks (Γ.size t) es'.flatten).flatten = es'.flatten := by
    have := chunks_join (k := Γ.size t) es'.flatten
    rw [hlen, Nat.mul_div_cancel _ R.pos, ← hlen, List.take_length] at this
    exact this
  have hcl : (chunks (Γ.size t) es'.flatten).length = n := by
    rw [chunks_length R.pos, hlen, Nat.mul_div_cancel _ R.pos]
  refine ⟨_, h', chunks (Γ.size t) es'.flatten, hrun, ⟨R.type_id, R.chunks, R.align, R.pos, ?_, chunks_each _, hcl.symm,
    h1, Nat.lt_of_lt_of_le R.cap_pos h2, h3, h5⟩, hjoin, hcl⟩
  rw [hjoin]; exact Rs.mem

example := C57_clone_from_keeps_type (cfg := ⟨true⟩) (Ex.c123_pair 16 4) Ex.pairs_repr (Ex.twoHeap_wf _ _) rfl (n := 4) rfl
  (by unfold Room; decide) (by unfold BadGrowth; decide)

/-- The two `(u32, u32)` have become four `u32`. -/
theorem C57_clone_from_refuted : ¬ C57_full := by
  intro h
  obtain ⟨s', hrun, hR⟩ := h Ex.Log Ex.env 2 4 _ _ _ _ _ ⟨true⟩ (Ex.c123_pair 16 4) Ex.pairs_repr (by decide)
    (Ex.twoHeap_wf _ _) (by unfold Room; decide) (by unfold BadGrowth; decide)
  obtain ⟨d, h', fs, hrun', hR', -, -⟩ := C57_clone_from_keeps_type (cfg := ⟨true⟩) (Ex.c123_pair 16 4) Ex.pairs_repr
    (Ex.twoHeap_wf _ _) rfl (n := 4) rfl (by unfold Room; decide) (by unfold BadGrowth; decide)
  rw [hrun'] at hrun
  cases hrun
  have h1 := hR.type_id
  rw [hR'.type_id] at h1
  exact absurd h1 (by decide)

/-- Different alignments: a debug build panics without touching anything; a release build reads beyond
the end of the source if the alignment of `a` is the larger one. -/
theorem C57_clone_from_other_align (R : Repr Γ w.heap t es v) (Rs : Repr Γ w.heap t' es' src)
    (hal : Γ.align t' ≠ Γ.align t) :
    (cfg.debug = true → VecVoid.cloneFrom Γ cfg src (v, w) = (.panic .assertion, (v, w))) ∧
    (cfg.debug = false → es' ≠ [] → Γ.align t' < Γ.align t → VecVoid.cloneFrom Γ cfg src (v, w) = (.ub, (v, w))) := by
  constructor
  · intro hd
    have hb : ¬ Γ.align t = Γ.align t' := fun e => hal e.symm
    simp [VecVoid.cloneFrom, M.bind_run, getSelf_run, R.align, evalAlign_align, VecVoid.alignedVec, Rs.align, debugAssert, hd,
      hb, M.assert]
  · intro hd hne hlt
    have hb : ¬ src.len * src.elem.size * Γ.align t ≤ src.mem.length := by
      rw [Rs.mem, length_flatten_eq Rs.each, Rs.len, ← Rs.chunks, ← Nat.mul_assoc]
      have h1 : 0 < es'.length := List.length_pos_iff.2 hne
      exact Nat.not_le.2 (Nat.mul_lt_mul_of_pos_left hlt (Nat.mul_pos h1 Rs.chunk_pos))
    simp [VecVoid.cloneFrom, M.bind_run, getSelf_run, R.align, evalAlign_align, VecVoid.alignedVec, Rs.align, debugAssert, hd,
      RVec.fromRawParts, hb]

example := C57_clone_from_other_align (cfg := ⟨true⟩) (Ex.c123_pair 16 8) Ex.longs_repr (by decide)

/-! ### C58 dynamic tables -/

section DynTables
variable {VT : TyId → Type} {k k' : TyId}

/-- `from_dyn` undoes `into_dyn`: same elements, same table, nothing else happens. -/
theorem C58_round_trip (vec : VecCopy (VT k)) (w : World U) :
    Convert.vecFromDyn cfg k (Convert.vecIntoDyn vec) w = (.ok vec, w) := by
  simp [Convert.vecFromDyn, Convert.vecIntoDyn, Convert.downcastTable, VecCopy.intoRawParts, VecCopy.fromRawParts]

/-- `into_dyn` keeps the content, the element type and the table of containers and slices. -/
theorem C58_into_keeps (vec : VecCopy (VT k)) (s : SliceCopy (VT k)) :
    (Convert.vecIntoDyn vec).data = vec.data ∧ (Convert.vecIntoDyn vec).vtable = ⟨k, vec.vtable⟩ ∧
    (Convert.sliceIntoDyn s).data = s.data ∧ (Convert.sliceIntoDyn s).elem = s.elem ∧
    (Convert.sliceIntoDyn s).vtable = ⟨k, s.vtable⟩ := ⟨rfl, rfl, rfl, rfl, rfl⟩

/-- The full claim: `from_dyn` succeeds only for the table type the container was made with; with
another one it panics and, like any container whose owner panics, drops its elements. -/
def C58_full : Prop :=
  ∀ (U : Type) (Γ : TyEnv U) (VT : TyId → Type) (k k' : TyId) (t : TyId) (es : List Bytes) (vec : VecCopy (DynTable VT))
    (w : World U) (cfg : Cfg), Repr Γ w.heap t es vec.data → vec.vtable.1 = k' → k' ≠ k →
    (∀ e ∈ es, ∀ u, (Γ.drop t e u).1 = .ok ()) →
    (Convert.vecFromDyn cfg k vec w).1 = .panic .unwrapNone ∧
    (Convert.vecFromDyn cfg k vec w).2.user = (M.forEach es (Γ.drop t) w.user).2

/-- With another table type `from_dyn` panics. The buffer is freed, but no destructor runs: the
elements are leaked. What is missing from the full claim: the destructors. -/
theorem C58_wrong_table_partial {vec : VecCopy (DynTable VT)} (R : Repr Γ w.heap t es vec.data) (hk : vec.vtable.1 ≠ k) :
    ∃ i, vec.data.ptr = some i ∧
      Convert.vecFromDyn cfg k vec w = (.panic .unwrapNone, { w with heap := w.heap.free i }) := by
  obtain ⟨i, hp, hd⟩ := VecVoid.drop_spec (cfg := cfg) R
  refine ⟨i, hp, ?_⟩
  have hn : Convert.downcastTable k vec.vtable = none := by simp [Convert.downcastTable, hk]
  simp only [Convert.vecFromDyn, VecCopy.intoRawParts, hn, M.bind_run, M.unwindDrop, hd]
  rfl

/-- `from_dyn` succeeds exactly for the table type stored. -/
theorem C58_from_iff {vec : VecCopy (DynTable VT)} (R : Repr Γ w.heap t es vec.data) :
    (∃ out, (Convert.vecFromDyn cfg k vec w).1 = .ok out) ↔ vec.vtable.1 = k := by
  constructor
  · rintro ⟨out, h⟩
    by_cases hk : vec.vtable.1 = k
    · exact hk
    · obtain ⟨i, -, hrun⟩ := C58_wrong_table_partial (cfg := cfg) R hk
      rw [hrun] at h; cases h
  · rintro rfl
    exact ⟨VecCopy.fromRawParts vec.data vec.vtable.2, by
      simp [Convert.vecFromDyn, Convert.downcastTable, VecCopy.intoRawParts]⟩

end DynTables

/-- A container of two `String`-like values with table type 1. -/
def Ex.dynVec : VecCopy (DynTable fun _ => Unit) := ⟨Ex.vec 10 [Ex.s1, Ex.s2] 2, ⟨1, ()⟩⟩
theorem Ex.dynVec_repr : Repr Ex.env (Ex.world 10 2).heap 10 [Ex.s1, Ex.s2] Ex.dynVec.data :=
  Ex.vec_repr (by decide) (by decide) (by decide) (by decide) (by unfold Room; decide)
example := C58_wrong_table_partial (cfg := ⟨true⟩) (k := 0) Ex.dynVec_repr (by decide)
example := C58_from_iff (cfg := ⟨true⟩) (k := 1) Ex.dynVec_repr

theorem C58_wrong_table_refuted : ¬ C58_full := by
  intro h
  obtain ⟨-, h2⟩ := h Ex.Log Ex.env (fun _ => Unit) 0 1 10 _ Ex.dynVec (Ex.world 10 2) ⟨true⟩ Ex.dynVec_repr rfl (by decide)
    (by intro e _ u; rfl)
  obtain ⟨i, -, hrun⟩ := C58_wrong_table_partial (cfg := ⟨true⟩) (k := 0) Ex.dynVec_repr (by decide)
  rw [hrun] at h2
  have h3 : (M.forEach [Ex.s1, Ex.s2] (Ex.env.drop 10) (Ex.world 10 2).user).2 ≠ [] := by decide
  exact h3 h2.symm

/-! ### C58 which invocations of the macros expand -/

section Macros
open MacroRules

theorem takeSegments_path (segs : List String) (rest : List Tok) (h : ∀ s r, rest ≠ .punct "::" :: .id s :: r) :
    takeSegments (segs.flatMap (fun x => [.punct "::", .id x]) ++ rest) = (segs, rest) := by
  induction segs with
  | nil =>
    simp only [List.flatMap_nil, List.nil_append]
    unfold takeSegments
    split
    · rename_i s r; exact absurd rfl (h s r)
    · rfl
  | cons s segs ih =>
    simp only [List.flatMap_cons, List.cons_append, List.nil_append]
    unfold takeSegments
    simp only [ih]

theorem takeFrag_path (s : String) (segs : List String) (rest : List Tok)
    (h : ∀ s r, rest ≠ .punct "::" :: .id s :: r) :
    takeFrag .path (pathToks s segs ++ rest) = some (.frag .path (s :: segs), rest) := by
  simp only [pathToks, List.cons_append, takeFrag, takeSegments_path segs rest h]

theorem fromArm_match (c c' kind : String) (T P : String × List String) :
    matchPat (fromArm c kind).pat (fromCall c' T P) =
      if c = c' then some [("trait", .frag .path (T.1 :: T.2)), ("vtable", .frag .path (P.1 :: P.2))] else none := by
  simp only [fromArm, t, lt, gt, dyn, as', fromCall, List.cons_append, List.nil_append, List.append_assoc, matchPat,
    Tok.id.injEq]
  split
  · simp [takeFrag_path, matchPat]
  · rfl

/-- What `from_dyn![c<dyn T as P>]` expands to: the body for owned containers, for exactly the two
owned containers. The four slice arms exist, but what they expand to matches no arm. -/
theorem C58_from_dyn_expands (c : String) (T P : String × List String) (n : Nat) :
    expand fromDynArms (n + 2) (fromCall c T P) =
      if c = "VecDyn" ∨ c = "VecCopy" then
        some (.owned, [("vec", .frag .ident [c]), ("trait", .frag .path (T.1 :: T.2)),
          ("vtable", .frag .path (P.1 :: P.2))])
      else none := by
  by_cases h1 : c = "Slice"
  · subst h1
    simp [expand, fromDynArms, firstArm, fromArm_match]
    simp [fromArm, MacroRules.subst, matchPat, t, lt, gt, at', dyn, as', takeFrag]
  by_cases h2 : c = "SliceMut"
  · subst h2
    simp [expand, fromDynArms, firstArm, fromArm_match]
    simp [fromArm, MacroRules.subst, matchPat, t, lt, gt, at', dyn, as', takeFrag]
  by_cases h3 : c = "VecDyn"
  · subst h3
    simp [expand, fromDynArms, firstArm, fromArm_match]
    simp [fromArm, MacroRules.subst, matchPat, t, lt, gt, at', dyn, as', takeFrag]
  by_cases h4 : c = "SliceCopy"
  · subst h4
    simp [expand, fromDynArms, firstArm, fromArm_match]
    simp [fromArm, MacroRules.subst, matchPat, t, lt, gt, at', dyn, as', takeFrag]
  by_cases h5 : c = "SliceCopyMut"
  · subst h5
    simp [expand, fromDynArms, firstArm, fromArm_match]
    simp [fromArm, MacroRules.subst, matchPat, t, lt, gt, at', dyn, as', takeFrag]
  by_cases h6 : c = "VecCopy"
  · subst h6
    simp [expand, fromDynArms, firstArm, fromArm_match]
    simp [fromArm, MacroRules.subst, matchPat, t, lt, gt, at', dyn, as', takeFrag]
  simp [h3, h6, expand, fromDynArms, firstArm, fromArm_match, Ne.symm h1, Ne.symm h2, Ne.symm h3, Ne.symm h4, Ne.symm h5,
    Ne.symm h6]
  simp [fromCall, at', matchPat]

theorem intoArm_match_path (c c' kind : String) (T : String × List String) :
    matchPat (intoArm c .path kind).pat (intoCall c' T) =
      if c = c' then some [("trait", .frag .path (T.1 :: T.2))] else none := by
  simp only [intoArm, t, lt, gt, dyn, intoCall, List.cons_append, List.nil_append, List.append_assoc, matchPat,
    Tok.id.injEq]
  split
  · simp [takeFrag_path, matchPat]
  · rfl

theorem intoArm_match_ident (c c' kind : String) (T : String × List String) :
    matchPat (intoArm c .ident kind).pat (intoCall c' T) =
      if c = c' ∧ T.2 = [] then some [("trait", .frag .ident [T.1])] else none := by
  obtain ⟨T, segs⟩ := T
  by_cases h : c = c'
  · subst h
    cases segs with
    | nil => simp [intoArm, t, lt, gt, dyn, intoCall, matchPat, pathToks, takeFrag]
    | cons s segs => simp [intoArm, t, lt, gt, dyn, intoCall, matchPat, pathToks, takeFrag]
  · simp [intoArm, t, intoCall, matchPat, h]

/-- What `into_dyn![c<dyn T>]` expands to: for `Slice` any path is accepted, for the other five
containers only a single identifier. -/
theorem C58_into_dyn_expands (c : String) (T : String × List String) (n : Nat) :
    expand intoDynArms (n + 2) (intoCall c T) =
      if c = "Slice" then some (.slice, [("slice", .frag .ident [c]), ("trait", .frag .path (T.1 :: T.2))])
      else if T.2 ≠ [] then none
      else if c ∈ ["SliceMut", "SliceCopy", "SliceCopyMut"] then
        some (.slice, [("slice", .frag .ident [c]), ("trait", .frag .path [T.1])])
      else if c ∈ ["VecDyn", "VecCopy"] then
        some (.owned, [("vec", .frag .ident [c]), ("trait", .frag .ident [T.1])])
      else none := by
  obtain ⟨T, segs⟩ := T
  by_cases h1 : c = "Slice"
  · subst h1
    cases segs with
    | nil =>
      simp [expand, intoDynArms, firstArm, intoArm_match_path, intoArm_match_ident]
      simp [intoArm, MacroRules.subst, matchPat, t, lt, gt, at', dyn, takeFrag, takeSegments]
    | cons s segs =>
      simp [expand, intoDynArms, firstArm, intoArm_match_path, intoArm_match_ident]
      simp [intoArm, MacroRules.subst, matchPat, t, lt, gt, at', dyn, takeFrag, intoCall]
  by_cases h2 : c = "SliceMut"
  · subst h2
    cases segs with
    | nil =>
      simp [expand, intoDynArms, firstArm, intoArm_match_path, intoArm_match_ident]
      simp [intoArm, MacroRules.subst, matchPat, t, lt, gt, at', dyn, takeFrag, takeSegments]
    | cons s segs =>
      simp [expand, intoDynArms, firstArm, intoArm_match_path, intoArm_match_ident]
      simp [intoArm, MacroRules.subst, matchPat, t, lt, gt, at', dyn, takeFrag, intoCall]
  by_cases h3 : c = "VecDyn"
  · subst h3
    cases segs with
    | nil =>
      simp [expand, intoDynArms, firstArm, intoArm_match_path, intoArm_match_ident]
      simp [intoArm, MacroRules.subst, matchPat, t, lt, gt, at', dyn, takeFrag, takeSegments]
    | cons s segs =>
      simp [expand, intoDynArms, firstArm, intoArm_match_path, intoArm_match_ident]
      simp [intoArm, MacroRules.subst, matchPat, t, lt, gt, at', dyn, takeFrag, intoCall]
  by_cases h4 : c = "SliceCopy"
  · subst h4
    cases segs with
    | nil =>
      simp [expand, intoDynArms, firstArm, intoArm_match_path, intoArm_match_ident]
      simp [intoArm, MacroRules.subst, matchPat, t, lt, gt, at', dyn, takeFrag, takeSegments]
    | cons s segs =>
      simp [expand, intoDynArms, firstArm, intoArm_match_path, intoArm_match_ident]
      simp [intoArm, MacroRules.subst, matchPat, t, lt, gt, at', dyn, takeFrag, intoCall]
  by_cases h5 : c = "SliceCopyMut"
  · subst h5
    cases segs with
    | nil =>
      simp [expand, intoDynArms, firstArm, intoArm_match_path, intoArm_match_ident]
      simp [intoArm, MacroRules.subst, matchPat, t, lt, gt, at', dyn, takeFrag, takeSegments]
    | cons s segs =>
      simp [expand, intoDynArms, firstArm, intoArm_match_path, intoArm_match_ident]
      simp [intoArm, MacroRules.subst, matchPat, t, lt, gt, at', dyn, takeFrag, intoCall]
  by_cases h6 : c = "VecCopy"
  · subst h6
    cases segs with
    | nil =>
      simp [expand, intoDynArms, firstArm, intoArm_match_path, intoArm_match_ident]
      simp [intoArm, MacroRules.subst, matchPat, t, lt, gt, at', dyn, takeFrag, takeSegments]
    | cons s segs =>
      simp [expand, intoDynArms, firstArm, intoArm_match_path, intoArm_match_ident]
      simp [intoArm, MacroRules.subst, matchPat, t, lt, gt, at', dyn, takeFrag, intoCall]
  simp [h1, h2, h3, h4, h5, h6, expand, intoDynArms, firstArm, intoArm_match_path, intoArm_match_ident, Ne.symm h1, Ne.symm h2,
    Ne.symm h3, Ne.symm h4, Ne.symm h5, Ne.symm h6]
  simp [intoCall, at', matchPat]

/-- The full claim for the macros: both accept every container kind and every path to a trait. -/
def C58_macros_full : Prop :=
  ∀ c ∈ ["Slice", "SliceMut", "VecDyn", "SliceCopy", "SliceCopyMut", "VecCopy"], ∀ T P : String × List String,
    (∃ out, expand fromDynArms 128 (fromCall c T P) = some out) ∧
    (∃ out, expand intoDynArms 128 (intoCall c T) = some out)

/-- Both halves fail: `from_dyn![Slice<…>]` does not expand, nor does `into_dyn![VecDyn<dyn m::T>]`. -/
theorem C58_macros_refuted :
    ¬ C58_macros_full ∧ (∀ T P, expand fromDynArms 128 (fromCall "Slice" T P) = none) ∧
      expand intoDynArms 128 (intoCall "VecDyn" ("m", ["T"])) = none := by
  have h1 : ∀ T P, expand fromDynArms 128 (fromCall "Slice" T P) = none := by
    intro T P; rw [C58_from_dyn_expands]; simp
  refine ⟨fun h => ?_, h1, ?_⟩
  · obtain ⟨⟨out, ho⟩, -⟩ := h "Slice" (by decide) ("T", []) ("P", [])
    rw [h1] at ho; cases ho
  · rw [C58_into_dyn_expands]; simp

/-- Of the four slice bodies that do expand, the one for `SliceMut` does not type-check: the parts
taken out contain a shared reference, the parts put back need a unique one. -/
theorem C58_into_dyn_slice_types (c : String) :
    sliceBodyTypes c = true ↔ c ∈ ["Slice", "SliceCopy", "SliceCopyMut"] := by
  by_cases h1 : c = "Slice"
  · subst h1; decide
  by_cases h2 : c = "SliceMut"
  · subst h2; decide
  by_cases h4 : c = "SliceCopy"
  · subst h4; decide
  by_cases h5 : c = "SliceCopyMut"
  · subst h5; decide
  simp [sliceBodyTypes, rawOut, h1, h2, h4, h5]

end Macros

/-! ### C60 raw parts in safe code -/

/-- Giving up the memory of a boxed value's raw parts, which the documentation asks for and which happens
when the box of bytes goes out of scope, is undefined behaviour exactly if the value has a size
and an alignment other than one. -/
theorem C60_raw_box_exact {x : Bytes} {b : BoxValue V} (B : IsBox Γ w.heap t x b) :
    (BoxBytes.dropPlain b.intoRawParts.1 w).1 = .ub ↔ 0 < Γ.size t ∧ Γ.align t ≠ 1 := by
  have hl : b.bytes.bytes.length = Γ.size t := by rw [B.bytes, B.length]
  rcases B.block with ⟨h0, hp⟩ | ⟨h0, i, hp, hi⟩
  · simp [BoxBytes.dropPlain, Value.intoRawParts, worldHeap, dealloc, hl, h0]
  · by_cases ha : Γ.align t = 1
    · simp [BoxBytes.dropPlain, Value.intoRawParts, worldHeap, dealloc, hl, Nat.ne_of_gt h0, hp, hi, TyEnv.layout, ha]
    · simp [BoxBytes.dropPlain, Value.intoRawParts, worldHeap, dealloc, hl, Nat.ne_of_gt h0, hp, hi, TyEnv.layout, ha, h0]

/-- In the remaining cases the memory is released, but the destructor of the element never runs. -/
theorem C60_raw_box_partial {x : Bytes} {b : BoxValue V} (B : IsBox Γ w.heap t x b)
    (hok : Γ.size t = 0 ∨ Γ.align t = 1) :
    ∃ h', BoxBytes.dropPlain b.intoRawParts.1 w = (.ok (), { w with heap := h' }) ∧
      (∀ j, b.bytes.ptr = some j → h'.live j = none) := by
  have hl : b.bytes.bytes.length = Γ.size t := by rw [B.bytes, B.length]
  rcases B.block with ⟨h0, hp⟩ | ⟨h0, i, hp, hi⟩
  · exact ⟨w.heap, by simp [BoxBytes.dropPlain, Value.intoRawParts, worldHeap, dealloc, hl, h0], by simp [hp]⟩
  · have ha : Γ.align t = 1 := by omega
    refine ⟨w.heap.free i, by
      simp [BoxBytes.dropPlain, Value.intoRawParts, worldHeap, dealloc, hl, Nat.ne_of_gt h0, hp, hi, TyEnv.layout, ha], ?_⟩
    intro j hj
    rw [hp] at hj; cases hj
    simp [Heap.free]

/-- The full claim: letting go of the raw parts of a boxed value is not undefined behaviour. -/
def C60_full : Prop :=
  ∀ (U V : Type) (Γ : TyEnv U) (t : TyId) (x : Bytes) (b : BoxValue V) (w : World U), IsBox Γ w.heap t x b →
    (BoxBytes.dropPlain b.intoRawParts.1 w).1 ≠ .ub

example := (C60_raw_box_exact (w := Ex.boxWorld 10) (Ex.box_isBox (vt := ()) (x := Ex.s1) (t := 10) rfl (by decide)))
example := (C60_raw_box_partial (w := Ex.boxWorld 3) (Ex.box_isBox (vt := ()) (x := Ex.b3) (t := 3) rfl (by decide)) (.inr rfl))

theorem C60_raw_box_refuted : ¬ C60_full := fun h =>
  h Ex.Log Unit Ex.env 10 Ex.s1 _ (Ex.boxWorld 10) (Ex.box_isBox rfl (by decide))
    ((C60_raw_box_exact (Ex.box_isBox (vt := ()) rfl (by decide))).2 (by decide))

/-- Safe code with a mutable slice of a container of `Copy` elements: take the raw parts and write
`bs` over the bytes. `&mut [MaybeUninit<u8>]` can be written without `unsafe` (src/slice_copy.rs:427). -/
def rawWrite (bs : Bytes) : M (SliceCopy V) Unit :=
  M.modify fun s => let (data, elem, vt) := s.intoRawParts; ⟨splice data 0 (bs.take data.length), elem, vt⟩

/-- The full claim (stated in src/bytes.rs:142-145): safe code cannot modify the bytes of an element,
so every element of a container is one that was put there — whatever is done with a mutable slice, all
elements stay valid, for any notion of validity. -/
def C60_bytes_full : Prop :=
  ∀ (U V : Type) (Γ : TyEnv U) (t : TyId) (es : List Bytes) (c : VecCopy V) (w : World U) (valid : Bytes → Prop)
    (bs : Bytes), Repr Γ w.heap t es c.data → (∀ e ∈ es, valid e) →
    ∃ s' fs, VecCopy.asMutSlice (rawWrite bs) (c, w) = (.ok (), s') ∧ Repr Γ s'.2.heap t fs s'.1.data ∧ ∀ e ∈ fs, valid e

/-- Safe code can replace all elements by arbitrary bytes, even uninitialised ones. -/
theorem C60_bytes_overwrite {c : VecCopy V} (R : Repr Γ w.heap t es c.data) (wf : w.heap.WF) {fs : List Bytes}
    (hf : ∀ e ∈ fs, e.length = Γ.size t) (hl : fs.length = es.length) :
    ∃ d, VecCopy.asMutSlice (rawWrite fs.flatten) (c, w) = (.ok (), ({ c with data := d }, w)) ∧
      Evolves Γ t 0 fs w.heap c.data w.heap d := by
  refine VecCopy.asMutSlice_ok R wf hf hl fun s S _ => ⟨rfl, ?_⟩
  have h1 : fs.flatten.length = s.data.length := by
    rw [S.data, length_flatten_eq hf, length_flatten_eq R.each, hl]
  simp only [rawWrite, M.modify_run, SliceCopy.intoRawParts]
  rw [← h1, List.take_length]
  simp [splice, h1]

example := C60_bytes_overwrite (fs := [[none, none, none, none], Ex.a1, Ex.a2]) Ex.c123_repr Ex.w4_wf (by decide) rfl

theorem C60_bytes_refuted : ¬ C60_bytes_full := by
  intro h
  obtain ⟨s', fs, hrun, hR, hv⟩ := h Ex.Log Unit Ex.env 2 _ Ex.c123 (Ex.world 2 4) (fun e => none ∉ e)
    [[none, none, none, none], Ex.a1, Ex.a2].flatten Ex.c123_repr (by decide)
  obtain ⟨d, hrun', hev⟩ := C60_bytes_overwrite (fs := [[none, none, none, none], Ex.a1, Ex.a2]) Ex.c123_repr Ex.w4_wf
    (by decide) rfl
  rw [hrun'] at hrun
  cases hrun
  have h1 : fs.flatten = [[none, none, none, none], Ex.a1, Ex.a2].flatten := by
    rw [← hR.mem, ← hev.repr.mem]
  have h2 : none ∈ fs.flatten := by rw [h1]; decide
  obtain ⟨e, he, hn⟩ := List.mem_flatten.1 h2
  exact hv e he hn

/-! ### C61 the table of a container belongs to its element type -/

/-- The full claim: a container made by `with_type_from` from any `Meta` that safe code can put together
(the fields of `Meta` are public) has a table whose destructor is that of its element type. -/
def C61_full : Prop :=
  ∀ (U V : Type) (_ : HasDrop U V) (Γ : TyEnv U) (t t' : TyId) (es es' : List Bytes) (a b : VecDyn V) (w : World U),
    Repr Γ w.heap t es a.data → LawfulDrop Γ t a.vtable → Repr Γ w.heap t' es' b.data → LawfulDrop Γ t' b.vtable →
    w.heap.WF →
    ∀ c w', VecCopy.withTypeFrom ⟨a.toMeta.elem, b.toMeta.vtable⟩ w = (.ok c, w') →
      LawfulDrop Γ c.data.elem.type_id c.vtable

/-- For a `Meta` taken as a whole from a container the table of the new container is that of its
element type. What is missing: a `Meta` assembled from two sources. -/
theorem C61_unforged_partial [HasDrop U V] {a : VecDyn V} (R : Repr Γ w.heap t es a.data) (wf : w.heap.WF)
    (hv : LawfulDrop Γ t a.vtable) :
    ∃ c h', VecCopy.withTypeFrom a.toMeta w = (.ok c, { w with heap := h' }) ∧ Repr Γ h' t [] c.data ∧
      LawfulDrop Γ t c.vtable := by
  obtain ⟨c, h', h1, h2, h3, -, -⟩ := C46_with_type_from (t := t) R.pos wf a.vtable
  refine ⟨c, h', ?_, h2, by rw [h3]; exact hv⟩
  have : a.toMeta = ⟨ElemInfo.new Γ t, a.vtable⟩ := by simp [VecCopy.toMeta, R.elem_eq]
  rw [this]; exact h1

/-- A container of `u64` and one of type 7, which has a destructor; both 8 bytes. -/
def Ex.dynLongs : VecDyn (CloneVTable Ex.Log) := ⟨⟨some 0, 1, 1, ElemInfo.new Ex.env 5, Ex.b1⟩, Ex.cloneVT 5⟩
def Ex.dynGuards : VecDyn (CloneVTable Ex.Log) := ⟨⟨some 1, 1, 1, ElemInfo.new Ex.env 7, Ex.g1⟩, Ex.cloneVT 7⟩
def Ex.forgeWorld : World Ex.Log := ⟨Ex.twoHeap ⟨8, 8⟩ ⟨8, 8⟩, []⟩
theorem Ex.dynLongs_repr : Repr Ex.env Ex.forgeWorld.heap 5 [Ex.b1] Ex.dynLongs.data :=
  ⟨rfl, rfl, rfl, by decide, rfl, by decide, rfl, by decide, by decide, by unfold Room; decide, 0, rfl, rfl⟩
theorem Ex.dynGuards_repr : Repr Ex.env Ex.forgeWorld.heap 7 [Ex.g1] Ex.dynGuards.data :=
  ⟨rfl, rfl, rfl, by decide, rfl, by decide, rfl, by decide, by decide, by unfold Room; decide, 1, rfl, rfl⟩

example := C61_unforged_partial Ex.dynGuards_repr (Ex.twoHeap_wf _ _) (Ex.cloneVT_drop 7)

theorem C61_forged_refuted : ¬ C61_full := by
  intro h
  obtain ⟨c, h', h1, h2, h3, -, -⟩ := C46_with_type_from (Γ := Ex.env) (t := 5) (w := Ex.forgeWorld) (by decide)
    (Ex.twoHeap_wf _ _) (Ex.cloneVT 7)
  have hl := h _ _ inferInstance Ex.env 5 7 _ _ Ex.dynLongs Ex.dynGuards Ex.forgeWorld Ex.dynLongs_repr (Ex.cloneVT_drop 5)
    Ex.dynGuards_repr (Ex.cloneVT_drop 7) (Ex.twoHeap_wf _ _) c _ h1
  rw [h2.type_id, h3] at hl
  have h4 := hl Ex.b1 rfl
  rw [Ex.cloneVT_drop 7 Ex.b1 rfl] at h4
  have h5 : (Ex.env.drop 7 Ex.b1 []).2 ≠ (Ex.env.drop 5 Ex.b1 []).2 := by decide
  exact h5 (by rw [h4])

/-- The consequence: safe code makes such a container, pushes a clone of a `u64` and drops it. The
`clone` and the destructor of the other type run on the bytes of the `u64`. -/
theorem C61_forged_drop_refuted :
    let prog : M (World Ex.Log) Unit := (do
      let c ← VecCopy.withTypeFrom (Meta.mk Ex.dynLongs.toMeta.elem Ex.dynGuards.toMeta.vtable)
      let (_, c) ← withLocal c (VecDyn.drop ⟨true⟩) (VecDyn.pushCloned Ex.env ⟨true⟩ (Ex.ref 5 Ex.b1 (Ex.cloneVT 5)))
      VecDyn.drop ⟨true⟩ c)
    (prog Ex.forgeWorld).1 = .ok () ∧
    (prog Ex.forgeWorld).2.user = [.cloned 7 Ex.b1, .dropped 7 Ex.b1] := by decide +kernel

/-! ### C62 table references -/

/-- A table reference gives the same table however it is read, made or copied, if cloning a table
gives an equal table. -/
theorem C62_table_ref (cl : V → V) (hcl : ∀ v, cl v = v) (r : TableRef V) :
    r.take cl = r.asRef ∧ r.intoOwned cl = r.asRef ∧ (r.clone cl).asRef = r.asRef ∧
    (∀ v : V, (TableRef.ofRef v).asRef = v ∧ (TableRef.ofBox v).asRef = v) := by
  cases r <;> simp [TableRef.take, TableRef.intoOwned, TableRef.asRef, TableRef.clone, TableRef.ofRef, TableRef.ofBox, hcl]

/-- A table that is only referred to is cloned when it is taken; an owned one is handed over as it is. -/
theorem C62_take (cl : V → V) (v : V) :
    (TableRef.ofRef v).take cl = cl v ∧ (TableRef.ofBox v).take cl = v ∧
    (TableRef.ofRef v).intoOwned cl = cl v ∧ (TableRef.ofBox v).intoOwned cl = v := ⟨rfl, rfl, rfl, rfl⟩

/-- The full claim: two table references are equal if they refer to equal tables. -/
def C62_full : Prop :=
  ∀ (V : Type) (beq : V → V → Bool) (r s : TableRef V), r.eq beq s = beq r.asRef s.asRef

/-- True as long as both are of the same kind (borrowed or owned); missing: mixed kinds. -/
theorem C62_eq_partial (beq : V → V → Bool) (a b : V) :
    (TableRef.ofRef a).eq beq (.ofRef b) = beq a b ∧ (TableRef.ofBox a).eq beq (.ofBox b) = beq a b ∧
    (TableRef.ofRef a).eq beq (.ofBox b) = false ∧ (TableRef.ofBox a).eq beq (.ofRef b) = false := ⟨rfl, rfl, rfl, rfl⟩

theorem C62_eq_refuted : ¬ C62_full := fun h =>
  absurd (h Nat (fun a b => a == b) (.ofRef 1) (.ofBox 1)) (by decide)

example := C62_table_ref (fun n : Nat => n) (fun _ => rfl) (.ofRef 3)
example := C62_take (fun n : Nat => n) 3

/-! ### C46 `Meta` of a view -/

/-- The `Meta` of a slice or of a reference to an element of type `t` is that of `t`, so
`with_type_from` of a view gives an empty container of the same type. -/
theorem C46_meta_views {s : SliceCopy V} (S : SRepr Γ t es s) (wf : w.heap.WF) {e : Bytes} (he : e ∈ es) (vt : V) :
    s.toMeta = ⟨ElemInfo.new Γ t, s.vtable⟩ ∧ (CopyValue.new Γ t vt e).toMeta = ⟨ElemInfo.new Γ t, vt⟩ ∧
    (∃ c h', VecCopy.withTypeFrom s.toMeta w = (.ok c, { w with heap := h' }) ∧ Repr Γ h' t [] c.data ∧
      c.vtable = s.vtable) ∧
    (∃ c h', VecCopy.withTypeFrom (CopyValue.new Γ t vt e).toMeta w = (.ok c, { w with heap := h' }) ∧
      Repr Γ h' t [] c.data ∧ c.vtable = vt) := by
  have h1 : s.toMeta = ⟨ElemInfo.new Γ t, s.vtable⟩ := by simp [SliceCopy.toMeta, S.elem]
  have h2 : (CopyValue.new Γ t vt e).toMeta = ⟨ElemInfo.new Γ t, vt⟩ := by
    simp [CopyValue.toMeta, CopyValue.new, Meta.ofValue, ElemInfo.new, S.each e he]
  refine ⟨h1, h2, ?_, ?_⟩
  · obtain ⟨c, h', k1, k2, k3, -, -⟩ := C46_with_type_from (t := t) S.pos wf s.vtable
    exact ⟨c, h', by rw [h1]; exact k1, k2, k3⟩
  · obtain ⟨c, h', k1, k2, k3, -, -⟩ := C46_with_type_from (t := t) S.pos wf vt
    exact ⟨c, h', by rw [h2]; exact k1, k2, k3⟩

example := C46_meta_views (w := Ex.world 2 4) Ex.s123_repr Ex.w4_wf (e := Ex.a2) (by decide) ()

end Dync
