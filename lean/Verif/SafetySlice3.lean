import Verif.SafetySlice2
/-!
# Programs on views: all programs
-/
namespace Dync
variable {U V α σ : Type} {Γ : TyEnv U} {S : Values Γ} {t : TyId} {cfg : Cfg}

/-- Any program on a view of values reads values and leaves values. -/
theorem SProg.exec_runs (p : SProg) (hok : p.Ok Γ S cfg) {torn : Bool} (hwh : p.Whole torn) {es : List Bytes} {rest : Bytes}
    {s : SliceCopy V} (G : SGood Γ S t es rest s) (ht : torn = false → rest = []) :
    Runs (p.exec Γ cfg) s (fun rs s' => Seen S rs ∧ SPost S t es rest s s') (fun s' => SPost S t es rest s s') := by
  induction p generalizing torn es rest s with
  | skip => exact ⟨Seen.nil, G.refl⟩
  | seq p q ihp ihq =>
    refine Runs.bind (ihp hok.1 hwh.1 G ht) ?_
    rintro a s1 ⟨h1, h2⟩
    obtain ⟨es1, G1, next⟩ := G.post h2
    refine Runs.bind (R := fun b s2 => Seen S b ∧ SPost S t es rest s s2) ((ihq hok.2 hwh.2 G1 ht).mono (fun _ s2 h => ⟨h.1, next s2 h.2⟩) next) ?_
    rintro b s2 ⟨h3, h4⟩
    exact ⟨h1.append h3, h4⟩
  | get i =>
    refine Runs.bind_ok (b := s) (s' := s) rfl ?_
    refine Runs.bind ((G.get_runs (hok.next t) s).mono (fun _ _ h => h) fun s' e => by rw [e]; exact G.refl) ?_
    rintro v s1 ⟨hs1, h1, h2⟩
    rw [hs1]
    refine ⟨?_, G.refl⟩
    intro r hr
    rw [List.mem_singleton.1 hr, h1]
    exact h2
  | getAs t' i =>
    refine Runs.bind_ok (b := s) (s' := s) rfl ?_
    refine Runs.bind ((G.getAs_runs t' s).mono (fun _ _ h => h) fun s' e => by rw [e]; exact G.refl) ?_
    rintro v s1 ⟨hs1, h1⟩
    rw [hs1]
    cases v with
    | none => exact ⟨Seen.nil, G.refl⟩
    | some b =>
      refine ⟨?_, G.refl⟩
      intro r hr
      rw [List.mem_singleton.1 hr]
      exact h1 b rfl
  | iter =>
    refine Runs.bind_ok (b := s) (s' := s) rfl ?_
    refine Runs.bind ((G.iter_runs s).mono (fun _ _ h => h) fun s' e => by rw [e]; exact G.refl) ?_
    rintro vs s1 ⟨hs1, h1⟩
    rw [hs1]
    refine ⟨?_, G.refl⟩
    intro r hr
    obtain ⟨v, hv, rfl⟩ := List.mem_map.1 hr
    obtain ⟨h2, h3⟩ := h1 v hv
    rw [h2]
    exact h3
  | asSlice t' =>
    refine Runs.bind_ok (b := s) (s' := s) rfl ?_
    refine Runs.bind ((G.asSlice_runs t' s).mono (fun _ _ h => h) fun s' e => by rw [e]; exact G.refl) ?_
    rintro v s1 ⟨hs1, h1⟩
    rw [hs1]
    cases v with
    | none => exact ⟨Seen.nil, G.refl⟩
    | some xs =>
      refine ⟨?_, G.refl⟩
      intro r hr
      obtain ⟨b, hb, rfl⟩ := List.mem_map.1 hr
      exact h1 xs rfl b hb
  | setAs t' i x => exact Runs.bind (G.setAs_runs hok) fun _ _ h => ⟨Seen.nil, h⟩
  | setValue i t' x => exact Runs.bind (G.setValue_runs (hok.1.next t) hok.2) fun _ _ h => ⟨Seen.nil, h⟩
  | mapAll f => exact Runs.bind (G.mapAll_runs hok) fun _ _ h => ⟨Seen.nil, h⟩
  | mapAs t' f =>
    refine Runs.bind (G.asSliceMut_runs ?_) fun _ _ h => ⟨Seen.nil, h⟩
    rintro rfl
    exact hok es G.valid
  | swap i j => exact Runs.bind (G.swap_runs hok.1 hok.2) fun _ _ h => ⟨Seen.nil, h⟩
  | rotateLeft n => exact Runs.bind (G.rotateLeft_runs (ht hwh) (Fits.here hok t)) fun _ _ h => ⟨Seen.nil, h⟩
  | rotateRight n => exact Runs.bind (G.rotateRight_runs (ht hwh) (Fits.here hok t)) fun _ _ h => ⟨Seen.nil, h⟩
  | copyFromSlice t' xs => exact Runs.bind (G.copyFromSlice_runs hok) fun _ _ h => ⟨Seen.nil, h⟩
  | sub r p ih => exact G.subsliceMut_runs hok.1 ht fun es1 r1 g h => ih hok.2 hwh g h
  | split mid p q ihp ihq =>
    refine G.splitAtMut_runs hok.1 ?_
    intro es1 es2 G1 G2
    have h1 := ihp hok.2.1 hwh.1 G1 fun _ => rfl
    have h2 := ihq hok.2.2 hwh.2 G2 ht
    refine Runs.bind (R := fun a pr => Seen S a ∧ SPost S t es1 [] ⟨es1.flatten, s.elem, s.vtable⟩ pr.1 ∧ pr.2 = ⟨es2.flatten ++ rest, s.elem, s.vtable⟩) ?_ ?_
    · exact Runs.zoom (h1.mono (fun a s1 h => ⟨h.1, h.2, rfl⟩) fun s1 h => ⟨h, G2.refl⟩)
    · rintro a ⟨s1, s2⟩ ⟨h3, h4, h5⟩
      simp only at h4 h5
      rw [h5]
      refine Runs.bind (R := fun b pr => Seen S b ∧ SPost S t es1 [] ⟨es1.flatten, s.elem, s.vtable⟩ pr.1 ∧
        SPost S t es2 rest ⟨es2.flatten ++ rest, s.elem, s.vtable⟩ pr.2) ?_ ?_
      · exact Runs.zoom (h2.mono (fun b s2 h => ⟨h.1, h4, h.2⟩) fun s2 h => ⟨h4, h⟩)
      · rintro b pr ⟨h6, h7⟩
        exact ⟨h3.append h6, h7⟩
  | chunks k p ih => exact G.chunks_runs hok.1 fun es1 G1 => ih hok.2 hwh G1 fun _ => rfl

/-! ### The view of a container that lost its content (element type `()`) -/

/-- An empty view with element type `()`. -/
structure SUnit (Γ : TyEnv U) (s : SliceCopy V) : Prop where
  data : s.data = []
  elem : s.elem = ElemInfo.new Γ Γ.unitTy

namespace SUnit
variable {s : SliceCopy V}

theorem numBytes (G : SUnit Γ s) : s.elem.numBytes = 0 := by rw [G.elem, numBytes_new, Γ.unit_size]

theorem len_panics (G : SUnit Γ s) (st : σ) : (s.len cfg) st = (.panic .divZero, st) := by
  unfold SliceCopy.len
  rw [G.numBytes]
  cases cfg with
  | mk d => cases d <;> rfl

theorem range_runs (i : Nat) (st : σ) :
    Runs (indexByteRange cfg 0 i) st (fun p st' => st' = st ∧ p = (0, 0)) (fun st' => st' = st) := by
  unfold indexByteRange
  refine Runs.bind (R := fun n st' => st' = st ∧ n = 0) (Runs.umul (fun _ => ⟨rfl, by simp⟩) (fun h => by simp at h) rfl) ?_
  rintro _ s0 ⟨hs0, rfl⟩
  rw [hs0]
  refine Runs.bind (R := fun n st' => st' = st) ?_ ?_
  · unfold uadd
    split
    · exact rfl
    · split
      · exact rfl
      · exact rfl
  · rintro k s1 hs1
    rw [hs1]
    refine Runs.bind (R := fun n st' => st' = st ∧ n = 0) (Runs.umul (fun _ => ⟨rfl, by simp⟩) (fun h => by simp at h) rfl) ?_
    rintro _ s0 ⟨hs0, rfl⟩
    exact ⟨hs0, rfl⟩

theorem umul_zero (a : Nat) (st : σ) : Runs (umul cfg a 0) st (fun n st' => st' = st ∧ n = 0) (fun st' => st' = st) :=
  Runs.umul (fun _ => ⟨rfl, by simp⟩) (fun h => by simp at h) rfl

end SUnit

/-- Programs on such a view see only unit values and change nothing. -/
theorem SProg.exec_runs_unit (p : SProg) (hok : p.Ok Γ S cfg) {s : SliceCopy V} (G : SUnit Γ s) :
    Runs (p.exec Γ cfg) s (fun rs s' => Seen S rs ∧ s' = s) (fun s' => s' = s) := by
  induction p generalizing s with
  | skip => exact ⟨Seen.nil, rfl⟩
  | seq p q ihp ihq =>
    refine Runs.bind (ihp hok.1 G) ?_
    rintro a s1 ⟨h1, h2⟩
    rw [h2]
    refine Runs.bind (ihq hok.2 G) ?_
    rintro b s2 ⟨h3, h4⟩
    exact ⟨h1.append h3, h4⟩
  | get i =>
    refine Runs.bind_ok (b := s) (s' := s) rfl ?_
    refine Runs.bind (R := fun v s' => s' = s ∧ v.type_id = Γ.unitTy ∧ v.bytes = []) ?_ ?_
    · unfold SliceCopy.get
      split
      · exact Runs.of_panic (M.bind_panic (G.len_panics s)) rfl
      · refine Runs.bind (R := fun b s' => s' = s ∧ b = []) ?_ ?_
        · unfold indexByteSlice
          rw [G.numBytes]
          refine Runs.bind (SUnit.range_runs i s) ?_
          rintro _ s0 ⟨hs0, rfl⟩
          rw [hs0]
          simp only [G.data]
          exact ⟨rfl, rfl⟩
        · rintro b s0 ⟨hs0, rfl⟩
          refine ⟨hs0, ?_, rfl⟩
          show s.elem.type_id = _
          rw [G.elem]; rfl
    · rintro v s0 ⟨hs0, h1, h2⟩
      refine ⟨?_, hs0⟩
      intro r hr
      rw [List.mem_singleton.1 hr, h1, h2]
      exact S.unit
  | getAs t' i =>
    refine Runs.bind_ok (b := s) (s' := s) rfl ?_
    refine Runs.of_panic (M.bind_panic (s' := s) (w := .divZero) ?_) rfl
    unfold SliceCopy.getAs
    exact M.bind_panic (G.len_panics s)
  | iter =>
    refine Runs.bind_ok (b := s) (s' := s) rfl ?_
    refine Runs.of_panic (M.bind_panic (s' := s) (w := .zeroChunk) ?_) rfl
    unfold SliceCopy.iter
    simp [Dync.chunksExact, G.numBytes]
    rfl
  | asSlice t' =>
    refine Runs.bind_ok (b := s) (s' := s) rfl ?_
    by_cases h : t' = s.elem.type_id
    · refine Runs.of_panic (M.bind_panic (s' := s) (w := .divZero) ?_) rfl
      unfold SliceCopy.asSlice SliceCopy.check
      rw [if_neg (by simp [h])]
      exact M.bind_panic (G.len_panics s)
    · refine Runs.bind_ok (b := none) (s' := s) ?_ ⟨Seen.nil, rfl⟩
      simp [SliceCopy.asSlice, SliceCopy.check, h]
  | setAs t' i x =>
    refine Runs.of_panic (M.bind_panic (s' := s) (w := .divZero) ?_) rfl
    unfold SliceCopy.setAs
    rw [M.bind_ok (show (M.get : M (SliceCopy V) _) s = (.ok s, s) from rfl)]
    exact M.bind_panic (G.len_panics s)
  | setValue i t' x =>
    refine Runs.bind (R := fun _ s' => s' = s) ?_ fun _ s' h => ⟨Seen.nil, h⟩
    unfold SliceCopy.getMut
    refine Runs.bind_ok (b := s) (s' := s) rfl ?_
    split
    · exact Runs.of_panic (M.bind_panic (G.len_panics s)) rfl
    · rw [G.numBytes]
      refine Runs.bind (SUnit.range_runs i s) ?_
      rintro _ s0 ⟨hs0, rfl⟩
      rw [hs0]
      simp only [G.data]
      refine Runs.bind_ok (b := []) (s' := s) rfl ?_
      obtain ⟨vt, rfl⟩ : ∃ vt, s = ⟨[], ElemInfo.new Γ Γ.unitTy, vt⟩ := by
        have h1 := G.data
        have h2 := G.elem
        cases s with
        | mk d e vt => exact ⟨vt, by simp_all⟩
      by_cases ht : t' = Γ.unitTy
      · subst ht
        have hx : x = [] := List.eq_nil_of_length_eq_zero (by rw [S.len _ x hok.2, Γ.unit_size])
        subst hx
        refine Runs.of_ok (a := some ()) (s' := ⟨[], ElemInfo.new Γ Γ.unitTy, vt⟩) ?_ rfl
        simp [CopyValue.copy, SliceCopy.valueOf, CopyValue.new, ElemInfo.new, sliceCopyFrom]
        exact ⟨rfl, rfl⟩
      · refine Runs.of_ok (a := none) (s' := ⟨[], ElemInfo.new Γ Γ.unitTy, vt⟩) ?_ rfl
        have ht' : ¬ Γ.unitTy = t' := fun h => ht h.symm
        simp [CopyValue.copy, SliceCopy.valueOf, CopyValue.new, ElemInfo.new, ht', splice]
  | mapAll f =>
    refine Runs.of_panic (M.bind_panic (s' := s) (w := .zeroChunk) ?_) rfl
    simp [M.zoom_run, SliceCopy.iterMut, Dync.chunksExact, G.numBytes]
  | mapAs t' f =>
    refine Runs.of_panic (M.bind_panic (s' := s) (w := .divZero) ?_) rfl
    unfold SliceCopy.asSliceMut
    rw [M.bind_ok (show (M.get : M (SliceCopy V) _) s = (.ok s, s) from rfl)]
    exact M.bind_panic (G.len_panics s)
  | swap i j =>
    refine Runs.bind (R := fun _ s' => s' = s) ?_ fun _ s' h => ⟨Seen.nil, h⟩
    unfold SliceCopy.swap
    refine Runs.bind_ok (b := s) (s' := s) rfl ?_
    rw [G.numBytes, G.data]
    refine Runs.bind (R := fun d s' => s' = s ∧ d = []) ?_ ?_
    · unfold swapBytes
      split
      · exact ⟨rfl, rfl⟩
      · refine Runs.bind (SUnit.range_runs 0 s) ?_
        rintro _ s0 ⟨hs0, rfl⟩
        rw [hs0]
        have half : ∀ a b : Nat, Runs (do
            let (la, lb) ← indexByteRange cfg 0 a
            let m ← umul cfg 0 b
            let (l, r) ← M.lift (sliceSplitAt ([] : Bytes) m)
            let ls ← M.lift (sliceIndex l la lb)
            let rs ← M.lift (sliceIndex r 0 0)
            let (ls', rs') ← M.lift (sliceSwapWith ls rs)
            pure (splice l la ls' ++ splice r 0 rs')) s (fun d s' => s' = s ∧ d = []) (fun s' => s' = s) := by
          intro a b
          refine Runs.bind (SUnit.range_runs a s) ?_
          rintro _ s0 ⟨hs0, rfl⟩
          rw [hs0]
          refine Runs.bind (R := fun n s' => s' = s ∧ n = 0) (Runs.umul (fun _ => ⟨rfl, by simp⟩) (fun h => by simp at h) rfl) ?_
          rintro _ s1 ⟨hs1, rfl⟩
          rw [hs1]
          exact ⟨rfl, rfl⟩
        simp only
        split
        · exact half i j
        · exact half j i
    · rintro d s0 ⟨hs0, rfl⟩
      rw [hs0]
      have := G.data
      show ({ s with data := [] } : SliceCopy V) = s
      cases s
      simp_all
  | rotateLeft n =>
    refine Runs.bind (R := fun _ s' => s' = s) ?_ fun _ s' h => ⟨Seen.nil, h⟩
    unfold SliceCopy.rotateLeft
    refine Runs.bind_ok (b := s) (s' := s) rfl ?_
    rw [G.numBytes, G.data]
    refine Runs.bind (SUnit.umul_zero n s) ?_
    rintro _ s1 ⟨hs1, rfl⟩
    rw [hs1]
    refine Runs.bind_ok (b := []) (s' := s) rfl ?_
    have := G.data
    show ({ s with data := [] } : SliceCopy V) = s
    cases s
    simp_all
  | rotateRight n =>
    refine Runs.bind (R := fun _ s' => s' = s) ?_ fun _ s' h => ⟨Seen.nil, h⟩
    unfold SliceCopy.rotateRight
    refine Runs.bind_ok (b := s) (s' := s) rfl ?_
    rw [G.numBytes, G.data]
    refine Runs.bind (SUnit.umul_zero n s) ?_
    rintro _ s1 ⟨hs1, rfl⟩
    rw [hs1]
    refine Runs.bind_ok (b := []) (s' := s) rfl ?_
    have := G.data
    show ({ s with data := [] } : SliceCopy V) = s
    cases s
    simp_all
  | copyFromSlice t' xs =>
    refine Runs.of_panic (M.bind_panic (s' := s) (w := .divZero) ?_) rfl
    unfold SliceCopy.copyFromSlice SliceCopy.asSliceMut
    rw [M.bind_ok (show (M.get : M (SliceCopy V) _) s = (.ok s, s) from rfl)]
    exact M.bind_panic (G.len_panics s)
  | sub r p ih =>
    have hsame : ({ s with data := [] } : SliceCopy V) = s := by
      have := G.data
      cases s
      simp_all
    have part : ∀ e : Nat, Runs (do
        let d ← M.lift (sliceIndex s.data 0 e)
        (⟨fun s =>
          let out := p.exec Γ cfg ⟨d, s.elem, s.vtable⟩
          (out.1, { s with data := splice s.data 0 out.2.data })⟩ : M (SliceCopy V) (List Read))) s
        (fun rs s' => Seen S rs ∧ s' = s) (fun s' => s' = s) := by
      intro e
      rw [G.data]
      by_cases he : e = 0
      · subst he
        refine Runs.bind_ok (b := []) (s' := s) rfl ?_
        rcases (ih hok.2 G).cases_on with ⟨x, s1, e1, h1, h2⟩ | ⟨y, s1, e1, h1⟩
        · refine Runs.of_ok (a := x) (s' := s) ?_ ⟨h1, rfl⟩
          show (((p.exec Γ cfg) { s with data := [] }).1, ({ s with data := splice s.data 0 ((p.exec Γ cfg) { s with data := [] }).2.data } : SliceCopy V)) = _
          rw [hsame, e1, h2]
          simp only [G.data, splice]
          rw [← hsame]
          rfl
        · refine Runs.of_panic (y := y) (s' := s) ?_ rfl
          show (((p.exec Γ cfg) { s with data := [] }).1, ({ s with data := splice s.data 0 ((p.exec Γ cfg) { s with data := [] }).2.data } : SliceCopy V)) = _
          rw [hsame, e1, h1]
          simp only [G.data, splice]
          rw [← hsame]
          rfl
      · have : sliceIndex ([] : Bytes) 0 e = .panic .index := by
          unfold sliceIndex
          rw [if_neg]
          simp [he]
        rw [this]
        exact Runs.panic rfl
    unfold SProg.exec SliceCopy.subsliceMut
    refine Runs.bind_ok (b := s) (s' := s) rfl ?_
    rw [G.numBytes]
    cases r with
    | range a b =>
      refine Runs.bind (R := fun r' s' => s' = s ∧ r' = .range 0 0) ?_ ?_
      · unfold Rng.scale
        refine Runs.bind (SUnit.umul_zero a s) ?_
        rintro _ s1 ⟨hs1, rfl⟩
        rw [hs1]
        refine Runs.bind (SUnit.umul_zero b s) ?_
        rintro _ s2 ⟨hs2, rfl⟩
        exact ⟨hs2, rfl⟩
      · rintro _ s1 ⟨hs1, rfl⟩
        rw [hs1]
        exact Runs.bind_ok (b := (0, 0)) (s' := s) rfl (part 0)
    | rangeTo b =>
      refine Runs.bind (R := fun r' s' => s' = s ∧ r' = .rangeTo 0) ?_ ?_
      · unfold Rng.scale
        refine Runs.bind (SUnit.umul_zero b s) ?_
        rintro _ s2 ⟨hs2, rfl⟩
        exact ⟨hs2, rfl⟩
      · rintro _ s1 ⟨hs1, rfl⟩
        rw [hs1]
        exact Runs.bind_ok (b := (0, 0)) (s' := s) rfl (part 0)
    | rangeFrom a =>
      refine Runs.bind (R := fun r' s' => s' = s ∧ r' = .rangeFrom 0) ?_ ?_
      · unfold Rng.scale
        refine Runs.bind (SUnit.umul_zero a s) ?_
        rintro _ s2 ⟨hs2, rfl⟩
        exact ⟨hs2, rfl⟩
      · rintro _ s1 ⟨hs1, rfl⟩
        rw [hs1]
        exact Runs.bind_ok (b := (0, s.data.length)) (s' := s) rfl (part _)
    | full =>
      refine Runs.bind_ok (b := .full) (s' := s) rfl ?_
      exact Runs.bind_ok (b := (0, s.data.length)) (s' := s) rfl (part _)
    | inclusive a b =>
      refine Runs.bind (R := fun r' s' => s' = s ∧ r' = .inclusive 0 0) ?_ ?_
      · unfold Rng.scale
        refine Runs.bind (SUnit.umul_zero a s) ?_
        rintro _ s1 ⟨hs1, rfl⟩
        rw [hs1]
        refine Runs.bind (SUnit.umul_zero b s) ?_
        rintro _ s2 ⟨hs2, rfl⟩
        exact ⟨hs2, rfl⟩
      · rintro _ s1 ⟨hs1, rfl⟩
        rw [hs1]
        exact Runs.bind_ok (b := (0, 1)) (s' := s) rfl (part 1)
    | toInclusive b =>
      refine Runs.bind (R := fun r' s' => s' = s ∧ r' = .toInclusive 0) ?_ ?_
      · unfold Rng.scale
        refine Runs.bind (SUnit.umul_zero b s) ?_
        rintro _ s2 ⟨hs2, rfl⟩
        exact ⟨hs2, rfl⟩
      · rintro _ s1 ⟨hs1, rfl⟩
        rw [hs1]
        exact Runs.bind_ok (b := (0, 1)) (s' := s) rfl (part 1)
  | split mid p q ihp ihq =>
    have hsame : ({ s with data := [] } : SliceCopy V) = s := by
      have := G.data
      cases s
      simp_all
    unfold SProg.exec SliceCopy.splitAtMut
    refine Runs.bind_ok (b := s) (s' := s) rfl ?_
    rw [G.numBytes, G.data]
    refine Runs.bind (SUnit.umul_zero mid s) ?_
    rintro _ s1 ⟨hs1, rfl⟩
    rw [hs1]
    refine Runs.bind_ok (b := ([], [])) (s' := s) rfl ?_
    have hr : Runs (do
        let a ← SProg.onFst (p.exec Γ cfg)
        let b ← SProg.onSnd (q.exec Γ cfg)
        pure (a ++ b)) (s, s) (fun rs pr => Seen S rs ∧ pr = (s, s)) (fun pr => pr = (s, s)) := by
      refine Runs.bind (R := fun a pr => Seen S a ∧ pr = (s, s)) ?_ ?_
      · exact Runs.zoom ((ihp hok.2.1 G).mono (fun a s1 h => ⟨h.1, by rw [h.2]⟩) fun s1 h => by rw [h])
      · rintro a pr ⟨h1, h2⟩
        rw [h2]
        refine Runs.bind (R := fun a pr => Seen S a ∧ pr = (s, s)) ?_ ?_
        · exact Runs.zoom ((ihq hok.2.2 G).mono (fun a s1 h => ⟨h.1, by rw [h.2]⟩) fun s1 h => by rw [h])
        · rintro b pr' ⟨h3, h4⟩
          exact ⟨h1.append h3, h4⟩
    rcases hr.cases_on with ⟨x, s1, e1, h1, h2⟩ | ⟨y, s1, e1, h1⟩
    · refine Runs.of_ok (a := x) (s' := s) ?_ ⟨h1, rfl⟩
      simp only [SliceCopy.fromRawParts, hsame, e1, h2, G.data, List.append_nil]
    · refine Runs.of_panic (y := y) (s' := s) ?_ rfl
      simp only [SliceCopy.fromRawParts, hsame, e1, h1, G.data, List.append_nil]
  | chunks k p ih =>
    refine Runs.zoom ?_
    refine Runs.bind (R := fun _ _ => False) ?_ (fun _ _ h => h.elim)
    unfold SliceCopy.chunksExactMut
    refine Runs.bind_ok (b := (s, [])) (s' := (s, [])) rfl ?_
    simp only
    rw [G.numBytes]
    refine Runs.bind (R := fun n p => p = (s, []) ∧ n = 0) (Runs.umul (fun _ => ⟨rfl, by simp⟩) (fun h => by simp at h) rfl) ?_
    rintro _ pr ⟨hp, rfl⟩
    rw [hp]
    exact Runs.of_panic (y := .zeroChunk) (s' := (s, [])) rfl rfl

end Dync
