import Verif.DynMachineLemmas8
import Verif.MachineLemmas7

/-! `append`, and operations on places. -/

namespace Dync

section
variable {U V : Type} {Γ : TyEnv U} {t tb : TyId} {es : List Bytes} {w : World U} {o : Outside U} {cfg : Cfg} {vt : TyId → V}
  {i i' k j : Nat} [HasDrop U V] [HasClone U V] [TableLaw V] {slots : DSlots V} {vars : YVars}

theorem append_step (H : YHolds Γ slots w vars o) :
    InStepY Γ ((DOp.append k j).exec Γ cfg vt (slots, w)) ((DOp.append k j).step Γ cfg (vars, o)) := by
  simp only [DOp.exec, DOp.step, YOp.append]
  by_cases hkj : k = j
  · simp only [if_pos hkj]; exact H.same _
  simp only [if_neg hkj]
  have J := H.var k
  have J' := H.var j
  rcases hk : slots k with _ | a <;> rcases hv : vars k with _ | y <;> rw [hk, hv] at J
  · exact H.same _
  · exact J.elim
  · exact J.elim
  rcases hj : slots j with _ | a' <;> rcases hv' : vars j with _ | y' <;> rw [hj, hv'] at J'
  · cases a <;> cases y <;> (try exact J.elim) <;> (try exact H.same _)
    rename_i x; cases x <;> exact H.same _
  · exact J'.elim
  · exact J'.elim
  cases a with
  | box => cases y <;> try exact J.elim
           cases y' <;> exact H.same _
  | small => cases y <;> try exact J.elim
             cases y' <;> exact H.same _
  | vec c =>
  cases y with
  | box => exact J.elim
  | small => exact J.elim
  | vec tb x =>
  cases a' with
  | box => cases y' <;> try exact J'.elim
           cases x <;> exact H.same _
  | small => cases y' <;> try exact J'.elim
             cases x <;> exact H.same _
  | vec b =>
  cases y' with
  | box => exact J'.elim
  | small => exact J'.elim
  | vec tb' x' =>
  obtain ⟨h1, h2, h3, h4⟩ := J
  obtain ⟨g1, g2, g3, g4⟩ := J'
  obtain ⟨F, W, fill⟩ := H.hole2 (k := k) (j := j) hkj
  rw [hk, hj] at W
  have W : Worlds F (c.data.ptr.toList ++ (b.data.ptr.toList ++ [])) w o := W
  simp only
  have hrefuse : b.data.elem.type_id ≠ c.data.elem.type_id → ∀ q, q = (.ok .refused, (vars, o)) → InStepY Γ
      ((VecCopy.append Γ cfg (c, (⟨w.heap, (b, w.user)⟩ : World (VecCopy V × U)))).1.map Obs.ofUnit,
        (Slots.put (Slots.put slots k (some (.vec (VecCopy.append Γ cfg (c, (⟨w.heap, (b, w.user)⟩ : World (VecCopy V × U)))).2.1))) j
          (some (.vec (VecCopy.append Γ cfg (c, (⟨w.heap, (b, w.user)⟩ : World (VecCopy V × U)))).2.2.user.1)),
        ⟨(VecCopy.append Γ cfg (c, (⟨w.heap, (b, w.user)⟩ : World (VecCopy V × U)))).2.2.heap,
          (VecCopy.append Γ cfg (c, (⟨w.heap, (b, w.user)⟩ : World (VecCopy V × U)))).2.2.user.2⟩)) q := by
    rintro hne q rfl
    have hne' : ¬ b.elementTypeId = c.elementTypeId := hne
    have hrun : VecCopy.append Γ cfg (c, (⟨w.heap, (b, w.user)⟩ : World (VecCopy V × U))) =
        (.ok none, (c, ⟨w.heap, (b, w.user)⟩)) := by
      simp only [VecCopy.append, M.bind_run, getSelf_run, M.get_run, if_neg hne', M.pure_run]
    simp only [hrun]
    have e1 : Slots.put slots k (some (.vec c)) = slots := by rw [← hk]; exact Slots.put_self _ _
    rw [e1, ← hj, Slots.put_self]
    exact H.same _
  have hdone : b.data.elem.type_id = c.data.elem.type_id → ∀ (d d' : VecVoid) (h' : Heap) (r : Res Unit) (z : Res Obs) (x1 x2 : XVec) (o' : Outside U),
      VecVoid.append Γ cfg (c.data, (⟨w.heap, (b.data, w.user)⟩ : World (VecVoid × U))) = (r, (d, ⟨h', (d', w.user)⟩)) →
      (r = .ok () ∧ z = .ok .done ∨ (∃ y, r = .panic y) ∧ ∃ y, z = .panic y) →
      Worlds F (d.ptr.toList ++ (d'.ptr.toList ++ [])) { w with heap := h' } o' → x1.Is Γ h' d → x2.Is Γ h' d' →
      (∀ t es cap, x1 = .vec t es cap → t = tb) → (∀ t es cap, x2 = .vec t es cap → t = tb') →
      InStepY Γ
      ((VecCopy.append Γ cfg (c, (⟨w.heap, (b, w.user)⟩ : World (VecCopy V × U)))).1.map Obs.ofUnit,
        (Slots.put (Slots.put slots k (some (.vec (VecCopy.append Γ cfg (c, (⟨w.heap, (b, w.user)⟩ : World (VecCopy V × U)))).2.1))) j
          (some (.vec (VecCopy.append Γ cfg (c, (⟨w.heap, (b, w.user)⟩ : World (VecCopy V × U)))).2.2.user.1)),
        ⟨(VecCopy.append Γ cfg (c, (⟨w.heap, (b, w.user)⟩ : World (VecCopy V × U)))).2.2.heap,
          (VecCopy.append Γ cfg (c, (⟨w.heap, (b, w.user)⟩ : World (VecCopy V × U)))).2.2.user.2⟩))
      (z, (Slots.put (Slots.put vars k (some (.vec tb x1))) j (some (.vec tb' x2)), o')) := by
    intro he d d' h' r z x1 x2 o' hr hz W' i1 i2 t1 t2
    have he' : b.elementTypeId = c.elementTypeId := he
    have hrun : VecCopy.append Γ cfg (c, (⟨w.heap, (b, w.user)⟩ : World (VecCopy V × U))) =
        (r.map some, (⟨d, c.vtable⟩, ⟨h', (⟨d', b.vtable⟩, w.user)⟩)) := by
      simp only [VecCopy.append, M.bind_run, getSelf_run, M.get_run, if_pos he', M.zoom_run, hr]
      cases r <;> simp [Res.map]
    have hY := fill (some (.vec ⟨d, c.vtable⟩)) (some (.vec ⟨d', b.vtable⟩)) (some (.vec tb x1)) (some (.vec tb' x2)) { w with heap := h' } o' W'
      ⟨i1, h2, h3, t1⟩ ⟨i2, g2, g3, t2⟩
    simp only [hrun]
    rcases hz with ⟨rfl, rfl⟩ | ⟨⟨y, rfl⟩, y', rfl⟩
    · exact .ok ⟨rfl, hY⟩
    · exact .panic hY
  cases x with
  | unit n =>
    have u : IsUnits Γ n c.data := h1
    cases x' with
    | unit n' =>
      have u' : IsUnits Γ n' b.data := g1
      obtain ⟨z, hz⟩ := u.append (cfg := cfg) (h := w.heap) u' w.user
      have W' := W
      rw [u.ptr, u'.ptr] at W'
      exact hdone (by rw [u.type_id, u'.type_id]) _ _ _ _ _ _ _ o hz (.inr ⟨⟨_, rfl⟩, _, rfl⟩) W' (IsUnits.default Γ) (IsUnits.default Γ)
        (fun _ _ _ e => by cases e) (fun _ _ _ e => by cases e)
    | vec t' es' cap' =>
      refine hrefuse ?_ _ rfl
      rw [u.type_id, g1.1.type_id]
      intro e
      have := g1.1.pos
      rw [e, Γ.unit_size] at this
      omega
  | vec t es cap =>
    cases h4 t es cap rfl
    cases x' with
    | unit n' =>
      have u' : IsUnits Γ n' b.data := g1
      refine hrefuse ?_ _ rfl
      rw [u'.type_id, h1.1.type_id]
      intro e
      rw [← e, Γ.unit_size] at h3
      omega
    | vec t' es' cap' =>
      cases g4 t' es' cap' rfl
      obtain ⟨R, rfl⟩ := h1
      obtain ⟨Ro, rfl⟩ := g1
      simp only
      by_cases ht : tb = tb'
      swap
      · rw [if_neg ht]
        exact hrefuse (by rw [R.type_id, Ro.type_id]; exact fun e => ht e.symm) _ rfl
      subst ht
      rw [if_pos rfl]
      have he : b.data.elem.type_id = c.data.elem.type_id := by rw [R.type_id, Ro.type_id]
      have hlen : es'.length * perElem Γ tb = b.data.len * c.data.elem.size := by rw [← R.perElem_eq, Ro.len]
      rw [hlen]
      have hs := R.chunk_pos
      have hcat : ∀ e ∈ es ++ es', e.length = Γ.size tb := by
        intro e he
        rcases List.mem_append.1 he with h1 | h1
        · exact R.each e h1
        · exact Ro.each e h1
      have hne : c.data.ptr ≠ b.data.ptr := by
        intro e
        obtain ⟨i, hi, -⟩ := R.block
        exact hkj (H.inj k j (.vec c) (.vec b) i hk hj hi (show b.data.ptr = some i from e ▸ hi))
      -- the block of the first container is exchanged
      have hmove : ∀ {h1 : Heap} {q : Ptr}, Realloc w.heap c.data.ptr h1 q → (∀ i, q = some i → h1.live i ≠ none) →
          Worlds F (q.toList ++ (b.data.ptr.toList ++ [])) { w with heap := h1 } o ∧
          Repr Γ h1 tb [] ⟨b.data.ptr, 0, b.data.cap, b.data.elem, []⟩ := by
        intro h1 q re hq
        have W2 := W.rotate
        have W3 := W2.toFrame.move re hq
        obtain ⟨W4, h5⟩ := W3.ofFrame W2.blocks.free_of
        exact ⟨W4.rotate, Ro.emptied.frame h5⟩
      rcases Repr.room_cases (w := (⟨w.heap, (b.data.chunkView, w.user)⟩ : World (RVec × U))) R H.wf (b.data.len * c.data.elem.size)
        with ⟨hg, hr, hle⟩ | ⟨C, i, h1, hg, hr, re, hl, hcc, hle, hroom⟩ | ⟨hg, z, hr⟩ | ⟨hg, C, i, h1, hr, re, hl, hcc, hmod⟩
      · rw [hg]
        have hfit : es.length + es'.length ≤ c.data.cap := by
          rw [Ro.len, ← Nat.add_mul] at hle
          exact Nat.le_of_mul_le_mul_right hle hs
        have R' := R.setContent (es' := es ++ es') (by simpa using hfit) hcat
        refine hdone he ⟨c.data.ptr, (es ++ es').length, c.data.cap, c.data.elem, (es ++ es').flatten⟩
          ⟨b.data.ptr, 0, b.data.cap, b.data.elem, []⟩ w.heap (.ok ())
          (.ok .done) (.vec tb (es ++ es') c.data.cap) (.vec tb [] b.data.cap) o ?_ (.inl ⟨rfl, rfl⟩) W ⟨R', rfl⟩
          ⟨Ro.emptied, rfl⟩ (fun _ _ _ e => by cases e; rfl) (fun _ _ _ e => by cases e; rfl)
        rw [append_inner Ro R, applyAligned_ok (n := (es ++ es').length) (c := c.data.cap) R (append_room R Ro hr) ?_ rfl R.cap_pos]
        · simp [VecVoid.chunkView, R.mem, Ro.mem]
        · show c.data.len * _ + _ = _
          rw [← Nat.add_mul, List.length_append, R.len, Ro.len]
      · rw [hg]
        have hfit : (es ++ es').length ≤ C := by
          rw [Ro.len, ← Nat.add_mul] at hle
          rw [List.length_append]
          exact Nat.le_of_mul_le_mul_right hle hs
        have hCpos : 0 < C := Nat.lt_of_lt_of_le R.cap_pos hcc
        have R' := R.regrow hcat hfit hCpos hl hroom
        obtain ⟨W', hRb⟩ := hmove re (fun _ e => by cases e; rw [hl]; simp)
        refine hdone he ⟨some i, (es ++ es').length, C, c.data.elem, (es ++ es').flatten⟩
          ⟨b.data.ptr, 0, b.data.cap, b.data.elem, []⟩ h1 (.ok ())
          (.ok .done) (.vec tb (es ++ es') C) (.vec tb [] b.data.cap) o ?_ (.inl ⟨rfl, rfl⟩) W' ⟨R', rfl⟩ ⟨hRb, rfl⟩
          (fun _ _ _ e => by cases e; rfl) (fun _ _ _ e => by cases e; rfl)
        rw [append_inner Ro R, applyAligned_ok (n := (es ++ es').length) (c := C) R (append_room R Ro hr) ?_ rfl hCpos]
        · simp [R.mem, Ro.mem]
        · show c.data.len * _ + _ = _
          rw [← Nat.add_mul, List.length_append, R.len, Ro.len]
      · rw [hg]
        obtain ⟨i, i', hi, hi', hrun⟩ := append_full (cfg := cfg) R Ro hne hr
        refine hdone he _ _ _ _ _ (.unit 0) (.unit 0) o hrun (.inr ⟨⟨_, rfl⟩, _, rfl⟩) ?_ (IsUnits.default Γ) (IsUnits.default Γ)
          (fun _ _ _ e => by cases e) (fun _ _ _ e => by cases e)
        have W2 := W.rotate.move (realloc_free H.wf hi') (fun _ e => by cases e)
        simp only [Option.toList_none, List.nil_append] at W2
        have W3 := W2.move (realloc_free W2.wf hi) (fun _ e => by cases e)
        exact W3
      · rw [hg]
        obtain ⟨W', hRb⟩ := hmove re (fun _ e => by cases e; exact hl)
        refine hdone he (VecVoid.default Γ) ⟨b.data.ptr, 0, b.data.cap, b.data.elem, []⟩ h1 (.panic .assertion) (.panic .capacity) (.unit 0) (.vec tb [] b.data.cap) _ ?_ (.inr ⟨⟨_, rfl⟩, _, rfl⟩)
          W'.leak (IsUnits.default Γ) ⟨hRb, rfl⟩ (fun _ _ _ e => by cases e) (fun _ _ _ e => by cases e; rfl)
        rw [append_inner Ro R, applyAligned_badCap R (append_room R Ro hr) hcc ?_ hmod]
        show (c.data.len * _ + _) % _ = 0
        rw [← Nat.add_mul, Nat.mul_mod_left]

end
end Dync
