import Verif.HistoryLemmas
/-!
# Every operation of a program agrees with its specification
-/
namespace Dync
variable {U V : Type} {Γ : TyEnv U} {N : Nat} {slots : Slots V} {s s' : Op.VState} {cfg : Cfg} {vt : V}
  {w : World U} {o : Obs}

private theorem unchanged {t : TyId} {es : List Bytes} {c : VecCopy V} {m : M (VecCopy V × World U) Obs}
    (R : Repr Γ w.heap t es c.data) (wf : w.heap.WF) (hm : m (c, w) = (.ok o, (c, w))) :
    ∃ d h' n, m (c, w) = (.ok o, ({ c with data := d }, { w with heap := h' })) ∧
        Evolves Γ t n es w.heap c.data h' d ∧ n ≤ N :=
  ⟨c.data, w.heap, 0, hm, Evolves.refl R wf, Nat.zero_le _⟩

theorem step_ok (op : Op) (I : HInv Γ N slots w.heap s) (hwt : op.WellTyped Γ) (hsup : op.Supported Γ N s)
    (hspec : op.spec Γ s = some (o, s')) : op.StepOk Γ cfg vt N slots w o s' := by
  have wf := I.wf
  cases op with
  | withType k t =>
    cases hspec
    obtain ⟨c, h', hrun, R, hvt, hre, hcap⟩ := VecCopy.withType_ok (vt := vt) wf hwt.1
    obtain ⟨h'', hrun2, I'⟩ := I.assign (cfg := cfg) R hre (by omega) hsup k
    exact ⟨_, h'', by simp only [Op.exec, M.bind_run, onWorld, M.zoom_run, hrun, hrun2, M.pure_run], I'⟩
  | withCapacity k t n =>
    cases hspec
    obtain ⟨hn, hroom⟩ := hsup
    obtain ⟨c, h', hrun, R, hvt, hre, hcap⟩ := VecCopy.withCapacity_ok (vt := vt) (n := n) wf hwt.1 (hroom.mono (by omega))
    obtain ⟨h'', hrun2, I'⟩ := I.assign (cfg := cfg) R hre (by omega) hroom k
    exact ⟨_, h'', by simp only [Op.exec, M.bind_run, onWorld, M.zoom_run, hrun, hrun2, M.pure_run], I'⟩
  | fromSlice k t xs =>
    cases hspec
    obtain ⟨hn, hroom⟩ := hsup
    obtain ⟨c, h', hrun, R, hvt, hre, hcap⟩ := VecCopy.fromSlice_ok (vt := vt) wf hwt.1.1 hwt.2 (hroom.mono (by omega))
    obtain ⟨h'', hrun2, I'⟩ := I.assign (cfg := cfg) R hre (by omega) hroom k
    exact ⟨_, h'', by simp only [Op.exec, M.bind_run, onWorld, M.zoom_run, hrun, hrun2, M.pure_run], I'⟩
  | drop k =>
    simp only [Op.spec] at hspec
    cases hs : s k with
    | none =>
      rw [hs] at hspec; cases hspec
      exact ⟨slots, w.heap, by simp only [Op.exec, Op.takeSlot, (I.none_iff k).2 hs], I⟩
    | some p =>
      rw [hs] at hspec; cases hspec
      obtain ⟨c, hc, R, -, -⟩ := I.lookup (t := p.1) (es := p.2) hs
      obtain ⟨i, hp, hrun⟩ := VecVoid.drop_spec (cfg := cfg) (w := w) R
      refine ⟨_, w.heap.free i, ?_, I.remove hc hp⟩
      have : VecCopy.drop cfg c w = (.ok (), { w with heap := w.heap.free i }) := hrun
      simp only [Op.exec, Op.takeSlot, hc, M.bind_run, onWorld, M.zoom_run, this, M.pure_run]
  | clone k j =>
    simp only [Op.spec] at hspec
    cases hs : s k with
    | none =>
      rw [hs] at hspec; cases hspec
      exact ⟨slots, w.heap, by simp only [Op.exec, (I.none_iff k).2 hs], I⟩
    | some p =>
      rw [hs] at hspec; cases hspec
      obtain ⟨c, hc, R, hcap, hroom⟩ := I.lookup (t := p.1) (es := p.2) hs
      have hrun := VecVoid.clone_spec (cfg := cfg) (w := w) R
      have hz : (⟨c.data.cap * Γ.size p.1, Γ.align p.1⟩ : Layout).size ≠ 0 :=
        Nat.mul_ne_zero (by have := R.cap_pos; omega) (by have := R.pos; omega)
      have hal := Heap.alloc_live (h := w.heap) hz
      have hre := Realloc.ofAlloc wf ⟨c.data.cap * Γ.size p.1, Γ.align p.1⟩
      rw [hal.1] at hre
      have R' : Repr Γ (w.heap.alloc ⟨c.data.cap * Γ.size p.1, Γ.align p.1⟩).2 p.1 p.2
          ⟨some w.heap.next, c.data.len, c.data.cap, c.data.elem, c.data.mem⟩ :=
        ⟨R.type_id, R.chunks, R.align, R.pos, R.mem, R.each, R.len, R.len_le, R.cap_pos, R.room, _, rfl, hal.2⟩
      obtain ⟨h'', hrun2, I'⟩ := I.assign (cfg := cfg)
        (c := ⟨⟨some w.heap.next, c.data.len, c.data.cap, c.data.elem, c.data.mem⟩, c.vtable⟩) R' hre hcap hroom j
      exact ⟨_, h'', by
        simp only [Op.exec, hc, VecCopy.clone, M.bind_run, onWorld, M.zoom_run, hrun, hrun2, M.pure_run], I'⟩
  | append k j =>
    simp only [Op.spec] at hspec
    by_cases hkj : k = j
    · rw [if_pos hkj] at hspec; cases hspec
      exact ⟨slots, w.heap, by simp only [Op.exec, if_pos hkj], I⟩
    · rw [if_neg hkj] at hspec
      cases hs : s k with
      | none =>
        rw [hs] at hspec; cases hspec
        exact ⟨slots, w.heap, by simp only [Op.exec, if_neg hkj, (I.none_iff k).2 hs], I⟩
      | some p =>
        obtain ⟨t, es⟩ := p
        obtain ⟨c, hc, R, hcap, hroom⟩ := I.lookup hs
        cases hs' : s j with
        | none =>
          rw [hs, hs'] at hspec; cases hspec
          exact ⟨slots, w.heap, by simp only [Op.exec, if_neg hkj, hc, (I.none_iff j).2 hs'], I⟩
        | some q =>
          obtain ⟨t', es'⟩ := q
          obtain ⟨b, hb, Rb, hcapb, hroomb⟩ := I.lookup hs'
          rw [hs, hs'] at hspec
          simp only at hspec
          by_cases ht : t = t'
          · subst ht
            rw [if_pos rfl] at hspec; cases hspec
            obtain ⟨hn, hodd⟩ := hsup t es t es' hs hs' rfl
            obtain ⟨d, h', hrun, hev⟩ := VecCopy.append_ok (cfg := cfg) (c := c)
              (w := (⟨w.heap, (b, w.user)⟩ : World (VecCopy V × U))) (Γ := Γ) R Rb wf (hroom.mono (by omega))
              (fun hbad => hodd ⟨hbad.1, hbad.2.1, hbad.2.2.2⟩)
            have I1 := I.evolve hc hs hev hn
            have hb1 : Slots.put slots k (some { c with data := d }) j = some b := by
              rw [Slots.put_other _ _ (Ne.symm hkj)]; exact hb
            have hs1 : Slots.put s k (some (t, es ++ es')) j = some (t, es') := by
              rw [Slots.put_other _ _ (Ne.symm hkj)]; exact hs'
            have Rb1 := (I1.repr j b t es' hb1 hs1).1
            have hev2 : Evolves Γ t 0 [] h' b.data h' ⟨b.data.ptr, 0, b.data.cap, b.data.elem, []⟩ :=
              Evolves.setContent Rb1 I1.wf (by simp) (by simp) rfl rfl rfl
            have I2 := I1.evolve hb1 hs1 hev2 (Nat.zero_le _)
            refine ⟨_, h', ?_, I2⟩
            simp only [Op.exec, if_neg hkj, hc, hb, hrun, Res.map, Obs.ofUnit]
          · rw [if_neg ht] at hspec; cases hspec
            have hne : ¬ b.elementTypeId = c.elementTypeId := by
              simp [VecCopy.elementTypeId, R.type_id, Rb.type_id, Ne.symm ht]
            have hrun : VecCopy.append Γ cfg (c, (⟨w.heap, (b, w.user)⟩ : World (VecCopy V × U))) =
                (.ok none, (c, ⟨w.heap, (b, w.user)⟩)) := by
              simp only [VecCopy.append, M.bind_run, getSelf_run, M.get_run, if_neg hne, M.pure_run]
            refine ⟨slots, w.heap, ?_, I⟩
            simp only [Op.exec, if_neg hkj, hc, hb, hrun, Res.map, Obs.ofUnit]
            have e1 : Slots.put slots k (some c) = slots := by rw [← hc]; exact Slots.put_self _ _
            rw [e1, ← hb, Slots.put_self]
  | roundTrip k t =>
    simp only [Op.spec] at hspec
    cases hs : s k with
    | none =>
      rw [hs] at hspec; cases hspec
      exact ⟨slots, w.heap, by simp only [Op.exec, Op.takeSlot, (I.none_iff k).2 hs], I⟩
    | some p =>
      obtain ⟨t', es⟩ := p
      rw [hs] at hspec
      simp only at hspec
      obtain ⟨c, hc, R, hcap, hroom⟩ := I.lookup hs
      by_cases ht : t' = t
      · subst ht
        rw [if_pos rfl] at hspec; cases hspec
        have hck : VecCopy.check (U := U) cfg t' c = pure (some c) := by
          simp [VecCopy.check, VecCopy.elementTypeId, R.type_id]
        have hinto : VecCopy.intoVec Γ cfg t' c w = (.ok (some c.data.typedView), w) := by
          simp only [VecCopy.intoVec, hck, M.bind_run, M.pure_run, R.intoVec]
        obtain ⟨p, n, h', hrun, hR, hre, hsame, -⟩ := VecCopy.fromVec_ok (vt := vt) R.isVec wf R.pos
        obtain ⟨hp, hn, hh⟩ := hsame R.cap_pos
        subst hh
        have hev : Evolves Γ t' 0 es w.heap c.data w.heap ⟨p, c.data.typedView.len, n, ElemInfo.new Γ t', c.data.typedView.bytes⟩ := by
          refine ⟨hR, hre, ?_, ?_, fun _ => ⟨hp, hn, rfl⟩⟩
          · show c.data.cap ≤ n; rw [hn]; exact Nat.le_refl _
          · show n ≤ _; rw [hn]; exact Nat.le_max_left _ _
        refine ⟨Slots.put slots k (some ⟨⟨p, c.data.typedView.len, n, ElemInfo.new Γ t', c.data.typedView.bytes⟩, vt⟩),
          w.heap, ?_, ?_⟩
        · simp only [Op.exec, Op.takeSlot, hc, M.bind_run, onWorld, M.zoom_run, hinto, hrun, Op.assign, M.get_run,
            Slots.put_same, M.modify_run, Slots.put_put, M.pure_run]
        · exact I.evolve' vt hc hs hev (Nat.zero_le _)
      · rw [if_neg ht] at hspec; cases hspec
        obtain ⟨i, hp, hrun⟩ := VecVoid.drop_spec (cfg := cfg) (w := w) R
        have hdr : VecCopy.drop cfg c w = (.ok (), { w with heap := w.heap.free i }) := hrun
        have hck : t ≠ c.elementTypeId := by rw [VecCopy.elementTypeId, R.type_id]; exact Ne.symm ht
        have hinto : VecCopy.intoVec Γ cfg t c w = (.ok none, { w with heap := w.heap.free i }) := by
          simp only [VecCopy.intoVec, VecCopy.check, if_pos hck, M.bind_run, hdr, M.pure_run]
        refine ⟨_, w.heap.free i, ?_, I.remove hc hp⟩
        simp only [Op.exec, Op.takeSlot, hc, M.bind_run, onWorld, M.zoom_run, hinto, M.pure_run]
  | pushAs k t x =>
    refine onSlot_step I hspec ?_
    intro c t' es es' hc hs hf R hcap hroom
    by_cases ht : t = t'
    · subst ht
      rw [if_pos rfl] at hf; cases hf
      have hn := hsup es hs
      obtain ⟨d, h', hrun, hev⟩ := VecCopy.pushAs_ok (cfg := cfg) R wf hwt.2 (hroom.mono (by omega))
      exact ⟨d, h', _, by simp only [M.bind_run, hrun, M.pure_run, Obs.ofUnit], hev, hn⟩
    · rw [if_neg ht] at hf; cases hf
      refine unchanged R wf ?_
      simp only [VecCopy.pushAs, M.bind_run, getSelf_run, VecCopy.checkRef_none R ht, onWorld, worldUser, M.zoom_run,
        hwt.1.2 x w.user, M.pure_run, Obs.ofUnit]
  | push k t x =>
    refine onSlot_step I hspec ?_
    intro c t' es es' hc hs hf R hcap hroom
    by_cases ht : t = t'
    · subst ht
      rw [if_pos rfl] at hf; cases hf
      obtain ⟨hn, hsa⟩ := hsup es hs
      obtain ⟨d, h', hrun, hev⟩ := VecCopy.push_ok (cfg := cfg) (v := CopyValue.new Γ t vt x) R wf hsa rfl hwt.2
        (hroom.mono (by omega))
      exact ⟨d, h', _, by simp only [M.bind_run, hrun, M.pure_run, Obs.ofUnit], hev, hn⟩
    · rw [if_neg ht] at hf
      by_cases hsz : Γ.size t = Γ.size t'
      · rw [if_pos hsz] at hf; cases hf
        refine unchanged R wf ?_
        have := VecCopy.push_mismatch (cfg := cfg) (v := CopyValue.new Γ t vt x) R ht (hwt.2.trans hsz)
        simp only [M.bind_run, this, M.pure_run, Obs.ofUnit]
      · rw [if_neg hsz] at hf; cases hf
  | resize k t n x =>
    refine onSlot_step I hspec ?_
    intro c t' es es' hc hs hf R hcap hroom
    by_cases ht : t = t'
    · subst ht
      rw [if_pos rfl] at hf; cases hf
      obtain ⟨hn, hodd⟩ := hsup es hs
      by_cases hle : es.length ≤ n
      · obtain ⟨d, h', hrun, hev⟩ := VecCopy.resize_grow (cfg := cfg) R wf hwt.2 hle (hroom.mono (by omega))
          (fun hb => hodd ⟨hb.1, hb.2.1, hb.2.2.2⟩)
        rw [List.take_of_length_le hle]
        exact ⟨d, h', _, by simp only [M.bind_run, hrun, M.pure_run, Obs.ofUnit], hev, hn⟩
      · obtain ⟨d, hrun, hev⟩ := VecCopy.resize_shrink (cfg := cfg) (x := x) R wf (show n < es.length by omega)
        rw [show n - es.length = 0 by omega, List.replicate_zero, List.append_nil]
        exact ⟨d, w.heap, 0, by simp only [M.bind_run, hrun, M.pure_run, Obs.ofUnit], hev, Nat.zero_le _⟩
    · rw [if_neg ht] at hf; cases hf
      refine unchanged R wf ?_
      simp only [VecCopy.resize, M.bind_run, getSelf_run, VecCopy.checkRef_none R ht, M.pure_run, Obs.ofUnit]
  | reserve k n =>
    refine onSlot_step (f := fun _ es => some (.done, es)) I hspec ?_
    intro c t es es' hc hs hf R hcap hroom
    cases hf
    obtain ⟨hn, hodd⟩ := hsup t es hs
    obtain ⟨d, h', hrun, hev, -⟩ := VecCopy.reserve_ok (cfg := cfg) R wf (hroom.mono (by omega))
      (fun hb => hodd ⟨hb.1, hb.2.1, hb.2.2.2⟩)
    exact ⟨d, h', _, by simp only [M.bind_run, hrun, M.pure_run], hev, hn⟩
  | clear k =>
    refine onSlot_step (f := fun _ _ => some (.done, [])) I hspec ?_
    intro c t es es' hc hs hf R hcap hroom
    cases hf
    have hrun := VecCopy.clear_ok (cfg := cfg) R
    exact ⟨_, w.heap, 0, by simp only [M.bind_run, hrun, M.pure_run]; rfl,
      Evolves.setContent R wf (by simp) (by simp) rfl rfl rfl, Nat.zero_le _⟩
  | fill k t x =>
    refine onSlot_step I hspec ?_
    intro c t' es es' hc hs hf R hcap hroom
    by_cases ht : t = t'
    · subst ht
      rw [if_pos rfl] at hf; cases hf
      obtain ⟨d, hrun, hev⟩ := VecCopy.fill_ok R wf hwt.2
      exact ⟨d, w.heap, 0, by simp only [M.bind_run, hrun, M.pure_run, Obs.ofUnit], hev, Nat.zero_le _⟩
    · rw [if_neg ht] at hf; cases hf
      refine unchanged R wf ?_
      simp only [VecCopy.fill, VecCopy.asMutSliceAs, M.bind_run, getSelf_run, VecCopy.checkRef_none R ht, M.pure_run,
        Obs.ofUnit]
  | copyFromSlice k t xs =>
    refine onSlot_step I hspec ?_
    intro c t' es es' hc hs hf R hcap hroom
    by_cases ht : t = t'
    · subst ht
      rw [if_pos rfl] at hf
      by_cases hl : xs.length = es.length
      · rw [if_pos hl] at hf; cases hf
        obtain ⟨d, hrun, hev⟩ := VecCopy.asMutSlice_ok (m := SliceCopy.copyFromSlice Γ cfg t xs) (r := .ok (some ())) R wf hwt.2 hl
          (fun s S _ => by rw [S.copyFromSlice hwt.2 hl]; exact ⟨rfl, rfl⟩)
        exact ⟨d, w.heap, 0, by simp only [VecCopy.copyFromSlice, M.bind_run, hrun, M.pure_run, Obs.ofUnit], hev, Nat.zero_le _⟩
      · rw [if_neg hl] at hf; cases hf
    · rw [if_neg ht] at hf; cases hf
      obtain ⟨d, hrun, hev⟩ := VecCopy.asMutSlice_ok (m := SliceCopy.copyFromSlice Γ cfg t xs) (r := .ok none) R wf R.each rfl
          (fun s S _ => by
            rw [SliceCopy.copyFromSlice, S.asSliceMut_mismatch ht]; exact ⟨rfl, S.data⟩)
      exact ⟨d, w.heap, 0, by simp only [VecCopy.copyFromSlice, M.bind_run, hrun, M.pure_run, Obs.ofUnit], hev, Nat.zero_le _⟩
  | rotateLeft k n =>
    refine onSlot_step I hspec ?_
    intro c t es es' hc hs hf R hcap hroom
    by_cases hn : n ≤ es.length
    · simp only [if_pos hn] at hf; cases hf
      obtain ⟨d, hrun, hev⟩ := VecCopy.rotateLeft_ok (cfg := cfg) R wf hn (hsup t es hs)
      exact ⟨d, w.heap, 0, by simp only [M.bind_run, hrun, M.pure_run], hev, Nat.zero_le _⟩
    · simp only [if_neg hn] at hf; cases hf
  | rotateRight k n =>
    refine onSlot_step I hspec ?_
    intro c t es es' hc hs hf R hcap hroom
    by_cases hn : n ≤ es.length
    · simp only [if_pos hn] at hf; cases hf
      obtain ⟨d, hrun, hev⟩ := VecCopy.rotateRight_ok (cfg := cfg) R wf hn (hsup t es hs)
      exact ⟨d, w.heap, 0, by simp only [M.bind_run, hrun, M.pure_run], hev, Nat.zero_le _⟩
    · simp only [if_neg hn] at hf; cases hf
  | swap k i j =>
    refine onSlot_step I hspec ?_
    intro c t es es' hc hs hf R hcap hroom
    by_cases hij : i < es.length ∧ j < es.length
    · simp only [dif_pos hij] at hf; cases hf
      obtain ⟨d, hrun, hev⟩ := VecCopy.asMutSlice_ok (m := SliceCopy.swap cfg i j) (r := .ok ())
        (es' := (es.set i (es[j]'hij.2)).set j (es[i]'hij.1)) R wf (by
          intro e he
          rcases List.mem_or_eq_of_mem_set he with he | rfl
          · rcases List.mem_or_eq_of_mem_set he with he | rfl
            · exact R.each e he
            · exact R.each _ (List.getElem_mem hij.2)
          · exact R.each _ (List.getElem_mem hij.1)) (by simp)
          (fun s S _ => by rw [S.swap hij.1 hij.2]; exact ⟨rfl, rfl⟩)
      exact ⟨d, w.heap, 0, by simp only [VecCopy.swap, M.bind_run, hrun, M.pure_run], hev, Nat.zero_le _⟩
    · simp only [dif_neg hij] at hf; cases hf
  | setAs k t i x =>
    refine onSlot_step I hspec ?_
    intro c t' es es' hc hs hf R hcap hroom
    by_cases hi : i < es.length
    · simp only [if_pos hi] at hf
      by_cases ht : t = t'
      · subst ht
        rw [if_pos rfl] at hf; cases hf
        obtain ⟨d, hrun, hev⟩ := VecCopy.getMutAs_ok (r := .ok ()) (w' := w) (m := M.modify fun s => (x, s.2)) R wf hi rfl hwt.2
        exact ⟨d, w.heap, 0, by simp only [M.bind_run, hrun, Res.map, M.pure_run, Obs.ofUnit], hev, Nat.zero_le _⟩
      · rw [if_neg ht] at hf; cases hf
        refine unchanged R wf ?_
        have hb : (decide (i < c.len)) = true := by
          simp only [VecCopy.len, R.len]; exact decide_eq_true hi
        simp only [VecCopy.getMutAs, M.bind_run, getSelf_run, hb, M.assert_true_run, VecCopy.checkRef_none R ht, M.pure_run,
          Obs.ofUnit]
    · simp only [if_neg hi] at hf; cases hf
  | setValue k i t x =>
    refine onSlot_step I hspec ?_
    intro c t' es es' hc hs hf R hcap hroom
    by_cases hi : i < es.length
    · simp only [if_pos hi] at hf
      have hl := R.each _ (List.getElem_mem hi)
      by_cases ht : t = t'
      · subst ht
        rw [if_pos rfl] at hf; cases hf
        obtain ⟨d, hrun, hev⟩ := VecCopy.getMut_ok (cfg := cfg) (r := .ok (some ())) (w' := w)
          (x := ⟨x, t, Γ.align t, c.vtable⟩)
          (m := M.zoom Prod.fst (fun v s => (v, s.2)) (do
            let self ← M.get
            CopyValue.copy (CopyValue.new Γ t self.vtable x))) R wf hi (by
              simp [CopyValue.copy, CopyValue.new, sliceCopyFrom, hl, hwt.2]; exact ⟨rfl, rfl⟩) hwt.2
        exact ⟨d, w.heap, 0, by simp only [M.bind_run, hrun, M.pure_run, Obs.ofUnit], hev, Nat.zero_le _⟩
      · rw [if_neg ht] at hf; cases hf
        obtain ⟨d, hrun, hev⟩ := VecCopy.getMut_ok (cfg := cfg) (r := .ok none) (w' := w)
          (x := ⟨es[i], t', Γ.align t', c.vtable⟩)
          (m := M.zoom Prod.fst (fun v s => (v, s.2)) (do
            let self ← M.get
            CopyValue.copy (CopyValue.new Γ t self.vtable x))) R wf hi (by
              simp [CopyValue.copy, CopyValue.new, Ne.symm ht]) hl
        rw [List.set_getElem_self] at hev
        exact ⟨d, w.heap, 0, by simp only [M.bind_run, hrun, M.pure_run, Obs.ofUnit], hev, Nat.zero_le _⟩
    · simp only [if_neg hi] at hf; cases hf
  | mapAll k f =>
    refine onSlot_step (f := fun _ es => some (.done, es.map f)) I hspec ?_
    intro c t es es' hc hs hf R hcap hroom
    cases hf
    obtain ⟨d, hrun, hev⟩ := VecCopy.iterMut_ok (body := M.modify fun s => ({ s.1 with bytes := f s.1.bytes }, s.2))
      (g := M.modify fun s => (f s.1, s.2)) R wf (fun e w he => (hwt e).trans he) (fun e w _ => rfl)
    rw [visitMut_pure] at hrun hev
    exact ⟨d, w.heap, 0, by simp only [M.bind_run, hrun, M.pure_run], hev, Nat.zero_le _⟩
  | len k =>
    refine onSlot_step (f := fun _ es => some (.num es.length, es)) I hspec ?_
    intro c t es es' hc hs hf R hcap hroom
    cases hf
    refine unchanged R wf ?_
    simp only [M.bind_run, getSelf_run, M.pure_run, VecCopy.len, R.len]
  | typeId k =>
    refine onSlot_step (f := fun t' es => some (.num t', es)) I hspec ?_
    intro c t es es' hc hs hf R hcap hroom
    cases hf
    refine unchanged R wf ?_
    simp only [M.bind_run, getSelf_run, M.pure_run, VecCopy.elementTypeId, R.type_id]
  | getAs k t i =>
    refine onSlot_step I hspec ?_
    intro c t' es es' hc hs hf R hcap hroom
    by_cases hi : i < es.length
    · simp only [dif_pos hi] at hf
      by_cases ht : t = t'
      · subst ht
        rw [if_pos rfl] at hf; cases hf
        refine unchanged R wf ?_
        simp only [M.bind_run, getSelf_run, VecCopy.getAs_ok R hi, M.pure_run]
      · rw [if_neg ht] at hf; cases hf
        refine unchanged R wf ?_
        simp only [M.bind_run, getSelf_run, VecCopy.getAs_mismatch R ht hi, M.pure_run]
    · simp only [dif_neg hi] at hf; cases hf
  | get k i =>
    refine onSlot_step I hspec ?_
    intro c t' es es' hc hs hf R hcap hroom
    by_cases hi : i < es.length
    · simp only [dif_pos hi] at hf
      cases hf
      refine unchanged R wf ?_
      simp only [M.bind_run, getSelf_run, VecCopy.getRef_ok R hi, M.pure_run]
    · simp only [dif_neg hi] at hf; cases hf
  | asSlice k t =>
    refine onSlot_step I hspec ?_
    intro c t' es es' hc hs hf R hcap hroom
    by_cases ht : t = t'
    · subst ht
      rw [if_pos rfl] at hf; cases hf
      refine unchanged R wf ?_
      simp only [M.bind_run, getSelf_run, VecCopy.asSliceAs_ok R, M.pure_run]
    · rw [if_neg ht] at hf; cases hf
      refine unchanged R wf ?_
      simp only [M.bind_run, getSelf_run, VecCopy.asSliceAs, VecCopy.checkRef_none R ht, M.pure_run]
  | iter k =>
    refine onSlot_step (f := fun _ es => some (.elems es, es)) I hspec ?_
    intro c t es es' hc hs hf R hcap hroom
    cases hf
    refine unchanged R wf ?_
    simp only [M.bind_run, getSelf_run, VecCopy.iter_ok R, M.pure_run, List.map_map, Function.comp_def, List.map_id']

end Dync
