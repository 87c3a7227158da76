import Verif.ViewDynLemmas
import Verif.Props.Value
import Verif.DynMachineLemmas2
/-!
# Programs on `SliceMut`: the single operations
-/
namespace Dync
variable {U V α β σ τ ρ : Type} {Γ : TyEnv U} {cfg : Cfg} {t t' : TyId} {es : List Bytes} {s : SliceCopy V} {w : World U} {n : Nat}

/-! ### Assigning a new value through an untyped reference -/

/-- The end of a box, whatever its destructor does. -/
theorem Value.drop_box_any [HasDrop U V] {x : Bytes} {v : BoxValue V} (wf : w.heap.WF) (hv : IsBox Γ w.heap t x v)
    (hl : LawfulDrop Γ t v.vtable) :
    ∃ h', v.drop w = ((Γ.drop t x w.user).1, ⟨h', (Γ.drop t x w.user).2⟩) ∧
      ((∃ a, (Γ.drop t x w.user).1 = .ok a) → Realloc w.heap v.bytes.ptr h' none) ∧
      ((∀ a, (Γ.drop t x w.user).1 ≠ .ok a) → h' = w.heap) := by
  rcases hd : Γ.drop t x w.user with ⟨r, u'⟩
  have hrun : worldUser (HasDrop.dropFn v.vtable (ByteBuf.get v.bytes)) w = (r, { w with user := u' }) := by
    rw [worldUser_run, show ByteBuf.get v.bytes = x from hv.bytes, hl x hv.length, hd]
  cases r with
  | ok a =>
    obtain ⟨h', e, hr, -⟩ := Value.drop_box_ok wf hv hl hd
    exact ⟨h', e, fun _ => hr, fun h => absurd rfl (h a)⟩
  | panic y => exact ⟨w.heap, by simp only [Value.drop, M.bind_run, hrun], fun h => (by obtain ⟨a, h⟩ := h; cases h), fun _ => rfl⟩
  | ub => exact ⟨w.heap, by simp only [Value.drop, M.bind_run, hrun], fun h => (by obtain ⟨a, h⟩ := h; cases h), fun _ => rfl⟩
  | abort => exact ⟨w.heap, by simp only [Value.drop, M.bind_run, hrun], fun h => (by obtain ⟨a, h⟩ := h; cases h), fun _ => rfl⟩

/-- A value is boxed and its box ends with `z` in it. -/
theorem box_and_drop [HasDrop U V] {x z : Bytes} {vt : V} (wf : w.heap.WF) (hx : x.length = Γ.size t') (hz : z.length = Γ.size t')
    (hl : LawfulDrop Γ t' vt) :
    ∃ (v : BoxValue V) (h1 : Heap) (h2 : Heap), BoxValue.new Γ t' vt x w = (.ok v, { w with heap := h1 }) ∧ IsBox Γ h1 t' x v ∧ v.vtable = vt ∧
      ({ v with bytes := ByteBuf.set z v.bytes } : BoxValue V).drop { w with heap := h1 } =
        ((Γ.drop t' z w.user).1, ⟨h2, (Γ.drop t' z w.user).2⟩) ∧ Spills w.heap h2 (Γ.drop t' z w.user).1 n (Plain.destroy Γ t' (boxBlock Γ t') z ⟨n, w.user⟩).2.leaked := by
  obtain ⟨v, h1, e1, B, hv, R1⟩ := C31_box_new wf hx vt
  have B' : IsBox Γ h1 t' z ({ v with bytes := ByteBuf.set z v.bytes } : BoxValue V) :=
    ⟨B.type_id, B.align, rfl, hz, B.block⟩
  obtain ⟨h2, e2, k1, k2⟩ := Value.drop_box_any (w := { w with heap := h1 }) R1.wf B' (by rw [show ({ v with bytes := ByteBuf.set z v.bytes } : BoxValue V).vtable = vt from hv]; exact hl)
  refine ⟨v, h1, h2, e1, B, hv, e2, ?_⟩
  by_cases hok : ∃ a, (Γ.drop t' z w.user).1 = .ok a
  · have R2 : Realloc h1 v.bytes.ptr h2 none := k1 hok
    obtain ⟨a, ha⟩ := hok
    exact ⟨none, Realloc.trans wf (by simp) R1 R2, nofun, by simp only [Plain.destroy, ha]; rfl, fun _ _ => rfl⟩
  · have : h2 = h1 := k2 (fun a h => hok ⟨a, h⟩)
    subst this
    refine ⟨v.bytes.ptr, R1, fun i hi => ?_, ?_, fun a h => absurd ⟨a, h⟩ hok⟩
    · rcases B.block with ⟨-, h0⟩ | ⟨-, j, h0, h1⟩
      · rw [h0] at hi; cases hi
      · rw [h0] at hi; cases hi; rw [h1]; exact nofun
    · rw [B.block.count]
      simp only [Plain.destroy]
      cases hr : (Γ.drop t' z w.user).1 with
      | ok a => exact absurd ⟨a, hr⟩ hok
      | _ => rfl

theorem thenDrop_lift_ok {d : M σ Unit} {st : σ} : M.thenDrop (M.lift (.ok ())) d st = d st := by
  unfold M.thenDrop
  simp only [M.lift_run]
  rcases d st with ⟨r, st'⟩
  cases r <;> rfl

theorem assign_same [HasDrop U V] {e x : Bytes} {a : ValueRef V} {vt : V} (wf : w.heap.WF) (ha : IsRef Γ t e a)
    (hx : x.length = Γ.size t) (hl : LawfulDrop Γ t vt) :
    ∃ h2, (do
      let v ← onWorld (BoxValue.new Γ t vt x)
      ValueRef.assign v : M (ValueRef V × World U) Unit) (a, w) =
        ((Γ.drop t e w.user).1, ({ a with bytes := x }, ⟨h2, (Γ.drop t e w.user).2⟩)) ∧ 
      Spills w.heap h2 (Γ.drop t e w.user).1 n (Plain.destroy Γ t (boxBlock Γ t) e ⟨n, w.user⟩).2.leaked := by
  obtain ⟨v, h1, h2, e1, B, hv, e2, sp⟩ := box_and_drop wf hx ha.length hl
  refine ⟨h2, ?_, sp⟩
  have hs := (C33_swap ha B.asRef).1 rfl
  simp only [M.bind_run, onWorld_run, e1, ValueRef.assign, hs, thenDrop_lift_ok, e2]

theorem assign_other [HasDrop U V] {e x : Bytes} {a : ValueRef V} {vt : V} (wf : w.heap.WF) (ha : IsRef Γ t e a)
    (hx : x.length = Γ.size t') (ht : t' ≠ t) (hl : LawfulDrop Γ t' vt) :
    ∃ h2, (do
      let v ← onWorld (BoxValue.new Γ t' vt x)
      ValueRef.assign v : M (ValueRef V × World U) Unit) (a, w) =
        ((Γ.drop t' x w.user).1, (a, ⟨h2, (Γ.drop t' x w.user).2⟩)) ∧ 
      Spills w.heap h2 (Γ.drop t' x w.user).1 n (Plain.destroy Γ t' (boxBlock Γ t') x ⟨n, w.user⟩).2.leaked := by
  obtain ⟨v, h1, h2, e1, B, hv, e2, sp⟩ := box_and_drop (V := V) wf hx hx hl
  refine ⟨h2, ?_, sp⟩
  have hs := (C33_swap ha B.asRef).2 (fun e => ht e.symm)
  have hb : v.asRef.bytes = x := B.bytes
  simp only [M.bind_run, onWorld_run, e1, ValueRef.assign, hs, hb, thenDrop_lift_ok, e2]

variable [HasClone U V]

/-- After an operation with result `r` that keeps the elements but one. -/
theorem Mirrors.of_set {i : Nat} {x : Bytes} {r : Res Unit} {h' : Heap} {u' : U} {n' : Nat} (R : SRepr Γ t es s)
    (hx : x.length = Γ.size t) (sp : Spills w.heap h' r n n') :
    Mirrors (α := List Read) Γ t es s w n (r.map fun _ => [], ({ s with data := (es.set i x).flatten }, ⟨h', u'⟩))
      (r.map fun _ => [], (es.set i x, ⟨n', u'⟩)) :=
  ⟨Res.Alike.refl _, R.set_ok (sized_set R.each hx) (by simp), by simp, rfl, rfl,
    sp.map (by intro a h; cases r <;> simp [Res.map] at h ⊢)⟩

theorem Mirrors.of_same {r : Res Unit} {h' : Heap} {u' : U} {n' : Nat} (R : SRepr Γ t es s) (sp : Spills w.heap h' r n n') :
    Mirrors (α := List Read) Γ t es s w n (r.map fun _ => [], (s, ⟨h', u'⟩)) (r.map fun _ => [], (es, ⟨n', u'⟩)) :=
  ⟨Res.Alike.refl _, R, rfl, rfl, rfl, sp.map (by intro a h; cases r <;> simp [Res.map] at h ⊢)⟩

theorem M.bind_nil {m : M σ α} {st : σ} : (do
    let _ ← m
    pure [] : M σ (List Read)) st = ((m st).1.map fun _ => [], (m st).2) := by
  simp only [M.bind_run]
  rcases m st with ⟨r, st'⟩
  cases r <;> rfl

theorem isRef_elem (R : SRepr Γ t es s) {i : Nat} (hi : i < es.length) : IsRef Γ t es[i] (⟨es[i], t, Γ.align t, s.vtable⟩ : ValueRef V) :=
  ⟨rfl, rfl, rfl, R.each _ (List.getElem_mem hi)⟩

theorem sim_assign [HasDrop U V] {vt : TyId → V} {i : Nat} {x : Bytes} (hx : x.length = Γ.size t')
    (hl : LawfulDrop Γ t' (vt t')) (hr : NoWrap cfg ((i + 1) * Γ.size t)) :
    DViewSim (V := V) Γ t ((VProg.assign i t' x).exec Γ cfg vt) ((VProg.assign i t' x).plain Γ t) := by
  intro es s w n R wf hc
  simp only [VProg.exec, VProg.plain]
  rw [M.bind_nil]
  by_cases hi : i < es.length
  · rw [M.share_run (fun m => R.getMut hi m) (put := fun v => { s with data := splice s.data (i * Γ.size t) v.bytes })]
    by_cases ht : t' = t
    · subst ht
      obtain ⟨h2, e, sp⟩ := assign_same wf (isRef_elem R hi) hx hl
      rw [e]
      simp only [Plain.store, Plain.destroy, dif_pos hi, if_true, R.splice_elem hi hx]
      exact Mirrors.of_set R hx sp
    · obtain ⟨h2, e, sp⟩ := assign_other wf (isRef_elem R hi) hx ht hl
      rw [e]
      simp only [Plain.discard, Plain.destroy, if_pos hi, if_neg ht, R.splice_elem hi (R.each _ (List.getElem_mem hi)),
        List.set_getElem_self, ← R.data]
      exact Mirrors.of_same R sp
  · obtain ⟨y, hy⟩ := M.share_panic (r := w) (m := (do
        let v ← onWorld (BoxValue.new Γ t' (vt t') x)
        ValueRef.assign v : M (ValueRef V × World U) Unit)) (fun m => R.getMut_out (cfg := cfg) (Nat.le_of_not_lt hi) hr m)
    rw [hy]
    by_cases ht : t' = t
    · simp only [Plain.store, Plain.destroy, dif_neg hi, if_pos ht, Res.map]
      exact Mirrors.panic R wf
    · simp only [Plain.discard, Plain.destroy, if_neg hi, if_neg ht, Res.map]
      exact Mirrors.panic R wf

theorem sim_cloneFrom [HasDrop U V] {vt : TyId → V} {i : Nat} {x : Bytes} (hx : x.length = Γ.size t')
    (hr : NoWrap cfg ((i + 1) * Γ.size t)) :
    DViewSim (V := V) Γ t ((VProg.cloneFrom i t' x).exec Γ cfg vt) ((VProg.cloneFrom i t' x).plain Γ t) := by
  intro es s w n R wf hc
  simp only [VProg.exec, VProg.plain]
  rw [M.bind_nil]
  have hb : IsRef Γ t' x (⟨x, t', Γ.align t', vt t'⟩ : ValueRef V) := ⟨rfl, rfl, rfl, hx⟩
  by_cases hi : i < es.length
  · rw [M.share_run (fun m => R.getMut hi m) (put := fun v => { s with data := splice s.data (i * Γ.size t) v.bytes })]
    have C := C33_clone_from_other (w := w) (isRef_elem R hi) hb hc
    by_cases ht : t' = t
    · subst ht
      rcases hcf : Γ.cloneFrom t' x (es[i], w.user) with ⟨r, d, u'⟩
      have hd : d.length = Γ.size t' := Γ.cloneFrom_len hcf (R.each _ (List.getElem_mem hi))
      rw [(C.1 rfl r d u' hcf).1]
      simp only [Plain.cloneFrom, dif_pos hi, if_true, hcf, R.splice_elem hi hd]
      have := Mirrors.of_set (w := w) (i := i) (u' := u') (r := r) R hd (Spills.refl wf r n)
      cases r <;> exact this
    · rw [C.2 (fun e => ht e.symm)]
      simp only [if_pos hi, if_neg ht, R.splice_elem hi (R.each _ (List.getElem_mem hi)),
        List.set_getElem_self, ← R.data, Res.map]
      exact Mirrors.same R wf
  · obtain ⟨y, hy⟩ := M.share_panic (r := w) (m := ValueRef.cloneFromOther (⟨x, t', Γ.align t', vt t'⟩ : ValueRef V))
      (fun m => R.getMut_out (cfg := cfg) (Nat.le_of_not_lt hi) hr m)
    rw [hy]
    by_cases ht : t' = t
    · simp only [Plain.cloneFrom, dif_neg hi, if_pos ht, Res.map]
      exact Mirrors.panic R wf
    · simp only [if_neg hi, if_neg ht, Res.map]
      exact Mirrors.panic R wf

theorem sim_setAs [HasDrop U V] {vt : TyId → V} {i : Nat} {x : Bytes} (hx : x.length = Γ.size t') :
    DViewSim (V := V) Γ t ((VProg.setAs t' i x).exec Γ cfg vt) ((VProg.setAs t' i x).plain Γ t) := by
  intro es s w n R wf hc
  simp only [VProg.exec, VProg.plain]
  by_cases hi : i < es.length
  · have hdec : decide (i < es.length) = true := decide_eq_true hi
    by_cases ht : t' = t
    · subst ht
      have hm : (i + 1) * Γ.size t' ≤ s.data.length := by rw [R.length]; exact Nat.mul_le_mul_right _ hi
      have hel : (s.data.drop (i * Γ.size t')).take (Γ.size t') = es[i] := by rw [R.data, drop_take_flatten R.each hi]
      have sp := Spills.refl wf (Γ.drop t' es[i] w.user).1 n
      have K := Mirrors.of_set (w := w) (i := i) (u' := (Γ.drop t' es[i] w.user).2) R hx sp
      simp only [M.bind_run, SliceDyn.getAsMut, getSelf_run, R.len, hdec, M.assert_true_run, R.check, if_true, if_pos hm, hel,
        VecDyn.assignTyped, worldUser_run, R.splice_elem hi hx, Plain.store, Plain.destroy, dif_pos hi]
      rcases hd : Γ.drop t' es[i] w.user with ⟨r, u'⟩
      rw [hd] at K
      cases r <;> exact K
    · simp only [M.bind_run, SliceDyn.getAsMut, getSelf_run, R.len, hdec, M.assert_true_run, R.check, if_neg ht, M.pure_run,
        onWorld_run, worldUser_run, Plain.discard, Plain.destroy, if_pos hi]
      have K := Mirrors.of_same (w := w) (u' := (Γ.drop t' x w.user).2) R (Spills.refl wf (Γ.drop t' x w.user).1 n)
      rcases hd : Γ.drop t' x w.user with ⟨r, u'⟩
      rw [hd] at K
      cases r <;> exact K
  · have hdec : decide (i < es.length) = false := decide_eq_false hi
    simp only [M.bind_run, SliceDyn.getAsMut, getSelf_run, R.len, hdec, M.assert_false_run]
    by_cases ht : t' = t
    · simp only [Plain.store, Plain.destroy, dif_neg hi, if_pos ht]
      exact Mirrors.panic R wf
    · simp only [Plain.discard, Plain.destroy, if_neg hi, if_neg ht]
      exact Mirrors.panic R wf

theorem sim_edit [HasDrop U V] {vt : TyId → V} {m : M (List Bytes × U) Unit} (hm : (VProg.edit t' m).Sized Γ) :
    DViewSim (V := V) Γ t ((VProg.edit t' m).exec Γ cfg vt) ((VProg.edit t' m).plain Γ t) := by
  intro es s w n R wf hc
  simp only [VProg.exec, VProg.plain]
  rw [M.bind_nil]
  by_cases ht : t' = t
  · subst ht
    obtain ⟨hl, he⟩ := hm (es, w.user) R.each
    simp only [SliceDyn.asSliceMut, M.bind_run, getSelf_run, R.len, R.check, if_true, M.lift_run, Plain.edit, M.zoom_run]
    have hts : typedSlice (Γ.size t') es.length s.data = .ok es := by rw [R.data, typedSlice_flatten R.each rfl]
    rw [hts]
    simp only
    rcases hmm : m (es, w.user) with ⟨r, es', u'⟩
    rw [hmm] at hl he
    have hsp : splice s.data 0 es'.flatten = es'.flatten := splice_whole (by
      rw [R.length, length_flatten_eq he, hl])
    simp only [hsp]
    have K : Mirrors (α := List Read) Γ t' es s w n (r.map fun _ => [], ({ s with data := es'.flatten }, ⟨w.heap, u'⟩))
        (r.map fun _ => [], (es', ⟨n, u'⟩)) :=
      ⟨Res.Alike.refl _, R.set_ok he (Nat.le_of_eq hl), hl, rfl, rfl, Spills.refl wf _ _⟩
    cases r <;> exact K
  · simp only [SliceDyn.asSliceMut, M.bind_run, getSelf_run, R.len, R.check, if_neg ht, M.pure_run, Res.map]
    exact Mirrors.same R wf

theorem sim_cloneFromSlice [HasDrop U V] {vt : TyId → V} {xs : List Bytes} :
    DViewSim (V := V) Γ t ((VProg.cloneFromSlice t' xs).exec Γ cfg vt) ((VProg.cloneFromSlice t' xs).plain Γ t) := by
  intro es s w n R wf hc
  simp only [VProg.exec, VProg.plain]
  rw [M.bind_nil]
  by_cases ht : t' = t
  · subst ht
    by_cases hl : es.length = xs.length
    · rcases hcf : TVec.cloneFrom Γ t' es xs w.user with ⟨r, es', u'⟩
      obtain ⟨s', e, R', hv⟩ := SliceDyn.cloneFromSlice_run (cfg := cfg) R hl hcf
      obtain ⟨hl', he'⟩ := TVec.cloneFrom_each hcf R.each
      rw [e]
      simp only [Plain.cloneFromSlice, if_pos hl, if_true, hcf]
      refine ⟨?_, R', hl', hv, rfl, Spills.refl wf _ _⟩
      cases r <;> simp [Res.map, Res.Alike]
    · rw [SliceDyn.cloneFromSlice_len R hl]
      simp only [Plain.cloneFromSlice, if_neg hl, if_true, Res.map]
      exact Mirrors.panic R wf
  · rw [SliceDyn.cloneFromSlice_mismatch R ht]
    simp only [if_neg ht, Res.map]
    exact Mirrors.same R wf

/-- Visiting all elements with `clone_from`. -/
theorem visit_cloneFrom {x : Bytes} (es : List Bytes) (w : World U) :
    visitMut (⟨fun p => ((Γ.cloneFrom t x (p.1, p.2.user)).1,
      ((Γ.cloneFrom t x (p.1, p.2.user)).2.1, { p.2 with user := (Γ.cloneFrom t x (p.1, p.2.user)).2.2 }))⟩ : M (Bytes × World U) Unit) es w =
    ((TVec.cloneFrom Γ t es (List.replicate es.length x) w.user).1,
      ((TVec.cloneFrom Γ t es (List.replicate es.length x) w.user).2.1,
       { w with user := (TVec.cloneFrom Γ t es (List.replicate es.length x) w.user).2.2 })) := by
  induction es generalizing w with
  | nil => rfl
  | cons e es ih =>
    simp only [visitMut, List.length_cons, List.replicate_succ, TVec.cloneFrom]
    rcases hcf : Γ.cloneFrom t x (e, w.user) with ⟨r, d, u'⟩
    cases r with
    | ok a => simp only [ih]
    | panic y => rfl
    | ub => rfl
    | abort => rfl

theorem sim_cloneFromAll [HasDrop U V] {vt : TyId → V} {x : Bytes} (hx : x.length = Γ.size t') :
    DViewSim (V := V) Γ t ((VProg.cloneFromAll t' x).exec Γ cfg vt) ((VProg.cloneFromAll t' x).plain Γ t) := by
  intro es s w n R wf hc
  simp only [VProg.exec, VProg.plain]
  have hb : IsRef Γ t' x (⟨x, t', Γ.align t', vt t'⟩ : ValueRef V) := ⟨rfl, rfl, rfl, hx⟩
  rw [M.bind_nil]
  by_cases ht : t' = t
  · subst ht
    obtain ⟨h1, h2, h3⟩ := R.iterMut (σ := World U)
      (body := do
        let _ ← ValueRef.cloneFromOther (⟨x, t', Γ.align t', vt t'⟩ : ValueRef V)
        pure ())
      (g := ⟨fun p => ((Γ.cloneFrom t' x (p.1, p.2.user)).1,
        ((Γ.cloneFrom t' x (p.1, p.2.user)).2.1, { p.2 with user := (Γ.cloneFrom t' x (p.1, p.2.user)).2.2 }))⟩)
      (fun e st he => Γ.cloneFrom_len (r := (Γ.cloneFrom t' x (e, st.user)).1) (u' := (Γ.cloneFrom t' x (e, st.user)).2.2) rfl he)
      (fun e st he => by
        rcases hcf : Γ.cloneFrom t' x (e, st.user) with ⟨r, d, u'⟩
        have C := (C33_clone_from_other (w := st) (a := (⟨e, t', Γ.align t', s.vtable⟩ : ValueRef V)) ⟨rfl, rfl, rfl, he⟩ hb hc).1 rfl r d u' hcf
        simp only [M.bind_run, C.1]
        cases r <;> simp only [Res.map, M.pure_run] <;> rw [hcf]) w
    rw [h1]
    rw [visit_cloneFrom] at h2 h3 ⊢
    simp only [Plain.cloneFromSlice, if_true, List.length_replicate]
    exact ⟨Res.Alike.refl _, R.set_ok h2 (Nat.le_of_eq h3), h3, rfl, rfl, Spills.refl wf _ _⟩
  · obtain ⟨h1, h2, h3⟩ := R.iterMut (σ := World U)
      (body := do
        let _ ← ValueRef.cloneFromOther (⟨x, t', Γ.align t', vt t'⟩ : ValueRef V)
        pure ())
      (g := pure ()) (fun e st he => he)
      (fun e st he => by
        have C := (C33_clone_from_other (w := st) (a := (⟨e, t, Γ.align t, s.vtable⟩ : ValueRef V)) ⟨rfl, rfl, rfl, he⟩ hb hc).2 (fun e => ht e.symm)
        simp only [M.bind_run, C, M.pure_run]) w
    have hv : visitMut (pure () : M (Bytes × World U) Unit) es w = (.ok (), (es, w)) := by
      have := visitMut_pure (σ := World U) (fun e : Bytes => e) es w
      rw [List.map_id'] at this
      exact this
    rw [h1, hv]
    simp only [if_neg ht, Res.map, ← R.data]
    exact Mirrors.same R wf

end Dync
