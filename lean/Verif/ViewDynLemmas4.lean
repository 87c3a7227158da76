import Verif.ViewDynLemmas3
import Verif.MachineLemmas4
/-!
# Programs on `SliceMut`: views of containers whose content was lost
-/
namespace Dync
variable {U V α β : Type} {Γ : TyEnv U} {cfg : Cfg} {b : TyId} {s : SliceCopy V} {w : World U} {n : Nat}

/-- A view of a container whose content was lost, with a table for `b`. -/
structure UnitView [HasClone U V] (Γ : TyEnv U) (b : TyId) (s : SliceCopy V) : Prop where
  data : s.data = []
  elem : s.elem = ElemInfo.new Γ Γ.unitTy
  table : HasClone.cloneFromFn s.vtable = cloneFromBytes Γ b
  pos : 0 < Γ.size b

/-- `a` on such a view leaves it alone and does what `q` does outside. -/
def UnitSim [HasClone U V] (Γ : TyEnv U) (b : TyId) (a : M (SliceCopy V × World U) α) (q : M (Outside U) α) : Prop :=
  ∀ s w n, UnitView Γ b s → w.heap.WF →
    (a (s, w)).1.Alike (q ⟨n, w.user⟩).1 ∧ (a (s, w)).2.1 = s ∧ (a (s, w)).2.2.user = (q ⟨n, w.user⟩).2.user ∧
      Spills w.heap (a (s, w)).2.2.heap (a (s, w)).1 n (q ⟨n, w.user⟩).2.leaked

variable [HasClone U V]

theorem UnitView.numBytes (R : UnitView Γ b s) : s.elem.numBytes = 0 := by
  rw [R.elem]
  have := Γ.unit_size
  simp [ElemInfo.new, ElemInfo.numBytes, this]

theorem UnitView.len {σ : Type} (R : UnitView Γ b s) (st : σ) : s.len cfg st = (.panic .divZero, st) := by
  unfold SliceCopy.len
  rw [R.numBytes]
  cases cfg.debug <;> rfl

theorem UnitSim.of_panic {a : M (SliceCopy V × World U) α} {q : M (Outside U) α} (ha : ∀ s w, UnitView Γ b s → ∃ y, a (s, w) = (.panic y, (s, w)))
    (hq : ∀ o, ∃ y, q o = (.panic y, o)) : UnitSim Γ b a q := by
  intro s w n R wf
  obtain ⟨y, e⟩ := ha s w R
  obtain ⟨z, e'⟩ := hq ⟨n, w.user⟩
  rw [e, e']
  exact ⟨trivial, rfl, rfl, Spills.refl wf _ _⟩

theorem UnitSim.of_ok {a : M (SliceCopy V × World U) α} {x : α} (ha : ∀ s w, UnitView Γ b s → a (s, w) = (.ok x, (s, w))) :
    UnitSim Γ b a (pure x) := by
  intro s w n R wf
  rw [ha s w R]
  exact ⟨rfl, rfl, rfl, Spills.refl wf _ _⟩

theorem UnitSim.pure (x : α) : UnitSim (V := V) Γ b (pure x) (pure x) := .of_ok fun _ _ _ => rfl

theorem UnitSim.bind {a : M (SliceCopy V × World U) α} {q : M (Outside U) α} {f : α → M (SliceCopy V × World U) β}
    {g : α → M (Outside U) β} (h : UnitSim Γ b a q) (hf : ∀ x, UnitSim Γ b (f x) (g x)) : UnitSim Γ b (a >>= f) (q >>= g) := by
  intro s w n R wf
  obtain ⟨h1, h2, h3, h4⟩ := h s w n R wf
  rcases hA : a (s, w) with ⟨r, s1, w1⟩
  rcases hB : q ⟨n, w.user⟩ with ⟨r', n1, u1⟩
  rw [hA, hB] at h1 h3 h4
  rw [hA] at h2
  simp only at h1 h2 h3 h4
  subst h2
  simp only [M.bind_run, hA, hB]
  rcases h1.cases with ⟨x, rfl, rfl⟩ | ⟨y, z, rfl, rfl⟩ | ⟨rfl, rfl⟩ | ⟨rfl, rfl⟩
  · obtain ⟨k1, k2, k3, k4⟩ := hf x s1 w1 n1 R h4.wf
    rw [h3] at k1 k3 k4
    exact ⟨k1, k2, k3, Spills.trans wf h4 rfl k4⟩
  · exact ⟨trivial, rfl, h3, h4.map (by simp)⟩
  · exact ⟨trivial, rfl, h3, h4.map (by simp)⟩
  · exact ⟨trivial, rfl, h3, h4.map (by simp)⟩

theorem UnitSim.congr {a a' : M (SliceCopy V × World U) α} {q : M (Outside U) α} (h : UnitSim Γ b a q)
    (e : ∀ s w, UnitView Γ b s → a' (s, w) = a (s, w)) : UnitSim Γ b a' q := by
  intro s w n R wf
  rw [e s w R]
  exact h s w n R wf

theorem UnitView.check (R : UnitView Γ b s) (t : TyId) : s.check t = if t = Γ.unitTy then some s else none := by
  unfold SliceCopy.check
  rw [R.elem]
  by_cases h : t = Γ.unitTy
  · rw [if_neg (by simpa [ElemInfo.new] using h), if_pos h]
  · rw [if_pos (by simpa [ElemInfo.new] using h), if_neg h]

theorem UnitView.same (R : UnitView Γ b s) (a : Nat) : ({ s with data := splice s.data a [] } : SliceCopy V) = s := by
  obtain ⟨d, e, v⟩ := s
  have hd : d = [] := R.data
  subst hd
  simp [splice]

theorem UnitView.getMut (R : UnitView Γ b s) (i : Nat) (m : M (CopyValue V) α) :
    SliceCopy.getMut cfg i m s = if cfg.debug then (.panic .divZero, s) else
      ((m ⟨[], Γ.unitTy, Γ.align Γ.unitTy, s.vtable⟩).1,
        { s with data := splice s.data 0 (m ⟨[], Γ.unitTy, Γ.align Γ.unitTy, s.vtable⟩).2.bytes }) := by
  unfold SliceCopy.getMut
  rw [M.bind_ok (M.get_run _)]
  cases hd : cfg.debug with
  | true => simp only [M.bind_run, if_true, R.len]
  | false =>
    have hi : indexByteRange cfg 0 i s = (.ok (0, 0), s) := by rw [indexByteRange_unit, if_neg (by simp [hd])]
    have hv : s.valueOf [] = ⟨[], Γ.unitTy, Γ.align Γ.unitTy, s.vtable⟩ := by simp [SliceCopy.valueOf, R.elem, ElemInfo.new]
    simp [M.bind_run, R.numBytes, hi, R.data, sliceIndex, hv]

theorem unit_look (l : Look) : UnitSim (V := V) Γ b (SProg.onFst (l.prog.exec Γ cfg)) ((VProg.look l).onUnits Γ cfg) := by
  cases l with
  | get i =>
    simp only [Look.prog, VProg.onUnits]
    cases hd : cfg.debug with
    | true =>
      refine .of_panic (fun s w R => ⟨.divZero, ?_⟩) (fun o => ⟨_, rfl⟩)
      simp [SProg.onFst, SProg.exec, M.bind_run, SliceCopy.get, hd, R.len]
    | false =>
      refine .of_ok fun s w R => ?_
      have hi : indexByteRange cfg 0 i s = (.ok (0, 0), s) := by rw [indexByteRange_unit, if_neg (by simp [hd])]
      have hb : sliceIndex ([] : Bytes) 0 0 = .ok [] := rfl
      have hv : s.valueOf [] = ⟨[], Γ.unitTy, Γ.align Γ.unitTy, s.vtable⟩ := by simp [SliceCopy.valueOf, R.elem, ElemInfo.new]
      simp only [SProg.onFst, SProg.exec, M.zoom_run, M.bind_run, M.get_run, SliceCopy.get, hd, Bool.false_eq_true, if_false, M.pure_run,
        R.numBytes, indexByteSlice, hi, R.data, M.lift_run, hb, hv]
  | getAs t i =>
    refine .of_panic (fun s w R => ⟨.divZero, ?_⟩) (fun o => ⟨_, rfl⟩)
    simp [SProg.onFst, Look.prog, SProg.exec, M.bind_run, SliceCopy.getAs, R.len]
  | iter =>
    refine .of_panic (fun s w R => ⟨.zeroChunk, ?_⟩) (fun o => ⟨_, rfl⟩)
    simp only [SProg.onFst, Look.prog, SProg.exec, M.zoom_run, M.bind_run, M.get_run, SliceCopy.iter, R.numBytes, Dync.chunksExact, if_true,
      M.lift_run]
  | asSlice t =>
    simp only [Look.prog, VProg.onUnits]
    by_cases ht : t = Γ.unitTy
    · rw [if_pos ht]
      refine .of_panic (fun s w R => ⟨.divZero, ?_⟩) (fun o => ⟨_, rfl⟩)
      simp [SProg.onFst, SProg.exec, M.bind_run, SliceCopy.asSlice, R.check, ht, R.len]
    · rw [if_neg ht]
      refine .of_ok fun s w R => ?_
      simp [SProg.onFst, SProg.exec, M.bind_run, SliceCopy.asSlice, R.check, ht]
  | swap i j =>
    simp only [Look.prog, VProg.onUnits]
    by_cases h : i ≠ j ∧ cfg.debug ∧ usizeMax ≤ min i j
    · rw [if_pos h]
      refine .of_panic (fun s w R => ⟨.overflow, ?_⟩) (fun o => ⟨_, rfl⟩)
      have h' : i ≠ j ∧ cfg.debug ∧ 2 ^ 64 ≤ min i j + 1 := ⟨h.1, h.2.1, by have := h.2.2; simp only [usizeMax] at this; omega⟩
      simp only [SProg.onFst, SProg.exec, M.zoom_run, M.bind_run, M.get_run, SliceCopy.swap, R.numBytes, R.data, swapBytes_unit, if_pos h']
    · rw [if_neg h]
      refine .of_ok fun s w R => ?_
      have h' : ¬ (i ≠ j ∧ cfg.debug ∧ 2 ^ 64 ≤ min i j + 1) := fun e => h ⟨e.1, e.2.1, by have := e.2.2; simp only [usizeMax]; omega⟩
      have hs : ({ s with data := [] } : SliceCopy V) = s := by rw [← R.data]
      simp only [SProg.onFst, SProg.exec, M.zoom_run, M.bind_run, M.get_run, SliceCopy.swap, R.numBytes, R.data, swapBytes_unit,
        if_neg h', M.set_run, M.pure_run, hs]
  | rotateLeft k =>
    refine .of_ok fun s w R => ?_
    have hs : ({ s with data := [] } : SliceCopy V) = s := by rw [← R.data]
    have hr : sliceRotateLeft ([] : Bytes) 0 = .ok [] := rfl
    simp only [SProg.onFst, Look.prog, SProg.exec, M.zoom_run, M.bind_run, M.get_run, SliceCopy.rotateLeft, R.numBytes, umul_zero_run, R.data,
      M.lift_run, hr, M.set_run, hs, M.pure_run]
  | rotateRight k =>
    refine .of_ok fun s w R => ?_
    have hs : ({ s with data := [] } : SliceCopy V) = s := by rw [← R.data]
    have hr : sliceRotateRight ([] : Bytes) 0 = .ok [] := rfl
    simp only [SProg.onFst, Look.prog, SProg.exec, M.zoom_run, M.bind_run, M.get_run, SliceCopy.rotateRight, R.numBytes, umul_zero_run, R.data,
      M.lift_run, hr, M.set_run, hs, M.pure_run]

theorem UnitView.share_getMut (R : UnitView Γ b s) (i : Nat) (m : M (CopyValue V × World U) α) (hd : cfg.debug = false) :
    M.share (SliceCopy.getMut cfg i) m (s, w) =
      ((m (⟨[], Γ.unitTy, Γ.align Γ.unitTy, s.vtable⟩, w)).1,
        ({ s with data := splice s.data 0 (m (⟨[], Γ.unitTy, Γ.align Γ.unitTy, s.vtable⟩, w)).2.1.bytes },
          (m (⟨[], Γ.unitTy, Γ.align Γ.unitTy, s.vtable⟩, w)).2.2)) :=
  M.share_run (put := fun v : CopyValue V => { s with data := splice s.data 0 v.bytes }) (fun m => by rw [R.getMut, hd]; rfl)

theorem UnitView.share_debug (R : UnitView Γ b s) (i : Nat) (m : M (CopyValue V × World U) α) (hd : cfg.debug = true) :
    ∃ y, M.share (SliceCopy.getMut cfg i) m (s, w) = (.panic y, (s, w)) :=
  M.share_panic (fun m => ⟨.divZero, by rw [R.getMut, hd]; rfl⟩)

theorem unit_assign [HasDrop U V] {vt : TyId → V} {i : Nat} {t : TyId} {x : Bytes} (hx : x.length = Γ.size t)
    (hl : LawfulDrop Γ t (vt t)) :
    UnitSim (V := V) Γ b ((VProg.assign i t x).exec Γ cfg vt) ((VProg.assign i t x).onUnits Γ cfg) := by
  simp only [VProg.exec, VProg.onUnits]
  cases hd : cfg.debug with
  | true =>
    refine .of_panic (fun s w R => ?_) (fun o => ⟨_, rfl⟩)
    obtain ⟨y, hy⟩ := R.share_debug (w := w) i (do
      let v ← onWorld (BoxValue.new Γ t (vt t) x)
      ValueRef.assign v) hd
    exact ⟨y, by rw [M.bind_nil, hy]; rfl⟩
  | false =>
    intro s w n R wf
    have ha : IsRef Γ Γ.unitTy [] (⟨[], Γ.unitTy, Γ.align Γ.unitTy, s.vtable⟩ : ValueRef V) := ⟨rfl, rfl, rfl, Γ.unit_size.symm⟩
    have key : ∃ h2, (do
        let v ← onWorld (BoxValue.new Γ t (vt t) x)
        ValueRef.assign v : M (ValueRef V × World U) Unit) (⟨[], Γ.unitTy, Γ.align Γ.unitTy, s.vtable⟩, w) =
          ((Γ.drop t x w.user).1, (⟨[], Γ.unitTy, Γ.align Γ.unitTy, s.vtable⟩, ⟨h2, (Γ.drop t x w.user).2⟩)) ∧
        Spills w.heap h2 (Γ.drop t x w.user).1 n (Plain.destroy Γ t (boxBlock Γ t) x ⟨n, w.user⟩).2.leaked := by
      by_cases ht : t = Γ.unitTy
      · subst ht
        have hx0 : x = [] := List.length_eq_zero_iff.1 (hx.trans Γ.unit_size)
        subst hx0
        exact assign_same wf ha hx hl
      · exact assign_other wf ha hx ht hl
    obtain ⟨h2, e, sp⟩ := key
    rw [M.bind_nil, R.share_getMut i _ hd, e]
    simp only [R.same, Bool.false_eq_true, if_false, M.bind_run]
    simp only [Plain.destroy] at sp ⊢
    rcases hr : Γ.drop t x w.user with ⟨r, u'⟩
    rw [hr] at sp
    cases r with
    | ok a => exact ⟨rfl, by trivial, rfl, sp.map (by simp)⟩
    | panic y => exact ⟨trivial, by trivial, rfl, sp.map (by simp [Res.map])⟩
    | ub => exact ⟨trivial, by trivial, rfl, sp.map (by simp [Res.map])⟩
    | abort => exact ⟨trivial, by trivial, rfl, sp.map (by simp [Res.map])⟩

theorem unit_cloneFrom [HasDrop U V] {vt : TyId → V} {i : Nat} {t : TyId} {x : Bytes} :
    UnitSim (V := V) Γ b ((VProg.cloneFrom i t x).exec Γ cfg vt) ((VProg.cloneFrom i t x).onUnits Γ cfg) := by
  simp only [VProg.exec, VProg.onUnits]
  cases hd : cfg.debug with
  | true =>
    refine .of_panic (fun s w R => ?_) (fun o => ⟨.divZero, by simp⟩)
    obtain ⟨y, hy⟩ := R.share_debug (w := w) i (ValueRef.cloneFromOther (⟨x, t, Γ.align t, vt t⟩ : ValueRef V)) hd
    exact ⟨y, by rw [M.bind_nil, hy]; rfl⟩
  | false =>
    by_cases ht : t = Γ.unitTy
    · refine .of_panic (fun s w R => ⟨.assertion, ?_⟩) (fun o => ⟨.divZero, by simp [ht]⟩)
      rw [M.bind_nil, R.share_getMut i _ hd]
      have hc : ∀ z : Bytes × U, z.1 = [] → cloneFromBytes Γ b x z = (.panic .assertion, z) := by
        intro z hz
        have hp := R.pos
        unfold cloneFromBytes
        by_cases h : x.length = Γ.size b
        · have h0 : (([] : Bytes).length == Γ.size b) = false := by simp; omega
          have h1 : (x.length == Γ.size b) = true := by simp [h]
          simp only [M.bind_run, h1, M.assert_true_run, M.get_run, hz, h0, M.assert_false_run]
        · have h1 : (x.length == Γ.size b) = false := by simp [h]
          simp only [M.bind_run, h1, M.assert_false_run]
      have e : ValueRef.cloneFromOther (⟨x, t, Γ.align t, vt t⟩ : ValueRef V) (⟨[], Γ.unitTy, Γ.align Γ.unitTy, s.vtable⟩, w) =
          (.panic .assertion, (⟨[], Γ.unitTy, Γ.align Γ.unitTy, s.vtable⟩, w)) := by
        simp only [ValueRef.cloneFromOther, M.bind_run, getSelf_run, ht, if_true, M.zoom_run, R.table, hc]
      rw [e]
      simp only [R.same, Res.map]
    · rw [if_neg (by simp [ht])]
      refine .of_ok fun s w R => ?_
      rw [M.bind_nil, R.share_getMut i _ hd]
      have e : ValueRef.cloneFromOther (⟨x, t, Γ.align t, vt t⟩ : ValueRef V) (⟨[], Γ.unitTy, Γ.align Γ.unitTy, s.vtable⟩, w) =
          (.ok none, (⟨[], Γ.unitTy, Γ.align Γ.unitTy, s.vtable⟩, w)) := by
        simp only [ValueRef.cloneFromOther, M.bind_run, getSelf_run, if_neg (fun e => ht (Eq.symm e)), M.pure_run]
      rw [e]
      simp only [R.same, Res.map]

theorem UnitSim.sub {r : Rng} {a : M (SliceCopy V × World U) α} {q : M (Outside U) α} (h : UnitSim Γ b a q) (hr : r.halfOpen) :
    UnitSim Γ b (M.share (SliceCopy.subsliceMut cfg r) a) q := by
  intro s w n R wf
  have hs : ({ s with data := [] } : SliceCopy V) = s := by rw [← R.data]
  have e : M.share (SliceCopy.subsliceMut cfg r) a (s, w) = ((a (s, w)).1, ({ s with data := splice s.data 0 (a (s, w)).2.1.data }, (a (s, w)).2.2)) := by
    refine M.share_run (put := fun v : SliceCopy V => { s with data := splice s.data 0 v.data }) (fun m => ?_)
    unfold SliceCopy.subsliceMut
    rw [M.bind_ok (M.get_run _), R.numBytes]
    cases r <;> first | exact hr.elim | simp [Rng.scale, M.bind_run, umul_zero_run, Rng.bounds, R.data, sliceIndex, hs]
  obtain ⟨h1, h2, h3, h4⟩ := h s w n R wf
  rw [e]
  refine ⟨h1, ?_, h3, h4⟩
  simp only [h2, R.data]
  exact hs

theorem unit_sub_out {r : Rng} {a : M (SliceCopy V × World U) α} (hr : ¬ r.halfOpen) (R : UnitView Γ b s) :
    ∃ y, M.share (SliceCopy.subsliceMut cfg r) a (s, w) = (.panic y, (s, w)) := by
  refine M.share_panic fun m => ⟨.index, ?_⟩
  unfold SliceCopy.subsliceMut
  rw [M.bind_ok (M.get_run _), R.numBytes]
  cases r <;> first | exact (hr trivial).elim | simp [Rng.scale, M.bind_run, umul_zero_run, Rng.bounds, R.data, sliceIndex, usizeMax]

theorem UnitSim.split {mid : Nat} {p q : M (SliceCopy V × World U) (List β)} {p' q' : M (Outside U) (List β)}
    (hp : UnitSim Γ b p p') (hq : UnitSim Γ b q q') :
    UnitSim Γ b (M.share (SliceCopy.splitAtMut cfg mid) (do
        let a ← VProg.onLeft p
        let b ← VProg.onRight q
        Pure.pure (a ++ b))) (do
      let a ← p'
      let b ← q'
      Pure.pure (a ++ b)) := by
  intro s w n R wf
  have hs : ({ s with data := [] } : SliceCopy V) = s := by rw [← R.data]
  have hb : ({ s with data := s.data ++ s.data } : SliceCopy V) = s := by rw [R.data]; exact hs
  rw [M.share_run (put := fun v : SliceCopy V × SliceCopy V => { s with data := v.1.data ++ v.2.data }) (v := (s, s)) (fun m => by
    have h0 : sliceSplitAt ([] : Bytes) 0 = .ok ([], []) := rfl
    simp only [SliceCopy.splitAtMut, M.bind_run, M.get_run, R.numBytes, umul_zero_run, R.data, M.lift_run, h0, SliceCopy.fromRawParts, hs])]
  obtain ⟨h1, h2, h3, h4⟩ := hp s w n R wf
  rcases hA : p (s, w) with ⟨r, s1, w1⟩
  rcases hB : p' ⟨n, w.user⟩ with ⟨r', n1, u1⟩
  rw [hA, hB] at h1 h3 h4
  rw [hA] at h2
  simp only at h1 h2 h3 h4
  subst h2
  simp only [M.bind_run, VProg.onLeft, VProg.onRight, M.zoom_run, hA, hB]
  rcases h1.cases with ⟨x, rfl, rfl⟩ | ⟨y, z, rfl, rfl⟩ | ⟨rfl, rfl⟩ | ⟨rfl, rfl⟩
  · obtain ⟨k1, k2, k3, k4⟩ := hq s1 w1 n1 R h4.wf
    rw [h3] at k1 k3 k4
    simp only
    rcases hA' : q (s1, w1) with ⟨r2, s2, w2⟩
    rcases hB' : q' ⟨n1, u1⟩ with ⟨r2', n2, u2⟩
    rw [hA', hB'] at k1 k3 k4
    rw [hA'] at k2
    simp only at k1 k2 k3 k4
    subst k2
    have k5 := Spills.trans wf h4 rfl k4
    rcases k1.cases with ⟨x', rfl, rfl⟩ | ⟨y, z, rfl, rfl⟩ | ⟨rfl, rfl⟩ | ⟨rfl, rfl⟩
    · exact ⟨rfl, hb, k3, k5.map (by simp)⟩
    · exact ⟨trivial, hb, k3, k5.map (by simp)⟩
    · exact ⟨trivial, hb, k3, k5.map (by simp)⟩
    · exact ⟨trivial, hb, k3, k5.map (by simp)⟩
  · exact ⟨trivial, hb, h3, h4.map (by simp)⟩
  · exact ⟨trivial, hb, h3, h4.map (by simp)⟩
  · exact ⟨trivial, hb, h3, h4.map (by simp)⟩

theorem VProg.unit_sim [HasDrop U V] {vt : TyId → V} (hd : ∀ t, LawfulDrop Γ t (vt t)) (p : VProg U) (hs : p.Sized Γ) :
    UnitSim (V := V) Γ b (p.exec Γ cfg vt) (p.onUnits Γ cfg) := by
  induction p with
  | skip => exact UnitSim.pure _
  | seq p q ihp ihq => exact (ihp hs.1).bind fun a => (ihq hs.2).bind fun b => UnitSim.pure _
  | look l => exact unit_look l
  | setAs t i x =>
    refine .of_panic (fun s w R => ⟨.divZero, ?_⟩) (fun o => ⟨_, rfl⟩)
    simp only [VProg.exec, SliceDyn.getAsMut, M.bind_run, getSelf_run, R.len]
  | edit t m =>
    refine .of_panic (fun s w R => ⟨.divZero, ?_⟩) (fun o => ⟨_, rfl⟩)
    simp only [VProg.exec, SliceDyn.asSliceMut, M.bind_run, getSelf_run, R.len]
  | assign i t x => exact unit_assign hs (hd t)
  | cloneFrom i t x => exact unit_cloneFrom
  | cloneFromAll t x =>
    refine .of_panic (fun s w R => ⟨.zeroChunk, ?_⟩) (fun o => ⟨_, rfl⟩)
    simp only [VProg.exec, SliceCopy.iterMut, M.bind_run, M.get_run, R.numBytes, Dync.chunksExact, if_true, M.lift_run]
  | cloneFromSlice t xs =>
    refine .of_panic (fun s w R => ⟨.divZero, ?_⟩) (fun o => ⟨_, rfl⟩)
    simp only [VProg.exec, SliceDyn.cloneFromSlice, M.bind_run, getSelf_run, R.len]
  | sub r p ih =>
    cases r with
    | inclusive i j => exact .of_panic (fun s w R => unit_sub_out (fun h => h) R) (fun o => ⟨_, rfl⟩)
    | toInclusive j => exact .of_panic (fun s w R => unit_sub_out (fun h => h) R) (fun o => ⟨_, rfl⟩)
    | range i j => exact (ih hs).sub trivial
    | rangeTo j => exact (ih hs).sub trivial
    | rangeFrom i => exact (ih hs).sub trivial
    | full => exact (ih hs).sub trivial
  | split mid p q ihp ihq => exact (ihp hs.1).split (ihq hs.2)
  | chunks k p ih =>
    refine .of_panic (fun s w R => ⟨.zeroChunk, ?_⟩) (fun o => ⟨_, rfl⟩)
    simp only [VProg.exec, SliceCopy.chunksExactMut, M.zoom_run, M.bind_run, M.get_run, R.numBytes, umul_run_zero, Dync.chunksExact, if_true, M.lift_run]

end Dync
