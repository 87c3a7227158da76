import Verif.VecDynLemmas
import Verif.SliceLemmas2
/-!
# `VecDyn`: untyped push, constructors, comparison (helper lemmas)
-/
namespace Dync
variable {U V W σ α : Type}

namespace VecDyn
variable {Γ : TyEnv U} {t : TyId} {es : List Bytes} {c : VecDyn V} {w : World U} {cfg : Cfg}

/-! ### `push` of a boxed value -/

/-- Elements of size 1 (and so alignment 1): the value is appended and its box freed. -/
theorem push_ok [HasDrop U W] (R : Repr Γ w.heap t es c.data) (wf : w.heap.WF) {x : Bytes} {v : BoxValue W}
    (hv : IsBox Γ w.heap t x v) (hne : v.bytes.ptr ≠ c.data.ptr) (h1 : Γ.size t = 1)
    (hroom : Room Γ t (max 8 (max (2 * c.data.cap) (es.length + 1)))) :
    ∃ d h1 h' i, VecDyn.push Γ cfg v (c, w) = (.ok (some ()), ({ c with data := d }, { w with heap := h' })) ∧
      v.bytes.ptr = some i ∧ h' = h1.free i ∧ Evolves Γ t (es.length + 1) (es ++ [x]) w.heap c.data h1 d ∧
      Repr Γ h' t (es ++ [x]) d ∧ h'.WF := by
  have ha : Γ.align t = 1 := by
    have := Nat.le_of_dvd (by omega) (Γ.align_dvd t); have := align_pos Γ t; omega
  obtain ⟨d, hh, hrun, hev⟩ := VecCopy.dataPush_ok (cfg := cfg) R wf (by omega) hv.length hroom
  obtain ⟨h0, _⟩ | ⟨_, i, hp, hl⟩ := hv.block
  · omega
  have hpi : some i ≠ c.data.ptr := hp ▸ hne
  have hlt : i < w.heap.next := Heap.lt_next wf hl
  have hnew : some i ≠ d.ptr := by
    intro e
    by_cases hpd : d.ptr = c.data.ptr
    · exact hpi (e.trans hpd)
    · have := hev.realloc.new_fresh hpd i e.symm; omega
  have hl' : hh.live i = some (Γ.layout t) := by rw [hev.realloc.other i hpi hnew, hl]
  refine ⟨d, hh, hh.free i, i, ?_, hp, rfl, hev, ?_, hev.wf.free i⟩
  · have hty : v.type_id = c.elementTypeId := by rw [hv.type_id]; exact R.type_id.symm
    simp only [VecDyn.push, M.bind_run, getSelf_run, if_pos hty, hv.bytes]
    rw [M.thenDrop_ok hrun (s'' := ({ c with data := d }, { w with heap := hh.free i }))]
    · rfl
    · apply onWorld_of
      have hlen : v.bytes.bytes.length = 1 := by rw [hv.bytes, hv.length, h1]
      simp only [BoxBytes.dropPlain, worldHeap_run, hlen, hp]
      rw [dealloc_live (by rw [hl', TyEnv.layout, h1, ha]) (by simp)]
  · exact hev.repr.frame (fun j hj => by
      have : j ≠ i := fun e => hnew (by rw [hj, e])
      simp [Heap.free, this])

theorem push_run [HasDrop U W] (R : Repr Γ w.heap t es c.data) {x : Bytes} {v : BoxValue W}
    (hv : IsBox Γ w.heap t x v) :
    VecDyn.push Γ cfg v (c, w) = (M.thenDrop (VecCopy.onData (VecVoid.push Γ cfg x)) (onWorld v.bytes.dropPlain)
      >>= fun _ => pure (some ())) (c, w) := by
  have hty : v.type_id = c.elementTypeId := by rw [hv.type_id]; exact R.type_id.symm
  simp only [VecDyn.push]
  rw [M.bind_ok (getSelf_run _), if_pos hty, hv.bytes]

/-- Elements of alignment above 1: the box is freed with the wrong alignment. -/
theorem push_ub [HasDrop U W] (R : Repr Γ w.heap t es c.data) (wf : w.heap.WF) {x : Bytes} {v : BoxValue W}
    (hv : IsBox Γ w.heap t x v) (hne : v.bytes.ptr ≠ c.data.ptr) (ha : 1 < Γ.align t)
    (hroom : Room Γ t (max 8 (max (2 * c.data.cap) (es.length + 1)))) :
    ∃ s, VecDyn.push Γ cfg v (c, w) = (.ub, s) := by
  have hpos := R.pos
  obtain ⟨h0, _⟩ | ⟨_, i, hp, hl⟩ := hv.block
  · omega
  have hpi : some i ≠ c.data.ptr := hp ▸ hne
  have hlt : i < w.heap.next := Heap.lt_next wf hl
  -- freeing the box is undefined behaviour in any heap where its block is still the same
  have hdr : ∀ (c' : VecDyn V) (hh : Heap), hh.live i = some (Γ.layout t) →
      (onWorld v.bytes.dropPlain : M (VecDyn V × World U) Unit) (c', { w with heap := hh }) =
        (.ub, (c', { w with heap := hh })) := by
    intro c' hh hl'
    apply onWorld_of
    have hlen : v.bytes.bytes.length = Γ.size t := by rw [hv.bytes, hv.length]
    have h2 : ¬ (Γ.layout t = ⟨Γ.size t, 1⟩) := by intro e; have := congrArg Layout.align e; simp only at this; omega
    have h3 : Γ.size t ≠ 0 := by omega
    simp only [BoxBytes.dropPlain, worldHeap_run, hlen, hp, dealloc, h3, if_false, hl', Option.some.injEq, h2]
  have hfr : ∀ (hh : Heap) (p : Ptr), Realloc w.heap c.data.ptr hh p → hh.live i = some (Γ.layout t) := by
    intro hh p hre
    rw [hre.other i hpi ?_, hl]
    intro e
    by_cases hpd : p = c.data.ptr
    · exact hpi (e.trans hpd)
    · have := hre.new_fresh hpd i e.symm; omega
  rw [push_run R hv]
  by_cases hsa : Γ.size t = Γ.align t
  · obtain ⟨d, hh, hrun, hev⟩ := VecCopy.dataPush_ok (cfg := cfg) R wf hsa hv.length hroom
    have hd := hdr { c with data := d } hh (hfr hh _ hev.realloc)
    refine ⟨_, M.bind_ub (s' := ({ c with data := d }, { w with heap := hh })) ?_⟩
    simp only [M.thenDrop, hrun, hd]
  · rw [← R.len] at hroom
    obtain ⟨p, hh, hrun, hre, _⟩ := VecVoid.push_bad (cfg := cfg) R wf hsa hv.length hroom
    have hd := hdr { c with data := VecVoid.default Γ } hh (hfr hh _ hre)
    refine ⟨_, M.bind_ub (s' := ({ c with data := VecVoid.default Γ }, { w with heap := hh })) ?_⟩
    simp only [M.thenDrop, VecCopy.onData_run, hrun, hd]

/-- Elements of alignment 1 and size above 1: the push panics, the container is lost. -/
theorem push_bad [HasDrop U W] (R : Repr Γ w.heap t es c.data) (wf : w.heap.WF) {x : Bytes} {v : BoxValue W}
    (hv : IsBox Γ w.heap t x v) (hne : v.bytes.ptr ≠ c.data.ptr) (ha : Γ.align t = 1) (h1 : Γ.size t ≠ 1)
    (hroom : Room Γ t (max 8 (max (2 * c.data.cap) (es.length + 1)))) :
    ∃ h', VecDyn.push Γ cfg v (c, w) =
        (.panic .assertion, ({ c with data := VecVoid.default Γ }, { w with heap := h' })) := by
  have hpos := R.pos
  obtain ⟨h0, _⟩ | ⟨_, i, hp, hl⟩ := hv.block
  · omega
  have hpi : some i ≠ c.data.ptr := hp ▸ hne
  have hlt : i < w.heap.next := Heap.lt_next wf hl
  rw [push_run R hv]
  rw [← R.len] at hroom
  obtain ⟨p, hh, hrun, hre, _⟩ := VecVoid.push_bad (cfg := cfg) R wf (by omega) hv.length hroom
  have hl' : hh.live i = some (Γ.layout t) := by
    rw [hre.other i hpi ?_, hl]
    intro e
    by_cases hpd : p = c.data.ptr
    · exact hpi (e.trans hpd)
    · have := hre.new_fresh hpd i e.symm; omega
  refine ⟨hh.free i, M.bind_panic (s' := ({ c with data := VecVoid.default Γ }, { w with heap := hh.free i })) ?_⟩
  refine M.thenDrop_panic (s' := ({ c with data := VecVoid.default Γ }, { w with heap := hh })) ?_ ?_
  · simp only [VecCopy.onData_run, hrun]
  · apply onWorld_of
    have hlen : v.bytes.bytes.length = Γ.size t := by rw [hv.bytes, hv.length]
    simp only [BoxBytes.dropPlain, worldHeap_run, hlen, hp]
    rw [dealloc_live (by rw [hl', TyEnv.layout, ha]) (by simp only; omega)]

/-- A value of another type is dropped. -/
theorem push_mismatch [HasDrop U W] (R : Repr Γ w.heap t es c.data) (wf : w.heap.WF) {t' : TyId} {x : Bytes}
    {v : BoxValue W} (hv : IsBox Γ w.heap t' x v) (ht : t' ≠ t) (hl : LawfulDrop Γ t' v.vtable) {u' : U}
    (hd : Γ.drop t' x w.user = (.ok (), u')) :
    ∃ h', VecDyn.push Γ cfg v (c, w) = (.ok none, (c, ⟨h', u'⟩)) ∧ Realloc w.heap v.bytes.ptr h' none := by
  obtain ⟨h', hrun, hre, _⟩ := Value.drop_box_ok wf hv hl hd
  refine ⟨h', ?_, hre⟩
  have hty : ¬ v.type_id = c.elementTypeId := by rw [hv.type_id, VecCopy.elementTypeId, R.type_id]; exact ht
  simp only [VecDyn.push]
  rw [M.bind_ok (getSelf_run _), if_neg hty, M.bind_ok (onWorld_of hrun)]
  rfl

/-! ### `push_cloned` -/

theorem pushCloned_ok [HasClone U V] (R : Repr Γ w.heap t es c.data) (wf : w.heap.WF)
    (hl : LawfulClone Γ t c.vtable) {x x' : Bytes} {v : ValueRef V} (hv : IsRef Γ t x v) {u' : U}
    (hc : Γ.clone t x w.user = (.ok x', u'))
    (hroom : Room Γ t (max 8 (max (2 * c.data.cap) (es.length + 1))))
    (hbad : ¬ BadGrowth Γ t c.data.cap (es.length + 1)) :
    ∃ d h', VecDyn.pushCloned Γ cfg v (c, w) = (.ok (some ()), ({ c with data := d }, ⟨h', u'⟩)) ∧
      Evolves Γ t (es.length + 1) (es ++ [x']) w.heap c.data h' d := by
  have hx' := Γ.clone_len hc
  have hlen := R.len
  rw [← hlen] at hroom hbad
  obtain ⟨p, k, h', hnc, hcc, hrk, hre, hblk, hfit, hub, hok, _⟩ := VecVoid.resizeWith_succ (cfg := cfg) R wf
    (init := M.zoom (fun s => (s.1, s.2.user)) (fun t s => (t.1, { s.2 with user := t.2 }))
        (HasClone.cloneIntoRawFn c.vtable v.bytes)) hroom hbad
  have hraw := hl.raw_ok (b := x) (d := List.replicate (Γ.size t) (some 0)) hv.length (by simp) hc
  have hinit := hok x' ⟨h', u'⟩ (by simp only [M.zoom_run, hv.bytes, hraw]) hx'
  refine ⟨⟨p, c.data.len + 1, k, c.data.elem, c.data.mem ++ x'⟩, h', ?_, ?_, hre, hcc, ?_, ?_⟩
  · have hty : c.elementTypeId = v.type_id := by rw [hv.type_id]; exact R.type_id
    simp only [VecDyn.pushCloned]
    rw [M.bind_ok (getSelf_run _), if_pos hty]
    rw [M.bind_ok (a := ()) (s' := ({ c with data := ⟨p, c.data.len + 1, k, c.data.elem, c.data.mem ++ x'⟩ },
      ⟨h', u'⟩)) (by rw [VecCopy.onData_run, hinit])]
    rfl
  · exact ⟨R.type_id, R.chunks, R.align, R.pos, by simp [R.mem], each_snoc R.each hx', by simp [R.len], hnc,
      by simp only; omega, hrk, hblk⟩
  · rw [← hlen]; exact hub
  · intro hn; exact hfit (by omega)

/-- A panicking clone in `push_cloned` destroys the container: it becomes the empty default container
of `()`, the old buffer is freed, the old elements are gone without being dropped. -/
theorem pushCloned_panic [HasClone U V] (R : Repr Γ w.heap t es c.data) (wf : w.heap.WF)
    (hl : LawfulClone Γ t c.vtable) {x : Bytes} {v : ValueRef V} (hv : IsRef Γ t x v) {u' : U} {y : Why}
    (hc : Γ.clone t x w.user = (.panic y, u'))
    (hroom : Room Γ t (max 8 (max (2 * c.data.cap) (es.length + 1))))
    (hbad : ¬ BadGrowth Γ t c.data.cap (es.length + 1)) :
    ∃ h', VecDyn.pushCloned Γ cfg v (c, w) =
        (.panic y, ({ c with data := VecVoid.default Γ }, ⟨h', u'⟩)) ∧ Realloc w.heap c.data.ptr h' none := by
  have hlen := R.len
  rw [← hlen] at hroom hbad
  obtain ⟨p, k, h', hnc, hcc, hrk, hre, hblk, hfit, hub, _, hpan⟩ := VecVoid.resizeWith_succ (cfg := cfg) R wf
    (init := M.zoom (fun s => (s.1, s.2.user)) (fun t s => (t.1, { s.2 with user := t.2 }))
        (HasClone.cloneIntoRawFn c.vtable v.bytes)) hroom hbad
  have hraw := hl.raw_panic (b := x) (d := List.replicate (Γ.size t) (some 0)) hv.length (by simp) hc
  obtain ⟨i, hp, hrun⟩ := hpan (List.replicate (Γ.size t) (some 0)) ⟨h', u'⟩ y
    (by simp only [M.zoom_run, hv.bytes, hraw]) rfl
  refine ⟨h'.free i, ?_, ?_⟩
  · have hty : c.elementTypeId = v.type_id := by rw [hv.type_id]; exact R.type_id
    simp only [VecDyn.pushCloned]
    rw [M.bind_ok (getSelf_run _), if_pos hty]
    rw [M.bind_panic (s' := ({ c with data := VecVoid.default Γ }, ⟨h'.free i, u'⟩))
      (by rw [VecCopy.onData_run, hrun])]
  · refine ⟨hre.wf.free i, hre.next_le, ?_, ?_, fun _ j hj => by cases hj⟩
    · intro j hj _
      simp only [Heap.free]
      split
      · rename_i hji; subst hji
        by_cases hpd : p = c.data.ptr
        · exact absurd (hp.symm.trans hpd) hj
        · exact (wf j (hre.new_fresh hpd j hp)).symm
      · rename_i hji
        exact hre.other j hj (by rw [hp]; simpa using hji)
    · intro _ j hj
      simp only [Heap.free]
      split
      · rfl
      · rename_i hji
        by_cases hpd : p = c.data.ptr
        · rw [← hpd, hp] at hj; cases hj; exact absurd rfl hji
        · exact hre.old_dead hpd j hj

theorem pushCloned_mismatch [HasClone U V] (R : Repr Γ w.heap t es c.data) {v : ValueRef V}
    (ht : v.type_id ≠ t) : VecDyn.pushCloned Γ cfg v (c, w) = (.ok none, (c, w)) := by
  have hty : ¬ c.elementTypeId = v.type_id := by
    rw [VecCopy.elementTypeId, R.type_id]; exact fun e => ht e.symm
  simp only [VecDyn.pushCloned]
  rw [M.bind_ok (getSelf_run _), if_neg hty]
  rfl

/-! ### `get` -/

theorem get_ok (R : Repr Γ w.heap t es c.data) {i : Nat} (hi : i < es.length) (s : σ) :
    VecDyn.get cfg i c s = (.ok (c.valueOf es[i]), s) := by
  have hlen := R.len
  have hb : (i + 1) * Γ.size t ≤ usizeMax := by
    have h1 := VecCopy.Repr_mul_le R
    have h2 : (i + 1) * Γ.size t ≤ es.length * Γ.size t := Nat.mul_le_mul_right _ hi
    have := isize_le_usize; omega
  have hi1 : i + 1 ≤ usizeMax := Nat.le_trans (Nat.le_mul_of_pos_right _ R.pos) hb
  unfold VecDyn.get VecVoid.getBytes indexByteSlice
  rw [M.bind_ok (debugAssert_ok (by simp [VecCopy.len, hlen, hi]) s)]
  rw [M.bind_ok (a := es[i]) (s' := s)]
  · rfl
  · rw [M.bind_ok (debugAssert_ok (by simp [hlen, hi]) s), R.bytes, M.bind_ok (M.lift_run _ _), R.numBytes,
      M.bind_ok (SRepr.indexByteRange_ok hi1 hb s)]
    simp only [M.lift_run, SRepr.sliceIndex_elem R.each hi]

theorem get_out (R : Repr Γ w.heap t es c.data) {i : Nat} (hi : es.length ≤ i)
    (hw : NoWrap cfg ((i + 1) * Γ.size t)) (s : σ) : ∃ y, VecDyn.get cfg i c s = (.panic y, s) := by
  have hlen := R.len
  unfold VecDyn.get
  cases hd : cfg.debug with
  | true =>
    refine ⟨.assertion, M.bind_panic ?_⟩
    have : decide (i < c.len) = false := by simp [VecCopy.len, hlen]; omega
    simp [debugAssert, hd, this]
  | false =>
    have hde : ∀ b : Bool, debugAssert cfg b s = (.ok (), s) := by intro b; simp [debugAssert, hd]
    rw [M.bind_ok (hde _)]
    unfold VecVoid.getBytes indexByteSlice
    obtain hb | hb := hw
    · rw [hd] at hb; cases hb
    have hi1 : i + 1 ≤ usizeMax := Nat.le_trans (Nat.le_mul_of_pos_right _ R.pos) hb
    refine ⟨.index, M.bind_panic ?_⟩
    rw [M.bind_ok (hde _), R.bytes, M.bind_ok (M.lift_run _ _), R.numBytes,
      M.bind_ok (SRepr.indexByteRange_ok hi1 hb s)]
    simp only [M.lift_run]
    rw [SRepr.sliceIndex_out R.each R.pos (by omega)]

/-! ### Comparison, hashing, printing -/

/-- Element-wise comparison up to the shorter list: what `zip` and `all` compute. -/
theorem eqZip_same [HasPartialEq V] {a b : VecDyn V} (hl : LawfulEq Γ t a.vtable) {xs ys : List Bytes}
    (hta : a.elementTypeId = t) (htb : b.elementTypeId = t)
    (hx : ∀ e ∈ xs, e.length = Γ.size t) (hy : ∀ e ∈ ys, e.length = Γ.size t) :
    eqZip (xs.map a.valueOf) (ys.map b.valueOf) = .ok ((xs.zip ys).all fun p => Γ.eq t p.1 p.2) := by
  induction xs generalizing ys with
  | nil => rfl
  | cons x xs ih =>
    cases ys with
    | nil => rfl
    | cons y ys =>
      have h1 : ValueRef.eq (a.valueOf x) (b.valueOf y) = .ok (Γ.eq t x y) := by
        have : (a.valueOf x).type_id = (b.valueOf y).type_id := hta.trans htb.symm
        simp only [ValueRef.eq, this, ne_eq, not_true_eq_false, if_false]
        exact hl x y (hx x (by simp)) (hy y (by simp))
      simp only [List.map_cons, eqZip, h1, List.zip_cons_cons, List.all_cons]
      cases hE : Γ.eq t x y with
      | true =>
        simp only [Bool.true_and]
        exact ih (fun e he => hx e (by simp [he])) (fun e he => hy e (by simp [he]))
      | false => simp

theorem eqZip_diff [HasPartialEq V] {a b : VecDyn V} {xs ys : List Bytes}
    (ht : a.elementTypeId ≠ b.elementTypeId) :
    eqZip (xs.map a.valueOf) (ys.map b.valueOf) = .ok (xs.isEmpty || ys.isEmpty) := by
  cases xs with
  | nil => rfl
  | cons x xs =>
    cases ys with
    | nil => rfl
    | cons y ys =>
      have h1 : ValueRef.eq (a.valueOf x) (b.valueOf y) = .ok false := by
        have : (a.valueOf x).type_id ≠ (b.valueOf y).type_id := ht
        simp [ValueRef.eq, this]
      simp [eqZip, h1]

theorem hashAll_ok [HasHash V] {a : VecDyn V} (hl : LawfulHash Γ t a.vtable) {xs : List Bytes}
    (hx : ∀ e ∈ xs, e.length = Γ.size t) :
    hashAll (xs.map a.valueOf) = .ok (xs.map (Γ.hash t)).flatten := by
  induction xs with
  | nil => rfl
  | cons x xs ih =>
    have h1 : ValueRef.hash (a.valueOf x) = .ok (Γ.hash t x) := hl x (hx x (by simp))
    simp [hashAll, h1, ih (fun e he => hx e (by simp [he])), Res.map]

theorem fmtAll_ok [HasDebug V] {a : VecDyn V} (hl : LawfulDebug Γ t a.vtable) {xs : List Bytes}
    (hx : ∀ e ∈ xs, e.length = Γ.size t) :
    fmtAll (xs.map a.valueOf) = .ok (xs.map (Γ.fmt t)) := by
  induction xs with
  | nil => rfl
  | cons x xs ih =>
    have h1 : ValueRef.fmt (a.valueOf x) = .ok (Γ.fmt t x) := hl x (hx x (by simp))
    simp [fmtAll, h1, ih (fun e he => hx e (by simp [he])), Res.map]

theorem iter_valueOf {h : Heap} {a : VecDyn V} (Ra : Repr Γ h t es a.data) (s : σ) :
    VecCopy.iter a s = (.ok (es.map a.valueOf), s) := by
  simp only [VecCopy.iter, M.bind_run, VecCopy.byteChunks_ok Ra, M.pure_run]

theorem eq_same [HasPartialEq V] {h h' : Heap} {a b : VecDyn V} {es es' : List Bytes} (Ra : Repr Γ h t es a.data)
    (Rb : Repr Γ h' t es' b.data) (hl : LawfulEq Γ t a.vtable) (s : σ) :
    VecDyn.eq a b s = (.ok ((es.zip es').all fun p => Γ.eq t p.1 p.2), s) := by
  unfold VecDyn.eq
  rw [M.bind_ok (iter_valueOf Ra s), M.bind_ok (iter_valueOf Rb s)]
  simp only [M.lift_run]
  rw [eqZip_same hl Ra.type_id Rb.type_id Ra.each Rb.each]

theorem eq_diff [HasPartialEq V] {h h' : Heap} {a b : VecDyn V} {t' : TyId} {es es' : List Bytes}
    (Ra : Repr Γ h t es a.data) (Rb : Repr Γ h' t' es' b.data) (ht : t ≠ t') (s : σ) :
    VecDyn.eq a b s = (.ok (es.isEmpty || es'.isEmpty), s) := by
  unfold VecDyn.eq
  rw [M.bind_ok (iter_valueOf Ra s), M.bind_ok (iter_valueOf Rb s)]
  simp only [M.lift_run]
  rw [eqZip_diff (by rw [VecCopy.elementTypeId, Ra.type_id, VecCopy.elementTypeId, Rb.type_id]; exact ht)]

theorem hash_ok [HasHash V] {h : Heap} {a : VecDyn V} (Ra : Repr Γ h t es a.data)
    (hl : LawfulHash Γ t a.vtable) (s : σ) :
    VecDyn.hash a s = (.ok (es.map (Γ.hash t)).flatten, s) := by
  unfold VecDyn.hash
  rw [M.bind_ok (iter_valueOf Ra s)]
  simp only [M.lift_run]
  rw [hashAll_ok hl Ra.each]

theorem fmt_ok [HasDebug V] {h : Heap} {a : VecDyn V} (Ra : Repr Γ h t es a.data)
    (hl : LawfulDebug Γ t a.vtable) (s : σ) :
    VecDyn.fmt a s = (.ok (debugList (es.map (Γ.fmt t))), s) := by
  unfold VecDyn.fmt
  rw [M.bind_ok (iter_valueOf Ra s)]
  simp only [M.lift_run]
  rw [fmtAll_ok hl Ra.each]
  rfl

end VecDyn
end Dync
