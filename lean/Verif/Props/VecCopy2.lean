import Verif.VecCopyLemmas3
import Verif.Props.VecCopy
import Verif.Props.Slices
/-!
# Properties of `VecCopy`: untyped push, collecting, alignment dispatch, panics, mutable views
-/
namespace Dync
variable {U V W α : Type} {Γ : TyEnv U} {t : TyId} {es : List Bytes} {c : VecCopy V} {w : World U}
  {cfg : Cfg} {vt : V}

/-! ### Two containers -/

/-- A heap with two live blocks. -/
def Ex.twoHeap (l0 l1 : Layout) : Heap := ⟨2, fun i => if i = 0 then some l0 else if i = 1 then some l1 else none⟩

theorem Ex.twoHeap_wf (l0 l1 : Layout) : (Ex.twoHeap l0 l1).WF := by
  intro i hi
  simp only [Ex.twoHeap] at *
  have h0 : i ≠ 0 := by omega
  have h1 : i ≠ 1 := by omega
  simp [h0, h1]

/-- The container `c123` next to a second one holding `[3u32]`. -/
def Ex.other : VecCopy Unit := ⟨⟨some 1, 1, 2, ElemInfo.new Ex.env 2, Ex.a3⟩, ()⟩
def Ex.world2 : World (VecCopy Unit × Ex.Log) := ⟨Ex.twoHeap ⟨16, 4⟩ ⟨8, 4⟩, (Ex.other, [])⟩
theorem Ex.c123_repr2 : Repr Ex.env Ex.world2.heap 2 [Ex.a1, Ex.a2, Ex.a3] Ex.c123.data :=
  ⟨rfl, rfl, rfl, by decide, rfl, by decide, rfl, by decide, by decide, by unfold Room; decide, 0, rfl, rfl⟩
theorem Ex.other_repr : Repr Ex.env Ex.world2.heap 2 [Ex.a3] Ex.world2.user.1.data :=
  ⟨rfl, rfl, rfl, by decide, rfl, by decide, rfl, by decide, by decide, by unfold Room; decide, 1, rfl, rfl⟩

example := C08_veccopy_append_partial (cfg := ⟨true⟩) Ex.c123_repr2 Ex.other_repr (Ex.twoHeap_wf _ _) (by decide)
  (by unfold Room; decide) (by unfold BadGrowth; decide)

/-- A second container of another type. -/
def Ex.other64 : VecCopy Unit := ⟨⟨some 1, 1, 2, ElemInfo.new Ex.env 5, Ex.b1⟩, ()⟩
def Ex.world2' : World (VecCopy Unit × Ex.Log) := ⟨Ex.twoHeap ⟨16, 4⟩ ⟨16, 8⟩, (Ex.other64, [])⟩
example := C02_veccopy_append_mismatch (cfg := ⟨true⟩) (w := Ex.world2') (c := Ex.c123) (Γ := Ex.env) (t := 2) (t' := 5)
  (es := [Ex.a1, Ex.a2, Ex.a3]) (es' := [Ex.b1])
  ⟨rfl, rfl, rfl, by decide, rfl, by decide, rfl, by decide, by decide, by unfold Room; decide, 0, rfl, rfl⟩
  ⟨rfl, rfl, rfl, by decide, rfl, by decide, rfl, by decide, by decide, by unfold Room; decide, 1, rfl, rfl⟩ (by decide)

/-- The full claim of C08: appending never fails for two containers of the same type. -/
def C08_veccopy_full : Prop :=
  ∀ (U V : Type) (Γ : TyEnv U) (t : TyId) (es es' : List Bytes) (c : VecCopy V) (w : World (VecCopy V × U)) (cfg : Cfg),
    Repr Γ w.heap t es c.data → Repr Γ w.heap t es' w.user.1.data → w.heap.WF → w.user.1.data.ptr ≠ c.data.ptr →
    Room Γ t (max 8 (max (2 * c.data.cap) (es.length + es'.length))) →
    ∃ s', VecCopy.append Γ cfg (c, w) = (.ok (some ()), s') ∧ Repr Γ s'.2.heap t (es ++ es') s'.1.data

/-- Two `[u8; 3]` containers of capacity 1. -/
def Ex.b3 : Bytes := [some 1, some 2, some 3]
def Ex.world3 : World (VecCopy Unit × Ex.Log) :=
  ⟨Ex.twoHeap ⟨3, 1⟩ ⟨3, 1⟩, (⟨⟨some 1, 1, 1, ElemInfo.new Ex.env 3, Ex.b3⟩, ()⟩, [])⟩

theorem C08_veccopy_append_refuted : ¬ C08_veccopy_full := by
  intro h
  obtain ⟨s', hrun, -⟩ := h Ex.Log Unit Ex.env 3 [Ex.b3] [Ex.b3] Ex.bad3 Ex.world3 ⟨true⟩
    ⟨rfl, rfl, rfl, by decide, rfl, by decide, rfl, by decide, by decide, by unfold Room; decide, 0, rfl, rfl⟩
    ⟨rfl, rfl, rfl, by decide, rfl, by decide, rfl, by decide, by decide, by unfold Room; decide, 1, rfl, rfl⟩
    (Ex.twoHeap_wf _ _) (by decide) (by unfold Room; decide)
  have : (VecCopy.append Ex.env ⟨true⟩ (Ex.bad3, Ex.world3)).1 = .panic .assertion := by decide
  rw [hrun] at this
  cases this

/-! ### C06 untyped push -/

/-- Pushing a value of the element type appends it, for element types whose size equals their
alignment. What is missing: all other types, see `C06_veccopy_push_always_panics`. -/
theorem C06_veccopy_push_partial (R : Repr Γ w.heap t es c.data) (wf : w.heap.WF) (vt' : W) {x : Bytes}
    (hx : x.length = Γ.size t) (hsa : Γ.size t = Γ.align t)
    (hroom : Room Γ t (max 8 (max (2 * c.data.cap) (es.length + 1)))) :
    ∃ d h', VecCopy.push Γ cfg (CopyValue.new Γ t vt' x) (c, w) =
        (.ok (some ()), ({ c with data := d }, { w with heap := h' })) ∧
      Evolves Γ t (es.length + 1) (es ++ [x]) w.heap c.data h' d :=
  VecCopy.push_ok R wf hsa rfl hx hroom

example := C06_veccopy_push_partial (cfg := ⟨true⟩) Ex.c123_repr Ex.w4_wf () (x := Ex.a2) rfl rfl (by unfold Room; decide)

/-- For every element type whose size differs from its alignment, pushing a value of the element
type panics, loses the whole content and leaks a block. -/
theorem C06_veccopy_push_always_panics (R : Repr Γ w.heap t es c.data) (wf : w.heap.WF) (vt' : W) {x : Bytes}
    (hx : x.length = Γ.size t) (hsa : Γ.size t ≠ Γ.align t)
    (hroom : Room Γ t (max 8 (max (2 * c.data.cap) (es.length + 1)))) :
    ∃ i l h', VecCopy.push Γ cfg (CopyValue.new Γ t vt' x) (c, w) =
        (.panic .assertion, ({ c with data := VecVoid.default Γ }, { w with heap := h' })) ∧ h'.live i = some l := by
  obtain ⟨p, h', h1, -, i, l, -, h2⟩ := VecCopy.push_bad (cfg := cfg) (v := CopyValue.new Γ t vt' x) R wf hsa rfl hx hroom
  exact ⟨i, l, h', h1, h2⟩

/-- A container of two `(u32, u32)` with capacity 4. -/
def Ex.cp : VecCopy Unit := ⟨Ex.vec 4 [Ex.b1, Ex.b2] 4, ()⟩
theorem Ex.cp_repr : Repr Ex.env (Ex.world 4 4).heap 4 [Ex.b1, Ex.b2] Ex.cp.data :=
  Ex.vec_repr (by decide) (by decide) (by decide) (by decide) (by unfold Room; decide)

example := C06_veccopy_push_always_panics (cfg := ⟨true⟩) Ex.cp_repr (Ex.oneHeap_wf _) () (x := Ex.b1) rfl (by decide)
  (by unfold Room; decide)

/-- The full claim of C06 for `VecCopy`. -/
def C06_veccopy_full : Prop :=
  ∀ (U V : Type) (Γ : TyEnv U) (t : TyId) (es : List Bytes) (c : VecCopy V) (w : World U) (cfg : Cfg) (vt : V) (x : Bytes),
    Repr Γ w.heap t es c.data → w.heap.WF → x.length = Γ.size t →
    Room Γ t (max 8 (max (2 * c.data.cap) (es.length + 1))) →
    ∃ s', VecCopy.push Γ cfg (CopyValue.new Γ t vt x) (c, w) = (.ok (some ()), s') ∧
      Repr Γ s'.2.heap t (es ++ [x]) s'.1.data

theorem C06_veccopy_push_refuted : ¬ C06_veccopy_full := by
  intro h
  obtain ⟨s', hrun, -⟩ := h _ _ Ex.env 4 _ Ex.cp (Ex.world 4 4) ⟨true⟩ () Ex.b1 Ex.cp_repr (Ex.oneHeap_wf _) rfl
    (by unfold Room; decide)
  obtain ⟨i, l, h', hbad, -⟩ := C06_veccopy_push_always_panics (cfg := ⟨true⟩) Ex.cp_repr (Ex.oneHeap_wf _) () (x := Ex.b1)
    rfl (by decide) (by unfold Room; decide)
  rw [hrun] at hbad
  cases hbad

/-- A value of another type but the same size is refused without any change; a value of another
size panics without any change. -/
theorem C06_veccopy_push_other (R : Repr Γ w.heap t es c.data) {t' : TyId} (ht : t' ≠ t) (vt' : W) {x : Bytes}
    (hx : x.length = Γ.size t') :
    VecCopy.push Γ cfg (CopyValue.new Γ t' vt' x) (c, w) =
      if Γ.size t' = Γ.size t then (.ok none, (c, w)) else (.panic .assertion, (c, w)) := by
  split
  · rename_i h; exact VecCopy.push_mismatch R ht (hx.trans h)
  · rename_i h; exact VecCopy.push_badSize R (by rw [show (CopyValue.new Γ t' vt' x).bytes = x from rfl, hx]; exact h)

example := C06_veccopy_push_other (cfg := ⟨true⟩) (w := Ex.world 2 4) Ex.c123_repr (t' := 5) (by decide) () (x := Ex.b1) rfl

/-! ### C07 extend and collect -/

/-- `extend` appends the values in order (element types with size = alignment). The size hint of
the iterator is a lower bound, as the `Iterator` contract demands. -/
theorem C07_veccopy_extend_partial (R : Repr Γ w.heap t es c.data) (wf : w.heap.WF) (xs : List Bytes)
    (hx : ∀ x ∈ xs, x.length = Γ.size t) (hsa : Γ.size t = Γ.align t) {hint : Nat} (hh : hint ≤ xs.length)
    (hroom : Room Γ t (max 16 (max (2 * c.data.cap) (4 * (es.length + xs.length))))) :
    ∃ d h', VecCopy.extend Γ cfg hint (xs.map (CopyValue.new Γ t vt)) (c, w) =
        (.ok (), ({ c with data := d }, { w with heap := h' })) ∧
      Evolves Γ t (es.length + xs.length) (es ++ xs) w.heap c.data h' d := by
  have := VecCopy.extend_ok (cfg := cfg) (hint := hint) (xs.map (CopyValue.new Γ t vt)) hsa R wf
    (by intro v hv; obtain ⟨x, hx', rfl⟩ := List.mem_map.1 hv; exact ⟨rfl, hx x hx'⟩) (by simpa using hh)
    (by simpa using hroom)
  simpa [CopyValue.new, Function.comp_def] using this

example := C07_veccopy_extend_partial (cfg := ⟨true⟩) (vt := ()) Ex.c123_repr Ex.w4_wf [Ex.a1, Ex.a1, Ex.a2] (by decide) rfl
  (hint := 2) (by decide) (by unfold Room; decide)

/-- Collecting a non-empty sequence of values of one type (size = alignment) builds a container with
exactly these values, and the table of the first one; other blocks are untouched. -/
theorem C07_veccopy_collect_partial (wf : w.heap.WF) (x : Bytes) (xs : List Bytes)
    (hx : ∀ y ∈ x :: xs, y.length = Γ.size t) (hpos : 0 < Γ.size t) (hsa : Γ.size t = Γ.align t)
    {hint : Nat} (hh : hint ≤ xs.length) (hroom : Room Γ t (max 16 (4 * (xs.length + 1)))) :
    ∃ c h', VecCopy.fromIter Γ cfg hint ((x :: xs).map (CopyValue.new Γ t vt)) w = (.ok c, { w with heap := h' }) ∧
      Repr Γ h' t (x :: xs) c.data ∧ c.vtable = vt ∧ Realloc w.heap none h' c.data.ptr := by
  have hx0 : x.length = Γ.size t := hx x (by simp)
  obtain ⟨c0, h0, hrun0, hR0, hvt0, hcap0, hre0⟩ := C46_with_type_from (Γ := Γ) (t := t) (w := w) hpos wf vt
  have hmeta : Meta.ofValue x t (Γ.align t) vt = ⟨ElemInfo.new Γ t, vt⟩ := by
    simp [Meta.ofValue, ElemInfo.new, hx0]
  have hwf0 := hre0.wf
  have hc1 : c0.data.cap = 1 := hcap0
  obtain ⟨d1, h1, hrun1, hev1⟩ := VecCopy.push_ok (cfg := cfg) (w := { w with heap := h0 }) (v := CopyValue.new Γ t vt x)
    hR0 hwf0 hsa rfl hx0 (hroom.mono (by simp [hc1]; omega))
  have hb1 := hev1.cap_bound
  simp only [List.length_nil, hc1] at hb1
  obtain ⟨d2, h2, hrun2, hev2⟩ := C07_veccopy_extend_partial (cfg := cfg) (vt := vt) (c := { c0 with data := d1 })
    (w := { w with heap := h1 }) hev1.repr hev1.wf xs (fun y hy => hx y (by simp [hy])) hsa hh
    (hroom.mono (by simp; omega))
  have hl := withLocal_ok (d := VecCopy.drop cfg) (x := c0) (w := { w with heap := h0 })
    (m := (do let _ ← VecCopy.push Γ cfg (CopyValue.new Γ t vt x); VecCopy.extend Γ cfg hint (xs.map (CopyValue.new Γ t vt)) :
      M (VecCopy V × World U) Unit)) (a := ()) (x' := { c0 with data := d2 }) (w' := { w with heap := h2 }) (by
        rw [M.bind_ok hrun1]; exact hrun2)
  have hev := Evolves.trans hR0 hwf0 hev1 hev2 (by simp)
  refine ⟨{ c0 with data := d2 }, h2, ?_, by simpa [CopyValue.new] using hev.repr, hvt0,
    Realloc.trans wf (fun i hi => by cases hi) hre0 hev.realloc⟩
  · have e : (CopyValue.new Γ t vt x : CopyValue V) = ⟨x, t, Γ.align t, vt⟩ := rfl
    simp only [VecCopy.fromIter, List.map_cons]
    rw [show Meta.ofValue (CopyValue.new Γ t vt x).bytes (CopyValue.new Γ t vt x).type_id
      (CopyValue.new Γ t vt x).alignment (CopyValue.new Γ t vt x).vtable = ⟨ElemInfo.new Γ t, vt⟩ from hmeta]
    simp only [M.bind_run, hrun0, hl, M.pure_run]

example := C07_veccopy_collect_partial (cfg := ⟨true⟩) (Γ := Ex.env) (t := 2) (vt := ()) (w := Ex.world 2 4) Ex.w4_wf Ex.a1
  [Ex.a2, Ex.a3] (by decide) (by decide) rfl (hint := 2) (by decide) (by unfold Room; decide)

/-- Collecting nothing panics. -/
theorem C07_veccopy_collect_empty (hint : Nat) :
    VecCopy.fromIter Γ cfg hint ([] : List (CopyValue V)) w = (.panic .unwrapNone, w) := rfl

/-- The full claim of C07: all element types of non-zero size can be collected. -/
def C07_veccopy_full : Prop :=
  ∀ (U V : Type) (Γ : TyEnv U) (t : TyId) (vt : V) (w : World U) (cfg : Cfg) (x : Bytes) (xs : List Bytes),
    w.heap.WF → (∀ y ∈ x :: xs, y.length = Γ.size t) → 0 < Γ.size t → Room Γ t (max 16 (4 * (xs.length + 1))) →
    ∃ c w', VecCopy.fromIter Γ cfg xs.length ((x :: xs).map (CopyValue.new Γ t vt)) w = (.ok c, w') ∧
      Repr Γ w'.heap t (x :: xs) c.data

/-- Collecting two `(u32, u32)` panics. -/
theorem C07_veccopy_refuted : ¬ C07_veccopy_full := by
  intro h
  obtain ⟨c, w', hrun, -⟩ := h _ _ Ex.env 4 () (Ex.world 4 4) ⟨true⟩ Ex.b1 [Ex.b2] (Ex.oneHeap_wf _) (by decide) (by decide)
    (by unfold Room; decide)
  have : (VecCopy.fromIter Ex.env ⟨true⟩ 1 ([Ex.b1, Ex.b2].map (CopyValue.new Ex.env 4 ())) (Ex.world 4 4)).1 =
    .panic .assertion := by decide
  simp only [List.length_cons, List.length_nil] at hrun
  rw [hrun] at this
  cases this

/-- `extend` stops at the first value of another type: it panics, and the container keeps what it
had plus the values before that one. -/
theorem C07_veccopy_extend_mismatch (R : Repr Γ w.heap t es c.data) (wf : w.heap.WF) (xs : List Bytes)
    (hx : ∀ x ∈ xs, x.length = Γ.size t) (hsa : Γ.size t = Γ.align t) {t' : TyId} (ht : t' ≠ t) (y : Bytes)
    (rest : List (CopyValue V)) {hint : Nat} (hh : hint ≤ xs.length + 1 + rest.length)
    (hroom : Room Γ t (max 16 (max (2 * c.data.cap) (4 * (es.length + (xs.length + 1 + rest.length)))))) :
    ∃ d h', VecCopy.extend Γ cfg hint (xs.map (CopyValue.new Γ t vt) ++ CopyValue.new Γ t' vt y :: rest) (c, w) =
        (.panic .assertion, ({ c with data := d }, { w with heap := h' })) ∧
      Evolves Γ t (es.length + (xs.length + 1 + rest.length)) (es ++ xs) w.heap c.data h' d := by
  have hbad : ¬ BadGrowth Γ t c.data.cap (es.length + hint) := by
    rintro ⟨h3, h1, -⟩; omega
  obtain ⟨d, h', hrun, hev, -⟩ := VecCopy.reserve_ok (cfg := cfg) (n := hint) R wf (hroom.mono (by omega)) hbad
  have hcb := hev.cap_bound
  obtain ⟨d2, h2, hrun2, hev2⟩ := VecCopy.extendLoop_ok (cfg := cfg) (xs.map (CopyValue.new Γ t vt)) hsa
    (by intro v hv; obtain ⟨x, hx', rfl⟩ := List.mem_map.1 hv; exact ⟨rfl, hx x hx'⟩) (c := { c with data := d })
      (w := { w with heap := h' }) hev.repr hev.wf (hroom.mono (by simp; omega))
  have hev3 := Evolves.trans R wf (n2 := es.length + (xs.length + 1 + rest.length)) hev
    ⟨hev2.repr, hev2.realloc, hev2.cap_le, Nat.le_trans hev2.cap_bound (by simp; omega), fun hn => hev2.stay (by
      simp; omega)⟩ (by omega)
  refine ⟨d2, h2, ?_, by simpa [CopyValue.new, Function.comp_def] using hev3⟩
  unfold VecCopy.extend
  rw [M.bind_ok hrun, M.forEach_append, M.bind_ok hrun2]
  have hb' : ((CopyValue.new Γ t' vt y).type_id == VecCopy.elementTypeId ({ c with data := d2 } : VecCopy V)) = false := by
    simp only [VecCopy.elementTypeId, hev2.repr.type_id, CopyValue.new]; simpa using ht
  simp only [M.forEach_cons, M.bind_run, getSelf_run, hb', M.assert_false_run]
  cases ((CopyValue.new Γ t' vt y).size == VecCopy.elementSize ({ c with data := d2 } : VecCopy V)) <;> rfl

example := C07_veccopy_extend_mismatch (cfg := ⟨true⟩) (vt := ()) Ex.c123_repr Ex.w4_wf [Ex.a1] (by decide) rfl
  (t' := 5) (by decide) Ex.b1 [] (hint := 2) (by decide) (by unfold Room; decide)

/-! ### C40 alignment dispatch, C41 element information -/

/-- The dispatch selects, for the alignment of every Rust type, a type with exactly this size and
alignment. -/
theorem C40_dispatch (Γ : TyEnv U) (t : TyId) {σ : Type} (f : Layout → M σ α) :
    evalAlign (Γ.align t) f = f ⟨Γ.align t, Γ.align t⟩ := evalAlign_align Γ t f

/-- The restricted dispatch does so up to alignment 8192 … -/
theorem C40_dispatch_limited_partial (Γ : TyEnv U) (t : TyId) (h : Γ.align t ≤ 8192) {σ : Type} (f : Layout → M σ α) :
    evalAlignLimited (Γ.align t) f = f ⟨Γ.align t, Γ.align t⟩ := evalAlignLimited_align Γ t f h

example := C40_dispatch_limited_partial Ex.env 5 (by decide) (fun T => (pure T.size : M Unit Nat))

/-- … the full claim fails: -/
def C40_limited_full : Prop :=
  ∀ (U : Type) (Γ : TyEnv U) (t : TyId) (f : Layout → M Unit Nat),
    evalAlignLimited (Γ.align t) f = f ⟨Γ.align t, Γ.align t⟩

theorem C40_limited_refuted : ¬ C40_limited_full := by
  intro h
  have := congrArg (fun m : M Unit Nat => (m ()).1) (h _ Ex.env 6 (fun T => pure T.size))
  have h2 : ((evalAlignLimited (Ex.env.align 6) (fun T => (pure T.size : M Unit Nat))) ()).1 = .panic .unreachable := by
    decide
  rw [h2] at this
  cases this

/-- The recorded element information reproduces the size and alignment of every type, and equal type
ids mean equal layouts. -/
theorem C41_elem_info (Γ : TyEnv U) (t t' : TyId) :
    (ElemInfo.new Γ t).numBytes = Γ.size t ∧ (ElemInfo.new Γ t).alignment = Γ.align t ∧
    ((ElemInfo.new Γ t).type_id = (ElemInfo.new Γ t').type_id → ElemInfo.new Γ t = ElemInfo.new Γ t') := by
  refine ⟨Nat.div_mul_cancel (Γ.align_dvd t), rfl, ?_⟩
  intro h
  have : t = t' := h
  rw [this]

/-- The element information recorded for a type from the bytes of one of its values is the same. -/
theorem C41_from_value (Γ : TyEnv U) (t : TyId) (vt : V) {x : Bytes} (hx : x.length = Γ.size t) :
    Meta.ofValue x t (Γ.align t) vt = ⟨ElemInfo.new Γ t, vt⟩ := by
  simp [Meta.ofValue, ElemInfo.new, hx]

example := C41_from_value Ex.env 4 () (x := Ex.b1) rfl

/-! ### C45 panics and the state of the container -/

/-- Panics caused by arguments that leave the container exactly as it was. -/
theorem C45_veccopy_partial (R : Repr Γ w.heap t es c.data) :
    (∀ i t', es.length ≤ i → VecCopy.getAs Γ t' i c w = (.panic .assertion, w)) ∧
    (∀ i t' (m : M (Bytes × World U) α), es.length ≤ i →
      VecCopy.getMutAs Γ t' i m (c, w) = (.panic .assertion, (c, w))) ∧
    (∀ (vt' : W) t' x, x.length = Γ.size t' → Γ.size t' ≠ Γ.size t →
      VecCopy.push Γ cfg (CopyValue.new Γ t' vt' x) (c, w) = (.panic .assertion, (c, w))) ∧
    (∀ src : List Bytes, src.length ≠ es.length →
      VecCopy.copyFromSlice Γ cfg t src (c, w) = (.panic .lenMismatch, (c, w))) ∧
    (∀ i j, i ≠ j → es.length ≤ i ∨ es.length ≤ j → NoWrap cfg ((i + 1) * Γ.size t) → NoWrap cfg ((j + 1) * Γ.size t) →
      ∃ y, VecCopy.swap cfg i j (c, w) = (.panic y, (c, w))) := by
  refine ⟨fun i t' hi => VecCopy.getAs_out R hi w, fun i t' m hi => C27_veccopy_get_mut_as R hi t' m, ?_,
    fun src hl => C12_veccopy_copy_from_slice_other_len R hl, ?_⟩
  · intro vt' t' x hx hne
    exact VecCopy.push_badSize R (by rw [show (CopyValue.new Γ t' vt' x).bytes = x from rfl, hx]; exact hne)
  · intro i j hij hout hw hw'
    obtain ⟨s, hs, hvt, hrun⟩ := VecCopy.asMutSlice_run R (SliceCopy.swap cfg i j)
    obtain ⟨y, hy⟩ := C22_slice_swap_out_partial hs hij hout hw hw'
    refine ⟨y, ?_⟩
    simp only [VecCopy.swap, hrun, hy]
    rw [splice_whole (by rw [hs.data, R.mem]), hs.data, ← R.mem]

example := C45_veccopy_partial (W := Unit) (α := Unit) (cfg := ⟨true⟩) (w := Ex.world 2 4) Ex.c123_repr

/-- The full claim for rotation. -/
def C45_rotate_full : Prop :=
  ∀ (U V : Type) (Γ : TyEnv U) (t : TyId) (es : List Bytes) (c : VecCopy V) (w : World U) (cfg : Cfg) (n : Nat) (y : Why)
    (s' : VecCopy V × World U), Repr Γ w.heap t es c.data → w.heap.WF →
    VecCopy.rotateLeft Γ cfg n (c, w) = (.panic y, s') → Repr Γ s'.2.heap t es s'.1.data

/-- Rotating by more than the length panics, frees the buffer and turns the container into one of
element type `()`: content and type are gone. -/
theorem C45_rotate_loses_content (R : Repr Γ w.heap t es c.data) {n : Nat} (hn : es.length < n)
    (hov : n * Γ.size t ≤ usizeMax) (ha : Γ.align t ≤ 8192) :
    ∃ i, c.data.ptr = some i ∧ VecCopy.rotateLeft Γ cfg n (c, w) =
      (.panic .assertion, ({ c with data := VecVoid.default Γ }, { w with heap := w.heap.free i })) := by
  have hov' : n * c.data.elem.size ≤ usizeMax := by
    refine Nat.le_trans (Nat.mul_le_mul_left _ ?_) hov
    rw [← R.chunks]; exact Nat.le_mul_of_pos_right _ (align_pos Γ t)
  obtain ⟨i, hp, hrun⟩ := VecVoid.rotateLeft_panic (cfg := cfg) R (by rw [R.len]; exact hn) hov' ha
  exact ⟨i, hp, by simp only [VecCopy.rotateLeft, VecCopy.onData_run, hrun]⟩

theorem C45_rotate_refuted : ¬ C45_rotate_full := by
  intro h
  obtain ⟨i, -, hrun⟩ := C45_rotate_loses_content (cfg := ⟨true⟩) (w := Ex.world 2 4) Ex.c123_repr (n := 4) (by decide)
    (by decide) (by decide)
  have := h _ _ _ _ _ _ _ _ _ _ _ Ex.c123_repr Ex.w4_wf hrun
  have h2 : Ex.env.unitTy = 2 := this.type_id
  revert h2; decide

/-- The container left behind still can be dropped without undefined behaviour. -/
theorem C45_default_drops (w : World U) : VecVoid.drop cfg (VecVoid.default Γ) w = (.ok (), w) := by
  have ha : (VecVoid.default Γ).elem.alignment = Γ.align Γ.unitTy := rfl
  have hs : (VecVoid.default Γ).elem.size = 0 := by simp [VecVoid.default, ElemInfo.new, Γ.unit_size]
  simp only [VecVoid.drop, ha, evalAlign_align, M.bind_run, VecVoid.alignedVec, hs]
  simp [VecVoid.default, debugAssert_ok, RVec.fromRawParts, RVec.dropBuf, worldHeap, dealloc]

/-! ### C48 writes through mutable views of a `VecCopy` -/

/-- `get_mut_as(i)`: whatever the caller stores becomes element `i`, nothing else changes; also if
the caller panics after the write. -/
theorem C48_veccopy_get_mut_as (R : Repr Γ w.heap t es c.data) (wf : w.heap.WF) {i : Nat} (hi : i < es.length)
    {m : M (Bytes × World U) α} {r : Res α} {x : Bytes} {w' : World U}
    (hm : m (es[i], w) = (r, (x, w'))) (hx : x.length = Γ.size t) :
    ∃ d, VecCopy.getMutAs Γ t i m (c, w) = (r.map some, ({ c with data := d }, w')) ∧
      Evolves Γ t 0 (es.set i x) w.heap c.data w.heap d := VecCopy.getMutAs_ok R wf hi hm hx

example := C48_veccopy_get_mut_as (α := Unit) Ex.c123_repr Ex.w4_wf (i := 1) (by decide)
  (m := M.modify fun s => (Ex.a1, s.2)) rfl rfl

/-- `get_mut(i)` gives a value that is element `i`; writing it (here: any computation that
keeps the number of bytes) changes element `i` only. -/
theorem C48_veccopy_get_mut (R : Repr Γ w.heap t es c.data) (wf : w.heap.WF) {i : Nat} (hi : i < es.length)
    {m : M (CopyValue V × World U) α} {r : Res α} {x : CopyValue V} {w' : World U}
    (hm : m (⟨es[i], t, Γ.align t, c.vtable⟩, w) = (r, (x, w'))) (hx : x.bytes.length = Γ.size t) :
    ∃ d, VecCopy.getMut cfg i m (c, w) = (r, ({ c with data := d }, w')) ∧
      Evolves Γ t 0 (es.set i x.bytes) w.heap c.data w.heap d := VecCopy.getMut_ok R wf hi hm hx

example := C48_veccopy_get_mut (α := Unit) (cfg := ⟨false⟩) Ex.c123_repr Ex.w4_wf (i := 1) (by decide)
  (m := M.modify fun s => ({ s.1 with bytes := Ex.a1 }, s.2)) rfl rfl

/-- `iter_mut`: a loop over the untyped values does to the elements what the loop `g` over the typed
elements does, including when it panics half way. -/
theorem C48_veccopy_iter_mut (R : Repr Γ w.heap t es c.data) (wf : w.heap.WF)
    {body : M (CopyValue V × World U) Unit} {g : M (Bytes × World U) Unit}
    (hP : ∀ e w, e.length = Γ.size t → (g (e, w)).2.1.length = Γ.size t)
    (hb : ∀ e w, e.length = Γ.size t → body (⟨e, t, Γ.align t, c.vtable⟩, w) =
      ((g (e, w)).1, (⟨(g (e, w)).2.1, t, Γ.align t, c.vtable⟩, (g (e, w)).2.2))) :
    ∃ d r fs w', VecCopy.iterMut body (c, w) = (r, ({ c with data := d }, w')) ∧
      visitMut g es w = (r, (fs, w')) ∧ Evolves Γ t 0 fs w.heap c.data w.heap d := by
  obtain ⟨d, h1, h2⟩ := VecCopy.iterMut_ok R wf hP hb
  exact ⟨d, _, _, _, h1, rfl, h2⟩

example := C48_veccopy_iter_mut Ex.c123_repr Ex.w4_wf
  (body := M.modify fun s => ({ s.1 with bytes := s.1.bytes.reverse }, s.2))
  (g := M.modify fun s => (s.1.reverse, s.2)) (by intro e w h; simpa using h) (fun _ _ _ => rfl)

/-- `as_mut_slice_as`: the caller's computation on the typed slice decides the new content. -/
theorem C48_veccopy_as_mut_slice_as (R : Repr Γ w.heap t es c.data) (wf : w.heap.WF)
    {m : M (List Bytes × World U) α} {a : α} {fs : List Bytes} {w' : World U} (hm : m (es, w) = (.ok a, (fs, w')))
    (hf : ∀ e ∈ fs, e.length = Γ.size t) (hl : fs.length = es.length) :
    ∃ d, VecCopy.asMutSliceAs Γ t m (c, w) = (.ok (some a), ({ c with data := d }, w')) ∧
      Evolves Γ t 0 fs w.heap c.data w.heap d :=
  ⟨_, VecCopy.asMutSliceAs_ok R hm hf hl, Evolves.setContent R wf hf (by rw [hl]; exact R.len_cap) rfl rfl rfl⟩

example := C48_veccopy_as_mut_slice_as (α := Unit) Ex.c123_repr Ex.w4_wf (m := M.modify fun s => (s.1.reverse, s.2)) rfl
  (by decide) rfl

/-- `as_mut_slice`: everything done to the untyped view is done to the container, and nothing else
is touched. -/
theorem C48_veccopy_as_mut_slice (R : Repr Γ w.heap t es c.data) (wf : w.heap.WF) {m : M (SliceCopy V) α} {r : Res α}
    {fs : List Bytes} (hf : ∀ e ∈ fs, e.length = Γ.size t) (hl : fs.length = es.length)
    (hm : ∀ s : SliceCopy V, SRepr Γ t es s → s.vtable = c.vtable → (m s).1 = r ∧ (m s).2.data = fs.flatten) :
    ∃ d, VecCopy.asMutSlice m (c, w) = (r, ({ c with data := d }, w)) ∧
      Evolves Γ t 0 fs w.heap c.data w.heap d := VecCopy.asMutSlice_ok R wf hf hl hm

/-- In particular `swap` through that view. -/
theorem C22_veccopy_swap (R : Repr Γ w.heap t es c.data) (wf : w.heap.WF) {i j : Nat} (hi : i < es.length)
    (hj : j < es.length) :
    ∃ d, VecCopy.swap cfg i j (c, w) = (.ok (), ({ c with data := d }, w)) ∧
      Evolves Γ t 0 ((es.set i es[j]).set j es[i]) w.heap c.data w.heap d := by
  refine C48_veccopy_as_mut_slice R wf ?_ (by simp) ?_
  · intro e he
    rcases List.mem_or_eq_of_mem_set he with he | rfl
    · rcases List.mem_or_eq_of_mem_set he with he | rfl
      · exact R.each e he
      · exact R.each _ (List.getElem_mem hj)
    · exact R.each _ (List.getElem_mem hi)
  · intro s S _
    rw [S.swap hi hj]
    exact ⟨rfl, rfl⟩

example := C22_veccopy_swap (cfg := ⟨true⟩) Ex.c123_repr Ex.w4_wf (i := 0) (j := 2) (by decide) (by decide)

end Dync
