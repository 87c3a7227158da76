import Verif.TablePanic
import Verif.Props.Convert
import Verif.DynMachineLemmas6
/-!
# C93 What a panic of table code does to elements and memory

`V::build_vtable`, `V::clone` and `U::from` are user code. The theorems say, for every function of the crate that
calls one of them, when it is called (after everything else is done), what the function returns if it returns,
and what is left if it panics.
-/
namespace Dync
variable {U V W B : Type} {Γ : TyEnv U} {t : TyId} {es : List Bytes} {w : World U} {cfg : Cfg}

/-! ### Specification -/

/-- In world `w` the function `f` makes a container of the elements `es`, using up the block `p` (if any), and
then runs the table code `tab`, which finds the user state `u1`. If that returns a table, the container holds
`es` and that table. If it panics, the memory is as before the call without the block `p`: the new buffer is
freed. No destructor runs: the user state is the one the table code left. -/
def MakesThen (Γ : TyEnv U) (f : M (World U) (VecCopy V)) (w : World U) (p : Ptr) (t : TyId) (es : List Bytes)
    (u1 : U) (tab : M U V) : Prop :=
  ∃ d h', Repr Γ h' t es d ∧ Realloc w.heap p h' d.ptr ∧
    (∀ vt u, tab u1 = (.ok vt, u) → f w = (.ok ⟨d, vt⟩, ⟨h', u⟩)) ∧
    (∀ y u, tab u1 = (.panic y, u) → ∃ h'', f w = (.panic y, ⟨h'', u⟩) ∧ Realloc w.heap p h'' none)

/-! ### All constructors of containers have this shape -/

/-- Run `f`, then the table code; the buffer made by `f` is freed if that panics. -/
def thenTable (cfg : Cfg) (tab : M U V) (f : M (World U) (VecCopy W)) : M (World U) (VecCopy V) := do
  let c ← f
  let vt ← M.onUnwind (worldUser tab) (c.data.drop cfg)
  pure ⟨c.data, vt⟩

theorem onUnwind_user_ok {tab : M U V} {d : M (World U) Unit} {vt : V} {u : U} (h : tab w.user = (.ok vt, u)) :
    M.onUnwind (worldUser tab) d w = (.ok vt, { w with user := u }) := by
  simp only [M.onUnwind, worldUser_run, h]

theorem onUnwind_user_panic {tab : M U V} {d : M (World U) Unit} {y : Why} {u : U} {w' : World U}
    (h : tab w.user = (.panic y, u)) (hd : d { w with user := u } = (.ok (), w')) :
    M.onUnwind (worldUser tab) d w = (.panic y, w') := by
  simp only [M.onUnwind, worldUser_run, h, M.unwindDrop, hd]

theorem makesThen_of {f : M (World U) (VecCopy W)} {g : M (World U) (VecCopy V)} {tab : M U V} {c : VecCopy W}
    {h' : Heap} {u1 : U} {p : Ptr} (hg : g = thenTable cfg tab f) (wf : w.heap.WF)
    (hp : ∀ i, p = some i → i < w.heap.next) (hf : f w = (.ok c, ⟨h', u1⟩)) (R : Repr Γ h' t es c.data)
    (hre : Realloc w.heap p h' c.data.ptr) : MakesThen Γ g w p t es u1 tab := by
  subst hg
  refine ⟨c.data, h', R, hre, fun vt u hv => ?_, fun y u hv => ?_⟩
  · unfold thenTable
    rw [M.bind_ok hf, M.bind_ok (onUnwind_user_ok (w := ⟨h', u1⟩) hv)]
    rfl
  · obtain ⟨i, hi, hd⟩ := VecVoid.drop_spec (cfg := cfg) (w := (⟨h', u⟩ : World U)) R
    refine ⟨h'.free i, ?_, Realloc.trans wf hp (hi ▸ hre) (.freed hre.wf)⟩
    unfold thenTable
    rw [M.bind_ok hf, M.bind_panic (onUnwind_user_panic (w := ⟨h', u1⟩) hv hd)]

section shape
variable (Γ cfg t) (tab : M U V)

theorem VecCopy.fromVecT_eq (vec : RVec) :
    VecCopy.fromVecT Γ cfg t tab vec = thenTable cfg tab (VecCopy.fromVec Γ t () vec) := by
  simp only [VecCopy.fromVecT, VecCopy.fromVec, thenTable, bind_assoc, pure_bind]
theorem VecCopy.withTypeT_eq : VecCopy.withTypeT Γ cfg t tab = thenTable cfg tab (VecCopy.withType Γ t ()) :=
  VecCopy.fromVecT_eq ..
theorem VecCopy.withCapacityT_eq (n : Nat) :
    VecCopy.withCapacityT Γ cfg t tab n = thenTable cfg tab (VecCopy.withCapacity Γ t () n) := by
  simp only [VecCopy.withCapacityT, VecCopy.withCapacity, VecCopy.fromVecT_eq, thenTable, bind_assoc]
theorem VecCopy.withSizeT_eq (n : Nat) (x : Bytes) :
    VecCopy.withSizeT Γ cfg t tab n x = thenTable cfg tab (VecCopy.withSize Γ t () n x) := by
  simp only [VecCopy.withSizeT, VecCopy.withSize, VecCopy.fromVecT_eq, thenTable, bind_assoc]
theorem VecCopy.fromSliceT_eq (s : List Bytes) :
    VecCopy.fromSliceT Γ cfg t tab s = thenTable cfg tab (VecCopy.fromSlice Γ t () s) := by
  simp only [VecCopy.fromSliceT, VecCopy.fromSlice, VecCopy.fromVecT_eq, thenTable, bind_assoc]
theorem VecDyn.fromSliceT_eq (s : List Bytes) :
    VecDyn.fromSliceT Γ cfg t tab s = thenTable cfg tab (VecDyn.fromSlice Γ t () s) := by
  simp only [VecDyn.fromSliceT, VecDyn.fromSlice, VecCopy.fromVecT_eq, thenTable, bind_assoc]
theorem VecDyn.withSizeT_eq (n : Nat) (x : Bytes) :
    VecDyn.withSizeT Γ cfg t tab n x = thenTable cfg tab (VecDyn.withSize Γ t () n x) := by
  simp only [VecDyn.withSizeT, VecDyn.withSize, VecCopy.fromVecT_eq, thenTable, bind_assoc]
theorem VecCopy.withTypeFromT_eq (cl : V → M U V) (m : Meta V) :
    VecCopy.withTypeFromT cfg cl m = thenTable cfg (cl m.vtable) (VecCopy.withTypeFrom m) := by
  simp only [VecCopy.withTypeFromT, VecCopy.withTypeFrom, thenTable, bind_assoc, pure_bind]
theorem VecCopy.cloneT_eq (cl : V → M U V) (c : VecCopy V) :
    VecCopy.cloneT cfg cl c = thenTable cfg (cl c.vtable) (VecCopy.clone cfg c) := by
  simp only [VecCopy.cloneT, VecCopy.clone, thenTable, bind_assoc, pure_bind]
theorem VecDyn.cloneT_eq [HasClone U V] (cl : V → M U V) (c : VecDyn V) :
    VecDyn.cloneT cfg cl c = thenTable cfg (cl c.vtable) (VecDyn.clone cfg c) := by
  simp only [VecDyn.cloneT, VecDyn.clone, thenTable, bind_assoc, pure_bind]
theorem VecCopy.upcastT_eq (cl : V → M U V) (conv : V → M U W) (c : VecCopy V) :
    VecCopy.upcastT cfg cl conv c = thenTable cfg (cl c.vtable >>= conv) (pure c) := by
  simp only [VecCopy.upcastT, thenTable, pure_bind]

end shape

/-! ### C93 Containers -/

/-- `from_vec` of `VecCopy` and `VecDyn`: the vector's block is taken over or freed; if `build_vtable` panics
it is freed and its elements are never destroyed. -/
theorem C93_from_vec {rv : RVec} {build : M U V} (hv : IsVec Γ w.heap t es rv) (wf : w.heap.WF) (hpos : 0 < Γ.size t) :
    MakesThen Γ (VecCopy.fromVecT Γ cfg t build rv) w rv.ptr t es w.user build := by
  obtain ⟨p, k, h', hrun, hR, hre, -, -⟩ := VecCopy.fromVec_ok (vt := ()) hv wf hpos
  refine makesThen_of (VecCopy.fromVecT_eq ..) wf (fun i hi => ?_) hrun hR hre
  rcases hv.block with ⟨-, h0⟩ | ⟨-, j, hj, hl⟩
  · rw [h0] at hi; cases hi
  · rw [hj] at hi; cases hi; exact Heap.lt_next wf hl

/-- `with_type`, `with_capacity` of both containers. -/
theorem C93_with_type {build : M U V} (wf : w.heap.WF) (hpos : 0 < Γ.size t) :
    MakesThen Γ (VecCopy.withTypeT Γ cfg t build) w none t [] w.user build ∧
    ∀ n, Room Γ t n → MakesThen Γ (VecCopy.withCapacityT Γ cfg t build n) w none t [] w.user build := by
  refine ⟨?_, fun n hn => ?_⟩
  · obtain ⟨c, h', hrun, hR, -, hre, -⟩ := VecCopy.withType_ok (vt := ()) (w := w) wf hpos
    exact makesThen_of (VecCopy.withTypeT_eq ..) wf (fun i hi => by cases hi) hrun hR hre
  · obtain ⟨c, h', hrun, hR, -, hre, -⟩ := VecCopy.withCapacity_ok (vt := ()) (w := w) wf hpos hn
    exact makesThen_of (VecCopy.withCapacityT_eq ..) wf (fun i hi => by cases hi) hrun hR hre

/-- `VecCopy::with_size`, `VecCopy::from_slice`. -/
theorem C93_veccopy_from_slice {build : M U V} (wf : w.heap.WF) (hpos : 0 < Γ.size t) {s : List Bytes}
    (hs : ∀ e ∈ s, e.length = Γ.size t) (hroom : Room Γ t s.length) :
    MakesThen Γ (VecCopy.fromSliceT Γ cfg t build s) w none t s w.user build := by
  obtain ⟨c, h', hrun, hR, -, hre, -⟩ := VecCopy.fromSlice_ok (vt := ()) wf hpos hs hroom
  exact makesThen_of (VecCopy.fromSliceT_eq ..) wf (fun i hi => by cases hi) hrun hR hre

theorem C93_veccopy_with_size {build : M U V} (wf : w.heap.WF) (hpos : 0 < Γ.size t) {n : Nat} {x : Bytes}
    (hx : x.length = Γ.size t) (hroom : Room Γ t n) :
    MakesThen Γ (VecCopy.withSizeT Γ cfg t build n x) w none t (List.replicate n x) w.user build := by
  obtain ⟨p, h1, hc, wf1, hre1, hv⟩ := VecDyn.fresh_isVec (n := n) wf hpos hroom
  have hiv := hv (List.replicate n x) (by simp) (fun e he => by rw [List.eq_of_mem_replicate he]; exact hx)
  obtain ⟨p2, k, h2, hfv, hR, hre2, -, -⟩ := VecCopy.fromVec_ok (w := { w with heap := h1 }) (vt := ()) hiv wf1 hpos
  have hrun : VecCopy.withSize Γ t () n x w = (.ok ⟨⟨p2, n, k, ElemInfo.new Γ t, (List.replicate n x).flatten⟩, ()⟩, ⟨h2, w.user⟩) := by
    unfold VecCopy.withSize
    rw [M.bind_ok hc]
    simpa using hfv
  have hre := Realloc.trans wf (fun i hi => by cases hi) hre1 hre2
  rw [List.length_replicate] at hR
  exact makesThen_of (VecCopy.withSizeT_eq ..) wf (fun i hi => by cases hi) hrun hR hre

/-- `VecDyn::from_slice`: the elements are cloned first; if `build_vtable` panics then, all clones are lost. -/
theorem C93_vecdyn_from_slice {build : M U V} (wf : w.heap.WF) (hpos : 0 < Γ.size t) {s s' : List Bytes} {u' : U}
    (hroom : Room Γ t s.length) (hm : M.mapEach s (Γ.clone t) w.user = (.ok s', u')) :
    MakesThen Γ (VecDyn.fromSliceT Γ cfg t build s) w none t s' u' build := by
  obtain ⟨d, h', hrun, hR, hre, -⟩ := VecDyn.fromSlice_ok (vt := ()) wf hpos hroom hm
  exact makesThen_of (VecDyn.fromSliceT_eq ..) wf (fun i hi => by cases hi) hrun hR hre

/-- `VecDyn::with_size`: likewise, with the argument itself as the last element. -/
theorem C93_vecdyn_with_size {build : M U V} (wf : w.heap.WF) (hpos : 0 < Γ.size t) {n : Nat} {x : Bytes}
    {s' : List Bytes} {u' : U} (hroom : Room Γ t (n + 1)) (hx : x.length = Γ.size t)
    (hm : M.mapEach (List.replicate n x) (Γ.clone t) w.user = (.ok s', u')) :
    MakesThen Γ (VecDyn.withSizeT Γ cfg t build (n + 1) x) w none t (s' ++ [x]) u' build := by
  obtain ⟨d, h', hrun, hR, hre, -⟩ := VecDyn.withSize_ok (vt := ()) wf hpos hroom hx hm
  exact makesThen_of (VecDyn.withSizeT_eq ..) wf (fun i hi => by cases hi) hrun hR hre

/-- `with_type_from` of a container, slice or value reference. -/
theorem C93_with_type_from {cl : V → M U V} {vt : V} (wf : w.heap.WF) (hpos : 0 < Γ.size t) :
    MakesThen Γ (VecCopy.withTypeFromT cfg cl ⟨ElemInfo.new Γ t, vt⟩) w none t [] w.user (cl vt) := by
  obtain ⟨c, h', hrun, hR, -, -, hre⟩ := C46_with_type_from (w := w) hpos wf vt
  exact makesThen_of (VecCopy.withTypeFromT_eq ..) wf (fun i hi => by cases hi) hrun hR hre

/-- `VecCopy::clone`. The source is in no way affected. -/
theorem C93_veccopy_clone {cl : V → M U V} {c : VecCopy V} (R : Repr Γ w.heap t es c.data) (wf : w.heap.WF) :
    MakesThen Γ (VecCopy.cloneT cfg cl c) w none t es w.user (cl c.vtable) := by
  have hrun : VecCopy.clone cfg c w = (.ok ⟨⟨some w.heap.next, c.data.len, c.data.cap, c.data.elem, c.data.mem⟩, c.vtable⟩,
      ⟨(w.heap.alloc ⟨c.data.cap * Γ.size t, Γ.align t⟩).2, w.user⟩) := by
    simp only [VecCopy.clone, M.bind_run, VecVoid.clone_spec R, M.pure_run]
  have hpos : c.data.cap * Γ.size t ≠ 0 :=
    Nat.mul_ne_zero (by have := R.cap_pos; omega) (by have := R.pos; omega)
  have hal := Heap.alloc_live (h := w.heap) (l := ⟨c.data.cap * Γ.size t, Γ.align t⟩) hpos
  have hre := Realloc.ofAlloc wf ⟨c.data.cap * Γ.size t, Γ.align t⟩
  rw [hal.1] at hre
  exact makesThen_of (VecCopy.cloneT_eq ..) wf (fun i hi => by cases hi) hrun
    ⟨R.type_id, R.chunks, R.align, R.pos, R.mem, R.each, R.len, R.len_le, R.cap_pos, R.room, _, rfl, hal.2⟩ hre

/-- `VecDyn::clone`: if cloning the table panics, all clones of the elements are lost; the source is in no way
affected. -/
theorem C93_vecdyn_clone [HasClone U V] {cl : V → M U V} {c : VecDyn V} (R : Repr Γ w.heap t es c.data)
    (hl : LawfulClone Γ t c.vtable) (wf : w.heap.WF) {es' : List Bytes} {u' : U}
    (hm : M.mapEach es (Γ.clone t) w.user = (.ok es', u')) :
    MakesThen Γ (VecDyn.cloneT cfg cl c) w none t es' u' (cl c.vtable) := by
  obtain ⟨d, h', hrun, hR, -, hre⟩ := VecDyn.clone_ok (cfg := cfg) R hl wf hm
  exact makesThen_of (VecDyn.cloneT_eq ..) wf (fun i hi => by cases hi) hrun hR hre

/-- A container that existed before such a call is the same afterwards, whether it returned or panicked. -/
theorem C93_others_kept {t' : TyId} {fs : List Bytes} {v : VecVoid} {h' : Heap} {p p' : Ptr} (wf : w.heap.WF)
    (R : Repr Γ w.heap t' fs v) (hre : Realloc w.heap p h' p') (hne : v.ptr ≠ p) : Repr Γ h' t' fs v := by
  refine R.frame fun i hi => hre.other i (by rw [← hi]; exact hne) fun e => ?_
  by_cases hpp : p' = p
  · exact hne (by rw [hi, e, hpp])
  · have h1 := hre.new_fresh hpp i e.symm
    have h2 := R.ptr_lt wf i hi
    omega

/-- `upcast` of both containers: the container is consumed. If cloning or converting the table panics its buffer
is freed, and its elements are never destroyed. -/
theorem C93_upcast {cl : V → M U V} {conv : V → M U W} {c : VecCopy V} (R : Repr Γ w.heap t es c.data) (wf : w.heap.WF) :
    MakesThen Γ (VecCopy.upcastT cfg cl conv c) w c.data.ptr t es w.user (cl c.vtable >>= conv) :=
  makesThen_of (VecCopy.upcastT_eq ..) wf (R.ptr_lt wf) rfl R (.refl wf _)

/-- A panic before the table code runs: the outcome is that of the function without table code, which does not
run. -/
theorem C93_earlier_panic {tab : M U V} {f : M (World U) (VecCopy W)} {y : Why} {w' : World U}
    (h : f w = (.panic y, w')) : thenTable cfg tab f w = (.panic y, w') := by
  unfold thenTable; rw [M.bind_panic h]

/-! ### C93 Owned values -/

/-- `BoxValue::new`: if `build_vtable` panics, the box stays allocated, with the value in it. -/
theorem C93_box_new {build : M U V} {x : Bytes} (wf : w.heap.WF) (hx : x.length = Γ.size t) :
    ∃ p h', Realloc w.heap none h' p ∧ OwnsBlock Γ h' t p ∧
      (∀ vt u, build w.user = (.ok vt, u) →
        BoxValue.newT Γ t build x w = (.ok ⟨⟨p, x⟩, t, Γ.align t, vt⟩, ⟨h', u⟩) ∧
        IsBox Γ h' t x (⟨⟨p, x⟩, t, Γ.align t, vt⟩ : BoxValue V)) ∧
      (∀ y u, build w.user = (.panic y, u) → BoxValue.newT Γ t build x w = (.panic y, ⟨h', u⟩)) := by
  refine ⟨(w.heap.alloc (Γ.layout t)).1, (w.heap.alloc (Γ.layout t)).2, Realloc.ofAlloc wf _,
    OwnsBlock.alloc Γ w.heap t, fun vt u h => ⟨?_, rfl, rfl, rfl, hx, OwnsBlock.alloc Γ w.heap t⟩, fun y u h => ?_⟩
  · unfold BoxValue.newT
    rw [M.bind_ok (show boxNew Γ t x w = (.ok ⟨(w.heap.alloc (Γ.layout t)).1, x⟩, { w with heap := (w.heap.alloc (Γ.layout t)).2 }) from rfl),
      M.bind_ok (worldUser_of (w := { w with heap := (w.heap.alloc (Γ.layout t)).2 }) h)]
    rfl
  · unfold BoxValue.newT
    rw [M.bind_ok (show boxNew Γ t x w = (.ok ⟨(w.heap.alloc (Γ.layout t)).1, x⟩, { w with heap := (w.heap.alloc (Γ.layout t)).2 }) from rfl),
      M.bind_panic (worldUser_of (w := { w with heap := (w.heap.alloc (Γ.layout t)).2 }) h)]

/-- `SmallValue::try_new`: the table is built exactly if the value fits; if that panics the value is lost. -/
theorem C93_small_new {build : M U V} {x : Bytes} (hx : x.length = Γ.size t) :
    (Γ.size t ≠ 8 → SmallValue.tryNewT Γ t build x w = (.ok none, w)) ∧
    (Γ.size t = 8 →
      (∀ vt u, build w.user = (.ok vt, u) → ∃ v, SmallValue.tryNewT Γ t build x w = (.ok (some v), { w with user := u }) ∧
        IsSmall Γ t x v ∧ v.vtable = vt) ∧
      (∀ y u, build w.user = (.panic y, u) → SmallValue.tryNewT Γ t build x w = (.panic y, { w with user := u }))) := by
  refine ⟨fun h => by simp only [SmallValue.tryNewT, if_neg h]; rfl, fun h => ⟨fun vt u hb => ?_, fun y u hb => ?_⟩⟩
  · refine ⟨⟨⟨x⟩, t, Γ.align t, vt⟩, ?_, ⟨rfl, rfl, rfl, hx, h⟩, rfl⟩
    simp only [SmallValue.tryNewT, if_pos h]
    rw [M.bind_ok (worldUser_of hb)]
    rfl
  · simp only [SmallValue.tryNewT, if_pos h]
    rw [M.bind_panic (worldUser_of hb)]

/-- `upcast` of owned values: the value is consumed. If cloning or converting the table panics nothing is
destroyed or freed, so for a boxed value the block stays allocated. -/
theorem C93_value_upcast {cl : V → M U V} {conv : V → M U W} :
    (∀ {x} {v : BoxValue V}, IsBox Γ w.heap t x v →
      (∀ vt u, (cl v.vtable >>= conv) w.user = (.ok vt, u) → ∃ v', Value.upcastT cl conv v w = (.ok v', { w with user := u }) ∧
        IsBox Γ w.heap t x v' ∧ v'.bytes.ptr = v.bytes.ptr ∧ v'.vtable = vt) ∧
      (∀ y u, (cl v.vtable >>= conv) w.user = (.panic y, u) → Value.upcastT cl conv v w = (.panic y, { w with user := u }) ∧
        OwnsBlock Γ w.heap t v.bytes.ptr)) ∧
    (∀ {x} {v : SmallValue V}, IsSmall Γ t x v →
      (∀ vt u, (cl v.vtable >>= conv) w.user = (.ok vt, u) → ∃ v', Value.upcastT cl conv v w = (.ok v', { w with user := u }) ∧
        IsSmall Γ t x v' ∧ v'.vtable = vt) ∧
      (∀ y u, (cl v.vtable >>= conv) w.user = (.panic y, u) → Value.upcastT cl conv v w = (.panic y, { w with user := u }))) := by
  refine ⟨fun {x v} B => ⟨fun vt u h => ⟨⟨v.bytes, v.type_id, v.alignment, vt⟩, ?_,
      ⟨B.type_id, B.align, B.bytes, B.length, B.block⟩, rfl, rfl⟩, fun y u h => ⟨?_, B.block⟩⟩,
    fun {x v} S => ⟨fun vt u h => ⟨⟨v.bytes, v.type_id, v.alignment, vt⟩, ?_,
      ⟨S.type_id, S.align, S.bytes, S.length, S.size⟩, rfl⟩, fun y u h => ?_⟩⟩
  all_goals unfold Value.upcastT
  · rw [M.bind_ok (worldUser_of h)]; rfl
  · rw [M.bind_panic (worldUser_of h)]
  · rw [M.bind_ok (worldUser_of h)]; rfl
  · rw [M.bind_panic (worldUser_of h)]

/-- `clone_value`, and `clone` of a boxed value: if cloning the table panics, the clone of the element and its box
are lost. -/
theorem C93_clone_value [HasClone U V] {cl : V → M U V} {x x' : Bytes} {v : ValueRef V} {u1 : U} (wf : w.heap.WF)
    (hv : IsRef Γ t x v) (hl : LawfulClone Γ t v.vtable) (hc : Γ.clone t x w.user = (.ok x', u1)) :
    ∃ p h', Realloc w.heap none h' p ∧ OwnsBlock Γ h' t p ∧
      (∀ vt u, cl v.vtable u1 = (.ok vt, u) → ∃ v', ValueRef.cloneValueT cl v w = (.ok v', ⟨h', u⟩) ∧
        IsBox Γ h' t x' v' ∧ v'.bytes.ptr = p ∧ v'.vtable = vt) ∧
      (∀ y u, cl v.vtable u1 = (.panic y, u) → ValueRef.cloneValueT cl v w = (.panic y, ⟨h', u⟩)) := by
  have hb := hl.clone_ok (w := w) hv.length hc
  rw [← hv.bytes] at hb
  refine ⟨(w.heap.alloc (Γ.layout t)).1, (w.heap.alloc (Γ.layout t)).2, Realloc.ofAlloc wf _,
    OwnsBlock.alloc Γ w.heap t, fun vt u h => ?_, fun y u h => ?_⟩
  · refine ⟨⟨⟨(w.heap.alloc (Γ.layout t)).1, x'⟩, v.type_id, v.alignment, vt⟩, ?_,
      ⟨hv.type_id, hv.align, rfl, Γ.clone_len hc, OwnsBlock.alloc Γ w.heap t⟩, rfl, rfl⟩
    unfold ValueRef.cloneValueT
    rw [M.bind_ok hb, M.bind_ok (worldUser_of (w := ⟨(w.heap.alloc (Γ.layout t)).2, u1⟩) h)]
    rfl
  · unfold ValueRef.cloneValueT
    rw [M.bind_ok hb, M.bind_panic (worldUser_of (w := ⟨(w.heap.alloc (Γ.layout t)).2, u1⟩) h)]

/-- `clone_small_value`, and `clone` of an inline value: likewise, without a box. -/
theorem C93_clone_small_value [HasClone U V] {cl : V → M U V} {x x' : Bytes} {v : ValueRef V} {u1 : U}
    (hv : IsRef Γ t x v) (h8 : Γ.size t = 8) (hl : LawfulClone Γ t v.vtable) (hc : Γ.clone t x w.user = (.ok x', u1)) :
    (∀ vt u, cl v.vtable u1 = (.ok vt, u) → ∃ v', ValueRef.cloneSmallValueT cl v w = (.ok v', { w with user := u }) ∧
      IsSmall Γ t x' v' ∧ v'.vtable = vt) ∧
    (∀ y u, cl v.vtable u1 = (.panic y, u) → ValueRef.cloneSmallValueT cl v w = (.panic y, { w with user := u })) := by
  have hr := hl.raw_ok (b := x) (d := List.replicate 8 none) hv.length (by simp [h8]) hc
  rw [← hv.bytes] at hr
  refine ⟨fun vt u h => ⟨⟨⟨x'⟩, v.type_id, v.alignment, vt⟩, ?_, ⟨hv.type_id, hv.align, rfl, Γ.clone_len hc, h8⟩, rfl⟩,
    fun y u h => ?_⟩
  · simp only [ValueRef.cloneSmallValueT, M.bind_run, hr, worldUser_run, h, M.pure_run]
  · simp only [ValueRef.cloneSmallValueT, M.bind_run, hr, worldUser_run, h]

/-! ### Concrete cases -/

/-- Table code that writes to the log and panics, and one that returns the table. -/
def Ex.tableBomb {V W : Type} (_ : V) : M Ex.Log W := do M.modify (· ++ [.dropped 99 []]); M.panic .user
def Ex.tableOk {V : Type} (v : V) : M Ex.Log V := do M.modify (· ++ [.cloned 99 []]); pure v

example := C93_upcast (cfg := ⟨true⟩) (cl := Ex.tableOk) (conv := (Ex.tableBomb : _ → M Ex.Log Unit))
  (Ex.d7_repr (es := [Ex.g1, Ex.g2]) (by decide) (by decide)) (Ex.d_wf 7 4)
example := C93_vecdyn_clone (cfg := ⟨true⟩) (cl := Ex.tableBomb) (Ex.d7_repr (es := [Ex.g1, Ex.g2]) (by decide) (by decide))
  (Ex.cloneVT_clone 7) (Ex.d_wf 7 4) (es' := [Ex.g1, Ex.g2]) (u' := [.cloned 7 Ex.g1, .cloned 7 Ex.g2]) rfl
example := C93_veccopy_clone (cfg := ⟨true⟩) (cl := Ex.tableBomb) Ex.c123_repr Ex.w4_wf
example := C93_with_type (Γ := Ex.env) (t := 3) (cfg := ⟨true⟩) (build := Ex.tableOk ()) Ex.w4_wf (by decide)
example := C93_with_type_from (Γ := Ex.env) (t := 3) (cfg := ⟨true⟩) (cl := Ex.tableOk) (vt := ()) Ex.w4_wf (by decide)
example := C93_veccopy_from_slice (Γ := Ex.env) (t := 2) (cfg := ⟨true⟩) (build := Ex.tableOk ()) Ex.w4_wf (by decide)
  (s := [Ex.a1, Ex.a2]) (by decide) (by unfold Room; decide)
example := C93_veccopy_with_size (Γ := Ex.env) (t := 2) (cfg := ⟨true⟩) (build := Ex.tableOk ()) Ex.w4_wf (by decide)
  (n := 3) (x := Ex.a1) (by decide) (by unfold Room; decide)
example := C93_vecdyn_from_slice (Γ := Ex.env) (t := 7) (cfg := ⟨true⟩) (build := (Ex.tableBomb () : M Ex.Log Unit)) Ex.w4_wf
  (by decide) (s := [Ex.g1, Ex.g2]) (s' := [Ex.g1, Ex.g2]) (u' := [.cloned 7 Ex.g1, .cloned 7 Ex.g2]) (by unfold Room; decide) rfl
example := C93_vecdyn_with_size (Γ := Ex.env) (t := 7) (cfg := ⟨true⟩) (build := (Ex.tableBomb () : M Ex.Log Unit)) Ex.w4_wf
  (by decide) (n := 1) (x := Ex.g1) (s' := [Ex.g1]) (u' := [.cloned 7 Ex.g1]) (by unfold Room; decide) (by decide) rfl
example := C93_box_new (Γ := Ex.env) (t := 10) (build := (Ex.tableBomb () : M Ex.Log Unit)) (x := Ex.s1) Ex.w4_wf rfl
example := C93_small_new (Γ := Ex.env) (t := 7) (w := Ex.world 2 4) (build := (Ex.tableBomb () : M Ex.Log Unit)) (x := Ex.g1) rfl
example := (C93_value_upcast (Γ := Ex.env) (t := 10) (w := Ex.boxWorld 10) (cl := Ex.tableOk) (conv := (Ex.tableBomb : _ → M Ex.Log Unit))).1
  (Ex.box_isBox (vt := Ex.cloneVT 10) (x := Ex.s1) rfl (by decide))
example := C93_clone_value (cl := Ex.tableBomb) (Ex.boxWorld_wf 10) (Ex.ref_isRef (x := Ex.s1) (t := 10) (vt := Ex.cloneVT 10) rfl)
  (Ex.cloneVT_clone 10) (x' := Ex.s1) (u1 := [.cloned 10 Ex.s1]) rfl
example := C93_clone_small_value (w := Ex.boxWorld 7) (cl := Ex.tableBomb) (Ex.ref_isRef (x := Ex.g1) (t := 7) (vt := Ex.cloneVT 7) rfl)
  rfl (Ex.cloneVT_clone 7) (x' := Ex.g1) (u1 := [.cloned 7 Ex.g1]) rfl
example := C93_others_kept (Γ := Ex.env) (p := none) (p' := none) Ex.w4_wf Ex.c123_repr (.refl Ex.w4_wf none) (by decide)

/-- What is lost, concretely: a conversion of tables panics while a container of two values is upcast. Its memory
is freed, and neither destructor ever ran. -/
theorem C93_upcast_loses :
    let out := VecCopy.upcastT ⟨true⟩ Ex.tableOk (Ex.tableBomb : _ → M Ex.Log Unit) (Ex.d7 [Ex.g1, Ex.g2]) (Ex.world 7 4)
    out.1 = .panic .user ∧ out.2.user = [.cloned 99 [], .dropped 99 []] ∧ out.2.heap.live 0 = none := by decide +kernel

/-- The same with a boxed value: here its memory is lost too. -/
theorem C93_value_upcast_loses :
    let out := Value.upcastT Ex.tableOk (Ex.tableBomb : _ → M Ex.Log Unit) (Ex.box 10 Ex.s1 (Ex.cloneVT 10)) (Ex.boxWorld 10)
    out.1 = .panic .user ∧ out.2.user = [.cloned 99 [], .dropped 99 []] ∧ out.2.heap.live 0 = some ⟨24, 8⟩ := by
  decide +kernel

end Dync
