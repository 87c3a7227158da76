import Verif.VecDynLemmas3
import Verif.Props.VecCopy2
import Verif.Props.Value
/-!
# Properties of `VecDyn`: containers of elements with destructors and arbitrary `Clone`

`Γ.clone t`, `Γ.drop t` are arbitrary user code over an arbitrary state; unless said otherwise it may
panic.  `M.mapEach es (Γ.clone t)` and `M.forEach es (Γ.drop t)` are the plain loops over a list.
-/
namespace Dync
variable {U V W α σ : Type} {Γ : TyEnv U} {t : TyId} {es : List Bytes} {c : VecDyn V} {w : World U} {cfg : Cfg}

/-! ### Example containers -/
namespace Ex

/-- Two `String`-like elements in a container of capacity 4. -/
def d10 : VecDyn (CloneVTable Log) := ⟨vec 10 [s1, s2] 4, cloneVT 10⟩
theorem d10_repr : Repr env (world 10 4).heap 10 [s1, s2] d10.data :=
  vec_repr (by decide) (by decide) (by decide) (by decide) (by unfold Room; decide)
/-- Elements whose destructor or `clone` may panic. -/
def d7 (es : List Bytes) : VecDyn (CloneVTable Log) := ⟨vec 7 es 4, cloneVT 7⟩
theorem d7_repr {es : List Bytes} (h : ∀ e ∈ es, e.length = size 7) (hl : es.length ≤ 4) :
    Repr env (world 7 4).heap 7 es (d7 es).data :=
  vec_repr (by decide) h hl (by decide) (by unfold Room; decide)
theorem d_wf (t : TyId) (cap : Nat) : (world t cap).heap.WF := oneHeap_wf _

end Ex

/-! ### C16 clone -/

/-- Cloning calls `Clone` of the element type once per element in index order (`mapEach`), stores the
results in the same order in a new block, in a container of the same type, table and capacity.  The
source is not an output of the function; its block and all other blocks are untouched, so it still
holds its elements. -/
theorem C16_vecdyn_clone [HasClone U V] (R : Repr Γ w.heap t es c.data) (hl : LawfulClone Γ t c.vtable)
    (wf : w.heap.WF) {es' : List Bytes} {u' : U} (hm : M.mapEach es (Γ.clone t) w.user = (.ok es', u')) :
    ∃ c' h', VecDyn.clone cfg c w = (.ok c', ⟨h', u'⟩) ∧ Repr Γ h' t es' c'.data ∧ c'.vtable = c.vtable ∧
      c'.data.cap = c.data.cap ∧ c'.data.ptr ≠ c.data.ptr ∧ Repr Γ h' t es c.data ∧
      (∀ i < w.heap.next, h'.live i = w.heap.live i) ∧ h'.WF := by
  obtain ⟨d, h', hrun, hR, hcap, hre⟩ := VecDyn.clone_ok (cfg := cfg) R hl wf hm
  obtain ⟨j, hj, hlj⟩ := hR.block
  obtain ⟨i, hi, hli⟩ := R.block
  have hfresh : w.heap.next ≤ j := hre.new_fresh (by rw [hj]; exact fun e => by cases e) j hj
  have hold : ∀ k < w.heap.next, h'.live k = w.heap.live k := fun k hk =>
    hre.other k (by simp) (by rw [hj]; intro e; cases e; omega)
  have hlt := Heap.lt_next wf hli
  refine ⟨⟨d, c.vtable⟩, h', hrun, hR, rfl, hcap, ?_, ?_, hold, hre.wf⟩
  · rw [hj, hi]; intro e; cases e; omega
  · exact R.frame (fun k hk => hold k (by rw [hi] at hk; cases hk; exact hlt))

example := C16_vecdyn_clone (cfg := ⟨true⟩) Ex.d10_repr (Ex.cloneVT_clone 10) (Ex.d_wf 10 4)
  (es' := [Ex.s1, Ex.s2]) (u' := [.cloned 10 Ex.s1, .cloned 10 Ex.s2]) rfl

/-- Crash points of `clone`: if the k-th call of `Clone` panics, the panic is passed on, no further
element is cloned, no buffer is leaked and all blocks, the source's included, are as before. -/
theorem C20_vecdyn_clone_panic [HasClone U V] (R : Repr Γ w.heap t es c.data) (hl : LawfulClone Γ t c.vtable)
    (wf : w.heap.WF) {u' : U} {y : Why} (hm : M.mapEach es (Γ.clone t) w.user = (.panic y, u')) :
    ∃ h', VecDyn.clone cfg c w = (.panic y, ⟨h', u'⟩) ∧ (∀ i, h'.live i = w.heap.live i) ∧
      Repr Γ h' t es c.data := by
  obtain ⟨h', hrun, hre⟩ := VecDyn.clone_panic (cfg := cfg) R hl wf hm
  have hall : ∀ i, h'.live i = w.heap.live i := fun i => hre.other i (by simp) (by simp)
  exact ⟨h', hrun, hall, R.frame (fun k _ => hall k)⟩

example := C20_vecdyn_clone_panic (cfg := ⟨true⟩) (Ex.d7_repr (es := [Ex.g1, Ex.badClone, Ex.g2]) (by decide) (by decide))
  (Ex.cloneVT_clone 7) (Ex.d_wf 7 4) (u' := [.cloned 7 Ex.g1]) (y := .user) rfl

/-- The clones made before the panic are not dropped: full claim that a panicking `clone` releases them. -/
def C18_clone_panic_full : Prop :=
  ∀ (U V : Type) (_ : HasClone U V) (Γ : TyEnv U) (t : TyId) (es es' : List Bytes) (c : VecDyn V) (cfg : Cfg) (w w' : World U)
    (u' : U) (y : Why), Repr Γ w.heap t es c.data → LawfulClone Γ t c.vtable → w.heap.WF →
    TVec.extendClones Γ t es [] w.user = (.panic y, (es', u')) →
    VecDyn.clone cfg c w = (.panic y, w') → w'.user = (M.dropEach es' (Γ.drop t) u').2

theorem C18_clone_panic_refuted : ¬ C18_clone_panic_full := by
  intro h
  have R := Ex.d7_repr (es := [Ex.g1, Ex.badClone]) (by decide) (by decide)
  obtain ⟨h', hrun, -⟩ := C20_vecdyn_clone_panic (cfg := ⟨true⟩) R
    (Ex.cloneVT_clone 7) (Ex.d_wf 7 4) (u' := [.cloned 7 Ex.g1]) (y := .user) rfl
  have := h _ _ _ Ex.env 7 _ [Ex.g1] _ _ (Ex.world 7 4) _ [.cloned 7 Ex.g1] _ R (Ex.cloneVT_clone 7) (Ex.d_wf 7 4) rfl hrun
  simp only at this
  revert this; decide

/-! ### Dropping a container -/

/-- Dropping a container runs the destructor of every element once, in order, then frees the buffer. -/
theorem C17_vecdyn_drop [HasDrop U V] (R : Repr Γ w.heap t es c.data) (hl : LawfulDrop Γ t c.vtable) {u' : U}
    (hd : M.forEach es (Γ.drop t) w.user = (.ok (), u')) :
    ∃ i, c.data.ptr = some i ∧ VecDyn.drop cfg c w = (.ok (), ⟨w.heap.free i, u'⟩) :=
  VecDyn.drop_ok R hl hd

example := C17_vecdyn_drop (cfg := ⟨true⟩) Ex.d10_repr (Ex.cloneVT_drop 10)
  (u' := [.dropped 10 Ex.s1, .dropped 10 Ex.s2]) rfl

/-- If a destructor panics while a container is dropped, the panic is passed on: the elements up to
that one were dropped once (`forEach` stops there), the later elements and the buffer are leaked. The
container is gone, so nothing is dropped twice. -/
theorem C19_vecdyn_drop_panic [HasDrop U V] (R : Repr Γ w.heap t es c.data) (hl : LawfulDrop Γ t c.vtable) {u' : U}
    {y : Why} (hd : M.forEach es (Γ.drop t) w.user = (.panic y, u')) :
    VecDyn.drop cfg c w = (.panic y, { w with user := u' }) :=
  VecDyn.drop_panic R hl hd

example := C19_vecdyn_drop_panic (cfg := ⟨true⟩) (Ex.d7_repr (es := [Ex.g1, Ex.badDrop, Ex.g2]) (by decide) (by decide))
  (Ex.cloneVT_drop 7) (u' := [.dropped 7 Ex.g1]) (y := .user) rfl

/-! ### C02 typed access on a `VecDyn` -/

/-- The right type: every typed method that runs user code goes through to it. -/
theorem C02_vecdyn_match [HasDrop U V] (R : Repr Γ w.heap t es c.data) :
    VecDyn.check cfg t c w = (.ok (some c), w) ∧
    (∀ r es' u', TVec.extendClones Γ t es [] w.user = (r, (es', u')) →
      VecDyn.appendClonedToVec Γ t c ([], w) = (r.map some, (es', { w with user := u' }))) := by
  refine ⟨VecDyn.check_ok R, fun r es' u' h => VecDyn.appendClonedToVec_run R h⟩

example := (C02_vecdyn_match (cfg := ⟨true⟩) Ex.d10_repr).2 (.ok ()) [Ex.s1, Ex.s2] [.cloned 10 Ex.s1, .cloned 10 Ex.s2] rfl

/-- The wrong type: `None`; a borrowed container is unchanged, a consumed container and a by-value
argument are dropped. -/
theorem C02_vecdyn_mismatch [HasDrop U V] (R : Repr Γ w.heap t es c.data) (wf : w.heap.WF)
    (hl : LawfulDrop Γ t c.vtable) {t' : TyId} (ht : t' ≠ t) :
    (∀ u', M.forEach es (Γ.drop t) w.user = (.ok (), u') →
      ∃ i, c.data.ptr = some i ∧ VecDyn.check cfg t' c w = (.ok none, ⟨w.heap.free i, u'⟩)) ∧
    (∀ n x u', Γ.drop t' x w.user = (.ok (), u') →
      VecDyn.resize Γ cfg t' n x (c, w) = (.ok none, (c, { w with user := u' }))) ∧
    (∀ x u', Γ.drop t' x w.user = (.ok (), u') →
      VecDyn.fill Γ t' x (c, w) = (.ok none, (c, { w with user := u' }))) ∧
    (∀ x u', Γ.drop t' x w.user = (.ok (), u') →
      VecCopy.pushAs Γ cfg t' x (c, w) = (.ok none, (c, { w with user := u' }))) ∧
    (∀ vec, VecDyn.appendClonedToVec Γ t' c (vec, w) = (.ok none, (vec, w))) ∧
    VecDyn.cloneIntoVec Γ t' c w = (.ok none, w) := by
  refine ⟨fun u' hd => VecDyn.check_mismatch R wf hl ht hd, fun n x u' hx => VecDyn.resize_mismatch R ht hx,
    fun x u' hx => VecDyn.fill_mismatch R ht hx, ?_, fun vec => VecDyn.appendClonedToVec_mismatch R ht,
    VecDyn.cloneIntoVec_mismatch R ht⟩
  intro x u' hx
  simp only [VecCopy.pushAs]
  rw [M.bind_ok (getSelf_run _), VecCopy.checkRef_none R ht]
  simp only
  rw [M.bind_ok (onWorld_of (worldUser_of hx))]
  rfl

example := C02_vecdyn_mismatch (cfg := ⟨true⟩) Ex.d10_repr (Ex.d_wf 10 4) (Ex.cloneVT_drop 10) (t' := 7) (by decide)

/-- `clone_into_vec` with the right type returns the clones of all elements. -/
theorem C16_vecdyn_clone_into_vec (R : Repr Γ w.heap t es c.data) {es' : List Bytes} {u' : U}
    (hm : M.mapEach es (Γ.clone t) w.user = (.ok es', u')) :
    VecDyn.cloneIntoVec Γ t c w = (.ok (some es'), { w with user := u' }) :=
  VecDyn.cloneIntoVec_ok R hm

example := C16_vecdyn_clone_into_vec Ex.d10_repr (es' := [Ex.s1, Ex.s2]) (u' := [.cloned 10 Ex.s1, .cloned 10 Ex.s2]) rfl

/-- If a clone panics inside `clone_into_vec`, the clones made so far are dropped. -/
theorem C20_vecdyn_clone_into_vec_panic (R : Repr Γ w.heap t es c.data) {es' : List Bytes} {u' u'' : U} {y : Why}
    (hm : TVec.extendClones Γ t es [] w.user = (.panic y, (es', u')))
    (hd : M.dropEach es' (Γ.drop t) u' = (.ok (), u'')) :
    VecDyn.cloneIntoVec Γ t c w = (.panic y, { w with user := u'' }) :=
  VecDyn.cloneIntoVec_panic R hm hd

example := C20_vecdyn_clone_into_vec_panic (Ex.d7_repr (es := [Ex.g1, Ex.badClone, Ex.g2]) (by decide) (by decide))
  (es' := [Ex.g1]) (u' := [.cloned 7 Ex.g1]) (u'' := [.cloned 7 Ex.g1, .dropped 7 Ex.g1]) (y := .user) rfl rfl

/-! ### C04 constructors that clone -/

/-- `from_slice` and `with_size` never return a container of a zero-sized type. -/
theorem C04_vecdyn_rejects_zst (h0 : Γ.size t = 0) (vt : V) (s : List Bytes) (n : Nat) (x : Bytes) (w w' : World U) (c' : VecDyn V) :
    VecDyn.fromSlice Γ t vt s w ≠ (.ok c', w') ∧ VecDyn.withSize Γ t vt n x w ≠ (.ok c', w') := by
  have hf : ∀ (rv : RVec) (w1 : World U), VecCopy.fromVec Γ t vt rv w1 ≠ (.ok c', w') :=
    fun rv w1 h => VecCopy.fromVec_zst_ne h0 c' (by rw [h])
  constructor
  · intro h
    simp only [VecDyn.fromSlice, M.bind_run] at h
    split at h <;> try (cases h; done)
    split at h <;> try (cases h; done)
    exact hf _ _ h
  · intro h
    simp only [VecDyn.withSize, M.bind_run] at h
    split at h <;> try (cases h; done)
    split at h <;> try (cases h; done)
    exact hf _ _ h

example := C04_vecdyn_rejects_zst (Γ := Ex.env) (t := 8) rfl (Ex.cloneVT 8) [[]] 3 [] (Ex.world 2 4)

/-- `from_slice` of a non-zero-sized type holds the clones of the slice's elements, made in order. -/
theorem C04_vecdyn_from_slice (vt : V) {s s' : List Bytes} (wf : w.heap.WF) (hpos : 0 < Γ.size t)
    (hroom : Room Γ t s.length) {u' : U} (hm : M.mapEach s (Γ.clone t) w.user = (.ok s', u')) :
    ∃ d h', VecDyn.fromSlice Γ t vt s w = (.ok ⟨d, vt⟩, ⟨h', u'⟩) ∧ Repr Γ h' t s' d ∧ Realloc w.heap none h' d.ptr := by
  obtain ⟨d, h', h1, h2, h3, -⟩ := VecDyn.fromSlice_ok (vt := vt) wf hpos hroom hm
  exact ⟨d, h', h1, h2, h3⟩

example := C04_vecdyn_from_slice (Γ := Ex.env) (t := 10) (Ex.cloneVT 10) (w := Ex.world 2 4) (s := [Ex.s1, Ex.s2])
  (s' := [Ex.s1, Ex.s2]) (u' := [.cloned 10 Ex.s1, .cloned 10 Ex.s2]) Ex.w4_wf (by decide) (by unfold Room; decide) rfl

/-- `with_size(n + 1, x)` holds `n` clones of `x` followed by `x` itself; `with_size(0, x)` drops `x`. -/
theorem C04_vecdyn_with_size (vt : V) {n : Nat} {x : Bytes} (wf : w.heap.WF) (hpos : 0 < Γ.size t)
    (hroom : Room Γ t (n + 1)) (hx : x.length = Γ.size t) :
    (∀ s' u', M.mapEach (List.replicate n x) (Γ.clone t) w.user = (.ok s', u') →
      ∃ d h', VecDyn.withSize Γ t vt (n + 1) x w = (.ok ⟨d, vt⟩, ⟨h', u'⟩) ∧ Repr Γ h' t (s' ++ [x]) d ∧
        Realloc w.heap none h' d.ptr) ∧
    (∀ u', Γ.drop t x w.user = (.ok (), u') →
      ∃ d h', VecDyn.withSize Γ t vt 0 x w = (.ok ⟨d, vt⟩, ⟨h', u'⟩) ∧ Repr Γ h' t [] d ∧ Realloc w.heap none h' d.ptr) := by
  refine ⟨fun s' u' hm => ?_, fun u' hd => ?_⟩
  · obtain ⟨d, h', h1, h2, h3, -⟩ := VecDyn.withSize_ok (vt := vt) wf hpos hroom hx hm
    exact ⟨d, h', h1, h2, h3⟩
  · obtain ⟨d, h', h1, h2, h3, -⟩ := VecDyn.withSize_zero_ok (vt := vt) wf hpos hroom.zero hd
    exact ⟨d, h', h1, h2, h3⟩

example := (C04_vecdyn_with_size (Γ := Ex.env) (t := 10) (n := 2) (x := Ex.s1) (Ex.cloneVT 10) (w := Ex.world 2 4)
  Ex.w4_wf (by decide) (by unfold Room; decide) rfl).1 [Ex.s1, Ex.s1] [.cloned 10 Ex.s1, .cloned 10 Ex.s1] rfl

/-- Crash points of the cloning constructors: the clones made so far (and the argument of
`with_size`) are dropped and the new buffer is freed. -/
theorem C20_vecdyn_constructors_panic (vt : V) {n : Nat} {x : Bytes} {s es' : List Bytes} (wf : w.heap.WF)
    (hpos : 0 < Γ.size t) {u' u'' : U} {y : Why} :
    (Room Γ t s.length → TVec.extendClones Γ t s [] w.user = (.panic y, (es', u')) →
      M.dropEach es' (Γ.drop t) u' = (.ok (), u'') →
      ∃ h', (VecDyn.fromSlice Γ t vt s : M (World U) (VecDyn V)) w = (.panic y, ⟨h', u''⟩) ∧
        ∀ i, h'.live i = w.heap.live i) ∧
    (Room Γ t (n + 1) → TVec.pushClones Γ t x n [] w.user = (.panic y, (es', u')) →
      M.dropEach (x :: es') (Γ.drop t) u' = (.ok (), u'') →
      ∃ h', (VecDyn.withSize Γ t vt (n + 1) x : M (World U) (VecDyn V)) w = (.panic y, ⟨h', u''⟩) ∧
        ∀ i, h'.live i = w.heap.live i) := by
  constructor
  · intro hroom hm hd
    obtain ⟨h', hrun, hre⟩ := VecDyn.fromSlice_panic (vt := vt) wf hpos hroom hm hd
    exact ⟨h', hrun, fun i => hre.other i (by simp) (by simp)⟩
  · intro hroom hm hd
    simp only [M.dropEach_cons, M.thenDrop] at hd
    rcases hx : Γ.drop t x u' with ⟨rx, u1⟩
    simp only [hx] at hd
    rcases hes : M.dropEach es' (Γ.drop t) u1 with ⟨r2, u2⟩
    cases rx with
    | ok a =>
      simp only [hes] at hd
      cases r2 <;> cases hd
      obtain ⟨h', hrun, hre⟩ := VecDyn.withSize_panic (vt := vt) wf hpos hroom hm hx hes
      exact ⟨h', hrun, fun i => hre.other i (by simp) (by simp)⟩
    | panic z => simp only [hes] at hd; cases r2 <;> cases hd
    | ub => cases hd
    | abort => cases hd

example := (C20_vecdyn_constructors_panic (Γ := Ex.env) (t := 7) (n := 3) (x := Ex.badClone) (es' := []) (u' := [])
  (u'' := [.dropped 7 Ex.badClone]) (y := .user) (s := []) (Ex.cloneVT 7) (w := Ex.world 2 4) Ex.w4_wf (by decide)).2
  (by unfold Room; decide) rfl rfl

/-! ### C09 resize, C10 clear and fill -/

/-- Growing: the content becomes the old content followed by clones of the value; the value itself
is dropped at the end. `r` is any outcome of the user code: if a clone or the final drop panics, the
clones made so far stay in the container (C20). What is missing: reallocations that hit `BadGrowth`. -/
theorem C09_vecdyn_resize_grow_partial [HasDrop U V] (R : Repr Γ w.heap t es c.data) (wf : w.heap.WF) {n : Nat} {x : Bytes}
    (hn : es.length ≤ n) (hroom : Room Γ t (max 8 (max (2 * c.data.cap) n)))
    (hbad : ¬ BadGrowth Γ t c.data.cap n) {r : Res Unit} {es' : List Bytes} {u' : U}
    (hp : TVec.thenDropArg Γ t x (TVec.pushClones Γ t x (n - es.length) es w.user) = (r, (es', u'))) :
    ∃ d h', VecDyn.resize Γ cfg t n x (c, w) = (r.map some, ({ c with data := d }, ⟨h', u'⟩)) ∧
      Evolves Γ t n es' w.heap c.data h' d :=
  VecDyn.resize_grow R wf hn hroom hbad hp

example := C09_vecdyn_resize_grow_partial (cfg := ⟨true⟩) Ex.d10_repr (Ex.d_wf 10 4) (n := 4) (x := Ex.s1) (by decide)
  (by unfold Room; decide) (by unfold BadGrowth; decide) (r := .ok ()) (es' := [Ex.s1, Ex.s2, Ex.s1, Ex.s1])
  (u' := [.cloned 10 Ex.s1, .cloned 10 Ex.s1, .dropped 10 Ex.s1]) rfl
-- a clone that panics
example := C09_vecdyn_resize_grow_partial (cfg := ⟨true⟩) (Ex.d7_repr (es := [Ex.g1]) (by decide) (by decide)) (Ex.d_wf 7 4)
  (n := 4) (x := Ex.badClone) (by decide) (by unfold Room; decide) (by unfold BadGrowth; decide) (r := .panic .user)
  (es' := [Ex.g1]) (u' := [.dropped 7 Ex.badClone]) rfl

/-- Non-panicking user code: `resize` yields the first `n` elements followed by clones. -/
theorem C09_vecdyn_resize_grow_ok_partial [HasDrop U V] (R : Repr Γ w.heap t es c.data) (wf : w.heap.WF) {n : Nat} {x : Bytes}
    (hn : es.length ≤ n) (hroom : Room Γ t (max 8 (max (2 * c.data.cap) n)))
    (hbad : ¬ BadGrowth Γ t c.data.cap n) {xs : List Bytes} {u' u'' : U}
    (hc : M.mapEach (List.replicate (n - es.length) x) (Γ.clone t) w.user = (.ok xs, u'))
    (hd : Γ.drop t x u' = (.ok (), u'')) :
    ∃ d h', VecDyn.resize Γ cfg t n x (c, w) = (.ok (some ()), ({ c with data := d }, ⟨h', u''⟩)) ∧
      Evolves Γ t n (es ++ xs) w.heap c.data h' d :=
  VecDyn.resize_grow (r := .ok ()) R wf hn hroom hbad (by
    rw [TVec.pushClones, TVec.extendClones_ok hc]; simp [TVec.thenDropArg, hd])

example := C09_vecdyn_resize_grow_ok_partial (cfg := ⟨true⟩) Ex.d10_repr (Ex.d_wf 10 4) (n := 4) (x := Ex.s1) (by decide)
  (by unfold Room; decide) (by unfold BadGrowth; decide) (xs := [Ex.s1, Ex.s1])
  (u' := [.cloned 10 Ex.s1, .cloned 10 Ex.s1]) (u'' := [.cloned 10 Ex.s1, .cloned 10 Ex.s1, .dropped 10 Ex.s1]) rfl rfl

/-- Shrinking drops exactly the elements from index `n` on, in order, then the passed value, and
keeps the first `n` elements in place. -/
theorem C09_vecdyn_resize_shrink [HasDrop U V] (R : Repr Γ w.heap t es c.data) (wf : w.heap.WF)
    (hl : LawfulDrop Γ t c.vtable) {n : Nat} {x : Bytes}
    (hn : n < es.length) {u' u'' : U} (hd : M.forEach (es.drop n) (Γ.drop t) w.user = (.ok (), u'))
    (hx : Γ.drop t x u' = (.ok (), u'')) :
    ∃ d, VecDyn.resize Γ cfg t n x (c, w) = (.ok (some ()), ({ c with data := d }, { w with user := u'' })) ∧
      Evolves Γ t 0 (es.take n) w.heap c.data w.heap d :=
  VecDyn.resize_shrink R wf hl hn hd hx

example := C09_vecdyn_resize_shrink (cfg := ⟨true⟩) Ex.d10_repr (Ex.d_wf 10 4) (Ex.cloneVT_drop 10) (n := 1) (x := Ex.s1) (by decide)
  (u' := [.dropped 10 Ex.s2]) (u'' := [.dropped 10 Ex.s2, .dropped 10 Ex.s1]) rfl rfl

/-- `clear` drops every element once in order and keeps type, capacity and buffer. -/
theorem C10_vecdyn_clear [HasDrop U V] (R : Repr Γ w.heap t es c.data) (wf : w.heap.WF) (hl : LawfulDrop Γ t c.vtable) {u' : U}
    (hd : M.forEach es (Γ.drop t) w.user = (.ok (), u')) :
    ∃ d, VecDyn.clear Γ cfg (c, w) = (.ok (), ({ c with data := d }, { w with user := u' })) ∧
      Evolves Γ t 0 [] w.heap c.data w.heap d ∧ d.cap = c.data.cap ∧ d.ptr = c.data.ptr := by
  refine ⟨_, VecDyn.clear_ok R hl hd, Evolves.setContent R wf (by simp) (by simp) rfl rfl rfl, rfl, rfl⟩

example := C10_vecdyn_clear (cfg := ⟨true⟩) Ex.d10_repr (Ex.d_wf 10 4) (Ex.cloneVT_drop 10)
  (u' := [.dropped 10 Ex.s1, .dropped 10 Ex.s2]) rfl

/-- `fill` replaces each element, in order, by a clone of the value (dropping the old one), then drops
the value. `r` is any outcome of the user code; after a panic the container is still healthy, holds
as many elements as before, and the elements replaced so far are the new ones (C20). -/
theorem C10_vecdyn_fill (R : Repr Γ w.heap t es c.data) (wf : w.heap.WF) {x : Bytes} {r : Res Unit} {es' : List Bytes}
    {u' : U} (hf : TVec.thenDropArg Γ t x (TVec.fill Γ t x es w.user) = (r, (es', u'))) :
    ∃ d, VecDyn.fill Γ t x (c, w) = (r.map some, ({ c with data := d }, { w with user := u' })) ∧
      Evolves Γ t 0 es' w.heap c.data w.heap d ∧ es'.length = es.length := by
  obtain ⟨d, h1, h2⟩ := VecDyn.fill_run R wf hf
  refine ⟨d, h1, h2, ?_⟩
  rcases ho : TVec.fill Γ t x es w.user with ⟨r1, es1, u1⟩
  rw [ho] at hf
  rw [VecDyn.thenDropArg_es hf]
  exact (TVec.fill_each ho R.each).1

example := C10_vecdyn_fill Ex.d10_repr (Ex.d_wf 10 4) (x := Ex.s1) (r := .ok ()) (es' := [Ex.s1, Ex.s1])
  (u' := [.cloned 10 Ex.s1, .dropped 10 Ex.s1, .cloned 10 Ex.s1, .dropped 10 Ex.s2, .dropped 10 Ex.s1]) rfl
example := C10_vecdyn_fill (Ex.d7_repr (es := [Ex.g1, Ex.g2]) (by decide) (by decide)) (Ex.d_wf 7 4) (x := Ex.badClone)
  (r := .panic .user) (es' := [Ex.g1, Ex.g2]) (u' := [.dropped 7 Ex.badClone]) rfl

/-! ### C19 panicking destructors in `clear` and `resize` -/

/-- Full claim: if the destructor of element `k` panics inside `clear`, the elements `0..=k`, whose
destructors have run, are no longer in the container. -/
def C19_clear_full : Prop :=
  ∀ (U V : Type) (_ : HasDrop U V) (Γ : TyEnv U) (t : TyId) (pre post : List Bytes) (x : Bytes) (c : VecDyn V)
    (w : World U) (cfg : Cfg) (u1 u2 : U) (y : Why) (s' : VecDyn V × World U),
    Repr Γ w.heap t (pre ++ x :: post) c.data → LawfulDrop Γ t c.vtable →
    M.forEach pre (Γ.drop t) w.user = (.ok (), u1) → Γ.drop t x u1 = (.panic y, u2) →
    VecDyn.clear Γ cfg (c, w) = (.panic y, s') → ∃ es', Repr Γ s'.2.heap t es' s'.1.data ∧ es'.length ≤ post.length

/-- After a panic inside `clear` the container still holds all its elements, also those whose
destructors have already run. -/
theorem C19_clear_panic_keeps_all [HasDrop U V] (R : Repr Γ w.heap t es c.data) (hl : LawfulDrop Γ t c.vtable) {u' : U}
    {y : Why} (hd : M.forEach es (Γ.drop t) w.user = (.panic y, u')) :
    VecDyn.clear Γ cfg (c, w) = (.panic y, (c, { w with user := u' })) :=
  VecDyn.clear_panic R hl hd

theorem C19_clear_refuted : ¬ C19_clear_full := by
  intro h
  have R := Ex.d7_repr (es := [Ex.g1, Ex.badDrop]) (by decide) (by decide)
  have hrun := C19_clear_panic_keeps_all (cfg := ⟨true⟩) R (Ex.cloneVT_drop 7) (u' := [.dropped 7 Ex.g1]) (y := .user) rfl
  obtain ⟨es', hR, hlen⟩ := h _ _ _ Ex.env 7 [Ex.g1] [] Ex.badDrop (Ex.d7 [Ex.g1, Ex.badDrop]) (Ex.world 7 4) ⟨true⟩
    [.dropped 7 Ex.g1] [.dropped 7 Ex.g1] .user _ R (Ex.cloneVT_drop 7) rfl rfl hrun
  have h2 := hR.len
  have h3 : (Ex.d7 [Ex.g1, Ex.badDrop]).data.len = 2 := rfl
  rw [h3] at h2
  simp at hlen
  subst hlen
  simp at h2

/-- A concrete double drop: `clear` panics on the second element; dropping the container afterwards
runs the destructor of the first element a second time. -/
theorem C19_clear_double_drop :
    (do VecDyn.clear Ex.env ⟨true⟩ : M (VecDyn (CloneVTable Ex.Log) × World Ex.Log) Unit)
        (Ex.d7 [Ex.g1, Ex.badDrop], Ex.world 7 4) =
      (.panic .user, (Ex.d7 [Ex.g1, Ex.badDrop], { Ex.world 7 4 with user := [.dropped 7 Ex.g1] })) ∧
    (VecDyn.drop ⟨true⟩ (Ex.d7 [Ex.g1, Ex.badDrop]) { Ex.world 7 4 with user := [.dropped 7 Ex.g1] }).2.user =
      [.dropped 7 Ex.g1, .dropped 7 Ex.g1] := by
  refine ⟨C19_clear_panic_keeps_all (Ex.d7_repr (by decide) (by decide)) (Ex.cloneVT_drop 7) rfl, ?_⟩
  rw [C19_vecdyn_drop_panic (w := { Ex.world 7 4 with user := [.dropped 7 Ex.g1] })
    (Ex.d7_repr (es := [Ex.g1, Ex.badDrop]) (by decide) (by decide)) (Ex.cloneVT_drop 7)
    (u' := [.dropped 7 Ex.g1, .dropped 7 Ex.g1]) (y := .user) rfl]

/-- Full claim for a shrinking `resize`. -/
def C19_resize_full : Prop :=
  ∀ (U V : Type) (_ : HasDrop U V) (Γ : TyEnv U) (t : TyId) (keep pre post : List Bytes) (x v : Bytes) (c : VecDyn V)
    (w : World U) (cfg : Cfg) (u1 u2 : U) (y : Why) (s' : VecDyn V × World U),
    Repr Γ w.heap t (keep ++ (pre ++ x :: post)) c.data → LawfulDrop Γ t c.vtable →
    M.forEach pre (Γ.drop t) w.user = (.ok (), u1) → Γ.drop t x u1 = (.panic y, u2) →
    VecDyn.resize Γ cfg t keep.length v (c, w) = (.panic y, s') →
    ∃ es', Repr Γ s'.2.heap t es' s'.1.data ∧ es'.length ≤ keep.length + post.length

/-- After a panic of a destructor inside a shrinking `resize` the container still holds all elements. -/
theorem C19_resize_panic_keeps_all [HasDrop U V] (R : Repr Γ w.heap t es c.data)
    (hl : LawfulDrop Γ t c.vtable) {n : Nat} {x : Bytes} {y : Why}
    (hn : n < es.length) {u' u2 : U} (hd : M.forEach (es.drop n) (Γ.drop t) w.user = (.panic y, u'))
    (hx : Γ.drop t x u' = (.ok (), u2)) :
    VecDyn.resize Γ cfg t n x (c, w) = (.panic y, (c, { w with user := u2 })) :=
  VecDyn.resize_shrink_panic R hl hn hd hx

theorem C19_resize_refuted : ¬ C19_resize_full := by
  intro h
  have R := Ex.d7_repr (es := [Ex.g1, Ex.g2, Ex.badDrop]) (by decide) (by decide)
  have hrun := C19_resize_panic_keeps_all (cfg := ⟨true⟩) R (Ex.cloneVT_drop 7) (n := 1) (x := Ex.g1) (by decide)
    (u' := [.dropped 7 Ex.g2]) (u2 := [.dropped 7 Ex.g2, .dropped 7 Ex.g1]) (y := .user) rfl rfl
  obtain ⟨es', hR, hlen⟩ := h _ _ _ Ex.env 7 [Ex.g1] [Ex.g2] [] Ex.badDrop Ex.g1 (Ex.d7 [Ex.g1, Ex.g2, Ex.badDrop])
    (Ex.world 7 4) ⟨true⟩ [.dropped 7 Ex.g2] [.dropped 7 Ex.g2] .user _ R (Ex.cloneVT_drop 7) rfl rfl hrun
  have h2 := hR.len
  have h3 : (Ex.d7 [Ex.g1, Ex.g2, Ex.badDrop]).data.len = 3 := rfl
  rw [h3] at h2
  simp at hlen
  omega

/-! ### C06 untyped push -/

/-- `push` of a boxed value of the element type appends it and frees the box, for elements of size 1.
What is missing: every other element type, see the next two theorems. -/
theorem C06_vecdyn_push_partial [HasDrop U W] (R : Repr Γ w.heap t es c.data) (wf : w.heap.WF) {x : Bytes} {v : BoxValue W}
    (hv : IsBox Γ w.heap t x v) (hne : v.bytes.ptr ≠ c.data.ptr) (h1 : Γ.size t = 1)
    (hroom : Room Γ t (max 8 (max (2 * c.data.cap) (es.length + 1)))) :
    ∃ d h', VecDyn.push Γ cfg v (c, w) = (.ok (some ()), ({ c with data := d }, { w with heap := h' })) ∧
      Repr Γ h' t (es ++ [x]) d ∧ (∀ i, v.bytes.ptr = some i → h'.live i = none) := by
  obtain ⟨d, h1, h', i, hrun, hp, rfl, -, hR, -⟩ := VecDyn.push_ok (cfg := cfg) R wf hv hne h1 hroom
  refine ⟨d, _, hrun, hR, fun j hj => ?_⟩
  rw [hp] at hj; cases hj
  simp [Heap.free]

/-- A container of `u8` next to a boxed `u8`. -/
def Ex.d1 : VecDyn (CloneVTable Ex.Log) := ⟨Ex.vec 1 [[some 5]] 4, Ex.cloneVT 1⟩
def Ex.w1 : World Ex.Log := ⟨Ex.twoHeap ⟨4, 1⟩ ⟨1, 1⟩, []⟩
def Ex.b8 : BoxValue (CloneVTable Ex.Log) := ⟨⟨some 1, [some 7]⟩, 1, 1, Ex.cloneVT 1⟩
theorem Ex.d1_repr : Repr Ex.env Ex.w1.heap 1 [[some 5]] Ex.d1.data :=
  ⟨rfl, rfl, rfl, by decide, rfl, by decide, rfl, by decide, by decide, by unfold Room; decide, 0, rfl, rfl⟩
theorem Ex.b8_isBox : IsBox Ex.env Ex.w1.heap 1 [some 7] Ex.b8 :=
  ⟨rfl, rfl, rfl, rfl, .inr ⟨by decide, 1, rfl, rfl⟩⟩

example := C06_vecdyn_push_partial (cfg := ⟨true⟩) Ex.d1_repr (Ex.twoHeap_wf _ _) Ex.b8_isBox (by decide) rfl
  (by unfold Room; decide)

/-- For every element type of alignment above 1, pushing a boxed value of the element type is
undefined behaviour: the box, allocated with the alignment of the type, is freed as a box of bytes. -/
theorem C21_vecdyn_push_ub [HasDrop U W] (R : Repr Γ w.heap t es c.data) (wf : w.heap.WF) {x : Bytes} {v : BoxValue W}
    (hv : IsBox Γ w.heap t x v) (hne : v.bytes.ptr ≠ c.data.ptr) (ha : 1 < Γ.align t)
    (hroom : Room Γ t (max 8 (max (2 * c.data.cap) (es.length + 1)))) :
    (VecDyn.push Γ cfg v (c, w)).1 = .ub := by
  obtain ⟨s, h⟩ := VecDyn.push_ub (cfg := cfg) R wf hv hne ha hroom
  rw [h]

/-- A container of `String`-like elements next to a boxed one. -/
def Ex.w10 : World Ex.Log := ⟨Ex.twoHeap ⟨96, 8⟩ ⟨24, 8⟩, []⟩
def Ex.b10 : BoxValue (CloneVTable Ex.Log) := ⟨⟨some 1, Ex.s1⟩, 10, 8, Ex.cloneVT 10⟩
theorem Ex.d10_repr2 : Repr Ex.env Ex.w10.heap 10 [Ex.s1, Ex.s2] Ex.d10.data :=
  ⟨rfl, rfl, rfl, by decide, rfl, by decide, rfl, by decide, by decide, by unfold Room; decide, 0, rfl, rfl⟩
theorem Ex.b10_isBox : IsBox Ex.env Ex.w10.heap 10 Ex.s1 Ex.b10 :=
  ⟨rfl, rfl, rfl, rfl, .inr ⟨by decide, 1, rfl, rfl⟩⟩

example := C21_vecdyn_push_ub (cfg := ⟨true⟩) Ex.d10_repr2 (Ex.twoHeap_wf _ _) Ex.b10_isBox (by decide) (by decide)
  (by unfold Room; decide)

/-- For element types of alignment 1 and size above 1 the push panics and the container is lost. -/
theorem C06_vecdyn_push_bad [HasDrop U W] (R : Repr Γ w.heap t es c.data) (wf : w.heap.WF) {x : Bytes} {v : BoxValue W}
    (hv : IsBox Γ w.heap t x v) (hne : v.bytes.ptr ≠ c.data.ptr) (ha : Γ.align t = 1) (h1 : Γ.size t ≠ 1)
    (hroom : Room Γ t (max 8 (max (2 * c.data.cap) (es.length + 1)))) :
    ∃ h', VecDyn.push Γ cfg v (c, w) =
        (.panic .assertion, ({ c with data := VecVoid.default Γ }, { w with heap := h' })) :=
  VecDyn.push_bad R wf hv hne ha h1 hroom

/-- A container of `[u8; 3]` next to a boxed one. -/
def Ex.d3 : VecDyn (CloneVTable Ex.Log) := ⟨Ex.vec 3 [[some 1, some 2, some 3]] 4, Ex.cloneVT 3⟩
def Ex.w3 : World Ex.Log := ⟨Ex.twoHeap ⟨12, 1⟩ ⟨3, 1⟩, []⟩
def Ex.box3 : BoxValue (CloneVTable Ex.Log) := ⟨⟨some 1, [some 4, some 5, some 6]⟩, 3, 1, Ex.cloneVT 3⟩
theorem Ex.d3_repr : Repr Ex.env Ex.w3.heap 3 [[some 1, some 2, some 3]] Ex.d3.data :=
  ⟨rfl, rfl, rfl, by decide, rfl, by decide, rfl, by decide, by decide, by unfold Room; decide, 0, rfl, rfl⟩
theorem Ex.box3_isBox : IsBox Ex.env Ex.w3.heap 3 [some 4, some 5, some 6] Ex.box3 :=
  ⟨rfl, rfl, rfl, rfl, .inr ⟨by decide, 1, rfl, rfl⟩⟩
example := C06_vecdyn_push_bad (cfg := ⟨true⟩) Ex.d3_repr (Ex.twoHeap_wf _ _) Ex.box3_isBox (by decide) rfl (by decide)
  (by unfold Room; decide)

/-- The full claims of C06 and C21 for `VecDyn::push`. -/
def C06_vecdyn_full : Prop :=
  ∀ (U V W : Type) (_ : HasDrop U W) (Γ : TyEnv U) (t : TyId) (es : List Bytes) (c : VecDyn V) (w : World U) (cfg : Cfg)
    (x : Bytes) (v : BoxValue W), Repr Γ w.heap t es c.data → w.heap.WF → IsBox Γ w.heap t x v → v.bytes.ptr ≠ c.data.ptr →
    Room Γ t (max 8 (max (2 * c.data.cap) (es.length + 1))) →
    ∃ s', VecDyn.push Γ cfg v (c, w) = (.ok (some ()), s') ∧ Repr Γ s'.2.heap t (es ++ [x]) s'.1.data
def C21_vecdyn_push_full : Prop :=
  ∀ (U V W : Type) (_ : HasDrop U W) (Γ : TyEnv U) (t : TyId) (es : List Bytes) (c : VecDyn V) (w : World U) (cfg : Cfg)
    (x : Bytes) (v : BoxValue W), Repr Γ w.heap t es c.data → w.heap.WF → IsBox Γ w.heap t x v → v.bytes.ptr ≠ c.data.ptr →
    (VecDyn.push Γ cfg v (c, w)).1 ≠ .ub

theorem C21_vecdyn_push_refuted : ¬ C21_vecdyn_push_full := by
  intro h
  exact h _ _ _ _ _ _ _ _ _ ⟨true⟩ _ _ Ex.d10_repr2 (Ex.twoHeap_wf _ _) Ex.b10_isBox (by decide)
    (C21_vecdyn_push_ub Ex.d10_repr2 (Ex.twoHeap_wf _ _) Ex.b10_isBox (by decide) (by decide) (by unfold Room; decide))

theorem C06_vecdyn_push_refuted : ¬ C06_vecdyn_full := by
  intro h
  obtain ⟨s', hrun, -⟩ := h _ _ _ _ _ _ _ _ _ ⟨true⟩ _ _ Ex.d10_repr2 (Ex.twoHeap_wf _ _) Ex.b10_isBox (by decide)
    (by unfold Room; decide)
  have := C21_vecdyn_push_ub (cfg := ⟨true⟩) Ex.d10_repr2 (Ex.twoHeap_wf _ _) Ex.b10_isBox (by decide) (by decide)
    (by unfold Room; decide)
  rw [hrun] at this
  cases this

/-- A boxed value of another type is dropped, its block is freed, the container is unchanged. -/
theorem C06_vecdyn_push_mismatch [HasDrop U W] (R : Repr Γ w.heap t es c.data) (wf : w.heap.WF) {t' : TyId} {x : Bytes}
    {v : BoxValue W} (hv : IsBox Γ w.heap t' x v) (ht : t' ≠ t) (hl : LawfulDrop Γ t' v.vtable) {u' : U}
    (hd : Γ.drop t' x w.user = (.ok (), u')) :
    ∃ h', VecDyn.push Γ cfg v (c, w) = (.ok none, (c, ⟨h', u'⟩)) ∧ Realloc w.heap v.bytes.ptr h' none :=
  VecDyn.push_mismatch R wf hv ht hl hd

def Ex.w710 : World Ex.Log := ⟨Ex.twoHeap ⟨32, 8⟩ ⟨24, 8⟩, []⟩
example := C06_vecdyn_push_mismatch (cfg := ⟨true⟩) (w := Ex.w710) (t := 7) (es := [Ex.g1]) (c := Ex.d7 [Ex.g1])
  ⟨rfl, rfl, rfl, by decide, rfl, by decide, rfl, by decide, by decide, by unfold Room; decide, 0, rfl, rfl⟩
  (Ex.twoHeap_wf _ _) (v := Ex.b10) (t' := 10) (x := Ex.s1) ⟨rfl, rfl, rfl, rfl, .inr ⟨by decide, 1, rfl, rfl⟩⟩ (by decide)
  (Ex.cloneVT_drop 10) (u' := [.dropped 10 Ex.s1]) rfl

/-- `push_cloned` appends a clone of the referenced value and refuses a value of another type. What is
missing: reallocations that hit `BadGrowth`, and panicking clones. -/
theorem C06_vecdyn_push_cloned_partial [HasClone U V] (R : Repr Γ w.heap t es c.data) (wf : w.heap.WF)
    (hl : LawfulClone Γ t c.vtable) :
    (∀ x x' (v : ValueRef V) u', IsRef Γ t x v → Γ.clone t x w.user = (.ok x', u') →
      Room Γ t (max 8 (max (2 * c.data.cap) (es.length + 1))) → ¬ BadGrowth Γ t c.data.cap (es.length + 1) →
      ∃ d h', VecDyn.pushCloned Γ cfg v (c, w) = (.ok (some ()), ({ c with data := d }, ⟨h', u'⟩)) ∧
        Evolves Γ t (es.length + 1) (es ++ [x']) w.heap c.data h' d) ∧
    (∀ t' x (v : ValueRef V), IsRef Γ t' x v → t' ≠ t → VecDyn.pushCloned Γ cfg v (c, w) = (.ok none, (c, w))) :=
  ⟨fun _ _ _ _ hv hc hroom hbad => VecDyn.pushCloned_ok R wf hl hv hc hroom hbad,
   fun _ _ _ hv ht => VecDyn.pushCloned_mismatch R (by rw [hv.type_id]; exact ht)⟩

example := (C06_vecdyn_push_cloned_partial (cfg := ⟨true⟩) Ex.d10_repr (Ex.d_wf 10 4) (Ex.cloneVT_clone 10)).1 Ex.s1 Ex.s1
  (Ex.ref 10 Ex.s1 (Ex.cloneVT 10)) [.cloned 10 Ex.s1] (Ex.ref_isRef rfl) rfl (by unfold Room; decide)
  (by unfold BadGrowth; decide)

/-- Full claim of C20 for `push_cloned`: a panicking clone leaves the content as it was. -/
def C20_push_cloned_full : Prop :=
  ∀ (U V : Type) (_ : HasClone U V) (Γ : TyEnv U) (t : TyId) (es : List Bytes) (c : VecDyn V) (w : World U) (cfg : Cfg)
    (x : Bytes) (v : ValueRef V) (u' : U) (y : Why) (s' : VecDyn V × World U),
    Repr Γ w.heap t es c.data → w.heap.WF → LawfulClone Γ t c.vtable → IsRef Γ t x v →
    Γ.clone t x w.user = (.panic y, u') → VecDyn.pushCloned Γ cfg v (c, w) = (.panic y, s') →
    Repr Γ s'.2.heap t es s'.1.data

/-- A panicking clone inside `push_cloned` loses the container: it becomes an empty container of `()`,
the buffer is freed and the old elements are never dropped. -/
theorem C20_push_cloned_loses_content [HasClone U V] (R : Repr Γ w.heap t es c.data) (wf : w.heap.WF)
    (hl : LawfulClone Γ t c.vtable) {x : Bytes} {v : ValueRef V} (hv : IsRef Γ t x v) {u' : U} {y : Why}
    (hc : Γ.clone t x w.user = (.panic y, u'))
    (hroom : Room Γ t (max 8 (max (2 * c.data.cap) (es.length + 1))))
    (hbad : ¬ BadGrowth Γ t c.data.cap (es.length + 1)) :
    ∃ h', VecDyn.pushCloned Γ cfg v (c, w) =
        (.panic y, ({ c with data := VecVoid.default Γ }, ⟨h', u'⟩)) ∧ Realloc w.heap c.data.ptr h' none :=
  VecDyn.pushCloned_panic R wf hl hv hc hroom hbad

theorem C20_push_cloned_refuted : ¬ C20_push_cloned_full := by
  intro h
  have R := Ex.d7_repr (es := [Ex.g1, Ex.g2]) (by decide) (by decide)
  obtain ⟨h', hrun, -⟩ := C20_push_cloned_loses_content (cfg := ⟨true⟩) R (Ex.d_wf 7 4) (Ex.cloneVT_clone 7)
    (x := Ex.badClone) (v := Ex.ref 7 Ex.badClone (Ex.cloneVT 7)) (Ex.ref_isRef rfl) (u' := []) (y := .user) rfl
    (by unfold Room; decide) (by unfold BadGrowth; decide)
  have := h _ _ _ _ _ _ _ _ _ _ _ [] _ _ R (Ex.d_wf 7 4) (Ex.cloneVT_clone 7)
    (Ex.ref_isRef (x := Ex.badClone) (vt := Ex.cloneVT 7) rfl) rfl hrun
  have h2 : Ex.env.unitTy = 7 := this.type_id
  revert h2; decide

/-! ### C45 what a lost container does later -/

/-- Whenever a panic has left a `VecDyn` with the default (empty, `()`) data, dropping that `VecDyn`
panics again (`chunks_exact_mut(0)`); while unwinding this aborts the process. -/
theorem C45_vecdyn_default_drop_panics [HasDrop U V] (vt : V) (w : World U) :
    VecDyn.drop cfg ⟨VecVoid.default Γ, vt⟩ w = (.panic .zeroChunk, w) := by
  have h0 : (VecVoid.default Γ).elem.numBytes = 0 := by
    simp [VecVoid.default, ElemInfo.numBytes, ElemInfo.new, Γ.unit_size]
  simp only [VecDyn.drop, M.bind_run, VecVoid.byteChunks, M.lift_run, h0, chunksExact]
  simp [VecVoid.default, VecVoid.bytes, ElemInfo.numBytes, ElemInfo.new, Γ.unit_size]

/-- Rotating a local `VecDyn` out of range aborts the process: the panic of the rotation unwinds
through the owner of the container, whose destructor panics. -/
theorem C45_vecdyn_rotate_aborts [HasDrop U V] (R : Repr Γ w.heap t es c.data) {n : Nat} (hn : es.length < n)
    (hov : n * Γ.size t ≤ usizeMax) (ha : Γ.align t ≤ 8192) :
    (withLocal c (VecDyn.drop cfg) (VecCopy.rotateLeft Γ cfg n) w).1 = .abort := by
  obtain ⟨i, -, hrun⟩ := C45_rotate_loses_content (cfg := cfg) R hn hov ha
  have hd := C45_vecdyn_default_drop_panics (Γ := Γ) (cfg := cfg) c.vtable { w with heap := w.heap.free i }
  simp only [withLocal, hrun]
  rw [hd]

example := C45_vecdyn_rotate_aborts (cfg := ⟨false⟩) (w := Ex.world 10 4) Ex.d10_repr (n := 3) (by decide) (by decide) (by decide)

/-! ### C18 failing conversions of a container -/

/-- Full claim: a failing `into_vec`, which consumes the container, drops its elements. -/
def C18_vecdyn_into_vec_full : Prop :=
  ∀ (U V : Type) (Γ : TyEnv U) (t t' : TyId) (es : List Bytes) (c : VecDyn V) (w w' : World U) (cfg : Cfg),
    Repr Γ w.heap t es c.data → VecCopy.intoVec Γ cfg t' c w = (.ok none, w') →
    w'.user = (M.forEach es (Γ.drop t) w.user).2

/-- It frees the buffer but never drops an element. -/
theorem C18_vecdyn_into_vec_leaks (R : Repr Γ w.heap t es c.data) {t' : TyId} (ht : t' ≠ t) :
    ∃ i, c.data.ptr = some i ∧
      VecCopy.intoVec Γ cfg t' c w = (.ok none, { w with heap := w.heap.free i }) := by
  obtain ⟨i, hp, hdr⟩ := VecVoid.drop_spec (cfg := cfg) R
  refine ⟨i, hp, ?_⟩
  have hne : t' ≠ VecCopy.elementTypeId c := by
    intro e; exact ht (e.trans R.type_id)
  simp only [VecCopy.intoVec, VecCopy.check]
  rw [if_pos hne]
  rw [M.bind_ok (a := none) (s' := { w with heap := w.heap.free i })]
  · rfl
  · rw [M.bind_ok (show VecCopy.drop cfg c w = _ from hdr)]; rfl

theorem C18_vecdyn_into_vec_refuted : ¬ C18_vecdyn_into_vec_full := by
  intro h
  obtain ⟨i, -, hrun⟩ := C18_vecdyn_into_vec_leaks (cfg := ⟨true⟩) Ex.d10_repr (t' := 7) (by decide)
  have := h _ _ _ _ _ _ _ _ _ _ Ex.d10_repr hrun
  simp only at this
  revert this; decide

/-! ### C26, C27, C48 untyped access -/

/-- `iter` yields one value per element; the i-th one is `get(i)` and refers to element `i`. -/
theorem C26_vecdyn (R : Repr Γ w.heap t es c.data) (s : σ) :
    VecCopy.iter c s = (.ok (es.map c.valueOf), s) ∧
    (∀ i (hi : i < es.length), VecDyn.get cfg i c s = (.ok (c.valueOf es[i]), s) ∧
      IsRef Γ t es[i] (c.valueOf es[i])) :=
  ⟨VecDyn.iter_valueOf R s, fun i hi => ⟨VecDyn.get_ok R hi s,
    ⟨R.type_id, R.align, rfl, R.each _ (List.getElem_mem hi)⟩⟩⟩

example := C26_vecdyn (cfg := ⟨true⟩) Ex.d10_repr ()

/-- `get(i)` outside the container panics. What is missing: release builds with `(i + 1) * size`
beyond `usize::MAX`, where the offset wraps around. -/
theorem C27_vecdyn_get_partial (R : Repr Γ w.heap t es c.data) {i : Nat} (hi : es.length ≤ i)
    (hw : NoWrap cfg ((i + 1) * Γ.size t)) (s : σ) : ∃ y, VecDyn.get cfg i c s = (.panic y, s) :=
  VecDyn.get_out R hi hw s

example := C27_vecdyn_get_partial (cfg := ⟨false⟩) Ex.d10_repr (i := 2) (by decide) (.inr (by decide)) ()

/-- A write through `get_mut(i)` changes element `i` only; also if the caller panics afterwards. -/
theorem C48_vecdyn_get_mut (R : Repr Γ w.heap t es c.data) (wf : w.heap.WF) {i : Nat} (hi : i < es.length)
    {m : M (ValueRef V × World U) α} {r : Res α} {x : ValueRef V} {w' : World U}
    (hm : m (c.valueOf es[i], w) = (r, (x, w'))) (hx : x.bytes.length = Γ.size t) :
    ∃ d, VecDyn.getMut cfg i m (c, w) = (r, ({ c with data := d }, w')) ∧
      Evolves Γ t 0 (es.set i x.bytes) w.heap c.data w.heap d :=
  VecDyn.getMut_ok R wf hi hm hx

example := C48_vecdyn_get_mut (α := Unit) (cfg := ⟨true⟩) Ex.d10_repr (Ex.d_wf 10 4) (i := 1) (by decide)
  (m := M.modify fun s => ({ s.1 with bytes := Ex.s1 }, s.2)) rfl rfl

/-! ### C28, C29 equality and hashing of containers -/

/-- What `==` on containers computes: it compares only up to the shorter length, and containers of
different element types are equal exactly if one of them is empty. -/
theorem C28_vecdyn_eq_is_zip [HasPartialEq V] {h h' : Heap} {a b : VecDyn V} {t' : TyId} {es' : List Bytes}
    (Ra : Repr Γ h t es a.data) (Rb : Repr Γ h' t' es' b.data) (hl : LawfulEq Γ t a.vtable) (s : σ) :
    VecDyn.eq a b s = (.ok (if t = t' then (es.zip es').all fun p => Γ.eq t p.1 p.2
      else es.isEmpty || es'.isEmpty), s) := by
  split
  · rename_i e; subst e; exact VecDyn.eq_same Ra Rb hl s
  · rename_i e; exact VecDyn.eq_diff Ra Rb e s

/-- For containers of the same type and the same length `==` is element-wise equality. What is missing:
containers of different lengths or types. -/
theorem C28_vecdyn_eq_partial [HasPartialEq V] {h h' : Heap} {a b : VecDyn V} {es' : List Bytes}
    (Ra : Repr Γ h t es a.data) (Rb : Repr Γ h' t es' b.data) (hl : LawfulEq Γ t a.vtable)
    (hlen : es.length = es'.length) (s : σ) :
    ∃ r, VecDyn.eq a b s = (.ok r, s) ∧
      (r = true ↔ ∀ i (h1 : i < es.length) (h2 : i < es'.length), Γ.eq t es[i] es'[i] = true) := by
  refine ⟨_, VecDyn.eq_same Ra Rb hl s, ?_⟩
  rw [List.all_eq_true]
  constructor
  · intro hall i h1 h2
    have hz : i < (es.zip es').length := by simp; omega
    have := hall _ (List.getElem_mem hz)
    simpa using this
  · intro hall p hp
    obtain ⟨i, hi, rfl⟩ := List.getElem_of_mem hp
    simp at hi
    simpa using hall i (by omega) (by omega)

def Ex.e10 (es : List Bytes) : VecDyn (PartialEqVTable Ex.Log) := ⟨Ex.vec 10 es 4, Ex.eqVT 10⟩
theorem Ex.e10_repr {es : List Bytes} (h : ∀ e ∈ es, e.length = 24) (hl : es.length ≤ 4) :
    Repr Ex.env (Ex.world 10 4).heap 10 es (Ex.e10 es).data :=
  Ex.vec_repr (by decide) h hl (by decide) (by unfold Room; decide)

example := C28_vecdyn_eq_is_zip (Ex.e10_repr (es := [Ex.s1, Ex.s2]) (by decide) (by decide))
  (Ex.e10_repr (es := [Ex.s1]) (by decide) (by decide)) (Ex.eqVT_eq 10) ()
example := C28_vecdyn_eq_partial (Ex.e10_repr (es := [Ex.s1, Ex.s2]) (by decide) (by decide))
  (Ex.e10_repr (es := [Ex.s1, Ex.s1]) (by decide) (by decide)) (Ex.eqVT_eq 10) rfl ()

/-- Full claim of C28: equal containers have the same length. -/
def C28_full : Prop :=
  ∀ (U V : Type) (_ : HasPartialEq V) (Γ : TyEnv U) (t : TyId) (es es' : List Bytes) (h h' : Heap) (a b : VecDyn V),
    Repr Γ h t es a.data → Repr Γ h' t es' b.data → LawfulEq Γ t a.vtable →
    VecDyn.eq a b () = (.ok true, ()) → es.length = es'.length

/-- A container equals every prefix of itself, in particular the empty container equals all. -/
theorem C28_refuted : ¬ C28_full := by
  intro h
  have R1 := Ex.e10_repr (es := [Ex.s1, Ex.s2]) (by decide) (by decide)
  have R2 := Ex.e10_repr (es := [Ex.s1]) (by decide) (by decide)
  have := h _ _ _ _ _ _ _ _ _ _ _ R1 R2 (Ex.eqVT_eq 10) (by rw [VecDyn.eq_same R1 R2 (Ex.eqVT_eq 10)]; rfl)
  exact absurd this (by decide)

/-- Full claim: `==` on containers is transitive if the element equality is. -/
def C28_transitive_full : Prop :=
  ∀ (U V : Type) (_ : HasPartialEq V) (Γ : TyEnv U) (t : TyId) (es es' es'' : List Bytes) (h h' h'' : Heap) (a b c : VecDyn V),
    Repr Γ h t es a.data → Repr Γ h' t es' b.data → Repr Γ h'' t es'' c.data →
    LawfulEq Γ t a.vtable → LawfulEq Γ t b.vtable →
    (∀ x y z, Γ.eq t x y = true → Γ.eq t y z = true → Γ.eq t x z = true) →
    VecDyn.eq a b () = (.ok true, ()) → VecDyn.eq b c () = (.ok true, ()) → VecDyn.eq a c () = (.ok true, ())

/-- `["1"] == []` and `[] == ["2"]`, but `["1"] != ["2"]`. -/
theorem C28_transitive_refuted : ¬ C28_transitive_full := by
  intro h
  have R1 := Ex.e10_repr (es := [Ex.s1]) (by decide) (by decide)
  have R2 := Ex.e10_repr (es := []) (by decide) (by decide)
  have R3 := Ex.e10_repr (es := [Ex.s2]) (by decide) (by decide)
  have := h _ _ _ _ _ _ _ _ _ _ _ _ _ _ R1 R2 R3 (Ex.eqVT_eq 10) (Ex.eqVT_eq 10)
    (by intro x y z h1 h2; simp only [Ex.env, beq_iff_eq] at *; exact h1.trans h2)
    (by rw [VecDyn.eq_same R1 R2 (Ex.eqVT_eq 10)]; rfl) (by rw [VecDyn.eq_same R2 R3 (Ex.eqVT_eq 10)]; rfl)
  rw [VecDyn.eq_same R1 R3 (Ex.eqVT_eq 10)] at this
  exact absurd this (by decide)

/-- `==` on containers is reflexive and symmetric whenever the element equality is. -/
theorem C28_vecdyn_refl_symm [HasPartialEq V] {h h' : Heap} {a b : VecDyn V} {es' : List Bytes}
    (Ra : Repr Γ h t es a.data) (Rb : Repr Γ h' t es' b.data) (hla : LawfulEq Γ t a.vtable) (hlb : LawfulEq Γ t b.vtable)
    (s : σ) :
    ((∀ x, Γ.eq t x x = true) → VecDyn.eq a a s = (.ok true, s)) ∧
    ((∀ x y, Γ.eq t x y = Γ.eq t y x) → VecDyn.eq a b s = VecDyn.eq b a s) := by
  constructor
  · intro hr
    rw [VecDyn.eq_same Ra Ra hla]
    congr 2
    rw [List.all_eq_true]
    intro p hp
    obtain ⟨i, hi, rfl⟩ := List.getElem_of_mem hp
    simp [hr]
  · intro hs
    rw [VecDyn.eq_same Ra Rb hla, VecDyn.eq_same Rb Ra hlb]
    congr 2
    generalize es = l1, es' = l2
    induction l1 generalizing l2 with
    | nil => cases l2 <;> rfl
    | cons x l1 ih =>
      cases l2 with
      | nil => rfl
      | cons y l2 => simp only [List.zip_cons_cons, List.all_cons, ih l2, hs x y]

example := C28_vecdyn_refl_symm (Ex.e10_repr (es := [Ex.s1, Ex.s2]) (by decide) (by decide))
  (Ex.e10_repr (es := [Ex.s1]) (by decide) (by decide)) (Ex.eqVT_eq 10) (Ex.eqVT_eq 10) ()

/-- What a container feeds to a hasher: the hashes of its elements in order, nothing else. -/
theorem C29_vecdyn_hash [HasHash V] {h : Heap} {a : VecDyn V} (Ra : Repr Γ h t es a.data)
    (hl : LawfulHash Γ t a.vtable) (s : σ) : VecDyn.hash a s = (.ok (es.map (Γ.hash t)).flatten, s) :=
  VecDyn.hash_ok Ra hl s

/-- Equal containers of the same length feed the same data to any hasher. What is missing: equal
containers of different lengths, see `C29_vecdyn_refuted`. -/
theorem C29_vecdyn_partial [HasPartialEq V] [HasHash V] {h h' : Heap} {a b : VecDyn V} {es' : List Bytes}
    (Ra : Repr Γ h t es a.data) (Rb : Repr Γ h' t es' b.data) (hle : LawfulEq Γ t a.vtable)
    (hla : LawfulHash Γ t a.vtable) (hlb : LawfulHash Γ t b.vtable) (hlen : es.length = es'.length)
    (hh : ∀ x y, Γ.eq t x y = true → Γ.hash t x = Γ.hash t y) {s : σ} (he : VecDyn.eq a b s = (.ok true, s)) :
    VecDyn.hash a s = VecDyn.hash b s := by
  rw [VecDyn.hash_ok Ra hla, VecDyn.hash_ok Rb hlb]
  congr 3
  obtain ⟨r, hr, hiff⟩ := C28_vecdyn_eq_partial Ra Rb hle hlen s
  rw [he] at hr
  have hrt : r = true := by cases hr; rfl
  apply List.ext_getElem (by simpa using hlen)
  intro i h1 h2
  simp only [List.getElem_map]
  exact hh _ _ (hiff.1 hrt i (by simpa using h1) (by simpa using h2))

def Ex.h10 (es : List Bytes) : VecDyn Ex.EqHashVT := ⟨Ex.vec 10 es 4, Ex.eqHashVT 10⟩
theorem Ex.h10_repr {es : List Bytes} (h : ∀ e ∈ es, e.length = 24) (hl : es.length ≤ 4) :
    Repr Ex.env (Ex.world 10 4).heap 10 es (Ex.h10 es).data :=
  Ex.vec_repr (by decide) h hl (by decide) (by unfold Room; decide)

example := C29_vecdyn_partial (Ex.h10_repr (es := [Ex.s1, Ex.s2]) (by decide) (by decide))
  (Ex.h10_repr (es := [Ex.s1, Ex.s2]) (by decide) (by decide)) (Ex.eqHashVT_eq 10) (Ex.eqHashVT_hash 10) (Ex.eqHashVT_hash 10)
  rfl (by intro x y h; simp only [Ex.env, beq_iff_eq] at h; rw [h]) (s := ())
  (VecDyn.eq_same (Ex.h10_repr (by decide) (by decide)) (Ex.h10_repr (by decide) (by decide)) (Ex.eqHashVT_eq 10) ())

/-- Full claim of C29 for containers. -/
def C29_vecdyn_full : Prop :=
  ∀ (U V : Type) (_ : HasPartialEq V) (_ : HasHash V) (Γ : TyEnv U) (t : TyId) (es es' : List Bytes) (h h' : Heap)
    (a b : VecDyn V), Repr Γ h t es a.data → Repr Γ h' t es' b.data → LawfulEq Γ t a.vtable → LawfulEq Γ t b.vtable →
    LawfulHash Γ t a.vtable → LawfulHash Γ t b.vtable →
    (∀ x y, Γ.eq t x y = true → Γ.hash t x = Γ.hash t y) →
    VecDyn.eq a b () = (.ok true, ()) → VecDyn.hash a () = VecDyn.hash b ()

/-- A container and a proper prefix of it are equal but hash differently. -/
theorem C29_vecdyn_refuted : ¬ C29_vecdyn_full := by
  intro h
  have R1 := Ex.h10_repr (es := [Ex.s1]) (by decide) (by decide)
  have R2 := Ex.h10_repr (es := []) (by decide) (by decide)
  have := h _ _ _ _ _ _ _ _ _ _ _ _ R1 R2 (Ex.eqHashVT_eq 10) (Ex.eqHashVT_eq 10) (Ex.eqHashVT_hash 10) (Ex.eqHashVT_hash 10)
    (by intro x y h; simp only [Ex.env, beq_iff_eq] at h; rw [h])
    (by rw [VecDyn.eq_same R1 R2 (Ex.eqHashVT_eq 10)]; rfl)
  rw [VecDyn.hash_ok R1 (Ex.eqHashVT_hash 10), VecDyn.hash_ok R2 (Ex.eqHashVT_hash 10)] at this
  exact absurd this (by decide)

/-! ### Slices of elements with destructors -/

/-- `SliceMut::clone_from_slice` overwrites element by element with `clone_from`, for any outcome of the
user code; lengths must agree. -/
theorem C12_slice_clone_from_slice {s : SliceCopy V} (R : SRepr Γ t es s) {src : List Bytes} :
    (∀ r es' u', es.length = src.length → TVec.cloneFrom Γ t es src w.user = (r, (es', u')) →
      ∃ s', SliceDyn.cloneFromSlice Γ cfg t src (s, w) = (r.map some, (s', { w with user := u' })) ∧ SRepr Γ t es' s' ∧
        s'.vtable = s.vtable) ∧
    (es.length ≠ src.length → SliceDyn.cloneFromSlice Γ cfg t src (s, w) = (.panic .lenMismatch, (s, w))) ∧
    (∀ t', t' ≠ t → SliceDyn.cloneFromSlice Γ cfg t' src (s, w) = (.ok none, (s, w))) :=
  ⟨fun _ _ _ hl hc => SliceDyn.cloneFromSlice_run R hl hc, fun hl => SliceDyn.cloneFromSlice_len R hl,
   fun _ ht => SliceDyn.cloneFromSlice_mismatch R ht⟩

def Ex.sl10 : SliceCopy (CloneVTable Ex.Log) := ⟨Ex.s1 ++ Ex.s2, ElemInfo.new Ex.env 10, Ex.cloneVT 10⟩
theorem Ex.sl10_repr : SRepr Ex.env 10 [Ex.s1, Ex.s2] Ex.sl10 := ⟨rfl, by decide, rfl, by decide, by decide⟩

example := (C12_slice_clone_from_slice (cfg := ⟨true⟩) (w := Ex.world 2 4) Ex.sl10_repr (src := [Ex.s2, Ex.s2])).1 (.ok ())
  [Ex.s2, Ex.s2] [.cloned 10 Ex.s2, .dropped 10 Ex.s1, .cloned 10 Ex.s2, .dropped 10 Ex.s2] rfl rfl

/-- `clone_into_vec` of a slice clones every element once in order. -/
theorem C16_slice_clone_into_vec {s : SliceCopy V} (R : SRepr Γ t es s) {es' : List Bytes} {u' : U}
    (hm : M.mapEach es (Γ.clone t) w.user = (.ok es', u')) :
    SliceDyn.cloneIntoVec Γ cfg t s w = (.ok (some es'), { w with user := u' }) :=
  SliceDyn.cloneIntoVec_ok R hm

example := C16_slice_clone_into_vec (cfg := ⟨true⟩) (w := Ex.world 2 4) Ex.sl10_repr (es' := [Ex.s1, Ex.s2])
  (u' := [.cloned 10 Ex.s1, .cloned 10 Ex.s2]) rfl

/-- Slices compare like containers: only up to the shorter length. -/
theorem C28_slice_eq_is_zip [HasPartialEq V] {a b : SliceCopy V} {t' : TyId} {es' : List Bytes}
    (Ra : SRepr Γ t es a) (Rb : SRepr Γ t' es' b) (hl : LawfulEq Γ t a.vtable) (st : σ) :
    SliceDyn.eq a b st = (.ok (if t = t' then (es.zip es').all fun p => Γ.eq t p.1 p.2
      else es.isEmpty || es'.isEmpty), st) := by
  have va : ∀ e : Bytes, a.valueOf e = (⟨e, t, Γ.align t, a.vtable⟩ : ValueRef V) := by
    intro e; simp [SliceCopy.valueOf, Ra.elem, ElemInfo.new]
  have vb : ∀ e : Bytes, b.valueOf e = (⟨e, t', Γ.align t', b.vtable⟩ : ValueRef V) := by
    intro e; simp [SliceCopy.valueOf, Rb.elem, ElemInfo.new]
  unfold SliceDyn.eq
  rw [M.bind_ok (SliceDyn.iter_valueOf Ra st), M.bind_ok (SliceDyn.iter_valueOf Rb st)]
  simp only [M.lift_run]
  congr 1
  -- the same loop as for containers with these tables
  let ca : VecDyn V := ⟨⟨none, 0, 0, ElemInfo.new Γ t, []⟩, a.vtable⟩
  let cb : VecDyn V := ⟨⟨none, 0, 0, ElemInfo.new Γ t', []⟩, b.vtable⟩
  have e1 : es.map a.valueOf = es.map ca.valueOf := List.map_congr_left fun e _ => by rw [va]; rfl
  have e2 : es'.map b.valueOf = es'.map cb.valueOf := List.map_congr_left fun e _ => by rw [vb]; rfl
  rw [e1, e2]
  split
  · rename_i e; subst e
    exact VecDyn.eqZip_same (a := ca) (b := cb) hl rfl rfl Ra.each Rb.each
  · rename_i e
    exact VecDyn.eqZip_diff (a := ca) (b := cb) e

def Ex.sle10 (es : List Bytes) : SliceCopy (PartialEqVTable Ex.Log) := ⟨es.flatten, ElemInfo.new Ex.env 10, Ex.eqVT 10⟩
example := C28_slice_eq_is_zip (a := Ex.sle10 [Ex.s1, Ex.s2]) (b := Ex.sle10 [Ex.s1])
  (show SRepr Ex.env 10 [Ex.s1, Ex.s2] _ from ⟨rfl, by decide, rfl, by decide, by decide⟩)
  (show SRepr Ex.env 10 [Ex.s1] _ from ⟨rfl, by decide, rfl, by decide, by decide⟩) (Ex.eqVT_eq 10) ()

end Dync
