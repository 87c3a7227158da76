import Verif.VecDynLemmas2
/-!
# `VecDyn`: constructors, typed copies, `resize`, `fill` (helper lemmas)
-/
namespace Dync
variable {U V W σ α : Type}

theorem dropEach_worldUser {β : Type} (xs : List β) (f : β → M U Unit) :
    M.dropEach xs (fun b => (worldUser (f b) : M (World U) Unit)) = worldUser (M.dropEach xs f) := by
  induction xs with
  | nil => rfl
  | cons x xs ih =>
    rw [M.dropEach_cons, ih]
    apply M.ext'; intro w
    have h1 : (worldUser (f x) : M (World U) Unit) w = ((f x w.user).1, { w with user := (f x w.user).2 }) := rfl
    rw [worldUser_run]
    simp only [M.thenDrop, h1, M.dropEach_cons]
    rcases f x w.user with ⟨r, u⟩
    simp only [worldUser_run]
    cases r <;> (try rfl) <;> (simp only; rcases M.dropEach xs f u with ⟨r2, u2⟩; cases r2 <;> rfl)

theorem IsVec.elems {Γ : TyEnv U} {t : TyId} {h : Heap} {es : List Bytes} {rv : RVec} (hv : IsVec Γ h t es rv) :
    rv.elems (Γ.size t) = es := by
  have h1 := typedSlice_flatten (k := rv.len) hv.each hv.len
  rw [← hv.bytes] at h1
  unfold typedSlice at h1
  split at h1
  · simpa [RVec.elems] using h1
  · cases h1

/-- Dropping a `Vec<T>` whose destructors do not panic. -/
theorem IsVec.dropTyped {Γ : TyEnv U} {t : TyId} {w : World U} {es : List Bytes} {rv : RVec}
    (hv : IsVec Γ w.heap t es rv) (wf : w.heap.WF) (hpos : 0 < Γ.size t) {u' : U}
    (hd : M.dropEach es (Γ.drop t) w.user = (.ok (), u')) :
    ∃ h', RVec.dropTyped Γ t rv w = (.ok (), ⟨h', u'⟩) ∧ Realloc w.heap rv.ptr h' none := by
  have he : M.dropEach (rv.elems (Γ.size t)) (fun b => (worldUser (Γ.drop t b) : M (World U) Unit)) w =
      (.ok (), { w with user := u' }) := by
    rw [hv.elems, dropEach_worldUser]; exact worldUser_ok hd
  obtain ⟨hc, hp⟩ | ⟨hc, i, hp, hl⟩ := hv.block
  · refine ⟨w.heap, M.thenDrop_ok he ?_, ?_⟩
    · simp [RVec.dropBuf, worldHeap_run, dealloc, hc]
    · rw [hp]; exact Realloc.refl wf none
  · refine ⟨w.heap.free i, M.thenDrop_ok he ?_, ?_⟩
    · have hz : rv.cap * (Γ.layout t).size ≠ 0 := Nat.mul_ne_zero (by omega) (by simp only; omega)
      simp only [RVec.dropBuf, worldHeap_run, hp]
      rw [dealloc_live hl hz]
    · refine ⟨wf.free i, Nat.le_refl _, ?_, ?_, fun _ j hj => by cases hj⟩
      · intro j hj _
        have : j ≠ i := fun e => hj (by rw [hp, e])
        simp [Heap.free, this]
      · intro _ j hj
        rw [hp] at hj; cases hj
        simp [Heap.free]

namespace VecDyn
variable {Γ : TyEnv U} {t : TyId} {es : List Bytes} {c : VecDyn V} {w : World U} {cfg : Cfg}

/-! ### `get_mut` -/

theorem getMut_ok (R : Repr Γ w.heap t es c.data) (wf : w.heap.WF) {i : Nat} (hi : i < es.length)
    {m : M (ValueRef V × World U) α} {r : Res α} {x : ValueRef V} {w' : World U}
    (hm : m (c.valueOf es[i], w) = (r, (x, w'))) (hx : x.bytes.length = Γ.size t) :
    ∃ d, VecDyn.getMut cfg i m (c, w) = (r, ({ c with data := d }, w')) ∧
      Evolves Γ t 0 (es.set i x.bytes) w.heap c.data w.heap d := by
  have hlen := R.len
  have hb : (i + 1) * Γ.size t ≤ usizeMax := by
    have h1 := VecCopy.Repr_mul_le R
    have h2 : (i + 1) * Γ.size t ≤ es.length * Γ.size t := Nat.mul_le_mul_right _ hi
    have := isize_le_usize; omega
  have hi1 : i + 1 ≤ usizeMax := Nat.le_trans (Nat.le_mul_of_pos_right _ R.pos) hb
  have hg : c.data.getBytes cfg i (c, w) = (.ok es[i], (c, w)) := by
    unfold VecVoid.getBytes indexByteSlice
    rw [M.bind_ok (debugAssert_ok (by simp [hlen, hi]) _), R.bytes, M.bind_ok (M.lift_run _ _), R.numBytes,
      M.bind_ok (SRepr.indexByteRange_ok hi1 hb _)]
    simp only [M.lift_run, SRepr.sliceIndex_elem R.each hi]
  have hsp : splice c.data.mem (i * Γ.size t) x.bytes = (es.set i x.bytes).flatten := by
    rw [R.mem]; exact splice_flatten R.each hi hx
  have he : ∀ e ∈ es.set i x.bytes, e.length = Γ.size t := by
    intro e he
    rcases List.mem_or_eq_of_mem_set he with he | rfl
    · exact R.each e he
    · exact hx
  refine ⟨⟨c.data.ptr, c.data.len, c.data.cap, c.data.elem, (es.set i x.bytes).flatten⟩, ?_,
    Evolves.setContent R wf he (by simpa using R.len_cap) (by simpa using R.len) rfl rfl⟩
  have hb' := hb
  have hb : (decide (i < c.len)) = true := by
    simp only [VecCopy.len, R.len]; exact decide_eq_true hi
  simp only [VecDyn.getMut]
  rw [M.bind_ok (getSelf_run _), M.bind_ok (debugAssert_ok hb _), M.bind_ok hg, R.numBytes,
    M.bind_ok (SRepr.indexByteRange_ok hi1 hb' _)]
  simp only [hm, hsp]

/-! ### Constructors -/

theorem push_fit {rv : RVec} {x : Bytes} (h : rv.len < rv.cap) :
    RVec.push (Γ.layout t) x (rv, w) = (.ok (), ({ rv with len := rv.len + 1, bytes := rv.bytes ++ x }, w)) := by
  have : ¬ rv.len = rv.cap := by omega
  simp [RVec.push, this]

theorem extendClone_run {xs : List Bytes} {rv : RVec} (hb : rv.bytes = es.flatten) (hl : rv.len = es.length)
    (hcap : es.length + xs.length ≤ rv.cap) {r : Res Unit} {es' : List Bytes} {u' : U}
    (hx : TVec.extendClones Γ t xs es w.user = (r, (es', u'))) :
    RVec.extendClone Γ t xs (rv, w) =
      (r, (⟨rv.ptr, es'.length, rv.cap, es'.flatten⟩, { w with user := u' })) := by
  induction xs generalizing es rv w with
  | nil =>
    obtain ⟨p, l, k, b⟩ := rv
    simp only at hb hl; subst hb hl
    cases hx; rfl
  | cons x xs ih =>
    simp only [TVec.extendClones] at hx
    rcases hc : Γ.clone t x w.user with ⟨rc, u1⟩
    simp only [hc] at hx
    have h0 : (onWorld (worldUser (Γ.clone t x)) : M (RVec × World U) Bytes) (rv, w) =
        (rc, (rv, { w with user := u1 })) := onWorld_of (worldUser_of hc)
    simp only [RVec.extendClone, M.forEach_cons]
    cases rc with
    | ok y =>
      simp only at hx
      rw [M.bind_ok (a := ()) (s' := ({ rv with len := rv.len + 1, bytes := rv.bytes ++ y },
        { w with user := u1 }))]
      · exact ih (es := es ++ [y]) (by simp [hb]) (by simp [hl]) (by
          simp only [List.length_append, List.length_cons, List.length_nil] at hcap ⊢; omega) hx
      · rw [M.bind_ok h0, push_fit]
        simp only [List.length_cons] at hcap; omega
    | panic y =>
      obtain ⟨p, l, k, b⟩ := rv
      simp only at hb hl; subst hb hl
      cases hx
      rw [M.bind_panic (M.bind_panic h0)]
    | ub =>
      obtain ⟨p, l, k, b⟩ := rv
      simp only at hb hl; subst hb hl
      cases hx
      rw [M.bind_ub (M.bind_ub h0)]
    | abort =>
      obtain ⟨p, l, k, b⟩ := rv
      simp only at hb hl; subst hb hl
      cases hx
      rw [M.bind_abort (M.bind_abort h0)]

theorem repeat_extendClone (n : Nat) (x : Bytes) :
    M.repeatN n (do let c ← onWorld (worldUser (Γ.clone t x)); RVec.push (Γ.layout t) c) =
      RVec.extendClone Γ t (List.replicate n x) := by
  induction n with
  | zero => rfl
  | succ n ih =>
    simp only [M.repeatN, List.replicate_succ, RVec.extendClone, M.forEach_cons] at ih ⊢
    rw [ih]

/-- `Vec::with_capacity(n)` filled with at most `n` elements, in terms of the initial heap. -/
theorem fresh_isVec {n : Nat} (wf : w.heap.WF) (hpos : 0 < Γ.size t) (hroom : Room Γ t n) :
    ∃ p h', RVec.withCapacity (Γ.layout t) n w = (.ok ⟨p, 0, n, []⟩, { w with heap := h' }) ∧ h'.WF ∧
      Realloc w.heap none h' p ∧
      ∀ es : List Bytes, es.length ≤ n → (∀ e ∈ es, e.length = Γ.size t) →
        IsVec Γ h' t es ⟨p, es.length, n, es.flatten⟩ := by
  have hne : Γ.size t ≠ 0 := by omega
  refine ⟨(w.heap.alloc ⟨n * Γ.size t, Γ.align t⟩).1, (w.heap.alloc ⟨n * Γ.size t, Γ.align t⟩).2,
    ?_, wf.alloc _, Realloc.ofAlloc wf _, fun es hle he => ⟨rfl, he, rfl, hle, hroom, ?_⟩⟩
  · unfold Room at hroom
    simp [RVec.withCapacity, hne, hroom]
  · by_cases hn : n = 0
    · left; subst hn; simp [Heap.alloc]
    · right
      have hz : (⟨n * Γ.size t, Γ.align t⟩ : Layout).size ≠ 0 := Nat.mul_ne_zero hn hne
      exact ⟨Nat.pos_of_ne_zero hn, _, (Heap.alloc_live hz).1, (Heap.alloc_live hz).2⟩

theorem fromSlice_ok {vt : V} {s s' : List Bytes} (wf : w.heap.WF) (hpos : 0 < Γ.size t)
    (hroom : Room Γ t s.length) {u' : U} (hm : M.mapEach s (Γ.clone t) w.user = (.ok s', u')) :
    ∃ d h', fromSlice Γ t vt s w = (.ok ⟨d, vt⟩, ⟨h', u'⟩) ∧ Repr Γ h' t s' d ∧ Realloc w.heap none h' d.ptr ∧
      d.cap ≤ max s.length 8 := by
  obtain ⟨p, h1, hrun, wf1, hre1, hv⟩ := fresh_isVec (n := s.length) wf hpos hroom
  have hlen := mapEach_length hm
  have hiv := hv s' (by omega) (mapEach_clone_each Γ hm)
  have hext := extendClone_run (w := { w with heap := h1 }) (rv := ⟨p, 0, s.length, []⟩) (es := []) rfl rfl (by simp)
    (TVec.extendClones_ok hm)
  obtain ⟨p2, k, h2, hfv, hR, hre2, _, hub⟩ := VecCopy.fromVec_ok (w := ⟨h1, u'⟩) (vt := vt) hiv wf1 hpos
  refine ⟨_, h2, ?_, hR, Realloc.trans wf (fun i hi => by cases hi) hre1 hre2, hub⟩
  unfold fromSlice
  rw [M.bind_ok hrun, M.bind_ok (withLocal_ok hext)]
  exact hfv

/-- A clone panics: the clones made so far are dropped, the buffer is freed. -/
theorem fromSlice_panic {vt : V} {s es' : List Bytes} (wf : w.heap.WF) (hpos : 0 < Γ.size t)
    (hroom : Room Γ t s.length) {u' u'' : U} {y : Why}
    (hm : TVec.extendClones Γ t s [] w.user = (.panic y, (es', u')))
    (hd : M.dropEach es' (Γ.drop t) u' = (.ok (), u'')) :
    ∃ h', (fromSlice Γ t vt s : M (World U) (VecDyn V)) w = (.panic y, ⟨h', u''⟩) ∧
      Realloc w.heap none h' none := by
  obtain ⟨p, h1, hrun, wf1, hre1, hv⟩ := fresh_isVec (n := s.length) wf hpos hroom
  have hlen := TVec.extendClones_length hm
  have hiv := hv es' (by simpa using hlen.2.1) (TVec.extendClones_each hm (by simp))
  have hext := extendClone_run (w := { w with heap := h1 }) (rv := ⟨p, 0, s.length, []⟩) (es := []) rfl rfl
    (by simp) hm
  obtain ⟨h2, hdr, hre2⟩ := IsVec.dropTyped (w := ⟨h1, u'⟩) hiv wf1 hpos hd
  refine ⟨h2, ?_, Realloc.trans wf (fun i hi => by cases hi) hre1 hre2⟩
  unfold fromSlice
  rw [M.bind_ok hrun, M.bind_panic (withLocal_panic hext hdr)]

theorem fromSlice_capacity {vt : V} {s : List Bytes} (hpos : 0 < Γ.size t) (hroom : ¬ Room Γ t s.length) :
    (fromSlice Γ t vt s : M (World U) (VecDyn V)) w = (.panic .capacity, w) := by
  have hne : Γ.size t ≠ 0 := by omega
  unfold Room at hroom
  unfold fromSlice
  rw [M.bind_panic]
  simp [RVec.withCapacity, hne, hroom]

theorem withSize_ok {vt : V} {n : Nat} {x : Bytes} {s' : List Bytes} (wf : w.heap.WF) (hpos : 0 < Γ.size t)
    (hroom : Room Γ t (n + 1)) (hx : x.length = Γ.size t) {u' : U}
    (hm : M.mapEach (List.replicate n x) (Γ.clone t) w.user = (.ok s', u')) :
    ∃ d h', withSize Γ t vt (n + 1) x w = (.ok ⟨d, vt⟩, ⟨h', u'⟩) ∧ Repr Γ h' t (s' ++ [x]) d ∧
      Realloc w.heap none h' d.ptr ∧ d.cap ≤ max (n + 1) 8 := by
  obtain ⟨p, h1, hrun, wf1, hre1, hv⟩ := fresh_isVec (n := n + 1) wf hpos hroom
  have hlen := mapEach_length hm
  simp only [List.length_replicate] at hlen
  have hiv := hv (s' ++ [x]) (by simp; omega) (each_snoc (mapEach_clone_each Γ hm) hx)
  have hext := extendClone_run (w := { w with heap := h1 }) (rv := ⟨p, 0, n + 1, []⟩) (es := []) rfl rfl (by simp)
    (TVec.extendClones_ok hm)
  obtain ⟨p2, k, h2, hfv, hR, hre2, _, hub⟩ := VecCopy.fromVec_ok (w := ⟨h1, u'⟩) (vt := vt) hiv wf1 hpos
  refine ⟨_, h2, ?_, hR, Realloc.trans wf (fun i hi => by cases hi) hre1 hre2, hub⟩
  have hew : RVec.extendWith Γ t (n + 1) x (⟨p, 0, n + 1, []⟩, { w with heap := h1 }) =
      (.ok (), (⟨p, (s' ++ [x]).length, n + 1, (s' ++ [x]).flatten⟩, ⟨h1, u'⟩)) := by
    simp only [RVec.extendWith, repeat_extendClone, hext]
    rw [push_fit (by simp; omega)]
    simp
  unfold withSize
  rw [M.bind_ok (M.onUnwind_ok hrun), M.bind_ok (withLocal_ok hew)]
  exact hfv

theorem withSize_zero_ok {vt : V} {x : Bytes} (wf : w.heap.WF) (hpos : 0 < Γ.size t) (hroom : Room Γ t 0) {u' : U}
    (hd : Γ.drop t x w.user = (.ok (), u')) :
    ∃ d h', withSize Γ t vt 0 x w = (.ok ⟨d, vt⟩, ⟨h', u'⟩) ∧ Repr Γ h' t [] d ∧
      Realloc w.heap none h' d.ptr ∧ d.cap ≤ 8 := by
  obtain ⟨p, h1, hrun, wf1, hre1, hv⟩ := fresh_isVec (n := 0) wf hpos hroom
  have hiv := hv [] (by simp) (by simp)
  obtain ⟨p2, k, h2, hfv, hR, hre2, _, hub⟩ := VecCopy.fromVec_ok (w := ⟨h1, u'⟩) (vt := vt) hiv wf1 hpos
  refine ⟨_, h2, ?_, hR, Realloc.trans wf (fun i hi => by cases hi) hre1 hre2, by simpa using hub⟩
  unfold withSize
  rw [M.bind_ok (M.onUnwind_ok hrun), M.bind_ok (withLocal_ok (a := ()) (x' := ⟨p, 0, 0, []⟩) (w' := ⟨h1, u'⟩)
    (onWorld_of (worldUser_of hd)))]
  exact hfv

/-- A clone panics: the argument and the clones made so far are dropped, the buffer is freed. -/
theorem withSize_panic {vt : V} {n : Nat} {x : Bytes} {es' : List Bytes} (wf : w.heap.WF) (hpos : 0 < Γ.size t)
    (hroom : Room Γ t (n + 1)) {u' u'' u3 : U} {y : Why}
    (hm : TVec.pushClones Γ t x n [] w.user = (.panic y, (es', u')))
    (hdx : Γ.drop t x u' = (.ok (), u''))
    (hd : M.dropEach es' (Γ.drop t) u'' = (.ok (), u3)) :
    ∃ h', (withSize Γ t vt (n + 1) x : M (World U) (VecDyn V)) w = (.panic y, ⟨h', u3⟩) ∧
      Realloc w.heap none h' none := by
  obtain ⟨p, h1, hrun, wf1, hre1, hv⟩ := fresh_isVec (n := n + 1) wf hpos hroom
  have hlen := TVec.pushClones_length hm
  simp only [List.length_nil, Nat.zero_add] at hlen
  have hiv := hv es' (by omega) (TVec.pushClones_each hm (by simp))
  have hext := extendClone_run (w := { w with heap := h1 }) (rv := ⟨p, 0, n + 1, []⟩) (es := []) rfl rfl
    (by simp) hm
  have hew : RVec.extendWith Γ t (n + 1) x (⟨p, 0, n + 1, []⟩, { w with heap := h1 }) =
      (.panic y, (⟨p, es'.length, n + 1, es'.flatten⟩, ⟨h1, u''⟩)) := by
    simp only [RVec.extendWith, repeat_extendClone, hext, onWorld_run, worldUser_run, hdx]
  obtain ⟨h2, hdr, hre2⟩ := IsVec.dropTyped (w := ⟨h1, u''⟩) hiv wf1 hpos hd
  refine ⟨h2, ?_, Realloc.trans wf (fun i hi => by cases hi) hre1 hre2⟩
  unfold withSize
  rw [M.bind_ok (M.onUnwind_ok hrun), M.bind_panic (withLocal_panic hew hdr)]

/-! ### By-value arguments: `resize` and `fill` -/

theorem thenDrop_arg {body : M (VecDyn V × World U) (Option Unit)} {c' : VecDyn V} {h' : Heap}
    {x : Bytes} {r r2 : Res Unit} {es' es2 : List Bytes} {u' u2 : U} {s : VecDyn V × World U}
    (hb : body s = (r.map some, (c', ⟨h', u'⟩)))
    (ho : TVec.thenDropArg Γ t x (r, (es', u')) = (r2, (es2, u2))) :
    M.thenDrop body (onWorld (worldUser (Γ.drop t x))) s = (r2.map some, (c', ⟨h', u2⟩)) := by
  simp only [M.thenDrop, hb]
  cases r with
  | ok a =>
    simp only [TVec.thenDropArg] at ho
    simp only [Res.map, onWorld_run, worldUser_run]
    rcases hd : Γ.drop t x u' with ⟨rd, ud⟩
    rw [hd] at ho
    cases ho
    cases rd <;> rfl
  | panic y =>
    simp only [TVec.thenDropArg] at ho
    simp only [Res.map, onWorld_run, worldUser_run]
    rcases hd : Γ.drop t x u' with ⟨rd, ud⟩
    rw [hd] at ho
    cases ho
    cases rd <;> rfl
  | ub => cases ho; rfl
  | abort => cases ho; rfl

theorem thenDropArg_es {x : Bytes} {o : Res Unit × (List Bytes × U)} {r2 : Res Unit} {es2 : List Bytes} {u2 : U}
    (ho : TVec.thenDropArg Γ t x o = (r2, (es2, u2))) : es2 = o.2.1 := by
  obtain ⟨r, es, u⟩ := o
  cases r <;> cases ho <;> rfl

theorem resize_grow [HasDrop U V] (R : Repr Γ w.heap t es c.data) (wf : w.heap.WF) {n : Nat} {x : Bytes}
    (hn : es.length ≤ n) (hroom : Room Γ t (max 8 (max (2 * c.data.cap) n)))
    (hbad : ¬ BadGrowth Γ t c.data.cap n) {r : Res Unit} {es' : List Bytes} {u' : U}
    (hp : TVec.thenDropArg Γ t x (TVec.pushClones Γ t x (n - es.length) es w.user) = (r, (es', u'))) :
    ∃ d h', VecDyn.resize Γ cfg t n x (c, w) = (r.map some, ({ c with data := d }, ⟨h', u'⟩)) ∧
      Evolves Γ t n es' w.heap c.data h' d := by
  rcases h1 : TVec.pushClones Γ t x (n - es.length) es w.user with ⟨r1, es1, u1⟩
  rw [h1] at hp
  obtain rfl := thenDropArg_es hp
  obtain ⟨d, h', hrun, hev⟩ := resizeBody_grow (cfg := cfg) R wf hn hroom hbad h1
  exact ⟨d, h', thenDrop_arg hrun hp, hev⟩

theorem resize_shrink [HasDrop U V] (R : Repr Γ w.heap t es c.data) (wf : w.heap.WF)
    (hl : LawfulDrop Γ t c.vtable) {n : Nat} {x : Bytes}
    (hn : n < es.length) {u' u2 : U} {r : Res Unit} (hd : M.forEach (es.drop n) (Γ.drop t) w.user = (.ok (), u'))
    (hx : Γ.drop t x u' = (r, u2)) :
    ∃ d, VecDyn.resize Γ cfg t n x (c, w) = (r.map some, ({ c with data := d }, { w with user := u2 })) ∧
      Evolves Γ t 0 (es.take n) w.heap c.data w.heap d := by
  obtain ⟨d, hrun, hev⟩ := resizeBody_shrink (cfg := cfg) (x := x) R wf hl hn hd
  refine ⟨d, ?_, hev⟩
  exact thenDrop_arg (r := .ok ()) (es' := es) (es2 := es) hrun (by simp [TVec.thenDropArg, hx])

theorem resize_shrink_panic [HasDrop U V] (R : Repr Γ w.heap t es c.data)
    (hl : LawfulDrop Γ t c.vtable) {n : Nat} {x : Bytes} {y : Why}
    (hn : n < es.length) {u' u2 : U} (hd : M.forEach (es.drop n) (Γ.drop t) w.user = (.panic y, u'))
    (hx : Γ.drop t x u' = (.ok (), u2)) :
    VecDyn.resize Γ cfg t n x (c, w) = (.panic y, (c, { w with user := u2 })) := by
  have hrun := resizeBody_shrink_panic (cfg := cfg) (x := x) R hl hn hd
  exact thenDrop_arg (r := .panic y) (r2 := .panic y) (es' := es) (es2 := es) hrun (by simp [TVec.thenDropArg, hx])

theorem resize_mismatch [HasDrop U V] (R : Repr Γ w.heap t es c.data) {t' : TyId} (ht : t' ≠ t) {n : Nat}
    {x : Bytes} {u' : U} (hx : Γ.drop t' x w.user = (.ok (), u')) :
    VecDyn.resize Γ cfg t' n x (c, w) = (.ok none, (c, { w with user := u' })) :=
  M.thenDrop_ok (resizeBody_mismatch R ht) (onWorld_of (worldUser_of hx))

theorem fill_run (R : Repr Γ w.heap t es c.data) (wf : w.heap.WF) {x : Bytes} {r : Res Unit} {es' : List Bytes}
    {u' : U} (hf : TVec.thenDropArg Γ t x (TVec.fill Γ t x es w.user) = (r, (es', u'))) :
    ∃ d, VecDyn.fill Γ t x (c, w) = (r.map some, ({ c with data := d }, { w with user := u' })) ∧
      Evolves Γ t 0 es' w.heap c.data w.heap d := by
  rcases h1 : TVec.fill Γ t x es w.user with ⟨r1, es1, u1⟩
  rw [h1] at hf
  obtain rfl := thenDropArg_es hf
  obtain ⟨d, hrun, hev⟩ := fillLoop R wf h1
  exact ⟨d, thenDrop_arg hrun hf, hev⟩

theorem fill_mismatch (R : Repr Γ w.heap t es c.data) {t' : TyId} (ht : t' ≠ t) {x : Bytes} {u' : U}
    (hx : Γ.drop t' x w.user = (.ok (), u')) :
    VecDyn.fill Γ t' x (c, w) = (.ok none, (c, { w with user := u' })) := by
  refine M.thenDrop_ok (s' := (c, w)) ?_ (onWorld_of (worldUser_of hx))
  simp only [VecCopy.asMutSliceAs, M.bind_run, getSelf_run, VecCopy.checkRef_none R ht, M.pure_run]

/-! ### `append_cloned_to_vec`, `clone_into_vec` -/

theorem extendList_run {xs es es' : List Bytes} {w : World U} {r : Res Unit} {u' : U}
    (hx : TVec.extendClones Γ t xs es w.user = (r, (es', u'))) :
    M.forEach xs (fun x => do
      let c ← onWorld (worldUser (Γ.clone t x))
      M.modify fun s => (s.1 ++ [c], s.2)) (es, w) = (r, (es', { w with user := u' })) := by
  induction xs generalizing es w with
  | nil => cases hx; rfl
  | cons x xs ih =>
    simp only [TVec.extendClones] at hx
    rcases hc : Γ.clone t x w.user with ⟨rc, u1⟩
    simp only [hc] at hx
    have h0 : (onWorld (worldUser (Γ.clone t x)) : M (List Bytes × World U) Bytes) (es, w) =
        (rc, (es, { w with user := u1 })) := onWorld_of (worldUser_of hc)
    rw [M.forEach_cons]
    cases rc with
    | ok y =>
      rw [M.bind_ok (a := ()) (s' := (es ++ [y], { w with user := u1 })) (by rw [M.bind_ok h0]; rfl)]
      exact ih hx
    | panic y => cases hx; rw [M.bind_panic (M.bind_panic h0)]
    | ub => cases hx; rw [M.bind_ub (M.bind_ub h0)]
    | abort => cases hx; rw [M.bind_abort (M.bind_abort h0)]

theorem map_some_bind {s s' : σ} {m : M σ Unit} {r : Res Unit} (h : m s = (r, s')) :
    (m >>= fun _ => (pure (some ()) : M σ (Option Unit))) s = (r.map some, s') := by
  simp only [M.bind_run, h]
  cases r <;> rfl

theorem appendClonedToVec_run (R : Repr Γ w.heap t es c.data) {vec vec' : List Bytes} {r : Res Unit} {u' : U}
    (hx : TVec.extendClones Γ t es vec w.user = (r, (vec', u'))) :
    VecDyn.appendClonedToVec Γ t c (vec, w) = (r.map some, (vec', { w with user := u' })) := by
  unfold VecDyn.appendClonedToVec
  rw [M.bind_ok (VecCopy.asSliceAs_ok R _)]
  exact map_some_bind (extendList_run hx)

theorem appendClonedToVec_mismatch (R : Repr Γ w.heap t es c.data) {t' : TyId} (ht : t' ≠ t) {vec : List Bytes} :
    VecDyn.appendClonedToVec Γ t' c (vec, w) = (.ok none, (vec, w)) := by
  unfold VecDyn.appendClonedToVec
  rw [M.bind_ok (a := none) (s' := (vec, w))]
  · rfl
  · simp only [VecCopy.asSliceAs, VecCopy.checkRef_none R ht, M.pure_run]

theorem cloneIntoVec_ok (R : Repr Γ w.heap t es c.data) {es' : List Bytes} {u' : U}
    (hm : M.mapEach es (Γ.clone t) w.user = (.ok es', u')) :
    VecDyn.cloneIntoVec Γ t c w = (.ok (some es'), { w with user := u' }) := by
  have h1 := appendClonedToVec_run (c := c) (vec := []) R (TVec.extendClones_ok hm)
  unfold VecDyn.cloneIntoVec
  rw [M.bind_ok (withLocal_ok h1)]
  rfl

theorem cloneIntoVec_panic (R : Repr Γ w.heap t es c.data) {es' : List Bytes} {u' u'' : U} {y : Why}
    (hm : TVec.extendClones Γ t es [] w.user = (.panic y, (es', u')))
    (hd : M.dropEach es' (Γ.drop t) u' = (.ok (), u'')) :
    VecDyn.cloneIntoVec Γ t c w = (.panic y, { w with user := u'' }) := by
  have h1 := appendClonedToVec_run (c := c) R hm
  unfold VecDyn.cloneIntoVec
  rw [M.bind_panic (withLocal_panic (w'' := { w with user := u'' }) h1 _)]
  rw [dropEach_worldUser]; exact worldUser_ok hd

theorem cloneIntoVec_mismatch (R : Repr Γ w.heap t es c.data) {t' : TyId} (ht : t' ≠ t) :
    VecDyn.cloneIntoVec Γ t' c w = (.ok none, w) := by
  unfold VecDyn.cloneIntoVec
  rw [M.bind_ok (withLocal_ok (appendClonedToVec_mismatch R ht))]
  rfl

/-! ### `check`, `into_vec` -/

theorem check_ok [HasDrop U V] (R : Repr Γ w.heap t es c.data) :
    VecDyn.check cfg t c w = (.ok (some c), w) := by
  simp only [VecDyn.check, VecCopy.checkRef_some R]; rfl

theorem check_mismatch [HasDrop U V] (R : Repr Γ w.heap t es c.data) (wf : w.heap.WF) (hl : LawfulDrop Γ t c.vtable)
    {t' : TyId} (ht : t' ≠ t) {u' : U} (hd : M.forEach es (Γ.drop t) w.user = (.ok (), u')) :
    ∃ i, c.data.ptr = some i ∧ VecDyn.check cfg t' c w = (.ok none, ⟨w.heap.free i, u'⟩) := by
  obtain ⟨i, hp, hdr⟩ := drop_ok (cfg := cfg) R hl hd
  refine ⟨i, hp, ?_⟩
  simp only [VecDyn.check, VecCopy.checkRef_none R ht]
  rw [M.bind_ok hdr]; rfl

end VecDyn

/-! ### `Slice` and `SliceMut` -/

namespace SliceDyn
variable {Γ : TyEnv U} {t : TyId} {es : List Bytes} {s : SliceCopy V} {cfg : Cfg} {w : World U}

theorem asSlice_ok (R : SRepr Γ t es s) (st : σ) : s.asSlice Γ cfg t st = (.ok (some es), st) := by
  simp only [SliceCopy.asSlice, R.check, if_true, M.bind_run, R.len, M.lift_run, R.data,
    typedSlice_flatten R.each rfl, M.pure_run]

theorem asSlice_mismatch (R : SRepr Γ t es s) {t' : TyId} (ht : t' ≠ t) (st : σ) :
    s.asSlice Γ cfg t' st = (.ok none, st) := by
  simp only [SliceCopy.asSlice, R.check, if_neg ht, M.pure_run]

theorem appendCloneToVec_run (R : SRepr Γ t es s) {vec vec' : List Bytes} {r : Res Unit} {u' : U}
    (hx : TVec.extendClones Γ t es vec w.user = (r, (vec', u'))) :
    appendCloneToVec Γ cfg t s (vec, w) = (r.map some, (vec', { w with user := u' })) := by
  unfold appendCloneToVec
  rw [M.bind_ok (asSlice_ok R _)]
  exact VecDyn.map_some_bind (VecDyn.extendList_run hx)

theorem cloneIntoVec_ok (R : SRepr Γ t es s) {es' : List Bytes} {u' : U}
    (hm : M.mapEach es (Γ.clone t) w.user = (.ok es', u')) :
    cloneIntoVec Γ cfg t s w = (.ok (some es'), { w with user := u' }) := by
  have h1 := appendCloneToVec_run (cfg := cfg) (vec := []) R (TVec.extendClones_ok hm)
  unfold cloneIntoVec
  rw [M.bind_ok (withLocal_ok h1)]
  rfl

theorem cloneIntoVec_panic (R : SRepr Γ t es s) {es' : List Bytes} {u' u'' : U} {y : Why}
    (hm : TVec.extendClones Γ t es [] w.user = (.panic y, (es', u')))
    (hd : M.dropEach es' (Γ.drop t) u' = (.ok (), u'')) :
    cloneIntoVec Γ cfg t s w = (.panic y, { w with user := u'' }) := by
  have h1 := appendCloneToVec_run (cfg := cfg) R hm
  unfold cloneIntoVec
  rw [M.bind_panic (withLocal_panic (w'' := { w with user := u'' }) h1 _)]
  rw [dropEach_worldUser]; exact worldUser_ok hd

theorem visit_cloneFrom {ds ss ds' : List Bytes} {u u' : U} {r : Res Unit} (hlen : ds.length = ss.length)
    (h : TVec.cloneFrom Γ t ds ss u = (r, (ds', u'))) :
    cloneFromTyped Γ t ss (ds, u) = (r, (ds', u')) := by
  simp only [cloneFromTyped, if_pos hlen]
  induction ds generalizing ss u ds' u' r with
  | nil => cases ss with
    | nil => cases h; rfl
    | cons _ _ => cases hlen
  | cons d ds ih =>
    cases ss with
    | nil => cases hlen
    | cons x ss =>
      simp only [List.length_cons, Nat.add_right_cancel_iff] at hlen
      simp only [TVec.cloneFrom] at h
      rcases hc : Γ.cloneFrom t x (d, u) with ⟨rc, d1, u1⟩
      simp only [hc] at h
      simp only [List.zip_cons_cons, visitMut, hc]
      cases rc with
      | ok a =>
        rcases h2 : TVec.cloneFrom Γ t ds ss u1 with ⟨r2, ds2, u2⟩
        simp only [h2] at h
        cases h
        have := ih hlen h2
        simp only [Prod.mk.injEq] at this
        simp only [List.map_cons, this]
      | panic y => cases h; simp [List.map_fst_zip (Nat.le_of_eq hlen)]
      | ub => cases h; simp [List.map_fst_zip (Nat.le_of_eq hlen)]
      | abort => cases h; simp [List.map_fst_zip (Nat.le_of_eq hlen)]

theorem cloneFromSlice_run (R : SRepr Γ t es s) {src : List Bytes} (hlen : es.length = src.length)
    {r : Res Unit} {es' : List Bytes} {u' : U} (hc : TVec.cloneFrom Γ t es src w.user = (r, (es', u'))) :
    ∃ s', cloneFromSlice Γ cfg t src (s, w) = (r.map some, (s', { w with user := u' })) ∧ SRepr Γ t es' s' ∧
      s'.vtable = s.vtable := by
  obtain ⟨hl', he'⟩ := TVec.cloneFrom_each hc R.each
  refine ⟨{ s with data := es'.flatten }, ?_, R.sub rfl rfl he' (by omega), rfl⟩
  have hsp : splice s.data 0 es'.flatten = es'.flatten := splice_whole (by
    rw [R.data, length_flatten_eq R.each, length_flatten_eq he', hl'])
  unfold cloneFromSlice
  rw [M.bind_ok (getSelf_run _), M.bind_ok (R.len _), R.check, if_pos rfl]
  simp only [R.data, typedSlice_flatten R.each rfl]
  rw [M.bind_ok (M.lift_run _ _)]
  refine VecDyn.map_some_bind ?_
  simp only [visit_cloneFrom hlen hc, hsp]

theorem cloneFromSlice_len (R : SRepr Γ t es s) {src : List Bytes} (hlen : es.length ≠ src.length) :
    cloneFromSlice Γ cfg t src (s, w) = (.panic .lenMismatch, (s, w)) := by
  have hsp : splice s.data 0 s.data = s.data := splice_whole rfl
  unfold cloneFromSlice
  rw [M.bind_ok (getSelf_run _), M.bind_ok (R.len _), R.check, if_pos rfl]
  simp only [R.data, typedSlice_flatten R.each rfl]
  rw [M.bind_ok (M.lift_run _ _)]
  refine M.bind_panic ?_
  simp only [cloneFromTyped, if_neg hlen, ← R.data, hsp]

theorem cloneFromSlice_mismatch (R : SRepr Γ t es s) {t' : TyId} (ht : t' ≠ t) {src : List Bytes} :
    cloneFromSlice Γ cfg t' src (s, w) = (.ok none, (s, w)) := by
  unfold cloneFromSlice
  rw [M.bind_ok (getSelf_run _), M.bind_ok (R.len _), R.check, if_neg ht]
  rfl

theorem iter_valueOf (R : SRepr Γ t es s) (st : σ) : s.iter st = (.ok (es.map s.valueOf), st) := by
  have hne : Γ.size t ≠ 0 := by have := R.pos; omega
  simp only [SliceCopy.iter, M.bind_run, M.lift_run, R.numBytes, chunksExact, if_neg hne, R.data,
    chunks_flatten R.pos R.each, M.pure_run]

end SliceDyn
end Dync
