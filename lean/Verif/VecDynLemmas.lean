import Verif.DynLemmas
import Verif.VecCopyLemmas3
/-!
# What the `VecDyn` operations do to a healthy container (helper lemmas)

User code is arbitrary: it may change the user state and panic.
-/
namespace Dync
variable {U V W σ α : Type}

theorem each_append {Γ : TyEnv U} {t : TyId} {es es' : List Bytes} (h : ∀ e ∈ es, e.length = Γ.size t)
    (h' : ∀ e ∈ es', e.length = Γ.size t) : ∀ e ∈ es ++ es', e.length = Γ.size t := by
  intro e he
  rcases List.mem_append.1 he with he | he
  · exact h e he
  · exact h' e he

theorem each_snoc {Γ : TyEnv U} {t : TyId} {es : List Bytes} {x : Bytes} (h : ∀ e ∈ es, e.length = Γ.size t)
    (hx : x.length = Γ.size t) : ∀ e ∈ es ++ [x], e.length = Γ.size t :=
  each_append h (fun e he => by rw [List.mem_singleton.1 he]; exact hx)

/-! ### The typed operations -/

namespace TVec
variable {Γ : TyEnv U} {t : TyId} {x : Bytes}

theorem extendClones_each {xs es es' : List Bytes} {u u' : U} {r : Res Unit}
    (h : extendClones Γ t xs es u = (r, (es', u'))) (he : ∀ e ∈ es, e.length = Γ.size t) :
    ∀ e ∈ es', e.length = Γ.size t := by
  induction xs generalizing es u with
  | nil => cases h; exact he
  | cons x xs ih =>
    simp only [extendClones] at h
    rcases hc : Γ.clone t x u with ⟨rc, u1⟩
    rw [hc] at h
    cases rc with
    | ok c => exact ih h (each_snoc he (Γ.clone_len hc))
    | _ => cases h; exact he

theorem extendClones_length {xs es es' : List Bytes} {u u' : U} {r : Res Unit}
    (h : extendClones Γ t xs es u = (r, (es', u'))) :
    es.length ≤ es'.length ∧ es'.length ≤ es.length + xs.length ∧ es'.take es.length = es ∧
      (r = .ok () → es'.length = es.length + xs.length) := by
  induction xs generalizing es u with
  | nil => cases h; simp
  | cons x xs ih =>
    simp only [extendClones] at h
    rcases hc : Γ.clone t x u with ⟨rc, u1⟩
    rw [hc] at h
    cases rc with
    | ok c =>
      obtain ⟨h1, h2, h3, h4⟩ := ih h
      simp only [List.length_append, List.length_cons, List.length_nil] at h1 h2 h3 h4 ⊢
      refine ⟨by omega, by omega, ?_, fun hr => by have := h4 hr; omega⟩
      have := congrArg (List.take es.length) h3
      rw [List.take_take] at this
      simpa using this
    | _ => cases h; simp

/-- Extending is cloning the whole slice and appending the clones. -/
theorem extendClones_ok {xs ys es : List Bytes} {u u' : U} (h : M.mapEach xs (Γ.clone t) u = (.ok ys, u')) :
    extendClones Γ t xs es u = (.ok (), (es ++ ys, u')) := by
  induction xs generalizing es u ys with
  | nil => cases h; simp [extendClones]
  | cons x xs ih =>
    simp only [M.mapEach_cons, M.bind_run] at h
    simp only [extendClones]
    rcases hc : Γ.clone t x u with ⟨rc, u1⟩
    rw [hc] at h
    cases rc with
    | ok c =>
      simp only at h
      rcases hm : M.mapEach xs (Γ.clone t) u1 with ⟨r2, u2⟩
      rw [hm] at h
      cases r2 with
      | ok zs =>
        cases h
        simp only
        rw [ih hm]; simp
      | _ => cases h
    | _ => cases h

/-- A panic while cloning keeps the clones made so far. -/
theorem extendClones_panic {xs es : List Bytes} {u u' : U} {y : Why}
    (h : M.mapEach xs (Γ.clone t) u = (.panic y, u')) :
    ∃ ys, extendClones Γ t xs es u = (.panic y, (es ++ ys, u')) ∧ ys.length < xs.length := by
  induction xs generalizing es u with
  | nil => cases h
  | cons x xs ih =>
    simp only [M.mapEach_cons, M.bind_run] at h
    simp only [extendClones]
    rcases hc : Γ.clone t x u with ⟨rc, u1⟩
    rw [hc] at h
    cases rc with
    | ok c =>
      simp only at h
      rcases hm : M.mapEach xs (Γ.clone t) u1 with ⟨r2, u2⟩
      rw [hm] at h
      cases r2 with
      | panic z =>
        cases h
        obtain ⟨ys, h1, h2⟩ := ih (es := es ++ [c]) hm
        exact ⟨c :: ys, by simp only [h1]; simp, by simp; omega⟩
      | _ => cases h
    | panic z => cases h; exact ⟨[], by simp, by simp⟩
    | _ => cases h

theorem pushClones_each {x : Bytes} {n : Nat} {es es' : List Bytes} {u u' : U} {r : Res Unit}
    (h : pushClones Γ t x n es u = (r, (es', u'))) (he : ∀ e ∈ es, e.length = Γ.size t) :
    ∀ e ∈ es', e.length = Γ.size t := extendClones_each h he

theorem pushClones_length {x : Bytes} {n : Nat} {es es' : List Bytes} {u u' : U} {r : Res Unit}
    (h : pushClones Γ t x n es u = (r, (es', u'))) :
    es.length ≤ es'.length ∧ es'.length ≤ es.length + n ∧ es'.take es.length = es ∧
      (r = .ok () → es'.length = es.length + n) := by
  have := extendClones_length h
  simpa using this

theorem fill_each {es es' : List Bytes} {u u' : U} {r : Res Unit}
    (h : fill Γ t x es u = (r, (es', u'))) (he : ∀ e ∈ es, e.length = Γ.size t) :
    es'.length = es.length ∧ ∀ e ∈ es', e.length = Γ.size t := by
  induction es generalizing u es' u' r with
  | nil => cases h; exact ⟨rfl, he⟩
  | cons e es ih =>
    have hes : ∀ e ∈ es, e.length = Γ.size t := fun y hy => he y (by simp [hy])
    simp only [fill] at h
    rcases hc : Γ.clone t x u with ⟨rc, u1⟩
    rw [hc] at h
    cases rc with
    | ok c =>
      have hcl := Γ.clone_len hc
      rcases hd : Γ.drop t e u1 with ⟨rd, u2⟩
      simp only [hd] at h
      have hkeep : ∀ y ∈ c :: es, y.length = Γ.size t := by
        intro y hy; rcases List.mem_cons.1 hy with rfl | hy
        · exact hcl
        · exact hes y hy
      cases rd with
      | ok _ =>
        rcases hf : fill Γ t x es u2 with ⟨r2, es2, u3⟩
        simp only [hf] at h
        cases h
        obtain ⟨l1, l2⟩ := ih hf hes
        refine ⟨by simp [l1], ?_⟩
        intro y hy; rcases List.mem_cons.1 hy with rfl | hy
        · exact hcl
        · exact l2 y hy
      | _ => cases h; exact ⟨rfl, hkeep⟩
    | _ => cases h; exact ⟨rfl, he⟩

theorem cloneFrom_each {ds ss ds' : List Bytes} {u u' : U} {r : Res Unit}
    (h : cloneFrom Γ t ds ss u = (r, (ds', u'))) (he : ∀ e ∈ ds, e.length = Γ.size t) :
    ds'.length = ds.length ∧ ∀ e ∈ ds', e.length = Γ.size t := by
  induction ds generalizing ss u ds' u' r with
  | nil => cases h; exact ⟨rfl, he⟩
  | cons d ds ih =>
    cases ss with
    | nil => cases h; exact ⟨rfl, he⟩
    | cons s ss =>
      have hes : ∀ e ∈ ds, e.length = Γ.size t := fun y hy => he y (by simp [hy])
      simp only [cloneFrom] at h
      rcases hc : Γ.cloneFrom t s (d, u) with ⟨rc, d', u1⟩
      have hd' := Γ.cloneFrom_len hc (he d (by simp))
      rw [hc] at h
      have hkeep : ∀ y ∈ d' :: ds, y.length = Γ.size t := by
        intro y hy; rcases List.mem_cons.1 hy with rfl | hy
        · exact hd'
        · exact hes y hy
      cases rc with
      | ok _ =>
        rcases hf : cloneFrom Γ t ds ss u1 with ⟨r2, es2, u3⟩
        simp only [hf] at h
        cases h
        obtain ⟨l1, l2⟩ := ih hf hes
        refine ⟨by simp [l1], ?_⟩
        intro y hy; rcases List.mem_cons.1 hy with rfl | hy
        · exact hd'
        · exact l2 y hy
      | _ => cases h; exact ⟨rfl, hkeep⟩

end TVec

/-! ### `VecDyn` -/

namespace VecDyn
variable {Γ : TyEnv U} {t : TyId} {es : List Bytes} {c : VecDyn V} {w : World U} {cfg : Cfg}

theorem dropLoop_eq [HasDrop U V] (hl : LawfulDrop Γ t c.vtable) {xs : List Bytes}
    (hx : ∀ e ∈ xs, e.length = Γ.size t) :
    (M.forEach xs fun b => (worldUser (HasDrop.dropFn c.vtable b) : M (World U) Unit)) =
      worldUser (M.forEach xs (Γ.drop t)) := by
  rw [← forEach_worldUser]
  exact forEach_congr (fun x hxm => by rw [hl x (hx x hxm)])

/-- Dropping a container: all destructors in order, then the buffer. -/
theorem drop_ok [HasDrop U V] (R : Repr Γ w.heap t es c.data) (hl : LawfulDrop Γ t c.vtable) {u' : U}
    (hd : M.forEach es (Γ.drop t) w.user = (.ok (), u')) :
    ∃ i, c.data.ptr = some i ∧ VecDyn.drop cfg c w = (.ok (), ⟨w.heap.free i, u'⟩) := by
  obtain ⟨i, hp, hdr⟩ := VecVoid.drop_spec (cfg := cfg) (w := { w with user := u' }) R
  refine ⟨i, hp, ?_⟩
  unfold VecDyn.drop
  rw [M.bind_ok (VecCopy.byteChunks_ok R w), dropLoop_eq hl R.each, M.bind_ok (worldUser_ok hd)]
  exact hdr

/-- A panicking destructor stops the loop; the rest of the container is neither dropped nor freed. -/
theorem drop_panic [HasDrop U V] (R : Repr Γ w.heap t es c.data) (hl : LawfulDrop Γ t c.vtable) {u' : U}
    {y : Why} (hd : M.forEach es (Γ.drop t) w.user = (.panic y, u')) :
    VecDyn.drop cfg c w = (.panic y, { w with user := u' }) := by
  unfold VecDyn.drop
  rw [M.bind_ok (VecCopy.byteChunks_ok R w), dropLoop_eq hl R.each, M.bind_panic (worldUser_of hd)]

theorem clear_ok [HasDrop U V] (R : Repr Γ w.heap t es c.data) (hl : LawfulDrop Γ t c.vtable) {u' : U}
    (hd : M.forEach es (Γ.drop t) w.user = (.ok (), u')) :
    VecDyn.clear Γ cfg (c, w) =
      (.ok (), ({ c with data := ⟨c.data.ptr, 0, c.data.cap, c.data.elem, []⟩ }, { w with user := u' })) := by
  unfold VecDyn.clear
  rw [M.bind_ok (getSelf_run _), M.bind_ok (VecCopy.byteChunks_ok R _), forEach_onWorld, dropLoop_eq hl R.each,
    M.bind_ok (onWorld_of (worldUser_ok hd)), VecCopy.onData_run]
  rw [VecVoid.clear_spec (w := { w with user := u' }) R]

/-- A panicking destructor in `clear` leaves *all* elements in the container. -/
theorem clear_panic [HasDrop U V] (R : Repr Γ w.heap t es c.data) (hl : LawfulDrop Γ t c.vtable) {u' : U}
    {y : Why} (hd : M.forEach es (Γ.drop t) w.user = (.panic y, u')) :
    VecDyn.clear Γ cfg (c, w) = (.panic y, (c, { w with user := u' })) := by
  unfold VecDyn.clear
  rw [M.bind_ok (getSelf_run _), M.bind_ok (VecCopy.byteChunks_ok R _), forEach_onWorld, dropLoop_eq hl R.each,
    M.bind_panic (onWorld_of (worldUser_of hd))]

/-! #### `clone` -/

theorem visit_cloneInto_ok [HasClone U V] {vt : V} (hl : LawfulClone Γ t vt) {xs ys xs' : List Bytes}
    (hx : ∀ e ∈ xs, e.length = Γ.size t) (hy : ∀ e ∈ ys, e.length = Γ.size t) (hlen : ys.length = xs.length)
    {w : World U} {u' : U} (hm : M.mapEach xs (Γ.clone t) w.user = (.ok xs', u')) :
    visitMut (cloneInto vt) (xs.zip ys) w = (.ok (), (xs.zip xs', { w with user := u' })) := by
  induction xs generalizing ys xs' w with
  | nil => cases hm; rfl
  | cons x xs ih =>
    cases ys with
    | nil => cases hlen
    | cons y ys =>
      simp only [M.mapEach_cons, M.bind_run] at hm
      rcases hc : Γ.clone t x w.user with ⟨rc, u1⟩
      rw [hc] at hm
      cases rc with
      | ok x' =>
        simp only at hm
        rcases hms : M.mapEach xs (Γ.clone t) u1 with ⟨r2, u2⟩
        rw [hms] at hm
        cases r2 with
        | ok zs =>
          cases hm
          have h1 := hl.raw_ok (hx x (by simp)) (hy y (by simp)) hc
          have h2 := ih (ys := ys) (xs' := zs) (w := { w with user := u1 })
            (fun e he => hx e (by simp [he])) (fun e he => hy e (by simp [he])) (by simpa using hlen) hms
          simp only [List.zip_cons_cons, visitMut, cloneInto, h1]
          simp only [cloneInto] at h2
          simp only [h2]
        | _ => cases hm
      | _ => cases hm

theorem visit_cloneInto_panic [HasClone U V] {vt : V} (hl : LawfulClone Γ t vt) {xs ys : List Bytes}
    (hx : ∀ e ∈ xs, e.length = Γ.size t) (hy : ∀ e ∈ ys, e.length = Γ.size t) (hlen : ys.length = xs.length)
    {w : World U} {u' : U} {y : Why} (hm : M.mapEach xs (Γ.clone t) w.user = (.panic y, u')) :
    ∃ zs, visitMut (cloneInto vt) (xs.zip ys) w = (.panic y, (zs, { w with user := u' })) ∧
      zs.length = xs.length ∧ ∀ e ∈ zs, e.2.length = Γ.size t := by
  induction xs generalizing ys w with
  | nil => cases hm
  | cons x xs ih =>
    cases ys with
    | nil => cases hlen
    | cons y' ys =>
      simp only [M.mapEach_cons, M.bind_run] at hm
      have hxs : ∀ e ∈ xs, e.length = Γ.size t := fun e he => hx e (by simp [he])
      have hys : ∀ e ∈ ys, e.length = Γ.size t := fun e he => hy e (by simp [he])
      have hlen' : ys.length = xs.length := by simpa using hlen
      rcases hc : Γ.clone t x w.user with ⟨rc, u1⟩
      rw [hc] at hm
      cases rc with
      | ok x' =>
        simp only at hm
        rcases hms : M.mapEach xs (Γ.clone t) u1 with ⟨r2, u2⟩
        rw [hms] at hm
        cases r2 with
        | panic z =>
          cases hm
          have h1 := hl.raw_ok (hx x (by simp)) (hy y' (by simp)) hc
          obtain ⟨zs, h2, h3, h4⟩ := ih (ys := ys) (w := { w with user := u1 }) hxs hys hlen' hms
          refine ⟨(x, x') :: zs, ?_, by simp [h3], ?_⟩
          · simp only [List.zip_cons_cons, visitMut, cloneInto, h1]
            simp only [cloneInto] at h2
            simp only [h2]
          · intro e he
            rcases List.mem_cons.1 he with rfl | he
            · exact Γ.clone_len hc
            · exact h4 e he
        | _ => cases hm
      | panic z =>
        cases hm
        have h1 := hl.raw_panic (hx x (by simp)) (hy y' (by simp)) hc
        refine ⟨(x, y') :: xs.zip ys, ?_, by simp [hlen'], ?_⟩
        · simp only [List.zip_cons_cons, visitMut, cloneInto, h1]
        · intro e he
          rcases List.mem_cons.1 he with rfl | he
          · exact hy _ (by simp)
          · exact hys _ (List.of_mem_zip he).2
      | _ => cases hm

theorem map_snd_zip_eq {xs ys : List Bytes} (h : ys.length = xs.length) : (xs.zip ys).map Prod.snd = ys := by
  rw [List.map_snd_zip]; omega

/-- Cloning: each element is cloned once, in order, into a fresh block. -/
theorem clone_ok [HasClone U V] (R : Repr Γ w.heap t es c.data) (hl : LawfulClone Γ t c.vtable)
    (wf : w.heap.WF) {es' : List Bytes} {u' : U} (hm : M.mapEach es (Γ.clone t) w.user = (.ok es', u')) :
    ∃ d h', VecDyn.clone cfg c w = (.ok ⟨d, c.vtable⟩, ⟨h', u'⟩) ∧ Repr Γ h' t es' d ∧
      d.cap = c.data.cap ∧ Realloc w.heap none h' d.ptr := by
  have hlen := mapEach_length hm
  have heach := mapEach_clone_each Γ hm
  have hpos : c.data.cap * Γ.size t ≠ 0 :=
    Nat.mul_ne_zero (by have := R.cap_pos; omega) (by have := R.pos; omega)
  have hal := Heap.alloc_live (h := w.heap) (l := ⟨c.data.cap * Γ.size t, Γ.align t⟩) hpos
  have hR0 : Repr Γ (w.heap.alloc ⟨c.data.cap * Γ.size t, Γ.align t⟩).2 t es
      ⟨some w.heap.next, c.data.len, c.data.cap, c.data.elem, c.data.mem⟩ :=
    ⟨R.type_id, R.chunks, R.align, R.pos, R.mem, R.each, R.len, R.len_le, R.cap_pos, R.room, _, rfl, hal.2⟩
  have hRe := hR0.setContent (es' := es') (by rw [hlen]; exact R.len_cap) heach
  refine ⟨⟨some w.heap.next, es'.length, c.data.cap, c.data.elem, es'.flatten⟩, _, ?_, hRe, rfl, ?_⟩
  · unfold VecDyn.clone
    rw [M.bind_ok (VecVoid.clone_spec (cfg := cfg) R)]
    rw [M.bind_ok (withLocal_ok (a := ())
      (x' := ⟨some w.heap.next, es'.length, c.data.cap, c.data.elem, es'.flatten⟩)
      (w' := ⟨(w.heap.alloc ⟨c.data.cap * Γ.size t, Γ.align t⟩).2, u'⟩) ?_)]
    · rfl
    · rw [M.bind_ok (VecCopy.byteChunks_ok R _), M.bind_ok (getSelf_run _),
        M.bind_ok (VecCopy.byteChunks_ok hR0 _)]
      have hv := visit_cloneInto_ok hl R.each R.each rfl
        (w := ⟨(w.heap.alloc ⟨c.data.cap * Γ.size t, Γ.align t⟩).2, w.user⟩) hm
      simp only [hv, map_snd_zip_eq hlen]
      rw [R.mem, splice_whole (by rw [length_flatten_eq heach, length_flatten_eq R.each, hlen]), R.len, hlen]
  · have := Realloc.ofAlloc wf ⟨c.data.cap * Γ.size t, Γ.align t⟩
    rw [hal.1] at this
    exact this

/-- A panicking clone: the new buffer is freed again, the source is not touched. -/
theorem clone_panic [HasClone U V] (R : Repr Γ w.heap t es c.data) (hl : LawfulClone Γ t c.vtable)
    (wf : w.heap.WF) {u' : U} {y : Why} (hm : M.mapEach es (Γ.clone t) w.user = (.panic y, u')) :
    ∃ h', VecDyn.clone cfg c w = (.panic y, ⟨h', u'⟩) ∧ Realloc w.heap none h' none := by
  have hpos : c.data.cap * Γ.size t ≠ 0 :=
    Nat.mul_ne_zero (by have := R.cap_pos; omega) (by have := R.pos; omega)
  have hal := Heap.alloc_live (h := w.heap) (l := ⟨c.data.cap * Γ.size t, Γ.align t⟩) hpos
  have hR0 : Repr Γ (w.heap.alloc ⟨c.data.cap * Γ.size t, Γ.align t⟩).2 t es
      ⟨some w.heap.next, c.data.len, c.data.cap, c.data.elem, c.data.mem⟩ :=
    ⟨R.type_id, R.chunks, R.align, R.pos, R.mem, R.each, R.len, R.len_le, R.cap_pos, R.room, _, rfl, hal.2⟩
  obtain ⟨zs, hv, hzl, hze⟩ := visit_cloneInto_panic hl R.each R.each rfl
    (w := ⟨(w.heap.alloc ⟨c.data.cap * Γ.size t, Γ.align t⟩).2, w.user⟩) hm
  have heach : ∀ e ∈ zs.map Prod.snd, e.length = Γ.size t := by
    intro e he; obtain ⟨p, hp, rfl⟩ := List.mem_map.1 he; exact hze p hp
  have hRe := hR0.setContent (es' := zs.map Prod.snd) (by simp [hzl]; exact R.len_cap) heach
  obtain ⟨i, hi, hdr⟩ := VecVoid.drop_spec (cfg := cfg)
    (w := ⟨(w.heap.alloc ⟨c.data.cap * Γ.size t, Γ.align t⟩).2, u'⟩) hRe
  cases hi
  refine ⟨(w.heap.alloc ⟨c.data.cap * Γ.size t, Γ.align t⟩).2.free w.heap.next, ?_, ?_⟩
  · unfold VecDyn.clone
    rw [M.bind_ok (VecVoid.clone_spec (cfg := cfg) R)]
    rw [M.bind_panic (withLocal_panic (y := y) (w' := ⟨(w.heap.alloc ⟨c.data.cap * Γ.size t, Γ.align t⟩).2, u'⟩) ?_ hdr)]
    · rw [M.bind_ok (VecCopy.byteChunks_ok R _), M.bind_ok (getSelf_run _),
        M.bind_ok (VecCopy.byteChunks_ok hR0 _)]
      simp only [hv]
      rw [R.mem, splice_whole (by
        rw [length_flatten_eq heach, length_flatten_eq R.each, List.length_map, hzl]), R.len,
        List.length_map, hzl]
  · have h1 := Realloc.ofAlloc wf ⟨c.data.cap * Γ.size t, Γ.align t⟩
    rw [hal.1] at h1
    refine ⟨h1.wf.free _, h1.next_le, ?_, fun h => absurd rfl h, fun h => absurd rfl h⟩
    intro j _ _
    simp only [Heap.free]
    split
    · rename_i hj; subst hj; rw [wf _ (Nat.le_refl _)]
    · rename_i hj
      exact h1.other j (by simp) (by simpa using hj)

/-! #### `resize` and `fill` -/

/-- `push_as` into reserved space. -/
theorem pushAs_fit (R : Repr Γ w.heap t es c.data) (wf : w.heap.WF) {x : Bytes}
    (hx : x.length = Γ.size t) (hcap : es.length + 1 ≤ c.data.cap) :
    VecCopy.pushAs Γ cfg t x (c, w) = (.ok (some ()), ({ c with data :=
        ⟨c.data.ptr, (es ++ [x]).length, c.data.cap, c.data.elem, (es ++ [x]).flatten⟩ }, w)) := by
  have hl := R.len
  have hp : RVec.push (Γ.layout t) x (c.data.typedView, w) =
      (.ok (), (⟨c.data.ptr, c.data.len + 1, c.data.cap, c.data.mem ++ x⟩, w)) := by
    have hne : ¬ c.data.typedView.len = c.data.typedView.cap := by
      simp only [VecVoid.typedView]; omega
    simp only [RVec.push, M.bind_run, M.get_run]
    rw [if_neg hne]
    rfl
  have hiv : IsVec Γ w.heap t (es ++ [x]) ⟨c.data.ptr, c.data.len + 1, c.data.cap, c.data.mem ++ x⟩ :=
    ⟨by simp [R.mem], each_snoc R.each hx, by simp [R.len], by simp only; omega, R.room,
      .inr ⟨R.cap_pos, R.block⟩⟩
  have := applyUnchecked_ok (cfg := cfg) R (RVec.pushOwned_ok hp) hiv R.cap_pos wf
  simp only [VecCopy.pushAs, M.bind_run, getSelf_run, VecCopy.checkRef_some R, VecCopy.onData_run, this,
    M.pure_run]
  simp [R.mem, hl]

theorem repeat_pushClones (R : Repr Γ w.heap t es c.data) (wf : w.heap.WF) {x : Bytes} {n : Nat}
    (hcap : es.length + n ≤ c.data.cap) {r : Res Unit} {es' : List Bytes} {u' : U}
    (hp : TVec.pushClones Γ t x n es w.user = (r, (es', u'))) :
    M.repeatN n (do
        let y ← onWorld (worldUser (Γ.clone t x))
        let _ ← VecCopy.pushAs Γ cfg t y
        pure ()) (c, w) =
      (r, ({ c with data := ⟨c.data.ptr, es'.length, c.data.cap, c.data.elem, es'.flatten⟩ },
        { w with user := u' })) := by
  induction n generalizing es c w with
  | zero =>
    obtain ⟨⟨p, l, k, e, m⟩, vt⟩ := c
    have h1 := R.len; have h2 := R.mem
    simp only at h1 h2
    subst h1 h2
    cases hp
    rfl
  | succ n ih =>
    simp only [TVec.pushClones, List.replicate_succ, TVec.extendClones] at hp
    simp only [M.repeatN]
    rcases hc : Γ.clone t x w.user with ⟨rc, u1⟩
    simp only [hc] at hp
    cases rc with
    | ok y =>
      have hy := Γ.clone_len hc
      have h1 := pushAs_fit (cfg := cfg) (w := { w with user := u1 }) R wf hy (by omega)
      have R' := R.setContent (es' := es ++ [y]) (by simp; omega) (each_snoc R.each hy)
      rw [M.bind_ok (a := ()) (s' := ({ c with data :=
        ⟨c.data.ptr, (es ++ [y]).length, c.data.cap, c.data.elem, (es ++ [y]).flatten⟩ },
          { w with user := u1 }))]
      · exact ih (w := { w with user := u1 }) (c := { c with data :=
          ⟨c.data.ptr, (es ++ [y]).length, c.data.cap, c.data.elem, (es ++ [y]).flatten⟩ })
          R' wf (by simp; omega) hp
      · rw [M.bind_ok (onWorld_of (worldUser_of hc)), M.bind_ok h1]; rfl
    | panic z =>
      cases hp
      have h0 : (onWorld (worldUser (Γ.clone t x)) : M (VecDyn V × World U) Bytes) (c, w) =
        (.panic z, (c, { w with user := u' })) := onWorld_of (worldUser_of hc)
      rw [M.bind_panic (M.bind_panic h0), ← R.eta]
    | ub =>
      cases hp
      have h0 : (onWorld (worldUser (Γ.clone t x)) : M (VecDyn V × World U) Bytes) (c, w) =
        (.ub, (c, { w with user := u' })) := onWorld_of (worldUser_of hc)
      rw [M.bind_ub (M.bind_ub h0), ← R.eta]
    | abort =>
      cases hp
      have h0 : (onWorld (worldUser (Γ.clone t x)) : M (VecDyn V × World U) Bytes) (c, w) =
        (.abort, (c, { w with user := u' })) := onWorld_of (worldUser_of hc)
      rw [M.bind_abort (M.bind_abort h0), ← R.eta]

/-- Growing: whatever the clones do, the container holds what a `Vec<T>` would hold. -/
theorem resizeBody_grow [HasDrop U V] (R : Repr Γ w.heap t es c.data) (wf : w.heap.WF) {n : Nat} {x : Bytes}
    (hn : es.length ≤ n) (hroom : Room Γ t (max 8 (max (2 * c.data.cap) n)))
    (hbad : ¬ BadGrowth Γ t c.data.cap n) {r : Res Unit} {es' : List Bytes} {u' : U}
    (hp : TVec.pushClones Γ t x (n - es.length) es w.user = (r, (es', u'))) :
    ∃ d h', resizeBody Γ cfg t n x (c, w) =
        (r.map some, ({ c with data := d }, ⟨h', u'⟩)) ∧
      Evolves Γ t n es' w.heap c.data h' d := by
  have hl := R.len
  have e1 : es.length + (n - es.length) = n := by omega
  obtain ⟨d, h', hrun, hev, hcap⟩ := VecCopy.reserve_ok (cfg := cfg) (n := n - es.length) R wf
    (by rw [e1]; exact hroom) (by rw [e1]; exact hbad)
  rw [e1] at hcap hev
  have hpush := repeat_pushClones (cfg := cfg) (c := { c with data := d }) (w := { w with heap := h' })
    hev.repr hev.wf (by simp only; omega) hp
  have hlen := TVec.pushClones_length hp
  refine ⟨⟨d.ptr, es'.length, d.cap, d.elem, es'.flatten⟩, h', ?_, ?_⟩
  · simp only [VecCopy.reserve, VecCopy.onData_run] at hrun
    simp only [resizeBody, M.bind_run, getSelf_run, VecCopy.checkRef_some R, VecCopy.len, hl, if_pos hn,
      VecCopy.onData_run]
    rw [hrun]
    simp only [M.bind_run] at hpush
    simp only [hpush]
    cases r <;> rfl
  · exact hev.trans R wf (Evolves.setContent hev.repr hev.wf (TVec.pushClones_each hp R.each)
      (by omega) rfl rfl rfl) (Nat.le_refl _)

theorem resizeBody_shrink [HasDrop U V] (R : Repr Γ w.heap t es c.data) (wf : w.heap.WF)
    (hl : LawfulDrop Γ t c.vtable) {n : Nat} {x : Bytes}
    (hn : n < es.length) {u' : U} (hd : M.forEach (es.drop n) (Γ.drop t) w.user = (.ok (), u')) :
    ∃ d, resizeBody Γ cfg t n x (c, w) = (.ok (some ()), ({ c with data := d }, { w with user := u' })) ∧
      Evolves Γ t 0 (es.take n) w.heap c.data w.heap d := by
  have hlen := R.len
  have hne : ¬ es.length ≤ n := by omega
  have hed : ∀ e ∈ es.drop n, e.length = Γ.size t := fun e he => R.each e (List.mem_of_mem_drop he)
  refine ⟨_, ?_, Evolves.setContent R wf (es' := es.take n) ?_ ?_ rfl rfl rfl⟩
  · simp only [resizeBody, M.bind_run, getSelf_run, VecCopy.checkRef_some R, VecCopy.len, hlen, if_neg hne,
      VecCopy.byteChunks_ok R, forEach_onWorld, dropLoop_eq hl hed, onWorld_run, worldUser_run, hd,
      VecCopy.onData_run]
    rw [VecVoid.truncate_spec (w := { w with user := u' }) R (n := n) (by omega)]
    simp only [M.pure_run]
    congr 5
    simp; omega
  · intro e he; exact R.each e (List.mem_of_mem_take he)
  · simp; have := R.len_cap; omega

/-- A panicking destructor while truncating leaves *all* elements in the container. -/
theorem resizeBody_shrink_panic [HasDrop U V] (R : Repr Γ w.heap t es c.data)
    (hl : LawfulDrop Γ t c.vtable) {n : Nat} {x : Bytes} {y : Why}
    (hn : n < es.length) {u' : U} (hd : M.forEach (es.drop n) (Γ.drop t) w.user = (.panic y, u')) :
    resizeBody Γ cfg t n x (c, w) = (.panic y, (c, { w with user := u' })) := by
  have hlen := R.len
  have hne : ¬ es.length ≤ n := by omega
  have hed : ∀ e ∈ es.drop n, e.length = Γ.size t := fun e he => R.each e (List.mem_of_mem_drop he)
  simp only [resizeBody, M.bind_run, getSelf_run, VecCopy.checkRef_some R, VecCopy.len, hlen, if_neg hne,
    VecCopy.byteChunks_ok R, forEach_onWorld, dropLoop_eq hl hed, onWorld_run, worldUser_run, hd]

theorem resizeBody_mismatch [HasDrop U V] (R : Repr Γ w.heap t es c.data) {t' : TyId} (ht : t' ≠ t) {n : Nat}
    {x : Bytes} : resizeBody Γ cfg t' n x (c, w) = (.ok none, (c, w)) := by
  simp only [resizeBody, M.bind_run, getSelf_run, VecCopy.checkRef_none R ht, M.pure_run]

theorem visit_fill {x : Bytes} {es es' : List Bytes} {w : World U} {r : Res Unit} {u' : U}
    (hf : TVec.fill Γ t x es w.user = (r, (es', u'))) :
    visitMut (do
      let c ← onWorld (worldUser (Γ.clone t x))
      assignTyped Γ t c) es w = (r, (es', { w with user := u' })) := by
  induction es generalizing es' w u' r with
  | nil => cases hf; rfl
  | cons e es ih =>
    simp only [TVec.fill] at hf
    rcases hc : Γ.clone t x w.user with ⟨rc, u1⟩
    simp only [hc] at hf
    have h0 : (onWorld (worldUser (Γ.clone t x)) : M (Bytes × World U) Bytes) (e, w) =
        (rc, (e, { w with user := u1 })) := onWorld_of (worldUser_of hc)
    simp only [visitMut, M.bind_run, h0]
    cases rc with
    | ok y =>
      rcases hd : Γ.drop t e u1 with ⟨rd, u2⟩
      simp only [hd] at hf
      have h1 : worldUser (Γ.drop t e) { w with user := u1 } = (rd, { w with user := u2 }) := worldUser_of hd
      simp only [assignTyped, h1]
      cases rd with
      | ok _ =>
        rcases hr : TVec.fill Γ t x es u2 with ⟨r2, es2, u3⟩
        simp only [hr] at hf
        cases hf
        have := ih (w := { w with user := u2 }) hr
        simp only [M.bind_run, assignTyped] at this
        simp only [this]
      | _ => cases hf; rfl
    | _ => cases hf; rfl

/-- The loop of `fill` does what it does on a `Vec<T>`, whatever user code does. -/
theorem fillLoop (R : Repr Γ w.heap t es c.data) (wf : w.heap.WF) {x : Bytes} {r : Res Unit} {es' : List Bytes}
    {u' : U} (hf : TVec.fill Γ t x es w.user = (r, (es', u'))) :
    ∃ d, VecCopy.asMutSliceAs Γ t (forEachMut (do
        let c ← onWorld (worldUser (Γ.clone t x))
        assignTyped Γ t c)) (c, w) = (r.map some, ({ c with data := d }, { w with user := u' })) ∧
      Evolves Γ t 0 es' w.heap c.data w.heap d := by
  obtain ⟨hlen, heach⟩ := TVec.fill_each hf R.each
  refine ⟨⟨c.data.ptr, es'.length, c.data.cap, c.data.elem, es'.flatten⟩, ?_,
    Evolves.setContent R wf heach (by rw [hlen]; exact R.len_cap) rfl rfl rfl⟩
  obtain ⟨⟨p, l, k, e, mm⟩, vt⟩ := c
  have h1 := R.len; have h2 := R.mem
  simp only at h1 h2
  subst h1 h2
  have hv := visit_fill hf
  simp only [VecCopy.asMutSliceAs, M.bind_run, getSelf_run, VecCopy.checkRef_some R, M.lift_run, VecCopy.len,
    typedSlice_flatten R.each rfl, forEachMut]
  rw [hv]
  simp only
  rw [splice_whole (by rw [length_flatten_eq heach, length_flatten_eq R.each, hlen]), hlen]
  cases r <;> rfl

end VecDyn
end Dync
