import Verif.VecCopy
import Verif.VecVoidLemmas4
/-!
# Helper lemmas about `VecCopy` operations on healthy vectors
-/
namespace Dync
variable {U V α : Type}

/-! ### Lists of equally long elements -/

theorem drop_take_flatten {α : Type} {es : List (List α)} {n i : Nat}
    (h : ∀ e ∈ es, e.length = n) (hi : i < es.length) :
    (es.flatten.drop (i * n)).take n = es[i] := by
  rw [drop_flatten h, List.drop_eq_getElem_cons hi]
  simp only [List.flatten_cons]
  rw [List.take_left' (h _ (List.getElem_mem hi))]

theorem typedSlice_flatten {es : List Bytes} {n k : Nat} (h : ∀ e ∈ es, e.length = n)
    (hk : k = es.length) : typedSlice n k es.flatten = .ok es := by
  subst hk
  unfold typedSlice
  rw [if_pos (by rw [length_flatten_eq h]; exact Nat.le_refl _)]
  congr 1
  apply List.ext_getElem
  · simp
  · intro i h1 h2
    simp only [List.getElem_map, List.getElem_range]
    exact drop_take_flatten h h2

theorem splice_whole {α : Type} {l l' : List α} (h : l'.length = l.length) : splice l 0 l' = l' := by
  simp [splice, h]

theorem splice_flatten {α : Type} {es : List (List α)} {n i : Nat} {x : List α}
    (h : ∀ e ∈ es, e.length = n) (hi : i < es.length) (hx : x.length = n) :
    splice es.flatten (i * n) x = (es.set i x).flatten := by
  unfold splice
  rw [hx, ← Nat.succ_mul, take_flatten h, drop_flatten h, List.set_eq_take_append_cons_drop, if_pos hi]
  simp

/-! ### Evolution of a vector -/

theorem Evolves.refl {Γ : TyEnv U} {t : TyId} {es : List Bytes} {h : Heap} {v : VecVoid} {n : Nat}
    (R : Repr Γ h t es v) (wf : h.WF) : Evolves Γ t n es h v h v :=
  ⟨R, Realloc.refl wf _, Nat.le_refl _, by omega, fun _ => ⟨rfl, rfl, rfl⟩⟩

/-- Change of content within the same block. -/
theorem Evolves.setContent {Γ : TyEnv U} {t : TyId} {es es' : List Bytes} {h : Heap} {v : VecVoid}
    {n k : Nat} {m : Bytes} {e : ElemInfo}
    (R : Repr Γ h t es v) (wf : h.WF) (he : ∀ e ∈ es', e.length = Γ.size t)
    (hc : es'.length ≤ v.cap) (hk : k = es'.length) (hm : m = es'.flatten) (hel : e = v.elem) :
    Evolves Γ t n es' h v h ⟨v.ptr, k, v.cap, e, m⟩ := by
  subst hk hm hel
  exact ⟨R.setContent hc he, Realloc.refl wf _, Nat.le_refl _, by simp only; omega, fun _ => ⟨rfl, rfl, rfl⟩⟩

theorem Evolves.trans {Γ : TyEnv U} {t : TyId} {es1 es2 : List Bytes} {h h1 h2 : Heap}
    {v v1 v2 : VecVoid} {n1 n2 : Nat} {es : List Bytes} (R : Repr Γ h t es v) (wf : h.WF)
    (e1 : Evolves Γ t n1 es1 h v h1 v1) (e2 : Evolves Γ t n2 es2 h1 v1 h2 v2) (hn : n1 ≤ n2) :
    Evolves Γ t n2 es2 h v h2 v2 := by
  refine ⟨e2.repr, e1.realloc.trans wf (R.ptr_lt wf) e2.realloc, Nat.le_trans e1.cap_le e2.cap_le, ?_, ?_⟩
  · have a := e1.cap_bound; have b := e2.cap_bound; omega
  · intro hle
    obtain ⟨a1, a2, a3⟩ := e1.stay (by omega)
    obtain ⟨b1, b2, b3⟩ := e2.stay (by omega)
    exact ⟨b1.trans a1, b2.trans a2, b3.trans a3⟩

theorem Evolves.wf {Γ : TyEnv U} {t : TyId} {es' : List Bytes} {h h' : Heap} {v v' : VecVoid} {n : Nat}
    (e : Evolves Γ t n es' h v h' v') : h'.WF := e.realloc.wf

/-! ### `VecCopy` -/

namespace VecCopy
variable {Γ : TyEnv U} {t : TyId} {es : List Bytes} {c : VecCopy V} {w : World U} {cfg : Cfg}

@[simp] theorem onData_run (m : M (VecVoid × World U) α) (c : VecCopy V) (w : World U) :
    onData m (c, w) = ((m (c.data, w)).1, ({ c with data := (m (c.data, w)).2.1 }, (m (c.data, w)).2.2)) := rfl

theorem checkRef_some (R : Repr Γ w.heap t es c.data) : c.checkRef t = some c := by
  simp [checkRef, elementTypeId, R.type_id]

theorem checkRef_none (R : Repr Γ w.heap t es c.data) {t' : TyId} (h : t' ≠ t) : c.checkRef t' = none := by
  simp [checkRef, elementTypeId, R.type_id, h]

/-- `push_as` with the right type. -/
theorem pushAs_ok (R : Repr Γ w.heap t es c.data) (wf : w.heap.WF) {x : Bytes}
    (hx : x.length = Γ.size t) (hroom : Room Γ t (max 8 (max (2 * c.data.cap) (es.length + 1)))) :
    ∃ d h', pushAs Γ cfg t x (c, w) = (.ok (some ()), ({ c with data := d }, { w with heap := h' })) ∧
      Evolves Γ t (es.length + 1) (es ++ [x]) w.heap c.data h' d := by
  have hl := R.len
  rw [← hl] at hroom ⊢
  obtain ⟨p, k, h', hrun, hR, hre, hcc, hfit, hub⟩ := VecVoid.pushTyped_spec (cfg := cfg) R wf hx hroom
  refine ⟨_, h', ?_, hR, hre, hcc, hub, fun h => hfit (by omega)⟩
  simp only [pushAs, M.bind_run, getSelf_run, checkRef_some R, onData_run, hrun, M.pure_run]

/-- Repeated `push_as` into reserved space. -/
theorem repeat_pushAs (R : Repr Γ w.heap t es c.data) (wf : w.heap.WF) {x : Bytes}
    (hx : x.length = Γ.size t) (n : Nat) (hcap : es.length + n ≤ c.data.cap) :
    M.repeatN n (do let _ ← pushAs Γ cfg t x; pure ()) (c, w) =
      (.ok (), ({ c with data := ⟨c.data.ptr, es.length + n, c.data.cap, c.data.elem,
        (es ++ List.replicate n x).flatten⟩ }, w)) := by
  induction n generalizing es c with
  | zero =>
    obtain ⟨⟨p, l, k, e, m⟩, vt⟩ := c
    have h1 := R.len; have h2 := R.mem
    simp only at h1 h2
    simp [M.repeatN, h1, h2]
  | succ n ih =>
    have hl := R.len
    have hrun : pushAs Γ cfg t x (c, w) = (.ok (some ()), ({ c with data :=
        ⟨c.data.ptr, es.length + 1, c.data.cap, c.data.elem, (es ++ [x]).flatten⟩ }, w)) := by
      have hp : RVec.push (Γ.layout t) x (c.data.typedView, w) =
          (.ok (), (⟨c.data.ptr, c.data.len + 1, c.data.cap, c.data.mem ++ x⟩, w)) := by
        have hne : ¬ c.data.typedView.len = c.data.typedView.cap := by
          simp only [VecVoid.typedView]; omega
        simp only [RVec.push, M.bind_run, M.get_run]
        rw [if_neg hne]
        rfl
      have hiv : IsVec Γ w.heap t (es ++ [x]) ⟨c.data.ptr, c.data.len + 1, c.data.cap, c.data.mem ++ x⟩ := by
        refine ⟨by simp [R.mem], ?_, by simp [R.len], by simp only; omega, R.room, .inr ⟨R.cap_pos, R.block⟩⟩
        intro e he; simp at he; rcases he with he | rfl
        · exact R.each e he
        · exact hx
      have := applyUnchecked_ok (cfg := cfg) R (RVec.pushOwned_ok hp) hiv R.cap_pos wf
      simp only [pushAs, M.bind_run, getSelf_run, checkRef_some R, onData_run, this, M.pure_run]
      simp [R.mem, hl]
    have R' : Repr Γ w.heap t (es ++ [x]) ({ c with data :=
        ⟨c.data.ptr, es.length + 1, c.data.cap, c.data.elem, (es ++ [x]).flatten⟩ } : VecCopy V).data := by
      have := R.setContent (es' := es ++ [x]) (by simp; omega) (by
        intro e he; simp at he; rcases he with he | rfl
        · exact R.each e he
        · exact hx)
      simpa using this
    simp only [M.repeatN]
    rw [M.bind_ok (s' := ({ c with data :=
        ⟨c.data.ptr, es.length + 1, c.data.cap, c.data.elem, (es ++ [x]).flatten⟩ }, w)) (a := ())]
    · rw [ih R' (by simp; omega)]
      simp [List.replicate_succ, Nat.add_assoc, Nat.add_comm 1 n]
    · rw [M.bind_ok hrun]; rfl

/-- `reserve` on a healthy container. -/
theorem reserve_ok (R : Repr Γ w.heap t es c.data) (wf : w.heap.WF) {n : Nat}
    (hroom : Room Γ t (max 8 (max (2 * c.data.cap) (es.length + n))))
    (hbad : ¬ BadGrowth Γ t c.data.cap (es.length + n)) :
    ∃ d h', reserve Γ cfg n (c, w) = (.ok (), ({ c with data := d }, { w with heap := h' })) ∧
      Evolves Γ t (es.length + n) es w.heap c.data h' d ∧ es.length + n ≤ d.cap := by
  have hl := R.len
  rw [← hl] at hroom hbad ⊢
  obtain ⟨p, k, h', hrun, hnc, hcc, hre, hR, hfit, hub⟩ := VecVoid.reserve_spec (cfg := cfg) R wf hroom hbad
  exact ⟨_, h', by simp only [reserve, onData_run, hrun], ⟨hR, hre, hcc, hub, hfit⟩, hnc⟩

/-- `clear` on a healthy container. -/
theorem clear_ok (R : Repr Γ w.heap t es c.data) :
    clear Γ cfg (c, w) = (.ok (), ({ c with data := ⟨c.data.ptr, 0, c.data.cap, c.data.elem, []⟩ }, w)) := by
  simp only [clear, onData_run, VecVoid.clear_spec R]

/-- `resize` upwards on a healthy container. -/
theorem resize_grow (R : Repr Γ w.heap t es c.data) (wf : w.heap.WF) {n : Nat} {x : Bytes}
    (hx : x.length = Γ.size t) (hn : es.length ≤ n)
    (hroom : Room Γ t (max 8 (max (2 * c.data.cap) n)))
    (hbad : ¬ BadGrowth Γ t c.data.cap n) :
    ∃ d h', resize Γ cfg t n x (c, w) = (.ok (some ()), ({ c with data := d }, { w with heap := h' })) ∧
      Evolves Γ t n (es ++ List.replicate (n - es.length) x) w.heap c.data h' d := by
  have hl := R.len
  have e1 : es.length + (n - es.length) = n := by omega
  obtain ⟨d, h', hrun, hev, hcap⟩ := reserve_ok (cfg := cfg) (n := n - es.length) R wf
    (by rw [e1]; exact hroom) (by rw [e1]; exact hbad)
  rw [e1] at hcap hev
  have hpush := repeat_pushAs (cfg := cfg) (c := { c with data := d }) (w := { w with heap := h' })
    hev.repr hev.wf hx (n - es.length) (by simp only; omega)
  refine ⟨⟨d.ptr, n, d.cap, d.elem, (es ++ List.replicate (n - es.length) x).flatten⟩, h', ?_, ?_⟩
  · simp only [reserve, onData_run] at hrun
    simp only [resize, M.bind_run, getSelf_run, checkRef_some R, len, hl, if_pos hn, onData_run]
    rw [hrun]
    simp only
    rw [hpush]
    simp only [M.pure_run, e1]
  · refine hev.trans R wf (Evolves.setContent hev.repr hev.wf ?_ ?_ ?_ rfl rfl) (Nat.le_refl _)
    · intro e he
      rcases List.mem_append.1 he with he | he
      · exact R.each e he
      · rw [List.eq_of_mem_replicate he]; exact hx
    · simp; omega
    · simp; omega

/-- `resize` downwards on a healthy container. -/
theorem resize_shrink (R : Repr Γ w.heap t es c.data) (wf : w.heap.WF) {n : Nat} {x : Bytes}
    (hn : n < es.length) :
    ∃ d, resize Γ cfg t n x (c, w) = (.ok (some ()), ({ c with data := d }, w)) ∧
      Evolves Γ t 0 (es.take n) w.heap c.data w.heap d := by
  have hl := R.len
  refine ⟨_, ?_, Evolves.setContent R wf (es' := es.take n) ?_ ?_ rfl rfl rfl⟩
  · have : ¬ es.length ≤ n := by omega
    simp only [resize, M.bind_run, getSelf_run, checkRef_some R, len, hl, if_neg this, onData_run,
      VecVoid.truncate_spec R (n := n) (by omega), M.pure_run]
    congr 5
    simp; omega
  · intro e he; exact R.each e (List.mem_of_mem_take he)
  · simp; have := R.len_cap; omega

/-- `as_slice_as` returns exactly the elements. -/
theorem asSliceAs_ok {h : Heap} {σ : Type} (R : Repr Γ h t es c.data) (s : σ) :
    asSliceAs Γ t c s = (.ok (some es), s) := by
  have : c.checkRef t = some c := by simp [checkRef, elementTypeId, R.type_id]
  simp only [asSliceAs, this, M.bind_run, M.lift_run, len, R.mem, typedSlice_flatten R.each R.len, M.pure_run]

/-- Writing through the typed mutable slice. -/
theorem asMutSliceAs_ok (R : Repr Γ w.heap t es c.data) {m : M (List Bytes × World U) α} {a : α}
    {es' : List Bytes} {w' : World U} (hm : m (es, w) = (.ok a, (es', w')))
    (he : ∀ e ∈ es', e.length = Γ.size t) (hlen : es'.length = es.length) :
    asMutSliceAs Γ t m (c, w) = (.ok (some a),
      ({ c with data := ⟨c.data.ptr, es'.length, c.data.cap, c.data.elem, es'.flatten⟩ }, w')) := by
  obtain ⟨⟨p, l, k, e, mm⟩, vt⟩ := c
  have h1 := R.len; have h2 := R.mem
  simp only at h1 h2
  subst h1 h2
  simp only [asMutSliceAs, M.bind_run, getSelf_run, checkRef_some R, M.lift_run, len,
    typedSlice_flatten R.each rfl, hm, M.pure_run]
  rw [splice_whole (by rw [length_flatten_eq he, length_flatten_eq R.each, hlen]), hlen]

theorem asMutSliceAs_panic (R : Repr Γ w.heap t es c.data) {m : M (List Bytes × World U) α} {y : Why}
    {es' : List Bytes} {w' : World U} (hm : m (es, w) = (.panic y, (es', w')))
    (he : ∀ e ∈ es', e.length = Γ.size t) (hlen : es'.length = es.length) :
    asMutSliceAs Γ t m (c, w) = (.panic y,
      ({ c with data := ⟨c.data.ptr, es'.length, c.data.cap, c.data.elem, es'.flatten⟩ }, w')) := by
  obtain ⟨⟨p, l, k, e, mm⟩, vt⟩ := c
  have h1 := R.len; have h2 := R.mem
  simp only at h1 h2
  subst h1 h2
  simp only [asMutSliceAs, M.bind_run, getSelf_run, checkRef_some R, M.lift_run, len,
    typedSlice_flatten R.each rfl, hm]
  rw [splice_whole (by rw [length_flatten_eq he, length_flatten_eq R.each, hlen]), hlen]

theorem visitMut_const {τ σ : Type} (x : τ) (xs : List τ) (s : σ) :
    visitMut (M.modify fun p => (x, p.2)) xs s = (.ok (), (List.replicate xs.length x, s)) := by
  induction xs with
  | nil => rfl
  | cons y ys ih => simp [visitMut, ih, List.replicate_succ]

/-- `fill` on a healthy container. -/
theorem fill_ok (R : Repr Γ w.heap t es c.data) (wf : w.heap.WF) {x : Bytes} (hx : x.length = Γ.size t) :
    ∃ d, fill Γ t x (c, w) = (.ok (some ()), ({ c with data := d }, w)) ∧
      Evolves Γ t 0 (List.replicate es.length x) w.heap c.data w.heap d := by
  have he : ∀ e ∈ List.replicate es.length x, e.length = Γ.size t := by
    intro e he; rw [List.eq_of_mem_replicate he]; exact hx
  refine ⟨_, asMutSliceAs_ok R (es' := List.replicate es.length x) (visitMut_const x es w) he (by simp), ?_⟩
  exact Evolves.setContent R wf he (by simp; exact R.len_cap) rfl rfl rfl

/-- `rotate_left` on a healthy container. -/
theorem rotateLeft_ok (R : Repr Γ w.heap t es c.data) (wf : w.heap.WF) {n : Nat} (hn : n ≤ es.length)
    (ha : Γ.align t ≤ 8192) :
    ∃ d, rotateLeft Γ cfg n (c, w) = (.ok (), ({ c with data := d }, w)) ∧
      Evolves Γ t 0 (es.drop n ++ es.take n) w.heap c.data w.heap d := by
  have hl := R.len
  refine ⟨_, ?_, Evolves.setContent R wf (es' := es.drop n ++ es.take n) ?_ ?_ rfl rfl rfl⟩
  · simp only [rotateLeft, onData_run, VecVoid.rotateLeft_spec R (n := n) (by omega) ha]
    congr 5
    simp; omega
  · intro e he
    rcases List.mem_append.1 he with he | he
    · exact R.each e (List.mem_of_mem_drop he)
    · exact R.each e (List.mem_of_mem_take he)
  · simp; have := R.len_cap; omega

theorem rotateRight_ok (R : Repr Γ w.heap t es c.data) (wf : w.heap.WF) {n : Nat} (hn : n ≤ es.length)
    (ha : Γ.align t ≤ 8192) :
    ∃ d, rotateRight Γ cfg n (c, w) = (.ok (), ({ c with data := d }, w)) ∧
      Evolves Γ t 0 (es.drop (es.length - n) ++ es.take (es.length - n)) w.heap c.data w.heap d := by
  have hl := R.len
  refine ⟨_, ?_, Evolves.setContent R wf (es' := es.drop (es.length - n) ++ es.take (es.length - n)) ?_ ?_ rfl rfl rfl⟩
  · simp only [rotateRight, onData_run, VecVoid.rotateRight_spec R (n := n) (by omega) ha]
    congr 5
    simp; omega
  · intro e he
    rcases List.mem_append.1 he with he | he
    · exact R.each e (List.mem_of_mem_drop he)
    · exact R.each e (List.mem_of_mem_take he)
  · simp; have := R.len_cap; omega

/-- `append` of two healthy containers of the same type. -/
theorem append_ok {es' : List Bytes} {w : World (VecCopy V × U)} {Γ : TyEnv U}
    (R : Repr Γ w.heap t es c.data) (Ro : Repr Γ w.heap t es' w.user.1.data) (wf : w.heap.WF)
    (hroom : Room Γ t (max 8 (max (2 * c.data.cap) (es.length + es'.length))))
    (hbad : ¬ BadGrowth Γ t c.data.cap (es.length + es'.length)) :
    ∃ d h', append Γ cfg (c, w) = (.ok (some ()), ({ c with data := d },
        ⟨h', ({ w.user.1 with data := ⟨w.user.1.data.ptr, 0, w.user.1.data.cap, w.user.1.data.elem, []⟩ },
          w.user.2)⟩)) ∧
      Evolves Γ t (es.length + es'.length) (es ++ es') w.heap c.data h' d := by
  have hl := R.len
  have hl' := Ro.len
  rw [← hl, ← hl'] at hroom hbad ⊢
  obtain ⟨p, k, h', hrun, hR, hre, hcc, hnc, hfit, hub⟩ :=
    VecVoid.append_spec (cfg := cfg) (w := (⟨w.heap, (w.user.1.data, w.user.2)⟩ : World (VecVoid × U)))
      R Ro wf hroom hbad
  refine ⟨_, h', ?_, hR, hre, hcc, hub, hfit⟩
  have : w.user.1.elementTypeId = c.elementTypeId := by
    simp [elementTypeId, R.type_id, Ro.type_id]
  simp only [append, M.bind_run, getSelf_run, M.get_run, if_pos this, M.zoom_run, hrun, M.pure_run]

end VecCopy
end Dync
