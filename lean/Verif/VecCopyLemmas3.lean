import Verif.VecCopyLemmas2
import Verif.SliceLemmas2
/-!
# Helper lemmas: untyped push, extend, collect and element writes of `VecCopy`
-/
namespace Dync
variable {U V α : Type}
namespace VecCopy
variable {Γ : TyEnv U} {t : TyId} {es : List Bytes} {c : VecCopy V} {w : World U} {cfg : Cfg} {vt : V}

theorem elementSize_eq (R : Repr Γ w.heap t es c.data) : c.elementSize = Γ.size t := R.numBytes

theorem dataPush_ok (R : Repr Γ w.heap t es c.data) (wf : w.heap.WF) {x : Bytes}
    (hsa : Γ.size t = Γ.align t) (hx : x.length = Γ.size t)
    (hroom : Room Γ t (max 8 (max (2 * c.data.cap) (es.length + 1)))) :
    ∃ d h', onData (VecVoid.push Γ cfg x) (c, w) = (.ok (), ({ c with data := d }, { w with heap := h' })) ∧
      Evolves Γ t (es.length + 1) (es ++ [x]) w.heap c.data h' d := by
  rw [← R.len] at hroom
  obtain ⟨p, k, h', hrun, hR, hre, hcc, hfit, hub⟩ := VecVoid.push_spec (cfg := cfg) R wf hsa hx hroom
  refine ⟨_, h', by simp only [onData_run, hrun], hR, hre, hcc, by rw [← R.len]; exact hub, ?_⟩
  intro hn
  rw [← R.len] at hn
  exact hfit (by omega)

theorem push_ok {W : Type} (R : Repr Γ w.heap t es c.data) (wf : w.heap.WF) {v : CopyValue W}
    (hsa : Γ.size t = Γ.align t) (ht : v.type_id = t) (hx : v.bytes.length = Γ.size t)
    (hroom : Room Γ t (max 8 (max (2 * c.data.cap) (es.length + 1)))) :
    ∃ d h', push Γ cfg v (c, w) = (.ok (some ()), ({ c with data := d }, { w with heap := h' })) ∧
      Evolves Γ t (es.length + 1) (es ++ [v.bytes]) w.heap c.data h' d := by
  obtain ⟨d, h', hrun, hev⟩ := dataPush_ok (cfg := cfg) R wf hsa hx hroom
  refine ⟨d, h', ?_, hev⟩
  have hb : (v.size == c.elementSize) = true := by
    rw [elementSize_eq R]; simpa [CopyValue.size] using hx
  have ht' : v.type_id = c.elementTypeId := by rw [ht]; exact R.type_id.symm
  simp only [push, M.bind_run, getSelf_run, hb, M.assert_true_run, if_pos ht', hrun, M.pure_run]

theorem push_mismatch {W : Type} (R : Repr Γ w.heap t es c.data) {v : CopyValue W}
    (ht : v.type_id ≠ t) (hx : v.bytes.length = Γ.size t) :
    push Γ cfg v (c, w) = (.ok none, (c, w)) := by
  have hb : (v.size == c.elementSize) = true := by
    rw [elementSize_eq R]; simpa [CopyValue.size] using hx
  have ht' : ¬ v.type_id = c.elementTypeId := by rw [elementTypeId, R.type_id]; exact ht
  simp only [push, M.bind_run, getSelf_run, hb, M.assert_true_run, if_neg ht', M.pure_run]

theorem push_badSize {W : Type} (R : Repr Γ w.heap t es c.data) {v : CopyValue W}
    (hx : v.bytes.length ≠ Γ.size t) :
    push Γ cfg v (c, w) = (.panic .assertion, (c, w)) := by
  have hb : (v.size == c.elementSize) = false := by
    rw [elementSize_eq R]; simpa [CopyValue.size] using hx
  simp only [push, M.bind_run, getSelf_run, hb, M.assert_false_run]

theorem push_bad {W : Type} (R : Repr Γ w.heap t es c.data) (wf : w.heap.WF) {v : CopyValue W}
    (hsa : Γ.size t ≠ Γ.align t) (ht : v.type_id = t) (hx : v.bytes.length = Γ.size t)
    (hroom : Room Γ t (max 8 (max (2 * c.data.cap) (es.length + 1)))) :
    ∃ p h', push Γ cfg v (c, w) = (.panic .assertion, ({ c with data := VecVoid.default Γ }, { w with heap := h' })) ∧
      Realloc w.heap c.data.ptr h' p ∧ ∃ i l, p = some i ∧ h'.live i = some l := by
  rw [← R.len] at hroom
  obtain ⟨p, h', hrun, hre, hl⟩ := VecVoid.push_bad (cfg := cfg) R wf hsa hx hroom
  refine ⟨p, h', ?_, hre, hl⟩
  have hb : (v.size == c.elementSize) = true := by
    rw [elementSize_eq R]; simpa [CopyValue.size] using hx
  have ht' : v.type_id = c.elementTypeId := by rw [ht]; exact R.type_id.symm
  simp only [push, M.bind_run, getSelf_run, hb, M.assert_true_run, if_pos ht', onData_run, hrun]

/-- The loop of `extend`. -/
theorem extendLoop_ok (values : List (CopyValue V)) (hsa : Γ.size t = Γ.align t)
    (hv : ∀ v ∈ values, v.type_id = t ∧ v.bytes.length = Γ.size t) :
    ∀ {c : VecCopy V} {w : World U} {es : List Bytes} (_R : Repr Γ w.heap t es c.data) (_wf : w.heap.WF)
    (_hroom : Room Γ t (max 16 (max (2 * c.data.cap) (4 * (es.length + values.length))))),
    ∃ d h', M.forEach values (fun value => do
        let self ← getSelf
        M.assert (value.size == self.elementSize)
        M.assert (value.type_id == self.elementTypeId)
        onData (VecVoid.push Γ cfg value.bytes)) (c, w) =
        (.ok (), ({ c with data := d }, { w with heap := h' })) ∧
      Evolves Γ t (es.length + values.length) (es ++ values.map (·.bytes)) w.heap c.data h' d := by
  induction values with
  | nil =>
    intro c w es R wf hroom
    exact ⟨c.data, w.heap, rfl, by simpa using Evolves.refl R wf⟩
  | cons v vs ih =>
    intro c w es R wf hroom
    obtain ⟨ht, hx⟩ := hv v (by simp)
    simp only [List.length_cons] at hroom
    obtain ⟨d, h', hrun, hev⟩ := dataPush_ok (cfg := cfg) R wf hsa hx (hroom.mono (by omega))
    have hb : (v.size == c.elementSize) = true := by
      rw [elementSize_eq R]; simpa [CopyValue.size] using hx
    have hb' : (v.type_id == c.elementTypeId) = true := by
      rw [elementTypeId, R.type_id]; simpa using ht
    have hcb := hev.cap_bound
    obtain ⟨d2, h2, hrun2, hev2⟩ := ih (fun v hv' => hv v (by simp [hv'])) (c := { c with data := d })
      (w := { w with heap := h' }) hev.repr hev.wf (hroom.mono (by simp; omega))
    refine ⟨d2, h2, ?_, ?_⟩
    · simp only [M.forEach_cons, M.bind_run, getSelf_run, hb, hb', M.assert_true_run, hrun]
      exact hrun2
    · have := Evolves.trans R wf hev hev2 (by simp)
      simpa [Nat.add_assoc, Nat.add_comm 1] using this

theorem extend_ok (values : List (CopyValue V)) (hsa : Γ.size t = Γ.align t) {hint : Nat}
    (R : Repr Γ w.heap t es c.data) (wf : w.heap.WF)
    (hv : ∀ v ∈ values, v.type_id = t ∧ v.bytes.length = Γ.size t)
    (hh : hint ≤ values.length)
    (hroom : Room Γ t (max 16 (max (2 * c.data.cap) (4 * (es.length + values.length))))) :
    ∃ d h', extend Γ cfg hint values (c, w) = (.ok (), ({ c with data := d }, { w with heap := h' })) ∧
      Evolves Γ t (es.length + values.length) (es ++ values.map (·.bytes)) w.heap c.data h' d := by
  have hbad : ¬ BadGrowth Γ t c.data.cap (es.length + hint) := by
    rintro ⟨h3, h1, -⟩; omega
  obtain ⟨d, h', hrun, hev, -⟩ := reserve_ok (cfg := cfg) (n := hint) R wf (hroom.mono (by omega)) hbad
  have hcb := hev.cap_bound
  obtain ⟨d2, h2, hrun2, hev2⟩ := extendLoop_ok (cfg := cfg) values hsa hv (c := { c with data := d })
      (w := { w with heap := h' }) hev.repr hev.wf (hroom.mono (by simp; omega))
  refine ⟨d2, h2, ?_, Evolves.trans R wf hev hev2 (by omega)⟩
  unfold extend
  rw [M.bind_ok hrun]
  exact hrun2

theorem getMutAs_ok (R : Repr Γ w.heap t es c.data) (wf : w.heap.WF) {i : Nat} (hi : i < es.length)
    {m : M (Bytes × World U) α} {r : Res α} {x : Bytes} {w' : World U}
    (hm : m (es[i], w) = (r, (x, w'))) (hx : x.length = Γ.size t) :
    ∃ d, getMutAs Γ t i m (c, w) = (r.map some, ({ c with data := d }, w')) ∧
      Evolves Γ t 0 (es.set i x) w.heap c.data w.heap d := by
  have hb : (decide (i < c.len)) = true := by
    simp only [len, R.len]; exact decide_eq_true hi
  have hle : (i + 1) * Γ.size t ≤ c.data.mem.length := by
    rw [R.mem_len, R.len]; exact Nat.mul_le_mul_right _ hi
  have hel : (c.data.mem.drop (i * Γ.size t)).take (Γ.size t) = es[i] := by
    rw [R.mem]; exact drop_take_flatten R.each hi
  have hsp : splice c.data.mem (i * Γ.size t) x = (es.set i x).flatten := by
    rw [R.mem]; exact splice_flatten R.each hi hx
  have he : ∀ e ∈ es.set i x, e.length = Γ.size t := by
    intro e he
    rcases List.mem_or_eq_of_mem_set he with he | rfl
    · exact R.each e he
    · exact hx
  refine ⟨⟨c.data.ptr, c.data.len, c.data.cap, c.data.elem, (es.set i x).flatten⟩, ?_,
    Evolves.setContent R wf he (by simpa using R.len_cap) (by simpa using R.len) rfl rfl⟩
  simp only [getMutAs, M.bind_run, getSelf_run, hb, M.assert_true_run, checkRef_some R, if_pos hle, hel, hm, hsp]
  cases r <;> rfl

theorem getMut_ok (R : Repr Γ w.heap t es c.data) (wf : w.heap.WF) {i : Nat} (hi : i < es.length)
    {m : M (CopyValue V × World U) α} {r : Res α} {x : CopyValue V} {w' : World U}
    (hm : m (⟨es[i], t, Γ.align t, c.vtable⟩, w) = (r, (x, w')))
    (hx : x.bytes.length = Γ.size t) :
    ∃ d, getMut cfg i m (c, w) = (r, ({ c with data := d }, w')) ∧
      Evolves Γ t 0 (es.set i x.bytes) w.heap c.data w.heap d := by
  have hb : (decide (i < c.len)) = true := by
    simp only [len, R.len]; exact decide_eq_true hi
  have hmul : i * Γ.size t ≤ usizeMax :=
    Nat.le_trans (Nat.mul_le_mul_right _ (Nat.le_of_lt hi)) (Nat.le_trans (Repr_mul_le R) isize_le_usize)
  have hle : i * Γ.size t + Γ.size t ≤ c.data.mem.length := by
    rw [R.mem_len, R.len, ← Nat.succ_mul]; exact Nat.mul_le_mul_right _ hi
  have hel : (c.data.mem.drop (i * Γ.size t)).take (Γ.size t) = es[i] := by
    rw [R.mem]; exact drop_take_flatten R.each hi
  have hsp : splice c.data.mem (i * Γ.size t) x.bytes = (es.set i x.bytes).flatten := by
    rw [R.mem]; exact splice_flatten R.each hi hx
  have he : ∀ e ∈ es.set i x.bytes, e.length = Γ.size t := by
    intro e he
    rcases List.mem_or_eq_of_mem_set he with he | rfl
    · exact R.each e he
    · exact hx
  have hval : c.valueOf es[i] = ⟨es[i], t, Γ.align t, c.vtable⟩ := by
    simp [valueOf, elementTypeId, R.type_id, R.align]
  refine ⟨⟨c.data.ptr, c.data.len, c.data.cap, c.data.elem, (es.set i x.bytes).flatten⟩, ?_,
    Evolves.setContent R wf he (by simpa using R.len_cap) (by simpa using R.len) rfl rfl⟩
  simp only [getMut, M.bind_run, getSelf_run, debugAssert_ok hb, R.numBytes, umul_ok hmul, if_pos hle, hel, hval, hm, hsp]

theorem iterMut_ok (R : Repr Γ w.heap t es c.data) (wf : w.heap.WF)
    {body : M (CopyValue V × World U) Unit} {g : M (Bytes × World U) Unit}
    (hP : ∀ e w, e.length = Γ.size t → (g (e, w)).2.1.length = Γ.size t)
    (hb : ∀ e w, e.length = Γ.size t → body (⟨e, t, Γ.align t, c.vtable⟩, w) =
      ((g (e, w)).1, (⟨(g (e, w)).2.1, t, Γ.align t, c.vtable⟩, (g (e, w)).2.2))) :
    ∃ d, iterMut body (c, w) = ((visitMut g es w).1, ({ c with data := d }, (visitMut g es w).2.2)) ∧
      Evolves Γ t 0 (visitMut g es w).2.1 w.heap c.data w.heap d := by
  have hv : ∀ e : Bytes, c.valueOf e = ⟨e, t, Γ.align t, c.vtable⟩ := by
    intro e; simp [valueOf, elementTypeId, R.type_id, R.align]
  obtain ⟨h1, h2, h3⟩ := visitMut_sim (val := fun e => (⟨e, t, Γ.align t, c.vtable⟩ : CopyValue V))
    (P := fun e => e.length = Γ.size t) (body := body) (g := g) hP hb es R.each w
  have hsp : splice c.data.mem 0 (visitMut g es w).2.1.flatten = (visitMut g es w).2.1.flatten := by
    refine splice_whole ?_
    rw [length_flatten_eq h2, R.mem, length_flatten_eq R.each, h3]
  refine ⟨⟨c.data.ptr, c.data.len, c.data.cap, c.data.elem, (visitMut g es w).2.1.flatten⟩, ?_,
    Evolves.setContent R wf h2 (by rw [h3]; exact R.len_cap) (by rw [h3]; exact R.len) rfl rfl⟩
  have hmap : es.map c.valueOf = es.map (fun e => (⟨e, t, Γ.align t, c.vtable⟩ : CopyValue V)) :=
    List.map_congr_left fun e _ => hv e
  simp only [iterMut, M.bind_run, getSelf_run, byteChunks_ok R, hmap, h1]
  simp only [List.map_map, Function.comp_def, List.map_id', hsp]

end VecCopy

namespace VecCopy
variable {Γ : TyEnv U} {t : TyId} {es : List Bytes} {c : VecCopy V} {w : World U} {cfg : Cfg} {vt : V}

/-- The new state after a constructor: a fresh block, everything else untouched. -/
theorem withCapacity_ok {n : Nat} (wf : w.heap.WF) (hpos : 0 < Γ.size t) (hroom : Room Γ t n) :
    ∃ c h', withCapacity Γ t vt n w = (.ok c, { w with heap := h' }) ∧ Repr Γ h' t [] c.data ∧
      c.vtable = vt ∧ Realloc w.heap none h' c.data.ptr ∧ c.data.cap ≤ max n 8 := by
  obtain ⟨p, h1, hrun, hv, hwf, -, -, -⟩ := withCapacity_isVec wf hpos hroom
  have hre0 : Realloc w.heap none h1 p := by
    have hne : Γ.size t ≠ 0 := by omega
    have h2 := hrun
    unfold Room at hroom
    simp only [RVec.withCapacity, hne, if_false, if_pos hroom] at h2
    have h3 := (Prod.mk.inj h2)
    have h4 := Res.ok.inj h3.1
    have hp := congrArg RVec.ptr h4
    have hh := congrArg World.heap h3.2
    simp only at hp hh
    rw [← hp, ← hh]; exact Realloc.ofAlloc wf _
  obtain ⟨p2, k, h2, hrun2, hR, hre, hsame, hub⟩ := fromVec_ok (vt := vt) (w := { w with heap := h1 }) hv hwf hpos
  refine ⟨⟨⟨p2, 0, k, ElemInfo.new Γ t, []⟩, vt⟩, h2, ?_, hR, rfl, ?_, hub⟩
  · simp only [withCapacity, M.bind_run, hrun, hrun2]
  · exact Realloc.trans wf (fun i hi => by cases hi) hre0 hre

end VecCopy
end Dync
