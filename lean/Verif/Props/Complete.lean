import Verif.Props.VecCopy2
import Verif.Props.Slices
import Verif.Props.VecDyn
import Verif.Props.Ledger
/-!
# Remaining clauses of C02, C04, C26, C48 and C55

Clauses of the English statements that the theorems in the other files leave to the reader: that a typed
accessor returns `Some` *only* on the stored type and *always* on it, that the constructors *panic* on
zero-sized types (and do not merely fail to return a container), that the mutable accessors address the
element that the reading ones show, and what is left when every variable is gone.
-/
namespace Dync
variable {U V σ α : Type} {Γ : TyEnv U} {t : TyId} {es : List Bytes} {c : VecCopy V} {w : World U}
  {cfg : Cfg} {vt : V}

/-! ### C02 `Some` exactly on the stored type -/

/-- The accessors of a borrowed `VecCopy` return `Some` exactly if the requested type is the element type.
`m` is what the caller does with a mutable view; for `push_as` and `resize` the address space has to have
room, and `resize` must not meet the growth defect of `C09_veccopy_resize_refuted` (it panics there). -/
theorem C02_veccopy_some_iff (R : Repr Γ w.heap t es c.data) (wf : w.heap.WF) (t' : TyId) :
    ((∃ d, c.checkRef t' = some d) ↔ t' = t) ∧
    ((∃ a w', VecCopy.asSliceAs Γ t' c w = (.ok (some a), w')) ↔ t' = t) ∧
    (∀ i, i < es.length → ((∃ a w', VecCopy.getAs Γ t' i c w = (.ok (some a), w')) ↔ t' = t)) ∧
    (∀ vec, (∃ a w', VecCopy.appendCopyToVec Γ t' vec c w = (.ok (some a), w')) ↔ t' = t) ∧
    ((∃ a w', VecCopy.copyIntoVec Γ t' c w = (.ok (some a), w')) ↔ t' = t) ∧
    (∀ (i : Nat) (m : M (Bytes × World U) α), i < es.length →
      (∀ e s, e.length = Γ.size t → ∃ a f s', m (e, s) = (.ok a, (f, s')) ∧ f.length = Γ.size t) →
      ((∃ a s', VecCopy.getMutAs Γ t' i m (c, w) = (.ok (some a), s')) ↔ t' = t)) ∧
    (∀ m : M (List Bytes × World U) α, (∃ a fs s', m (es, w) = (.ok a, (fs, s')) ∧
        (∀ e ∈ fs, e.length = Γ.size t) ∧ fs.length = es.length) →
      ((∃ a s', VecCopy.asMutSliceAs Γ t' m (c, w) = (.ok (some a), s')) ↔ t' = t)) ∧
    (∀ x, x.length = Γ.size t' → ((∃ a s', VecCopy.fill Γ t' x (c, w) = (.ok (some a), s')) ↔ t' = t)) ∧
    (∀ x, x.length = Γ.size t' → Room Γ t (max 8 (max (2 * c.data.cap) (es.length + 1))) →
      (∃ u, Γ.drop t' x w.user = (.ok (), u)) →
      ((∃ a s', VecCopy.pushAs Γ cfg t' x (c, w) = (.ok (some a), s')) ↔ t' = t)) ∧
    (∀ n x, x.length = Γ.size t' → Room Γ t (max 8 (max (2 * c.data.cap) n)) → ¬ BadGrowth Γ t c.data.cap n →
      ((∃ a s', VecCopy.resize Γ cfg t' n x (c, w) = (.ok (some a), s')) ↔ t' = t)) := by
  by_cases ht : t' = t
  · subst ht
    obtain ⟨m1, m2, m3, m4, m5, -⟩ := C02_veccopy_match (cfg := cfg) R
    refine ⟨iff_of_true ⟨_, m1⟩ rfl, iff_of_true ⟨_, _, m2⟩ rfl, fun i hi => iff_of_true ⟨_, _, m5 i hi⟩ rfl,
      fun vec => iff_of_true ⟨_, _, m3 vec⟩ rfl, iff_of_true ⟨_, _, m4⟩ rfl, fun i m hi hm => iff_of_true ?_ rfl,
      fun m hm => iff_of_true ?_ rfl, fun x hx => iff_of_true ?_ rfl, fun x hx hr _ => iff_of_true ?_ rfl,
      fun n x hx hr hb => iff_of_true ?_ rfl⟩
    · obtain ⟨a, f, s', h1, h2⟩ := hm es[i] w (R.each _ (List.getElem_mem hi))
      obtain ⟨d, h3, -⟩ := VecCopy.getMutAs_ok R wf hi h1 h2
      exact ⟨_, _, h3⟩
    · obtain ⟨a, fs, s', h1, h2, h3⟩ := hm
      exact ⟨_, _, VecCopy.asMutSliceAs_ok R h1 h2 h3⟩
    · obtain ⟨d, h, -⟩ := VecCopy.fill_ok R wf hx
      exact ⟨_, _, h⟩
    · obtain ⟨d, h', h, -⟩ := VecCopy.pushAs_ok (cfg := cfg) R wf hx hr
      exact ⟨_, _, h⟩
    · obtain ⟨d, h', h, -⟩ := C09_veccopy_resize_partial (cfg := cfg) R wf hx hr hb
      exact ⟨_, _, h⟩
  · obtain ⟨n1, n2, n3, n4, n5, n6, n7, n8, n9, -, n10, -⟩ := C02_veccopy_mismatch (cfg := cfg) R ht
    refine ⟨iff_of_false ?_ ht, iff_of_false ?_ ht, fun i hi => iff_of_false ?_ ht,
      fun vec => iff_of_false ?_ ht, iff_of_false ?_ ht, fun i m hi hm => iff_of_false ?_ ht,
      fun m hm => iff_of_false ?_ ht, fun x hx => iff_of_false ?_ ht, fun x hx hr hd => iff_of_false ?_ ht,
      fun n x hx hr hb => iff_of_false ?_ ht⟩
    · rintro ⟨d, h⟩; rw [n1] at h; cases h
    · rintro ⟨a, w', h⟩; rw [n2] at h; cases h
    · rintro ⟨a, w', h⟩; rw [n5 i hi] at h; cases h
    · rintro ⟨a, w', h⟩; rw [n3] at h; cases h
    · rintro ⟨a, w', h⟩; rw [n4] at h; cases h
    · rintro ⟨a, w', h⟩; rw [n6 α i m hi] at h; cases h
    · rintro ⟨a, w', h⟩; rw [n7 α m] at h; cases h
    · rintro ⟨a, w', h⟩; rw [n8] at h; cases h
    · obtain ⟨u, hd⟩ := hd
      rintro ⟨a, w', h⟩; rw [n10 x u hd] at h; cases h
    · rintro ⟨a, w', h⟩; rw [n9] at h; cases h

example := C02_veccopy_some_iff (α := Unit) (cfg := ⟨true⟩) Ex.c123_repr Ex.w4_wf 5

/-- The accessors that consume the container: `check` and `into_vec`. -/
theorem C02_veccopy_consuming_iff (R : Repr Γ w.heap t es c.data) (t' : TyId) :
    ((∃ a w', VecCopy.check cfg t' c w = (.ok (some a), w')) ↔ t' = t) ∧
    ((∃ a w', VecCopy.intoVec Γ cfg t' c w = (.ok (some a), w')) ↔ t' = t) := by
  by_cases ht : t' = t
  · subst ht
    obtain ⟨-, -, -, -, -, m6⟩ := C02_veccopy_match (cfg := cfg) R
    refine ⟨iff_of_true ⟨c, w, ?_⟩ rfl, iff_of_true ⟨_, _, m6⟩ rfl⟩
    simp [VecCopy.check, VecCopy.elementTypeId, R.type_id]
  · obtain ⟨-, -, -, -, -, -, -, -, -, -, -, i, -, n⟩ := C02_veccopy_mismatch (cfg := cfg) R ht
    obtain ⟨j, hp, hd⟩ := VecVoid.drop_spec (cfg := cfg) R
    have hne : t' ≠ c.elementTypeId := by simp [VecCopy.elementTypeId, R.type_id, ht]
    refine ⟨iff_of_false ?_ ht, iff_of_false ?_ ht⟩
    · rintro ⟨a, w', h⟩
      simp only [VecCopy.check, if_pos hne, VecCopy.drop, M.bind_run, hd, M.pure_run] at h
      cases h
    · rintro ⟨a, w', h⟩; rw [n] at h; cases h

example := C02_veccopy_consuming_iff (cfg := ⟨true⟩) Ex.c123_repr 5

/-! ### C04 constructors panic on zero-sized types -/

/-- Dropping a vector of zero-sized elements whose destructor returns does not touch memory. -/
theorem RVec.dropTyped_zst {rv : RVec} (h0 : Γ.size t = 0) (hd : ∀ b u, ∃ u', Γ.drop t b u = (.ok (), u')) (w : World U) :
    ∃ u', RVec.dropTyped Γ t rv w = (.ok (), { w with user := u' }) := by
  have key : ∀ (xs : List Bytes) (w : World U), ∃ u',
      M.dropEach xs (fun b => worldUser (Γ.drop t b)) w = (.ok (), { w with user := u' }) := by
    intro xs
    induction xs with
    | nil => exact fun w => ⟨w.user, rfl⟩
    | cons x xs ih =>
      intro w
      obtain ⟨u1, h1⟩ := hd x w.user
      obtain ⟨u2, h2⟩ := ih { w with user := u1 }
      refine ⟨u2, ?_⟩
      simp only [M.dropEach, M.thenDrop, worldUser_run, h1, h2]
  obtain ⟨u1, h1⟩ := key (rv.elems (Γ.size t)) w
  refine ⟨u1, ?_⟩
  have h2 : (rv.dropBuf (Γ.layout t) : M (World U) Unit) { w with user := u1 } = (.ok (), { w with user := u1 }) := by
    simp [RVec.dropBuf, worldHeap, dealloc, h0]
  simp only [RVec.dropTyped, M.thenDrop, h1, h2]

/-- Every constructor panics on a zero-sized type, and nothing is allocated or freed: for `VecCopy`. The
elements of a `VecCopy` are `Copy`, so dropping the rejected vector runs no user code that could fail. -/
theorem C04_veccopy_zst_panics (h0 : Γ.size t = 0) (hd : ∀ b u, ∃ u', Γ.drop t b u = (.ok (), u')) (w : World U) :
    (∀ rv, ∃ u', (VecCopy.fromVec Γ t vt rv : M (World U) (VecCopy V)) w = (.panic .assertion, { w with user := u' })) ∧
    (∀ n x, ∃ u', (VecCopy.withSize Γ t vt n x : M (World U) (VecCopy V)) w = (.panic .assertion, { w with user := u' })) ∧
    (∀ s : List Bytes, s.length ≤ usizeMax →
      ∃ u', (VecCopy.fromSlice Γ t vt s : M (World U) (VecCopy V)) w = (.panic .assertion, { w with user := u' })) := by
  have hf : ∀ rv, ∃ u', (VecCopy.fromVec Γ t vt rv : M (World U) (VecCopy V)) w =
      (.panic .assertion, { w with user := u' }) := by
    intro rv
    obtain ⟨u', h⟩ := RVec.dropTyped_zst (rv := rv) h0 hd w
    exact ⟨u', VecCopy.fromVec_zst h0 h⟩
  have hc : ∀ n, RVec.withCapacity (Γ.layout t) n w = (.ok (RVec.new (Γ.layout t)), w) := by
    intro n
    simp only [RVec.withCapacity, if_pos (show (Γ.layout t).size = 0 from h0)]
  refine ⟨hf, fun n x => ?_, fun s hs => ?_⟩
  · simp only [VecCopy.withSize, M.bind_run, hc]
    exact hf _
  · have he : RVec.extendFromSlice (Γ.layout t) s.length s.flatten (RVec.new (Γ.layout t), w) =
        (.ok (), ({ RVec.new (Γ.layout t) with len := 0 + s.length, bytes := [] ++ s.flatten }, w)) := by
      have hn : ¬ (RVec.new (Γ.layout t)).cap - (RVec.new (Γ.layout t)).len < s.length := by
        simp only [RVec.new, if_pos (show (Γ.layout t).size = 0 from h0)]; omega
      simp only [RVec.extendFromSlice, RVec.reserve, M.bind_run, M.get_run, if_neg hn, M.pure_run, M.modify_run]
      rfl
    simp only [VecCopy.fromSlice, M.bind_run, hc, withLocal, he]
    exact hf _

example := C04_veccopy_zst_panics (Γ := Ex.env) (t := 8) (vt := ()) rfl
  (fun _ _ => ⟨_, rfl⟩) (Ex.world 2 4)

/-- Pushing onto a vector of zero-sized elements never allocates. -/
theorem RVec.push_zst {rv : RVec} {x : Bytes} (hl : rv.len < rv.cap) (w : World U) :
    RVec.push (Γ.layout t) x (rv, w) = (.ok (), ({ rv with len := rv.len + 1, bytes := rv.bytes ++ x }, w)) := by
  have hn : ¬ rv.len = rv.cap := by omega
  simp only [RVec.push, M.bind_run, M.get_run, if_neg hn, M.pure_run, M.modify_run]

theorem RVec.extendClone_zst (hc : ∀ u, ∃ x u', Γ.clone t [] u = (.ok x, u')) : ∀ (s : List Bytes) (rv : RVec) (w : World U),
    (∀ b ∈ s, b = []) → rv.len + s.length ≤ rv.cap →
    ∃ rv' u', RVec.extendClone Γ t s (rv, w) = (.ok (), (rv', { w with user := u' }))
  | [], rv, w, _, _ => ⟨rv, w.user, rfl⟩
  | b :: s, rv, w, hb, h => by
    simp only [List.length_cons] at h
    obtain rfl := hb b (by simp)
    obtain ⟨x, u1, h1⟩ := hc w.user
    obtain ⟨rv', u2, h2⟩ := RVec.extendClone_zst hc s { rv with len := rv.len + 1, bytes := rv.bytes ++ x }
      { w with user := u1 } (fun b h => hb b (by simp [h])) (by simp only; omega)
    refine ⟨rv', u2, ?_⟩
    simp only [RVec.extendClone, M.forEach, M.bind_run, onWorld_run, worldUser_run, h1,
      RVec.push_zst (show rv.len < rv.cap by omega)] at h2 ⊢
    exact h2

theorem RVec.repeatClone_zst {b : Bytes} (hc : ∀ u, ∃ x u', Γ.clone t b u = (.ok x, u')) : ∀ (n : Nat) (rv : RVec) (w : World U),
    rv.len + n ≤ rv.cap →
    ∃ rv' u', M.repeatN n (do let c ← onWorld (worldUser (Γ.clone t b)); RVec.push (Γ.layout t) c) (rv, w) =
      (.ok (), (rv', { w with user := u' })) ∧ rv'.len = rv.len + n ∧ rv'.cap = rv.cap
  | 0, rv, w, _ => ⟨rv, w.user, rfl, rfl, rfl⟩
  | n + 1, rv, w, h => by
    obtain ⟨x, u1, h1⟩ := hc w.user
    obtain ⟨rv', u2, h2, h3, h4⟩ := RVec.repeatClone_zst hc n { rv with len := rv.len + 1, bytes := rv.bytes ++ x }
      { w with user := u1 } (by simp only; omega)
    refine ⟨rv', u2, ?_, by simp only at h3; omega, h4⟩
    simp only [M.repeatN, M.bind_run, onWorld_run, worldUser_run, h1,
      RVec.push_zst (show rv.len < rv.cap by omega)] at h2 ⊢
    exact h2

/-- The constructors of `VecDyn` that run user code: with a `Clone` and a destructor that return, they panic
on a zero-sized type too, after cloning, and the clones are dropped again. -/
theorem C04_vecdyn_zst_panics (h0 : Γ.size t = 0) (hd : ∀ b u, ∃ u', Γ.drop t b u = (.ok (), u'))
    (hc : ∀ u, ∃ x u', Γ.clone t [] u = (.ok x, u')) (w : World U) :
    (∀ s : List Bytes, (∀ b ∈ s, b.length = Γ.size t) → s.length ≤ usizeMax →
      ∃ u', (VecDyn.fromSlice Γ t vt s : M (World U) (VecDyn V)) w = (.panic .assertion, { w with user := u' })) ∧
    (∀ n x, x.length = Γ.size t → n ≤ usizeMax →
      ∃ u', (VecDyn.withSize Γ t vt n x : M (World U) (VecDyn V)) w = (.panic .assertion, { w with user := u' })) := by
  have hf : ∀ (rv : RVec) (w : World U), ∃ u', (VecCopy.fromVec Γ t vt rv : M (World U) (VecCopy V)) w =
      (.panic .assertion, { w with user := u' }) := by
    intro rv w
    obtain ⟨u', h⟩ := RVec.dropTyped_zst (rv := rv) h0 hd w
    exact ⟨u', VecCopy.fromVec_zst h0 h⟩
  have hcap : ∀ n, RVec.withCapacity (Γ.layout t) n w = (.ok ⟨none, 0, usizeMax, []⟩, w) := by
    intro n
    simp only [RVec.withCapacity, RVec.new, if_pos (show (Γ.layout t).size = 0 from h0)]
  refine ⟨fun s hb hs => ?_, fun n x hx hn => ?_⟩
  · obtain ⟨rv', u1, h1⟩ := RVec.extendClone_zst hc s ⟨none, 0, usizeMax, []⟩ w
      (fun b h => List.length_eq_zero_iff.1 (by rw [hb b h, h0])) (by simp only; omega)
    obtain ⟨u2, h2⟩ := hf rv' { w with user := u1 }
    refine ⟨u2, ?_⟩
    simp only [VecDyn.fromSlice, M.bind_run, hcap, withLocal, h1, h2]
  · obtain rfl : x = [] := List.length_eq_zero_iff.1 (by rw [hx, h0])
    cases n with
    | zero =>
      obtain ⟨u1, h1⟩ := hd [] w.user
      obtain ⟨u2, h2⟩ := hf ⟨none, 0, usizeMax, []⟩ { w with user := u1 }
      refine ⟨u2, ?_⟩
      simp only [VecDyn.withSize, M.bind_run, M.onUnwind, hcap, withLocal, RVec.extendWith, onWorld_run,
        worldUser_run, h1, h2]
    | succ n =>
      obtain ⟨rv', u1, h1, h3, h4⟩ := RVec.repeatClone_zst hc n ⟨none, 0, usizeMax, []⟩ w (by simp only; omega)
      simp only at h3 h4
      obtain ⟨u2, h2⟩ := hf { rv' with len := rv'.len + 1, bytes := rv'.bytes ++ [] } { w with user := u1 }
      refine ⟨u2, ?_⟩
      simp only [VecDyn.withSize, M.bind_run, M.onUnwind, hcap, withLocal, RVec.extendWith, h1,
        RVec.push_zst (show rv'.len < rv'.cap by omega), h2]

example := C04_vecdyn_zst_panics (Γ := Ex.env) (t := 8) (vt := Ex.cloneVT 8) rfl (fun _ _ => ⟨_, rfl⟩)
  (fun _ => ⟨_, _, rfl⟩) (Ex.world 2 4)

/-! ### C26 the mutable accessors address the same element -/

/-- `get_mut(i)` shows the value that `get_ref(i)` shows; what is written through `get_mut(i)` or
`get_mut_as(i)` is what `get_as(i)` returns afterwards, and every other element stays as it was; what a loop
over `iter_mut` makes of its `j`-th item is what `get_as(j)` returns afterwards. -/
theorem C26_veccopy_mut (R : Repr Γ w.heap t es c.data) (wf : w.heap.WF) {i : Nat} (hi : i < es.length) {x : Bytes}
    (hx : x.length = Γ.size t) {f : Bytes → Bytes} (hf : ∀ e, e.length = Γ.size t → (f e).length = Γ.size t) :
    ∃ v : CopyValue V, c.getRef cfg i w = (.ok v, w) ∧ v.bytes = es[i] ∧
      (∃ c', VecCopy.getMut cfg i (do let s ← M.get; pure s.1) (c, w) = (.ok v, (c', w)) ∧ Repr Γ w.heap t es c'.data) ∧
      (∃ c', VecCopy.getMut cfg i (M.modify fun s => ({ s.1 with bytes := x }, s.2)) (c, w) = (.ok (), (c', w)) ∧
        ∀ j (_ : j < es.length), c'.getAs Γ t j w = (.ok (some (if j = i then x else es[j])), w)) ∧
      (∃ c', VecCopy.getMutAs Γ t i (M.modify fun s => (x, s.2)) (c, w) = (.ok (some ()), (c', w)) ∧
        ∀ j (_ : j < es.length), c'.getAs Γ t j w = (.ok (some (if j = i then x else es[j])), w)) ∧
      (∃ c', VecCopy.iterMut (M.modify fun s => ({ s.1 with bytes := f s.1.bytes }, s.2)) (c, w) = (.ok (), (c', w)) ∧
        ∀ j (_ : j < es.length), c'.getAs Γ t j w = (.ok (some (f es[j])), w)) := by
  have read : ∀ (c' : VecCopy V), Repr Γ w.heap t (es.set i x) c'.data → ∀ j (_ : j < es.length),
      c'.getAs Γ t j w = (.ok (some (if j = i then x else es[j])), w) := by
    intro c' R' j hj
    have hj' : j < (es.set i x).length := by simpa using hj
    rw [(C02_veccopy_match (cfg := cfg) R').2.2.2.2.1 j hj', List.getElem_set]
    by_cases h : i = j
    · subst h; simp
    · rw [if_neg h, if_neg (Ne.symm h)]
  obtain ⟨d, h1, h2⟩ := VecCopy.getMut_ok (cfg := cfg) (α := Unit) R wf hi
    (m := M.modify fun s => ({ s.1 with bytes := x }, s.2)) rfl hx
  obtain ⟨d', h3, h4⟩ := VecCopy.getMutAs_ok (α := Unit) R wf hi (m := M.modify fun s => (x, s.2)) rfl hx
  obtain ⟨d'', h5, h6⟩ := VecCopy.getMut_ok (cfg := cfg) (α := CopyValue V) R wf hi
    (m := do let s ← M.get; pure s.1) rfl (R.each _ (List.getElem_mem hi))
  have h6 := h6.repr
  simp only [List.set_getElem_self] at h6
  obtain ⟨e, r, fs, w', h7, h8, h9⟩ := C48_veccopy_iter_mut R wf
    (body := M.modify fun s => ({ s.1 with bytes := f s.1.bytes }, s.2)) (g := M.modify fun s => (f s.1, s.2))
    (fun e _ he => hf e he) (fun _ _ _ => rfl)
  rw [visitMut_pure] at h8
  cases h8
  refine ⟨_, VecCopy.getRef_ok R hi w, rfl, ⟨_, h5, h6⟩, ⟨_, h1, read _ h2.repr⟩, ⟨_, h3, read _ h4.repr⟩,
    ⟨_, h7, fun j hj => ?_⟩⟩
  have hj' : j < (es.map f).length := by simpa using hj
  rw [(C02_veccopy_match (cfg := cfg) (c := { c with data := e }) h9.repr).2.2.2.2.1 j hj', List.getElem_map]

example := C26_veccopy_mut (cfg := ⟨true⟩) Ex.c123_repr Ex.w4_wf (i := 1) (by decide) (x := Ex.a3) rfl (f := List.reverse)
  (fun e he => by simpa using he)

/-- The same for a slice: `get_mut(i)` shows what `get(i)` shows, and a write through it reaches element `i`
and no other. -/
theorem C26_slice_mut {s : SliceCopy V} (R : SRepr Γ t es s) {i : Nat} (hi : i < es.length) {x : Bytes}
    (hx : x.length = Γ.size t) (st : σ) :
    ∃ v : CopyValue V, s.get cfg i st = (.ok v, st) ∧ v.bytes = es[i] ∧
      (∃ s', SliceCopy.getMut cfg i M.get s = (.ok v, s') ∧ SRepr Γ t es s') ∧
      (∃ s', SliceCopy.getMut cfg i (M.modify fun v => { v with bytes := x }) s = (.ok (), s') ∧
        ∀ j (_ : j < es.length), s'.getAs Γ cfg t j st = (.ok (some (if j = i then x else es[j])), st)) ∧
      (∃ s', SliceCopy.setAs Γ cfg t i x s = (.ok (some ()), s') ∧
        ∀ j (_ : j < es.length), s'.getAs Γ cfg t j st = (.ok (some (if j = i then x else es[j])), st)) := by
  have read : ∀ s' : SliceCopy V, SRepr Γ t (es.set i x) s' → ∀ j (_ : j < es.length),
      s'.getAs Γ cfg t j st = (.ok (some (if j = i then x else es[j])), st) := by
    intro s' R' j hj
    have hj' : j < (es.set i x).length := by simpa using hj
    rw [R'.getAs hj', if_pos rfl, List.getElem_set]
    by_cases h : i = j
    · subst h; simp
    · rw [if_neg h, if_neg (Ne.symm h)]
  obtain ⟨s1, h1, -, h2⟩ := C48_slice_get_mut (cfg := cfg) R hi (M.modify fun v : CopyValue V => { v with bytes := x }) hx
  obtain ⟨s2, h3, -, h4⟩ := C48_slice_get_mut (cfg := cfg) R hi M.get (R.each _ (List.getElem_mem hi))
  obtain ⟨s3, h5, -, h6⟩ := C48_slice_set_as (cfg := cfg) R hi hx
  have h4' : (es.set i es[i]) = es := List.set_getElem_self ..
  refine ⟨_, R.get hi st, rfl, ⟨s2, h3, ?_⟩, ⟨s1, h1, read _ h2⟩, ⟨s3, h5, read _ h6⟩⟩
  rw [← h4']; exact h4

example := C26_slice_mut (cfg := ⟨true⟩) Ex.s123_repr (i := 1) (by decide) (x := Ex.a3) rfl ()

/-! ### C48 the remaining mutable views -/

/-- `chunks_exact_mut(k)`: a loop over the untyped chunks does to the elements what the loop `g` over the
chunks of the typed slice does, and the elements after the last full chunk stay as they are. -/
theorem C48_slice_chunks_exact_mut {s : SliceCopy V} (R : SRepr Γ t es s) {k : Nat} (hk : 0 < k) (hbd : Γ.size t * k ≤ usizeMax)
    {body : M (SliceCopy V × σ) Unit} {g : M (List Bytes × σ) Unit}
    (hP : ∀ c st, (∀ e ∈ c, e.length = Γ.size t) ∧ c.length = k →
      (∀ e ∈ (g (c, st)).2.1, e.length = Γ.size t) ∧ (g (c, st)).2.1.length = k)
    (hb : ∀ c st, (∀ e ∈ c, e.length = Γ.size t) ∧ c.length = k →
      body (⟨c.flatten, s.elem, s.vtable⟩, st) =
      ((g (c, st)).1, (⟨(g (c, st)).2.1.flatten, s.elem, s.vtable⟩, (g (c, st)).2.2))) (st : σ) :
    ∃ s' r fs st', SliceCopy.chunksExactMut cfg k body (s, st) = (r, (s', st')) ∧
      visitMut g (chunks k es) st = (r, (fs, st')) ∧
      SRepr Γ t (fs.flatten ++ es.drop (es.length / k * k)) s' ∧ fs.flatten.length = es.length / k * k := by
  obtain ⟨h1, h2, h3⟩ := R.chunksExactMut (cfg := cfg) hk hbd hP hb st
  refine ⟨_, _, _, _, h1, rfl, R.set_ok ?_ ?_, h3⟩
  · intro e he
    rcases List.mem_append.1 he with he | he
    · exact h2 e he
    · exact R.each e (List.mem_of_mem_drop he)
  · have := Nat.div_mul_le_self es.length k
    simp only [List.length_append, h3, List.length_drop]; omega

/-- In particular for a loop that rewrites each chunk independently of the others. -/
theorem C48_slice_chunks_exact_mut_map {s : SliceCopy V} (R : SRepr Γ t es s) {k : Nat} (hk : 0 < k)
    (hbd : Γ.size t * k ≤ usizeMax) {body : M (SliceCopy V × σ) Unit} (f : List Bytes → List Bytes)
    (hf : ∀ c, (∀ e ∈ c, e.length = Γ.size t) ∧ c.length = k → (∀ e ∈ f c, e.length = Γ.size t) ∧ (f c).length = k)
    (hb : ∀ c st, (∀ e ∈ c, e.length = Γ.size t) ∧ c.length = k →
      body (⟨c.flatten, s.elem, s.vtable⟩, st) = (.ok (), (⟨(f c).flatten, s.elem, s.vtable⟩, st))) (st : σ) :
    ∃ s', SliceCopy.chunksExactMut cfg k body (s, st) = (.ok (), (s', st)) ∧
      SRepr Γ t (((chunks k es).map f).flatten ++ es.drop (es.length / k * k)) s' := by
  obtain ⟨s', r, fs, st', h1, h2, h3, -⟩ := C48_slice_chunks_exact_mut (cfg := cfg) R hk hbd (body := body)
    (g := M.modify fun p => (f p.1, p.2)) (fun c st h => hf c h) hb st
  rw [visitMut_pure] at h2
  cases h2
  exact ⟨s', h1, h3⟩

example := C48_slice_chunks_exact_mut (cfg := ⟨true⟩) Ex.s123_repr (k := 2) (by decide) (by decide)
  (body := M.modify fun p => ({ p.1 with data := p.1.data }, p.2)) (g := (pure () : M (List Bytes × Nat) Unit))
  (fun _ _ h => h) (fun _ _ _ => rfl) 0
/-- The middle chunk loop of the crate's tests: every chunk of two elements is replaced by two copies of `a3`. -/
example := C48_slice_chunks_exact_mut_map (cfg := ⟨true⟩) Ex.s123_repr (k := 2) (by decide) (by decide)
  (body := M.modify fun p => ({ p.1 with data := [Ex.a3, Ex.a3].flatten }, p.2)) (fun _ => [Ex.a3, Ex.a3])
  (fun _ _ => ⟨by decide, rfl⟩) (fun _ _ _ => rfl) ()

/-- `iter_mut` of a `VecDyn` (it is the one of the `VecCopy` inside): the loop sees each element once, in
order, and what it leaves behind are the new elements. -/
theorem C48_vecdyn_iter_mut {d : VecDyn V} (R : Repr Γ w.heap t es d.data) (wf : w.heap.WF) (f : Bytes → Bytes)
    (hf : ∀ e, e.length = Γ.size t → (f e).length = Γ.size t) :
    ∃ d', VecCopy.iterMut (M.modify fun s => ({ s.1 with bytes := f s.1.bytes }, s.2)) (d, w) = (.ok (), ({ d with data := d' }, w)) ∧
      Evolves Γ t 0 (es.map f) w.heap d.data w.heap d' := by
  obtain ⟨e, r, fs, w', h7, h8, h9⟩ := C48_veccopy_iter_mut R wf
    (body := M.modify fun s => ({ s.1 with bytes := f s.1.bytes }, s.2)) (g := M.modify fun s => (f s.1, s.2))
    (fun e _ he => hf e he) (fun _ _ _ => rfl)
  rw [visitMut_pure] at h8
  cases h8
  exact ⟨e, h7, h9⟩

example := C48_vecdyn_iter_mut Ex.d10_repr (Ex.d_wf 10 4) List.reverse (fun e he => by simpa using he)

/-! ### C55 when every variable is gone -/

/-- A program of `VecDyn` operations that has dropped or consumed all its variables: every value passed in or
made by `Clone` was dropped exactly once, and no memory is left. -/
theorem C55_vecdyn_all_dropped [HasDrop (Ledger U) V] [HasClone (Ledger U) V] {N K : Nat} {vt : TyId → V} {u' : U}
    {os : List (Option Obs)} {ops : List DOp} (u : U)
    (hvt : ∀ t, LawfulDrop Γ.ledger t (vt t) ∧ LawfulClone Γ.ledger t (vt t)) (hq : Γ.QuietDrop)
    (hwt : ∀ op ∈ ops, op.WellTyped Γ) (hK : ∀ op ∈ ops, ∀ k ∈ op.vars, k < K)
    (hca : CatchableDOps Γ cfg N ops (fun _ => none, u))
    (hspec : specCaughtD Γ ops (fun _ => none, u) = (.ok os, (fun _ => none, u'))) :
    ∃ slots' h' l', runCaughtD Γ.ledger cfg vt ops ((fun _ => none), ⟨Heap.empty, .start u⟩) = (.ok os, (slots', ⟨h', l'⟩)) ∧
      l'.dead.Perm (givenDOps Γ ops (fun _ => none, u) ++ l'.born) ∧ (∀ i, h'.live i = none) ∧ l'.user = u' := by
  obtain ⟨slots', h', l', hrun, I, hu, hp⟩ := C55_vecdyn_values_conserved (cfg := cfg) u hvt hq hwt hK hca hspec
  obtain ⟨slots2, h2, l2, hrun2, hp2, hl2⟩ := C18_vecdyn_history_values_partial (cfg := cfg) u hvt hq hwt hK hca hspec
  rw [hrun] at hrun2
  cases hrun2
  exact ⟨slots', h', l', hrun, hp2, hl2, hu⟩

example := C55_vecdyn_all_dropped (cfg := ⟨true⟩) [] Ex.ledgerVT_lawful Ex.quietEnv_quiet Ex.cprog_typed
  Ex.cprog_vars Ex.cprog_catchable Ex.cprog_result

end Dync
