import Verif.CopyWholeSpec
import Verif.MachineLemmas7
import Verif.Props.ViewProgs
/-!
# Helper lemmas for whole programs over `VecCopy`
-/
namespace Dync
variable {U V : Type} {Γ : TyEnv U} {cfg : Cfg} {t : TyId} {es : List Bytes} {c : VecCopy V} {w : World U} {n : Nat}

theorem Moves.after {h h1 h2 : Heap} {p p1 p2 : Ptr} {leak : Bool} (wf : h.WF) (hp : ∀ i, p = some i → i < h.next)
    (a : Realloc h p h1 p1) (b : Moves h1 p1 h2 p2 leak) : Moves h p h2 p2 leak := by
  cases leak with
  | false => exact Realloc.trans wf hp a b
  | true =>
    obtain ⟨e, j, hj, b⟩ := b
    exact ⟨e, j, hj, Realloc.trans wf hp a b⟩

theorem Moves.wf {h h' : Heap} {p p' : Ptr} {leak : Bool} (m : Moves h p h' p' leak) : h'.WF := by
  cases leak with
  | false => exact Realloc.wf m
  | true => obtain ⟨-, j, -, b⟩ := m; exact b.wf

/-- One method after another. -/
theorem Agrees.next {a : After} {f : XVec → After} {x : XVec} {m : M (VecCopy V × World U) Unit} {m' : M (VecCopy V × World U) Obs}
    (I : x.Is Γ w.heap c.data) (wf : w.heap.WF)
    (h : a.Agrees Γ (do m; return .done) c w) (hl : ∀ o, a.out = .ok o → a.leak = false)
    (hf : ∀ o d h', a.out = .ok o → a.now.Is Γ h' d → h'.WF → (f a.now).Agrees Γ m' { c with data := d } { w with heap := h' }) :
    (a.next f).Agrees Γ (do m; m') c w := by
  rcases a with ⟨out, now, leak⟩
  rcases h with ⟨h1, h2⟩ | ⟨h1, r, d, h', h2, h3, h4, h5⟩
  · simp only at h1
    subst h1
    refine .inl ⟨rfl, ?_⟩
    rcases hm : m (c, w) with ⟨r, s⟩
    simp only [M.bind_run, hm] at h2 ⊢
    cases r <;> first | rfl | cases h2
  · simp only at h1 h3 h4 h5
    rcases hm : m (c, w) with ⟨r', s⟩
    simp only [M.bind_run, hm] at h2
    cases out with
    | ub => exact absurd rfl h1
    | ok o =>
      replace hl := hl o rfl
      simp only at hl
      subst hl
      have h3 : r = .ok o := h3
      subst h3
      cases r' <;> simp only [M.pure_run] at h2 <;> try cases h2
      have key := hf _ d h' rfl h4 h5.wf
      rcases key with ⟨k1, k2⟩ | ⟨k1, r, d', h'', k2, k3, k4, k5⟩
      · exact .inl ⟨k1, by simp only [M.bind_run, hm]; exact k2⟩
      · refine .inr ⟨k1, r, d', h'', by simp only [M.bind_run, hm]; exact k2, k3, k4, ?_⟩
        exact Moves.after wf (fun i hi => (I.lt wf i hi).2) h5 k5
    | panic =>
      obtain ⟨y, rfl⟩ := h3
      cases r' <;> simp only [M.pure_run] at h2 <;> try cases h2
      exact .inr ⟨by simp [After.next], .panic y, d, h', by simp only [M.bind_run, hm], ⟨y, rfl⟩, h4, h5⟩

theorem push_ok_vec {x : Bytes} {cap : Nat} {o : Obs} (h : (XVec.push Γ t x (.vec t es cap)).out = .ok o) :
    (XVec.push Γ t x (.vec t es cap)).leak = false ∧ ∃ es' cap', (XVec.push Γ t x (.vec t es cap)).now = .vec t es' cap' := by
  simp only [XVec.push, ne_eq, not_true_eq_false, if_false] at h ⊢
  cases hg : growth (Γ.align t) (Γ.align t) (perElem Γ t) cap es.length 1 <;> simp only [hg] at h ⊢
  · by_cases e : perElem Γ t = 1
    · simp only [e, if_true]; exact ⟨trivial, _, _, rfl⟩
    · simp only [e, if_false] at h; cases h
  · by_cases e : perElem Γ t = 1
    · simp only [e, if_true]; exact ⟨trivial, _, _, rfl⟩
    · simp only [e, if_false] at h; cases h
  · cases h
  · cases h

theorem reserve_ok_vec {k cap : Nat} {o : Obs} (h : (XVec.reserve Γ cfg k (.vec t es cap)).out = .ok o) :
    (XVec.reserve Γ cfg k (.vec t es cap)).leak = false ∧ ∃ cap', (XVec.reserve Γ cfg k (.vec t es cap)).now = .vec t es cap' := by
  simp only [XVec.reserve, XVec.room] at h ⊢
  cases ht : times cfg k (perElem Γ t) <;> simp only [ht] at h ⊢
  · cases h
  · rename_i k
    cases hg : growth (Γ.align t) (Γ.align t) (perElem Γ t) cap es.length k <;> simp only [hg] at h ⊢
    · exact ⟨trivial, _, rfl⟩
    · exact ⟨trivial, _, rfl⟩
    · cases h
    · cases h

/-- Pushing the bytes of a value of the right type. -/
theorem pushData_agrees (R : Repr Γ w.heap t es c.data) (wf : w.heap.WF) {x : Bytes} (hx : x.length = Γ.size t) :
    (XVec.push Γ t x (.vec t es c.data.cap)).Agrees Γ (do VecCopy.onData (VecVoid.push Γ cfg x); return .done) c w :=
  Agrees.ofV (VecVoid.push_agrees R wf hx) (push_not_ub _ _) fun _ _ _ h => onData_done h

/-- One step of the loop of `extend`. -/
def pushOne (Γ : TyEnv U) (cfg : Cfg) (value : CopyValue V) : M (VecCopy V × World U) Unit := do
  let self ← getSelf
  M.assert (value.size == self.elementSize)
  M.assert (value.type_id == self.elementTypeId)
  VecCopy.onData (VecVoid.push Γ cfg value.bytes)

theorem repr_elementSize (R : Repr Γ w.heap t es c.data) : c.elementSize = Γ.size t := VecCopy.repr_numBytes R
theorem repr_elementTypeId (R : Repr Γ w.heap t es c.data) : c.elementTypeId = t := by
  simp only [VecCopy.elementTypeId, R.elem_eq]; rfl

theorem pushOne_run {vt : V} (R : Repr Γ w.heap t es c.data) {x : Bytes} (hx : x.length = Γ.size t) :
    pushOne Γ cfg (CopyValue.new Γ t vt x) (c, w) = VecCopy.onData (VecVoid.push Γ cfg x) (c, w) := by
  have h1 : ((CopyValue.new Γ t vt x).size == c.elementSize) = true := by
    rw [repr_elementSize R]; simp [CopyValue.new, CopyValue.size, hx]
  have h2 : ((CopyValue.new Γ t vt x).type_id == c.elementTypeId) = true := by
    rw [repr_elementTypeId R]; simp [CopyValue.new]
  simp only [pushOne, M.bind_run, getSelf_run, h1, h2, M.assert_true_run]
  rfl

theorem pushOne_other {vt : V} (R : Repr Γ w.heap t es c.data) {x : Bytes} {tv : TyId} (ht : tv ≠ t) :
    pushOne Γ cfg (CopyValue.new Γ tv vt x) (c, w) = (.panic .assertion, (c, w)) := by
  have h2 : ((CopyValue.new Γ tv vt x).type_id == c.elementTypeId) = false := by
    rw [repr_elementTypeId R]; simp [CopyValue.new, ht]
  simp only [pushOne, M.bind_run, getSelf_run, h2, M.assert_false_run]
  cases (CopyValue.new Γ tv vt x).size == c.elementSize <;> rfl

theorem forEach_cons {σ α β : Type} {x : α} {xs : List α} {f : α → M σ Unit} {k : M σ β} (s : σ) :
    (do M.forEach (x :: xs) f; k) s = (do f x; M.forEach xs f; k) s := by
  simp only [M.forEach, M.bind_run]
  rcases f x s with ⟨r, s'⟩
  cases r <;> rfl

theorem Agrees.congr {a : After} {m m' : M (VecCopy V × World U) Obs} (h : a.Agrees Γ m c w) (e : m' (c, w) = m (c, w)) :
    a.Agrees Γ m' c w := by
  unfold After.Agrees at h ⊢
  rw [e]
  exact h

theorem pushAll_agrees {vt : V} (xs : List (TyId × Bytes)) : ∀ {es : List Bytes} {c : VecCopy V} {w : World U}, Repr Γ w.heap t es c.data →
    w.heap.WF → (∀ v ∈ xs, v.2.length = Γ.size v.1) →
    (XVec.pushAll Γ xs (.vec t es c.data.cap)).Agrees Γ (do
      M.forEach (xs.map fun x => CopyValue.new Γ x.1 vt x.2) (pushOne Γ cfg)
      return .done) c w := by
  induction xs with
  | nil =>
    intro es c w R wf _
    exact Agrees.same wf ⟨R, rfl⟩ (r := .ok .done) rfl rfl
  | cons v vs ih =>
    intro es c w R wf hx
    obtain ⟨tv, x⟩ := v
    have hxv : x.length = Γ.size tv := hx _ (List.mem_cons_self ..)
    have hxs : ∀ v ∈ vs, v.2.length = Γ.size v.1 := fun v h => hx v (List.mem_cons_of_mem _ h)
    simp only [List.map_cons]
    by_cases ht : tv = t
    · subst ht
      simp only [XVec.pushAll, XVec.ty, if_true]
      refine Agrees.congr (Agrees.next (x := .vec tv es c.data.cap) ⟨R, rfl⟩ wf (pushData_agrees (cfg := cfg) R wf hxv)
        (fun o h => (push_ok_vec h).1) (m' := do
          M.forEach (vs.map fun x => CopyValue.new Γ x.1 vt x.2) (pushOne Γ cfg)
          return .done) ?_) ?_
      · intro o d h' ho hI wf'
        obtain ⟨es', cap', e⟩ := (push_ok_vec ho).2
        rw [e] at hI ⊢
        obtain ⟨R', rfl⟩ := hI
        exact ih (c := { c with data := d }) (w := { w with heap := h' }) R' wf' hxs
      · rw [forEach_cons, M.bind_run, pushOne_run R hxv, M.bind_run]
    · have e : XVec.pushAll Γ ((tv, x) :: vs) (.vec t es c.data.cap) = .same (.vec t es c.data.cap) .panic := if_neg ht
      rw [e]
      refine Agrees.same wf ⟨R, rfl⟩ (r := .panic .assertion) ?_ ⟨_, rfl⟩
      rw [forEach_cons, M.bind_run, pushOne_other R ht]

theorem extend_agrees {vt : V} {x : XVec} (I : x.Is Γ w.heap c.data) (wf : w.heap.WF) (hint : Nat) {xs : List (TyId × Bytes)}
    (hx : ∀ v ∈ xs, v.2.length = Γ.size v.1) :
    (x.extend Γ cfg hint xs).Agrees Γ (do
      VecCopy.extend Γ cfg hint (xs.map fun x => CopyValue.new Γ x.1 vt x.2)
      return .done) c w := by
  have e : ∀ s : VecCopy V × World U, (do
      VecCopy.extend Γ cfg hint (xs.map fun x => CopyValue.new Γ x.1 vt x.2)
      return Obs.done : M (VecCopy V × World U) Obs) s = (do
        VecCopy.reserve Γ cfg hint
        (do
          M.forEach (xs.map fun x => CopyValue.new Γ x.1 vt x.2) (pushOne Γ cfg)
          return Obs.done : M (VecCopy V × World U) Obs) : M (VecCopy V × World U) Obs) s := by
    intro s
    simp only [VecCopy.extend, M.bind_run]
    rcases VecCopy.reserve Γ cfg hint s with ⟨r, s'⟩
    cases r <;> rfl
  refine Agrees.congr ?_ (e _)
  cases x with
  | unit n => exact Agrees.next I wf (unit_reserve I wf hint) (fun o h => by cases h) (fun o _ _ h => by cases h)
  | vec t es cap =>
    have I' := I
    obtain ⟨R, rfl⟩ := I
    refine Agrees.next I' wf (reserve_agrees R wf hint) (fun o h => (reserve_ok_vec h).1) ?_
    intro o d h' ho hI wf'
    obtain ⟨cap', e⟩ := (reserve_ok_vec ho).2
    rw [e] at hI ⊢
    obtain ⟨R', rfl⟩ := hI
    exact pushAll_agrees (c := { c with data := d }) (w := { w with heap := h' }) xs R' wf' hx

theorem collected_agrees {vt : V} {x : Bytes} (R : Repr Γ w.heap t [] c.data) (hcap : c.data.cap = 1) (wf : w.heap.WF) (hint : Nat)
    {xs : List (TyId × Bytes)} (hx : x.length = Γ.size t) (hxs : ∀ v ∈ xs, v.2.length = Γ.size v.1) :
    (XVec.collected Γ cfg hint t x xs).Agrees Γ (do
      let _ ← VecCopy.push Γ cfg (CopyValue.new Γ t vt x)
      VecCopy.extend Γ cfg hint (xs.map fun x => CopyValue.new Γ x.1 vt x.2)
      return .done) c w := by
  have h1 : ((CopyValue.new Γ t vt x).size == c.elementSize) = true := by
    rw [repr_elementSize R]; simp [CopyValue.new, CopyValue.size, hx]
  have h2 : (CopyValue.new Γ t vt x).type_id = c.elementTypeId := by
    rw [repr_elementTypeId R]; rfl
  refine Agrees.congr (m := do
      VecCopy.onData (VecVoid.push Γ cfg x)
      (do
        VecCopy.extend Γ cfg hint (xs.map fun x => CopyValue.new Γ x.1 vt x.2)
        return .done)) ?_ ?_
  · unfold XVec.collected
    rw [← hcap]
    refine Agrees.next (x := .vec t [] c.data.cap) ⟨R, rfl⟩ wf (pushData_agrees R wf hx) (fun o h => (push_ok_vec h).1) ?_
    intro o d h' ho hI wf'
    exact extend_agrees (c := { c with data := d }) (w := { w with heap := h' }) hI wf' hint hxs
  · simp only [VecCopy.push, M.bind_run, getSelf_run, h1, M.assert_true_run, if_pos h2]
    rw [show (CopyValue.new Γ t vt x).bytes = x from rfl]
    rcases VecCopy.onData (VecVoid.push Γ cfg x) (c, w) with ⟨r, s⟩
    cases r <;> rfl

end Dync
