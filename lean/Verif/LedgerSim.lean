import Verif.LedgerStep
/-!
# The ledger does not change what a program does

Every operation on plain typed values gives the same outcome and the same user state with and without
the ledger.
-/
namespace Dync
variable {U : Type} {Γ : TyEnv U} {σ τ α β : Type}

/-- `m'` does on the projected state what `m` does. -/
def Sim (π : σ → τ) (m : M σ α) (m' : M τ α) : Prop := ∀ s, m' (π s) = ((m s).1, π (m s).2)

namespace Sim
variable {π : σ → τ} {m : M σ α} {m' : M τ α}

theorem pure {b : α} : Sim π (Pure.pure b) (Pure.pure b) := fun _ => rfl
theorem panic {y : Why} : Sim (α := α) π (M.panic y) (M.panic y) := fun _ => rfl

theorem bind {f : α → M σ β} {f' : α → M τ β} (h : Sim π m m') (hf : ∀ b, Sim π (f b) (f' b)) :
    Sim π (m >>= f) (m' >>= f') := by
  intro s
  have h1 := h s
  rcases hm : m s with ⟨r, s1⟩
  rw [hm] at h1
  cases r with
  | ok b => rw [M.bind_ok h1, M.bind_ok hm]; exact hf b s1
  | panic y => simp only [M.bind_run, h1, hm]
  | ub => simp only [M.bind_run, h1, hm]
  | abort => simp only [M.bind_run, h1, hm]

theorem modify {f : σ → σ} {f' : τ → τ} (h : ∀ s, f' (π s) = π (f s)) : Sim π (M.modify f) (M.modify f') := by
  intro s
  simp only [M.modify_run, h]

theorem thenDrop {d : M σ Unit} {d' : M τ Unit} (h : Sim π m m') (hd : Sim π d d') :
    Sim π (M.thenDrop m d) (M.thenDrop m' d') := by
  intro s
  have h1 := h s
  rcases hm : m s with ⟨r, s1⟩
  rw [hm] at h1
  have h2 := hd s1
  rcases hm2 : d s1 with ⟨r2, s2⟩
  rw [hm2] at h2
  simp only at h1 h2
  cases r <;> cases r2 <;> simp only [M.thenDrop, h1, hm, h2, hm2]

theorem unwindDrop {d : M σ Unit} {d' : M τ Unit} (hd : Sim π d d') : Sim π (M.unwindDrop d) (M.unwindDrop d') := by
  intro s
  have h2 := hd s
  rcases hm2 : d s with ⟨r2, s2⟩
  rw [hm2] at h2
  simp only at h2
  cases r2 <;> simp only [M.unwindDrop, h2, hm2]

theorem dropEach {xs : List β} {d : β → M σ Unit} {d' : β → M τ Unit} (hd : ∀ x, Sim π (d x) (d' x)) :
    Sim π (M.dropEach xs d) (M.dropEach xs d') := by
  induction xs with
  | nil => exact pure
  | cons x xs ih => exact (hd x).thenDrop ih

end Sim

/-- Forget the ledger. -/
def forget (l : Ledger U) : U := l.user
def forget2 (q : σ × Ledger U) : σ × U := (q.1, q.2.user)

theorem ledger_drop_sim (t : TyId) (x : Bytes) : Sim forget (Γ.ledger.drop t x) (Γ.drop t x) := by
  intro l
  simp only [TyEnv.ledger, TyEnv.ledgerDrop, TyEnv.ledgerUser, M.bind_run, M.modify_run, M.zoom_run]
  rfl

theorem ledger_clone_sim (t : TyId) (x : Bytes) : Sim forget (Γ.ledger.clone t x) (Γ.clone t x) := by
  intro l
  simp only [TyEnv.ledger, TyEnv.ledgerClone, TyEnv.ledgerUser, M.bind_run, M.modify_run, M.zoom_run, M.pure_run, forget]
  rcases h : Γ.clone t x l.user with ⟨r, u⟩
  cases r <;> rfl

theorem ledger_cloneFrom_sim (t : TyId) (x : Bytes) : Sim forget2 (Γ.ledger.cloneFrom t x) (Γ.cloneFrom t x) :=
  fun _ => rfl

theorem user_sim {m : M (Ledger U) α} {m' : M U α} (h : Sim forget m m') : Sim forget2 (DSpec.user m) (DSpec.user m') := by
  intro q
  have := h q.2
  simp only [forget] at this
  simp only [DSpec.user, M.zoom_run, forget2, this]

theorem ledger_dropEach_sim {t : TyId} {es : List Bytes} :
    Sim forget (M.dropEach es (Γ.ledger.drop t)) (M.dropEach es (Γ.drop t)) := Sim.dropEach (ledger_drop_sim t)

theorem ledger_item_sim (b : SItem) : Sim forget (b.drop Γ.ledger) (b.drop Γ) := by
  cases b with
  | vec t es => exact ledger_dropEach_sim
  | box t x => exact ledger_drop_sim t x
  | small t x => exact ledger_drop_sim t x

theorem ledger_extend_sim (t : TyId) (xs es : List Bytes) (l : Ledger U) :
    TVec.extendClones Γ t xs es l.user = ((TVec.extendClones Γ.ledger t xs es l).1, forget2 (TVec.extendClones Γ.ledger t xs es l).2) := by
  induction xs generalizing es l with
  | nil => rfl
  | cons x xs ih =>
    have h1 := ledger_clone_sim (Γ := Γ) t x l
    rcases hm : Γ.ledger.clone t x l with ⟨r, l1⟩
    rw [hm] at h1
    simp only [forget] at h1
    cases r with
    | ok b => simp only [TVec.extendClones, h1, hm]; exact ih _ _
    | panic y => simp only [TVec.extendClones, h1, hm]; rfl
    | ub => simp only [TVec.extendClones, h1, hm]; rfl
    | abort => simp only [TVec.extendClones, h1, hm]; rfl

theorem ledger_fill_sim (t : TyId) (x : Bytes) (es : List Bytes) (l : Ledger U) :
    TVec.fill Γ t x es l.user = ((TVec.fill Γ.ledger t x es l).1, forget2 (TVec.fill Γ.ledger t x es l).2) := by
  induction es generalizing l with
  | nil => rfl
  | cons e es ih =>
    have h1 := ledger_clone_sim (Γ := Γ) t x l
    rcases hm : Γ.ledger.clone t x l with ⟨r, l1⟩
    rw [hm] at h1
    simp only [forget] at h1
    cases r with
    | ok b =>
      have h2 := ledger_drop_sim (Γ := Γ) t e l1
      rcases hm2 : Γ.ledger.drop t e l1 with ⟨r2, l2⟩
      rw [hm2] at h2
      simp only [forget] at h2
      cases r2 with
      | ok b => simp only [TVec.fill, h1, hm, h2, hm2, ih l2]; rfl
      | panic y => simp only [TVec.fill, h1, hm, h2, hm2]; rfl
      | ub => simp only [TVec.fill, h1, hm, h2, hm2]; rfl
      | abort => simp only [TVec.fill, h1, hm, h2, hm2]; rfl
    | panic y => simp only [TVec.fill, h1, hm]; rfl
    | ub => simp only [TVec.fill, h1, hm]; rfl
    | abort => simp only [TVec.fill, h1, hm]; rfl

theorem ledger_thenDropArg_sim {t : TyId} {x : Bytes} (o : Res Unit × (List Bytes × Ledger U)) :
    TVec.thenDropArg Γ t x (o.1, forget2 o.2) = ((TVec.thenDropArg Γ.ledger t x o).1, forget2 (TVec.thenDropArg Γ.ledger t x o).2) := by
  obtain ⟨r, es, l⟩ := o
  have h2 := ledger_drop_sim (Γ := Γ) t x l
  rcases hm2 : Γ.ledger.drop t x l with ⟨r2, l2⟩
  rw [hm2] at h2
  simp only [forget] at h2
  cases r <;> simp only [TVec.thenDropArg, forget2, hm2, h2]

theorem ledger_clones_sim (t : TyId) (xs : List Bytes) : Sim forget (DSpec.clones Γ.ledger t xs) (DSpec.clones Γ t xs) := by
  intro l
  have h1 := ledger_extend_sim (Γ := Γ) t xs [] l
  rcases hm : TVec.extendClones Γ.ledger t xs [] l with ⟨r, es, l1⟩
  rw [hm] at h1
  simp only [forget2] at h1
  cases r with
  | ok b => simp only [DSpec.clones, forget, h1, hm]
  | panic y =>
    have := (Sim.unwindDrop (ledger_dropEach_sim (Γ := Γ) (t := t) (es := es))).bind (fun _ => Sim.panic (α := List Bytes) (y := y)) l1
    simp only [DSpec.clones, forget, h1, hm] at *
    exact this
  | ub => simp only [DSpec.clones, forget, h1, hm]
  | abort => simp only [DSpec.clones, forget, h1, hm]

theorem ledger_vecOf_sim (t : TyId) (n : Nat) (x : Bytes) : Sim forget (DSpec.vecOf Γ.ledger t n x) (DSpec.vecOf Γ t n x) := by
  cases n with
  | zero => exact (ledger_drop_sim t x).bind fun _ => Sim.pure
  | succ n =>
    intro l
    have h1 := ledger_extend_sim (Γ := Γ) t (List.replicate n x) [] l
    rcases hm : TVec.extendClones Γ.ledger t (List.replicate n x) [] l with ⟨r, es, l1⟩
    rw [hm] at h1
    simp only [forget2] at h1
    cases r with
    | ok b => simp only [DSpec.vecOf, TVec.pushClones, forget, h1, hm]
    | panic y =>
      have := (Sim.unwindDrop ((ledger_drop_sim (Γ := Γ) t x).bind fun _ =>
        (ledger_dropEach_sim (Γ := Γ) (t := t) (es := es)))).bind (fun _ => Sim.panic (α := List Bytes) (y := y)) l1
      simp only [DSpec.vecOf, TVec.pushClones, forget, h1, hm] at *
      exact this
    | ub => simp only [DSpec.vecOf, TVec.pushClones, forget, h1, hm]
    | abort => simp only [DSpec.vecOf, TVec.pushClones, forget, h1, hm]

theorem ledger_cloneS_sim (b : SItem) : Sim forget (DSpec.cloneS Γ.ledger b) (DSpec.cloneS Γ b) := by
  cases b with
  | vec t es => exact (ledger_clones_sim t es).bind fun _ => Sim.pure
  | box t x => exact (ledger_clone_sim t x).bind fun _ => Sim.pure
  | small t x => exact (ledger_clone_sim t x).bind fun _ => Sim.pure

theorem put_sim (k : Nat) (b : SItem) : Sim forget2 (DSpec.put Γ.ledger k b) (DSpec.put Γ k b) := by
  rintro ⟨s, l⟩
  cases hs : s k with
  | none => simp only [DSpec.put, forget2, hs]
  | some old =>
    have := ledger_item_sim (Γ := Γ) old l
    simp only [forget] at this
    simp only [DSpec.put, forget2, hs, this]

theorem method_sim (k : Nat) {f : TyId → M (List Bytes × Ledger U) Obs} {f' : TyId → M (List Bytes × U) Obs}
    (h : ∀ t, Sim forget2 (f t) (f' t)) : Sim forget2 (DSpec.methodVec k f) (DSpec.methodVec k f') := by
  rintro ⟨s, l⟩
  rcases hs : s k with _ | ⟨t, es⟩ | ⟨t, x⟩ | ⟨t, x⟩
  · simp only [DSpec.methodVec, forget2, hs]
  · have := h t (es, l)
    simp only [forget2] at this
    simp only [DSpec.methodVec, forget2, hs, this]
  · simp only [DSpec.methodVec, forget2, hs]
  · simp only [DSpec.methodVec, forget2, hs]

theorem pure_sim (k : Nat) {f : TyId → List Bytes → Option (Obs × List Bytes)} :
    Sim forget2 (DSpec.pureVec (U := Ledger U) k f) (DSpec.pureVec (U := U) k f) := by
  refine method_sim k fun t => ?_
  rintro ⟨es, l⟩
  simp only [forget2]
  cases f t es <;> rfl

theorem read_sim (k i : Nat) : Sim forget2 (DSpec.read (U := Ledger U) k i) (DSpec.read (U := U) k i) := by
  rintro ⟨s, l⟩
  rcases hs : s k with _ | ⟨t, es⟩ | ⟨t, x⟩ | ⟨t, x⟩ <;> simp only [DSpec.read, forget2, hs]
  by_cases hi : i < es.length
  · simp only [dif_pos hi]
  · simp only [dif_neg hi]

theorem refuse_sim (t : TyId) (x : Bytes) : Sim forget2 (DSpec.refuse Γ.ledger t x) (DSpec.refuse Γ t x) := by
  refine Sim.bind ?_ fun _ => Sim.pure
  rintro ⟨es, l⟩
  have := ledger_drop_sim (Γ := Γ) t x l
  simp only [forget] at this
  simp only [M.zoom_run, forget2, this]

theorem tvec_sim {f : List Bytes → Ledger U → Res Unit × (List Bytes × Ledger U)} {f' : List Bytes → U → Res Unit × (List Bytes × U)}
    (h : ∀ es l, f' es l.user = ((f es l).1, forget2 (f es l).2)) : Sim forget2 (DSpec.tvec f) (DSpec.tvec f') :=
  Sim.bind (fun q => h q.1 q.2) fun _ => Sim.pure

theorem ite_sim {π : σ → τ} {m n : M σ α} {m' n' : M τ α} {c : Prop} [Decidable c] (h : Sim π m m') (h' : Sim π n n') :
    Sim π (if c then m else n) (if c then m' else n') := by
  by_cases hc : c
  · rw [if_pos hc, if_pos hc]; exact h
  · rw [if_neg hc, if_neg hc]; exact h'

theorem push_sim (x : Bytes) : Sim forget2
    (do M.modify fun s => (s.1 ++ [x], s.2); pure .done : M (List Bytes × Ledger U) Obs)
    (do M.modify fun s => (s.1 ++ [x], s.2); pure .done : M (List Bytes × U) Obs) := fun _ => rfl

theorem moveOut_sim (k : Nat) : Sim forget2 (DSpec.moveOut (U := Ledger U) k) (DSpec.moveOut (U := U) k) :=
  Sim.modify fun _ => rfl
theorem write_sim (k i : Nat) (b : Bytes) : Sim forget2 (DSpec.write (U := Ledger U) k i b) (DSpec.write (U := U) k i b) :=
  Sim.modify fun _ => rfl

/-- An operation has the same outcome and the same effect on variables and user state with the ledger. -/
theorem dstep_sim (op : DOp) : Sim forget2 (op.spec Γ.ledger) (op.spec Γ) := by
  cases op with
  | withType k t => exact put_sim _ _
  | withCapacity k t n => exact put_sim _ _
  | fromVec k t xs => exact put_sim _ _
  | fromSlice k t xs => exact (user_sim (ledger_clones_sim t xs)).bind fun _ => put_sim _ _
  | withSize k t n x => exact (user_sim (ledger_vecOf_sim t n x)).bind fun _ => put_sim _ _
  | newBox k t x => exact put_sim _ _
  | newSmall k t x => exact put_sim _ _
  | drop k =>
    rintro ⟨s, l⟩
    cases hs : s k with
    | none => simp only [DOp.spec, forget2, hs]
    | some b =>
      simp only [DOp.spec, forget2, hs]
      exact ((moveOut_sim k).bind fun _ => (user_sim (ledger_item_sim b)).bind fun _ => Sim.pure) (s, l)
  | consume k t =>
    rintro ⟨s, l⟩
    cases hs : s k with
    | none => simp only [DOp.spec, forget2, hs]
    | some b =>
      simp only [DOp.spec, forget2, hs]
      exact ((moveOut_sim k).bind fun _ => (user_sim (ledger_item_sim b)).bind fun _ => Sim.pure) (s, l)
  | clone k j =>
    rintro ⟨s, l⟩
    cases hs : s k with
    | none => simp only [DOp.spec, forget2, hs]
    | some b =>
      simp only [DOp.spec, forget2, hs]
      exact ((user_sim (ledger_cloneS_sim b)).bind fun _ => put_sim _ _) (s, l)
  | roundTrip k t =>
    rintro ⟨s, l⟩
    rcases hs : s k with _ | ⟨t', es⟩ | ⟨t', x⟩ | ⟨t', x⟩ <;> simp only [DOp.spec, forget2, hs]
    by_cases ht : t' = t
    · simp only [if_pos ht]
    · simp only [if_neg ht]
      exact ((moveOut_sim k).bind fun _ => (user_sim (ledger_item_sim (.vec t' es))).bind fun _ => Sim.pure) (s, l)
  | append k j =>
    rintro ⟨s, l⟩
    simp only [DOp.spec, forget2]
    split
    · rfl
    · split
      · split <;> rfl
      · rfl
  | pushAs k t x =>
    exact method_sim _ fun t' => ite_sim (push_sim x) (refuse_sim t x)
  | pushCloned k j i =>
    refine ite_sim Sim.pure ((read_sim j i).bind fun p => ?_)
    rcases p with _ | ⟨t, x⟩
    · exact Sim.pure
    · exact method_sim _ fun t' => ite_sim (tvec_sim fun es l => ledger_extend_sim t [x] es l) Sim.pure
  | pushBox k j =>
    rintro ⟨s, l⟩
    simp only [DOp.spec, forget2]
    split
    · rename_i t1 es1 t x hs hs'
      exact ((moveOut_sim j).bind fun _ => method_sim k fun t' =>
        ite_sim (push_sim x) (refuse_sim t x)) (s, l)
    · rfl
  | resize k t n x =>
    refine method_sim _ fun t' => ite_sim (tvec_sim fun es l => ?_) (refuse_sim t x)
    split
    · have h1 := ledger_extend_sim (Γ := Γ) t (List.replicate (n - es.length) x) es l
      simp only [TVec.pushClones]
      rw [h1]
      exact ledger_thenDropArg_sim _
    · have h1 := ledger_dropEach_sim (Γ := Γ) (t := t) (es := es.drop n) l
      simp only [forget] at h1
      simp only [h1]
      exact ledger_thenDropArg_sim (_, es.take n, _)
  | fill k t x =>
    refine method_sim _ fun t' => ite_sim (tvec_sim fun es l => ?_) (refuse_sim t x)
    rw [ledger_fill_sim]
    exact ledger_thenDropArg_sim _
  | clear k =>
    refine method_sim _ fun t => tvec_sim fun es l => ?_
    have h1 := ledger_dropEach_sim (Γ := Γ) (t := t) (es := es) l
    simp only [forget] at h1
    rw [h1]
    rfl
  | rotateLeft k n => simp only [DOp.spec]; exact pure_sim _
  | rotateRight k n => simp only [DOp.spec]; exact pure_sim _
  | swap k i j => simp only [DOp.spec]; exact pure_sim _
  | setAs k t i x =>
    refine method_sim _ fun t' => ?_
    rintro ⟨es, l⟩
    by_cases hi : i < es.length
    · by_cases ht : t = t'
      · have h1 := ledger_drop_sim (Γ := Γ) t es[i] l
        simp only [forget] at h1
        simp only [forget2, dif_pos hi, if_pos ht, h1]
      · simp only [forget2, dif_pos hi, if_neg ht]
        exact refuse_sim t x (es, l)
    · have h1 : ¬ i < (forget2 (es, l)).1.length := hi
      simp only [dif_neg hi, dif_neg h1]
  | cloneIntoVec k t =>
    refine method_sim _ fun t' => ?_
    rintro ⟨es, l⟩
    by_cases ht : t = t'
    · have h1 := ((ledger_clones_sim (Γ := Γ) t es).bind fun es => (ledger_dropEach_sim (Γ := Γ) (t := t) (es := es)).bind fun _ =>
        Sim.pure (b := Obs.elems es)) l
      simp only [forget] at h1
      simp only [forget2, if_pos ht, h1]
      rfl
    · simp only [forget2, if_neg ht]
  | cloneValue k i j =>
    refine (read_sim k i).bind fun p => ?_
    rcases p with _ | ⟨t, x⟩
    · exact Sim.pure
    · exact (user_sim (ledger_clone_sim t x)).bind fun _ => put_sim _ _
  | cloneSmall k i j =>
    refine (read_sim k i).bind fun p => ?_
    rcases p with _ | ⟨t, x⟩
    · exact Sim.pure
    · exact (user_sim (ledger_clone_sim t x)).bind fun _ => put_sim _ _
  | assign k i j =>
    have key : ∀ t x, Sim forget2 (DOp.spec.assignPlace Γ.ledger k i j t x) (DOp.spec.assignPlace Γ k i j t x) := by
      intro t x
      refine (read_sim k i).bind fun p => ?_
      rcases p with _ | ⟨t', old⟩
      · exact Sim.pure
      · exact ite_sim
          ((moveOut_sim j).bind fun _ => (write_sim k i x).bind fun _ => (user_sim (ledger_drop_sim t old)).bind fun _ => Sim.pure)
          ((moveOut_sim j).bind fun _ => (user_sim (ledger_drop_sim t x)).bind fun _ => Sim.pure)
    rintro ⟨s, l⟩
    simp only [DOp.spec, forget2]
    split
    · rfl
    · split
      · exact key _ _ (s, l)
      · exact key _ _ (s, l)
      · rfl
  | cloneFrom k i j i' =>
    refine ite_sim Sim.pure ((read_sim j i').bind fun p => ?_)
    rcases p with _ | ⟨t, x⟩
    · exact Sim.pure
    refine (read_sim k i).bind fun p => ?_
    rcases p with _ | ⟨t', d⟩
    · exact Sim.pure
    rintro ⟨s, l⟩
    by_cases ht : t = t'
    · have h1 := ledger_cloneFrom_sim (Γ := Γ) t x (d, l)
      simp only [forget2] at h1
      simp only [forget2, if_pos ht, h1]
      rfl
    · simp only [forget2, if_neg ht]
  | swapValues k i j i' =>
    refine ite_sim Sim.pure ((read_sim k i).bind fun p => ?_)
    rcases p with _ | ⟨t, x⟩
    · exact Sim.pure
    refine (read_sim j i').bind fun p => ?_
    rcases p with _ | ⟨t', d⟩
    · exact Sim.pure
    exact ite_sim ((write_sim k i d).bind fun _ => (write_sim j i' x).bind fun _ => Sim.pure) Sim.pure
  | len k => simp only [DOp.spec]; exact pure_sim _
  | typeId k => simp only [DOp.spec]; exact pure_sim _
  | getAs k t i => simp only [DOp.spec]; exact pure_sim _
  | get k i =>
    refine (read_sim k i).bind fun p => ?_
    rcases p with _ | ⟨t, x⟩ <;> exact Sim.pure
  | asSlice k t => simp only [DOp.spec]; exact pure_sim _
  | iter k => simp only [DOp.spec]; exact pure_sim _

end Dync
