import Verif.TablesLemmas
/-!
# C78: ownership of virtual tables
-/
namespace Dync
variable {τ U : Type}

/-- C78, one operation: it returns or panics, and the live tables afterwards are exactly those of the owners
in scope, those lost before, and as many newly lost ones as `TOp.losses` says. -/
theorem C78_step (F : TabFns τ U) (op : TOp U) {s : TState τ U} {X : List Nat} (h : Accounted s X) :
    (op.run F s).1 ≠ .ub ∧ (op.run F s).1 ≠ .abort ∧
    ∃ lost, lost.length = op.losses (op.run F s).1 ∧ Accounted (op.run F s).2 (lost ++ X) := by
  obtain ⟨n, o, hn⟩ := op.run_outcome F h
  rcases o with ⟨e, a⟩ | ⟨y, lost, e, hl, a⟩
  · rw [e]
    exact ⟨by simp, by simp, [], by cases op <;> first | rfl | (rename_i b _ _; cases b <;> rfl) , a⟩
  · rw [e]
    exact ⟨by simp, by simp, lost, by rw [hl, hn y], a⟩

/-- C78, whole programs, from any state in which the live tables are accounted for. -/
theorem C78_program (F : TabFns τ U) (ops : List (TOp U)) {s : TState τ U} {X : List Nat} (h : Accounted s X) :
    (TOp.runAll F ops s).1.length = ops.length ∧
    (∀ r ∈ (TOp.runAll F ops s).1, r ≠ .ub ∧ r ≠ .abort) ∧
    ∃ lost, lost.length = totalLosses ops (TOp.runAll F ops s).1 ∧ Accounted (TOp.runAll F ops s).2 (lost ++ X) := by
  induction ops generalizing s X with
  | nil => exact ⟨rfl, (by intro r hr; cases hr), [], rfl, h⟩
  | cons op ops ih =>
    obtain ⟨h1, h2, lost, hl, ha⟩ := C78_step F op h
    rcases e : op.run F s with ⟨r, s'⟩
    rw [e] at h1 h2 hl ha
    obtain ⟨i1, i2, lost', hl', ha'⟩ := ih ha
    have eq : TOp.runAll F (op :: ops) s = (r :: (TOp.runAll F ops s').1, (TOp.runAll F ops s').2) := by
      simp only [TOp.runAll, e]
    rw [eq]
    refine ⟨by simp [i1], ?_, lost' ++ lost, ?_, by rw [List.append_assoc]; exact ha'⟩
    · intro q hq
      rcases List.mem_cons.1 hq with rfl | hq
      · exact ⟨h1, h2⟩
      · exact i2 q hq
    · show (lost' ++ lost).length = (List.zipWith TOp.losses (op :: ops) (r :: (TOp.runAll F ops s').1)).sum
      rw [List.zipWith_cons_cons, List.sum_cons, List.length_append, hl, hl', Nat.add_comm]
      rfl

theorem start_accounted (u : U) : Accounted (TState.start (τ := τ) u) [] :=
  ⟨List.nodup_nil, fun i => by simp [TState.start, TState.owned], fun i hi => by simp [TState.start, TState.owned] at hi⟩

/-- C78: in a program that starts with nothing, no table is used after it was freed or freed twice, owners
never share a table, and the number of live tables is the number of owners in scope plus `totalLosses`. -/
theorem C78_from_start (F : TabFns τ U) (ops : List (TOp U)) (u : U) :
    ∃ lost, lost.length = totalLosses ops (TOp.runAll F ops (.start u)).1 ∧
    (∀ r ∈ (TOp.runAll F ops (.start u)).1, r ≠ .ub ∧ r ≠ .abort) ∧
    ((TOp.runAll F ops (.start u)).2.owned ++ lost).Nodup ∧
    ∀ i, ((TOp.runAll F ops (.start u)).2.tabs.live i).isSome ↔ i ∈ (TOp.runAll F ops (.start u)).2.owned ++ lost := by
  obtain ⟨_, h2, lost, hl, ha⟩ := C78_program F ops (start_accounted (τ := τ) u)
  rw [List.append_nil] at ha
  exact ⟨lost, hl, h2, ha.nodup, ha.live⟩

/-- C78: a program in which no destructor of an element panics while a container or owned value is destroyed,
and no upcast of an owned value panics, and at whose end nothing is in scope, has freed every table.  All
other panics are allowed. -/
theorem C78_all_freed (F : TabFns τ U) (ops : List (TOp U)) (u : U)
    (hn : totalLosses ops (TOp.runAll F ops (.start (τ := τ) u)).1 = 0)
    (he : ∀ o ∈ (TOp.runAll F ops (.start (τ := τ) u)).2.owners, o = none) (i : Nat) :
    (TOp.runAll F ops (.start u)).2.tabs.live i = none := by
  obtain ⟨lost, hl, _, _, hlive⟩ := C78_from_start F ops u
  rw [hn] at hl
  have hlost := List.length_eq_zero_iff.1 hl
  have ho : (TOp.runAll F ops (.start u)).2.owned = [] := by
    refine List.eq_nil_iff_forall_not_mem.2 fun a ha => ?_
    obtain ⟨o, ho, e⟩ := List.mem_filterMap.1 ha
    rw [he o ho] at e
    cases e
  rw [ho, hlost] at hlive
  have := hlive i
  cases e : (TOp.runAll F ops (.start u)).2.tabs.live i with
  | none => rfl
  | some v => rw [e] at this; simp at this

/-- C78: whatever is done through views and references, panics included, loses no table and takes none away
from an owner: the owners are the former ones, possibly followed by new ones. -/
theorem C78_views (F : TabFns τ U) (p : VP U) {s : TState τ U} {X : List Nat} (h : Accounted s X) {i : Nat} (hi : i ∈ s.owned) :
    ∃ new, Accounted (p.run F (.ref i) s).2 X ∧ (p.run F (.ref i) s).2.owners = s.owners ++ new ∧
    ((p.run F (.ref i) s).1 = .ok () ∨ ∃ y, (p.run F (.ref i) s).1 = .panic y) := by
  rcases p.run_held F (r := .ref i) (O := s.owners) (X := X) (List.mem_append_left _ hi) s h.held with ⟨a, s', e, q⟩ | ⟨y, s', e, q⟩
  · obtain ⟨new, en⟩ := q.2
    rw [e]; exact ⟨new, q.1, en, .inl rfl⟩
  · obtain ⟨new, en⟩ := q.2
    rw [e]; exact ⟨new, q.1, en, .inr ⟨y, rfl⟩⟩

/-- C78: the same for a view that has a table of its own, which is freed. -/
theorem C78_own_views (F : TabFns τ U) (p : VP U) {s : TState τ U} {X : List Nat} {i : Nat} (h : Accounted s (i :: X)) :
    ∃ new, Accounted (p.run F (.box i) s).2 X ∧ (p.run F (.box i) s).2.owners = s.owners ++ new ∧
    ((p.run F (.box i) s).1 = .ok () ∨ ∃ y, (p.run F (.box i) s).1 = .panic y) := by
  rcases p.run_held F (r := .box i) (O := s.owners) (X := X) trivial s h.held with ⟨a, s', e, q⟩ | ⟨y, s', e, q⟩
  · obtain ⟨new, en⟩ := q.2
    rw [e]; exact ⟨new, q.1, en, .inl rfl⟩
  · obtain ⟨new, en⟩ := q.2
    rw [e]; exact ⟨new, q.1, en, .inr ⟨y, rfl⟩⟩

/-- C78: no operation changes a table that exists. -/
theorem C78_tables_kept (F : TabFns τ U) (ops : List (TOp U)) (s : TState τ U) : TablesKept s (TOp.runAll F ops s).2 := by
  induction ops generalizing s with
  | nil => exact .refl s
  | cons op ops ih =>
    have h := op.run_keeps F s
    simp only [TOp.runAll]
    generalize op.run F s = o at h ⊢
    rcases o with ⟨r, s'⟩
    cases r with
    | ub => exact h
    | abort => exact h
    | ok a => exact h.trans (ih s')
    | panic y => exact h.trans (ih s')

/-- C78: the losses happen. Each operation named by `TOp.losses` loses the table when it panics on a variable
that holds something. -/
theorem C78_losses_happen (F : TabFns τ U) (op : TOp U) {s : TState τ U} (h : Accounted s []) {y : Why}
    (hp : (op.run F s).1 = .panic y) (hl : op.losses (.panic y) = 1) :
    ∃ i, ((op.run F s).2.tabs.live i).isSome ∧ i ∉ (op.run F s).2.owned := by
  obtain ⟨_, _, lost, e, a⟩ := C78_step F op h
  rw [hp, hl] at e
  rw [List.append_nil] at a
  obtain ⟨i, rfl⟩ := List.length_eq_one_iff.1 e
  refine ⟨i, (a.live i).2 (List.mem_append_right _ List.mem_cons_self), fun hi => ?_⟩
  have := (List.nodup_append.1 a.nodup).2.2 i hi i List.mem_cons_self
  exact this rfl

namespace Ex

/-- Tables are numbers, the user state says how many more clones of tables succeed. -/
def tabFns : TabFns Nat Nat where
  build := fun u => (some 7, u)
  clone := fun v u => if u = 0 then (none, u) else (some v, u - 1)
  conv := fun v u => (some (v + 1), u)

def dataOk : Data Nat Unit := fun u => (some (), u)
def dataBad : Data Nat Unit := fun u => (none, u)

/-- A vector, its clone, views with clones, upcasts and panics in the middle, destroyed at the end. -/
def tabProg : List (TOp Nat) :=
  [.create dataOk, .clone 0 dataOk, .view 0 (.dup (.use dataOk .drop) (.upRef (.sub dataOk (.use dataBad .drop) .drop) .drop)),
   .view 1 (.each 3 (.up (.cloneOwn dataOk .fail))), .upcastVec 1, .newView (.own dataOk), .valueRef 0 .drop,
   .dropDyn 0 dataOk, .push true 2 dataOk, .dropCopy 3, .dissolve 4]

end Ex

example := C78_from_start Ex.tabFns Ex.tabProg 5
example := C78_all_freed Ex.tabFns Ex.tabProg 5 (by decide +kernel) (by decide +kernel) 3
/-- In that program operations do panic. -/
example : (TOp.runAll Ex.tabFns Ex.tabProg (.start 5)).1 =
    [.ok (), .ok (), .panic .user, .panic .unwrapNone, .ok (), .ok (), .panic .user, .ok (), .ok (), .ok (), .ok ()] := by
  decide +kernel
example := C78_views Ex.tabFns (.dup (.use Ex.dataBad .drop) .drop)
  (C78_program Ex.tabFns [.create Ex.dataOk] (start_accounted 5)).2.2.choose_spec.2 (i := 0) (by decide +kernel)
example := C78_own_views (s := { tabs := ⟨1, fun i => if i = 0 then some 7 else none⟩, owners := [], user := 0 }) Ex.tabFns
  (.up (.own Ex.dataOk)) (X := []) (i := 0) ⟨by decide, (by intro i; simp [TState.owned]), by decide⟩
example := C78_tables_kept Ex.tabFns Ex.tabProg (.start 5)
/-- The destructor of an element panics: the table of the vector is lost. -/
example := C78_losses_happen Ex.tabFns (.dropDyn 0 Ex.dataBad)
  (s := { tabs := ⟨1, fun i => if i = 0 then some 7 else none⟩, owners := [some 0], user := 0 })
  ⟨by decide, (by intro i; simp [TState.owned]), by decide⟩ (y := .user) (by decide +kernel) rfl
/-- An owned value is upcast and cloning its table panics. -/
example := C78_losses_happen Ex.tabFns (.upcastVal 0)
  (s := { tabs := ⟨1, fun i => if i = 0 then some 7 else none⟩, owners := [some 0], user := 0 })
  ⟨by decide, (by intro i; simp [TState.owned]), by decide⟩ (y := .user) (by decide +kernel) rfl

end Dync
