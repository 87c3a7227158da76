import Verif.TablesSpec
/-! # Lemmas about table ownership -/
namespace Dync
variable {τ U α β : Type}

/-- Hoare triples with a postcondition for panics. -/
def Triple (P : TState τ U → Prop) (m : M (TState τ U) α) (Q : α → TState τ U → Prop) (E : TState τ U → Prop) : Prop :=
  ∀ s, P s → (∃ a s', m s = (.ok a, s') ∧ Q a s') ∨ (∃ y s', m s = (.panic y, s') ∧ E s')

theorem Triple.bind {P : TState τ U → Prop} {m : M (TState τ U) α} {Q : α → TState τ U → Prop} {E : TState τ U → Prop}
    {f : α → M (TState τ U) β} {R : β → TState τ U → Prop} (h : Triple P m Q E) (hf : ∀ a, Triple (Q a) (f a) R E) :
    Triple P (m >>= f) R E := by
  intro s hs
  rcases h s hs with ⟨a, s', e, q⟩ | ⟨y, s', e, q⟩
  · rw [M.bind_ok e]; exact hf a s' q
  · rw [M.bind_panic e]; exact .inr ⟨y, s', rfl, q⟩

theorem Triple.pure {Q : α → TState τ U → Prop} {E : TState τ U → Prop} (a : α) : Triple (Q a) (pure a) Q E :=
  fun s hs => .inl ⟨a, s, rfl, hs⟩

theorem Triple.pre {P P' : TState τ U → Prop} {m : M (TState τ U) α} {Q : α → TState τ U → Prop} {E : TState τ U → Prop}
    (h : Triple P m Q E) (hp : ∀ s, P' s → P s) : Triple P' m Q E := fun s hs => h s (hp s hs)

theorem Triple.post {P : TState τ U → Prop} {m : M (TState τ U) α} {Q Q' : α → TState τ U → Prop} {E E' : TState τ U → Prop}
    (h : Triple P m Q E) (hq : ∀ a s, Q a s → Q' a s) (he : ∀ s, E s → E' s) : Triple P m Q' E' := by
  intro s hs
  rcases h s hs with ⟨a, s', e, q⟩ | ⟨y, s', e, q⟩
  · exact .inl ⟨a, s', e, hq a s' q⟩
  · exact .inr ⟨y, s', e, he s' q⟩

theorem Triple.onUnwind {P : TState τ U → Prop} {m : M (TState τ U) α} {Q : α → TState τ U → Prop} {E' E : TState τ U → Prop}
    {d : M (TState τ U) Unit} (h : Triple P m Q E') (hd : Triple E' d (fun _ => E) (fun _ => False)) :
    Triple P (M.onUnwind m d) Q E := by
  intro s hs
  rcases h s hs with ⟨a, s', e, q⟩ | ⟨y, s', e, q⟩
  · exact .inl ⟨a, s', by simp only [M.onUnwind, e], q⟩
  · rcases hd s' q with ⟨_, s'', e', q'⟩ | ⟨_, _, _, q'⟩
    · exact .inr ⟨y, s'', by simp only [M.onUnwind, e, M.unwindDrop, e'], q'⟩
    · exact q'.elim

theorem Triple.thenDrop {P : TState τ U → Prop} {m : M (TState τ U) α} {Q R : α → TState τ U → Prop} {E' E : TState τ U → Prop}
    {d : M (TState τ U) Unit} (h : Triple P m Q E') (hq : ∀ a, Triple (Q a) d (fun _ => R a) (fun _ => False))
    (hd : Triple E' d (fun _ => E) (fun _ => False)) : Triple P (M.thenDrop m d) R E := by
  intro s hs
  rcases h s hs with ⟨a, s', e, q⟩ | ⟨y, s', e, q⟩
  · rcases hq a s' q with ⟨_, s'', e', q'⟩ | ⟨_, _, _, q'⟩
    · exact .inl ⟨a, s'', M.thenDrop_ok e e', q'⟩
    · exact q'.elim
  · rcases hd s' q with ⟨_, s'', e', q'⟩ | ⟨_, _, _, q'⟩
    · exact .inr ⟨y, s'', M.thenDrop_panic e e', q'⟩
    · exact q'.elim

theorem Triple.repeatN {P : TState τ U → Prop} {m : M (TState τ U) Unit} {E : TState τ U → Prop}
    (h : Triple P m (fun _ => P) E) (n : Nat) : Triple P (M.repeatN n m) (fun _ => P) E := by
  induction n with
  | zero => exact Triple.pure (Q := fun _ => P) ()
  | succ n ih => exact Triple.bind h fun _ => ih

/-! ### The state: owners `O` first, then possibly more; tables `X` held elsewhere -/

/-- The owners are `O` and possibly more, and `X` are the other live tables. -/
def TabsHeld (O : List (Option Nat)) (X : List Nat) (s : TState τ U) : Prop :=
  Accounted s X ∧ ∃ more, s.owners = O ++ more

theorem Accounted.perm {s : TState τ U} {X Y : List Nat} (h : Accounted s X) (p : X.Perm Y) : Accounted s Y where
  nodup := (p.append_left s.owned).nodup_iff.1 h.nodup
  live i := (h.live i).trans (p.append_left s.owned).mem_iff
  bound i hi := h.bound i ((p.append_left s.owned).mem_iff.2 hi)

theorem TabsHeld.perm {O : List (Option Nat)} {s : TState τ U} {X Y : List Nat} (h : TabsHeld O X s) (p : X.Perm Y) : TabsHeld O Y s :=
  ⟨h.1.perm p, h.2⟩

variable {O : List (Option Nat)} {X : List Nat} {E : TState τ U → Prop}

theorem TabsHeld.alive {s : TState τ U} (h : TabsHeld O X s) {i : Nat} (hi : i ∈ O.filterMap id ++ X) : ∃ v, s.tabs.live i = some v := by
  obtain ⟨more, e⟩ := h.2
  have : i ∈ s.owned ++ X := by
    rw [List.mem_append] at hi ⊢
    rcases hi with hi | hi
    · left; rw [TState.owned, e, List.filterMap_append]; exact List.mem_append_left _ hi
    · exact .inr hi
  exact Option.isSome_iff_exists.1 ((h.1.live i).2 this)

theorem readBox_held {i : Nat} (hi : i ∈ O.filterMap id ++ X) :
    Triple (U := U) (TabsHeld O X) (readBox (τ := τ) i) (fun _ => TabsHeld O X) E := by
  intro s hs
  obtain ⟨v, hv⟩ := hs.alive hi
  exact .inl ⟨v, s, by simp only [readBox, hv], hs⟩

theorem runData_held (d : Data U α) : Triple (τ := τ) (TabsHeld O X) (runData d) (fun _ => TabsHeld O X) (TabsHeld O X) := by
  intro s hs
  rcases e : d s.user with ⟨_ | a, u⟩
  · exact .inr ⟨.user, { s with user := u }, by simp only [runData, e], ⟨hs.1.nodup, hs.1.live, hs.1.bound⟩, hs.2⟩
  · exact .inl ⟨a, { s with user := u }, by simp only [runData, e], ⟨hs.1.nodup, hs.1.live, hs.1.bound⟩, hs.2⟩

theorem newBox_held (v : τ) : Triple (U := U) (TabsHeld O X) (newBox v) (fun j => TabsHeld O (j :: X)) E := by
  intro s hs
  refine .inl ⟨_, _, rfl, ?_, hs.2⟩
  have hp : (s.owned ++ s.tabs.next :: X).Perm (s.tabs.next :: (s.owned ++ X)) := List.perm_middle
  have hn : s.tabs.next ∉ s.owned ++ X := fun h => Nat.lt_irrefl _ (hs.1.bound _ h)
  refine ⟨hp.nodup_iff.2 (List.nodup_cons.2 ⟨hn, hs.1.nodup⟩), fun i => ?_, fun i hi => ?_⟩
  · refine Iff.trans ?_ hp.mem_iff.symm
    rw [List.mem_cons, ← hs.1.live i]
    show (if i = s.tabs.next then some v else s.tabs.live i).isSome ↔ _
    by_cases h : i = s.tabs.next <;> simp [h]
  · rcases List.mem_cons.1 (hp.mem_iff.1 hi) with h | h
    · rw [h]; exact Nat.lt_succ_self _
    · exact Nat.lt_succ_of_lt (hs.1.bound i h)

theorem freeBox_held (i : Nat) : Triple (U := U) (τ := τ) (TabsHeld O (i :: X)) (freeBox i) (fun _ => TabsHeld O X) E := by
  intro s hs
  have hp : (s.owned ++ i :: X).Perm (i :: (s.owned ++ X)) := List.perm_middle
  have hn := List.nodup_cons.1 (hp.nodup_iff.1 hs.1.nodup)
  obtain ⟨v, hv⟩ := hs.alive (i := i) (List.mem_append_right _ List.mem_cons_self)
  refine .inl ⟨(), { s with tabs := { s.tabs with live := fun j => if j = i then none else s.tabs.live j } }, by simp only [freeBox, hv], ⟨hn.2, fun j => ?_, fun j hj => hs.1.bound j (hp.mem_iff.2 (List.mem_cons_of_mem _ hj))⟩, hs.2⟩
  show (if j = i then none else s.tabs.live j).isSome ↔ j ∈ s.owned ++ X
  by_cases h : j = i
  · subst h; simpa using fun h' => hn.1 (List.mem_append.2 h')
  · rw [if_neg h, hs.1.live j, hp.mem_iff, List.mem_cons]
    exact ⟨fun h' => h'.resolve_left h, .inr⟩

theorem bindOwner_held (i : Nat) : Triple (U := U) (τ := τ) (TabsHeld O (i :: X)) (bindOwner i) (fun _ => TabsHeld O X) E := by
  intro s hs
  obtain ⟨more, e⟩ := hs.2
  refine .inl ⟨(), _, rfl, ?_, more ++ [some i], by show s.owners ++ [some i] = _; rw [e, List.append_assoc]⟩
  have eo : (TState.owned { s with owners := s.owners ++ [some i] } ++ X) = s.owned ++ i :: X := by
    simp [TState.owned, List.filterMap_append]
  exact ⟨by rw [eo]; exact hs.1.nodup, fun j => by rw [eo]; exact hs.1.live j, fun j hj => hs.1.bound j (by rw [← eo]; exact hj)⟩

theorem cloneTable_held (F : TabFns τ U) {i : Nat} (hi : i ∈ O.filterMap id ++ X) :
    Triple (TabsHeld O X) (cloneTable F i) (fun _ => TabsHeld O X) (TabsHeld O X) :=
  Triple.bind (readBox_held hi) fun v => runData_held (F.clone v)

theorem cloneBox_held (F : TabFns τ U) {i : Nat} (hi : i ∈ O.filterMap id ++ X) :
    Triple (TabsHeld O X) (cloneBox F i) (fun j => TabsHeld O (j :: X)) (TabsHeld O X) :=
  Triple.bind (cloneTable_held F hi) fun v => newBox_held v

/-! ### `VTableRef` -/

/-- The box a reference owns. -/
def TRef.held : TRef → List Nat
  | ref _ => []
  | box i => [i]

/-- A borrowed table belongs to somebody else. -/
def TRef.Valid (O : List (Option Nat)) (X : List Nat) : TRef → Prop
  | ref i => i ∈ O.filterMap _root_.id ++ X
  | box _ => True

theorem TRef.Valid.mem {r : TRef} (h : r.Valid O X) : r.id ∈ O.filterMap _root_.id ++ (r.held ++ X) := by
  cases r with
  | ref i => exact h
  | box i => exact List.mem_append_right _ List.mem_cons_self

theorem TRef.drop_held (r : TRef) : Triple (U := U) (τ := τ) (TabsHeld O (r.held ++ X)) r.drop (fun _ => TabsHeld O X) E := by
  cases r with
  | ref i => exact Triple.pure (Q := fun _ => TabsHeld O X) ()
  | box i => exact freeBox_held i

theorem TRef.take_held (F : TabFns τ U) {r : TRef} (h : r.Valid O X) :
    Triple (TabsHeld O (r.held ++ X)) (r.take F) (fun _ => TabsHeld O X) (TabsHeld O X) := by
  cases r with
  | ref i => exact cloneTable_held F h
  | box i =>
    exact Triple.bind (readBox_held (List.mem_append_right _ List.mem_cons_self)) fun v =>
      Triple.bind (freeBox_held i) fun _ => Triple.pure (Q := fun _ => TabsHeld O X) v

theorem TRef.intoOwned_held (F : TabFns τ U) {r : TRef} (h : r.Valid O X) :
    Triple (TabsHeld O (r.held ++ X)) (r.intoOwned F) (fun j => TabsHeld O (j :: X)) (TabsHeld O X) := by
  cases r with
  | ref i => exact cloneBox_held F h
  | box i => exact Triple.pure (Q := fun j => TabsHeld O (j :: X)) i

/-- A clone of a reference borrows the same table or owns a new one. -/
theorem TRef.clone_held (F : TabFns τ U) {r : TRef} (h : r.Valid O X) :
    Triple (TabsHeld O (r.held ++ X)) (r.clone F) (fun c s => c.Valid O (r.held ++ X) ∧ TabsHeld O (c.held ++ (r.held ++ X)) s)
      (TabsHeld O (r.held ++ X)) := by
  cases r with
  | ref i => exact fun s hs => .inl ⟨.ref i, s, rfl, h, hs⟩
  | box i =>
    refine Triple.bind (cloneBox_held F (List.mem_append_right _ List.mem_cons_self)) fun j => ?_
    exact fun s hs => .inl ⟨.box j, s, rfl, trivial, hs⟩

theorem withTypeFromRef_held (F : TabFns τ U) (d : Data U Unit) {r : TRef} (h : r.Valid O X) :
    Triple (TabsHeld O (r.held ++ X)) (withTypeFromRef F d r) (fun j => TabsHeld O (j :: X)) (TabsHeld O X) :=
  Triple.bind (Triple.onUnwind (runData_held d) r.drop_held) fun _ => r.intoOwned_held F h

theorem cloneOwned_held (F : TabFns τ U) (d : Data U Unit) {i : Nat} (hi : i ∈ O.filterMap id ++ X) :
    Triple (TabsHeld O X) (cloneOwned F d i) (fun j => TabsHeld O (j :: X)) (TabsHeld O X) :=
  Triple.bind (readBox_held hi) fun _ => Triple.bind (runData_held d) fun _ => cloneBox_held F hi

/-! ### View programs -/

theorem Triple.and_pre {p : Prop} {P : TState τ U → Prop} {m : M (TState τ U) α} {Q : α → TState τ U → Prop}
    (h : p → Triple P m Q E) : Triple (fun s => p ∧ P s) m Q E := fun s hs => h hs.1 s hs.2

theorem VP.run_held (F : TabFns τ U) (p : VP U) : ∀ {X : List Nat} {r : TRef}, r.Valid O X →
    Triple (TabsHeld O (r.held ++ X)) (p.run F r) (fun _ => TabsHeld O X) (TabsHeld O X) := by
  induction p with
  | drop => intro X r _; exact r.drop_held
  | use d k ih =>
    intro X r h
    exact Triple.bind (Triple.onUnwind (Triple.bind (readBox_held h.mem) fun _ => runData_held d) r.drop_held) fun _ => ih h
  | sub d p k ihp ihk =>
    intro X r h
    refine Triple.bind (Triple.onUnwind (Triple.bind (readBox_held h.mem) fun _ =>
      Triple.bind (runData_held d) fun _ => ?_) r.drop_held) fun _ => ihk h
    exact ihp (r := .ref r.id) (X := r.held ++ X) h.mem
  | upRef p k ihp ihk =>
    intro X r h
    refine Triple.bind (Triple.onUnwind (Triple.bind (cloneTable_held F h.mem) fun v =>
      Triple.bind (runData_held (F.conv v)) fun w => Triple.bind (newBox_held w) fun j => ?_) r.drop_held) fun _ => ihk h
    exact ihp (r := .box j) (X := r.held ++ X) trivial
  | up k ih =>
    intro X r h
    refine Triple.bind (r.take_held F h) fun v => Triple.bind (runData_held (F.conv v)) fun w =>
      Triple.bind (newBox_held w) fun j => ?_
    exact ih (r := .box j) trivial
  | dup p k ihp ihk =>
    intro X r h
    refine Triple.bind (Triple.onUnwind (Triple.bind (r.clone_held F h) fun c => ?_) r.drop_held) fun _ => ihk h
    exact Triple.and_pre fun hc => ihp hc
  | move d k ih =>
    intro X r h
    exact Triple.bind (Triple.onUnwind (runData_held d) r.drop_held) fun _ => ih h
  | each n p ih =>
    intro X r h
    refine Triple.thenDrop (Triple.repeatN (Triple.bind (r.clone_held F h) fun c => ?_) n) (fun _ => r.drop_held) r.drop_held
    exact Triple.and_pre fun hc => ih hc
  | own d =>
    intro X r h
    exact Triple.bind (withTypeFromRef_held F d h) fun j => bindOwner_held j
  | cloneOwn d k ih =>
    intro X r h
    refine Triple.bind (Triple.onUnwind (Triple.bind (cloneOwned_held F d h.mem) fun j => bindOwner_held j) r.drop_held) fun _ => ih h
  | fail =>
    intro X r h
    exact Triple.bind r.drop_held fun _ s hs => .inr ⟨_, s, rfl, hs⟩

/-! ### Owners -/

theorem filterMap_set {k i : Nat} : ∀ {l : List (Option Nat)}, l[k]? = some (some i) →
    (l.filterMap id).Perm (i :: (l.set k none).filterMap id) := by
  induction k with
  | zero =>
    intro l h
    cases l with
    | nil => simp at h
    | cons a l => simp at h; subst h; simp
  | succ k ih =>
    intro l h
    cases l with
    | nil => simp at h
    | cons a l =>
      simp only [List.getElem?_cons_succ] at h
      have := ih h
      cases a with
      | none => simpa using this
      | some b =>
        simp only [List.set_cons_succ, List.filterMap_cons, id]
        exact (this.cons b).trans (List.Perm.swap _ _ _)

theorem Accounted.moved {s : TState τ U} {k i : Nat} (h : Accounted s X) (hk : s.owners[k]? = some (some i)) :
    TabsHeld (s.owners.set k none) (i :: X) { s with owners := s.owners.set k none } := by
  have hp : (s.owned ++ X).Perm ((s.owners.set k none).filterMap id ++ i :: X) :=
    ((filterMap_set hk).append_right X).trans List.perm_middle.symm
  exact ⟨⟨hp.nodup_iff.1 h.nodup, fun j => (h.live j).trans hp.mem_iff, fun j hj => h.bound j (hp.mem_iff.2 hj)⟩, [], by simp⟩

theorem Accounted.held {s : TState τ U} (h : Accounted s X) : TabsHeld s.owners X s := ⟨h, [], by simp⟩

/-- What an operation may do: return, or panic and lose `n` tables. -/
def Outcome (X : List Nat) (n : Nat) (o : Res Unit × TState τ U) : Prop :=
  (o.1 = .ok () ∧ Accounted o.2 X) ∨ ∃ y lost, o.1 = .panic y ∧ lost.length = n ∧ Accounted o.2 (lost ++ X)

theorem consume_outcome {s : TState τ U} (h : Accounted s X) (k : Nat) {f : Nat → M (TState τ U) (Option Nat)} {n : Nat}
    (hf : ∀ i O, Triple (TabsHeld O (i :: X)) (f i) (fun j => TabsHeld O (j.toList ++ X))
      (fun s => ∃ lost : List Nat, lost.length = n ∧ TabsHeld O (lost ++ X) s)) :
    Outcome X n (consume k f s) := by
  unfold consume
  simp only []
  split
  · rename_i i hk
    have t : Triple (TabsHeld (s.owners.set k none) (i :: X)) (f i >>= bindResult)
        (fun _ => TabsHeld (s.owners.set k none) X) (fun s' => ∃ lost : List Nat, lost.length = n ∧ TabsHeld (s.owners.set k none) (lost ++ X) s') := by
      refine Triple.bind (hf i _) fun j => ?_
      cases j with
      | none => exact Triple.pure (Q := fun _ => TabsHeld (s.owners.set k none) X) ()
      | some j => exact bindOwner_held j
    rcases t _ (h.moved hk) with ⟨a, s', e, q⟩ | ⟨y, s', e, lost, hl, q⟩
    · rw [e]; exact .inl ⟨rfl, q.1⟩
    · rw [e]; exact .inr ⟨y, lost, rfl, hl, q.1⟩
  · exact .inl ⟨rfl, h⟩

theorem borrow_outcome {s : TState τ U} (h : Accounted s X) (k : Nat) {f : Nat → M (TState τ U) Unit}
    (hf : ∀ i O, i ∈ O.filterMap id ++ X → Triple (TabsHeld O X) (f i) (fun _ => TabsHeld O X) (TabsHeld O X)) :
    Outcome X 0 (borrow k f s) := by
  unfold borrow
  simp only []
  split
  · rename_i i hk
    have hm : i ∈ s.owners.filterMap id ++ X :=
      List.mem_append_left _ (List.mem_filterMap.2 ⟨some i, List.mem_of_getElem? hk, rfl⟩)
    rcases hf i s.owners hm s h.held with ⟨a, s', e, q⟩ | ⟨y, s', e, q⟩
    · rw [e]; exact .inl ⟨rfl, q.1⟩
    · rw [e]; exact .inr ⟨y, [], rfl, rfl, q.1⟩
  · exact .inl ⟨rfl, h⟩

theorem direct_outcome {s : TState τ U} (h : Accounted s X) {m : M (TState τ U) Unit}
    (hm : ∀ O, Triple (TabsHeld O X) m (fun _ => TabsHeld O X) (TabsHeld O X)) : Outcome X 0 (m s) := by
  rcases hm s.owners s h.held with ⟨a, s', e, q⟩ | ⟨y, s', e, q⟩
  · rw [e]; exact .inl ⟨rfl, q.1⟩
  · rw [e]; exact .inr ⟨y, [], rfl, rfl, q.1⟩

theorem freeThen_held {n : Nat} (i : Nat) : Triple (U := U) (τ := τ) (TabsHeld O (i :: X)) (do freeBox i; pure none)
    (fun j : Option Nat => TabsHeld O (j.toList ++ X)) (fun s => ∃ lost : List Nat, lost.length = n ∧ TabsHeld O (lost ++ X) s) :=
  Triple.bind (freeBox_held i) fun _ => Triple.pure (Q := fun j : Option Nat => TabsHeld O (j.toList ++ X)) none

theorem dropDyn_held (d : Data U Unit) (i : Nat) : Triple (τ := τ) (TabsHeld O (i :: X)) (do dropDynOwner d i; pure none)
    (fun j : Option Nat => TabsHeld O (j.toList ++ X)) (fun s => ∃ lost : List Nat, lost.length = 1 ∧ TabsHeld O (lost ++ X) s) := by
  refine Triple.bind (Q := fun _ => TabsHeld O X) (Triple.bind (readBox_held (List.mem_append_right _ List.mem_cons_self)) fun _ =>
    Triple.bind (Q := fun _ => TabsHeld O (i :: X)) ?_ fun _ => freeBox_held i) fun _ => Triple.pure (Q := fun j : Option Nat => TabsHeld O (j.toList ++ X)) none
  exact Triple.post (runData_held d) (fun _ _ h => h) fun s h => ⟨[i], rfl, h⟩

/-- The outcome of every operation. -/
theorem TOp.run_outcome (F : TabFns τ U) (op : TOp U) {s : TState τ U} (h : Accounted s X) :
    ∃ n, Outcome X n (op.run F s) ∧ ∀ y, op.losses (.panic y) = n := by
  cases op with
  | create d =>
    exact ⟨0, direct_outcome h fun O => Triple.bind (Triple.bind (runData_held d) fun _ =>
      Triple.bind (runData_held F.build) fun v => newBox_held v) fun j => bindOwner_held j, fun _ => rfl⟩
  | clone k d =>
    exact ⟨0, borrow_outcome h k fun i O hi => Triple.bind (cloneOwned_held F d hi) fun j => bindOwner_held j, fun _ => rfl⟩
  | typeFrom k d =>
    exact ⟨0, borrow_outcome h k fun i O hi => Triple.bind (withTypeFromRef_held (r := .ref i) F d hi) fun j => bindOwner_held j, fun _ => rfl⟩
  | upcastVec k =>
    refine ⟨0, consume_outcome h k fun i O => ?_, fun _ => rfl⟩
    refine Triple.bind (Q := fun j => TabsHeld O (j :: X)) ?_ fun j => Triple.pure (Q := fun j : Option Nat => TabsHeld O (j.toList ++ X)) (some j)
    refine Triple.post (Q := fun j => TabsHeld O (j :: X)) (E := TabsHeld O X) ?_ (fun _ _ h => h) fun s h => ⟨[], rfl, h⟩
    refine Triple.thenDrop (Q := fun j => TabsHeld O (i :: j :: X)) (Triple.bind (cloneTable_held F (List.mem_append_right _ List.mem_cons_self)) fun v =>
      Triple.bind (runData_held (F.conv v)) fun w => ?_) (fun j => freeBox_held i) (freeBox_held i)
    exact Triple.post (E := fun _ => False) (newBox_held w) (fun j s hs => hs.perm (List.Perm.swap _ _ _)) (fun _ h => h.elim)
  | upcastVal k =>
    refine ⟨1, consume_outcome h k fun i O => ?_, fun _ => rfl⟩
    refine Triple.bind (Q := fun j => TabsHeld O (j :: X)) ?_ fun j => Triple.pure (Q := fun j : Option Nat => TabsHeld O (j.toList ++ X)) (some j)
    refine Triple.post (Q := fun j => TabsHeld O (j :: X)) (E := TabsHeld O (i :: X)) ?_ (fun _ _ h => h) fun s h => ⟨[i], rfl, h⟩
    refine Triple.bind (cloneTable_held F (List.mem_append_right _ List.mem_cons_self)) fun v =>
      Triple.bind (runData_held (F.conv v)) fun w => Triple.bind (newBox_held w) fun j => ?_
    refine Triple.bind (Q := fun _ => TabsHeld O (j :: X)) ?_ fun _ => Triple.pure (Q := fun j => TabsHeld O (j :: X)) j
    exact Triple.pre (freeBox_held i) fun s hs => hs.perm (List.Perm.swap _ _ _)
  | dropCopy k => exact ⟨0, consume_outcome h k fun i O => freeThen_held i, fun _ => rfl⟩
  | dropDyn k d => exact ⟨1, consume_outcome h k fun i O => dropDyn_held d i, fun _ => rfl⟩
  | dissolve k => exact ⟨0, consume_outcome h k fun i O => freeThen_held i, fun _ => rfl⟩
  | push same k d =>
    cases same with
    | true =>
      refine ⟨0, consume_outcome h k fun i O => ?_, fun _ => rfl⟩
      refine Triple.bind (Q := fun _ => TabsHeld O X) (Triple.bind (freeBox_held i) fun _ => ?_) fun _ =>
        Triple.pure (Q := fun j : Option Nat => TabsHeld O (j.toList ++ X)) none
      exact Triple.post (runData_held d) (fun _ _ h => h) fun s h => ⟨[], rfl, h⟩
    | false => exact ⟨1, consume_outcome h k fun i O => dropDyn_held d i, fun _ => rfl⟩
  | assign k d => exact ⟨1, consume_outcome h k fun i O => dropDyn_held d i, fun _ => rfl⟩
  | roundTrip found k =>
    refine ⟨0, consume_outcome h k fun i O => ?_, fun _ => rfl⟩
    refine Triple.bind (Q := fun j => TabsHeld O (j :: X)) ?_ fun j => Triple.pure (Q := fun j : Option Nat => TabsHeld O (j.toList ++ X)) (some j)
    cases found with
    | true => exact Triple.pure (Q := fun j => TabsHeld O (j :: X)) i
    | false => exact Triple.bind (freeBox_held i) fun _ s hs => .inr ⟨_, s, rfl, [], rfl, hs⟩
  | use k d => exact ⟨0, borrow_outcome h k fun i O hi => Triple.bind (readBox_held hi) fun _ => runData_held d, fun _ => rfl⟩
  | view k p => exact ⟨0, borrow_outcome h k fun i O hi => p.run_held F (r := .ref i) hi, fun _ => rfl⟩
  | valueRef k p =>
    exact ⟨0, borrow_outcome h k fun i O hi => Triple.bind (cloneBox_held F hi) fun j => p.run_held F (r := .box j) trivial, fun _ => rfl⟩
  | newView p =>
    exact ⟨0, direct_outcome h fun O => Triple.bind (runData_held F.build) fun v => Triple.bind (newBox_held v) fun j =>
      p.run_held F (r := .box j) trivial, fun _ => rfl⟩

/-! ### Tables are never changed -/

theorem TablesKept.refl (s : TState τ U) : TablesKept s s := ⟨Nat.le_refl _, fun _ _ => .inr rfl⟩

theorem TablesKept.trans {s t u : TState τ U} (h : TablesKept s t) (k : TablesKept t u) : TablesKept s u := by
  refine ⟨Nat.le_trans h.1 k.1, fun i hi => ?_⟩
  rcases k.2 i (Nat.lt_of_lt_of_le hi h.1) with e | e
  · exact .inl e
  · rw [e]; exact h.2 i hi

/-- Code that keeps tables. -/
def Keeps (m : M (TState τ U) α) : Prop := ∀ s, TablesKept s (m s).2

theorem Keeps.pure (a : α) : Keeps (τ := τ) (U := U) (pure a) := fun s => .refl s

theorem Keeps.panic (y : Why) : Keeps (τ := τ) (U := U) (M.panic y : M _ α) := fun s => .refl s

theorem Keeps.bind {m : M (TState τ U) α} {f : α → M (TState τ U) β} (h : Keeps m) (hf : ∀ a, Keeps (f a)) : Keeps (m >>= f) := by
  intro s
  have h1 := h s
  rw [M.bind_run]
  generalize m s = o at h1 ⊢
  rcases o with ⟨r, s'⟩
  cases r with
  | ok a => exact h1.trans (hf a s')
  | panic y => exact h1
  | ub => exact h1
  | abort => exact h1

theorem Keeps.onUnwind {m : M (TState τ U) α} {d : M (TState τ U) Unit} (h : Keeps m) (hd : Keeps d) : Keeps (M.onUnwind m d) := by
  intro s
  have h1 := h s
  simp only [M.onUnwind, M.unwindDrop]
  generalize m s = o at h1 ⊢
  rcases o with ⟨r, s'⟩
  cases r with
  | panic y =>
    refine h1.trans ?_
    have h2 := hd s'
    simp only []
    generalize d s' = o' at h2 ⊢
    rcases o' with ⟨_ | _ | _ | _, s''⟩ <;> exact h2
  | _ => exact h1

theorem Keeps.thenDrop {m : M (TState τ U) α} {d : M (TState τ U) Unit} (h : Keeps m) (hd : Keeps d) : Keeps (M.thenDrop m d) := by
  intro s
  have h1 := h s
  simp only [M.thenDrop]
  generalize m s = o at h1 ⊢
  rcases o with ⟨r, s'⟩
  have h2 := hd s'
  cases r with
  | panic y =>
    refine h1.trans ?_
    simp only []
    generalize d s' = o' at h2 ⊢
    rcases o' with ⟨_ | _ | _ | _, s''⟩ <;> exact h2
  | ok a =>
    refine h1.trans ?_
    simp only []
    generalize d s' = o' at h2 ⊢
    rcases o' with ⟨_ | _ | _ | _, s''⟩ <;> exact h2
  | _ => exact h1

theorem Keeps.repeatN {m : M (TState τ U) Unit} (h : Keeps m) (n : Nat) : Keeps (M.repeatN n m) := by
  induction n with
  | zero => exact Keeps.pure ()
  | succ n ih => exact Keeps.bind h fun _ => ih

theorem runData_keeps (d : Data U α) : Keeps (τ := τ) (runData d) := by
  intro s
  simp only [runData]
  split <;> exact TablesKept.refl s

theorem readBox_keeps (i : Nat) : Keeps (U := U) (τ := τ) (readBox i) := by
  intro s
  simp only [readBox]
  split <;> exact TablesKept.refl s

theorem freeBox_keeps (i : Nat) : Keeps (U := U) (τ := τ) (freeBox i) := by
  intro s
  simp only [freeBox]
  split
  · refine ⟨Nat.le_refl _, fun j _ => ?_⟩
    show (if j = i then none else s.tabs.live j) = none ∨ (if j = i then none else s.tabs.live j) = s.tabs.live j
    by_cases h : j = i <;> simp [h]
  · exact TablesKept.refl s

theorem newBox_keeps (v : τ) : Keeps (U := U) (newBox v) := by
  intro s
  refine ⟨Nat.le_succ _, fun j hj => .inr ?_⟩
  exact if_neg (Nat.ne_of_lt hj)

theorem bindOwner_keeps (i : Nat) : Keeps (U := U) (τ := τ) (bindOwner i) := fun s => .refl s

theorem cloneTable_keeps (F : TabFns τ U) (i : Nat) : Keeps (cloneTable F i) :=
  (readBox_keeps i).bind fun v => runData_keeps (F.clone v)

theorem cloneBox_keeps (F : TabFns τ U) (i : Nat) : Keeps (cloneBox F i) := (cloneTable_keeps F i).bind newBox_keeps

theorem TRef.drop_keeps (r : TRef) : Keeps (U := U) (τ := τ) r.drop := by
  cases r with
  | ref i => exact Keeps.pure ()
  | box i => exact freeBox_keeps i

theorem TRef.clone_keeps (F : TabFns τ U) (r : TRef) : Keeps (r.clone F) := by
  cases r with
  | ref i => exact Keeps.pure _
  | box i => exact (cloneBox_keeps F i).bind fun j => Keeps.pure _

theorem TRef.take_keeps (F : TabFns τ U) (r : TRef) : Keeps (r.take F) := by
  cases r with
  | ref i => exact cloneTable_keeps F i
  | box i => exact (readBox_keeps i).bind fun v => (freeBox_keeps i).bind fun _ => Keeps.pure v

theorem TRef.intoOwned_keeps (F : TabFns τ U) (r : TRef) : Keeps (r.intoOwned F) := by
  cases r with
  | ref i => exact cloneBox_keeps F i
  | box i => exact Keeps.pure i

theorem withTypeFromRef_keeps (F : TabFns τ U) (d : Data U Unit) (r : TRef) : Keeps (withTypeFromRef F d r) :=
  ((runData_keeps d).onUnwind r.drop_keeps).bind fun _ => r.intoOwned_keeps F

theorem cloneOwned_keeps (F : TabFns τ U) (d : Data U Unit) (i : Nat) : Keeps (cloneOwned F d i) :=
  (readBox_keeps i).bind fun _ => (runData_keeps d).bind fun _ => cloneBox_keeps F i

theorem VP.run_keeps (F : TabFns τ U) (p : VP U) : ∀ r : TRef, Keeps (p.run F r) := by
  induction p with
  | drop => exact fun r => r.drop_keeps
  | use d k ih => exact fun r => (((readBox_keeps _).bind fun _ => runData_keeps d).onUnwind r.drop_keeps).bind fun _ => ih r
  | sub d p k ihp ihk =>
    exact fun r => (((readBox_keeps _).bind fun _ => (runData_keeps d).bind fun _ => ihp _).onUnwind r.drop_keeps).bind fun _ => ihk r
  | upRef p k ihp ihk =>
    exact fun r => (((cloneTable_keeps F _).bind fun v => (runData_keeps (F.conv v)).bind fun w =>
      (newBox_keeps w).bind fun j => ihp _).onUnwind r.drop_keeps).bind fun _ => ihk r
  | up k ih => exact fun r => (r.take_keeps F).bind fun v => (runData_keeps (F.conv v)).bind fun w => (newBox_keeps w).bind fun j => ih _
  | dup p k ihp ihk => exact fun r => (((r.clone_keeps F).bind fun c => ihp c).onUnwind r.drop_keeps).bind fun _ => ihk r
  | move d k ih => exact fun r => ((runData_keeps d).onUnwind r.drop_keeps).bind fun _ => ih r
  | each n p ih => exact fun r => (((r.clone_keeps F).bind fun c => ih c).repeatN n).thenDrop r.drop_keeps
  | own d => exact fun r => (withTypeFromRef_keeps F d r).bind fun j => bindOwner_keeps j
  | cloneOwn d k ih =>
    exact fun r => (((cloneOwned_keeps F d _).bind fun j => bindOwner_keeps j).onUnwind r.drop_keeps).bind fun _ => ih r
  | fail => exact fun r => r.drop_keeps.bind fun _ => Keeps.panic _

theorem bindResult_keeps (j : Option Nat) : Keeps (U := U) (τ := τ) (bindResult j) := by
  cases j with
  | none => exact Keeps.pure ()
  | some j => exact bindOwner_keeps j

theorem consume_keeps (k : Nat) {f : Nat → M (TState τ U) (Option Nat)} (h : ∀ i, Keeps (f i)) : Keeps (consume k f) := by
  intro s
  simp only [consume]
  split
  · exact (h _).bind bindResult_keeps { s with owners := s.owners.set k none }
  · exact TablesKept.refl s

theorem borrow_keeps (k : Nat) {f : Nat → M (TState τ U) Unit} (h : ∀ i, Keeps (f i)) : Keeps (borrow k f) := by
  intro s
  simp only [borrow]
  split
  · exact h _ s
  · exact TablesKept.refl s

theorem dropDynOwner_keeps (d : Data U Unit) (i : Nat) : Keeps (τ := τ) (dropDynOwner d i) :=
  (readBox_keeps i).bind fun _ => (runData_keeps d).bind fun _ => freeBox_keeps i

theorem TOp.run_keeps (F : TabFns τ U) (op : TOp U) : Keeps (op.run F) := by
  cases op with
  | create d => exact ((runData_keeps d).bind fun _ => (runData_keeps F.build).bind newBox_keeps).bind bindOwner_keeps
  | clone k d => exact borrow_keeps k fun i => (cloneOwned_keeps F d i).bind bindOwner_keeps
  | typeFrom k d => exact borrow_keeps k fun i => (withTypeFromRef_keeps F d _).bind bindOwner_keeps
  | upcastVec k =>
    exact consume_keeps k fun i => (((cloneTable_keeps F i).bind fun v => (runData_keeps (F.conv v)).bind newBox_keeps).thenDrop
      (freeBox_keeps i)).bind fun j => Keeps.pure _
  | upcastVal k =>
    exact consume_keeps k fun i => ((cloneTable_keeps F i).bind fun v => (runData_keeps (F.conv v)).bind fun w =>
      (newBox_keeps w).bind fun j => (freeBox_keeps i).bind fun _ => Keeps.pure _).bind fun j => Keeps.pure _
  | dropCopy k => exact consume_keeps k fun i => (freeBox_keeps i).bind fun _ => Keeps.pure _
  | dropDyn k d => exact consume_keeps k fun i => (dropDynOwner_keeps d i).bind fun _ => Keeps.pure _
  | dissolve k => exact consume_keeps k fun i => (freeBox_keeps i).bind fun _ => Keeps.pure _
  | push same k d =>
    refine consume_keeps k fun i => Keeps.bind ?_ fun _ => Keeps.pure _
    cases same with
    | true => exact (freeBox_keeps i).bind fun _ => runData_keeps d
    | false => exact dropDynOwner_keeps d i
  | assign k d => exact consume_keeps k fun i => (dropDynOwner_keeps d i).bind fun _ => Keeps.pure _
  | roundTrip found k =>
    refine consume_keeps k fun i => Keeps.bind ?_ fun _ => Keeps.pure _
    cases found with
    | true => exact Keeps.pure i
    | false => exact (freeBox_keeps i).bind fun _ => Keeps.panic _
  | use k d => exact borrow_keeps k fun i => (readBox_keeps i).bind fun _ => runData_keeps d
  | view k p => exact borrow_keeps k fun i => p.run_keeps F _
  | valueRef k p => exact borrow_keeps k fun i => (cloneBox_keeps F i).bind fun j => p.run_keeps F _
  | newView p => exact (runData_keeps F.build).bind fun v => (newBox_keeps v).bind fun j => p.run_keeps F _

end Dync
