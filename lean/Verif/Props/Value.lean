import Verif.Props.ExampleDyn
/-!
# Properties of untyped values (`BoxValue`, `SmallValue`, `ValueRef`, `ValueMut`)
-/
namespace Dync
variable {U V W B : Type} {Γ : TyEnv U} {w : World U} {t t' : TyId} {x x' : Bytes}

/-! ### C36: the builtin tables -/

/-- Every builtin table built for `t` drops with the destructor of `t`. -/
theorem C36_builtin_drop (Γ : TyEnv U) (t : TyId) (vt : V) :
    LawfulDrop Γ t (DropVTable.build Γ t) ∧ LawfulDrop Γ t (CloneVTable.build Γ t) ∧
    LawfulDrop Γ t (PartialEqVTable.build Γ t) ∧ LawfulDrop Γ t (EqVTable.build Γ t) ∧
    LawfulDrop Γ t (HashVTable.build Γ t) ∧ LawfulDrop Γ t (DebugVTable.build Γ t) ∧
    LawfulDrop Γ t (SendVTable.build Γ t) ∧ LawfulDrop Γ t (SyncVTable.build Γ t) ∧
    LawfulDrop Γ t (pairBuild Γ t vt) :=
  ⟨lawfulDrop_of rfl, lawfulDrop_of rfl, lawfulDrop_of rfl, lawfulDrop_of rfl, lawfulDrop_of rfl,
    lawfulDrop_of rfl, lawfulDrop_of rfl, lawfulDrop_of rfl, lawfulDrop_of rfl⟩

/-- The clone, equality, hash and format entries of the builtin tables are those of `t`; a pair
table `(DropFn, V)` forwards to `V`. -/
theorem C36_builtin_functions (Γ : TyEnv U) (t : TyId) :
    LawfulClone Γ t (CloneVTable.build Γ t) ∧ LawfulEq Γ t (PartialEqVTable.build Γ t) ∧
    LawfulEq Γ t (EqVTable.build Γ t) ∧ LawfulHash Γ t (HashVTable.build Γ t) ∧
    LawfulDebug Γ t (DebugVTable.build Γ t) ∧
    (∀ d : DropFn U, LawfulClone Γ t (d, CloneVTable.build Γ t) ∧
      LawfulEq Γ t (d, PartialEqVTable.build Γ t) ∧ LawfulHash Γ t (d, HashVTable.build Γ t) ∧
      LawfulDebug Γ t (d, DebugVTable.build Γ t)) :=
  ⟨lawfulClone_of rfl rfl rfl, lawfulEq_of rfl, lawfulEq_of rfl, lawfulHash_of rfl, lawfulDebug_of rfl,
    fun _ => ⟨lawfulClone_of rfl rfl rfl, lawfulEq_of rfl, lawfulHash_of rfl, lawfulDebug_of rfl⟩⟩

example := C36_builtin_functions Ex.env 10

/-! ### C30: equality of values -/

/-- Comparing two values never panics and is true exactly if the types agree and the elements are
equal under `==` of that type. Values of different types are compared without calling user code. -/
theorem C30_value_ref_eq [HasPartialEq V] {a b : ValueRef V} (ha : IsRef Γ t x a) (hb : IsRef Γ t' x' b)
    (hl : LawfulEq Γ t a.vtable) :
    ∃ r, ValueRef.eq a b = .ok r ∧ (r = true ↔ t = t' ∧ Γ.eq t x x' = true) := by
  by_cases h : t = t'
  · subst h
    refine ⟨Γ.eq t x x', ?_, by simp⟩
    simp only [ValueRef.eq, ha.type_id, hb.type_id, ha.bytes, hb.bytes]
    simp [hl x x' ha.length hb.length]
  · refine ⟨false, ?_, by simp [h]⟩
    simp only [ValueRef.eq, ha.type_id, hb.type_id]
    simp [h]

example := C30_value_ref_eq (Ex.ref_isRef (x := Ex.s1) (t := 10) (vt := Ex.eqVT 10) rfl)
  (Ex.ref_isRef (x := Ex.s2) (t := 10) (vt := Ex.eqVT 10) rfl) (Ex.eqVT_eq 10)

/-- Owned values compare like references to them. -/
theorem C30_value_eq [ByteBuf B] [HasPartialEq V] {a b : Value B V} (ha : IsRef Γ t x a.asRef)
    (hb : IsRef Γ t' x' b.asRef) (hl : LawfulEq Γ t a.vtable) :
    ∃ r, Value.eq a b = .ok r ∧ (r = true ↔ t = t' ∧ Γ.eq t x x' = true) :=
  C30_value_ref_eq ha hb hl

example := C30_value_eq (Ex.box_isBox (x := Ex.s1) (t := 10) (vt := Ex.eqVT 10) rfl (by decide)).asRef
  (Ex.box_isBox (x := Ex.g1) (t := 7) (vt := Ex.eqVT 7) rfl (by decide)).asRef (Ex.eqVT_eq 10)

/-- `==` on values is reflexive if the type's own `==` is. -/
theorem C30_value_eq_refl [ByteBuf B] [HasPartialEq V] {a : Value B V} (ha : IsRef Γ t x a.asRef)
    (hl : LawfulEq Γ t a.vtable) (hr : ∀ y, Γ.eq t y y = true) : Value.eq a a = .ok true := by
  obtain ⟨r, h1, h2⟩ := C30_value_eq ha ha hl
  rw [h1, h2.2 ⟨rfl, hr x⟩]

example := C30_value_eq_refl (Ex.box_isBox (x := Ex.s1) (t := 10) (vt := Ex.eqVT 10) rfl (by decide)).asRef
  (Ex.eqVT_eq 10) (fun y => by simp [Ex.env])

/-- `==` on values is symmetric if the type's own `==` is. -/
theorem C30_value_eq_symm [ByteBuf B] [HasPartialEq V] {a b : Value B V} (ha : IsRef Γ t x a.asRef)
    (hb : IsRef Γ t' x' b.asRef) (hl : LawfulEq Γ t a.vtable) (hl' : LawfulEq Γ t' b.vtable)
    (hs : ∀ y z, Γ.eq t y z = Γ.eq t z y) : Value.eq a b = Value.eq b a := by
  obtain ⟨r, h1, h2⟩ := C30_value_eq ha hb hl
  obtain ⟨r', h1', h2'⟩ := C30_value_eq hb ha hl'
  rw [h1, h1']
  congr 1
  rw [Bool.eq_iff_iff, h2, h2']
  constructor
  · rintro ⟨rfl, h⟩; exact ⟨rfl, by rw [← hs]; exact h⟩
  · rintro ⟨rfl, h⟩; exact ⟨rfl, by rw [hs]; exact h⟩

example := C30_value_eq_symm (Ex.box_isBox (x := Ex.s1) (t := 10) (vt := Ex.eqVT 10) rfl (by decide)).asRef
  (Ex.box_isBox (x := Ex.s2) (t := 10) (vt := Ex.eqVT 10) rfl (by decide)).asRef (Ex.eqVT_eq 10) (Ex.eqVT_eq 10)
  (fun y z => Bool.beq_comm)

/-- `==` on values is transitive if the types' own `==` is. -/
theorem C30_value_eq_trans [ByteBuf B] [HasPartialEq V] {a b c : Value B V} {t'' : TyId} {x'' : Bytes}
    (ha : IsRef Γ t x a.asRef) (hb : IsRef Γ t' x' b.asRef) (hc : IsRef Γ t'' x'' c.asRef)
    (hl : LawfulEq Γ t a.vtable) (hl' : LawfulEq Γ t' b.vtable)
    (ht : ∀ y z u, Γ.eq t y z = true → Γ.eq t z u = true → Γ.eq t y u = true)
    (hab : Value.eq a b = .ok true) (hbc : Value.eq b c = .ok true) : Value.eq a c = .ok true := by
  obtain ⟨r, h1, h2⟩ := C30_value_eq ha hb hl
  obtain ⟨r', h1', h2'⟩ := C30_value_eq hb hc hl'
  obtain ⟨r'', h1'', h2''⟩ := C30_value_eq ha hc hl
  rw [hab] at h1; rw [hbc] at h1'
  cases h1; cases h1'
  obtain ⟨rfl, e1⟩ := h2.1 rfl
  obtain ⟨rfl, e2⟩ := h2'.1 rfl
  rw [h1'', h2''.2 ⟨rfl, ht _ _ _ e1 e2⟩]

example (h : Value.eq (Ex.box 10 Ex.s1 (Ex.eqVT 10)) (Ex.box 10 Ex.s1 (Ex.eqVT 10)) = .ok true) :=
  C30_value_eq_trans (Ex.box_isBox (x := Ex.s1) (t := 10) (vt := Ex.eqVT 10) rfl (by decide)).asRef
  (Ex.box_isBox (x := Ex.s1) (t := 10) (vt := Ex.eqVT 10) rfl (by decide)).asRef
  (Ex.box_isBox (x := Ex.s1) (t := 10) (vt := Ex.eqVT 10) rfl (by decide)).asRef (Ex.eqVT_eq 10) (Ex.eqVT_eq 10)
  (fun y z u => by simp only [Ex.env, beq_iff_eq]; exact Eq.trans) h h
example : Value.eq (Ex.box 10 Ex.s1 (Ex.eqVT 10)) (Ex.box 10 Ex.s1 (Ex.eqVT 10)) = .ok true := by decide

/-- `Value` implements `Eq` for every table with `PartialEq` (src/value.rs:351). Full claim: `==` on
every value type that implements `Eq` is reflexive. -/
def C30_eq_impl_full : Prop :=
  ∀ (U : Type) (Γ : TyEnv U) (t : TyId) (x : Bytes) (v : BoxValue (PartialEqVTable U)) (h : Heap),
    IsBox Γ h t x v → LawfulEq Γ t v.vtable → Value.eq v v = .ok true

/-- It is not: the bound is `HasPartialEq` instead of `HasEq`, so a value that is not equal to itself
(a NaN) sits in a type claiming `Eq`. -/
theorem C30_eq_impl_refuted : ¬ C30_eq_impl_full := by
  intro h
  have := h _ Ex.nanEnv 2 Ex.a1 (Ex.box 2 Ex.a1 (PartialEqVTable.build Ex.nanEnv 2)) (Ex.boxWorld 2).heap
    ⟨rfl, rfl, rfl, rfl, .inr ⟨by decide, 0, rfl, rfl⟩⟩ (lawfulEq_of rfl)
  exact absurd this (by decide)

/-! ### C29: hashing of values -/

/-- A value feeds to the hasher what its element feeds, without panic. -/
theorem C29_value_hash [HasHash V] {a : ValueRef V} (ha : IsRef Γ t x a) (hl : LawfulHash Γ t a.vtable) :
    ValueRef.hash a = .ok (Γ.hash t x) := by
  simp only [ValueRef.hash, ha.bytes]; exact hl x ha.length

example := C29_value_hash (Ex.ref_isRef (x := Ex.s1) (t := 10) (vt := Ex.hashVT 10) rfl) (Ex.hashVT_hash 10)

/-- Equal values feed equal data to every hasher, provided the element type does so. -/
theorem C29_values_equal_hash [ByteBuf B] [HasPartialEq V] [HasHash V] {a b : Value B V}
    (ha : IsRef Γ t x a.asRef) (hb : IsRef Γ t' x' b.asRef) (hl : LawfulEq Γ t a.vtable)
    (hh : LawfulHash Γ t a.vtable) (hh' : LawfulHash Γ t' b.vtable)
    (hc : ∀ y z, Γ.eq t y z = true → Γ.hash t y = Γ.hash t z) (he : Value.eq a b = .ok true) :
    Value.hash a = Value.hash b := by
  obtain ⟨r, h1, h2⟩ := C30_value_eq ha hb hl
  rw [he] at h1; cases h1
  obtain ⟨rfl, e⟩ := h2.1 rfl
  have ea : Value.hash a = .ok (Γ.hash t x) := C29_value_hash ha hh
  have eb : Value.hash b = .ok (Γ.hash t x') := C29_value_hash hb hh'
  rw [ea, eb, hc _ _ e]

example := C29_values_equal_hash (Ex.box_isBox (x := Ex.s1) (t := 10) (vt := Ex.eqHashVT 10) rfl (by decide)).asRef
  (Ex.box_isBox (x := Ex.s1) (t := 10) (vt := Ex.eqHashVT 10) rfl (by decide)).asRef (Ex.eqHashVT_eq 10)
  (Ex.eqHashVT_hash 10) (Ex.eqHashVT_hash 10) (fun y z h => by simp [Ex.env] at *; rw [h]) (by decide)

/-! ### C31: boxed values -/

/-- `BoxValue::new` stores the value in a new block of the layout of its type and touches nothing
else. -/
theorem C31_box_new (hw : w.heap.WF) (hx : x.length = Γ.size t) (vt : V) :
    ∃ v h', BoxValue.new Γ t vt x w = (.ok v, { w with heap := h' }) ∧ IsBox Γ h' t x v ∧
      v.vtable = vt ∧ Realloc w.heap none h' v.bytes.ptr :=
  BoxValue.new_spec hw hx

example := C31_box_new (Γ := Ex.env) (w := Ex.boxWorld 2) (Ex.boxWorld_wf 2) (t := 10) (x := Ex.s1) rfl (Ex.cloneVT 10)

/-- `downcast::<T'>` returns the box (same block, same content) exactly if `T'` is the stored type. -/
theorem C31_box_downcast {h : Heap} {v : BoxValue V} (hv : IsBox Γ h t x v) (t' : TyId) :
    ∃ r, BoxValue.downcast t' v w = (.ok r, w) ∧ (r.isSome ↔ t' = t) ∧
      (∀ b, r = some b → b.bytes = x ∧ b.ptr = v.bytes.ptr) := by
  by_cases e : t' = t
  · subst e
    refine ⟨some v.bytes, ?_, by simp, ?_⟩
    · simp [BoxValue.downcast, Value.is, hv.type_id]
    · rintro b ⟨⟩; exact ⟨hv.bytes, rfl⟩
  · refine ⟨none, ?_, by simp [e], by simp⟩
    have e' : ¬ t = t' := fun h => e h.symm
    simp [BoxValue.downcast, Value.is, hv.type_id, e']

example := C31_box_downcast (w := Ex.boxWorld 10) (Ex.box_isBox (x := Ex.s1) (t := 10) (vt := Ex.cloneVT 10) rfl (by decide)) 5

/-- Dropping a boxed value runs the destructor of its element once and frees the block with the
layout it was allocated with; nothing else changes. -/
theorem C31_box_drop [HasDrop U V] {v : BoxValue V} {u' : U} (hw : w.heap.WF) (hv : IsBox Γ w.heap t x v)
    (hl : LawfulDrop Γ t v.vtable) (hd : Γ.drop t x w.user = (.ok (), u')) :
    ∃ h', v.drop w = (.ok (), ⟨h', u'⟩) ∧ Realloc w.heap v.bytes.ptr h' none ∧ h'.next = w.heap.next :=
  Value.drop_box_ok hw hv hl hd

example := C31_box_drop (Ex.boxWorld_wf 10) (Ex.box_isBox (x := Ex.s1) (t := 10) (vt := Ex.cloneVT 10) rfl (by decide))
  (Ex.cloneVT_drop 10) (u' := [.dropped 10 Ex.s1]) rfl

/-- `clone_value` (and `clone` of a box) produces an independent box with the clone of the element;
the source keeps its block and content. -/
theorem C31_box_clone [HasClone U V] {v : BoxValue V} {u' : U} (hw : w.heap.WF) (hv : IsBox Γ w.heap t x v)
    (hl : LawfulClone Γ t v.vtable) (hc : Γ.clone t x w.user = (.ok x', u')) :
    ∃ v' h', BoxValue.clone v w = (.ok v', ⟨h', u'⟩) ∧ IsBox Γ h' t x' v' ∧ v'.vtable = v.vtable ∧
      IsBox Γ h' t x v ∧ Realloc w.heap none h' v'.bytes.ptr ∧
      (0 < Γ.size t → v'.bytes.ptr ≠ v.bytes.ptr) := by
  obtain ⟨v', h', h1, h2, h3, h4⟩ := ValueRef.cloneValue_ok hw hv.asRef hl hc
  have hfresh : ∀ i, v.bytes.ptr = some i → v'.bytes.ptr ≠ some i := by
    intro i hi e
    have := h4.new_fresh (by rw [e]; exact fun c => by cases c) i e
    exact absurd (hv.block.lt_next hw i hi) (by omega)
  refine ⟨v', h', h1, h2, h3, ?_, h4, ?_⟩
  · apply hv.frame
    intro i hi
    exact h4.other i (by simp) (fun e => hfresh i hi e.symm)
  · intro hs e
    rcases hv.block with ⟨h0, _⟩ | ⟨_, i, hi, _⟩
    · omega
    · exact hfresh i hi (by rw [e, hi])

example := C31_box_clone (Ex.boxWorld_wf 10) (Ex.box_isBox (x := Ex.s1) (t := 10) (vt := Ex.cloneVT 10) rfl (by decide))
  (Ex.cloneVT_clone 10) (x' := Ex.s1) (u' := [.cloned 10 Ex.s1]) rfl

/-- A panicking `clone` of a boxed value allocates nothing and leaves the source as it is. -/
theorem C20_box_clone_panic [HasClone U V] {v : BoxValue V} {u' : U} {y : Why} (hv : IsBox Γ w.heap t x v)
    (hl : LawfulClone Γ t v.vtable) (hc : Γ.clone t x w.user = (.panic y, u')) :
    BoxValue.clone v w = (.panic y, { w with user := u' }) ∧ IsBox Γ w.heap t x v :=
  ⟨ValueRef.cloneValue_panic hv.asRef hl hc, hv⟩

example := C20_box_clone_panic (w := Ex.boxWorld 7) (Ex.box_isBox (x := Ex.badClone) (t := 7) (vt := Ex.cloneVT 7) rfl (by decide))
  (Ex.cloneVT_clone 7) (u' := []) (y := .user) rfl

/-- Life cycle: create a box, clone it, drop both. The two elements are dropped once each, in order,
and all blocks that were live before are untouched while no new block stays live. -/
theorem C31_box_life_cycle [HasClone U V] [HasDrop U V] (vt : V) (hw : w.heap.WF) (hx : x.length = Γ.size t)
    (hl : LawfulClone Γ t vt) (hld : LawfulDrop Γ t vt) {u1 u2 u3 : U}
    (hc : Γ.clone t x w.user = (.ok x', u1)) (hd : Γ.drop t x u1 = (.ok (), u2))
    (hd' : Γ.drop t x' u2 = (.ok (), u3)) :
    ∃ h', (do let v ← BoxValue.new Γ t vt x; let v' ← BoxValue.clone v; v.drop; v'.drop : M (World U) Unit) w =
      (.ok (), ⟨h', u3⟩) ∧ h'.WF ∧ ∀ i, h'.live i = w.heap.live i := by
  obtain ⟨v, h1, e1, b1, hvt, r1⟩ := C31_box_new hw hx vt
  obtain ⟨v', h2, e2, b2, hvt', b2v, r2, hne⟩ := C31_box_clone (w := ⟨h1, w.user⟩) r1.wf b1 (by rw [hvt]; exact hl) hc
  obtain ⟨h3, e3, r3, n3⟩ := C31_box_drop (w := ⟨h2, u1⟩) r2.wf b2v (by rw [hvt]; exact hld) hd
  have b3 : IsBox Γ h3 t x' v' := by
    apply b2.frame
    intro i hi
    refine r3.other i (fun e => ?_) (by simp)
    rcases b2.block with ⟨_, h0⟩ | ⟨hs, _⟩
    · rw [h0] at hi; cases hi
    · exact hne hs (by rw [hi, e])
  obtain ⟨h4, e4, r4, n4⟩ := C31_box_drop (w := ⟨h3, u2⟩) r3.wf b3 (by rw [hvt', hvt]; exact hld) hd'
  refine ⟨h4, ?_, r4.wf, ?_⟩
  · rw [M.bind_ok e1, M.bind_ok e2, M.bind_ok e3]; exact e4
  · have a := Realloc.trans hw (fun i hi => by cases hi) r1
      (show Realloc h1 v.bytes.ptr h1 v.bytes.ptr from Realloc.refl r1.wf _)
    intro i
    by_cases hiv' : some i = v'.bytes.ptr
    · have hdead : h4.live i = none := r4.old_dead (by rw [← hiv']; simp) i hiv'.symm
      have hf : h1.next ≤ i := r2.new_fresh (by rw [← hiv']; simp) i hiv'.symm
      rw [hdead, hw i (Nat.le_trans r1.next_le hf)]
    · rw [r4.other i hiv' (by simp)]
      by_cases hiv : some i = v.bytes.ptr
      · have hdead : h3.live i = none := r3.old_dead (by rw [← hiv]; simp) i hiv.symm
        have hf : w.heap.next ≤ i := r1.new_fresh (by rw [← hiv]; simp) i hiv.symm
        rw [hdead, hw i hf]
      · rw [r3.other i hiv (by simp), r2.other i (by simp) hiv', r1.other i (by simp) hiv]

example := C31_box_life_cycle (w := Ex.boxWorld 2) (Ex.cloneVT 10) (Ex.boxWorld_wf 2) (x := Ex.s1) rfl (Ex.cloneVT_clone 10)
  (Ex.cloneVT_drop 10) (x' := Ex.s1) (u1 := [.cloned 10 Ex.s1]) (u2 := [.cloned 10 Ex.s1, .dropped 10 Ex.s1]) rfl rfl rfl

/-! ### C18, C19: values that leak -/

/-- Full claim of C18 for boxed values: a failing `downcast`, which consumes the value, releases it. -/
def C18_box_downcast_full : Prop :=
  ∀ (U V : Type) (Γ : TyEnv U) (t t' : TyId) (x : Bytes) (v : BoxValue V) (w w' : World U),
    IsBox Γ w.heap t x v → BoxValue.downcast t' v w = (.ok none, w') →
    w'.user = (Γ.drop t x w.user).2 ∧ ∀ i, v.bytes.ptr = some i → w'.heap.live i = none

/-- It does not: a failing downcast leaks the block and never runs the destructor. -/
theorem C18_box_downcast_refuted : ¬ C18_box_downcast_full := by
  intro h
  have := h _ _ Ex.env 10 5 Ex.s1 (Ex.box 10 Ex.s1 ()) (Ex.boxWorld 10) (Ex.boxWorld 10)
    (Ex.box_isBox rfl (by decide)) rfl
  have h2 := this.2 0 rfl
  exact absurd h2 (by simp [Ex.boxWorld, Ex.oneHeap])

/-- The leak is systematic: every failing `downcast` of a box returns with the world unchanged, so the
block of the consumed value is still live and its destructor has not run. -/
theorem C18_box_downcast_leaks {v : BoxValue V} (hv : IsBox Γ w.heap t x v) (ht : t' ≠ t) :
    BoxValue.downcast t' v w = (.ok none, w) := by
  have e' : ¬ t = t' := fun h => ht h.symm
  simp [BoxValue.downcast, Value.is, hv.type_id, e']

example := C18_box_downcast_leaks (w := Ex.boxWorld 10) (Ex.box_isBox (x := Ex.s1) (t := 10) (vt := Ex.cloneVT 10) rfl (by decide)) (t' := 3) (by decide)

/-- Full claim of C18 for inline values: a failing `try_new`, which consumes its argument, drops it. -/
def C18_small_try_new_full : Prop :=
  ∀ (U : Type) (Γ : TyEnv U) (t : TyId) (x : Bytes) (w w' : World U), x.length = Γ.size t →
    SmallValue.tryNew Γ t () x w = (.ok none, w') → w'.user = (Γ.drop t x w.user).2

/-- It does not: an argument of another size than 8 is forgotten. -/
theorem C18_small_try_new_refuted : ¬ C18_small_try_new_full := by
  intro h
  have := h _ Ex.env 10 Ex.s1 (Ex.boxWorld 10) (Ex.boxWorld 10) rfl rfl
  exact absurd this (by decide)

/-- Full claim of C18 for the downcast of an inline value. -/
def C18_small_downcast_full : Prop :=
  ∀ (U V : Type) (Γ : TyEnv U) (t t' : TyId) (x : Bytes) (v : SmallValue V) (w w' : World U),
    IsSmall Γ t x v → SmallValue.downcast Γ t' v w = (.ok none, w') → w'.user = (Γ.drop t x w.user).2

/-- A failing downcast of an inline value never runs the destructor. -/
theorem C18_small_downcast_refuted : ¬ C18_small_downcast_full := by
  intro h
  have := h _ _ Ex.env 7 5 Ex.g1 (Ex.small 7 Ex.g1 ()) (Ex.boxWorld 10) (Ex.boxWorld 10)
    (Ex.small_isSmall rfl rfl) rfl
  exact absurd this (by decide)

/-- If the destructor of a boxed value panics, the panic is passed on, the destructor has run once and
will not run again, but the block is not freed (a leak, no double drop). -/
theorem C19_box_drop_panic [HasDrop U V] {v : BoxValue V} {u' : U} {y : Why} (hv : IsBox Γ w.heap t x v)
    (hl : LawfulDrop Γ t v.vtable) (hd : Γ.drop t x w.user = (.panic y, u')) :
    v.drop w = (.panic y, { w with user := u' }) :=
  Value.drop_panic hv.bytes hv.length hl hd

example := C19_box_drop_panic (w := Ex.boxWorld 7) (Ex.box_isBox (x := Ex.badDrop) (t := 7) (vt := Ex.dropVT 7) rfl (by decide))
  (Ex.dropVT_drop 7) (u' := []) (y := .user) rfl

/-! ### C32: inline values -/

/-- `try_new` succeeds exactly for types of the size of a `usize`, and stores the value unchanged. -/
theorem C32_small_try_new (hx : x.length = Γ.size t) (vt : V) :
    ∃ r, SmallValue.tryNew Γ t vt x w = (.ok r, w) ∧ (r.isSome ↔ Γ.size t = 8) ∧
      ∀ v, r = some v → IsSmall Γ t x v ∧ v.vtable = vt := by
  by_cases h8 : Γ.size t = 8
  · refine ⟨some ⟨⟨x⟩, t, Γ.align t, vt⟩, by simp [SmallValue.tryNew, h8], by simp [h8], ?_⟩
    rintro v ⟨⟩; exact ⟨⟨rfl, rfl, rfl, hx, h8⟩, rfl⟩
  · exact ⟨none, by simp [SmallValue.tryNew, h8], by simp [h8], by simp⟩

example := C32_small_try_new (Γ := Ex.env) (w := Ex.boxWorld 2) (t := 7) (x := Ex.g1) rfl (Ex.cloneVT 7)

/-- `new` panics exactly when `try_new` fails. -/
theorem C32_small_new (hx : x.length = Γ.size t) (vt : V) :
    (Γ.size t = 8 → ∃ v, SmallValue.new Γ t vt x w = (.ok v, w) ∧ IsSmall Γ t x v ∧ v.vtable = vt) ∧
    (Γ.size t ≠ 8 → SmallValue.new Γ t vt x w = (.panic .unwrapNone, w)) := by
  constructor
  · intro h8
    refine ⟨⟨⟨x⟩, t, Γ.align t, vt⟩, by simp [SmallValue.new, SmallValue.tryNew, h8],
      ⟨rfl, rfl, rfl, hx, h8⟩, rfl⟩
  · intro h8
    simp [SmallValue.new, SmallValue.tryNew, h8]

example := C32_small_new (Γ := Ex.env) (w := Ex.boxWorld 2) (t := 1) (x := [some 3]) rfl ()

/-- `downcast` of an inline value returns the value exactly for the stored type. -/
theorem C32_small_downcast {v : SmallValue V} (hv : IsSmall Γ t x v) (t' : TyId) :
    ∃ r, SmallValue.downcast Γ t' v w = (.ok r, w) ∧ (r.isSome ↔ t' = t) ∧ (∀ b, r = some b → b = x) := by
  by_cases e : t' = t
  · subst e
    refine ⟨some x, ?_, by simp, ?_⟩
    · simp [SmallValue.downcast, Value.is, hv.type_id, hv.size, hv.bytes]
    · rintro b ⟨⟩; rfl
  · refine ⟨none, ?_, by simp [e], by simp⟩
    have e' : ¬ t = t' := fun h => e h.symm
    simp [SmallValue.downcast, Value.is, hv.type_id, e']

example := C32_small_downcast (w := Ex.boxWorld 2) (Ex.small_isSmall (t := 7) (x := Ex.g1) (vt := ()) rfl rfl) 5

/-- Dropping an inline value runs the destructor once and touches no heap block. -/
theorem C32_small_drop [HasDrop U V] {v : SmallValue V} {u' : U} (hv : IsSmall Γ t x v)
    (hl : LawfulDrop Γ t v.vtable) (hd : Γ.drop t x w.user = (.ok (), u')) :
    v.drop w = (.ok (), { w with user := u' }) := Value.drop_small_ok hv hl hd

example := C32_small_drop (w := Ex.boxWorld 2) (Ex.small_isSmall (t := 7) (x := Ex.g1) (vt := Ex.dropVT 7) rfl rfl)
  (Ex.dropVT_drop 7) (u' := [.dropped 7 Ex.g1]) rfl

/-- Cloning an inline value clones its element once. -/
theorem C32_small_clone [HasClone U V] {v : SmallValue V} {u' : U} (hv : IsSmall Γ t x v)
    (hl : LawfulClone Γ t v.vtable) (hc : Γ.clone t x w.user = (.ok x', u')) :
    ∃ v', SmallValue.clone v w = (.ok v', { w with user := u' }) ∧ IsSmall Γ t x' v' ∧ v'.vtable = v.vtable :=
  ValueRef.cloneSmallValue_ok hv.asRef hv.size hl hc

example := C32_small_clone (w := Ex.boxWorld 2) (Ex.small_isSmall (t := 7) (x := Ex.g1) (vt := Ex.cloneVT 7) rfl rfl)
  (Ex.cloneVT_clone 7) (x' := Ex.g1) (u' := [.cloned 7 Ex.g1]) rfl

/-- `clone_small_value` of a value of another size than 8 panics; the clone made on the way is dropped
again, nothing is leaked. -/
theorem C32_clone_small_wrong_size [HasClone U V] {v : ValueRef V} {u' u'' : U} (hv : IsRef Γ t x v)
    (h8 : Γ.size t ≠ 8) (hl : LawfulClone Γ t v.vtable) (hc : Γ.clone t x w.user = (.ok x', u'))
    (hd : Γ.drop t x' u' = (.ok (), u'')) :
    ValueRef.cloneSmallValue v w = (.panic .lenMismatch, { w with user := u'' }) := by
  have := hl.raw_len (b := x) (d := List.replicate 8 none) hv.length (by simp [Ne.symm h8]) hc hd
  unfold ValueRef.cloneSmallValue
  simp only [hv.bytes, this]

example := C32_clone_small_wrong_size (w := Ex.boxWorld 2) (Ex.ref_isRef (x := Ex.s1) (t := 10) (vt := Ex.cloneVT 10) rfl)
  (by decide) (Ex.cloneVT_clone 10) (x' := Ex.s1) (u' := [.cloned 10 Ex.s1]) (u'' := [.cloned 10 Ex.s1, .dropped 10 Ex.s1]) rfl rfl

/-- The documented behaviour of `SmallValue::new` ("panics if the given type does not fit into a
`usize`"): every value of at most 8 bytes is accepted. -/
def C32_fits_full : Prop :=
  ∀ (U : Type) (Γ : TyEnv U) (t : TyId) (x : Bytes) (w : World U), x.length = Γ.size t → Γ.size t ≤ 8 →
    ∃ v, SmallValue.new Γ t () x w = (.ok v, w)

/-- Smaller values are rejected as well. -/
theorem C32_fits_refuted : ¬ C32_fits_full := by
  intro h
  obtain ⟨v, hv⟩ := h _ Ex.env 1 [some 3] (Ex.boxWorld 2) rfl (by decide)
  rw [(C32_small_new (Γ := Ex.env) (w := Ex.boxWorld 2) (t := 1) (x := [some 3]) rfl ()).2 (by decide)] at hv
  cases hv

/-! ### C33: writing through `ValueMut` -/

/-- `swap` exchanges the referents exactly if the types agree; otherwise nothing changes. -/
theorem C33_swap {a b : ValueRef V} (ha : IsRef Γ t x a) (hb : IsRef Γ t' x' b) :
    (t = t' → ValueRef.swap (a, b) = (.ok (), ({ a with bytes := x' }, { b with bytes := x }))) ∧
    (t ≠ t' → ValueRef.swap (a, b) = (.ok (), (a, b))) := by
  constructor
  · rintro rfl
    have hlen : x.length = x'.length := by rw [ha.length, hb.length]
    simp [ValueRef.swap, ha.type_id, hb.type_id, ha.bytes, hb.bytes, sliceSwapWith, hlen]
  · intro h
    simp [ValueRef.swap, ha.type_id, hb.type_id, h]

example := C33_swap (Ex.ref_isRef (x := Ex.s1) (t := 10) (vt := ()) rfl) (Ex.ref_isRef (x := Ex.s2) (t := 10) (vt := ()) rfl)

/-- `assign` of a boxed value of the same type stores it and drops the old element exactly once; the
block of the consumed box is freed. -/
theorem C33_assign_box [HasDrop U V] {a : ValueRef V} {v : BoxValue V} {u' : U} (hw : w.heap.WF)
    (ha : IsRef Γ t x a) (hv : IsBox Γ w.heap t x' v) (hl : LawfulDrop Γ t v.vtable)
    (hd : Γ.drop t x w.user = (.ok (), u')) :
    ∃ h', ValueRef.assign v (a, w) = (.ok (), ({ a with bytes := x' }, ⟨h', u'⟩)) ∧
      Realloc w.heap v.bytes.ptr h' none ∧ h'.next = w.heap.next := by
  have hs := (C33_swap ha hv.asRef).1 rfl
  have hb : IsBox Γ w.heap t x { v with bytes := ByteBuf.set x v.bytes } :=
    ⟨hv.type_id, hv.align, rfl, ha.length, hv.block⟩
  obtain ⟨h', e, r, n⟩ := C31_box_drop hw hb hl hd
  refine ⟨h', ?_, r, n⟩
  unfold ValueRef.assign
  simp only [hs]
  rw [M.thenDrop_ok (by rfl) e]

example := C33_assign_box (Ex.boxWorld_wf 10) (Ex.ref_isRef (x := Ex.s2) (t := 10) (vt := Ex.cloneVT 10) rfl)
  (Ex.box_isBox (x := Ex.s1) (t := 10) (vt := Ex.cloneVT 10) rfl (by decide)) (Ex.cloneVT_drop 10) (u' := [.dropped 10 Ex.s2]) rfl

/-- `assign` of an inline value of the same type. -/
theorem C33_assign_small [HasDrop U V] {a : ValueRef V} {v : SmallValue V} {u' : U}
    (ha : IsRef Γ t x a) (hv : IsSmall Γ t x' v) (hl : LawfulDrop Γ t v.vtable)
    (hd : Γ.drop t x w.user = (.ok (), u')) :
    ValueRef.assign v (a, w) = (.ok (), ({ a with bytes := x' }, { w with user := u' })) := by
  have hs := (C33_swap ha hv.asRef).1 rfl
  have hb : IsSmall Γ t x { v with bytes := ByteBuf.set x v.bytes } :=
    ⟨hv.type_id, hv.align, rfl, ha.length, hv.size⟩
  have e := C32_small_drop (w := w) hb hl hd
  unfold ValueRef.assign
  simp only [hs]
  rw [M.thenDrop_ok (by rfl) e]

example := C33_assign_small (w := Ex.boxWorld 2) (Ex.ref_isRef (x := Ex.g2) (t := 7) (vt := Ex.cloneVT 7) rfl)
  (Ex.small_isSmall (x := Ex.g1) (t := 7) (vt := Ex.cloneVT 7) rfl rfl) (Ex.cloneVT_drop 7) (u' := [.dropped 7 Ex.g2]) rfl

/-- `assign` of a value of another type leaves the referent alone; the rejected value is dropped and
its block freed (the caller is not told). -/
theorem C33_assign_mismatch [HasDrop U V] {a : ValueRef V} {v : BoxValue V} {u' : U} (hw : w.heap.WF)
    (ha : IsRef Γ t x a) (hv : IsBox Γ w.heap t' x' v) (ht : t ≠ t') (hl : LawfulDrop Γ t' v.vtable)
    (hd : Γ.drop t' x' w.user = (.ok (), u')) :
    ∃ h', ValueRef.assign v (a, w) = (.ok (), (a, ⟨h', u'⟩)) ∧ Realloc w.heap v.bytes.ptr h' none := by
  have hs := (C33_swap ha hv.asRef).2 ht
  have hb : IsBox Γ w.heap t' x' { v with bytes := ByteBuf.set v.asRef.bytes v.bytes } :=
    ⟨hv.type_id, hv.align, hv.bytes, hv.length, hv.block⟩
  obtain ⟨h', e, r, n⟩ := C31_box_drop hw hb hl hd
  refine ⟨h', ?_, r⟩
  unfold ValueRef.assign
  simp only [hs]
  rw [M.thenDrop_ok (by rfl) e]

example := C33_assign_mismatch (Ex.boxWorld_wf 10) (Ex.ref_isRef (x := Ex.g2) (t := 7) (vt := Ex.cloneVT 10) rfl)
  (Ex.box_isBox (x := Ex.s1) (t := 10) (vt := Ex.cloneVT 10) rfl (by decide)) (by decide) (Ex.cloneVT_drop 10) (u' := [.dropped 10 Ex.s1]) rfl

/-- If the destructor of the overwritten element panics, the new value is nevertheless in place and
the old element is not dropped again. -/
theorem C19_assign_panic [HasDrop U V] {a : ValueRef V} {v : BoxValue V} {u' : U} {y : Why}
    (ha : IsRef Γ t x a) (hv : IsBox Γ w.heap t x' v) (hl : LawfulDrop Γ t v.vtable)
    (hd : Γ.drop t x w.user = (.panic y, u')) :
    ValueRef.assign v (a, w) = (.panic y, ({ a with bytes := x' }, { w with user := u' })) := by
  have hs := (C33_swap ha hv.asRef).1 rfl
  have hb : IsBox Γ w.heap t x { v with bytes := ByteBuf.set x v.bytes } :=
    ⟨hv.type_id, hv.align, rfl, ha.length, hv.block⟩
  have e := C19_box_drop_panic hb hl hd
  unfold ValueRef.assign
  simp only [hs]
  rw [M.thenDrop_dropPanic (by rfl) e]

example := C19_assign_panic (w := Ex.boxWorld 7) (Ex.ref_isRef (x := Ex.badDrop) (t := 7) (vt := Ex.cloneVT 7) rfl)
  (Ex.box_isBox (x := Ex.g1) (t := 7) (vt := Ex.cloneVT 7) rfl (by decide)) (Ex.cloneVT_drop 7) (u' := []) (y := .user) rfl

/-- `clone_from_other` runs `clone_from` of the element type on the referent if the types agree, and
otherwise reports the mismatch and changes nothing. Whatever `clone_from` does, the referent stays a
value of the type. -/
theorem C33_clone_from_other [HasClone U V] {a b : ValueRef V} (ha : IsRef Γ t x a) (hb : IsRef Γ t' x' b)
    (hl : LawfulClone Γ t a.vtable) :
    (t = t' → ∀ r d u', Γ.cloneFrom t x' (x, w.user) = (r, (d, u')) →
      ValueRef.cloneFromOther b (a, w) = (r.map some, ({ a with bytes := d }, { w with user := u' })) ∧
      IsRef Γ t d { a with bytes := d }) ∧
    (t ≠ t' → ValueRef.cloneFromOther b (a, w) = (.ok none, (a, w))) := by
  constructor
  · rintro rfl r d u' hc
    have := hl.from_eq (b := x') (d := x) (u := w.user) hb.length ha.length
    refine ⟨?_, ⟨ha.type_id, ha.align, rfl, Γ.cloneFrom_len hc ha.length⟩⟩
    rw [hc] at this
    simp only [ValueRef.cloneFromOther, M.bind_run, show getSelf (a, w) = (.ok a, (a, w)) from rfl,
      ha.type_id, hb.type_id, if_true, M.zoom_run, ha.bytes, hb.bytes, this]
    cases r <;> rfl
  · intro h
    simp [ValueRef.cloneFromOther, ha.type_id, hb.type_id, h]

example := (C33_clone_from_other (w := Ex.boxWorld 2) (Ex.ref_isRef (x := Ex.s1) (t := 10) (vt := Ex.cloneVT 10) rfl)
  (Ex.ref_isRef (x := Ex.s2) (t := 10) (vt := Ex.cloneVT 10) rfl) (Ex.cloneVT_clone 10)).1 rfl (.ok ()) Ex.s2
  [.cloned 10 Ex.s2, .dropped 10 Ex.s1] rfl

/-! ### C35, C47: conversions of values -/

/-- `upcast` of a boxed or inline value or a reference keeps block, content and type; the new table is
the converted old one, so whatever was lawful for the converted table is so for the value. -/
theorem C35_value_upcast (f : V → W) :
    (∀ (h : Heap) (v : BoxValue V), IsBox Γ h t x v → IsBox Γ h t x (v.upcast f) ∧
      (v.upcast f).bytes = v.bytes ∧ (v.upcast f).vtable = f v.vtable) ∧
    (∀ v : SmallValue V, IsSmall Γ t x v → IsSmall Γ t x (v.upcast f) ∧ (v.upcast f).vtable = f v.vtable) ∧
    (∀ v : ValueRef V, IsRef Γ t x v → IsRef Γ t x (CopyValue.upcast f v) ∧
      (CopyValue.upcast f v).vtable = f v.vtable) :=
  ⟨fun _ _ hv => ⟨⟨hv.type_id, hv.align, hv.bytes, hv.length, hv.block⟩, rfl, rfl⟩,
   fun _ hv => ⟨⟨hv.type_id, hv.align, hv.bytes, hv.length, hv.size⟩, rfl⟩,
   fun _ hv => ⟨⟨hv.type_id, hv.align, hv.bytes, hv.length⟩, rfl⟩⟩

example := (C35_value_upcast (Γ := Ex.env) (fun vt : CloneVTable Ex.Log => (⟨vt.drop⟩ : DropVTable Ex.Log))).1 _ _
  (Ex.box_isBox (x := Ex.s1) (t := 10) (vt := Ex.cloneVT 10) rfl (by decide))

/-- Splitting a value into raw parts and rebuilding it gives the same value. -/
theorem C47_value_raw_parts (v : Value B V) :
    Value.fromRawParts v.intoRawParts.1 v.intoRawParts.2.1 v.intoRawParts.2.2.1 v.intoRawParts.2.2.2 = v := rfl

/-- A reference to a `Copy` value viewed as an ordinary value keeps element and type; dropping through
its table runs no user code. -/
theorem C35_copy_ref_as_value {v : CopyValue V} (hv : IsRef Γ t x v) :
    IsRef Γ t x (ValueRef.ofCopy (U := U) v) ∧
    ∀ b : Bytes, HasDrop.dropFn (ValueRef.ofCopy (U := U) v).vtable b = (pure () : M U Unit) :=
  ⟨⟨hv.type_id, hv.align, hv.bytes, hv.length⟩, fun _ => rfl⟩

example := C35_copy_ref_as_value (Ex.ref_isRef (x := Ex.a1) (t := 2) (vt := Ex.cloneVT 2) rfl)

end Dync
