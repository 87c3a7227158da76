import Verif.OwnVec4
/-!
# Helper lemmas: what a variable of a `VecDyn` program owns
-/
namespace Dync
variable {U V α σ : Type} {Γ : TyEnv (Ledger U)} {S : Values Γ} {t t' : TyId} {es : List Bytes} {x : Bytes}
  {w : World (Ledger U)} {cfg : Cfg} {v : VecVoid} {c : VecDyn V} {vt : V}

theorem Cont.objs {h : Heap} (g : Cont Γ h t es c.data) : (Item.vec c).objs = objs t es := by
  rcases g with R | ⟨u, rfl⟩
  · have h1 : c.data.elem.numBytes = Γ.size t := R.numBytes
    simp only [Item.objs, h1, R.mem]
    rw [chunks_flatten R.pos R.each]
    have : c.elementTypeId = t := R.type_id
    rw [this]
  · simp [Item.objs, u.numBytes, u.mem, Dync.objs, chunks]

variable [HasDrop (Ledger U) V] [HasClone (Ledger U) V]

/-- A container of elements of type `t`, or one that lost its content. -/
structure VecOk (Γ : TyEnv (Ledger U)) (S : Values Γ) (h : Heap) (t : TyId) (es : List Bytes) (c : VecDyn V) : Prop where
  tab : Tab Γ t c.vtable
  pos : 0 < Γ.size t
  cont : Cont Γ h t es c.data
  valid : ∀ e ∈ es, S.valid t e

/-- A small value of type `t`. -/
structure SmallOk (Γ : TyEnv (Ledger U)) (S : Values Γ) (t : TyId) (v : SmallValue V) : Prop where
  tab : Tab Γ t v.vtable
  real : Real Γ S t v.asRef
  size : Γ.size t = 8

/-- What a variable can hold. -/
def Held (Γ : TyEnv (Ledger U)) (S : Values Γ) (h : Heap) : Item V → Prop
  | .vec c => ∃ t es, VecOk Γ S h t es c
  | .box v => ∃ t, BoxOk Γ S h t v
  | .small v => ∃ t, SmallOk Γ S t v

theorem Held.ptr_lt {h : Heap} {a : Item V} (H : Held Γ S h a) (wf : h.WF) : ∀ i, a.ptr = some i → i < h.next := by
  cases a with
  | vec c => obtain ⟨t, es, H⟩ := H; exact H.cont.ptr_lt wf
  | box v => obtain ⟨t, H⟩ := H; exact H.block.ptr_lt wf
  | small v => intro i hi; cases hi

theorem VecOk.frame {h h' : Heap} (H : VecOk Γ S h t es c) (hf : ∀ i, c.data.ptr = some i → h'.live i = h.live i) : VecOk Γ S h' t es c :=
  ⟨H.tab, H.pos, H.cont.frame hf, H.valid⟩

theorem BoxOk.frame {h h' : Heap} {b : BoxValue V} (H : BoxOk Γ S h t b) (hf : ∀ i, b.bytes.ptr = some i → h'.live i = h.live i) : BoxOk Γ S h' t b :=
  ⟨H.tab, H.real, H.block.frame hf⟩

theorem Held.frame {h h' : Heap} {a : Item V} (H : Held Γ S h a) (hf : ∀ i, a.ptr = some i → h'.live i = h.live i) : Held Γ S h' a := by
  cases a with
  | vec c => obtain ⟨t, es, H⟩ := H; exact ⟨t, es, H.frame hf⟩
  | box v => obtain ⟨t, H⟩ := H; exact ⟨t, H.frame hf⟩
  | small v => exact H

theorem BoxOk.objs {h : Heap} {b : BoxValue V} (H : BoxOk Γ S h t b) : (Item.box b).objs = [(t, b.bytes.bytes)] := by
  have : b.type_id = t := H.real.type_id
  simp [Item.objs, this]

theorem SmallOk.objs {b : SmallValue V} (H : SmallOk Γ S t b) : (Item.small b).objs = [(t, b.bytes.bytes)] := by
  have : b.type_id = t := H.real.type_id
  simp [Item.objs, this]

theorem SmallOk.drop (A : Acct Γ S) {b : SmallValue V} (B : SmallOk Γ S t b) (w : World (Ledger U)) :
    NoUb (Value.drop b) w (fun _ w' => Usr w w' [(t, b.bytes.bytes)] []) (fun w' => Usr w w' [(t, b.bytes.bytes)] []) := by
  unfold Value.drop
  rw [B.tab.drop]
  have hv : S.valid t b.bytes.bytes := B.real.valid
  refine NoUb.bind ((dropBytes_own A w (.inl hv)).mono (fun _ _ h => h) fun _ h => h) ?_
  intro _ w1 h
  exact NoUb.of_ok rfl h

/-- Dropping what a variable holds. -/
theorem Held.drop (A : Acct Γ S) {a : Item V} (H : Held Γ S w.heap a) (wf : w.heap.WF) :
    NoUb (a.drop cfg) w (fun _ w' => Eff w a.ptr a.objs w' none []) (fun w' => Eff w a.ptr a.objs w' none []) := by
  cases a with
  | vec c =>
    obtain ⟨t, es, H⟩ := H
    rw [H.cont.objs]
    exact VecDyn.drop_own A H.tab H.cont H.valid wf
  | box v =>
    obtain ⟨t, H⟩ := H
    rw [H.objs]
    exact H.drop A wf
  | small v =>
    obtain ⟨t, H⟩ := H
    rw [H.objs]
    exact (H.drop A w).mono (fun _ _ h => Eff.ofUsr wf _ h) fun _ h => Eff.ofUsr wf _ h

/-! ### Making things -/

/-- Something was made from the values `G`. -/
def MadeItem (Γ : TyEnv (Ledger U)) (S : Values Γ) (w : World (Ledger U)) (p : Ptr) (G : List Obj) (a : Item V) (w' : World (Ledger U)) : Prop :=
  Held Γ S w'.heap a ∧ Eff w p G w' a.ptr a.objs

theorem Made.item {G : List Obj} {w' : World (Ledger U)} (T : Tab Γ t vt) (h : Made Γ S t vt w G c w') : MadeItem Γ S w none G (.vec c) w' := by
  obtain ⟨rfl, es, h1, h2, h3⟩ := h
  refine ⟨⟨t, es, T, h1.pos, .inl h1, h2⟩, ?_⟩
  rw [Cont.objs (.inl h1)]
  exact h3

theorem Made.run {m : M (World (Ledger U)) (VecDyn V)} {G : List Obj} (T : Tab Γ t vt)
    (h : NoUb m w (fun c w' => Made Γ S t vt w G c w') (fun w' => Eff w none G w' none [])) :
    NoUb (do return Item.vec (← m)) w (fun a w' => MadeItem Γ S w none G a w') (fun w' => Eff w none G w' none []) :=
  NoUb.bind h fun _ _ h => NoUb.pure (h.item T)

theorem boxNew_own (wf : w.heap.WF) (hx : S.valid t x) :
    NoUb (boxNew Γ t x) w (fun b w' => b.bytes = x ∧ OwnsBlock Γ w'.heap t b.ptr ∧ Eff w none [(t, x)] w' b.ptr [(t, x)])
      (fun _ => False) := by
  refine NoUb.of_ok (a := ⟨(w.heap.alloc (Γ.layout t)).1, x⟩) (s' := { w with heap := (w.heap.alloc (Γ.layout t)).2 }) rfl ?_
  refine ⟨rfl, ?_, (Eff.refl wf none _).thenMoved (Moved.ofRealloc ?_ (Realloc.ofAlloc wf _)) rfl⟩
  · rcases Nat.eq_zero_or_pos (Γ.size t) with h0 | hpos
    · exact .inl ⟨h0, by simp [Heap.alloc, h0]⟩
    · have hal := Heap.alloc_live (h := w.heap) (l := Γ.layout t) (by simp only; omega)
      exact .inr ⟨hpos, _, hal.1, hal.2⟩
  · intro i hi _
    rcases Nat.eq_zero_or_pos (Γ.size t) with h0 | hpos
    · simp [Heap.alloc, h0] at hi
    · have hal := Heap.alloc_live (h := w.heap) (l := Γ.layout t) (by simp only; omega)
      rw [hal.1] at hi; cases hi; exact Nat.le_refl _

theorem BoxValue.new_own (T : Tab Γ t vt) (wf : w.heap.WF) (hu : t ≠ Γ.unitTy) (hx : S.valid t x) :
    NoUb (do return Item.box (← BoxValue.new Γ t vt x)) w (fun a w' => MadeItem Γ S w none [(t, x)] a w')
      (fun w' => Eff w none [(t, x)] w' none []) := by
  unfold BoxValue.new
  refine NoUb.bind (R := fun b w' => MadeItem Γ S w none [(t, x)] (.box b) w') (NoUb.bind ((boxNew_own wf hx).mono (fun _ _ h => h) fun _ h => h.elim) ?_) ?_
  · rintro b w' ⟨rfl, h1, h2⟩
    exact NoUb.pure ⟨⟨t, T, ⟨rfl, rfl, hu, hx⟩, h1⟩, h2⟩
  · rintro b w' h
    exact NoUb.pure h

theorem SmallValue.new_own (T : Tab Γ t vt) (wf : w.heap.WF) (hu : t ≠ Γ.unitTy) (hx : S.valid t x) :
    NoUb (do return Item.small (← SmallValue.new Γ t vt x)) w (fun a w' => MadeItem Γ S w none [(t, x)] a w')
      (fun w' => Eff w none [(t, x)] w' none []) := by
  unfold SmallValue.new SmallValue.tryNew
  by_cases h8 : Γ.size t = 8
  · rw [if_pos h8]
    exact NoUb.of_ok rfl ⟨⟨t, T, ⟨rfl, rfl, hu, hx⟩, h8⟩, Eff.refl wf _ _⟩
  · rw [if_neg h8]
    exact NoUb.of_panic rfl (Eff.forget wf _ _)

theorem ValueRef.cloneValue_own (A : Acct Γ S) {r : ValueRef V} (hr : RefOk Γ S t r) (wf : w.heap.WF) :
    NoUb (do return Item.box (← ValueRef.cloneValue r)) w (fun a w' => MadeItem Γ S w none [] a w') (fun w' => Eff w none [] w' none []) := by
  unfold ValueRef.cloneValue
  rw [hr.1.clone]
  rcases hr.2 with a | a
  · refine NoUb.bind (R := fun b w' => MadeItem Γ S w none [] (.box b) w') (NoUb.bind (cloneBytes_own A w (.inl a.valid) wf) ?_) fun _ _ h => h
    rintro b w' ⟨h1, h2, h3, h4⟩
    have e : r.type_id = t := a.type_id
    exact NoUb.pure ⟨⟨t, hr.1, ⟨e, a.alignment, a.unit, h1⟩, h3⟩, by simp only [Item.objs, e]; exact h4⟩
  · refine NoUb.bind_panic (y := .assertion) (s' := w) (M.bind_panic (M.bind_panic ?_)) (Eff.refl wf _ _)
    have : (r.bytes.length == Γ.size t) = false := by
      rw [a.bytes]; have := a.pos; simp; omega
    rw [this]; rfl

theorem ValueRef.cloneSmallValue_own (A : Acct Γ S) {r : ValueRef V} (hr : RefOk Γ S t r) (wf : w.heap.WF) :
    NoUb (do return Item.small (← ValueRef.cloneSmallValue r)) w (fun a w' => MadeItem Γ S w none [] a w') (fun w' => Eff w none [] w' none []) := by
  have hu : Usable S t r.bytes := hr.usable hr rfl
  refine NoUb.bind (R := fun b w' => MadeItem Γ S w none [] (.small b) w') ?_ fun _ _ h => h
  unfold ValueRef.cloneSmallValue
  rw [hr.1.cloneIntoRaw]
  rcases (cloneIntoRaw_own A w.user hu (List.replicate 8 none)).cases_on with ⟨_, ⟨b, u⟩, e, h1, h2, h3⟩ | ⟨y, ⟨b, u⟩, e, h1, h2⟩ | ⟨⟨b, u⟩, e⟩
  · simp only at h1 h2 h3
    refine NoUb.of_ok (a := ⟨⟨b⟩, r.type_id, r.alignment, r.vtable⟩) (s' := { w with user := u }) (by simp only [e]) ?_
    rcases hr.2 with a | a
    · have et : r.type_id = t := a.type_id
      refine ⟨⟨t, hr.1, ⟨et, a.alignment, a.unit, h1⟩, ?_⟩, Moved.refl wf none, ?_⟩
      · have := S.len t b h1; rw [h2] at this; simpa using this.symm
      · simp only [Item.objs, et]; exact h3
    · exfalso
      have hp : cloneIntoRawBytes Γ t r.bytes (List.replicate 8 none, w.user) = (.panic .assertion, (List.replicate 8 none, w.user)) := by
        refine M.bind_panic ?_
        have : (r.bytes.length == Γ.size t) = false := by
          rw [a.bytes]; have := a.pos; simp; omega
        rw [this]; rfl
      rw [hp] at e; cases e
  · refine NoUb.of_panic (y := y) (s' := { w with user := u }) (by simp only [e]) ⟨Moved.refl wf none, h2⟩
  · exact NoUb.of_abort (s' := { w with user := u }) (by simp only [e])

theorem BoxOk.ref {h : Heap} {b : BoxValue V} (B : BoxOk Γ S h t b) : RefOk Γ S t b.asRef := ⟨B.tab, .inl B.real⟩
theorem SmallOk.ref {b : SmallValue V} (B : SmallOk Γ S t b) : RefOk Γ S t b.asRef := ⟨B.tab, .inl B.real⟩

theorem Held.clone (A : Acct Γ S) {a : Item V} (H : Held Γ S w.heap a) (wf : w.heap.WF) :
    NoUb (DOp.cloneItem cfg a) w (fun b w' => MadeItem Γ S w none [] b w') (fun w' => Eff w none [] w' none []) := by
  cases a with
  | vec c =>
    obtain ⟨t, es, H⟩ := H
    exact Made.run H.tab (VecDyn.clone_own A H.tab H.cont H.valid wf)
  | box b => obtain ⟨t, H⟩ := H; exact ValueRef.cloneValue_own A H.ref wf
  | small b => obtain ⟨t, H⟩ := H; exact ValueRef.cloneSmallValue_own A H.ref wf

/-! ### Converting to typed values -/

theorem dropTypedBox_own (A : Acct Γ S) {b : BoxBytes} (wf : w.heap.WF) (hx : S.valid t b.bytes) (ho : OwnsBlock Γ w.heap t b.ptr) :
    NoUb (dropTypedBox Γ t b) w (fun _ w' => Eff w b.ptr [(t, b.bytes)] w' none []) (fun w' => Eff w b.ptr [(t, b.bytes)] w' none []) := by
  have fin : ∀ w1, Usr w w1 [(t, b.bytes)] [] → ∃ w2, (worldHeap (dealloc b.ptr (Γ.layout t)) : M (World (Ledger U)) Unit) w1 = (.ok (), w2) ∧
      Eff w b.ptr [(t, b.bytes)] w2 none [] := by
    intro w1 h
    have ho1 : OwnsBlock Γ w1.heap t b.ptr := by rw [h.1]; exact ho
    have wf1 : w1.heap.WF := by rw [h.1]; exact wf
    obtain ⟨h', e1, e2⟩ := Moved.dealloc wf1 ho1
    exact ⟨{ w1 with heap := h' }, by simp only [worldHeap, M.zoom_run, e1], (Eff.ofUsr wf _ h).thenMoved e2 rfl⟩
  refine NoUb.thenDrop (A.dropW w hx) ?_ ?_
  · intro _ w1 h
    obtain ⟨w2, e, h2⟩ := fin w1 h
    exact NoUb.of_ok e h2
  · intro w1 h
    obtain ⟨w2, e, h2⟩ := fin w1 h
    exact NoUb.of_ok e h2

theorem Held.consume (A : Acct Γ S) {a : Item V} (H : Held Γ S w.heap a) (wf : w.heap.WF) (hu : t' ≠ Γ.unitTy) :
    NoUb (DOp.consumeItem Γ cfg t' a) w (fun _ w' => Eff w a.ptr a.objs w' none []) (fun w' => Eff w a.ptr a.objs w' none []) := by
  cases a with
  | vec c =>
    obtain ⟨t, es, H⟩ := H
    rw [H.cont.objs]
    refine NoUb.bind (VecCopy.intoVec_own (cfg := cfg) hu H.cont H.valid wf) ?_
    rintro r w1 (⟨rfl, h⟩ | ⟨v, rfl, h⟩)
    · exact NoUb.pure h
    · obtain ⟨es', h1, h2, h3⟩ := h
      refine NoUb.bind (R := fun _ w' => Eff w (Item.vec c).ptr (objs t es) w' none []) ((h1.dropTyped A h2 h3.wf).mono ?_ ?_) fun _ _ h => h
      · intro _ w2 h; exact h3.trans h
      · intro w2 h; exact h3.trans h
  | box b =>
    obtain ⟨t, H⟩ := H
    rw [H.objs]
    simp only [DOp.consumeItem, BoxValue.downcast]
    by_cases he : Value.is t' b = true
    · have : t = t' := by
        have h1 : b.type_id = t := H.real.type_id
        have h2 : b.type_id = t' := by simpa [Value.is] using he
        rw [← h1, h2]
      subst this
      rw [if_pos he]
      refine NoUb.bind_ok (b := some b.bytes) (s' := w) rfl ?_
      exact NoUb.bind (R := fun _ w' => Eff w (Item.box b).ptr [(t, b.bytes.bytes)] w' none []) (dropTypedBox_own A wf H.bytes H.block) fun _ _ h => h
    · rw [if_neg he]
      exact NoUb.of_ok rfl (Eff.forget wf _ _)
  | small b =>
    obtain ⟨t, H⟩ := H
    rw [H.objs]
    simp only [DOp.consumeItem, SmallValue.downcast]
    by_cases he : Value.is t' b = true
    · have : t = t' := by
        have h1 : b.type_id = t := H.real.type_id
        have h2 : b.type_id = t' := by simpa [Value.is] using he
        rw [← h1, h2]
      subst this
      rw [if_pos he, if_pos H.size]
      refine NoUb.bind_ok (b := some b.bytes.bytes) (s' := w) rfl ?_
      have hv : S.valid t b.bytes.bytes := H.real.valid
      exact NoUb.bind (R := fun _ w' => Eff w (Item.small b).ptr [(t, b.bytes.bytes)] w' none [])
        ((A.dropW w hv).mono (fun _ _ h => Eff.ofUsr wf _ h) fun _ h => Eff.ofUsr wf _ h) fun _ _ h => h
    · rw [if_neg he]
      exact NoUb.of_ok rfl (Eff.forget wf _ _)

/-! ### Uses of a mutable place -/

theorem cloneFromBytes_own (A : Acct Γ S) (l : Ledger U) {d : Bytes} (hx : Usable S t x) (hd : Usable S t d) :
    NoUb (cloneFromBytes Γ t x) (d, l)
      (fun _ s => S.valid t d ∧ S.valid t s.1 ∧ Own l s.2 [(t, d)] [(t, s.1)])
      (fun s => (S.valid t d ∧ S.valid t s.1 ∧ Own l s.2 [(t, d)] [(t, s.1)]) ∨ s = (d, l)) := by
  unfold cloneFromBytes
  refine NoUb.bind (R := fun _ s => s = (d, l) ∧ x.length = Γ.size t)
    (NoUb.assert (fun e => ⟨rfl, by simpa using e⟩) fun _ => .inr rfl) ?_
  rintro _ _ ⟨rfl, h⟩
  refine NoUb.bind_ok (b := (d, l)) (s' := (d, l)) rfl ?_
  refine NoUb.bind (R := fun _ s => s = (d, l) ∧ d.length = Γ.size t)
    (NoUb.assert (fun e => ⟨rfl, by simpa using e⟩) fun _ => .inr rfl) ?_
  rintro _ _ ⟨rfl, h'⟩
  have hd' := hd.len h'
  exact (A.cloneFrom l (hx.len h) hd').mono (fun _ _ h => ⟨hd', h⟩) fun _ h => .inl ⟨hd', h⟩

theorem PStep.refl {r : ValueRef V} (wf : w.heap.WF) (q : Ptr) (G : List Obj) : PStep Γ S t r w q G (r, w) :=
  ⟨(Moved.refl wf _).drop, fun h => ⟨h.valid, (Own.refl _ _).mono (fun _ => Nat.le_refl _) fun a => by simp only [List.count_append]; omega⟩,
    fun h => ⟨h.bytes, Own.forget _ _⟩⟩

theorem ValueRef.cloneFromOther_own (A : Acct Γ S) {r o : ValueRef V} (hr : RefOk Γ S t r) (ho : RefOk Γ S t' o) (wf : w.heap.WF) :
    NoUb (ValueRef.cloneFromOther o) (r, w) (fun _ s => PStep Γ S t r w none [] s) (fun s => PStep Γ S t r w none [] s) := by
  unfold ValueRef.cloneFromOther
  refine NoUb.bind_ok (b := r) (s' := (r, w)) rfl ?_
  by_cases he : r.type_id = o.type_id
  · rw [if_pos he, hr.1.cloneFrom]
    refine NoUb.bind (R := fun _ s => PStep Γ S t r w none [] s) (NoUb.zoom ?_) fun _ _ h => h
    have key : ∀ s : Bytes × Ledger U, (S.valid t r.bytes ∧ S.valid t s.1 ∧ Own w.user s.2 [(t, r.bytes)] [(t, s.1)]) →
        PStep Γ S t r w none [] ({ r with bytes := s.1 }, { w with user := s.2 }) := by
      rintro s ⟨k1, k2, k3⟩
      refine ⟨Moved.refl wf none, fun _ => ⟨k2, by simpa using k3⟩, fun h => ?_⟩
      exfalso
      have h1 := S.len _ _ k1
      rw [h.bytes] at h1
      have := h.pos
      simp at h1; omega
    refine (cloneFromBytes_own A w.user (hr.usable ho he) (hr.usable hr rfl)).mono (fun _ s h => key s h) ?_
    rintro s (h | rfl)
    · exact key s h
    · exact PStep.refl wf _ _
  · rw [if_neg he]
    exact NoUb.pure (PStep.refl wf _ _)

/-- `assign` of a value in the buffer `b`. -/
theorem ValueRef.assign_own {B : Type} [ByteBuf B] {r : ValueRef V} {b : Value B V} {q : Ptr} (hr : RefOk Γ S t r)
    (hb : Real Γ S t' b.asRef) (wf : w.heap.WF)
    (hd : ∀ y, S.valid t' y → NoUb (Value.drop { b with bytes := ByteBuf.set y b.bytes }) w (fun _ w' => Eff w q [(t', y)] w' none [])
      (fun w' => Eff w q [(t', y)] w' none [])) :
    NoUb (ValueRef.assign b) (r, w) (fun _ s => PStep Γ S t r w q [(t', b.asRef.bytes)] s)
      (fun s => PStep Γ S t r w q [(t', b.asRef.bytes)] s) := by
  have run : ∀ (x y : Bytes), ValueRef.swap (r, b.asRef) = (.ok (), ({ r with bytes := x }, { b.asRef with bytes := y })) → S.valid t' y →
      (∀ w1, Eff w q [(t', y)] w1 none [] → PStep Γ S t r w q [(t', b.asRef.bytes)] ({ r with bytes := x }, w1)) →
      NoUb (ValueRef.assign b) (r, w) (fun _ s => PStep Γ S t r w q [(t', b.asRef.bytes)] s)
        (fun s => PStep Γ S t r w q [(t', b.asRef.bytes)] s) := by
    intro x y hs hy hk
    refine NoUb.rearrange (n := M.thenDrop (M.lift (.ok ())) (Value.drop { b with bytes := ByteBuf.set y b.bytes })) (t := w)
      (f := fun w1 => ({ r with bytes := x }, w1)) ?_ ?_
    · refine NoUb.thenDrop (Q1 := fun _ w1 => w1 = w) (E1 := fun _ => False) (NoUb.of_ok rfl rfl) ?_ fun _ h => h.elim
      rintro _ _ rfl
      exact (hd y hy).mono (fun _ w1 h => hk w1 h) fun w1 h => hk w1 h
    · simp only [ValueRef.assign, hs]
  by_cases he : r.type_id = b.type_id
  · rcases hr.2 with a | a
    · have : t' = t := by
        have h1 : b.type_id = t' := hb.type_id
        rw [← h1, ← he, a.type_id]
      subst this
      refine run b.asRef.bytes r.bytes ?_ a.valid ?_
      · unfold ValueRef.swap
        rw [M.bind_ok (M.get_run _)]
        have h1 : r.type_id = b.asRef.type_id := he
        have h2 : sliceSwapWith r.bytes b.asRef.bytes = .ok (b.asRef.bytes, r.bytes) := by
          simp [sliceSwapWith, S.len _ _ a.valid, S.len _ _ hb.valid]
        simp only [h1, if_true, h2, M.bind_run, M.lift_run, M.set_run]
      · rintro w1 ⟨k1, k2⟩
        refine ⟨k1, fun _ => ⟨hb.valid, ?_⟩, fun h => absurd (a.type_id.symm.trans h.type_id) a.unit⟩
        exact (k2.frame [(t', b.asRef.bytes)]).mono (fun _ => Nat.le_refl _) fun _ => by simp
    · exact absurd (hb.type_id.symm.trans (he.symm.trans a.type_id)) hb.unit
  · refine run r.bytes b.asRef.bytes ?_ hb.valid ?_
    · unfold ValueRef.swap
      rw [M.bind_ok (M.get_run _)]
      have : ¬ r.type_id = b.asRef.type_id := he
      simp only [this, if_false, M.pure_run]
    · rintro w1 ⟨k1, k2⟩
      refine ⟨k1, fun h => ⟨h.valid, ?_⟩, fun h => ⟨h.bytes, k2⟩⟩
      exact (k2.frame [(t, r.bytes)]).mono (fun a => by simp only [List.count_append]; omega) fun _ => by simp

/-- `assign` of the content of a variable. -/
theorem DOp.assignItem_own (A : Acct Γ S) {r : ValueRef V} {b : Item V} (hr : RefOk Γ S t r) (H : Held Γ S w.heap b) (wf : w.heap.WF) :
    NoUb (DOp.assignItem b) (r, w) (fun _ s => PStep Γ S t r w b.ptr b.objs s) (fun s => PStep Γ S t r w b.ptr b.objs s) := by
  cases b with
  | vec c => exact NoUb.pure (PStep.refl wf _ _)
  | box b =>
    obtain ⟨t', B⟩ := H
    rw [B.objs]
    refine NoUb.bind (R := fun _ s => PStep Γ S t r w (Item.box b).ptr [(t', b.bytes.bytes)] s) (ValueRef.assign_own hr B.real wf ?_) fun _ _ h => h
    intro y hy
    exact BoxOk.drop A (b := { b with bytes := ByteBuf.set y b.bytes }) ⟨B.tab, ⟨B.real.type_id, B.real.alignment, B.real.unit, hy⟩, B.block⟩ wf
  | small b =>
    obtain ⟨t', B⟩ := H
    rw [B.objs]
    refine NoUb.bind (R := fun _ s => PStep Γ S t r w (Item.small b).ptr [(t', b.bytes.bytes)] s) (ValueRef.assign_own hr B.real wf ?_) fun _ _ h => h
    intro y hy
    exact (SmallOk.drop A (b := { b with bytes := ByteBuf.set y b.bytes }) ⟨B.tab, ⟨B.real.type_id, B.real.alignment, B.real.unit, hy⟩, B.size⟩ w).mono
      (fun _ _ h => Eff.ofUsr wf _ h) fun _ h => Eff.ofUsr wf _ h

end Dync
