import Verif.ElemFixed
import Verif.Props.History
import Verif.Props.HistoryDyn
/-!
# C03: the element type of a container is fixed
-/
namespace Dync
variable {U V α : Type} {Γ : TyEnv U} {cfg : Cfg}

/-! ### Any sequence of calls on one container -/

/-- The calls that can change a container (`VecCopy` or `VecDyn`), with arbitrary arguments. A call that
hands out a mutable reference carries what the caller does with it. -/
inductive Mutation (U V : Type) where
  | reserve (n : Nat)
  | pushAs (t : TyId) (x : Bytes)
  | push (v : CopyValue V)
  | pushBox (v : BoxValue V)
  | pushCloned (v : ValueRef V)
  | append (other : VecCopy V)
  | appendTo (other : VecCopy V)              -- `other.append(&mut self)`
  | extend (hint : Nat) (vs : List (CopyValue V))
  | resizeCopy (t : TyId) (n : Nat) (x : Bytes)
  | resizeDyn (t : TyId) (n : Nat) (x : Bytes)
  | clearCopy
  | clearDyn
  | fillCopy (t : TyId) (x : Bytes)
  | fillDyn (t : TyId) (x : Bytes)
  | copyFromSlice (t : TyId) (xs : List Bytes)
  | rotateLeft (n : Nat)
  | rotateRight (n : Nat)
  | asMutSliceAs (t : TyId) (m : M (List Bytes × World U) Unit)
  | getMutAs (t : TyId) (i : Nat) (m : M (Bytes × World U) Unit)
  | getMutCopy (i : Nat) (m : M (CopyValue V × World U) Unit)
  | getMutDyn (i : Nat) (m : M (ValueRef V × World U) Unit)
  | iterMut (m : M (CopyValue V × World U) Unit)
  | asMutSlice (m : M (SliceCopy V) Unit)

/-- The other container of an `append`, next to the user state. -/
def appendWith (Γ : TyEnv U) (cfg : Cfg) (other : VecCopy V) : M (VecCopy V × World U) Unit := ⟨fun s =>
  let out := VecCopy.append Γ cfg (s.1, (⟨s.2.heap, (other, s.2.user)⟩ : World (VecCopy V × U)))
  (out.1.map fun _ => (), (out.2.1, ⟨out.2.2.heap, out.2.2.user.2⟩))⟩
/-- The container is the argument of an `append`. -/
def appendInto (Γ : TyEnv U) (cfg : Cfg) (other : VecCopy V) : M (VecCopy V × World U) Unit := ⟨fun s =>
  let out := VecCopy.append Γ cfg (other, (⟨s.2.heap, (s.1, s.2.user)⟩ : World (VecCopy V × U)))
  (out.1.map fun _ => (), (out.2.2.user.1, ⟨out.2.2.heap, out.2.2.user.2⟩))⟩

/-- Run the call with the implementation. -/
def Mutation.run [HasDrop U V] [HasClone U V] (Γ : TyEnv U) (cfg : Cfg) : Mutation U V → M (VecCopy V × World U) Unit
  | .reserve n => VecCopy.reserve Γ cfg n
  | .pushAs t x => do let _ ← VecCopy.pushAs Γ cfg t x
  | .push v => do let _ ← VecCopy.push Γ cfg v
  | .pushBox v => do let _ ← VecDyn.push Γ cfg v
  | .pushCloned v => do let _ ← VecDyn.pushCloned Γ cfg v
  | .append b => appendWith Γ cfg b
  | .appendTo b => appendInto Γ cfg b
  | .extend n vs => VecCopy.extend Γ cfg n vs
  | .resizeCopy t n x => do let _ ← VecCopy.resize Γ cfg t n x
  | .resizeDyn t n x => do let _ ← VecDyn.resize Γ cfg t n x
  | .clearCopy => VecCopy.clear Γ cfg
  | .clearDyn => VecDyn.clear Γ cfg
  | .fillCopy t x => do let _ ← VecCopy.fill Γ t x
  | .fillDyn t x => do let _ ← VecDyn.fill Γ t x
  | .copyFromSlice t xs => do let _ ← VecCopy.copyFromSlice Γ cfg t xs
  | .rotateLeft n => VecCopy.rotateLeft Γ cfg n
  | .rotateRight n => VecCopy.rotateRight Γ cfg n
  | .asMutSliceAs t m => do let _ ← VecCopy.asMutSliceAs Γ t m
  | .getMutAs t i m => do let _ ← VecCopy.getMutAs Γ t i m
  | .getMutCopy i m => VecCopy.getMut cfg i m
  | .getMutDyn i m => VecDyn.getMut cfg i m
  | .iterMut m => VecCopy.iterMut m
  | .asMutSlice m => VecCopy.asMutSlice m

theorem KeepsElem.run [HasDrop U V] [HasClone U V] (m : Mutation U V) : KeepsElem Γ (m.run Γ cfg) := by
  cases m <;> unfold Mutation.run
  case append b =>
    intro c w a c' w' h _
    simp only [appendWith, Prod.mk.injEq] at h
    obtain ⟨h, rfl, rfl⟩ := h
    rcases hr : VecCopy.append Γ cfg (c, (⟨w.heap, (b, w.user)⟩ : World (VecCopy V × U))) with ⟨r, c1, h1, b1, u1⟩
    simp only [hr] at h ⊢
    cases r with
    | ok r => exact (append_elem V hr).1
    | _ => simp [Res.map] at h
  case appendTo b =>
    intro c w a c' w' h _
    simp only [appendInto, Prod.mk.injEq] at h
    obtain ⟨h, rfl, rfl⟩ := h
    rcases hr : VecCopy.append Γ cfg (b, (⟨w.heap, (c, w.user)⟩ : World (VecCopy V × U))) with ⟨r, c1, h1, b1, u1⟩
    simp only [hr] at h ⊢
    cases r with
    | ok r => exact (append_elem V hr).2
    | _ => simp [Res.map] at h
  case reserve => exact reserve V _
  case pushAs => exact bind (pushAs V _ _) fun _ => pure _
  case push => exact bind (push V _) fun _ => pure _
  case pushBox => exact bind (dynPush V _) fun _ => pure _
  case pushCloned => exact bind (dynPushCloned V _) fun _ => pure _
  case extend => exact extend V _ _
  case resizeCopy => exact bind (resize V _ _ _) fun _ => pure _
  case resizeDyn => exact bind (dynResize V _ _ _) fun _ => pure _
  case clearCopy => exact dataClear V
  case clearDyn => exact dynClear V
  case fillCopy => exact bind (fill V _ _) fun _ => pure _
  case fillDyn => exact bind (dynFill V _ _) fun _ => pure _
  case copyFromSlice => exact bind (copyFromSlice V _ _) fun _ => pure _
  case rotateLeft => exact rotateLeft V _
  case rotateRight => exact rotateRight V _
  case asMutSliceAs => exact bind (asMutSliceAs V _ _) fun _ => pure _
  case getMutAs => exact bind (getMutAs V _ _ _) fun _ => pure _
  case getMutCopy => exact getMut V _ _
  case getMutDyn => exact dynGetMut V _ _
  case iterMut => exact iterMut V _
  case asMutSlice => exact asMutSlice V _

/-- **C03**: after any sequence of calls that return, with arbitrary arguments, wrong types included, and
arbitrary user code, the element type, the element size and the alignment are the ones before. The container
need not satisfy any invariant beyond its record being the one of some type (see `C03_constructors`). -/
theorem C03_elem_fixed [HasDrop U V] [HasClone U V] {ms : List (Mutation U V)} {c c' : VecCopy V} {w w' : World U}
    (hc : c.data.Faithful Γ) (h : M.forEach ms (Mutation.run Γ cfg) (c, w) = (.ok (), (c', w'))) :
    c'.elementTypeId = c.elementTypeId ∧ c'.elementSize = c.elementSize ∧
      c'.data.elem.alignment = c.data.elem.alignment ∧ c'.data.Faithful Γ := by
  have e := KeepsElem.forEach ms (fun m => KeepsElem.run m) _ _ _ _ _ h hc
  unfold VecCopy.elementTypeId VecCopy.elementSize VecVoid.Faithful
  rw [e]
  exact ⟨rfl, rfl, rfl, hc⟩

/-! ### Constructors -/

theorem withLocal_inv {τ : Type} {x x' : τ} {d : τ → M (World U) Unit} {m : M (τ × World U) α} {a : α} {w w' : World U}
    (h : withLocal x d m w = (.ok (a, x'), w')) : m (x, w) = (.ok a, (x', w')) := by
  simp only [withLocal] at h
  rcases hm : m (x, w) with ⟨r, x1, w1⟩
  cases r with
  | ok r =>
    simp only [hm, Prod.mk.injEq, Res.ok.injEq] at h
    obtain ⟨⟨rfl, rfl⟩, rfl⟩ := h
    rfl
  | panic y =>
    rcases hd : d x1 w1 with ⟨r2, w2⟩
    cases r2 <;> simp [hm, hd] at h
  | ub => simp [hm] at h
  | abort => simp [hm] at h

theorem Still.byteChunks {σ : Type} (d : VecVoid) : Still (d.byteChunks : M σ (List Bytes)) :=
  Still.bind (Still.lift _) fun _ => Still.lift _

theorem vecCopy_fromVec_elem {t : TyId} {vt : V} {v : RVec} {w w' : World U} {c : VecCopy V}
    (h : VecCopy.fromVec Γ t vt v w = (.ok c, w')) : c.data.elem = ElemInfo.new Γ t := by
  unfold VecCopy.fromVec at h
  obtain ⟨x, w1, -, h⟩ := M.bind_ok_inv h
  obtain ⟨d, w2, h1, h⟩ := M.bind_ok_inv h
  cases h
  exact fromVec_elem h1

theorem vecVoid_clone_elem {v v' : VecVoid} {w w' : World U} (h : VecVoid.clone cfg v w = (.ok v', w')) : v'.elem = v.elem := by
  unfold VecVoid.clone evalAlign at h
  split at h
  · obtain ⟨x, w1, -, h⟩ := M.bind_ok_inv h
    obtain ⟨y, w2, -, h⟩ := M.bind_ok_inv h
    obtain ⟨⟨⟨⟩, z⟩, w3, -, h⟩ := M.bind_ok_inv h
    exact fromVecOverride_elem h
  · simp at h

theorem withTypeFrom_elem {m : Meta V} {w w' : World U} {c : VecCopy V}
    (h : VecCopy.withTypeFrom m w = (.ok c, w')) : c.data.elem = m.elem := by
  unfold VecCopy.withTypeFrom at h
  obtain ⟨d, w1, h1, h⟩ := M.bind_ok_inv h
  cases h
  unfold evalAlign at h1
  split at h1
  · obtain ⟨v, w2, -, h1⟩ := M.bind_ok_inv h1
    exact fromVecOverride_elem h1
  · simp at h1

/-- **C03**: every way of making a container gives it the record of the type argument, of the container it is
cloned from, or of the container or slice whose type it takes over. -/
theorem C03_constructors {t : TyId} {vt : V} {w w' : World U} {c : VecCopy V} :
    (VecCopy.withType Γ t vt w = (.ok c, w') → c.data.elem = ElemInfo.new Γ t) ∧
    (∀ n, VecCopy.withCapacity Γ t vt n w = (.ok c, w') → c.data.elem = ElemInfo.new Γ t) ∧
    (∀ n x, VecCopy.withSize Γ t vt n x w = (.ok c, w') → c.data.elem = ElemInfo.new Γ t) ∧
    (∀ xs, VecCopy.fromSlice Γ t vt xs w = (.ok c, w') → c.data.elem = ElemInfo.new Γ t) ∧
    (∀ v, VecCopy.fromVec Γ t vt v w = (.ok c, w') → c.data.elem = ElemInfo.new Γ t) ∧
    (∀ n x, VecDyn.withSize Γ t vt n x w = (.ok c, w') → c.data.elem = ElemInfo.new Γ t) ∧
    (∀ xs, VecDyn.fromSlice Γ t vt xs w = (.ok c, w') → c.data.elem = ElemInfo.new Γ t) ∧
    (∀ m : Meta V, VecCopy.withTypeFrom m w = (.ok c, w') → c.data.elem = m.elem) ∧
    (∀ b : VecCopy V, VecCopy.clone cfg b w = (.ok c, w') → c.data.elem = b.data.elem) ∧
    (∀ [HasClone U V] (b : VecDyn V), VecDyn.clone cfg b w = (.ok c, w') → c.data.elem = b.data.elem) := by
  refine ⟨?_, ?_, ?_, ?_, ?_, ?_, ?_, ?_, ?_, ?_⟩
  · exact vecCopy_fromVec_elem
  · intro n h
    obtain ⟨v, w1, -, h⟩ := M.bind_ok_inv h
    exact vecCopy_fromVec_elem h
  · intro n x h
    obtain ⟨v, w1, -, h⟩ := M.bind_ok_inv h
    exact vecCopy_fromVec_elem h
  · intro xs h
    obtain ⟨v, w1, -, h⟩ := M.bind_ok_inv h
    obtain ⟨v, w1, -, h⟩ := M.bind_ok_inv h
    exact vecCopy_fromVec_elem h
  · intro v h; exact vecCopy_fromVec_elem h
  · intro n x h
    obtain ⟨v, w1, -, h⟩ := M.bind_ok_inv h
    obtain ⟨v, w1, -, h⟩ := M.bind_ok_inv h
    exact vecCopy_fromVec_elem h
  · intro xs h
    obtain ⟨v, w1, -, h⟩ := M.bind_ok_inv h
    obtain ⟨v, w1, -, h⟩ := M.bind_ok_inv h
    exact vecCopy_fromVec_elem h
  · intro m h; exact withTypeFrom_elem h
  · intro b h
    unfold VecCopy.clone at h
    obtain ⟨d, w1, h1, h⟩ := M.bind_ok_inv h
    cases h
    exact vecVoid_clone_elem h1
  · intro _ b h
    unfold VecDyn.clone at h
    obtain ⟨d, w1, h1, h⟩ := M.bind_ok_inv h
    obtain ⟨⟨⟨⟩, d2⟩, w2, h2, h⟩ := M.bind_ok_inv h
    cases h
    rw [← vecVoid_clone_elem h1]
    obtain ⟨src, q3, h3, k3⟩ := M.bind_ok_inv (withLocal_inv h2)
    obtain rfl := (Still.byteChunks _).ok h3
    obtain ⟨new, q4, h4, k4⟩ := M.bind_ok_inv k3
    obtain ⟨-, rfl⟩ := getSelf_inv h4
    obtain ⟨dst, q5, h5, k5⟩ := M.bind_ok_inv k4
    obtain rfl := (Still.byteChunks _).ok h5
    simp only [Prod.mk.injEq] at k5
    rw [← k5.2.1]

/-! ### Whole programs -/

/-- Every container in the program has the record of some type. -/
def FaithfulSlots (Γ : TyEnv U) (s : Slots V) : Prop := ∀ k c, s k = some c → c.data.Faithful Γ

/-- From `s` to `s'` no variable other than `tgt` got a container of another type. -/
def SlotsKeep (Γ : TyEnv U) (tgt : Option Nat) (s s' : Slots V) : Prop :=
  FaithfulSlots Γ s → FaithfulSlots Γ s' ∧ ∀ k, tgt ≠ some k → ∀ c', s' k = some c' →
    ∃ c, s k = some c ∧ c'.data.elem = c.data.elem

theorem SlotsKeep.refl (tgt : Option Nat) (s : Slots V) : SlotsKeep Γ tgt s s := fun h => ⟨h, fun _ _ c' hc => ⟨c', hc, rfl⟩⟩

/-- A variable gets a container of the same type. -/
theorem SlotsKeep.put {tgt : Option Nat} {s : Slots V} {k : Nat} {c c' : VecCopy V} (hk : s k = some c)
    (he : c.data.Faithful Γ → c'.data.elem = c.data.elem) : SlotsKeep Γ tgt s (Slots.put s k (some c')) := by
  intro hf
  refine ⟨fun j b hj => ?_, fun j _ b hj => ?_⟩
  · unfold Slots.put at hj
    split at hj
    · cases hj
      unfold VecVoid.Faithful
      rw [he (hf k c hk)]
      exact hf k c hk
    · exact hf j b hj
  · unfold Slots.put at hj
    split at hj
    · subst_vars
      cases hj
      exact ⟨c, hk, he (hf _ c hk)⟩
    · exact ⟨b, hj, rfl⟩

/-- A variable gets a new container. -/
theorem SlotsKeep.new {s : Slots V} {k : Nat} {c' : VecCopy V} (he : FaithfulSlots Γ s → c'.data.Faithful Γ) :
    SlotsKeep Γ (some k) s (Slots.put s k (some c')) := by
  intro hf
  refine ⟨fun j b hj => ?_, fun j hne b hj => ?_⟩
  · unfold Slots.put at hj
    split at hj
    · cases hj; exact he hf
    · exact hf j b hj
  · unfold Slots.put at hj
    split at hj
    · subst_vars; exact absurd rfl hne
    · exact ⟨b, hj, rfl⟩

theorem SlotsKeep.gone {tgt : Option Nat} {s : Slots V} {k : Nat} : SlotsKeep Γ tgt s (Slots.put s k none) := by
  intro hf
  refine ⟨fun j b hj => ?_, fun j _ b hj => ?_⟩
  · unfold Slots.put at hj
    split at hj
    · cases hj
    · exact hf j b hj
  · unfold Slots.put at hj
    split at hj
    · cases hj
    · exact ⟨b, hj, rfl⟩

theorem SlotsKeep.onSlot {tgt : Option Nat} {k : Nat} {m : M (VecCopy V × World U) Obs} (hm : KeepsElem Γ m) {s s' : Slots V}
    {w w' : World U} {o : Obs} (h : Op.onSlot k m (s, w) = (.ok o, (s', w'))) : SlotsKeep Γ tgt s s' := by
  simp only [Op.onSlot] at h
  split at h
  · cases h; exact refl _ _
  · rename_i c hc
    simp only [Prod.mk.injEq] at h
    obtain ⟨h, rfl, rfl⟩ := h
    exact put hc fun hf => hm _ _ _ _ _ (Prod.ext h rfl) hf

theorem assign_inv {k : Nat} {c : VecCopy V} {s s' : Slots V} {w w' : World U}
    (h : Op.assign cfg k c (s, w) = (.ok (), (s', w'))) : s' = Slots.put s k (some c) := by
  unfold Op.assign at h
  obtain ⟨⟨s1, w1⟩, q, h1, k1⟩ := M.bind_ok_inv h
  simp only [M.get_run, Prod.mk.injEq, Res.ok.injEq] at h1
  obtain ⟨⟨rfl, rfl⟩, rfl⟩ := h1
  simp only at k1
  split at k1
  · simp only [M.modify_run, Prod.mk.injEq] at k1
    exact k1.2.1.symm
  · obtain ⟨⟨⟩, ⟨s2, w2⟩, h2, k2⟩ := M.bind_ok_inv k1
    simp only [onWorld, M.zoom_run, Prod.mk.injEq] at h2
    simp only [M.modify_run, Prod.mk.injEq] at k2
    rw [← k2.2.1, h2.2.1]

theorem onWorld_inv {σ : Type} {m : M (World U) α} {s s' : σ} {w w' : World U} {a : α}
    (h : onWorld m (s, w) = (.ok a, (s', w'))) : m w = (.ok a, w') ∧ s' = s := by
  simp only [onWorld, M.zoom_run, Prod.mk.injEq] at h
  exact ⟨Prod.ext h.1 h.2.2, h.2.1.symm⟩

theorem new_faithful {t : TyId} {v : VecVoid} (h : v.elem = ElemInfo.new Γ t) : v.Faithful Γ := by
  unfold VecVoid.Faithful
  rw [h]
  rfl

theorem keep_create {k : Nat} {m : M (World U) (VecCopy V)} {s s' : Slots V} {w w' : World U} {o : Obs}
    (hm : ∀ w c w', m w = (.ok c, w') → FaithfulSlots Γ s → c.data.Faithful Γ)
    (h : (do let c ← onWorld m; Op.assign cfg k c; pure .done : M (Slots V × World U) Obs) (s, w) = (.ok o, (s', w'))) :
    SlotsKeep Γ (some k) s s' := by
  obtain ⟨c, ⟨s1, w1⟩, h1, k1⟩ := M.bind_ok_inv h
  obtain ⟨h1', rfl⟩ := onWorld_inv h1
  obtain ⟨⟨⟩, ⟨s2, w2⟩, h2, k2⟩ := M.bind_ok_inv k1
  cases k2
  rw [assign_inv h2]
  exact .new fun hf => hm _ _ _ h1' hf

theorem Still.umul {σ : Type} (a b : Nat) : Still (Dync.umul cfg a b : M σ Nat) := by
  unfold Dync.umul
  split
  · exact pure _
  · split
    · exact panic _
    · exact pure _

theorem Still.getAs {σ : Type} (t : TyId) (i : Nat) (c : VecCopy V) : Still (VecCopy.getAs Γ t i c : M σ (Option Bytes)) := by
  unfold VecCopy.getAs
  refine bind (assert _) fun _ => ?_
  split
  · exact pure _
  · split
    · exact pure _
    · exact ub

theorem Still.getRef {σ : Type} (i : Nat) (c : VecCopy V) : Still (VecCopy.getRef cfg i c : M σ (CopyValue V)) := by
  unfold VecCopy.getRef
  refine bind (debugAssert _) fun _ => bind (umul _ _) fun _ => ?_
  split
  · exact pure _
  · exact ub

theorem Still.asSliceAs {σ : Type} (t : TyId) (c : VecCopy V) : Still (VecCopy.asSliceAs Γ t c : M σ (Option (List Bytes))) := by
  unfold VecCopy.asSliceAs
  split
  · exact pure _
  · exact bind (lift _) fun _ => pure _

theorem Still.iter {σ : Type} (c : VecCopy V) : Still (VecCopy.iter c : M σ (List (CopyValue V))) := by
  unfold VecCopy.iter
  exact bind (byteChunks _) fun _ => pure _

theorem intoVec_some_type {t : TyId} {c : VecCopy V} {w w' : World U} {v : RVec}
    (h : VecCopy.intoVec Γ cfg t c w = (.ok (some v), w')) : t = c.data.elem.type_id := by
  by_contra hne
  unfold VecCopy.intoVec at h
  obtain ⟨r, w1, h1, k1⟩ := M.bind_ok_inv h
  unfold VecCopy.check VecCopy.elementTypeId at h1
  rw [if_pos hne] at h1
  obtain ⟨⟨⟩, w2, h2, k2⟩ := M.bind_ok_inv h1
  cases k2
  cases k1

theorem exec_keeps {op : Op} {vt : V} {s s' : Slots V} {w w' : World U} {o : Obs}
    (h : op.exec Γ cfg vt (s, w) = (.ok o, (s', w'))) : SlotsKeep Γ op.target s s' := by
  have C := fun t (w w' : World U) c => C03_constructors (Γ := Γ) (cfg := cfg) (t := t) (vt := vt) (w := w) (w' := w') (c := c)
  cases op <;> simp only [Op.exec] at h
  case withType k t => exact keep_create (fun w c w' hm _ => new_faithful ((C t w w' c).1 hm)) h
  case withCapacity k t n => exact keep_create (fun w c w' hm _ => new_faithful ((C t w w' c).2.1 n hm)) h
  case fromSlice k t xs => exact keep_create (fun w c w' hm _ => new_faithful ((C t w w' c).2.2.2.1 xs hm)) h
  case drop k =>
    simp only [Op.takeSlot] at h
    split at h
    · cases h; exact .refl _ _
    · obtain ⟨⟨⟩, ⟨s1, w1⟩, h1, h⟩ := M.bind_ok_inv h
      obtain ⟨-, rfl⟩ := onWorld_inv h1
      cases h
      exact .gone
  case clone k j =>
    split at h
    · cases h; exact .refl _ _
    · rename_i c hc
      refine keep_create (fun w c' w' hm hf => ?_) h
      have e := (C 0 w w' c').2.2.2.2.2.2.2.2.1 c hm
      unfold VecVoid.Faithful
      rw [e]
      exact hf k c hc
  case append k j =>
    split at h
    · cases h; exact .refl _ _
    · rename_i hkj
      split at h
      · rename_i c b hk hj
        simp only [Prod.mk.injEq] at h
        obtain ⟨h, rfl, rfl⟩ := h
        rcases hr : VecCopy.append Γ cfg (c, (⟨w.heap, (b, w.user)⟩ : World (VecCopy V × U))) with ⟨r, c1, h1, b1, u1⟩
        simp only [hr] at h ⊢
        cases r with
        | ok r =>
          obtain ⟨e1, e2⟩ := append_elem V hr
          intro hf
          obtain ⟨f1, f2⟩ := SlotsKeep.put (Γ := Γ) (tgt := none) (c' := c1) hk (fun _ => e1) hf
          have hj' : Slots.put s k (some c1) j = some b := by
            unfold Slots.put
            rw [if_neg (fun e => hkj e.symm)]
            exact hj
          obtain ⟨g1, g2⟩ := SlotsKeep.put (Γ := Γ) (tgt := none) (c' := b1) hj' (fun _ => e2) f1
          refine ⟨g1, fun i _ d hd => ?_⟩
          obtain ⟨d1, hd1, ed1⟩ := g2 i (by simp) d hd
          obtain ⟨d2, hd2, ed2⟩ := f2 i (by simp) d1 hd1
          exact ⟨d2, hd2, ed1.trans ed2⟩
        | _ => simp [Res.map] at h
      · cases h; exact .refl _ _
  case roundTrip k t =>
    simp only [Op.takeSlot] at h
    split at h
    · cases h; exact .refl _ _
    · rename_i c hc
      obtain ⟨r, ⟨s1, w1⟩, h1, h⟩ := M.bind_ok_inv h
      obtain ⟨h1', rfl⟩ := onWorld_inv h1
      cases r with
      | none => cases h; exact .gone
      | some v =>
        obtain ⟨c', ⟨s2, w2⟩, h2, k2⟩ := M.bind_ok_inv h
        obtain ⟨h2', e2⟩ := onWorld_inv h2
        obtain ⟨⟨⟩, ⟨s3, w3⟩, h3, k3⟩ := M.bind_ok_inv k2
        cases k3
        subst e2
        rw [assign_inv h3]
        have e := vecCopy_fromVec_elem h2'
        have ht : t = c.data.elem.type_id := intoVec_some_type h1'
        have : Slots.put (Slots.put s k none) k (some c') = Slots.put s k (some c') := by
          funext i
          unfold Slots.put
          split <;> rfl
        rw [this]
        exact .put hc fun hf => by rw [e, ht]; exact hf.symm
  all_goals refine SlotsKeep.onSlot ?_ h
  case pushAs => exact .bind (.pushAs V _ _) fun _ => .pure _
  case push => exact .bind (.push V _) fun _ => .pure _
  case resize => exact .bind (.resize V _ _ _) fun _ => .pure _
  case reserve => exact .bind (.reserve V _) fun _ => .pure _
  case clear => exact .bind (.dataClear V) fun _ => .pure _
  case fill => exact .bind (.fill V _ _) fun _ => .pure _
  case copyFromSlice => exact .bind (.copyFromSlice V _ _) fun _ => .pure _
  case rotateLeft => exact .bind (.rotateLeft V _) fun _ => .pure _
  case rotateRight => exact .bind (.rotateRight V _) fun _ => .pure _
  case swap => exact .bind (.asMutSlice V _) fun _ => .pure _
  case setAs => exact .bind (.getMutAs V _ _ _) fun _ => .pure _
  case setValue => exact .bind (.getMut V _ _) fun _ => .pure _
  case mapAll => exact .bind (.iterMut V _) fun _ => .pure _
  case len => exact .bind .getSelf fun _ => .pure _
  case typeId => exact .bind .getSelf fun _ => .pure _
  all_goals
    intro c w a c' w' h _
    obtain ⟨x, q, h1, k1⟩ := M.bind_ok_inv h
    obtain ⟨rfl, rfl⟩ := getSelf_inv h1
    obtain ⟨y, q2, h2, k2⟩ := M.bind_ok_inv k1
  case getAs =>
    obtain rfl := (Still.getAs _ _ _).ok h2
    cases y <;> cases k2 <;> rfl
  case get =>
    obtain rfl := (Still.getRef _ _).ok h2
    cases k2; rfl
  case asSlice =>
    obtain rfl := (Still.asSliceAs _ _).ok h2
    cases y <;> cases k2 <;> rfl
  case iter =>
    obtain rfl := (Still.iter _).ok h2
    cases k2; rfl


/-- **C03** for whole programs: whatever a program over any number of `VecCopy` containers does, and whatever
it passes, if it returns then a variable that was not given a new container holds one of the same element
type, size and alignment as before. -/
theorem C03_veccopy_program {ops : List Op} {vt : V} {s s' : Slots V} {w w' : World U} {os : List Obs}
    (hf : ∀ k c, s k = some c → c.data.Faithful Γ) (h : runOps Γ cfg vt ops (s, w) = (.ok os, (s', w'))) {k : Nat}
    (hk : ∀ op ∈ ops, op.target ≠ some k) {c' : VecCopy V} (hc : s' k = some c') :
    ∃ c, s k = some c ∧ c'.elementTypeId = c.elementTypeId ∧ c'.elementSize = c.elementSize ∧
      c'.data.elem.alignment = c.data.elem.alignment := by
  suffices ∃ c, s k = some c ∧ c'.data.elem = c.data.elem by
    obtain ⟨c, h1, h2⟩ := this
    refine ⟨c, h1, ?_⟩
    unfold VecCopy.elementTypeId VecCopy.elementSize
    rw [h2]
    exact ⟨rfl, rfl, rfl⟩
  induction ops generalizing s w os with
  | nil => cases h; exact ⟨c', hc, rfl⟩
  | cons op ops ih =>
    obtain ⟨o, ⟨s1, w1⟩, h1, k1⟩ := M.bind_ok_inv h
    obtain ⟨os1, ⟨s2, w2⟩, h2, k2⟩ := M.bind_ok_inv k1
    cases k2
    obtain ⟨f1, g1⟩ := exec_keeps h1 hf
    obtain ⟨c1, hc1, e1⟩ := ih f1 h2 fun op hop => hk op (List.mem_cons_of_mem _ hop)
    obtain ⟨c2, hc2, e2⟩ := g1 k (hk op (by simp)) c1 hc1
    exact ⟨c2, hc2, e1.trans e2⟩

/-! ### Programs over `VecDyn` -/

/-- The variable an operation creates something in. -/
def DOp.target : DOp → Option Nat
  | .withType k _ => some k
  | .withCapacity k _ _ => some k
  | .fromVec k _ _ => some k
  | .fromSlice k _ _ => some k
  | .withSize k _ _ _ => some k
  | .newBox k _ _ => some k
  | .newSmall k _ _ => some k
  | .clone _ j => some j
  | .cloneValue _ _ j => some j
  | .cloneSmall _ _ j => some j
  | _ => none

/-- Every container in the program has the record of some type. -/
def FaithfulDSlots (Γ : TyEnv U) (s : DSlots V) : Prop := ∀ k c, s k = some (.vec c) → c.data.Faithful Γ

/-- From `s` to `s'` no variable other than `tgt` got a container of another type. -/
def DSlotsKeep (Γ : TyEnv U) (tgt : Option Nat) (s s' : DSlots V) : Prop :=
  FaithfulDSlots Γ s → FaithfulDSlots Γ s' ∧ ∀ k, tgt ≠ some k → ∀ c', s' k = some (.vec c') →
    ∃ c, s k = some (.vec c) ∧ c'.data.elem = c.data.elem

/-- A step that, if it returns, keeps the element records of all variables but `tgt`. -/
def DKeeps (Γ : TyEnv U) (tgt : Option Nat) (m : M (DSlots V × World U) α) : Prop :=
  ∀ s w a s' w', m (s, w) = (.ok a, (s', w')) → DSlotsKeep Γ tgt s s'

namespace DKeeps
variable {tgt : Option Nat} {β : Type}

theorem refl (s : DSlots V) : DSlotsKeep Γ tgt s s := fun h => ⟨h, fun _ _ c' hc => ⟨c', hc, rfl⟩⟩

theorem trans {s1 s2 s3 : DSlots V} (h1 : DSlotsKeep Γ tgt s1 s2) (h2 : DSlotsKeep Γ tgt s2 s3) : DSlotsKeep Γ tgt s1 s3 := by
  intro hf
  obtain ⟨f1, g1⟩ := h1 hf
  obtain ⟨f2, g2⟩ := h2 f1
  refine ⟨f2, fun k hk c hc => ?_⟩
  obtain ⟨c1, hc1, e1⟩ := g2 k hk c hc
  obtain ⟨c2, hc2, e2⟩ := g1 k hk c1 hc1
  exact ⟨c2, hc2, e1.trans e2⟩

theorem still {m : M (DSlots V × World U) α} (h : ∀ s, (m s).2.1 = s.1) : DKeeps Γ tgt m := by
  intro s w a s' w' h1
  have := h (s, w)
  rw [h1] at this
  simp only at this
  subst this
  exact refl _

theorem pure (a : α) : DKeeps (V := V) Γ tgt (Pure.pure a) := still fun _ => rfl

theorem lift (r : Res α) : DKeeps (V := V) Γ tgt (M.lift r) := still fun _ => rfl

theorem onWorld (m : M (World U) α) : DKeeps (V := V) Γ tgt (Dync.onWorld m) := still fun _ => rfl

theorem bind {m : M (DSlots V × World U) α} {f : α → M (DSlots V × World U) β} (hm : DKeeps Γ tgt m)
    (hf : ∀ a, DKeeps Γ tgt (f a)) : DKeeps Γ tgt (m >>= f) := by
  intro s w b s' w' h
  obtain ⟨a, ⟨s1, w1⟩, h1, h2⟩ := M.bind_ok_inv h
  exact trans (hm _ _ _ _ _ h1) (hf a _ _ _ _ _ h2)

theorem put {s : DSlots V} {k : Nat} {c c' : VecCopy V} (hk : s k = some (.vec c))
    (he : c.data.Faithful Γ → c'.data.elem = c.data.elem) : DSlotsKeep Γ tgt s (Slots.put s k (some (.vec c'))) := by
  intro hf
  refine ⟨fun j b hj => ?_, fun j _ b hj => ?_⟩
  · unfold Slots.put at hj
    split at hj
    · cases hj
      unfold VecVoid.Faithful
      rw [he (hf k c hk)]
      exact hf k c hk
    · exact hf j b hj
  · unfold Slots.put at hj
    split at hj
    · subst_vars
      cases hj
      exact ⟨c, hk, he (hf _ c hk)⟩
    · exact ⟨b, hj, rfl⟩

theorem other {s : DSlots V} {k : Nat} {a : Option (Item V)} (ha : ∀ c, a ≠ some (.vec c)) :
    DSlotsKeep Γ tgt s (Slots.put s k a) := by
  intro hf
  refine ⟨fun j b hj => ?_, fun j _ b hj => ?_⟩
  · unfold Slots.put at hj
    split at hj
    · exact absurd hj (ha _)
    · exact hf j b hj
  · unfold Slots.put at hj
    split at hj
    · exact absurd hj (ha _)
    · exact ⟨b, hj, rfl⟩

theorem clearVar (k : Nat) : DKeeps (V := V) Γ tgt (DOp.clearVar (U := U) k) := by
  intro s w a s' w' h
  simp only [DOp.clearVar, M.modify_run, Prod.mk.injEq] at h
  obtain ⟨-, rfl, -⟩ := h
  exact other (by simp)

theorem onVec (k : Nat) {m : M (VecDyn V × World U) Obs} (hm : KeepsElem Γ m) : DKeeps Γ tgt (DOp.onVec k m) := by
  intro s w a s' w' h
  simp only [DOp.onVec] at h
  split at h
  · rename_i c hc
    simp only [Prod.mk.injEq] at h
    obtain ⟨h, rfl, rfl⟩ := h
    exact put hc fun hf => hm _ _ _ _ _ (Prod.ext h rfl) hf
  · cases h; exact refl _

theorem readRef (k i : Nat) : DKeeps (V := V) Γ tgt (DOp.readRef (U := U) cfg k i) := by
  apply still
  intro s
  simp only [DOp.readRef]
  split <;> rfl

theorem onMut (k i : Nat) (m : M (ValueRef V × World U) Obs) : DKeeps Γ tgt (DOp.onMut cfg k i m) := by
  intro s w a s' w' h
  simp only [DOp.onMut] at h
  split at h
  · cases h; exact refl _
  · rename_i c hc
    simp only [Prod.mk.injEq] at h
    obtain ⟨h, rfl, rfl⟩ := h
    exact put hc fun hf => KeepsElem.dynGetMut V i m _ _ _ _ _ (Prod.ext h rfl) hf
  · simp only [Prod.mk.injEq] at h
    obtain ⟨h, rfl, rfl⟩ := h
    exact other (by simp)
  · simp only [Prod.mk.injEq] at h
    obtain ⟨h, rfl, rfl⟩ := h
    exact other (by simp)

theorem create [HasDrop U V] {k : Nat} {m : M (World U) (Item V)}
    {s s' : DSlots V} {w w' : World U} {o : Obs} (hm : ∀ w c w', m w = (.ok (.vec c), w') → FaithfulDSlots Γ s → c.data.Faithful Γ)
    (h : DOp.create cfg k m (s, w) = (.ok o, (s', w'))) : DSlotsKeep Γ (some k) s s' := by
  unfold DOp.create at h
  obtain ⟨a, ⟨s1, w1⟩, h1, k1⟩ := M.bind_ok_inv h
  obtain ⟨h1', rfl⟩ := onWorld_inv h1
  obtain ⟨⟨⟩, ⟨s2, w2⟩, h2, k2⟩ := M.bind_ok_inv k1
  cases k2
  have e : s' = Slots.put s1 k (some a) := by
    simp only [DOp.putItem] at h2
    split at h2
    · simp only [Prod.mk.injEq] at h2
      exact h2.2.1.symm
    · simp only [Prod.mk.injEq] at h2
      exact h2.2.1.symm
  subst e
  intro hf
  refine ⟨fun j b hj => ?_, fun j hne b hj => ?_⟩
  · unfold Slots.put at hj
    split at hj
    · cases hj
      exact hm _ _ _ h1' hf
    · exact hf j b hj
  · unfold Slots.put at hj
    split at hj
    · subst_vars; exact absurd rfl hne
    · exact ⟨b, hj, rfl⟩

end DKeeps

theorem create_inv {m : M (World U) (VecCopy V)} {w w' : World U} {c : VecDyn V}
    (h : (do return .vec (← m) : M (World U) (Item V)) w = (.ok (.vec c), w')) : m w = (.ok c, w') := by
  obtain ⟨c1, w1, h1, k1⟩ := M.bind_ok_inv h
  cases k1
  exact h1

theorem cloneItem_elem [HasDrop U V] [HasClone U V] (Γ : TyEnv U) {a : Item V} {c : VecDyn V} {w w' : World U}
    (h : DOp.cloneItem cfg a w = (.ok (.vec c), w')) : ∃ b, a = .vec b ∧ c.data.elem = b.data.elem := by
  cases a with
  | vec b =>
    refine ⟨b, rfl, ?_⟩
    exact (C03_constructors (Γ := Γ) (t := 0) (vt := b.vtable)).2.2.2.2.2.2.2.2.2 b (create_inv h)
  | box b =>
    obtain ⟨c1, w1, h1, k1⟩ := M.bind_ok_inv h
    cases k1
  | small b =>
    obtain ⟨c1, w1, h1, k1⟩ := M.bind_ok_inv h
    cases k1

theorem dexec_keeps [HasDrop U V] [HasClone U V] {op : DOp} {vt : TyId → V} :
    DKeeps Γ op.target (op.exec Γ cfg vt) := by
  have C := fun t w w' c => C03_constructors (Γ := Γ) (cfg := cfg) (t := t) (vt := vt t) (w := w) (w' := w') (c := c)
  intro s w o s' w' h
  cases op <;> simp only [DOp.exec, DOp.target] at h ⊢
  case withType => exact DKeeps.create (fun _ _ _ hm _ => new_faithful ((C _ _ _ _).1 (create_inv hm))) h
  case withCapacity => exact DKeeps.create (fun _ _ _ hm _ => new_faithful ((C _ _ _ _).2.1 _ (create_inv hm))) h
  case fromVec =>
    refine DKeeps.create (fun w c w' hm _ => ?_) h
    obtain ⟨v, w1, -, h1⟩ := M.bind_ok_inv hm
    exact new_faithful (vecCopy_fromVec_elem (create_inv h1))
  case fromSlice => exact DKeeps.create (fun _ _ _ hm _ => new_faithful ((C _ _ _ _).2.2.2.2.2.2.1 _ (create_inv hm))) h
  case withSize => exact DKeeps.create (fun _ _ _ hm _ => new_faithful ((C _ _ _ _).2.2.2.2.2.1 _ _ (create_inv hm))) h
  case newBox =>
    refine DKeeps.create (fun w c w' hm _ => ?_) h
    obtain ⟨v, w1, -, h1⟩ := M.bind_ok_inv hm
    cases h1
  case newSmall =>
    refine DKeeps.create (fun w c w' hm _ => ?_) h
    obtain ⟨v, w1, -, h1⟩ := M.bind_ok_inv hm
    cases h1
  case drop k =>
    split at h
    · cases h; exact DKeeps.refl _
    · exact DKeeps.bind (DKeeps.clearVar _) (fun _ => DKeeps.bind (DKeeps.onWorld _) fun _ => DKeeps.pure _) _ _ _ _ _ h
  case clone k j =>
    split at h
    · cases h; exact DKeeps.refl _
    · rename_i a ha
      refine DKeeps.create (fun w c' w' hm hf => ?_) h
      obtain ⟨b, rfl, e⟩ := cloneItem_elem Γ hm
      unfold VecVoid.Faithful
      rw [e]
      exact hf k b ha
  case consume k t =>
    split at h
    · cases h; exact DKeeps.refl _
    · exact DKeeps.bind (DKeeps.clearVar _) (fun _ => DKeeps.onWorld _) _ _ _ _ _ h
  case roundTrip k t =>
    split at h
    · rename_i c hc
      obtain ⟨⟨⟩, ⟨s0, w0⟩, h0, k0⟩ := M.bind_ok_inv h
      simp only [DOp.clearVar, M.modify_run, Prod.mk.injEq] at h0
      obtain ⟨-, rfl, rfl⟩ := h0
      unfold DOp.roundTripVec at k0
      obtain ⟨r, ⟨s1, w1⟩, h1, k1⟩ := M.bind_ok_inv k0
      obtain ⟨h1', rfl⟩ := onWorld_inv h1
      cases r with
      | none => cases k1; exact DKeeps.other (by simp)
      | some v =>
        unfold DOp.create at k1
        obtain ⟨a, ⟨s2, w2⟩, h2, k2⟩ := M.bind_ok_inv k1
        obtain ⟨h2', rfl⟩ := onWorld_inv h2
        obtain ⟨⟨⟩, ⟨s3, w3⟩, h3, k3⟩ := M.bind_ok_inv k2
        cases k3
        obtain ⟨c', w4, h4, k4⟩ := M.bind_ok_inv h2'
        cases k4
        have e := vecCopy_fromVec_elem h4
        have ht : t = c.data.elem.type_id := intoVec_some_type h1'
        have hn : Slots.put s k none k = (none : Option (Item V)) := by simp [Slots.put]
        simp only [DOp.putItem, hn, Prod.mk.injEq] at h3
        have : Slots.put (Slots.put s k none) k (some (.vec c')) = Slots.put s k (some (Item.vec c')) := by
          funext i
          unfold Slots.put
          split <;> rfl
        rw [← h3.2.1, this]
        exact DKeeps.put hc fun hf => by rw [e, ht]; exact hf.symm
    · cases h; exact DKeeps.refl _
  case append k j =>
    split at h
    · cases h; exact DKeeps.refl _
    · rename_i hkj
      split at h
      · rename_i c b hk hj
        simp only [Prod.mk.injEq] at h
        obtain ⟨h, rfl, rfl⟩ := h
        rcases hr : VecCopy.append Γ cfg (c, (⟨w.heap, (b, w.user)⟩ : World (VecCopy V × U))) with ⟨r, c1, h1, b1, u1⟩
        simp only [hr] at h ⊢
        cases r with
        | ok r =>
          obtain ⟨e1, e2⟩ := append_elem V hr
          have hj' : Slots.put s k (some (Item.vec c1)) j = some (.vec b) := by
            unfold Slots.put
            rw [if_neg (fun e => hkj e.symm)]
            exact hj
          exact DKeeps.trans (DKeeps.put (c' := c1) hk fun _ => e1) (DKeeps.put (c' := b1) hj' fun _ => e2)
        | _ => simp [Res.map] at h
      · cases h; exact DKeeps.refl _
  case pushBox k j =>
    split at h
    · exact DKeeps.bind (DKeeps.clearVar _) (fun _ => DKeeps.onVec _ (.bind (.dynPush V _) fun _ => .pure _)) _ _ _ _ _ h
    · cases h; exact DKeeps.refl _
  case assign k i j =>
    split at h
    · cases h; exact DKeeps.refl _
    · split at h
      · split at h
        · cases h; exact DKeeps.refl _
        · exact DKeeps.bind (DKeeps.readRef _ _) (fun _ => DKeeps.bind (DKeeps.clearVar _) fun _ => DKeeps.onMut _ _ _) _ _ _ _ _ h
      · cases h; exact DKeeps.refl _
  case pushCloned k j i =>
    split at h
    · cases h; exact DKeeps.refl _
    · refine DKeeps.bind (DKeeps.readRef _ _) (fun r => ?_) _ _ _ _ _ h
      cases r with
      | none => exact DKeeps.pure _
      | some v => exact DKeeps.onVec _ (.bind (.dynPushCloned V _) fun _ => .pure _)
  case cloneFrom k i j i' =>
    split at h
    · cases h; exact DKeeps.refl _
    · refine DKeeps.bind (DKeeps.readRef _ _) (fun r => ?_) _ _ _ _ _ h
      cases r with
      | none => exact DKeeps.pure _
      | some v => exact DKeeps.onMut _ _ _
  case swapValues k i j i' =>
    split at h
    · cases h; exact DKeeps.refl _
    · refine DKeeps.bind (DKeeps.readRef _ _) (fun r => ?_) _ _ _ _ _ h
      cases r with
      | none => exact DKeeps.pure _
      | some a =>
        refine DKeeps.bind (DKeeps.readRef _ _) fun r => ?_
        cases r with
        | none => exact DKeeps.pure _
        | some b => exact DKeeps.bind (DKeeps.lift _) fun _ => DKeeps.bind (DKeeps.onMut _ _ _) fun _ => DKeeps.onMut _ _ _
  case get k i =>
    refine DKeeps.bind (DKeeps.readRef _ _) (fun r => ?_) _ _ _ _ _ h
    cases r <;> exact DKeeps.pure _
  case cloneValue k i j =>
    obtain ⟨r, ⟨s1, w1⟩, h1, k1⟩ := M.bind_ok_inv h
    refine DKeeps.trans (DKeeps.readRef _ _ _ _ _ _ _ h1) ?_
    cases r with
    | none => cases k1; exact DKeeps.refl _
    | some v =>
      refine DKeeps.create (fun w c w' hm _ => ?_) k1
      obtain ⟨v, w1, -, h1⟩ := M.bind_ok_inv hm
      cases h1
  case cloneSmall k i j =>
    obtain ⟨r, ⟨s1, w1⟩, h1, k1⟩ := M.bind_ok_inv h
    refine DKeeps.trans (DKeeps.readRef _ _ _ _ _ _ _ h1) ?_
    cases r with
    | none => cases k1; exact DKeeps.refl _
    | some v =>
      refine DKeeps.create (fun w c w' hm _ => ?_) k1
      obtain ⟨v, w1, -, h1⟩ := M.bind_ok_inv hm
      cases h1
  all_goals refine DKeeps.onVec _ ?_ _ _ _ _ _ h
  case pushAs => exact .bind (.pushAs V _ _) fun _ => .pure _
  case resize => exact .bind (.dynResize V _ _ _) fun _ => .pure _
  case clear => exact .bind (.dynClear V) fun _ => .pure _
  case fill => exact .bind (.dynFill V _ _) fun _ => .pure _
  case rotateLeft => exact .bind (.rotateLeft V _) fun _ => .pure _
  case rotateRight => exact .bind (.rotateRight V _) fun _ => .pure _
  case swap => exact .bind (.asMutSlice V _) fun _ => .pure _
  case setAs =>
    refine .bind (.getMutAs V _ _ _) fun r => ?_
    cases r with
    | none => exact .bind (.onWorld _) fun _ => .pure _
    | some _ => exact .pure _
  case len => exact .bind .getSelf fun _ => .pure _
  case typeId => exact .bind .getSelf fun _ => .pure _
  case cloneIntoVec =>
    refine .bind .getSelf fun _ => .bind (.onWorld _) fun r => ?_
    cases r with
    | none => exact .pure _
    | some _ => exact .bind (.onWorld _) fun _ => .pure _
  all_goals
    intro c w a c' w' h _
    obtain ⟨x, q, h1, k1⟩ := M.bind_ok_inv h
    obtain ⟨rfl, rfl⟩ := getSelf_inv h1
    obtain ⟨y, q2, h2, k2⟩ := M.bind_ok_inv k1
  case getAs =>
    obtain rfl := (Still.getAs _ _ _).ok h2
    cases y <;> cases k2 <;> rfl
  case asSlice =>
    obtain rfl := (Still.asSliceAs _ _).ok h2
    cases y <;> cases k2 <;> rfl
  case iter =>
    obtain rfl := (Still.iter _).ok h2
    cases k2; rfl

/-- **C03** for whole programs over `VecDyn` containers and owned values: with arbitrary user `Clone` and `Drop`
code and arbitrary arguments, if the program returns then a variable that was not given something new holds a
container of the same element type, size and alignment as before. -/
theorem C03_vecdyn_program [HasDrop U V] [HasClone U V] {ops : List DOp} {vt : TyId → V} {s s' : DSlots V}
    {w w' : World U} {os : List Obs} (hf : ∀ k c, s k = some (.vec c) → c.data.Faithful Γ)
    (h : runDOps Γ cfg vt ops (s, w) = (.ok os, (s', w'))) {k : Nat}
    (hk : ∀ op ∈ ops, op.target ≠ some k) {c' : VecDyn V} (hc : s' k = some (.vec c')) :
    ∃ c, s k = some (.vec c) ∧ c'.elementTypeId = c.elementTypeId ∧ c'.elementSize = c.elementSize ∧
      c'.data.elem.alignment = c.data.elem.alignment := by
  suffices ∃ c, s k = some (.vec c) ∧ c'.data.elem = c.data.elem by
    obtain ⟨c, h1, h2⟩ := this
    refine ⟨c, h1, ?_⟩
    unfold VecCopy.elementTypeId VecCopy.elementSize
    rw [h2]
    exact ⟨rfl, rfl, rfl⟩
  induction ops generalizing s w os with
  | nil => cases h; exact ⟨c', hc, rfl⟩
  | cons op ops ih =>
    obtain ⟨o, ⟨s1, w1⟩, h1, k1⟩ := M.bind_ok_inv h
    obtain ⟨os1, ⟨s2, w2⟩, h2, k2⟩ := M.bind_ok_inv k1
    cases k2
    obtain ⟨f1, g1⟩ := dexec_keeps _ _ _ _ _ h1 hf
    obtain ⟨c1, hc1, e1⟩ := ih f1 h2 fun op hop => hk op (List.mem_cons_of_mem _ hop)
    obtain ⟨c2, hc2, e2⟩ := g1 k (hk op (by simp)) c1 hc1
    exact ⟨c2, hc2, e1.trans e2⟩

/-! ### Concrete cases -/

/-- Pushing a `u64`, growing, rotating and clearing leave a vector of `u32` one. -/
def Ex.muts : List (Mutation Ex.Log (CloneVTable Ex.Log)) :=
  [.pushAs 5 Ex.b1, .pushAs 2 Ex.a1, .reserve 10, .rotateLeft 2, .resizeCopy 5 9 Ex.b1, .clearCopy, .fillCopy 2 Ex.a1]

/-- Three `u32` with a table. -/
def Ex.c123t : VecCopy (CloneVTable Ex.Log) := ⟨Ex.c123.data, Ex.cloneVT 2⟩

theorem Ex.c123t_faithful : Ex.c123t.data.Faithful Ex.env := rfl

theorem Ex.muts_ok : ∃ c' w', M.forEach Ex.muts (Mutation.run Ex.env ⟨true⟩) (Ex.c123t, Ex.world 2 4) = (.ok (), (c', w')) :=
  ⟨_, _, rfl⟩

example : ∃ c' w', M.forEach Ex.muts (Mutation.run Ex.env ⟨true⟩) (Ex.c123t, Ex.world 2 4) = (.ok (), (c', w')) ∧
    c'.elementTypeId = 2 := by
  obtain ⟨c', w', h⟩ := Ex.muts_ok
  exact ⟨c', w', h, (C03_elem_fixed Ex.c123t_faithful h).1⟩

example : ∃ (c : VecCopy Unit) (w' : World Ex.Log), VecCopy.withCapacity Ex.env 5 () 3 (Ex.world 2 4) = (.ok c, w') ∧
    c.data.elem = ⟨5, 1, 8⟩ := by
  refine ⟨_, _, rfl, ?_⟩
  exact (C03_constructors (Γ := Ex.env) (cfg := ⟨true⟩) (t := 5) (vt := ()) (w := Ex.world 2 4)).2.1 3 rfl

example : ∃ os slots' w', runOps Ex.env ⟨true⟩ () Ex.prog2 (Slots.put (fun _ => none) 0 (some Ex.c123), Ex.world 2 4) =
    (.ok os, (slots', w')) ∧ ∃ c', slots' 0 = some c' ∧ c'.elementTypeId = 2 := by
  refine ⟨_, _, _, rfl, _, rfl, ?_⟩
  obtain ⟨c, hc, e, -⟩ := C03_veccopy_program (Γ := Ex.env) (cfg := ⟨true⟩) (vt := ()) (ops := Ex.prog2)
    (s := Slots.put (fun _ => none) 0 (some Ex.c123)) (w := Ex.world 2 4) (k := 0)
    (fun k c hc => by
      by_cases h : k = 0
      · subst h; cases hc; rfl
      · simp [Slots.put, h] at hc) rfl (by decide) rfl
  cases hc
  exact e

/-- Values with destructors are pushed, a wrong type is tried, and the container is converted and rebuilt. -/
def Ex.dprog3 : List DOp :=
  [.withType 0 7, .pushAs 0 7 Ex.g1, .pushAs 0 10 Ex.s1, .newBox 1 7 Ex.g2, .pushCloned 0 1 0, .rotateLeft 0 1, .fromVec 2 7 [Ex.g1], .append 0 2, .roundTrip 0 7]

/-- The state after the first step, and the result of the rest. -/
def Ex.elemStart : DSlots (CloneVTable Ex.Log) × World Ex.Log :=
  (runDOps Ex.env ⟨true⟩ Ex.cloneVT (Ex.dprog3.take 1) ((fun _ => none), ⟨Heap.empty, []⟩)).2
def Ex.elemEnd : Res (List Obs) × (DSlots (CloneVTable Ex.Log) × World Ex.Log) :=
  runDOps Ex.env ⟨true⟩ Ex.cloneVT (Ex.dprog3.drop 1) Ex.elemStart
def Ex.elemObs : List Obs := match Ex.elemEnd.1 with | .ok os => os | _ => []
def Ex.elemVec : VecDyn (CloneVTable Ex.Log) := match Ex.elemEnd.2.1 0 with | some (.vec c) => c | _ => ⟨VecVoid.default Ex.env, Ex.cloneVT 0⟩

theorem Ex.elemStart_faithful : ∀ k c, Ex.elemStart.1 k = some (.vec c) → c.data.Faithful Ex.env := by
  intro k c hc
  match k with
  | 0 => cases hc; rfl
  | k + 1 => cases hc

example : ∃ c, Ex.elemStart.1 0 = some (.vec c) ∧ Ex.elemVec.elementTypeId = c.elementTypeId ∧
    Ex.elemVec.elementSize = c.elementSize ∧ Ex.elemVec.data.elem.alignment = c.data.elem.alignment := by
  have h : runDOps Ex.env ⟨true⟩ Ex.cloneVT (Ex.dprog3.drop 1) (Ex.elemStart.1, Ex.elemStart.2) = (.ok Ex.elemObs, (Ex.elemEnd.2.1, Ex.elemEnd.2.2)) :=
    Prod.ext rfl rfl
  exact C03_vecdyn_program Ex.elemStart_faithful h (by decide) (show Ex.elemEnd.2.1 0 = some (.vec Ex.elemVec) from rfl)

end Dync
