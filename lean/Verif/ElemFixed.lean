import Verif.HistoryDynStep
import Mathlib.Tactic.ByContra
/-!
# The element record of a container

Which computations leave the element record of the container they work on unchanged when they
return. No assumption on arguments, user code or reachability: only that the record describes a type.
-/
namespace Dync
variable {U V α β : Type}

/-- The element record is the one of the type it names. -/
def VecVoid.Faithful (Γ : TyEnv U) (v : VecVoid) : Prop := v.elem = ElemInfo.new Γ v.elem.type_id

/-- If `m` returns, the element record is unchanged. -/
def KeepsElem (Γ : TyEnv U) (m : M (VecCopy V × World U) α) : Prop :=
  ∀ c w a c' w', m (c, w) = (.ok a, (c', w')) → c.data.Faithful Γ → c'.data.elem = c.data.elem

namespace KeepsElem
variable {Γ : TyEnv U} {cfg : Cfg}

theorem pure (a : α) : KeepsElem (V := V) Γ (Pure.pure a) := by
  intro c w a c' w' h _
  simp only [M.pure_run, Prod.mk.injEq] at h
  rw [h.2.1]

theorem panic (y : Why) : KeepsElem (V := V) (α := α) Γ (M.panic y) := by
  intro c w a c' w' h _
  simp at h

theorem ub : KeepsElem (V := V) (α := α) Γ M.ub := by
  intro c w a c' w' h _
  simp at h

theorem lift (r : Res α) : KeepsElem (V := V) Γ (M.lift r) := by
  intro c w a c' w' h _
  simp only [M.lift_run, Prod.mk.injEq] at h
  rw [h.2.1]

theorem getSelf : KeepsElem (V := V) Γ Dync.getSelf := by
  intro c w a c' w' h _
  simp only [Dync.getSelf, Prod.mk.injEq] at h
  rw [h.2.1]

theorem get : KeepsElem (V := V) Γ M.get := by
  intro c w a c' w' h _
  simp only [M.get_run, Prod.mk.injEq] at h
  rw [h.2.1]

theorem onWorld (m : M (World U) α) : KeepsElem (V := V) Γ (Dync.onWorld m) := by
  intro c w a c' w' h _
  simp only [Dync.onWorld, M.zoom_run, Prod.mk.injEq] at h
  rw [h.2.1]

theorem assert (b : Bool) : KeepsElem (V := V) Γ (M.assert b) := by
  unfold M.assert
  split
  · exact pure _
  · exact panic _

theorem debugAssert (b : Bool) : KeepsElem (V := V) Γ (Dync.debugAssert cfg b) := by
  unfold Dync.debugAssert
  split
  · exact assert _
  · exact pure _

theorem umul (a b : Nat) : KeepsElem (V := V) Γ (Dync.umul cfg a b) := by
  unfold Dync.umul
  split
  · exact pure _
  · split
    · exact panic _
    · exact pure _

theorem uadd (a b : Nat) : KeepsElem (V := V) Γ (Dync.uadd cfg a b) := by
  unfold Dync.uadd
  split
  · exact pure _
  · split
    · exact panic _
    · exact pure _

theorem bind {m : M (VecCopy V × World U) α} {f : α → M (VecCopy V × World U) β} (hm : KeepsElem Γ m)
    (hf : ∀ a, KeepsElem Γ (f a)) : KeepsElem Γ (m >>= f) := by
  intro c w b c' w' h hc
  obtain ⟨a, ⟨c1, w1⟩, h1, h2⟩ := M.bind_ok_inv h
  have e1 := hm _ _ _ _ _ h1 hc
  have hc1 : c1.data.Faithful Γ := by unfold VecVoid.Faithful at *; rw [e1]; exact hc
  rw [hf a _ _ _ _ _ h2 hc1, e1]

theorem forEach (xs : List β) {f : β → M (VecCopy V × World U) Unit} (hf : ∀ b, KeepsElem Γ (f b)) :
    KeepsElem Γ (M.forEach xs f) := by
  induction xs with
  | nil => exact pure _
  | cons x xs ih => exact bind (hf x) fun _ => ih

theorem repeatN (n : Nat) {m : M (VecCopy V × World U) Unit} (hm : KeepsElem Γ m) :
    KeepsElem Γ (M.repeatN n m) := by
  induction n with
  | zero => exact pure _
  | succ n ih => exact bind hm fun _ => ih

theorem thenDrop {m : M (VecCopy V × World U) α} {d : M (VecCopy V × World U) Unit} (hm : KeepsElem Γ m)
    (hd : KeepsElem Γ d) : KeepsElem Γ (M.thenDrop m d) := by
  intro c w a c' w' h hc
  unfold M.thenDrop at h
  rcases h1 : m (c, w) with ⟨r, c1, w1⟩
  rcases h2 : d (c1, w1) with ⟨r2, c2, w2⟩
  cases r with
  | ok x =>
    cases r2 with
    | ok y =>
      simp only [h1, h2, Prod.mk.injEq] at h
      obtain ⟨-, rfl, rfl⟩ := h
      have e1 := hm _ _ _ _ _ h1 hc
      have hc1 : c1.data.Faithful Γ := by unfold VecVoid.Faithful at *; rw [e1]; exact hc
      rw [hd _ _ _ _ _ h2 hc1, e1]
    | _ => simp [h1, h2] at h
  | panic => cases r2 <;> simp [h1, h2] at h
  | ub => simp [h1] at h
  | abort => simp [h1] at h

/-- Writing through a mutable reference into the content. -/
theorem mem {f : VecCopy V × World U → Res α} {g : VecCopy V × World U → Bytes} {k : VecCopy V × World U → World U} :
    KeepsElem Γ (⟨fun s => (f s, ({ s.1 with data := { s.1.data with mem := g s } }, k s))⟩ : M (VecCopy V × World U) α) := by
  intro c w a c' w' h _
  simp only [Prod.mk.injEq] at h
  rw [← h.2.1]

end KeepsElem

/-! ### `VecVoid` -/

section
variable {Γ : TyEnv U} {cfg : Cfg}

theorem fromVecOverride_elem {σ : Type} {T : Layout} {v : RVec} {e : ElemInfo} {s s' : σ} {r : VecVoid}
    (h : VecVoid.fromVecOverride T v e s = (.ok r, s')) : r.elem = e := by
  unfold VecVoid.fromVecOverride at h
  obtain ⟨⟨⟩, q1, -, h⟩ := M.bind_ok_inv h
  obtain ⟨⟨⟩, q2, -, h⟩ := M.bind_ok_inv h
  split at h
  · simp at h
  · obtain ⟨⟨⟩, q3, -, h⟩ := M.bind_ok_inv h
    obtain ⟨⟨⟩, q4, -, h⟩ := M.bind_ok_inv h
    simp only [M.pure_run, Prod.mk.injEq, Res.ok.injEq] at h
    rw [← h.1]

theorem applyAligned_elem {V' : Type} {Γ : TyEnv V'} {T : Layout} {f : M (RVec × World U) α} {v v' : VecVoid}
    {w w' : World U} {a : α} (h : VecVoid.applyAligned Γ cfg T f (v, w) = (.ok a, (v', w'))) : v'.elem = v.elem := by
  unfold VecVoid.applyAligned at h
  obtain ⟨self, q1, h1, h⟩ := M.bind_ok_inv h
  simp only [getSelf, Prod.mk.injEq, Res.ok.injEq] at h1
  obtain ⟨rfl, rfl⟩ := h1
  obtain ⟨⟨⟩, q2, -, h⟩ := M.bind_ok_inv h
  obtain ⟨r, q3, -, h⟩ := M.bind_ok_inv h
  obtain ⟨⟨o, r2⟩, q4, -, h⟩ := M.bind_ok_inv h
  obtain ⟨new, q5, h5, h⟩ := M.bind_ok_inv h
  obtain ⟨⟨⟩, q6, h6, h⟩ := M.bind_ok_inv h
  simp only [setSelf, Prod.mk.injEq, Res.ok.injEq] at h6
  simp only [M.pure_run, Prod.mk.injEq, Res.ok.injEq] at h
  rw [← h6.2] at h
  simp only [Prod.mk.injEq] at h
  rw [← h.2.1]
  exact fromVecOverride_elem h5

/-- A computation that does not change the state. -/
def Still {σ : Type} (m : M σ α) : Prop := ∀ s, (m s).2 = s

namespace Still
variable {σ : Type}
theorem pure (a : α) : Still (Pure.pure a : M σ α) := fun _ => rfl
theorem panic (y : Why) : Still (M.panic y : M σ α) := fun _ => rfl
theorem ub : Still (M.ub : M σ α) := fun _ => rfl
theorem lift (r : Res α) : Still (M.lift r : M σ α) := fun _ => rfl
theorem bind {m : M σ α} {f : α → M σ β} (hm : Still m) (hf : ∀ a, Still (f a)) : Still (m >>= f) := by
  intro s
  have e := hm s
  rcases h : m s with ⟨r, s'⟩
  rw [h] at e
  simp only at e
  subst e
  cases r <;> simp [h]
  exact hf _ _
theorem assert (b : Bool) : Still (M.assert b : M σ Unit) := by
  unfold M.assert
  split
  · exact pure _
  · exact panic _
theorem debugAssert (b : Bool) : Still (Dync.debugAssert cfg b : M σ Unit) := by
  unfold Dync.debugAssert
  split
  · exact assert _
  · exact pure _
theorem ok {m : M σ α} (hm : Still m) {s s' : σ} {r : Res α} (h : m s = (r, s')) : s' = s := by
  have := hm s
  rw [h] at this
  exact this
theorem alignedVec (cfg : Cfg) (T : Layout) (v : VecVoid) : Still (VecVoid.alignedVec cfg T v : M σ RVec) := by
  unfold VecVoid.alignedVec RVec.fromRawParts
  refine bind (debugAssert _) fun _ => bind (debugAssert _) fun _ => ?_
  dsimp only
  split
  · exact pure _
  · exact ub
theorem fromVecOverride (T : Layout) (v : RVec) (e : ElemInfo) : Still (VecVoid.fromVecOverride T v e : M σ VecVoid) := by
  unfold VecVoid.fromVecOverride
  refine bind (assert _) fun _ => bind (assert _) fun _ => ?_
  split
  · exact panic _
  · exact bind (assert _) fun _ => bind (assert _) fun _ => pure _
end Still

theorem applyAligned_inv {V' : Type} {Γ : TyEnv V'} {T : Layout} {f : M (RVec × World U) α} {v v' : VecVoid}
    {w w' : World U} {a : α} (h : VecVoid.applyAligned Γ cfg T f (v, w) = (.ok a, (v', w'))) :
    ∃ r r', f (r, w) = (.ok a, (r', w')) := by
  unfold VecVoid.applyAligned at h
  obtain ⟨self, q1, h1, h⟩ := M.bind_ok_inv h
  simp only [getSelf, Prod.mk.injEq, Res.ok.injEq] at h1
  obtain ⟨rfl, rfl⟩ := h1
  obtain ⟨⟨⟩, ⟨q21, q22⟩, h2, h⟩ := M.bind_ok_inv h
  simp only [setSelf, Prod.mk.injEq] at h2
  obtain ⟨-, rfl, rfl⟩ := h2
  obtain ⟨r, ⟨q31, q32⟩, h3, h⟩ := M.bind_ok_inv h
  obtain ⟨⟨o, r2⟩, ⟨q41, q42⟩, h4, h⟩ := M.bind_ok_inv h
  obtain ⟨new, ⟨q51, q52⟩, h5, h⟩ := M.bind_ok_inv h
  obtain ⟨⟨⟩, ⟨q61, q62⟩, h6, h⟩ := M.bind_ok_inv h
  simp only [setSelf, Prod.mk.injEq, Res.ok.injEq] at h6
  simp only [M.pure_run, Prod.mk.injEq, Res.ok.injEq] at h
  obtain ⟨rfl, rfl, rfl⟩ := h
  have e3 : q32 = w := congrArg Prod.snd (((Still.alignedVec _ _ _).ok h3))
  have e5 : q52 = q42 := congrArg Prod.snd (((Still.fromVecOverride _ _ _).ok h5))
  subst e3
  simp only [onWorld, M.zoom_run, withLocal, Prod.mk.injEq] at h4
  rcases hf : f (r, q32) with ⟨out, r3, w3⟩
  refine ⟨r, r3, ?_⟩
  cases out with
  | ok b =>
    simp only [hf, Res.ok.injEq, Prod.mk.injEq] at h4
    obtain ⟨⟨rfl, rfl⟩, -, rfl⟩ := h4
    rw [hf, ← h6.2.2, e5]
  | panic y =>
    simp only [hf] at h4
    rcases hd : RVec.dropBuf T r3 w3 with ⟨o2, w4⟩
    cases o2 <;> simp [hd] at h4
  | ub => simp [hf] at h4
  | abort => simp [hf] at h4

theorem fromVec_elem {t : TyId} {v : RVec} {w w' : World U} {r : VecVoid}
    (h : VecVoid.fromVec Γ t v w = (.ok r, w')) : r.elem = ElemInfo.new Γ t := by
  unfold VecVoid.fromVec at h
  obtain ⟨⟨o, r2⟩, q4, -, h⟩ := M.bind_ok_inv h
  simp only [M.pure_run, Prod.mk.injEq, Res.ok.injEq] at h
  rw [← h.1]

theorem applyUnchecked_elem {t : TyId} {f : M (RVec × World U) α} {v v' : VecVoid}
    {w w' : World U} {a : α} (h : VecVoid.applyUnchecked Γ cfg t f (v, w) = (.ok a, (v', w'))) :
    v'.elem = ElemInfo.new Γ t := by
  unfold VecVoid.applyUnchecked at h
  obtain ⟨self, q1, h1, h⟩ := M.bind_ok_inv h
  obtain ⟨⟨⟩, q2, -, h⟩ := M.bind_ok_inv h
  obtain ⟨r, q3, -, h⟩ := M.bind_ok_inv h
  obtain ⟨⟨o, r2⟩, q4, -, h⟩ := M.bind_ok_inv h
  obtain ⟨new, q5, h5, h⟩ := M.bind_ok_inv h
  obtain ⟨⟨⟩, q6, h6, h⟩ := M.bind_ok_inv h
  simp only [setSelf, Prod.mk.injEq, Res.ok.injEq] at h6
  simp only [M.pure_run, Prod.mk.injEq, Res.ok.injEq] at h
  rw [← h6.2] at h
  simp only [Prod.mk.injEq] at h
  rw [← h.2.1]
  simp only [onWorld, M.zoom_run, Prod.mk.injEq] at h5
  exact fromVec_elem (Prod.ext h5.1 rfl)

/-- A `VecVoid` method that leaves the record alone, as a method of the container. -/
theorem KeepsElem.onData {m : M (VecVoid × World U) α}
    (hm : ∀ v w a v' w', m (v, w) = (.ok a, (v', w')) → v'.elem = v.elem) : KeepsElem (V := V) Γ (VecCopy.onData m) := by
  intro c w a c' w' h _
  simp only [VecCopy.onData, M.zoom_run, Prod.mk.injEq] at h
  obtain ⟨h1, rfl, h2⟩ := h
  exact hm _ _ _ _ _ (Prod.ext h1 rfl)

/-- `eval_align!` around a computation on the aligned vector. -/
theorem evalAlign_aligned_elem {V' : Type} {Γ : TyEnv V'} {n : Nat} {f : Layout → M (RVec × World U) α} {v v' : VecVoid}
    {w w' : World U} {a : α} (h : (evalAlign n fun T => VecVoid.applyAligned Γ cfg T (f T)) (v, w) = (.ok a, (v', w'))) :
    v'.elem = v.elem := by
  unfold evalAlign at h
  split at h
  · exact applyAligned_elem h
  · simp at h

theorem evalAlignLimited_aligned_elem {V' : Type} {Γ : TyEnv V'} {n : Nat} {f : Layout → M (RVec × World U) α} {v v' : VecVoid}
    {w w' : World U} {a : α} (h : (evalAlignLimited n fun T => VecVoid.applyAligned Γ cfg T (f T)) (v, w) = (.ok a, (v', w'))) :
    v'.elem = v.elem := by
  unfold evalAlignLimited at h
  split at h
  · exact applyAligned_elem h
  · simp at h

theorem getSelf_inv {σ : Type} {s : σ × World U} {x : σ} {s' : σ × World U} (h : getSelf s = (.ok x, s')) : x = s.1 ∧ s' = s := by
  simp only [getSelf, Prod.mk.injEq, Res.ok.injEq] at h
  exact ⟨h.1.symm, h.2.symm⟩

variable (V)

theorem KeepsElem.reserve (n : Nat) : KeepsElem (V := V) Γ (VecCopy.reserve Γ cfg n) := by
  apply onData
  intro v w a v' w' h
  unfold VecVoid.reserve at h
  obtain ⟨self, q1, h1, h⟩ := M.bind_ok_inv h
  obtain ⟨rfl, rfl⟩ := getSelf_inv h1
  exact evalAlign_aligned_elem h

theorem KeepsElem.dataClear : KeepsElem (V := V) Γ (VecCopy.onData (VecVoid.clear Γ cfg)) := by
  apply onData
  intro v w a v' w' h
  unfold VecVoid.clear at h
  obtain ⟨self, q1, h1, h⟩ := M.bind_ok_inv h
  obtain ⟨rfl, rfl⟩ := getSelf_inv h1
  exact evalAlign_aligned_elem h

theorem KeepsElem.dataTruncate (n : Nat) : KeepsElem (V := V) Γ (VecCopy.onData (VecVoid.truncate Γ cfg n)) := by
  apply onData
  intro v w a v' w' h
  unfold VecVoid.truncate at h
  obtain ⟨self, q1, h1, h⟩ := M.bind_ok_inv h
  obtain ⟨rfl, rfl⟩ := getSelf_inv h1
  exact evalAlign_aligned_elem h

theorem KeepsElem.dataPush (b : Bytes) : KeepsElem (V := V) Γ (VecCopy.onData (VecVoid.push Γ cfg b)) := by
  apply onData
  intro v w a v' w' h
  unfold VecVoid.push at h
  obtain ⟨self, q1, h1, h⟩ := M.bind_ok_inv h
  obtain ⟨rfl, rfl⟩ := getSelf_inv h1
  exact evalAlign_aligned_elem h

theorem KeepsElem.dataResizeWith (n : Nat) (init : M (Bytes × World U) Unit) :
    KeepsElem (V := V) Γ (VecCopy.onData (VecVoid.resizeWith Γ cfg n init)) := by
  apply onData
  intro v w a v' w' h
  unfold VecVoid.resizeWith at h
  obtain ⟨self, q1, h1, h⟩ := M.bind_ok_inv h
  obtain ⟨rfl, rfl⟩ := getSelf_inv h1
  exact evalAlign_aligned_elem h

theorem KeepsElem.rotateLeft (n : Nat) : KeepsElem (V := V) Γ (VecCopy.rotateLeft Γ cfg n) := by
  apply onData
  intro v w a v' w' h
  unfold VecVoid.rotateLeft at h
  obtain ⟨self, q1, h1, h⟩ := M.bind_ok_inv h
  obtain ⟨rfl, rfl⟩ := getSelf_inv h1
  exact evalAlignLimited_aligned_elem h

theorem KeepsElem.rotateRight (n : Nat) : KeepsElem (V := V) Γ (VecCopy.rotateRight Γ cfg n) := by
  apply onData
  intro v w a v' w' h
  unfold VecVoid.rotateRight at h
  obtain ⟨self, q1, h1, h⟩ := M.bind_ok_inv h
  obtain ⟨rfl, rfl⟩ := getSelf_inv h1
  exact evalAlignLimited_aligned_elem h

theorem KeepsElem.pushAs (t : TyId) (x : Bytes) : KeepsElem (V := V) Γ (VecCopy.pushAs Γ cfg t x) := by
  intro c w a c' w' h hc
  unfold VecCopy.pushAs at h
  obtain ⟨self, q1, h1, h⟩ := M.bind_ok_inv h
  obtain ⟨rfl, rfl⟩ := getSelf_inv h1
  split at h
  · exact (bind (onWorld _) fun _ => pure _) _ _ _ _ _ h hc
  · rename_i c1 hck
    obtain ⟨⟨⟩, ⟨c2, w2⟩, h2, h⟩ := M.bind_ok_inv h
    simp only [M.pure_run, Prod.mk.injEq] at h
    obtain ⟨-, rfl, rfl⟩ := h
    simp only [VecCopy.onData, M.zoom_run, Prod.mk.injEq] at h2
    obtain ⟨h3, rfl, h4⟩ := h2
    refine (applyUnchecked_elem (Prod.ext h3 rfl)).trans ?_
    have ht : t = self.data.elem.type_id := by
      by_contra hne
      simp [VecCopy.checkRef, VecCopy.elementTypeId, hne] at hck
    rw [ht]
    exact hc.symm

theorem KeepsElem.push {W : Type} (v : CopyValue W) : KeepsElem (V := V) Γ (VecCopy.push Γ cfg v) := by
  unfold VecCopy.push
  refine bind getSelf fun c => bind (assert _) fun _ => ?_
  split
  · exact bind (dataPush V _) fun _ => pure _
  · exact pure _

theorem KeepsElem.resize (t : TyId) (n : Nat) (x : Bytes) : KeepsElem (V := V) Γ (VecCopy.resize Γ cfg t n x) := by
  unfold VecCopy.resize
  refine bind getSelf fun c => ?_
  split
  · exact pure _
  · split
    · exact bind (reserve V _) fun _ => bind (repeatN _ (bind (pushAs V _ _) fun _ => pure _)) fun _ => pure _
    · exact bind (dataTruncate V _) fun _ => pure _

theorem KeepsElem.asMutSliceAs (t : TyId) (m : M (List Bytes × World U) α) :
    KeepsElem (V := V) Γ (VecCopy.asMutSliceAs Γ t m) := by
  unfold VecCopy.asMutSliceAs
  refine bind getSelf fun c => ?_
  split
  · exact pure _
  · exact bind (lift _) fun es => bind mem fun _ => pure _

theorem KeepsElem.getMutAs (t : TyId) (i : Nat) (m : M (Bytes × World U) α) :
    KeepsElem (V := V) Γ (VecCopy.getMutAs Γ t i m) := by
  unfold VecCopy.getMutAs
  refine bind getSelf fun c => bind (assert _) fun _ => ?_
  split
  · exact pure _
  · split
    · exact bind mem fun _ => pure _
    · exact ub

theorem KeepsElem.getMut (i : Nat) (m : M (CopyValue V × World U) α) : KeepsElem (V := V) Γ (VecCopy.getMut cfg i m) := by
  unfold VecCopy.getMut
  refine bind getSelf fun c => bind (debugAssert _) fun _ => bind (umul _ _) fun _ => ?_
  split
  · exact mem
  · exact ub

theorem KeepsElem.byteChunks (d : VecVoid) : KeepsElem (V := V) Γ d.byteChunks := by
  unfold VecVoid.byteChunks
  exact bind (lift _) fun _ => lift _

theorem KeepsElem.iterMut (m : M (CopyValue V × World U) Unit) : KeepsElem (V := V) Γ (VecCopy.iterMut m) := by
  unfold VecCopy.iterMut
  exact bind getSelf fun c => bind (byteChunks V _) fun _ => mem

theorem KeepsElem.asMutSlice (m : M (SliceCopy V) α) : KeepsElem (V := V) Γ (VecCopy.asMutSlice m) := by
  unfold VecCopy.asMutSlice
  exact bind getSelf fun c => bind (lift _) fun _ => mem

theorem KeepsElem.extend (n : Nat) (vs : List (CopyValue V)) : KeepsElem (V := V) Γ (VecCopy.extend Γ cfg n vs) := by
  unfold VecCopy.extend
  exact bind (reserve V _) fun _ => forEach _ fun v => bind getSelf fun _ => bind (assert _) fun _ => bind (assert _) fun _ =>
    dataPush V _

theorem KeepsElem.copyFromSlice (t : TyId) (xs : List Bytes) : KeepsElem (V := V) Γ (VecCopy.copyFromSlice Γ cfg t xs) := by
  unfold VecCopy.copyFromSlice
  exact asMutSlice V _

theorem KeepsElem.fill (t : TyId) (x : Bytes) : KeepsElem (V := V) Γ (VecCopy.fill Γ t x) := by
  unfold VecCopy.fill
  exact asMutSliceAs V _ _

theorem KeepsElem.dynClear [HasDrop U V] : KeepsElem Γ (VecDyn.clear (V := V) Γ cfg) := by
  unfold VecDyn.clear
  exact bind getSelf fun c => bind (byteChunks V _) fun _ => bind (forEach _ fun _ => onWorld _) fun _ => dataClear V

theorem KeepsElem.dynPush {W : Type} [HasDrop U W] (v : BoxValue W) : KeepsElem Γ (VecDyn.push (V := V) Γ cfg v) := by
  unfold VecDyn.push
  refine bind getSelf fun c => ?_
  split
  · exact bind (thenDrop (dataPush V _) (onWorld _)) fun _ => pure _
  · exact bind (onWorld _) fun _ => pure _

theorem KeepsElem.dynPushCloned [HasClone U V] (v : ValueRef V) : KeepsElem Γ (VecDyn.pushCloned (V := V) Γ cfg v) := by
  unfold VecDyn.pushCloned
  refine bind getSelf fun c => ?_
  split
  · exact bind (dataResizeWith V _ _) fun _ => pure _
  · exact pure _

theorem KeepsElem.dynGetBytes (d : VecVoid) (i : Nat) : KeepsElem (V := V) Γ (d.getBytes cfg i) := by
  unfold VecVoid.getBytes indexByteSlice indexByteRange
  exact bind (debugAssert _) fun _ => bind (lift _) fun _ =>
    bind (bind (umul _ _) fun _ => bind (uadd _ _) fun _ => bind (umul _ _) fun _ => pure _) fun _ => lift _

theorem KeepsElem.dynGetMut (i : Nat) (m : M (ValueRef V × World U) α) : KeepsElem Γ (VecDyn.getMut (V := V) cfg i m) := by
  unfold VecDyn.getMut
  exact bind getSelf fun c => bind (debugAssert _) fun _ => bind (dynGetBytes V _ _) fun _ => by
    unfold indexByteRange
    exact bind (bind (umul _ _) fun _ => bind (uadd _ _) fun _ => bind (umul _ _) fun _ => pure _) fun _ => mem

theorem KeepsElem.dynResize [HasDrop U V] (t : TyId) (n : Nat) (x : Bytes) : KeepsElem Γ (VecDyn.resize (V := V) Γ cfg t n x) := by
  unfold VecDyn.resize VecDyn.resizeBody
  refine thenDrop (bind getSelf fun c => ?_) (onWorld _)
  split
  · exact pure _
  · split
    · exact bind (reserve V _) fun _ => bind (repeatN _ (bind (onWorld _) fun _ => bind (pushAs V _ _) fun _ => pure _))
        fun _ => pure _
    · exact bind (byteChunks V _) fun _ => bind (forEach _ fun _ => onWorld _) fun _ => bind (dataTruncate V _) fun _ => pure _

theorem KeepsElem.dynFill (t : TyId) (x : Bytes) : KeepsElem Γ (VecDyn.fill (V := V) Γ t x) := by
  unfold VecDyn.fill
  exact thenDrop (asMutSliceAs V _ _) (onWorld _)

omit V in
theorem vvAppend_elem {v b v' b' : VecVoid} {h h' : Heap} {u u' : U}
    (hr : VecVoid.append Γ cfg (v, (⟨h, (b, u)⟩ : World (VecVoid × U))) = (.ok (), (v', ⟨h', (b', u')⟩))) :
    v'.elem = v.elem ∧ b'.elem = b.elem := by
  unfold VecVoid.append at hr
  obtain ⟨self, q1, h1, hr⟩ := M.bind_ok_inv hr
  obtain ⟨rfl, rfl⟩ := getSelf_inv h1
  obtain ⟨⟨x, w0⟩, q1, h1, hr⟩ := M.bind_ok_inv hr
  simp only [M.get_run, Prod.mk.injEq, Res.ok.injEq] at h1
  obtain ⟨⟨rfl, rfl⟩, rfl⟩ := h1
  obtain ⟨⟨⟩, q1, h1, hr⟩ := M.bind_ok_inv hr
  obtain rfl := (Still.assert _).ok h1
  obtain ⟨⟨⟩, q1, h1, hr⟩ := M.bind_ok_inv hr
  obtain rfl := (Still.debugAssert _).ok h1
  obtain ⟨⟨⟩, q1, h1, hr⟩ := M.bind_ok_inv hr
  obtain rfl := (Still.debugAssert _).ok h1
  unfold evalAlign at hr
  split at hr
  · refine ⟨applyAligned_elem hr, ?_⟩
    obtain ⟨r, r', hf⟩ := applyAligned_inv hr
    simp only [VecVoid.swapRoles, M.zoom_run, Prod.mk.injEq, World.mk.injEq] at hf
    obtain ⟨hf, -, -, rfl, -⟩ := hf
    exact applyAligned_elem (Prod.ext hf rfl)
  · simp at hr

/-- `append` leaves the records of both containers alone. -/
theorem append_elem {c b c' b' : VecCopy V} {a : Option Unit} {h h' : Heap} {u u' : U}
    (hr : VecCopy.append Γ cfg (c, (⟨h, (b, u)⟩ : World (VecCopy V × U))) = (.ok a, (c', ⟨h', (b', u')⟩))) :
    c'.data.elem = c.data.elem ∧ b'.data.elem = b.data.elem := by
  unfold VecCopy.append at hr
  obtain ⟨self, q1, h1, hr⟩ := M.bind_ok_inv hr
  obtain ⟨rfl, rfl⟩ := getSelf_inv h1
  obtain ⟨⟨x, w0⟩, q1, h1, hr⟩ := M.bind_ok_inv hr
  simp only [M.get_run, Prod.mk.injEq, Res.ok.injEq] at h1
  obtain ⟨⟨rfl, rfl⟩, rfl⟩ := h1
  simp only at hr
  split at hr
  · obtain ⟨⟨⟩, ⟨c1, w1⟩, h1, hr⟩ := M.bind_ok_inv hr
    simp only [M.pure_run, Prod.mk.injEq] at hr
    obtain ⟨-, rfl, rfl⟩ := hr
    simp only [M.zoom_run, Prod.mk.injEq, World.mk.injEq] at h1
    obtain ⟨h1, rfl, rfl, rfl, rfl⟩ := h1
    obtain ⟨v', ⟨h2, v2, u2⟩, hx⟩ : ∃ v' w', VecVoid.append Γ cfg (self.data, (⟨h, (b.data, u)⟩ : World (VecVoid × U))) = (.ok (), (v', w')) :=
      ⟨_, _, Prod.ext h1 rfl⟩
    simp only [hx]
    exact vvAppend_elem hx
  · simp only [M.pure_run, Prod.mk.injEq, World.mk.injEq] at hr
    obtain ⟨-, rfl, rfl, rfl, rfl⟩ := hr
    exact ⟨rfl, rfl⟩

end

end Dync
