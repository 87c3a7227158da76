import Verif.Props.ExampleDyn
import Verif.DynLemmas
/-!
# C66: the functions stored in the builtin tables

Each runs the function of the element type on slices of the right length, and otherwise panics before running any of it.
-/
namespace Dync
variable {U : Type}

theorem assert_ne {σ : Type} {a b : Nat} (h : ¬ a = b) (s : σ) : (M.assert (a == b) : M σ Unit) s = (.panic .assertion, s) := by
  rw [beq_false_of_ne h]; rfl

/-- The drop functions of all builtin tables built for `t`. -/
def dropFns (Γ : TyEnv U) (t : TyId) : List (DropFn U) :=
  [HasDrop.dropFn (DropVTable.build Γ t), HasDrop.dropFn (CloneVTable.build Γ t), HasDrop.dropFn (PartialEqVTable.build Γ t),
   HasDrop.dropFn (EqVTable.build Γ t), HasDrop.dropFn (HashVTable.build Γ t), HasDrop.dropFn (DebugVTable.build Γ t),
   HasDrop.dropFn (SendVTable.build Γ t), HasDrop.dropFn (SyncVTable.build Γ t),
   HasDrop.dropFn (pairBuild Γ t (CloneVTable.build Γ t))]

/-- **C66**: `drop_fn` of every builtin table. -/
theorem C66_drop (Γ : TyEnv U) (t : TyId) : ∀ f ∈ dropFns Γ t, ∀ (b : Bytes) (u : U),
    f b u = if b.length = Γ.size t then Γ.drop t b u else (.panic .assertion, u) := by
  have h : ∀ (b : Bytes) (u : U), dropBytes Γ t b u = if b.length = Γ.size t then Γ.drop t b u else (.panic .assertion, u) := by
    intro b u
    unfold dropBytes
    by_cases e : b.length = Γ.size t
    · rw [M.bind_ok (a := ()) (s' := u) (by simp [e]), if_pos e]
    · rw [M.bind_panic (assert_ne e _), if_neg e]
  intro f hf b u
  simp only [dropFns, List.mem_cons, List.not_mem_nil, or_false] at hf
  rcases hf with rfl | rfl | rfl | rfl | rfl | rfl | rfl | rfl | rfl <;> exact h b u

/-- **C66**: `clone_fn`: the clone, in a block of its own with the layout of the element type; nothing is allocated if
the type's `clone` does not return. -/
theorem C66_clone (Γ : TyEnv U) (t : TyId) (b : Bytes) (w : World U) :
    HasClone.cloneFn (CloneVTable.build Γ t) b w =
      if b.length = Γ.size t then
        match Γ.clone t b w.user with
        | (.ok c, u) => (.ok ⟨(w.heap.alloc (Γ.layout t)).1, c⟩, ⟨(w.heap.alloc (Γ.layout t)).2, u⟩)
        | (.panic y, u) => (.panic y, ⟨w.heap, u⟩)
        | (.ub, u) => (.ub, ⟨w.heap, u⟩)
        | (.abort, u) => (.abort, ⟨w.heap, u⟩)
      else (.panic .assertion, w) := by
  show cloneBytes Γ t b w = _
  unfold cloneBytes
  by_cases e : b.length = Γ.size t
  · rw [M.bind_ok (a := ()) (s' := w) (by simp [e]), if_pos e]
    rcases h : Γ.clone t b w.user with ⟨r, u⟩
    have hw : worldUser (Γ.clone t b) w = (r, ⟨w.heap, u⟩) := by simp [worldUser, h]
    cases r with
    | ok c => rw [M.bind_ok hw]; rfl
    | panic y => rw [M.bind_panic hw]
    | ub => rw [M.bind_ub hw]
    | abort => rw [M.bind_abort hw]
  · rw [M.bind_panic (assert_ne e _), if_neg e]

/-- **C66**: `clone_from_fn`, with destination `d`. -/
theorem C66_clone_from (Γ : TyEnv U) (t : TyId) (src d : Bytes) (u : U) :
    HasClone.cloneFromFn (CloneVTable.build Γ t) src (d, u) =
      if src.length = Γ.size t ∧ d.length = Γ.size t then Γ.cloneFrom t src (d, u) else (.panic .assertion, (d, u)) := by
  show cloneFromBytes Γ t src (d, u) = _
  unfold cloneFromBytes
  by_cases e : src.length = Γ.size t
  · rw [M.bind_ok (a := ()) (s' := (d, u)) (by simp [e]), M.bind_ok (a := (d, u)) (s' := (d, u)) rfl]
    by_cases e' : d.length = Γ.size t
    · simp only
      rw [M.bind_ok (a := ()) (s' := (d, u)) (by simp [e']), if_pos ⟨e, e'⟩]
    · simp only
      rw [M.bind_panic (assert_ne e' _), if_neg fun h => e' h.2]
  · rw [M.bind_panic (assert_ne e _), if_neg fun h => e h.1]

/-- **C66**: `clone_into_raw_fn` on slices of the right length overwrites the destination by the clone, without
dropping what was there. -/
theorem C66_clone_into_raw (Γ : TyEnv U) (t : TyId) (src d : Bytes) (u : U) (hd : d.length = Γ.size t) :
    HasClone.cloneIntoRawFn (CloneVTable.build Γ t) src (d, u) =
      if src.length = Γ.size t then
        match Γ.clone t src u with
        | (.ok c, u') => (.ok (), (c, u'))
        | (.panic y, u') => (.panic y, (d, u'))
        | (.ub, u') => (.ub, (d, u'))
        | (.abort, u') => (.abort, (d, u'))
      else (.panic .assertion, (d, u)) := by
  show cloneIntoRawBytes Γ t src (d, u) = _
  unfold cloneIntoRawBytes
  by_cases e : src.length = Γ.size t
  · rw [M.bind_ok (a := ()) (s' := (d, u)) (by simp [e]), if_pos e]
    rcases h : Γ.clone t src u with ⟨r, u'⟩
    have hw : userPart (Γ.clone t src) (d, u) = (r, (d, u')) := by simp [userPart, h]
    cases r with
    | ok c =>
      rw [M.bind_ok hw, M.bind_ok (a := (d, u')) (s' := (d, u')) rfl]
      simp only
      rw [if_pos (hd.trans (Γ.clone_len h).symm)]
      rfl
    | panic y => rw [M.bind_panic hw]
    | ub => rw [M.bind_ub hw]
    | abort => rw [M.bind_abort hw]
  · rw [M.bind_panic (assert_ne e _), if_neg e]

/-- **C66**: with a destination of another length, `clone_into_raw_fn` panics and leaves the destination alone; the
clone made in between is dropped once. -/
theorem C66_clone_into_raw_len (Γ : TyEnv U) (t : TyId) (src d : Bytes) (u : U) (hs : src.length = Γ.size t)
    (hd : d.length ≠ Γ.size t) {c : Bytes} {u1 u2 : U} (hc : Γ.clone t src u = (.ok c, u1)) (hdr : Γ.drop t c u1 = (.ok (), u2)) :
    HasClone.cloneIntoRawFn (CloneVTable.build Γ t) src (d, u) = (.panic .lenMismatch, (d, u2)) := by
  show cloneIntoRawBytes Γ t src (d, u) = _
  unfold cloneIntoRawBytes
  rw [M.bind_ok (a := ()) (s' := (d, u)) (by simp [hs])]
  have hw : userPart (Γ.clone t src) (d, u) = (.ok c, (d, u1)) := by simp [userPart, hc]
  rw [M.bind_ok hw, M.bind_ok (a := (d, u1)) (s' := (d, u1)) rfl]
  simp only
  rw [if_neg (fun h => hd (h.trans (Γ.clone_len hc)))]
  have hw2 : M.unwindDrop (userPart (Γ.drop t c)) (d, u1) = (.ok (), (d, u2)) := by simp [M.unwindDrop, userPart, hdr]
  rw [M.bind_ok hw2]
  rfl

/-- **C66**: `eq_fn`, `hash_fn` and `fmt_fn`. -/
theorem C66_pure (Γ : TyEnv U) (t : TyId) (a b : Bytes) :
    (∀ f ∈ [HasPartialEq.eqFn (PartialEqVTable.build Γ t), HasPartialEq.eqFn (EqVTable.build Γ t)],
      f a b = if a.length = Γ.size t ∧ b.length = Γ.size t then .ok (Γ.eq t a b) else .panic .assertion) ∧
    HasHash.hashFn (HashVTable.build Γ t) a = (if a.length = Γ.size t then .ok (Γ.hash t a) else .panic .assertion) ∧
    HasDebug.fmtFn (DebugVTable.build Γ t) a = (if a.length = Γ.size t then .ok (Γ.fmt t a) else .panic .assertion) := by
  refine ⟨?_, rfl, rfl⟩
  intro f hf
  have h : eqBytes Γ t a b = if a.length = Γ.size t ∧ b.length = Γ.size t then .ok (Γ.eq t a b) else .panic .assertion := by
    unfold eqBytes
    by_cases h1 : a.length = Γ.size t <;> by_cases h2 : b.length = Γ.size t <;> simp [h1, h2]
  simp only [List.mem_cons, List.not_mem_nil, or_false] at hf
  rcases hf with rfl | rfl <;> exact h

example := C66_drop Ex.env 7 (HasDrop.dropFn (SyncVTable.build Ex.env 7)) (by simp [dropFns]) (List.replicate 8 (some 255)) []
example := C66_clone Ex.env 10 (List.replicate 24 (some 1)) ⟨Ex.oneHeap ⟨24, 8⟩, []⟩
example := C66_clone_from Ex.env 10 (List.replicate 24 (some 1)) (List.replicate 23 (some 1)) []
example := C66_clone_into_raw Ex.env 10 (List.replicate 24 (some 1)) (List.replicate 24 (some 2)) [] rfl
example := C66_clone_into_raw_len Ex.env 10 (List.replicate 24 (some 1)) (List.replicate 3 (some 2)) [] rfl (by decide)
  (c := List.replicate 24 (some 1)) (u1 := [.cloned 10 (List.replicate 24 (some 1))])
  (u2 := [.cloned 10 (List.replicate 24 (some 1)), .dropped 10 (List.replicate 24 (some 1))]) rfl rfl
example := C66_pure Ex.env 10 (List.replicate 24 (some 1)) (List.replicate 24 (some 2))

end Dync
