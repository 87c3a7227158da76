import Verif.SpecDyn
import Verif.VecVoidLemmas
/-!
# Lemmas on user code, virtual tables and owned values
-/
namespace Dync
variable {U V W σ α β : Type}

/-! ### Running user code inside a larger state -/

theorem worldUser_ok {m : M U α} {w : World U} {a : α} {u : U} (h : m w.user = (.ok a, u)) :
    worldUser m w = (.ok a, { w with user := u }) := by rw [worldUser_run, h]

theorem worldUser_of {m : M U α} {w : World U} {r : Res α} {u : U} (h : m w.user = (r, u)) :
    worldUser m w = (r, { w with user := u }) := by rw [worldUser_run, h]

theorem onWorld_of {m : M (World U) α} {s : σ × World U} {r : Res α} {w : World U}
    (h : m s.2 = (r, w)) : onWorld m s = (r, (s.1, w)) := by rw [onWorld_run, h]

theorem worldUser_pure (a : α) : worldUser (pure a : M U α) = pure a := rfl

theorem worldUser_bind (m : M U α) (f : α → M U β) :
    worldUser (m >>= f) = (worldUser m >>= fun a => worldUser (f a)) := by
  apply M.ext'; intro w
  simp only [worldUser_run, M.bind_run]
  rcases m w.user with ⟨r, u⟩; cases r <;> rfl

theorem onWorld_bind (m : M (World U) α) (f : α → M (World U) β) :
    (onWorld (m >>= f) : M (σ × World U) β) = (onWorld m >>= fun a => onWorld (f a)) := by
  apply M.ext'; intro w
  simp only [onWorld_run, M.bind_run]
  rcases m w.2 with ⟨r, u⟩; cases r <;> rfl

theorem forEach_worldUser (xs : List α) (f : α → M U Unit) :
    (M.forEach xs fun x => worldUser (f x)) = worldUser (M.forEach xs f) := by
  induction xs with
  | nil => rfl
  | cons x xs ih => simp only [M.forEach_cons, ih, worldUser_bind]

theorem forEach_onWorld (xs : List α) (f : α → M (World U) Unit) :
    (M.forEach xs fun x => (onWorld (f x) : M (σ × World U) Unit)) = onWorld (M.forEach xs f) := by
  induction xs with
  | nil => rfl
  | cons x xs ih => simp only [M.forEach_cons, ih, onWorld_bind]

theorem forEach_congr {xs : List α} {f g : α → M σ Unit} (h : ∀ x ∈ xs, f x = g x) :
    M.forEach xs f = M.forEach xs g := by
  induction xs with
  | nil => rfl
  | cons x xs ih =>
    simp only [M.forEach_cons]
    rw [h x (by simp), ih (fun y hy => h y (by simp [hy]))]

theorem mapEach_congr {xs : List α} {f g : α → M σ β} (h : ∀ x ∈ xs, f x = g x) :
    M.mapEach xs f = M.mapEach xs g := by
  induction xs with
  | nil => rfl
  | cons x xs ih =>
    simp only [M.mapEach_cons]
    rw [h x (by simp), ih (fun y hy => h y (by simp [hy]))]

theorem mapEach_length {xs : List α} {f : α → M σ β} {s s' : σ} {ys : List β}
    (h : M.mapEach xs f s = (.ok ys, s')) : ys.length = xs.length := by
  induction xs generalizing s ys with
  | nil => cases h; rfl
  | cons x xs ih =>
    simp only [M.mapEach_cons, M.bind_run] at h
    rcases hx : f x s with ⟨r, s1⟩
    rw [hx] at h
    cases r with
    | ok y =>
      simp only at h
      rcases hxs : M.mapEach xs f s1 with ⟨r2, s2⟩
      rw [hxs] at h
      cases r2 with
      | ok zs => cases h; simp [ih hxs]
      | _ => cases h
    | _ => cases h

theorem mapEach_clone_each (Γ : TyEnv U) {t : TyId} {xs ys : List Bytes} {u u' : U}
    (h : M.mapEach xs (Γ.clone t) u = (.ok ys, u')) : ∀ y ∈ ys, y.length = Γ.size t := by
  induction xs generalizing u ys with
  | nil => cases h; intro y hy; cases hy
  | cons x xs ih =>
    simp only [M.mapEach_cons, M.bind_run] at h
    rcases hx : Γ.clone t x u with ⟨r, s1⟩
    rw [hx] at h
    cases r with
    | ok y =>
      simp only at h
      rcases hxs : M.mapEach xs (Γ.clone t) s1 with ⟨r2, s2⟩
      rw [hxs] at h
      cases r2 with
      | ok zs =>
        cases h
        intro z hz
        rcases List.mem_cons.1 hz with rfl | hz
        · exact Γ.clone_len hx
        · exact ih hxs z hz
      | _ => cases h
    | _ => cases h

theorem M.thenDrop_dropPanic {m : M σ α} {d : M σ Unit} {s s' s'' : σ} {a : α} {y : Why}
    (h : m s = (.ok a, s')) (hd : d s' = (.panic y, s'')) : M.thenDrop m d s = (.panic y, s'') := by
  simp [M.thenDrop, h, hd]

/-! ### Built tables are lawful -/

theorem dropBytes_eq {Γ : TyEnv U} {t : TyId} {b : Bytes} (h : b.length = Γ.size t) :
    dropBytes Γ t b = Γ.drop t b := by
  apply M.ext'; intro s; simp [dropBytes, h]

theorem lawfulDrop_of [HasDrop U V] {Γ : TyEnv U} {t : TyId} {vt : V}
    (h : HasDrop.dropFn vt = dropBytes Γ t) : LawfulDrop Γ t vt := by
  intro b hb; rw [h]; exact dropBytes_eq hb

theorem lawfulEq_of [HasPartialEq V] {Γ : TyEnv U} {t : TyId} {vt : V}
    (h : HasPartialEq.eqFn vt = eqBytes Γ t) : LawfulEq Γ t vt := by
  intro a b ha hb; rw [h]; simp [eqBytes, ha, hb]

theorem lawfulHash_of [HasHash V] {Γ : TyEnv U} {t : TyId} {vt : V}
    (h : HasHash.hashFn vt = hashBytes Γ t) : LawfulHash Γ t vt := by
  intro a ha; rw [h]; simp [hashBytes, ha]

theorem lawfulDebug_of [HasDebug V] {Γ : TyEnv U} {t : TyId} {vt : V}
    (h : HasDebug.fmtFn vt = fmtBytes Γ t) : LawfulDebug Γ t vt := by
  intro a ha; rw [h]; simp [fmtBytes, ha]

theorem lawfulClone_of [HasClone U V] {Γ : TyEnv U} {t : TyId} {vt : V}
    (h1 : HasClone.cloneFn vt = cloneBytes Γ t) (h2 : HasClone.cloneFromFn vt = cloneFromBytes Γ t)
    (h3 : HasClone.cloneIntoRawFn vt = cloneIntoRawBytes Γ t) : LawfulClone Γ t vt := by
  refine ⟨?_, ?_, ?_, ?_, ?_, ?_⟩
  · intro b b' w u' hb hc
    rw [h1]
    simp only [cloneBytes, hb, beq_self_eq_true, M.bind_run, M.assert_true_run, worldUser_of hc]
    rfl
  · intro b w u' y hb hc
    rw [h1]
    simp only [cloneBytes, hb, beq_self_eq_true, M.bind_run, M.assert_true_run, worldUser_of hc]
  · intro b b' d u u' hb hd hc
    rw [h3]
    have hl := Γ.clone_len hc
    simp [cloneIntoRawBytes, hb, userPart, hc, hd, hl]
  · intro b d u u' y hb hd hc
    rw [h3]
    simp [cloneIntoRawBytes, hb, userPart, hc]
  · intro b b' d u u' u'' hb hd hc hdr
    rw [h3]
    have hl := Γ.clone_len hc
    simp [cloneIntoRawBytes, hb, userPart, hc, hl, hd, M.unwindDrop, hdr]
  · intro b d u hb hd
    rw [h2]
    simp [cloneFromBytes, hb, hd]

/-! ### Blocks of boxes -/

theorem OwnsBlock.alloc (Γ : TyEnv U) (h : Heap) (t : TyId) :
    OwnsBlock Γ (h.alloc (Γ.layout t)).2 t (h.alloc (Γ.layout t)).1 := by
  by_cases hs : Γ.size t = 0
  · left; exact ⟨hs, by simp [Heap.alloc, hs]⟩
  · right
    refine ⟨Nat.pos_of_ne_zero hs, h.next, ?_⟩
    exact Heap.alloc_live (h := h) (l := Γ.layout t) hs

/-- Giving up the block at `p`: it is dead afterwards, nothing else changed. -/
theorem dealloc_owned {Γ : TyEnv U} {h : Heap} {t : TyId} {p : Ptr} (hw : h.WF) (ho : OwnsBlock Γ h t p) :
    ∃ h', dealloc p (Γ.layout t) h = (.ok (), h') ∧ Realloc h p h' none ∧ h'.next = h.next := by
  rcases ho with ⟨hs, rfl⟩ | ⟨hs, i, rfl, hl⟩
  · exact ⟨h, by simp [dealloc, hs], Realloc.refl hw none, rfl⟩
  · refine ⟨h.free i, by simp [dealloc, hl, Nat.ne_of_gt hs], ⟨hw.free i, Nat.le_refl _, ?_, ?_, ?_⟩, rfl⟩
    · intro j hj _
      have : j ≠ i := fun e => hj (by rw [e])
      simp [Heap.free, this]
    · intro _ j hj; cases hj; simp [Heap.free]
    · intro _ j hj; cases hj

theorem BoxBytes.dropAsAligned_owned {Γ : TyEnv U} {t : TyId} {b : BoxBytes} {w : World U}
    (hw : w.heap.WF) (hb : b.bytes.length = Γ.size t) (ho : OwnsBlock Γ w.heap t b.ptr) :
    ∃ h', BoxBytes.dropAsAligned (Γ.align t) b w = (.ok (), { w with heap := h' }) ∧
      Realloc w.heap b.ptr h' none ∧ h'.next = w.heap.next := by
  obtain ⟨h', hd, hr, hn⟩ := dealloc_owned hw ho
  refine ⟨h', ?_, hr, hn⟩
  unfold BoxBytes.dropAsAligned
  rw [evalAlign_align]
  have hl : b.bytes.length / Γ.align t * Γ.align t = Γ.size t := by
    rw [hb]; exact Nat.div_mul_cancel (Γ.align_dvd t)
  simp only [hl]
  show (((dealloc b.ptr (Γ.layout t)) w.heap).1, _) = _
  simp only [hd]

theorem OwnsBlock.frame {Γ : TyEnv U} {h h' : Heap} {t : TyId} {p : Ptr} (ho : OwnsBlock Γ h t p)
    (hf : ∀ i, p = some i → h'.live i = h.live i) : OwnsBlock Γ h' t p := by
  rcases ho with ⟨hs, rfl⟩ | ⟨hs, i, rfl, hl⟩
  · left; exact ⟨hs, rfl⟩
  · right; exact ⟨hs, i, rfl, by rw [hf i rfl, hl]⟩

theorem OwnsBlock.lt_next {Γ : TyEnv U} {h : Heap} {t : TyId} {p : Ptr} (hw : h.WF)
    (ho : OwnsBlock Γ h t p) : ∀ i, p = some i → i < h.next := by
  intro i hi
  rcases ho with ⟨_, rfl⟩ | ⟨_, j, rfl, hl⟩
  · cases hi
  · cases hi; exact Heap.lt_next hw hl

theorem IsBox.frame {Γ : TyEnv U} {h h' : Heap} {t : TyId} {x : Bytes} {v : BoxValue V}
    (hv : IsBox Γ h t x v) (hf : ∀ i, v.bytes.ptr = some i → h'.live i = h.live i) : IsBox Γ h' t x v :=
  ⟨hv.type_id, hv.align, hv.bytes, hv.length, hv.block.frame hf⟩

theorem IsBox.asRef {Γ : TyEnv U} {h : Heap} {t : TyId} {x : Bytes} {v : BoxValue V}
    (hv : IsBox Γ h t x v) : IsRef Γ t x v.asRef := ⟨hv.type_id, hv.align, hv.bytes, hv.length⟩

theorem IsSmall.asRef {Γ : TyEnv U} {t : TyId} {x : Bytes} {v : SmallValue V}
    (hv : IsSmall Γ t x v) : IsRef Γ t x v.asRef := ⟨hv.type_id, hv.align, hv.bytes, hv.length⟩

/-! ### Life cycle of boxes -/

theorem BoxValue.new_spec {Γ : TyEnv U} {t : TyId} {vt : V} {x : Bytes} {w : World U}
    (hw : w.heap.WF) (hx : x.length = Γ.size t) :
    ∃ v h', BoxValue.new Γ t vt x w = (.ok v, { w with heap := h' }) ∧ IsBox Γ h' t x v ∧
      v.vtable = vt ∧ Realloc w.heap none h' v.bytes.ptr := by
  refine ⟨⟨⟨(w.heap.alloc (Γ.layout t)).1, x⟩, t, Γ.align t, vt⟩, (w.heap.alloc (Γ.layout t)).2, rfl,
    ⟨rfl, rfl, rfl, hx, OwnsBlock.alloc Γ w.heap t⟩, rfl, Realloc.ofAlloc hw _⟩

theorem Value.drop_box_ok [HasDrop U V] {Γ : TyEnv U} {t : TyId} {x : Bytes} {v : BoxValue V} {w : World U}
    {u' : U} (hw : w.heap.WF) (hv : IsBox Γ w.heap t x v) (hl : LawfulDrop Γ t v.vtable)
    (hd : Γ.drop t x w.user = (.ok (), u')) :
    ∃ h', v.drop w = (.ok (), ⟨h', u'⟩) ∧ Realloc w.heap v.bytes.ptr h' none ∧ h'.next = w.heap.next := by
  obtain ⟨h', he, hr, hn⟩ := BoxBytes.dropAsAligned_owned (w := { w with user := u' }) hw
    (by rw [hv.bytes]; exact hv.length) hv.block
  refine ⟨h', ?_, hr, hn⟩
  have h1 : worldUser (HasDrop.dropFn v.vtable (ByteBuf.get v.bytes)) w = (.ok (), { w with user := u' }) := by
    apply worldUser_ok
    rw [show ByteBuf.get v.bytes = x from hv.bytes, hl x hv.length, hd]
  unfold Value.drop
  rw [M.bind_ok h1, hv.align]
  exact he

theorem Value.drop_panic [ByteBuf B] [HasDrop U V] {Γ : TyEnv U} {t : TyId} {x : Bytes} {v : Value B V}
    {w : World U} {u' : U} {y : Why} (hb : ByteBuf.get v.bytes = x) (hx : x.length = Γ.size t)
    (hl : LawfulDrop Γ t v.vtable) (hd : Γ.drop t x w.user = (.panic y, u')) :
    v.drop w = (.panic y, { w with user := u' }) := by
  have h1 : worldUser (HasDrop.dropFn v.vtable (ByteBuf.get v.bytes)) w = (.panic y, { w with user := u' }) := by
    apply worldUser_of
    rw [hb, hl x hx, hd]
  unfold Value.drop
  rw [M.bind_panic h1]

theorem Value.drop_small_ok [HasDrop U V] {Γ : TyEnv U} {t : TyId} {x : Bytes} {v : SmallValue V} {w : World U}
    {u' : U} (hv : IsSmall Γ t x v) (hl : LawfulDrop Γ t v.vtable)
    (hd : Γ.drop t x w.user = (.ok (), u')) : v.drop w = (.ok (), { w with user := u' }) := by
  have h1 : worldUser (HasDrop.dropFn v.vtable (ByteBuf.get v.bytes)) w = (.ok (), { w with user := u' }) := by
    apply worldUser_ok
    rw [show ByteBuf.get v.bytes = x from hv.bytes, hl x hv.length, hd]
  unfold Value.drop
  rw [M.bind_ok h1]
  rfl

theorem ValueRef.cloneValue_ok [HasClone U V] {Γ : TyEnv U} {t : TyId} {x x' : Bytes} {v : ValueRef V}
    {w : World U} {u' : U} (hw : w.heap.WF) (hv : IsRef Γ t x v) (hl : LawfulClone Γ t v.vtable)
    (hc : Γ.clone t x w.user = (.ok x', u')) :
    ∃ v' h', ValueRef.cloneValue v w = (.ok v', ⟨h', u'⟩) ∧ IsBox Γ h' t x' v' ∧
      v'.vtable = v.vtable ∧ Realloc w.heap none h' v'.bytes.ptr := by
  refine ⟨⟨⟨(w.heap.alloc (Γ.layout t)).1, x'⟩, v.type_id, v.alignment, v.vtable⟩,
    (w.heap.alloc (Γ.layout t)).2, ?_, ⟨hv.type_id, hv.align, rfl, Γ.clone_len hc,
      OwnsBlock.alloc Γ w.heap t⟩, rfl, Realloc.ofAlloc hw _⟩
  unfold ValueRef.cloneValue
  rw [M.bind_ok (by rw [hv.bytes]; exact hl.clone_ok hv.length hc)]
  rfl

theorem ValueRef.cloneValue_panic [HasClone U V] {Γ : TyEnv U} {t : TyId} {x : Bytes} {v : ValueRef V}
    {w : World U} {u' : U} {y : Why} (hv : IsRef Γ t x v) (hl : LawfulClone Γ t v.vtable)
    (hc : Γ.clone t x w.user = (.panic y, u')) :
    ValueRef.cloneValue v w = (.panic y, { w with user := u' }) := by
  unfold ValueRef.cloneValue
  rw [M.bind_panic (by rw [hv.bytes]; exact hl.clone_panic hv.length hc)]

theorem ValueRef.cloneSmallValue_ok [HasClone U V] {Γ : TyEnv U} {t : TyId} {x x' : Bytes} {v : ValueRef V}
    {w : World U} {u' : U} (hv : IsRef Γ t x v) (h8 : Γ.size t = 8) (hl : LawfulClone Γ t v.vtable)
    (hc : Γ.clone t x w.user = (.ok x', u')) :
    ∃ v', ValueRef.cloneSmallValue v w = (.ok v', { w with user := u' }) ∧ IsSmall Γ t x' v' ∧
      v'.vtable = v.vtable := by
  refine ⟨⟨⟨x'⟩, v.type_id, v.alignment, v.vtable⟩, ?_,
    ⟨hv.type_id, hv.align, rfl, Γ.clone_len hc, h8⟩, rfl⟩
  have := hl.raw_ok (b := x) (d := List.replicate 8 none) hv.length (by simp [h8]) hc
  unfold ValueRef.cloneSmallValue
  simp only [hv.bytes, this]

theorem ValueRef.cloneSmallValue_panic [HasClone U V] {Γ : TyEnv U} {t : TyId} {x : Bytes} {v : ValueRef V}
    {w : World U} {u' : U} {y : Why} (hv : IsRef Γ t x v) (h8 : Γ.size t = 8) (hl : LawfulClone Γ t v.vtable)
    (hc : Γ.clone t x w.user = (.panic y, u')) :
    ValueRef.cloneSmallValue v w = (.panic y, { w with user := u' }) := by
  have := hl.raw_panic (b := x) (d := List.replicate 8 none) hv.length (by simp [h8]) hc
  unfold ValueRef.cloneSmallValue
  simp only [hv.bytes, this]

end Dync
