import Verif.DynMachineLemmas
import Verif.VecDynLemmas3
/-!
# Values and containers as a whole: the implementation and the machine of `DynMachine.lean` in step
-/
namespace Dync
variable {U V α β σ τ : Type} {Γ : TyEnv U} {t t' : TyId} {n : Nat} {w : World U} {o : Outside U} {cfg : Cfg}
  {F : Nat → Option Layout} {O : List Nat} {h h' : Heap} {p p' : Ptr} {vt : V} {es es' : List Bytes} {rv : RVec} {x : Bytes}

/-! ### User code on the machine -/

theorem call_bind (m : M U α) (f : α → M U β) : call (m >>= f) = (call m >>= fun a => call (f a)) := by
  apply M.ext'
  intro s
  simp only [call, M.zoom_run, M.bind_run]
  rcases m s.user with ⟨r, u⟩
  cases r <;> rfl

theorem forEach_call (xs : List α) (f : α → M U Unit) :
    (M.forEach xs fun x => call (f x)) = call (M.forEach xs f) := by
  induction xs with
  | nil => rfl
  | cons x xs ih =>
    show (call (f x) >>= fun _ => M.forEach xs fun x => call (f x)) = call (f x >>= fun _ => M.forEach xs f)
    rw [call_bind, ih]

theorem call_unwindDrop (d : M U Unit) (y : Why) :
    call (M.unwindDrop d >>= fun _ => (M.panic y : M U α)) = (M.unwindDrop (call d) >>= fun _ => M.panic y) := by
  apply M.ext'
  intro s
  simp only [call, M.zoom_run, M.bind_run, M.unwindDrop]
  rcases d s.user with ⟨r, u⟩
  cases r <;> rfl

theorem call_eq {m : M U α} {r : Res α} {u : U} (hm : m o.user = (r, u)) : call m o = (r, { o with user := u }) := by
  simp only [call, M.zoom_run, hm]

theorem InStep.leaking {Q : α → σ → β → Outside U → Prop} {E E' : σ → Outside U → Prop} {r : Res α × σ}
    {m : M (Outside U) β} {k : Nat} (hm : InStep Q E r (m o))
    (hE : ∀ s o, E s o → E' s { o with leaked := o.leaked + k }) : InStep Q E' r (leaking k m o) := by
  simp only [Dync.leaking]
  rcases hq : m o with ⟨q, o'⟩
  rw [hq] at hm
  cases q with
  | ok b => exact hm
  | panic y => obtain ⟨z, s, h1, h2⟩ := hm; exact ⟨z, s, h1, hE _ _ h2⟩
  | ub => exact hm
  | abort => exact hm

/-- A local variable whose destructor runs if the function that uses it panics. -/
theorem InStep.withLocal {κ : Type} {x : κ} {d : κ → M (World U) Unit} {m : M (κ × World U) α}
    {Q : α × κ → World U → β → τ → Prop} {E : World U → τ → Prop} {q : Res β × τ}
    (hm : InStep (fun a s b t => Q (a, s.1) s.2 b t) (fun _ _ => False) (m (x, w)) q ∨
      ∃ y s z e t, m (x, w) = (.panic y, s) ∧ q = (M.unwindDrop e >>= fun _ => (M.panic z : M τ β)) t ∧
        InStep (fun _ s _ t => E s t) (fun _ _ => True) (d s.1 s.2) (e t)) :
    InStep Q E (withLocal x d m w) q := by
  rcases hm with hm | ⟨y, s, z, e, t, h1, rfl, h2⟩
  · simp only [Dync.withLocal]
    rcases q with ⟨q, t⟩
    cases q with
    | ok b => obtain ⟨a, s, h1, h2⟩ := hm; rw [h1]; exact .ok h2
    | panic y => obtain ⟨z, s, h1, h2⟩ := hm; exact h2.elim
    | ub =>
      rcases hr : m (x, w) with ⟨r, s⟩
      rw [hr] at hm
      have hm : r = .ub := hm
      subst hm; rfl
    | abort =>
      rcases hr : m (x, w) with ⟨r, s⟩
      rw [hr] at hm
      have hm : r = .abort := hm
      subst hm; rfl
  · simp only [Dync.withLocal, h1]
    have h3 := InStep.unwind (y := y) (z := z) (Q := Q) h2
    rcases hd : d s.1 s.2 with ⟨r, s2⟩
    rw [hd] at h3
    cases r <;> exact h3

/-! ### Typed vectors -/

/-- `v` is a `Vec<T>` with the elements `es` and (unless `T` is zero-sized) capacity `n`. -/
structure TypedVec (Γ : TyEnv U) (h : Heap) (t : TyId) (es : List Bytes) (n : Nat) (v : RVec) : Prop where
  bytes : v.bytes = es.flatten
  each : ∀ e ∈ es, e.length = Γ.size t
  len : v.len = es.length
  cap : v.cap = if Γ.size t = 0 then usizeMax else n
  block : (v.cap * Γ.size t = 0 ∧ v.ptr = none) ∨
    (v.cap * Γ.size t ≠ 0 ∧ ∃ i, v.ptr = some i ∧ h.live i = some ⟨v.cap * Γ.size t, Γ.align t⟩)

theorem TypedVec.elems (T : TypedVec Γ h t es n rv) : rv.elems (Γ.size t) = es := by
  have h1 := typedSlice_flatten (k := rv.len) T.each T.len
  rw [← T.bytes] at h1
  unfold typedSlice at h1
  split at h1
  · simpa [RVec.elems] using h1
  · cases h1

theorem TypedVec.frame (T : TypedVec Γ h t es n rv) (hl : ∀ i, rv.ptr = some i → h'.live i = h.live i) :
    TypedVec Γ h' t es n rv := by
  refine ⟨T.bytes, T.each, T.len, T.cap, T.block.imp_right ?_⟩
  rintro ⟨h0, i, hp, hi⟩
  exact ⟨h0, i, hp, by rw [hl i hp, hi]⟩

theorem TypedVec.isVec (T : TypedVec Γ h t es n rv) (hpos : 0 < Γ.size t) (hn : es.length ≤ n) (hr : HasRoom Γ t n) :
    IsVec Γ h t es rv := by
  have hc : rv.cap = n := by rw [T.cap, if_neg (by omega)]
  refine ⟨T.bytes, T.each, T.len, by rw [T.len, hc]; exact hn, ?_, ?_⟩
  · rw [hc]; exact hr.resolve_left (by omega)
  · rcases T.block with ⟨h0, hp⟩ | ⟨h0, hi⟩
    · rcases Nat.mul_eq_zero.1 h0 with h1 | h1
      · exact .inl ⟨h1, hp⟩
      · omega
    · exact .inr ⟨Nat.pos_of_ne_zero fun e => h0 (by rw [e, Nat.zero_mul]), hi⟩

theorem TypedVec.ofIsVec (hv : IsVec Γ h t es rv) (hpos : 0 < Γ.size t) : TypedVec Γ h t es rv.cap rv := by
  refine ⟨hv.bytes, hv.each, hv.len, by rw [if_neg (by omega)], ?_⟩
  rcases hv.block with ⟨h0, hp⟩ | ⟨h0, hi⟩
  · exact .inl ⟨by rw [h0, Nat.zero_mul], hp⟩
  · exact .inr ⟨Nat.mul_ne_zero (by omega) (by omega), hi⟩

theorem TypedVec.dropBuf (T : TypedVec Γ w.heap t es n rv) (W : Worlds F (rv.ptr.toList ++ O) w o) :
    ∃ h', rv.dropBuf (Γ.layout t) w = (.ok (), { w with heap := h' }) ∧ Worlds F O { w with heap := h' } o := by
  rcases T.block with ⟨h0, hp⟩ | ⟨h0, i, hp, hi⟩
  · refine ⟨w.heap, ?_, ?_⟩
    · simp only [RVec.dropBuf, worldHeap, M.zoom_run, dealloc, h0, if_true]
    · rw [hp] at W
      exact W
  · refine ⟨w.heap.free i, ?_, ?_⟩
    · simp only [RVec.dropBuf, worldHeap, M.zoom_run, dealloc, hp, h0, hi, if_false, if_true]
    · exact W.move (p' := none) (hp ▸ Realloc.ofFree W.wf i) (fun _ e => by cases e)

theorem TypedVec.dropTyped (T : TypedVec Γ w.heap t es n rv) (W : Worlds F (rv.ptr.toList ++ O) w o) :
    InStep (fun _ w' _ o' => Worlds F O w' o') (Worlds F O) (RVec.dropTyped Γ t rv w) (dropAll Γ t es o) := by
  unfold RVec.dropTyped
  rw [T.elems, dropEach_worldUser]
  have hc := W.call (M.dropEach es (Γ.drop t))
  simp only [M.thenDrop, dropAll]
  rcases hq : call (M.dropEach es (Γ.drop t)) o with ⟨q, o'⟩
  rw [hq] at hc
  cases q with
  | ok b =>
    obtain ⟨a, w', h1, -, h2, h3⟩ := hc
    obtain ⟨h', h4, h5⟩ := (T.frame (h' := w'.heap) (fun i _ => by rw [h2])).dropBuf h3
    rw [h1]; simp only [h4]
    exact .ok h5
  | panic y =>
    obtain ⟨a, w', h1, h2, h3⟩ := hc
    obtain ⟨h', h4, h5⟩ := (T.frame (h' := w'.heap) (fun i _ => by rw [h2])).dropBuf h3
    rw [h1]; simp only [h4]
    exact .panic h5
  | ub =>
    rcases hr : worldUser (M.dropEach es (Γ.drop t)) w with ⟨r, s'⟩
    rw [hr] at hc
    have hc : r = .ub := hc
    subst hc; rfl
  | abort =>
    rcases hr : worldUser (M.dropEach es (Γ.drop t)) w with ⟨r, s'⟩
    rw [hr] at hc
    have hc : r = .abort := hc
    subst hc; rfl

theorem withCapacity_typed (W : Worlds F O w o) (hr : HasRoom Γ t n) :
    ∃ rv h', RVec.withCapacity (Γ.layout t) n w = (.ok rv, { w with heap := h' }) ∧ TypedVec Γ h' t [] n rv ∧
      Worlds F (rv.ptr.toList ++ O) { w with heap := h' } o := by
  by_cases h0 : Γ.size t = 0
  · refine ⟨RVec.new (Γ.layout t), w.heap, by simp only [RVec.withCapacity, if_pos h0], ⟨rfl, by simp, rfl, ?_, .inl ⟨?_, rfl⟩⟩, W⟩
    · simp [RVec.new, h0]
    · rw [h0, Nat.mul_zero]
  · have hz : n * Γ.size t + (Γ.align t - 1) ≤ isizeMax := hr.resolve_left h0
    refine ⟨⟨(w.heap.alloc ⟨n * Γ.size t, Γ.align t⟩).1, 0, n, []⟩, (w.heap.alloc ⟨n * Γ.size t, Γ.align t⟩).2,
      by simp only [RVec.withCapacity, if_neg h0, if_pos hz], ⟨rfl, by simp, rfl, by rw [if_neg h0], ?_⟩, ?_⟩
    · by_cases hs : n * Γ.size t = 0
      · exact .inl ⟨hs, by simp [Heap.alloc, hs]⟩
      · have hal := Heap.alloc_live (h := w.heap) (l := ⟨n * Γ.size t, Γ.align t⟩) hs
        exact .inr ⟨hs, _, hal.1, hal.2⟩
    · refine Worlds.move (p := none) W (Realloc.ofAlloc W.wf _) ?_
      intro i hi
      by_cases hs : n * Γ.size t = 0
      · simp [Heap.alloc, hs] at hi
      · have hal := Heap.alloc_live (h := w.heap) (l := ⟨n * Γ.size t, Γ.align t⟩) hs
        rw [hal.1] at hi
        cases hi
        rw [hal.2]; simp

theorem withCapacity_full (hr : ¬ HasRoom Γ t n) : RVec.withCapacity (Γ.layout t) n w = (.panic .capacity, w) := by
  have h1 : Γ.size t ≠ 0 := fun e => hr (.inl e)
  have h2 : ¬ (n * Γ.size t + (Γ.align t - 1) ≤ isizeMax) := fun e => hr (.inr e)
  simp only [RVec.withCapacity, if_neg h1, if_neg h2]

section
variable [HasDrop U V] [HasClone U V] [TableLaw V]

/-- What a creator makes. -/
def Makes (Γ : TyEnv U) (F : Nat → Option Layout) (O : List Nat) (a : Item V) (w : World U) (b : YItem) (o : Outside U) : Prop :=
  Worlds F (a.ptr.toList ++ O) w o ∧ YItem.Is Γ w.heap a b

theorem TypedVec.wrap (T : TypedVec Γ w.heap t es n rv) (W : Worlds F (rv.ptr.toList ++ O) w o)
    (hn : Γ.size t = 0 ∨ es.length ≤ n) (hr : HasRoom Γ t n) (ht : Tab Γ t vt) :
    InStep (fun c w' b o' => Makes Γ F O (.vec c) w' b o') (Worlds F O) (VecCopy.fromVec Γ t vt rv w) (wrapVec Γ t es n o) := by
  unfold wrapVec
  split
  · rename_i h0
    unfold VecCopy.fromVec
    have h1 : (Γ.size t != 0) = false := by simp [h0]
    rw [h1]
    have hw : InStep (fun (_ : Unit × RVec) (_ : World U) (_ : YItem) (_ : Outside U) => False) (Worlds F O)
        (Dync.withLocal rv (RVec.dropTyped Γ t) (M.assert false) w)
        ((M.unwindDrop (dropAll Γ t es) >>= fun _ => (M.panic .assertion : M (Outside U) YItem)) o) :=
      InStep.withLocal (.inr ⟨.assertion, (rv, w), .assertion, _, o, rfl, rfl,
        (T.dropTyped W).mono (fun _ _ _ _ h => h) (fun _ _ _ => trivial)⟩)
    have := InStep.bind (g := fun b => pure b) (Q' := fun c w' b o' => Makes Γ F O (.vec c) w' b o') (E' := Worlds F O)
      (f := fun _ => (VecVoid.fromVec Γ t rv >>= fun data => pure ⟨data, vt⟩ : M (World U) (VecCopy V)))
      (m := Dync.withLocal rv (RVec.dropTyped Γ t) (M.assert false)) (n := (M.unwindDrop (dropAll Γ t es) >>= fun _ => (M.panic .assertion : M (Outside U) YItem)))
      (s := w) (t := o) hw (fun _ _ _ _ h => h.elim) (fun _ _ h => h)
    rw [_root_.bind_pure] at this
    exact this
  · rename_i h0
    have hpos : 0 < Γ.size t := Nat.pos_of_ne_zero h0
    have hv := T.isVec hpos (hn.resolve_left h0) hr
    obtain ⟨q, k, h', hrun, hR, hre, hsame, -⟩ := VecCopy.fromVec_ok (vt := vt) hv W.wf hpos
    rw [hrun]
    have hk : k = if n = 0 then leastCap (Γ.size t) else n := by
      have hc : rv.cap = n := by rw [T.cap, if_neg h0]
      split
      · rename_i hn0
        have := hn.resolve_left h0
        exact fromVec_cap (c := ⟨⟨q, rv.len, k, ElemInfo.new Γ t, rv.bytes⟩, vt⟩) (hc.trans hn0) (by rw [T.len]; omega) hrun
      · rename_i hn0
        rw [← hc]; exact (hsame (by omega)).2.1
    refine .ok ⟨W.move hre ?_, ⟨hR, hk⟩, ht, hpos, ?_⟩
    · intro i hi
      obtain ⟨j, hp, hl⟩ := hR.block
      rw [show q = some i from hi] at hp; cases hp
      rw [hl]; simp
    · intro t' es' cap e; cases e; rfl

/-! ### Creating -/

theorem withType_makes (W : Worlds F O w o) (ht : Tab Γ t vt) :
    InStep (Makes Γ F O) (Worlds F O) ((do return .vec (← VecCopy.withType Γ t vt) : M (World U) (Item V)) w) (wrapVec Γ t [] 0 o) := by
  have hT : TypedVec Γ w.heap t [] 0 (RVec.new (Γ.layout t)) := by
    refine ⟨rfl, by simp, rfl, by simp [RVec.new], ?_⟩
    by_cases h0 : Γ.size t = 0
    · exact .inl ⟨by rw [h0, Nat.mul_zero], rfl⟩
    · exact .inl ⟨by simp [RVec.new, h0], rfl⟩
  have hr : HasRoom Γ t 0 := by
    by_cases h0 : Γ.size t = 0
    · exact .inl h0
    · right; rw [Nat.zero_mul, Nat.zero_add]; exact align_le_isizeMax (Nat.pos_of_ne_zero h0)
  have := InStep.map (g := id) (f := Item.vec) (Q' := Makes Γ F O) (n := wrapVec Γ t [] 0) (m := VecCopy.withType Γ t vt)
    (hT.wrap W (.inr (Nat.le_refl _)) hr ht) (fun a s b t h => h)
  simp only [id, _root_.bind_pure] at this
  exact this

theorem makes_map {m : M (World U) (VecDyn V)} {q : M (Outside U) YItem}
    (hm : InStep (fun c w' b o' => Makes Γ F O (.vec c) w' b o') (Worlds F O) (m w) (q o)) :
    InStep (Makes Γ F O) (Worlds F O) ((do return .vec (← m) : M (World U) (Item V)) w) (q o) := by
  have := InStep.map (g := id) (f := Item.vec) (Q' := Makes Γ F O) hm (fun a s b t h => h)
  simp only [id, _root_.bind_pure] at this
  exact this

theorem withCapacity_makes (W : Worlds F O w o) (ht : Tab Γ t vt) (n : Nat) :
    InStep (Makes Γ F O) (Worlds F O) ((do return .vec (← VecCopy.withCapacity Γ t vt n) : M (World U) (Item V)) w)
      ((if HasRoom Γ t n then wrapVec Γ t [] n else M.panic .capacity : M (Outside U) YItem) o) := by
  refine makes_map ?_
  unfold VecCopy.withCapacity
  split
  · rename_i hr
    obtain ⟨rv, h', h1, T, W'⟩ := withCapacity_typed W hr
    rw [M.bind_ok h1]
    exact T.wrap W' (.inr (Nat.zero_le _)) hr ht
  · rename_i hr
    rw [M.bind_panic (withCapacity_full hr)]
    exact .panic W

theorem TypedVec.fill0 (T : TypedVec Γ h t [] n rv) (he : ∀ e ∈ es, e.length = Γ.size t) :
    TypedVec Γ h t es n { rv with len := es.length, bytes := es.flatten } := ⟨rfl, he, rfl, T.cap, T.block⟩

theorem fromVec_makes (W : Worlds F O w o) (ht : Tab Γ t vt) (he : ∀ e ∈ es, e.length = Γ.size t) :
    InStep (Makes Γ F O) (Worlds F O) ((do
        let v ← RVec.withCapacity (Γ.layout t) es.length
        return .vec (← VecCopy.fromVec Γ t vt { v with len := es.length, bytes := es.flatten }) : M (World U) (Item V)) w)
      ((if HasRoom Γ t es.length then wrapVec Γ t es es.length else M.panic .capacity : M (Outside U) YItem) o) := by
  split
  · rename_i hr
    obtain ⟨rv, h', h1, T, W'⟩ := withCapacity_typed W hr
    rw [M.bind_ok h1]
    exact makes_map ((T.fill0 he).wrap W' (.inr (Nat.le_refl _)) hr ht)
  · rename_i hr
    rw [M.bind_panic (withCapacity_full hr)]
    exact .panic W

/-- Cloning into a fresh `Vec<T>`. -/
theorem extendClone_step {xs : List Bytes} (T : TypedVec Γ w.heap t [] n rv) (W : Worlds F (rv.ptr.toList ++ O) w o)
    (hcap : xs.length ≤ rv.cap) :
    InStep (fun a w' b o' => TypedVec Γ w'.heap t b n a.2 ∧ b.length = xs.length ∧ Worlds F (a.2.ptr.toList ++ O) w' o') (Worlds F O)
      (Dync.withLocal rv (RVec.dropTyped Γ t) (RVec.extendClone Γ t xs) w) (call (DSpec.clones Γ t xs) o) := by
  rcases hx : TVec.extendClones Γ t xs [] o.user with ⟨r, es', u'⟩
  have hrun := VecDyn.extendClone_run (es := []) (w := w) (r := r) (es' := es') (u' := u') (by rw [T.bytes]) (by rw [T.len]) (by simpa using hcap) (by rw [W.user]; exact hx)
  have hE := TVec.extendClones_each hx (by simp)
  have hlen := TVec.extendClones_length hx
  have T' : TypedVec Γ w.heap t es' n ⟨rv.ptr, es'.length, rv.cap, es'.flatten⟩ := ⟨rfl, hE, rfl, T.cap, T.block⟩
  have W' : Worlds F (rv.ptr.toList ++ O) { w with user := u' } { o with user := u' } := ⟨rfl, W.blocks⟩
  apply InStep.withLocal
  rw [hrun]
  cases r with
  | ok a =>
    left
    rw [call_eq (r := .ok es') (u := u') (by simp only [DSpec.clones, hx])]
    refine .ok ⟨T', ?_, W'⟩
    have := hlen.2.2.2 rfl
    simpa using this
  | panic y =>
    right
    refine ⟨y, _, y, dropAll Γ t es', { o with user := u' }, rfl, ?_, (T'.dropTyped (w := { w with user := u' }) W').mono (fun _ _ _ _ h => h) (fun _ _ _ => trivial)⟩
    unfold dropAll
    rw [← call_unwindDrop]
    simp only [call, M.zoom_run, DSpec.clones, hx]
  | ub =>
    left
    rw [call_eq (r := .ub) (u := u') (by simp only [DSpec.clones, hx])]
    exact .ub
  | abort =>
    left
    rw [call_eq (r := .abort) (u := u') (by simp only [DSpec.clones, hx])]
    exact .abort

theorem fromSlice_makes (W : Worlds F O w o) (ht : Tab Γ t vt) (hl : es.length ≤ usizeMax) :
    InStep (Makes Γ F O) (Worlds F O) ((do return .vec (← VecDyn.fromSlice Γ t vt es) : M (World U) (Item V)) w)
      ((if HasRoom Γ t es.length then do wrapVec Γ t (← call (DSpec.clones Γ t es)) es.length else M.panic .capacity : M (Outside U) YItem) o) := by
  refine makes_map ?_
  unfold VecDyn.fromSlice
  split
  · rename_i hr
    obtain ⟨rv, h', h1, T, W'⟩ := withCapacity_typed W hr
    rw [M.bind_ok h1]
    refine (extendClone_step T W' (by rw [T.cap]; split <;> omega)).bind ?_ (fun _ _ h => h)
    rintro ⟨a, rv'⟩ w' b o' ⟨T', hb, W''⟩
    exact T'.wrap W'' (.inr (Nat.le_of_eq hb)) hr ht
  · rename_i hr
    rw [M.bind_panic (withCapacity_full hr)]
    exact .panic W

/-- The loop of `vec![x; n]`. -/
theorem extendWith_step (T : TypedVec Γ w.heap t [] n rv) (W : Worlds F (rv.ptr.toList ++ O) w o)
    (hcap : n ≤ rv.cap) (hx : x.length = Γ.size t) :
    InStep (fun a w' b o' => TypedVec Γ w'.heap t b n a.2 ∧ b.length = n ∧ Worlds F (a.2.ptr.toList ++ O) w' o') (Worlds F O)
      (Dync.withLocal rv (RVec.dropTyped Γ t) (RVec.extendWith Γ t n x) w) (call (DSpec.vecOf Γ t n x) o) := by
  apply InStep.withLocal
  cases n with
  | zero =>
    simp only [RVec.extendWith, DSpec.vecOf]
    rcases hd : Γ.drop t x o.user with ⟨r, u'⟩
    have hw : (onWorld (worldUser (Γ.drop t x)) : M (RVec × World U) Unit) (rv, w) = (r, (rv, { w with user := u' })) :=
      onWorld_of (worldUser_of (by rw [W.user]; exact hd))
    have W' : Worlds F (rv.ptr.toList ++ O) { w with user := u' } { o with user := u' } := ⟨rfl, W.blocks⟩
    rw [hw]
    have hc : ∀ r', (Γ.drop t x >>= fun _ => pure []) o.user = (r', u') → call (Γ.drop t x >>= fun _ => pure ([] : List Bytes)) o = (r', { o with user := u' }) :=
      fun r' h => call_eq h
    cases r with
    | ok a =>
      left
      rw [hc (.ok []) (by simp only [M.bind_run, hd, M.pure_run])]
      exact .ok ⟨T, rfl, W'⟩
    | panic y =>
      right
      refine ⟨y, _, y, dropAll Γ t [], { o with user := u' }, rfl, ?_, (T.dropTyped (w := { w with user := u' }) W').mono (fun _ _ _ _ h => h) (fun _ _ _ => trivial)⟩
      rw [hc (.panic y) (by simp only [M.bind_run, hd])]
      rfl
    | ub =>
      left
      rw [hc .ub (by simp only [M.bind_run, hd])]
      exact .ub
    | abort =>
      left
      rw [hc .abort (by simp only [M.bind_run, hd])]
      exact .abort
  | succ n =>
    rcases hx' : TVec.pushClones Γ t x n [] o.user with ⟨r, es', u'⟩
    have hrun := VecDyn.extendClone_run (es := []) (w := w) (r := r) (es' := es') (u' := u') (xs := List.replicate n x) (rv := rv)
      (by rw [T.bytes]) (by rw [T.len]) (by simp; omega) (by rw [W.user]; exact hx')
    have hE := TVec.pushClones_each hx' (by simp)
    have hlen := TVec.pushClones_length hx'
    have T' : TypedVec Γ w.heap t es' (n + 1) ⟨rv.ptr, es'.length, rv.cap, es'.flatten⟩ := ⟨rfl, hE, rfl, T.cap, T.block⟩
    have W' : ∀ u : U, Worlds F (rv.ptr.toList ++ O) { w with user := u } { o with user := u } := fun u => ⟨rfl, W.blocks⟩
    simp only [RVec.extendWith, VecDyn.repeat_extendClone, hrun]
    cases r with
    | ok a =>
      left
      have hl := hlen.2.2.2 rfl
      simp only [List.length_nil, Nat.zero_add] at hl
      have hp := VecDyn.push_fit (Γ := Γ) (t := t) (w := { w with user := u' }) (rv := ⟨rv.ptr, es'.length, rv.cap, es'.flatten⟩) (x := x)
        (by show es'.length < rv.cap; omega)
      simp only [hp]
      rw [call_eq (r := .ok (es' ++ [x])) (u := u') (by simp only [DSpec.vecOf, hx'])]
      refine .ok ⟨⟨by simp, each_snoc hE hx, by simp, T.cap, T.block⟩, by simp [hl], W' u'⟩
    | panic y =>
      rcases hd : Γ.drop t x u' with ⟨r2, u2⟩
      have hw : (onWorld (worldUser (Γ.drop t x)) : M (RVec × World U) Unit)
          (⟨rv.ptr, es'.length, rv.cap, es'.flatten⟩, { w with user := u' }) =
          (r2, (⟨rv.ptr, es'.length, rv.cap, es'.flatten⟩, { w with user := u2 })) := onWorld_of (worldUser_of hd)
      simp only [hw]
      cases r2 with
      | ok a =>
        right
        refine ⟨y, _, y, dropAll Γ t es', { o with user := u2 }, rfl, ?_, (T'.dropTyped (w := { w with user := u2 }) (W' u2)).mono (fun _ _ _ _ h => h) (fun _ _ _ => trivial)⟩
        unfold dropAll
        rw [← call_unwindDrop]
        simp only [call, M.zoom_run, DSpec.vecOf, hx', M.bind_run, M.unwindDrop, hd]
      | panic z =>
        left
        rw [call_eq (r := .abort) (u := u2) (by simp only [DSpec.vecOf, hx', M.bind_run, M.unwindDrop, hd])]
        exact .abort
      | ub =>
        left
        rw [call_eq (r := .ub) (u := u2) (by simp only [DSpec.vecOf, hx', M.bind_run, M.unwindDrop, hd])]
        exact .ub
      | abort =>
        left
        rw [call_eq (r := .abort) (u := u2) (by simp only [DSpec.vecOf, hx', M.bind_run, M.unwindDrop, hd])]
        exact .abort
    | ub =>
      left
      rw [call_eq (r := .ub) (u := u') (by simp only [DSpec.vecOf, hx'])]
      exact .ub
    | abort =>
      left
      rw [call_eq (r := .abort) (u := u') (by simp only [DSpec.vecOf, hx'])]
      exact .abort

theorem withSize_makes (W : Worlds F O w o) (ht : Tab Γ t vt) (hl : n ≤ usizeMax) (hx : x.length = Γ.size t) :
    InStep (Makes Γ F O) (Worlds F O) ((do return .vec (← VecDyn.withSize Γ t vt n x) : M (World U) (Item V)) w)
      ((if HasRoom Γ t n then do wrapVec Γ t (← call (DSpec.vecOf Γ t n x)) n
        else do
          M.unwindDrop (call (Γ.drop t x))
          M.panic .capacity : M (Outside U) YItem) o) := by
  refine makes_map ?_
  unfold VecDyn.withSize
  split
  · rename_i hr
    obtain ⟨rv, h', h1, T, W'⟩ := withCapacity_typed W hr
    rw [M.bind_ok (a := rv) (s' := { w with heap := h' }) (by simp only [M.onUnwind, h1])]
    refine (extendWith_step T W' (by rw [T.cap]; split <;> omega) hx).bind ?_ (fun _ _ h => h)
    rintro ⟨a, rv'⟩ w' b o' ⟨T', hb, W''⟩
    exact T'.wrap W'' (.inr (Nat.le_of_eq hb)) hr ht
  · rename_i hr
    have hd := W.call (Γ.drop t x)
    simp only [M.bind_run, M.onUnwind, withCapacity_full hr, M.unwindDrop]
    rcases hq : call (Γ.drop t x) o with ⟨q, o'⟩
    rw [hq] at hd
    cases q with
    | ok b => obtain ⟨a, w', h1, -, h2, h3⟩ := hd; rw [h1]; exact .panic h3
    | panic y => obtain ⟨a, w', h1, h2, h3⟩ := hd; rw [h1]; exact .abort
    | ub =>
      rcases hr : worldUser (Γ.drop t x) w with ⟨r, s'⟩
      rw [hr] at hd
      have hd : r = .ub := hd
      subst hd; rfl
    | abort =>
      rcases hr : worldUser (Γ.drop t x) w with ⟨r, s'⟩
      rw [hr] at hd
      have hd : r = .abort := hd
      subst hd; rfl

/-! ### Boxes -/

theorem OwnsBlock.count (ho : OwnsBlock Γ h t p) : p.toList.length = boxBlock Γ t := by
  unfold boxBlock
  rcases ho with ⟨h0, rfl⟩ | ⟨h0, i, rfl, -⟩
  · simp [h0]
  · rw [if_neg (by omega)]; rfl

/-- A new box. -/
theorem box_new (W : Worlds F O w o) (hx : x.length = Γ.size t) (ht : Tab Γ t vt) :
    ∃ b h', boxNew Γ t x w = (.ok b, { w with heap := h' }) ∧ b.bytes = x ∧
      Makes Γ F O (.box ⟨b, t, Γ.align t, vt⟩) { w with heap := h' } (.box t x) o := by
  refine ⟨⟨(w.heap.alloc (Γ.layout t)).1, x⟩, (w.heap.alloc (Γ.layout t)).2, rfl, rfl, ?_, ⟨rfl, rfl, rfl, hx, OwnsBlock.alloc Γ w.heap t⟩, ht⟩
  refine Worlds.move (p := none) W (Realloc.ofAlloc W.wf _) ?_
  intro i hi
  rcases OwnsBlock.alloc Γ w.heap t with ⟨h0, hp⟩ | ⟨h0, j, hp, hj⟩
  · rw [hp] at hi; cases hi
  · rw [hp] at hi; cases hi; rw [hj]; simp

theorem newBox_makes (W : Worlds F O w o) (ht : Tab Γ t vt) (hx : x.length = Γ.size t) :
    InStep (Makes Γ F O) (Worlds F O) ((do return .box (← BoxValue.new Γ t vt x) : M (World U) (Item V)) w)
      ((pure (.box t x) : M (Outside U) YItem) o) := by
  obtain ⟨b, h', h1, h2, h3⟩ := box_new W hx ht
  simp only [M.bind_run, BoxValue.new, h1, M.pure_run]
  exact .ok h3

theorem newSmall_makes (W : Worlds F O w o) (ht : Tab Γ t vt) (hx : x.length = Γ.size t) :
    InStep (Makes Γ F O) (Worlds F O) ((do return .small (← SmallValue.new Γ t vt x) : M (World U) (Item V)) w)
      ((if Γ.size t = 8 then pure (.small t x) else M.panic .unwrapNone : M (Outside U) YItem) o) := by
  by_cases h8 : Γ.size t = 8
  · simp only [M.bind_run, SmallValue.new, SmallValue.tryNew, if_pos h8, M.pure_run]
    exact .ok ⟨W, ⟨rfl, rfl, rfl, hx, h8⟩, ht⟩
  · simp only [M.bind_run, SmallValue.new, SmallValue.tryNew, if_neg h8, M.pure_run, M.panic_run]
    exact .panic W

theorem IsBox.free {v : BoxValue V} (hv : IsBox Γ w.heap t x v) (W : Worlds F (v.bytes.ptr.toList ++ O) w o) :
    ∃ h', BoxBytes.dropAsAligned v.alignment v.bytes w = (.ok (), { w with heap := h' }) ∧ Worlds F O { w with heap := h' } o := by
  obtain ⟨h', h1, h2, -⟩ := BoxBytes.dropAsAligned_owned (w := w) (b := v.bytes) W.wf (by rw [hv.bytes]; exact hv.length) hv.block
  refine ⟨h', by rw [hv.align]; exact h1, ?_⟩
  exact W.move (p' := none) h2 (fun _ e => by cases e)

/-! ### Dropping -/

theorem item_drop {a : Item V} {b : YItem} (W : Worlds F (a.ptr.toList ++ O) w o) (I : YItem.Is Γ w.heap a b) :
    InStep (fun _ w' _ o' => Worlds F O w' o') (Worlds F O) (a.drop cfg w) (b.drop Γ o) := by
  cases a with
  | vec c =>
    cases b with
    | vec tb x =>
      obtain ⟨hx, ht, hpos, hty⟩ := I
      cases x with
      | vec t es cap =>
        have htt : t = tb := hty t es cap rfl
        subst htt
        have R := hx.1
        simp only [Item.drop, VecDyn.drop, YItem.drop]
        rw [M.bind_ok (VecCopy.byteChunks_ok R w), VecDyn.dropLoop_eq (lawfulDrop_of ht.drop) R.each, forEach_call]
        have hc := W.call (M.forEach es (Γ.drop t))
        have h1 := InStep.bind (Q' := fun _ w' _ o' => Worlds F O w' o') (E' := fun w' o' => Worlds F ((Item.vec c).ptr.toList ++ O) w' o')
          (f := fun _ => VecVoid.drop cfg c.data) (g := fun _ => pure ()) hc ?_ (fun _ _ h => h.2)
        · rw [show (call (M.forEach es (Γ.drop t)) >>= fun _ => pure ()) = call (M.forEach es (Γ.drop t)) from _root_.bind_pure _] at h1
          refine h1.leaking ?_
          intro w' o' W'
          obtain ⟨i, hp, hl⟩ := R.block
          have := W'.leak
          rw [show (Item.vec c).ptr = some i from hp] at this
          exact this
        · rintro a w' b o' ⟨-, h2, W'⟩
          have R' : Repr Γ w'.heap t es c.data := by rw [h2]; exact R
          obtain ⟨i, hp, hdr⟩ := VecVoid.drop_spec (cfg := cfg) (w := w') R'
          rw [hdr]
          refine .ok (W'.move (p' := none) ?_ (fun _ e => by cases e))
          rw [show (Item.vec c).ptr = some i from hp]
          exact Realloc.ofFree W'.wf i
      | unit n =>
        have u : IsUnits Γ n c.data := hx
        simp only [Item.drop, VecDyn.drop, YItem.drop]
        have hp : (Item.vec c).ptr = none := u.ptr
        rw [hp] at W
        have hb : (c.data.byteChunks : M (World U) (List Bytes)) w = (.panic .zeroChunk, w) := by
          simp [VecVoid.byteChunks, VecVoid.bytes, chunksExact, u.elem, u.mem, ElemInfo.new, ElemInfo.numBytes, Γ.unit_size]
        rw [M.bind_panic hb]
        exact .panic W
    | box t x => exact I.elim
    | small t x => exact I.elim
  | box v =>
    cases b with
    | box t x =>
      obtain ⟨hv, ht⟩ := I
      simp only [Item.drop, Value.drop, YItem.drop]
      have hf : HasDrop.dropFn v.vtable (ByteBuf.get v.bytes) = Γ.drop t x := by
        rw [ht.drop, dropBytes_eq (b := ByteBuf.get v.bytes)]
        · exact congrArg _ hv.bytes
        · exact (congrArg List.length hv.bytes).trans hv.length
      rw [hf]
      have hc := W.call (Γ.drop t x)
      have h1 := InStep.bind (Q' := fun _ w' _ o' => Worlds F O w' o') (E' := fun w' o' => Worlds F ((Item.box v).ptr.toList ++ O) w' o')
        (f := fun _ => ByteBuf.dropAsAligned v.alignment v.bytes) (g := fun _ => pure ()) hc ?_ (fun _ _ h => h.2)
      · rw [show (call (Γ.drop t x) >>= fun _ => pure ()) = call (Γ.drop t x) from _root_.bind_pure _] at h1
        refine h1.leaking ?_
        intro w' o' W'
        have := W'.leak
        rw [show (Item.box v).ptr = v.bytes.ptr from rfl, hv.block.count] at this
        exact this
      · rintro a w' b o' ⟨-, h2, W'⟩
        have hv' : IsBox Γ w'.heap t x v := by rw [h2]; exact hv
        obtain ⟨h', h3, h4⟩ := hv'.free W'
        rw [show (ByteBuf.dropAsAligned v.alignment v.bytes : M (World U) Unit) w' = _ from h3]
        exact .ok h4
    | vec t x => exact I.elim
    | small t x => exact I.elim
  | small v =>
    cases b with
    | small t x =>
      obtain ⟨hv, ht⟩ := I
      simp only [Item.drop, Value.drop, YItem.drop]
      have hf : HasDrop.dropFn v.vtable (ByteBuf.get v.bytes) = Γ.drop t x := by
        rw [ht.drop, dropBytes_eq (b := ByteBuf.get v.bytes)]
        · exact congrArg _ hv.bytes
        · exact (congrArg List.length hv.bytes).trans hv.length
      rw [hf]
      have h1 := InStep.bind (Q' := fun _ w' _ o' => Worlds F O w' o') (E' := fun w' o' => Worlds F O w' o')
        (f := fun _ => ByteBuf.dropAsAligned v.alignment v.bytes) (g := fun _ => pure ()) (W.call (Γ.drop t x)) ?_ (fun _ _ h => h.2)
      · rw [show (call (Γ.drop t x) >>= fun _ => pure ()) = call (Γ.drop t x) from _root_.bind_pure _] at h1
        exact h1
      · rintro a w' b o' ⟨-, h2, W'⟩
        exact .ok W'
    | vec t x => exact I.elim
    | box t x => exact I.elim

end
end Dync
