import Verif.DynMachineLemmas2
/-!
# Clones, conversions and references: the implementation and the machine of `DynMachine.lean` in step
-/
namespace Dync
variable {U V α β σ τ : Type} {Γ : TyEnv U} {t t' : TyId} {n : Nat} {w : World U} {o : Outside U} {cfg : Cfg}
  {F : Nat → Option Layout} {O : List Nat} {h h' : Heap} {p p' : Ptr} {vt : V} {es es' : List Bytes} {rv : RVec} {x : Bytes}

/-- The two ends of a program without a result. -/
def Res.stop (b : Bool) : Res α := if b then .ub else .abort

theorem InStep.stop {Q : α → σ → β → τ → Prop} {E : σ → τ → Prop} {b : Bool} {s : σ} {q : τ} :
    InStep Q E (.stop b, s) (.stop b, q) := by cases b <;> rfl

theorem InStep.stop_of {Q : α → σ → β → τ → Prop} {E : σ → τ → Prop} {b : Bool} {r : Res α × σ} {q : τ} (h : r.1 = .stop b) :
    InStep Q E r (.stop b, q) := by cases b <;> exact h

theorem Res.cases (r : Res α) : (∃ a, r = .ok a) ∨ (∃ y, r = .panic y) ∨ ∃ b, r = .stop b := by
  cases r with
  | ok a => exact .inl ⟨a, rfl⟩
  | panic y => exact .inr (.inl ⟨y, rfl⟩)
  | ub => exact .inr (.inr ⟨true, rfl⟩)
  | abort => exact .inr (.inr ⟨false, rfl⟩)

theorem M.bind_stop {m : M σ α} {f : α → M σ β} {s s' : σ} {b : Bool} (hm : m s = (.stop b, s')) : (m >>= f) s = (.stop b, s') := by
  rw [M.bind_run, hm]; cases b <;> rfl

theorem M.bind_stop' {m : M σ α} {f : α → M σ β} {s : σ} {b : Bool} (hm : (m s).1 = .stop b) : ((m >>= f) s).1 = .stop b := by
  rcases hr : m s with ⟨r, s'⟩
  rw [hr] at hm
  rw [M.bind_stop (b := b) (by rw [hr]; exact congrArg (·, s') hm)]

theorem withLocal_stop {κ : Type} {x : κ} {d : κ → M (World U) Unit} {m : M (κ × World U) α} {b : Bool}
    (hm : (m (x, w)).1 = .stop b) : (withLocal x d m w).1 = .stop b := by
  simp only [withLocal]
  rcases hr : m (x, w) with ⟨r, s'⟩
  rw [hr] at hm
  have hm : r = .stop b := hm
  subst hm
  cases b <;> rfl

section
variable [HasDrop U V] [HasClone U V] [TableLaw V] {c : VecDyn V}

/-! ### Clones of containers -/

theorem raw_stop (ht : Tab Γ t vt) {d : Bytes} {u u' : U} {b : Bool} (hx : x.length = Γ.size t) (hc : Γ.clone t x u = (.stop b, u')) :
    HasClone.cloneIntoRawFn vt x (d, u) = (.stop b, (d, u')) := by
  rw [ht.cloneIntoRaw]
  have h1 : (x.length == Γ.size t) = true := by simp [hx]
  simp only [cloneIntoRawBytes, h1]
  rw [M.bind_ok (M.assert_true_run _)]
  refine M.bind_stop ?_
  simp only [userPart, M.zoom_run, hc]

theorem visit_cloneInto_stop {ys : List Bytes} (ht : Tab Γ t vt) {xs : List Bytes} (hx : ∀ e ∈ xs, e.length = Γ.size t)
    (hy : ∀ e ∈ ys, e.length = Γ.size t) (hlen : ys.length = xs.length) {b : Bool} {u' : U}
    (hm : M.mapEach xs (Γ.clone t) w.user = (.stop b, u')) :
    (visitMut (VecDyn.cloneInto vt) (xs.zip ys) w).1 = .stop b := by
  induction xs generalizing ys w u' with
  | nil => cases b <;> cases hm
  | cons x xs ih =>
    cases ys with
    | nil => cases hlen
    | cons y' ys =>
      simp only [M.mapEach_cons, M.bind_run] at hm
      have hxs : ∀ e ∈ xs, e.length = Γ.size t := fun e he => hx e (by simp [he])
      have hys : ∀ e ∈ ys, e.length = Γ.size t := fun e he => hy e (by simp [he])
      have hlen' : ys.length = xs.length := by simpa using hlen
      have hl := lawfulClone_of ht.clone ht.cloneFrom ht.cloneIntoRaw
      rcases hc : Γ.clone t x w.user with ⟨rc, u1⟩
      rw [hc] at hm
      cases rc with
      | ok x' =>
        simp only at hm
        rcases hms : M.mapEach xs (Γ.clone t) u1 with ⟨r2, u2⟩
        rw [hms] at hm
        have h1 := hl.raw_ok (hx x (by simp)) (hy y' (by simp)) hc
        have hr2 : r2 = .stop b := by cases r2 <;> cases b <;> first | rfl | (cases hm; done)
        subst hr2
        have h2 := ih (ys := ys) (w := { w with user := u1 }) hxs hys hlen' hms
        simp only [List.zip_cons_cons, visitMut, VecDyn.cloneInto, h1]
        exact h2
      | panic z => cases b <;> cases hm
      | ub =>
        have hb : b = true := by cases b <;> first | rfl | (cases hm; done)
        subst hb
        have h1 := raw_stop (b := true) (d := y') ht (hx x (by simp)) hc
        simp only [List.zip_cons_cons, visitMut, VecDyn.cloneInto, h1]
        rfl
      | abort =>
        have hb : b = false := by cases b <;> first | rfl | (cases hm; done)
        subst hb
        have h1 := raw_stop (b := false) (d := y') ht (hx x (by simp)) hc
        simp only [List.zip_cons_cons, visitMut, VecDyn.cloneInto, h1]
        rfl

theorem clone_stop (R : Repr Γ w.heap t es c.data) (ht : Tab Γ t c.vtable) {b : Bool} {u' : U}
    (hm : M.mapEach es (Γ.clone t) w.user = (.stop b, u')) : (VecDyn.clone cfg c w).1 = .stop b := by
  have hpos : c.data.cap * Γ.size t ≠ 0 :=
    Nat.mul_ne_zero (by have := R.cap_pos; omega) (by have := R.pos; omega)
  have hal := Heap.alloc_live (h := w.heap) (l := ⟨c.data.cap * Γ.size t, Γ.align t⟩) hpos
  have hR0 : Repr Γ (w.heap.alloc ⟨c.data.cap * Γ.size t, Γ.align t⟩).2 t es
      ⟨some w.heap.next, c.data.len, c.data.cap, c.data.elem, c.data.mem⟩ :=
    ⟨R.type_id, R.chunks, R.align, R.pos, R.mem, R.each, R.len, R.len_le, R.cap_pos, R.room, _, rfl, hal.2⟩
  have hv := visit_cloneInto_stop ht R.each R.each rfl
    (w := ⟨(w.heap.alloc ⟨c.data.cap * Γ.size t, Γ.align t⟩).2, w.user⟩) hm
  unfold VecDyn.clone
  rw [M.bind_ok (VecVoid.clone_spec (cfg := cfg) R)]
  refine M.bind_stop' (withLocal_stop ?_)
  rw [M.bind_ok (VecCopy.byteChunks_ok R _), M.bind_ok (getSelf_run _), M.bind_ok (VecCopy.byteChunks_ok hR0 _)]
  exact hv

/-! ### References to places -/

/-- `v` refers to the place `p`. -/
structure PlaceIs (Γ : TyEnv U) (p : Place) (v : ValueRef V) : Prop where
  type_id : v.type_id = p.ty
  align : v.alignment = Γ.align p.ty
  bytes : v.bytes = p.bytes
  length : p.bytes.length = Γ.size p.ty
  tab : Tab Γ p.table v.vtable
  kind : p.ty ≠ p.table → Γ.size p.ty ≠ Γ.size p.table

theorem cloneValue_makes {p : Place} {v : ValueRef V} (W : Worlds F O w o) (P : PlaceIs Γ p v) :
    InStep (Makes Γ F O) (Worlds F O) ((do return .box (← ValueRef.cloneValue v) : M (World U) (Item V)) w)
      ((do return .box p.ty (← p.clone Γ) : M (Outside U) YItem) o) := by
  unfold ValueRef.cloneValue Place.clone
  rw [P.tab.clone, P.bytes]
  split
  · rename_i he
    have hl : (p.bytes.length == Γ.size p.ty) = true := by simp [P.length]
    have ht : Tab Γ p.ty v.vtable := he ▸ P.tab
    simp only [cloneBytes, hl, ← he]
    simp only [M.bind_run, M.assert_true_run]
    have hc := W.call (Γ.clone p.ty p.bytes)
    rcases hq : call (Γ.clone p.ty p.bytes) o with ⟨q, o'⟩
    rw [hq] at hc
    rcases Res.cases q with ⟨c, rfl⟩ | ⟨y, rfl⟩ | ⟨b, rfl⟩
    · obtain ⟨a, w', h1, rfl, -, W'⟩ := hc
      have hlen : List.length a = Γ.size p.ty := by
        simp only [call, M.zoom_run] at hq
        rcases hk : Γ.clone p.ty p.bytes o.user with ⟨r, u⟩
        rw [hk] at hq
        cases hq
        exact Γ.clone_len hk
      obtain ⟨b, h', h2, h3, h4⟩ := box_new W' hlen ht
      simp only [h1, h2, M.pure_run]
      have e : (⟨b, v.type_id, v.alignment, v.vtable⟩ : BoxValue V) = ⟨b, p.ty, Γ.align p.ty, v.vtable⟩ := by
        rw [P.type_id, P.align]
      rw [e]
      exact .ok h4
    · obtain ⟨a, w', h1, -, W'⟩ := hc
      simp only [h1]
      exact .panic W'
    · rcases hr : worldUser (Γ.clone p.ty p.bytes) w with ⟨r, s'⟩
      rw [hr] at hc
      cases b <;> (have hc : r = _ := hc; subst hc; exact rfl)
  · rename_i he
    have hl : (p.bytes.length == Γ.size p.table) = false := by simp [P.length, P.kind he]
    simp only [cloneBytes, hl, M.bind_run, M.assert_false_run, M.panic_run]
    exact .panic W

theorem cloneSmall_makes {p : Place} {v : ValueRef V} (W : Worlds F O w o) (P : PlaceIs Γ p v) :
    InStep (Makes Γ F O) (Worlds F O) ((do return .small (← ValueRef.cloneSmallValue v) : M (World U) (Item V)) w)
      ((do
        let c ← p.clone Γ
        if Γ.size p.ty = 8 then return .small p.ty c
        else do
          M.unwindDrop (call (Γ.drop p.ty c))
          M.panic .lenMismatch : M (Outside U) YItem) o) := by
  unfold ValueRef.cloneSmallValue Place.clone
  rw [P.tab.cloneIntoRaw, P.bytes]
  split
  · rename_i he
    have hl : (p.bytes.length == Γ.size p.ty) = true := by simp [P.length]
    have ht : Tab Γ p.ty v.vtable := he ▸ P.tab
    simp only [cloneIntoRawBytes, hl, ← he]
    simp only [M.bind_run, M.assert_true_run, userPart, M.zoom_run]
    rw [show w.user = o.user from W.user]
    rcases hk : Γ.clone p.ty p.bytes o.user with ⟨r, u⟩
    rw [call_eq hk]
    have W' : ∀ u : U, Worlds F O { w with user := u } { o with user := u } := fun u => ⟨rfl, W.blocks⟩
    cases r with
    | ok c =>
      have hlen := Γ.clone_len hk
      simp only [M.get_run, List.length_replicate, hlen]
      by_cases h8 : Γ.size p.ty = 8
      · rw [if_pos h8.symm, if_pos h8]
        simp only [M.modify_run, M.pure_run]
        refine .ok ⟨W' u, ⟨P.type_id, P.align, rfl, hlen, h8⟩, ht⟩
      · rw [if_neg (fun e => h8 e.symm), if_neg h8]
        simp only [M.bind_run, M.unwindDrop, M.zoom_run, call]
        rcases hd : Γ.drop p.ty c u with ⟨r2, u2⟩
        cases r2 with
        | ok _ => exact .panic (W' u2)
        | panic y => exact .abort
        | ub => exact .ub
        | abort => exact .abort
    | panic y => exact .panic (W' u)
    | ub => exact .ub
    | abort => exact .abort
  · rename_i he
    have hl : (p.bytes.length == Γ.size p.table) = false := by simp [P.length, P.kind he]
    simp only [cloneIntoRawBytes, hl, M.bind_run, M.assert_false_run, M.panic_run]
    exact .panic W

/-! ### `Clone` -/

theorem IsBox.place {v : BoxValue V} (hv : IsBox Γ h t x v) (ht : Tab Γ t v.vtable) : PlaceIs Γ ⟨t, t, x⟩ v.asRef :=
  ⟨hv.type_id, hv.align, hv.bytes, hv.length, ht, fun h => absurd rfl h⟩

theorem IsSmall.place {v : SmallValue V} (hv : IsSmall Γ t x v) (ht : Tab Γ t v.vtable) : PlaceIs Γ ⟨t, t, x⟩ v.asRef :=
  ⟨hv.type_id, hv.align, hv.bytes, hv.length, ht, fun h => absurd rfl h⟩

theorem item_clone {a : Item V} {b : YItem} (W : Worlds F O w o) (I : YItem.Is Γ w.heap a b) :
    InStep (Makes Γ F O) (Worlds F O) (DOp.cloneItem cfg a w) (b.clone Γ o) := by
  cases a with
  | vec c =>
    cases b with
    | vec tb x =>
      obtain ⟨hx, ht, hpos, hty⟩ := I
      cases x with
      | vec t es cap =>
        have htt : t = tb := hty t es cap rfl
        subst htt
        obtain ⟨R, rfl⟩ := hx
        simp only [DOp.cloneItem, YItem.clone]
        rcases hm : M.mapEach es (Γ.clone t) o.user with ⟨r, u'⟩
        have hm' : M.mapEach es (Γ.clone t) w.user = (r, u') := by rw [W.user]; exact hm
        rw [M.bind_run, M.bind_run, call_eq hm]
        have hl := lawfulClone_of ht.clone ht.cloneFrom ht.cloneIntoRaw
        rcases Res.cases r with ⟨cs, rfl⟩ | ⟨y, rfl⟩ | ⟨b, rfl⟩
        · obtain ⟨d, h', h1, h2, h3, h4⟩ := VecDyn.clone_ok (cfg := cfg) R hl W.wf hm'
          rw [h1]
          refine .ok ⟨?_, ⟨h2, h3⟩, ht, hpos, fun _ _ _ e => by cases e; rfl⟩
          have := Worlds.move (p := none) W h4 (fun i hi => by
            obtain ⟨j, hp, hj⟩ := h2.block
            rw [hi] at hp; cases hp; rw [hj]; simp)
          exact ⟨rfl, this.blocks⟩
        · obtain ⟨h', h1, h2⟩ := VecDyn.clone_panic (cfg := cfg) R hl W.wf hm'
          rw [h1]
          have := Worlds.move (p := none) (p' := none) W h2 (fun _ e => by cases e)
          exact .panic ⟨rfl, this.blocks⟩
        · have h1 := clone_stop (cfg := cfg) R ht hm'
          rcases hr : VecDyn.clone cfg c w with ⟨r, s'⟩
          rw [hr] at h1
          have h1 : r = .stop b := h1
          subst h1
          cases b <;> exact rfl
      | unit n =>
        have u : IsUnits Γ n c.data := hx
        simp only [DOp.cloneItem, YItem.clone, VecDyn.clone, M.bind_run, clone_unit u, M.panic_run]
        exact .panic W
    | box t x => exact I.elim
    | small t x => exact I.elim
  | box v =>
    cases b with
    | box t x =>
      have := cloneValue_makes W (I.1.place I.2)
      simp only [Place.clone, if_true] at this
      exact this
    | vec t x => exact I.elim
    | small t x => exact I.elim
  | small v =>
    cases b with
    | small t x =>
      have := cloneSmall_makes W (I.1.place I.2)
      simp only [Place.clone, if_true, if_pos I.1.size] at this
      exact this
    | vec t x => exact I.elim
    | box t x => exact I.elim

/-! ### Conversions -/

theorem intoVec_refused {x : XVec} (hx : x.Is Γ w.heap c.data) (ht : t ≠ c.data.elem.type_id) (W : Worlds F (c.data.ptr.toList ++ O) w o) :
    ∃ h', VecCopy.intoVec Γ cfg t c w = (.ok none, { w with heap := h' }) ∧ Worlds F O { w with heap := h' } o := by
  obtain ⟨h', hd, re⟩ := drop_is (cfg := cfg) hx W.wf
  refine ⟨h', ?_, W.move (p' := none) re (fun _ e => by cases e)⟩
  have hck : t ≠ c.elementTypeId := ht
  simp only [VecCopy.intoVec, VecCopy.check, if_pos hck, M.bind_run, hd, M.pure_run]

theorem intoVec_vec (R : Repr Γ w.heap t es c.data) : VecCopy.intoVec Γ cfg t c w = (.ok (some c.data.typedView), w) := by
  simp only [VecCopy.intoVec, VecCopy.check, VecCopy.elementTypeId, R.type_id, ne_eq, not_true, if_false, M.bind_run,
    M.pure_run, R.intoVec]

theorem intoVec_unit (u : IsUnits Γ n c.data) : VecCopy.intoVec Γ cfg Γ.unitTy c w = (.ok (some ⟨none, c.data.len, usizeMax, []⟩), w) := by
  simp only [VecCopy.intoVec, VecCopy.check, VecCopy.elementTypeId, u.type_id, ne_eq, not_true, if_false, M.bind_run,
    M.pure_run, u.good.typedView]

theorem typed_unit (u : IsUnits Γ n c.data) : TypedVec Γ h Γ.unitTy (List.replicate n []) 0 ⟨none, c.data.len, usizeMax, []⟩ := by
  refine ⟨by simp, ?_, by simp [u.len], by rw [if_pos Γ.unit_size], .inl ⟨by rw [Γ.unit_size, Nat.mul_zero], rfl⟩⟩
  intro e he
  rw [List.eq_of_mem_replicate he, Γ.unit_size]; rfl

theorem item_consume {a : Item V} {b : YItem} (W : Worlds F (a.ptr.toList ++ O) w o) (I : YItem.Is Γ w.heap a b) :
    InStep (fun a w' b o' => a = b ∧ Worlds F O w' o') (Worlds F O) (DOp.consumeItem Γ cfg t a w) (b.consume Γ t o) := by
  cases a with
  | vec c =>
    cases b with
    | vec tb x =>
      obtain ⟨hx, -, -, -⟩ := I
      have hdone : ∀ {rv : RVec} {es n}, VecCopy.intoVec Γ cfg t c w = (.ok (some rv), w) → rv.ptr = c.data.ptr →
          TypedVec Γ w.heap t es n rv →
          InStep (fun a w' b o' => a = b ∧ Worlds F O w' o') (Worlds F O) (DOp.consumeItem Γ cfg t (.vec c) w)
            ((do dropAll Γ t es; return .done : M (Outside U) Obs) o) := by
        intro rv es n h1 h2 T
        simp only [DOp.consumeItem]
        rw [M.bind_ok h1]
        exact (T.dropTyped (by rw [h2]; exact W)).bind (fun _ _ _ _ h => .ok ⟨rfl, h⟩) (fun _ _ h => h)
      have hno : t ≠ c.data.elem.type_id → InStep (fun a w' b o' => a = b ∧ Worlds F O w' o') (Worlds F O)
          (DOp.consumeItem Γ cfg t (.vec c) w) ((return .refused : M (Outside U) Obs) o) := by
        intro hne
        obtain ⟨h', h1, h2⟩ := intoVec_refused (cfg := cfg) hx hne W
        simp only [DOp.consumeItem]
        rw [M.bind_ok h1]
        exact .ok ⟨rfl, h2⟩
      cases x with
      | vec t' es cap =>
        obtain ⟨R, rfl⟩ := hx
        simp only [YItem.consume]
        split
        · rename_i ht
          subst ht
          exact hdone (intoVec_vec R) rfl (.ofIsVec R.isVec R.pos)
        · rename_i ht
          exact hno (by rw [R.type_id]; exact ht)
      | unit n =>
        have u : IsUnits Γ n c.data := hx
        simp only [YItem.consume]
        split
        · rename_i ht
          subst ht
          exact hdone (intoVec_unit u) u.ptr.symm (typed_unit u)
        · rename_i ht
          exact hno (by rw [u.type_id]; exact ht)
    | box t x => exact I.elim
    | small t x => exact I.elim
  | box v =>
    cases b with
    | box t' x =>
      obtain ⟨hv, -⟩ := I
      simp only [DOp.consumeItem, BoxValue.downcast, Value.is, YItem.consume]
      by_cases ht : t = t'
      · subst ht
        have h1 : (v.type_id == t) = true := by simp [hv.type_id]
        simp only [h1, if_true]
        rw [M.bind_ok (M.pure_run _ _)]
        refine InStep.bind (Q := fun _ w' _ o' => Worlds F O w' o') (E := Worlds F O) ?_ (fun _ _ _ _ h => .ok ⟨rfl, h⟩) (fun _ _ h => h)
        unfold dropTypedBox
        have hb : v.bytes.bytes = x := hv.bytes
        rw [hb]
        have hfree : ∀ w' o', w'.heap = w.heap ∧ Worlds F (v.bytes.ptr.toList ++ O) w' o' →
            ∃ h', (worldHeap (dealloc v.bytes.ptr (Γ.layout t)) : M (World U) Unit) w' = (.ok (), { w' with heap := h' }) ∧
              Worlds F O { w' with heap := h' } o' := by
          rintro w' o' ⟨h2, W'⟩
          obtain ⟨h', h3, h4, -⟩ := dealloc_owned (Γ := Γ) (t := t) (h := w'.heap) (p := v.bytes.ptr) W'.wf (by rw [h2]; exact hv.block)
          exact ⟨h', by simp only [worldHeap, M.zoom_run, h3], W'.move (p' := none) h4 (fun _ e => by cases e)⟩
        have hc := W.call (Γ.drop t x)
        simp only [M.thenDrop]
        rcases hq : call (Γ.drop t x) o with ⟨q, o'⟩
        rw [hq] at hc
        rcases Res.cases q with ⟨c, rfl⟩ | ⟨y, rfl⟩ | ⟨b, rfl⟩
        · obtain ⟨a, w', h1, -, h2⟩ := hc
          obtain ⟨h', h3, h4⟩ := hfree w' o' h2
          simp only [h1, h3]
          exact .ok h4
        · obtain ⟨a, w', h1, h2⟩ := hc
          obtain ⟨h', h3, h4⟩ := hfree w' o' h2
          simp only [h1, h3]
          exact .panic h4
        · rcases hr : worldUser (Γ.drop t x) w with ⟨r, s'⟩
          rw [hr] at hc
          cases b <;> (have hc : r = _ := hc; subst hc; exact rfl)
      · have h1 : (v.type_id == t) = false := by simp [hv.type_id]; exact fun e => ht e.symm
        simp only [h1, if_neg ht, Bool.false_eq_true, if_false]
        rw [M.bind_ok (M.pure_run _ _)]
        have hl := W.leak
        rw [show (Item.box v).ptr = v.bytes.ptr from rfl, hv.block.count] at hl
        exact .ok ⟨rfl, hl⟩
    | vec t x => exact I.elim
    | small t x => exact I.elim
  | small v =>
    cases b with
    | small t' x =>
      obtain ⟨hv, -⟩ := I
      simp only [DOp.consumeItem, SmallValue.downcast, Value.is, YItem.consume]
      by_cases ht : t = t'
      · subst ht
        have h1 : (v.type_id == t) = true := by simp [hv.type_id]
        have hb : v.bytes.bytes = x := hv.bytes
        simp only [h1, if_true, if_pos hv.size, hb]
        rw [M.bind_ok (M.pure_run _ _)]
        exact (W.call (Γ.drop t x)).bind (fun _ _ _ _ h => .ok ⟨rfl, h.2.2⟩) (fun _ _ h => h.2)
      · have h1 : (v.type_id == t) = false := by simp [hv.type_id]; exact fun e => ht e.symm
        simp only [h1, if_neg ht, Bool.false_eq_true, if_false]
        rw [M.bind_ok (M.pure_run _ _)]
        exact .ok ⟨rfl, W⟩
    | vec t x => exact I.elim
    | box t x => exact I.elim

end
end Dync
