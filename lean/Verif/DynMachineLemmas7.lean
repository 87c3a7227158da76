import Verif.DynMachineLemmas6
import Verif.WrapLemmas
import Verif.VecDynLemmas3

/-! Places: the element of a container at an index, and the content of a value. -/

namespace Dync

section
variable {U V : Type} {Γ : TyEnv U} {t tb : TyId} {es : List Bytes} {w : World U} {o : Outside U} {cfg : Cfg}
  {F : Nat → Option Layout} {O : List Nat} {vt : V} {b : Bytes} {x : XVec} {c : VecDyn V} {i : Nat}

theorem cut_self {n : Nat} {es : List Bytes} (h : ∀ e ∈ es, e.length = n) : cut n es.length es.flatten = es := by
  induction es with
  | nil => rfl
  | cons e es ih =>
    have he := h e (by simp)
    rw [List.length_cons, cut_succ, List.flatten_cons, List.take_append_of_le_length (by omega),
      List.take_of_length_le (by omega), List.drop_append_of_le_length (by omega), List.drop_of_length_le (by omega), List.nil_append,
      ih (fun e he => h e (by simp [he]))]

/-- The window that `get` and `get_mut` hand out. -/
theorem offset_fits {cfg : Cfg} {n len a : Nat} (h : offset cfg n len i = some a) : a + n ≤ len * n := by
  unfold offset at h
  split at h
  · split at h
    · cases h
      rename_i hi
      calc i * n + n = (i + 1) * n := (Nat.succ_mul i n).symm
        _ ≤ len * n := Nat.mul_le_mul_right _ hi
    · cases h
  · split at h
    · cases h; assumption
    · cases h

theorem Repr.debugLen {σ : Type} (R : Repr Γ w.heap t es c.data) (s : σ) :
    debugAssert cfg (decide (i < c.data.len)) s = if cfg.debug = true ∧ es.length ≤ i then (.panic .assertion, s) else (.ok (), s) := by
  unfold debugAssert
  rw [R.len]
  by_cases hd : cfg.debug = true
  · rw [if_pos hd]
    by_cases hi : i < es.length
    · rw [if_neg (by omega), decide_eq_true hi]; rfl
    · rw [if_pos ⟨hd, by omega⟩, decide_eq_false hi]; rfl
  · rw [if_neg hd, if_neg (by simp [hd])]; rfl

theorem Repr.range {σ : Type} (R : Repr Γ w.heap t es c.data) (hi : ¬ (cfg.debug = true ∧ es.length ≤ i)) (s : σ) :
    ∃ a, indexByteRange cfg (Γ.size t) i s = (.ok (a, (a + Γ.size t) % 2 ^ 64), s) ∧ a < 2 ^ 64 ∧
      offset cfg (Γ.size t) es.length i = if a + Γ.size t ≤ es.length * Γ.size t then some a else none := by
  obtain ⟨dbg⟩ := cfg
  cases dbg with
  | true =>
    have hi : i < es.length := by simpa using hi
    have hb : (i + 1) * Γ.size t ≤ isizeMax :=
      Nat.le_trans (Nat.mul_le_mul_right _ hi) (VecCopy.Repr_mul_le R)
    have h1 : i + 1 ≤ isizeMax := Nat.le_trans (Nat.le_mul_of_pos_right _ R.pos) hb
    have hu := isize_le_usize
    have hz : isizeMax = 2 ^ 63 - 1 := by decide
    have hs : (i + 1) * Γ.size t = i * Γ.size t + Γ.size t := Nat.succ_mul _ _
    refine ⟨i * Γ.size t, ?_, by omega, ?_⟩
    · rw [SRepr.indexByteRange_ok (by omega) (by omega), hs, Nat.mod_eq_of_lt (by omega)]
    · simp only [offset, if_true, if_pos hi]
      rw [if_pos (by rw [← hs]; exact Nat.mul_le_mul_right _ hi)]
  | false =>
    refine ⟨i * Γ.size t % 2 ^ 64, indexByteRange_release _ _ _, Nat.mod_lt _ (by decide), ?_⟩
    simp [offset]

theorem Repr.getBytes {σ : Type} (R : Repr Γ w.heap t es c.data) (s : σ) :
    c.data.getBytes cfg i s = match offset cfg (Γ.size t) es.length i with
      | some a => (.ok ((es.flatten.drop a).take (Γ.size t)), s)
      | none => (.panic (if cfg.debug then .assertion else .index), s) := by
  by_cases hd : cfg.debug = true ∧ es.length ≤ i
  · have hn : offset cfg (Γ.size t) es.length i = none := by
      simp only [offset, if_pos hd.1]; rw [if_neg (by omega)]
    rw [hn]
    unfold VecVoid.getBytes
    rw [M.bind_panic (by rw [R.debugLen, if_pos hd]), if_pos hd.1]
  · obtain ⟨a, h1, h2, h3⟩ := R.range hd s
    have hlen : es.flatten.length = es.length * Γ.size t := length_flatten_eq R.each
    unfold VecVoid.getBytes indexByteSlice
    rw [M.bind_ok (by rw [R.debugLen, if_neg hd]), R.bytes, M.bind_ok (M.lift_run _ _), R.numBytes, M.bind_ok h1, h3]
    simp only [M.lift_run]
    rw [sliceIndex_window (by rw [hlen]; exact VecCopy.Repr_mul_le R) R.pos (Γ.size_le t) h2, hlen]
    split
    · rfl
    · rename_i hlt
      cases hdb : cfg.debug with
      | false => rfl
      | true =>
        exfalso
        simp only [hdb, true_and] at hd
        have : offset cfg (Γ.size t) es.length i = some (i * Γ.size t) := by
          simp only [offset, hdb, if_true]; rw [if_pos (by omega)]
        rw [this, if_neg hlt] at h3
        cases h3

theorem IsUnits.debugLen {σ : Type} {n : Nat} (I : IsUnits Γ n c.data) (s : σ) :
    debugAssert cfg (decide (i < c.data.len)) s = if cfg.debug = true ∧ n ≤ i then (.panic .assertion, s) else (.ok (), s) := by
  unfold debugAssert
  rw [I.len]
  by_cases hd : cfg.debug = true
  · rw [if_pos hd]
    by_cases hi : i < n
    · rw [if_neg (by omega), decide_eq_true hi]; rfl
    · rw [if_pos ⟨hd, by omega⟩, decide_eq_false hi]; rfl
  · rw [if_neg hd, if_neg (by simp [hd])]; rfl

theorem IsUnits.getBytes {σ : Type} {n : Nat} (I : IsUnits Γ n c.data) (s : σ) :
    (¬ (cfg.debug = true ∧ (n ≤ i ∨ 2 ^ 64 ≤ i + 1)) → c.data.getBytes cfg i s = (.ok [], s)) ∧
    ((cfg.debug = true ∧ (n ≤ i ∨ 2 ^ 64 ≤ i + 1)) → ∃ y, c.data.getBytes cfg i s = (.panic y, s)) := by
  unfold VecVoid.getBytes indexByteSlice
  constructor
  · intro h
    rw [M.bind_ok (by rw [I.debugLen, if_neg (fun e => h ⟨e.1, .inl e.2⟩)]), VecCopy.unit_bytes I.good, M.bind_ok (M.lift_run _ _),
      I.good.numBytes, M.bind_ok (by rw [indexByteRange_unit, if_neg (fun e => h ⟨e.1, .inr e.2⟩)])]
    rfl
  · rintro ⟨hd, h⟩
    by_cases hn : n ≤ i
    · exact ⟨_, M.bind_panic (by rw [I.debugLen, if_pos ⟨hd, hn⟩])⟩
    · refine ⟨.overflow, ?_⟩
      rw [M.bind_ok (by rw [I.debugLen, if_neg (fun e => hn e.2)]), VecCopy.unit_bytes I.good, M.bind_ok (M.lift_run _ _),
        I.good.numBytes, M.bind_panic (by rw [indexByteRange_unit, if_pos ⟨hd, by omega⟩])]

variable [HasDrop U V] [HasClone U V] [TableLaw V]

/-- `get` on a container. -/
theorem vec_place {σ : Type} (I : YItem.Is Γ w.heap (.vec c) (.vec tb x)) (s : σ) :
    match (YItem.vec tb x).at Γ cfg i with
    | some p => ∃ v, VecDyn.get cfg i c s = (.ok v, s) ∧ PlaceIs Γ p v
    | none => ∃ y, VecDyn.get cfg i c s = (.panic y, s) := by
  obtain ⟨h1, h2, h3, h4⟩ := I
  cases x with
  | vec t es cap =>
    cases h4 t es cap rfl
    obtain ⟨R, rfl⟩ := h1
    simp only [YItem.at]
    have hg := R.getBytes (cfg := cfg) (i := i) s
    cases ho : offset cfg (Γ.size tb) es.length i with
    | some a =>
      rw [ho] at hg
      simp only [Option.map_some]
      refine ⟨c.valueOf ((es.flatten.drop a).take (Γ.size tb)), ?_, ?_⟩
      · unfold VecDyn.get
        have hd : ¬ (cfg.debug = true ∧ es.length ≤ i) := by
          rintro ⟨hd, hi⟩
          simp only [offset, hd, if_true] at ho
          rw [if_neg (by omega)] at ho
          cases ho
        rw [M.bind_ok (a := ()) (s' := s) (by rw [VecCopy.len, R.debugLen, if_neg hd]), M.bind_ok hg]
        rfl
      · have := offset_fits ho
        refine ⟨R.type_id, R.align, rfl, ?_, h2, fun h => absurd rfl h⟩
        simp only [List.length_take, List.length_drop, length_flatten_eq R.each]; omega
    | none =>
      rw [ho] at hg
      simp only [Option.map_none]
      unfold VecDyn.get
      by_cases hd : cfg.debug = true ∧ es.length ≤ i
      · exact ⟨_, M.bind_panic (by rw [VecCopy.len, R.debugLen, if_pos hd])⟩
      · rw [M.bind_ok (a := ()) (s' := s) (by rw [VecCopy.len, R.debugLen, if_neg hd])]
        exact ⟨_, M.bind_panic hg⟩
  | unit n =>
    have I : IsUnits Γ n c.data := h1
    obtain ⟨g1, g2⟩ := I.getBytes (cfg := cfg) (i := i) s
    simp only [YItem.at]
    by_cases h : cfg.debug = true ∧ (n ≤ i ∨ 2 ^ 64 ≤ i + 1)
    · simp only [if_pos h]
      unfold VecDyn.get
      by_cases hn : n ≤ i
      · exact ⟨_, M.bind_panic (by rw [VecCopy.len, I.debugLen, if_pos ⟨h.1, hn⟩])⟩
      · obtain ⟨y, hy⟩ := g2 h
        rw [M.bind_ok (a := ()) (s' := s) (by rw [VecCopy.len, I.debugLen, if_neg (fun e => hn e.2)])]
        exact ⟨_, M.bind_panic hy⟩
    · simp only [if_neg h]
      refine ⟨c.valueOf [], ?_, ?_⟩
      · unfold VecDyn.get
        rw [M.bind_ok (a := ()) (s' := s) (by rw [VecCopy.len, I.debugLen, if_neg (fun e => h ⟨e.1, .inl e.2⟩)]), M.bind_ok (g1 h)]
        rfl
      · exact ⟨I.type_id, I.align, rfl, by rw [Γ.unit_size]; rfl, h2, fun _ => by simp only; rw [Γ.unit_size]; omega⟩

/-- `get_mut` on a container, used by `m`. -/
theorem vec_mut {p : Place} (I : YItem.Is Γ w.heap (.vec c) (.vec tb x)) (hp : (YItem.vec tb x).at Γ cfg i = some p)
    {m : M (ValueRef V × World U) Obs} {v v' : ValueRef V} {r : Res Obs} {w' : World U}
    (hv : VecDyn.get cfg i c w = (.ok v, w)) (hm : m (v, w) = (r, (v', w'))) (hl : v'.bytes.length = Γ.size p.ty) :
    ∃ d, VecDyn.getMut cfg i m (c, w) = (r, ({ c with data := d }, w')) ∧ d.ptr = c.data.ptr ∧
      YItem.Is Γ w.heap (.vec { c with data := d }) ((YItem.vec tb x).store Γ cfg i v'.bytes) := by
  obtain ⟨h1, h2, h3, h4⟩ := I
  cases x with
  | vec t es cap =>
    cases h4 t es cap rfl
    obtain ⟨R, rfl⟩ := h1
    simp only [YItem.at] at hp
    simp only [YItem.store]
    have hg := fun (s : VecDyn V × World U) => R.getBytes (cfg := cfg) (i := i) s
    have hg' := R.getBytes (cfg := cfg) (i := i) w
    cases ho : offset cfg (Γ.size tb) es.length i with
    | none => rw [ho] at hp; cases hp
    | some a =>
      rw [ho] at hp hg'
      simp only [ho] at hg
      simp only [Option.map_some, Option.some.injEq] at hp
      subst hp
      have hd : ¬ (cfg.debug = true ∧ es.length ≤ i) := by
        rintro ⟨hd, hi⟩
        simp only [offset, hd, if_true] at ho
        rw [if_neg (by omega)] at ho
        cases ho
      have hfit := offset_fits ho
      obtain ⟨a', g1, g2, g3⟩ := R.range hd (c, w)
      have : a' = a := by
        rw [ho] at g3
        split at g3
        · exact (Option.some.inj g3).symm
        · cases g3
      subst this
      have hv' : v = c.valueOf ((es.flatten.drop a').take (Γ.size tb)) := by
        unfold VecDyn.get at hv
        rw [M.bind_ok (a := ()) (s' := w) (by rw [VecCopy.len, R.debugLen, if_neg hd]), M.bind_ok hg'] at hv
        simp only [M.pure_run, Prod.mk.injEq, Res.ok.injEq, and_true] at hv
        exact hv.symm
      subst hv'
      have hlen : (es.flatten.take a' ++ v'.bytes ++ es.flatten.drop (a' + Γ.size tb)).length = es.length * Γ.size tb := by
        simp only at hl
        simp only [List.length_append, List.length_take, List.length_drop, length_flatten_eq R.each, hl]; omega
      refine ⟨⟨c.data.ptr, c.data.len, c.data.cap, c.data.elem, splice c.data.mem a' v'.bytes⟩, ?_, rfl, ⟨?_, rfl⟩, h2, h3, fun _ _ _ e => by cases e; rfl⟩
      · simp only [VecDyn.getMut]
        rw [M.bind_ok (getSelf_run _), M.bind_ok (a := ()) (s' := (c, w)) (by rw [VecCopy.len, R.debugLen, if_neg hd]), M.bind_ok (hg _), R.numBytes,
          M.bind_ok g1]
        simp only [hm]
      · have := R.setContent (es' := cut (Γ.size tb) es.length (es.flatten.take a' ++ v'.bytes ++ es.flatten.drop (a' + Γ.size tb)))
          (by rw [cut_length]; exact R.len_cap) (cut_each hlen)
        rw [cut_flatten hlen, cut_length] at this
        simp only at hl
        simpa [splice, hl, R.mem, R.len] using this
  | unit n =>
    have I : IsUnits Γ n c.data := h1
    obtain ⟨g1, -⟩ := I.getBytes (cfg := cfg) (i := i) (c, w)
    obtain ⟨g1', -⟩ := I.getBytes (cfg := cfg) (i := i) w
    simp only [YItem.at] at hp
    split at hp
    · cases hp
    rename_i h
    cases hp
    simp only at hl
    have hb : v'.bytes = [] := List.eq_nil_of_length_eq_zero (by rw [hl, Γ.unit_size])
    have hd : debugAssert cfg (decide (i < c.len)) (c, w) = (.ok (), (c, w)) := by
      rw [VecCopy.len, I.debugLen, if_neg (fun e => h ⟨e.1, .inl e.2⟩)]
    have hv' : v = c.valueOf [] := by
      unfold VecDyn.get at hv
      rw [M.bind_ok (a := ()) (s' := w) (by rw [VecCopy.len, I.debugLen, if_neg (fun e => h ⟨e.1, .inl e.2⟩)]), M.bind_ok (g1' h)] at hv
      simp only [M.pure_run, Prod.mk.injEq, Res.ok.injEq, and_true] at hv
      exact hv.symm
    subst hv'
    refine ⟨c.data, ?_, rfl, I, h2, h3, fun _ _ _ e => by cases e⟩
    simp only [VecDyn.getMut]
    rw [M.bind_ok (getSelf_run _), M.bind_ok hd, M.bind_ok (g1 h), I.good.numBytes,
      M.bind_ok (a := (0, 0)) (s' := (c, w)) (by rw [indexByteRange_unit, if_neg (fun e => h ⟨e.1, .inr e.2⟩)])]
    have hs : splice c.data.mem 0 [] = c.data.mem := by rw [I.mem]; rfl
    simp only [hm, hb, hs]

/-- A reference to a place. -/
theorem item_place {a : Item V} {y : YItem} {slots : DSlots V} {k : Nat} (hs : slots k = some a) (I : YItem.Is Γ w.heap a y) :
    match y.at Γ cfg i with
    | some p => ∃ v, DOp.readRef cfg k i (slots, w) = (.ok (some v), (slots, w)) ∧ PlaceIs Γ p v ∧
        ∀ (m : M (ValueRef V × World U) Obs) r v' w', m (v, w) = (r, (v', w')) → v'.bytes.length = Γ.size p.ty →
          ∃ a', DOp.onMut cfg k i m (slots, w) = (r, (Slots.put slots k (some a'), w')) ∧ a'.ptr = a.ptr ∧
            YItem.Is Γ w.heap a' (y.store Γ cfg i v'.bytes)
    | none => (∃ z, DOp.readRef cfg k i (slots, w) = (.panic z, (slots, w))) := by
  cases a with
  | vec c =>
    cases y with
    | vec tb x =>
      have hp := vec_place (cfg := cfg) (i := i) I w
      split
      · rename_i p ha
        rw [ha] at hp
        obtain ⟨v, h1, h2⟩ := hp
        refine ⟨v, by simp only [DOp.readRef, hs, h1, Res.map], h2, ?_⟩
        intro m r v' w' hm hl
        obtain ⟨d, g1, g2, g3⟩ := vec_mut I ha h1 hm hl
        exact ⟨.vec { c with data := d }, by simp only [DOp.onMut, hs, g1], g2, g3⟩
      · rename_i ha
        rw [ha] at hp
        obtain ⟨z, h1⟩ := hp
        exact ⟨z, by simp only [DOp.readRef, hs, h1, Res.map]⟩
    | box => exact I.elim
    | small => exact I.elim
  | box v =>
    cases y with
    | box t x =>
      simp only [YItem.at]
      refine ⟨v.asRef, by simp only [DOp.readRef, hs], I.1.place I.2, ?_⟩
      intro m r v' w' hm hl
      exact ⟨.box { v with bytes := ByteBuf.set v'.bytes v.bytes }, by simp only [DOp.onMut, hs, hm], rfl, ⟨⟨I.1.type_id, I.1.align, rfl, hl, I.1.block⟩, I.2⟩⟩
    | vec => exact I.elim
    | small => exact I.elim
  | small v =>
    cases y with
    | small t x =>
      simp only [YItem.at]
      refine ⟨v.asRef, by simp only [DOp.readRef, hs], I.1.place I.2, ?_⟩
      intro m r v' w' hm hl
      exact ⟨.small { v with bytes := ByteBuf.set v'.bytes v.bytes }, by simp only [DOp.onMut, hs, hm], rfl, ⟨⟨I.1.type_id, I.1.align, rfl, hl, I.1.size⟩, I.2⟩⟩
    | vec => exact I.elim
    | box => exact I.elim

/-- Writing to a place what is there already. -/
theorem store_self {a : Item V} {y : YItem} {p : Place} (I : YItem.Is Γ w.heap a y) (hp : y.at Γ cfg i = some p) :
    y.store Γ cfg i p.bytes = y := by
  cases y with
  | vec tb x =>
    cases x with
    | vec t es cap =>
      cases a with
      | vec c =>
        obtain ⟨⟨R, -⟩, -⟩ := I
        simp only [YItem.at] at hp
        simp only [YItem.store]
        cases ho : offset cfg (Γ.size t) es.length i with
        | none => rfl
        | some a =>
          rw [ho] at hp
          cases hp
          have hf := offset_fits ho
          simp only
          have hs := splice_self (b := es.flatten) (n := Γ.size t) (a := a) (by rw [length_flatten_eq R.each]; exact hf)
          have hl : ((es.flatten.drop a).take (Γ.size t)).length = Γ.size t := by
            rw [List.length_take, List.length_drop, length_flatten_eq R.each]; omega
          simp only [splice, hl] at hs
          rw [hs, cut_self R.each]
      | box => exact I.elim
      | small => exact I.elim
    | unit n => rfl
  | box t x => cases hp; rfl
  | small t x => cases hp; rfl

end
end Dync
