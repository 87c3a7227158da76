import Verif.CompareSpec
import Verif.VecDynLemmas3
/-! # Lemmas about comparison, hashing and formatting with arbitrary user code -/
namespace Dync
variable {U H F V W S β γ σ : Type} {Γ : TyEnv U} {Φ : UserFns U H F} {t : TyId}

/-! ### `Through` -/

theorem through_nil {f : β → M S γ} {c : γ} {s s' : S} {r : Res γ} :
    Through f c [] s r s' ↔ (r, s') = (.ok c, s) := by
  simp [Through, Stops, Each]

theorem through_cons {f : β → M S γ} {c : γ} {x : β} {xs : List β} {s s' : S} {r : Res γ} :
    Through f c (x :: xs) s r s' ↔
      (∃ m, f x s = (.ok c, m) ∧ Through f c xs m r s') ∨ (r ≠ .ok c ∧ f x s = (r, s')) := by
  constructor
  · rintro (⟨hr, m, h1, h2⟩ | ⟨hr, pre, y, post, m, h1, h2, h3⟩)
    · exact .inl ⟨m, h1, .inl ⟨hr, h2⟩⟩
    · cases pre with
      | nil => simp only [List.nil_append, List.cons.injEq] at h1; cases h2; rw [h1.1]; exact .inr ⟨hr, h3⟩
      | cons z pre =>
        simp only [List.cons_append, List.cons.injEq] at h1
        obtain ⟨k, e1, e2⟩ := h2
        exact .inl ⟨k, h1.1 ▸ e1, .inr ⟨hr, pre, y, post, m, h1.2, e2, h3⟩⟩
  · rintro (⟨m, h1, (⟨hr, h2⟩ | ⟨hr, pre, y, post, k, h2, h3, h4⟩)⟩ | ⟨hr, h1⟩)
    · exact .inl ⟨hr, m, h1, h2⟩
    · exact .inr ⟨hr, x :: pre, y, post, k, by rw [h2]; rfl, ⟨m, h1, h3⟩, h4⟩
    · exact .inr ⟨hr, [], x, xs, s, rfl, rfl, h1⟩

/-! ### Comparison -/

theorem ValueRef.eqFx_diff [HasEqFx U V] {a b : ValueRef V} (h : a.type_id ≠ b.type_id) :
    ValueRef.eqFx a b = pure false := by
  unfold ValueRef.eqFx; rw [if_pos h]

theorem ValueRef.eqFx_same [HasEqFx U V] {vt : V} (hl : LawfulEqFx Γ Φ t vt) {a b : ValueRef V}
    (ha : a.type_id = t) (hb : b.type_id = t) (hv : a.vtable = vt) (la : a.bytes.length = Γ.size t)
    (lb : b.bytes.length = Γ.size t) : ValueRef.eqFx a b = Φ.eq t a.bytes b.bytes := by
  unfold ValueRef.eqFx
  rw [if_neg (by rw [ha, hb]; exact fun h => h rfl), hv, hl _ _ la lb]

theorem zipAll_through [HasEqFx U V] {vt vt' : V} {n n' : Nat} (hl : LawfulEqFx Γ Φ t vt) :
    ∀ {es es' : List Bytes}, (∀ e ∈ es, e.length = Γ.size t) → (∀ e ∈ es', e.length = Γ.size t) →
    ∀ {u u' : U} {r : Res Bool},
      zipAll (es.map fun e => (⟨e, t, n, vt⟩ : ValueRef V)) (es'.map fun e => ⟨e, t, n', vt'⟩) u = (r, u') ↔
        Through (fun p : Bytes × Bytes => Φ.eq t p.1 p.2) true (es.zip es') u r u' := by
  intro es
  induction es with
  | nil => intro es' _ _ u u' r; simp only [List.map_nil, zipAll, List.zip_nil_left, through_nil, M.pure_run]; exact eq_comm
  | cons x es ih =>
    intro es' h1 h2 u u' r
    cases es' with
    | nil => simp only [List.map_nil, List.zip_nil_right, through_nil]; exact eq_comm
    | cons y es' =>
      have hx := h1 x List.mem_cons_self
      have hy := h2 y List.mem_cons_self
      have i := @ih es' (fun e he => h1 e (List.mem_cons_of_mem _ he)) (fun e he => h2 e (List.mem_cons_of_mem _ he))
      simp only [List.map_cons, List.zip_cons_cons, zipAll, through_cons, M.bind_run]
      rw [ValueRef.eqFx_same hl rfl rfl rfl hx hy]
      rcases e : Φ.eq t x y u with ⟨o, m⟩
      cases o with
      | ok b =>
        cases b with
        | true =>
          simp only [if_true, i, Prod.mk.injEq, true_and, exists_eq_left']
          constructor
          · exact .inl
          · rintro (h | ⟨h3, h4, _⟩)
            · exact h
            · exact absurd h4.symm h3
        | false =>
          simp only [Bool.false_eq_true, if_false, M.pure_run, Prod.mk.injEq, Res.ok.injEq, false_and, exists_false, false_or]
          constructor
          · rintro ⟨rfl, rfl⟩; exact ⟨by simp, rfl, rfl⟩
          · exact fun h => h.2
      | panic y =>
        simp only [Prod.mk.injEq, reduceCtorEq, false_and, exists_false, false_or]
        constructor
        · rintro ⟨rfl, rfl⟩; exact ⟨by simp, rfl, rfl⟩
        · exact fun h => h.2
      | ub =>
        simp only [Prod.mk.injEq, reduceCtorEq, false_and, exists_false, false_or]
        constructor
        · rintro ⟨rfl, rfl⟩; exact ⟨by simp, rfl, rfl⟩
        · exact fun h => h.2
      | abort =>
        simp only [Prod.mk.injEq, reduceCtorEq, false_and, exists_false, false_or]
        constructor
        · rintro ⟨rfl, rfl⟩; exact ⟨by simp, rfl, rfl⟩
        · exact fun h => h.2

theorem zipAll_diff [HasEqFx U V] {vt vt' : V} {n n' : Nat} {t' : TyId} (h : t ≠ t') (es es' : List Bytes) (u : U) :
    zipAll (es.map fun e => (⟨e, t, n, vt⟩ : ValueRef V)) (es'.map fun e => ⟨e, t', n', vt'⟩) u =
      (.ok (es.isEmpty || es'.isEmpty), u) := by
  cases es with
  | nil => rfl
  | cons x es =>
    cases es' with
    | nil => rfl
    | cons y es' =>
      simp only [List.map_cons, zipAll]
      rw [ValueRef.eqFx_diff h]
      rfl

/-! ### Hashing -/

theorem forEach_through {f : β → M S Unit} : ∀ {xs : List β} {s s' : S} {r : Res Unit},
    M.forEach xs f s = (r, s') ↔ Through f () xs s r s' := by
  intro xs
  induction xs with
  | nil => intro s s' r; simp only [M.forEach_nil, M.pure_run, through_nil]; exact eq_comm
  | cons x xs ih =>
    intro s s' r
    simp only [M.forEach_cons, M.bind_run, through_cons]
    rcases e : f x s with ⟨o, m⟩
    cases o with
    | ok b =>
      simp only [ih, Prod.mk.injEq, true_and, exists_eq_left']
      constructor
      · exact .inl
      · rintro (h | ⟨h3, h4, _⟩)
        · exact h
        · exact absurd h4.symm h3
    | panic y =>
      simp only [Prod.mk.injEq, reduceCtorEq, false_and, exists_false, false_or]
      constructor
      · rintro ⟨rfl, rfl⟩; exact ⟨by simp, rfl, rfl⟩
      · exact fun h => h.2
    | ub =>
      simp only [Prod.mk.injEq, reduceCtorEq, false_and, exists_false, false_or]
      constructor
      · rintro ⟨rfl, rfl⟩; exact ⟨by simp, rfl, rfl⟩
      · exact fun h => h.2
    | abort =>
      simp only [Prod.mk.injEq, reduceCtorEq, false_and, exists_false, false_or]
      constructor
      · rintro ⟨rfl, rfl⟩; exact ⟨by simp, rfl, rfl⟩
      · exact fun h => h.2

theorem forEach_hashFx [HasHashFx U H V] {vt : V} {n : Nat} (hl : LawfulHashFx Γ Φ t vt) :
    ∀ {es : List Bytes}, (∀ e ∈ es, e.length = Γ.size t) →
      M.forEach (es.map fun e => (⟨e, t, n, vt⟩ : ValueRef V)) ValueRef.hashFx = M.forEach es (Φ.hash t) := by
  intro es
  induction es with
  | nil => intro _; rfl
  | cons x es ih =>
    intro h
    simp only [List.map_cons, M.forEach_cons]
    rw [ih fun e he => h e (List.mem_cons_of_mem _ he)]
    simp only [ValueRef.hashFx, hl x (h x List.mem_cons_self)]

theorem map_fmtFx [HasFmtFx U F V] {vt : V} {n : Nat} (hl : LawfulFmtFx Γ Φ t vt) {es : List Bytes}
    (h : ∀ e ∈ es, e.length = Γ.size t) :
    (es.map fun e => (⟨e, t, n, vt⟩ : ValueRef V)).map ValueRef.fmtFx = es.map (Φ.fmt t) := by
  rw [List.map_map]
  exact List.map_congr_left fun e he => hl e (h e he)

/-! ### Values of the iterators -/

theorem VecDyn.iter_refs {h : Heap} {es : List Bytes} {a : VecDyn V} (Ra : Repr Γ h t es a.data) (s : σ) :
    a.iter s = (.ok (es.map fun e => (⟨e, t, Γ.align t, a.vtable⟩ : ValueRef V)), s) := by
  rw [VecDyn.iter_valueOf Ra s]
  congr 2
  exact List.map_congr_left fun e _ => by
    simp [VecCopy.valueOf, VecCopy.elementTypeId, Ra.type_id, Ra.align]

theorem SliceDyn.iter_refs {es : List Bytes} {a : SliceCopy V} (Ra : SRepr Γ t es a) (s : σ) :
    a.iter s = (.ok (es.map fun e => (⟨e, t, Γ.align t, a.vtable⟩ : ValueRef V)), s) := by
  rw [SliceDyn.iter_valueOf Ra s]
  congr 2
  exact List.map_congr_left fun e _ => by
    simp [SliceCopy.valueOf, Ra.elem, ElemInfo.new]

/-! ### Text -/

theorem padLevel_append (nl : Bool) (a b : List Char) :
    padLevel nl (a ++ b) = ((padLevel (padLevel nl a).1 b).1, (padLevel nl a).2 ++ (padLevel (padLevel nl a).1 b).2) := by
  induction a generalizing nl with
  | nil => rfl
  | cons c a ih => simp only [List.cons_append, padLevel, ih, List.append_assoc]

theorem padText_append (ps : List Bool) (a b : List Char) :
    padText ps (a ++ b) = ((padText (padText ps a).1 b).1, (padText ps a).2 ++ (padText (padText ps a).1 b).2) := by
  induction ps generalizing a b with
  | nil => rfl
  | cons nl ps ih => simp only [padText, padLevel_append, ih]

theorem padText_nil (ps : List Bool) : padText ps [] = (ps, []) := by
  induction ps with
  | nil => rfl
  | cons nl ps ih => simp only [padText, padLevel, ih]

theorem Text.write_run (s : String) (f : Text) : Text.formatting.write s f = (.ok .ok, f.put s.toList) := rfl

theorem Text.put_put (f : Text) (a b : List Char) : (f.put a).put b = f.put (a ++ b) := by
  simp only [Text.put, padText_append, List.append_assoc]

theorem Text.put_nil (f : Text) : f.put [] = f := by
  simp only [Text.put, padText_nil, List.append_nil]

theorem Text.put_pretty (f : Text) (a : List Char) : (f.put a).pretty = f.pretty := rfl

/-- Writing through one more adapter, then removing it. -/
theorem Text.put_wrap (f : Text) (nl : Bool) (a : List Char) :
    ({ f with pads := nl :: f.pads } : Text).put a = { (f.put (padLevel nl a).2) with pads := (padLevel nl a).1 :: (f.put (padLevel nl a).2).pads } := by
  simp only [Text.put, padText]

theorem padLevel_line {l : List Char} (h : '\n' ∉ l) (b : List Char) (nl : Bool) :
    padLevel nl (l ++ '\n' :: b) = ((padLevel true b).1,
      (if nl then [' ', ' ', ' ', ' '] else []) ++ l ++ '\n' :: (padLevel true b).2) := by
  induction l generalizing nl with
  | nil => simp [padLevel]
  | cons c l ih =>
    have hc : (c == '\n') = false := by
      rw [beq_eq_false_iff_ne]; exact fun e => h (e ▸ List.mem_cons_self)
    simp only [List.cons_append, padLevel, hc, ih (fun hh => h (List.mem_cons_of_mem _ hh)), Bool.false_eq_true, if_false,
      List.nil_append, List.append_assoc]

theorem padLevel_lines {ls : List (List Char)} (h : ∀ l ∈ ls, '\n' ∉ l) (h0 : ls ≠ []) :
    padLevel true (joinLines ls ++ [',', '\n']) =
      (true, joinLines (ls.map ([' ', ' ', ' ', ' '] ++ ·)) ++ [',', '\n']) := by
  induction ls with
  | nil => exact absurd rfl h0
  | cons l ls ih =>
    cases ls with
    | nil =>
      have hl : '\n' ∉ l ++ [','] := by
        simp only [List.mem_append, List.mem_singleton, not_or]
        exact ⟨h l List.mem_cons_self, by decide⟩
      have e := padLevel_line hl [] true
      simp only [joinLines, List.map_cons, List.map_nil]
      have e2 : l ++ [',', '\n'] = l ++ [','] ++ '\n' :: [] := by simp
      rw [e2, e]
      simp [padLevel]
    | cons m ls =>
      have e := padLevel_line (h l List.mem_cons_self) (joinLines (m :: ls) ++ [',', '\n']) true
      have i := ih (fun x hx => h x (List.mem_cons_of_mem _ hx)) (by simp)
      simp only [joinLines, List.map_cons, List.append_assoc, List.cons_append] at e i ⊢
      rw [e, i]
      simp

/-! ### `{:?}` -/

theorem onFmt_write (s : String) (f : Text) (u : U) :
    onFmt (U := U) (Text.formatting.write s) (f, u) = (.ok .ok, (f.put s.toList, u)) := rfl

theorem debugEntries_plain {ms : List (List Char × M (Text × U) FmtRes)}
    (h : ∀ m ∈ ms, PrintsText m.2 m.1) (f : Text) (hf : f.pretty = false) (u : U) :
    ∃ u', debugEntriesFx Text.formatting true .ok (ms.map Prod.snd) (f, u) =
      (.ok .ok, (f.put ((ms.map fun m => [',', ' '] ++ m.1).flatten), u')) := by
  induction ms generalizing f u with
  | nil => exact ⟨u, by simp [debugEntriesFx, Text.put_nil]⟩
  | cons m ms ih =>
    obtain ⟨u1, h1⟩ := h m List.mem_cons_self (f.put [',', ' ']) u
    have e : debugEntryFx Text.formatting true m.2 (f, u) = (.ok .ok, (f.put ([',', ' '] ++ m.1), u1)) := by
      have hp : Text.formatting.pretty f = false := hf
      simp only [debugEntryFx, M.bind_run, M.get_run, hp, Bool.false_eq_true, if_false, if_true, andThen, onFmt_write]
      show m.2 (f.put [',', ' '], u) = _
      rw [h1, Text.put_put]
    obtain ⟨u2, h2⟩ := ih (fun x hx => h x (List.mem_cons_of_mem _ hx)) (f.put ([',', ' '] ++ m.1)) hf u1
    refine ⟨u2, ?_⟩
    simp only [List.map_cons, debugEntriesFx]
    rw [M.bind_ok e, h2, Text.put_put, List.flatten_cons]

theorem debugList_plain {ms : List (List Char × M (Text × U) FmtRes)}
    (h : ∀ m ∈ ms, PrintsText m.2 m.1) (f : Text) (hf : f.pretty = false) (u : U) :
    ∃ u', debugListFx Text.formatting (ms.map Prod.snd) (f, u) =
      (.ok .ok, (f.put (plainText (ms.map Prod.fst)), u')) := by
  cases ms with
  | nil =>
    refine ⟨u, ?_⟩
    unfold debugListFx
    rw [M.bind_ok (onFmt_write "[" f u)]
    simp only [List.map_nil, debugEntriesFx, andThen, M.bind_run, M.pure_run, onFmt_write, Text.put_put]
    rfl
  | cons m ms =>
    obtain ⟨u1, h1⟩ := h m List.mem_cons_self (f.put ['[']) u
    have e : debugEntryFx Text.formatting false m.2 (f.put ['['], u) = (.ok .ok, (f.put ('[' :: m.1), u1)) := by
      have hp : Text.formatting.pretty (f.put ['[']) = false := hf
      simp only [debugEntryFx, M.bind_run, M.get_run, hp, Bool.false_eq_true, if_false, andThen, M.pure_run]
      rw [h1, Text.put_put]; rfl
    obtain ⟨u2, h2⟩ := debugEntries_plain (fun x hx => h x (List.mem_cons_of_mem _ hx)) (f.put ('[' :: m.1)) hf u1
    refine ⟨u2, ?_⟩
    unfold debugListFx
    rw [M.bind_ok (onFmt_write "[" f u)]
    unfold andThen
    have e2 : debugEntriesFx Text.formatting false .ok ((m :: ms).map Prod.snd) (f.put ['['], u) =
        (.ok .ok, ((f.put ('[' :: m.1)).put ((ms.map fun m => [',', ' '] ++ m.1).flatten), u2)) := by
      simp only [List.map_cons, debugEntriesFx]
      rw [M.bind_ok e, h2]
    have e3 : debugEntriesFx Text.formatting false .ok ((m :: ms).map Prod.snd) (f.put "[".toList, u) =
        (.ok .ok, ((f.put ('[' :: m.1)).put ((ms.map fun m => [',', ' '] ++ m.1).flatten), u2)) := e2
    rw [M.bind_ok e3]
    simp only [onFmt_write, Text.put_put]
    simp [plainText, List.map_map, Function.comp_def]

/-- Nothing more is done after an error. -/
theorem debugEntries_err (K : Formatting F) (b : Bool) (es : List (M (F × U) FmtRes)) (s : F × U) :
    debugEntriesFx K b .err es s = (.ok .err, s) := by
  induction es generalizing b with
  | nil => cases b <;> rfl
  | cons e es ih => simp only [debugEntriesFx]; exact ih true

/-- The entry that stops the list. -/
theorem debugEntries_stop {m : M (Text × U) FmtRes} {cs : List Char} {r : Res FmtRes} (h : StopsAfter m cs r)
    (post : List (M (Text × U) FmtRes)) (b : Bool) (f : Text) (hf : f.pretty = false) (u : U) :
    ∃ u', debugEntriesFx Text.formatting b .ok (m :: post) (f, u) = (r, (f.put ((if b then [',', ' '] else []) ++ cs), u')) := by
  obtain ⟨hr, h⟩ := h
  have hp : Text.formatting.pretty f = false := hf
  have : ∃ u', debugEntryFx Text.formatting b m (f, u) = (r, (f.put ((if b then [',', ' '] else []) ++ cs), u')) := by
    cases b with
    | true =>
      obtain ⟨u1, h1⟩ := h (f.put [',', ' ']) u
      refine ⟨u1, ?_⟩
      simp only [debugEntryFx, M.bind_run, M.get_run, hp, Bool.false_eq_true, if_false, if_true, andThen, onFmt_write]
      show m (f.put [',', ' '], u) = _
      rw [h1, Text.put_put]
    | false =>
      obtain ⟨u1, h1⟩ := h f u
      refine ⟨u1, ?_⟩
      simp only [debugEntryFx, M.bind_run, M.get_run, hp, Bool.false_eq_true, if_false, andThen, M.pure_run]
      rw [h1]; rfl
  obtain ⟨u', e⟩ := this
  refine ⟨u', ?_⟩
  simp only [debugEntriesFx]
  rcases hr with rfl | ⟨w, rfl⟩
  · rw [M.bind_ok e, debugEntries_err]
  · rw [M.bind_panic e]

theorem debugEntries_upto {ms : List (List Char × M (Text × U) FmtRes)} {m : M (Text × U) FmtRes} {cs : List Char} {r : Res FmtRes}
    (h : ∀ m ∈ ms, PrintsText m.2 m.1) (hm : StopsAfter m cs r) (post : List (M (Text × U) FmtRes)) (f : Text) (hf : f.pretty = false) (u : U) :
    ∃ u', debugEntriesFx Text.formatting true .ok (ms.map Prod.snd ++ m :: post) (f, u) =
      (r, (f.put ((ms.map fun m => [',', ' '] ++ m.1).flatten ++ ([',', ' '] ++ cs)), u')) := by
  induction ms generalizing f u with
  | nil => simpa using debugEntries_stop hm post true f hf u
  | cons x ms ih =>
    obtain ⟨u1, h1⟩ := h x List.mem_cons_self (f.put [',', ' ']) u
    have e : debugEntryFx Text.formatting true x.2 (f, u) = (.ok .ok, (f.put ([',', ' '] ++ x.1), u1)) := by
      have hp : Text.formatting.pretty f = false := hf
      simp only [debugEntryFx, M.bind_run, M.get_run, hp, Bool.false_eq_true, if_false, if_true, andThen, onFmt_write]
      show x.2 (f.put [',', ' '], u) = _
      rw [h1, Text.put_put]
    obtain ⟨u2, h2⟩ := ih (fun y hy => h y (List.mem_cons_of_mem _ hy)) (f.put ([',', ' '] ++ x.1)) hf u1
    refine ⟨u2, ?_⟩
    simp only [List.map_cons, List.cons_append, debugEntriesFx]
    rw [M.bind_ok e, h2, Text.put_put]
    simp

theorem debugList_stop {ms : List (List Char × M (Text × U) FmtRes)} {m : M (Text × U) FmtRes} {cs : List Char} {r : Res FmtRes}
    (h : ∀ m ∈ ms, PrintsText m.2 m.1) (hm : StopsAfter m cs r) (post : List (M (Text × U) FmtRes)) (f : Text) (hf : f.pretty = false) (u : U) :
    ∃ u', debugListFx Text.formatting (ms.map Prod.snd ++ m :: post) (f, u) =
      (r, (f.put (plainText (ms.map Prod.fst ++ [cs])).dropLast, u')) := by
  have key : ∃ u', debugEntriesFx Text.formatting false .ok (ms.map Prod.snd ++ m :: post) (f.put ['['], u) =
      (r, (f.put (plainText (ms.map Prod.fst ++ [cs])).dropLast, u')) := by
    cases ms with
    | nil =>
      obtain ⟨u1, h1⟩ := debugEntries_stop hm post false (f.put ['[']) hf u
      refine ⟨u1, ?_⟩
      rw [List.map_nil, List.nil_append, h1, Text.put_put]
      have e : plainText (List.map Prod.fst ([] : List (List Char × M (Text × U) FmtRes)) ++ [cs]) = ('[' :: cs) ++ [']'] := by simp [plainText]
      rw [e, List.dropLast_concat]
      simp
    | cons x ms =>
      obtain ⟨u1, h1⟩ := h x List.mem_cons_self (f.put ['[']) u
      have e : debugEntryFx Text.formatting false x.2 (f.put ['['], u) = (.ok .ok, (f.put ('[' :: x.1), u1)) := by
        have hp : Text.formatting.pretty (f.put ['[']) = false := hf
        simp only [debugEntryFx, M.bind_run, M.get_run, hp, Bool.false_eq_true, if_false, andThen, M.pure_run]
        rw [h1, Text.put_put]; rfl
      obtain ⟨u2, h2⟩ := debugEntries_upto (fun y hy => h y (List.mem_cons_of_mem _ hy)) hm post (f.put ('[' :: x.1)) hf u1
      refine ⟨u2, ?_⟩
      simp only [List.map_cons, List.cons_append, debugEntriesFx]
      rw [M.bind_ok e, h2, Text.put_put]
      have e4 : plainText (x.1 :: (ms.map Prod.fst ++ [cs])) =
          ('[' :: x.1 ++ ((ms.map fun m => [',', ' '] ++ m.1).flatten ++ ([',', ' '] ++ cs))) ++ [']'] := by
        simp [plainText, List.map_map, Function.comp_def]
      rw [e4, List.dropLast_concat]
  obtain ⟨u', e⟩ := key
  refine ⟨u', ?_⟩
  unfold debugListFx
  rw [M.bind_ok (onFmt_write "[" f u)]
  unfold andThen
  rcases hm.1 with rfl | ⟨w, rfl⟩
  · have e3 : debugEntriesFx Text.formatting false .ok (ms.map Prod.snd ++ m :: post) (f.put "[".toList, u) = _ := e
    rw [M.bind_ok e3]
    rfl
  · have e3 : debugEntriesFx Text.formatting false .ok (ms.map Prod.snd ++ m :: post) (f.put "[".toList, u) = _ := e
    rw [M.bind_panic e3]

/-! ### `{:#?}` -/

theorem debugEntry_pretty {ls : List (List Char)} {m : M (Text × U) FmtRes} (h : PrintsText m (joinLines ls))
    (hn : ls ≠ []) (hl : ∀ l ∈ ls, '\n' ∉ l) (f : Text) (hf : f.pretty = true) (hasFields : Bool) (u : U) :
    ∃ u', debugEntryFx Text.formatting hasFields m (f, u) =
      (.ok .ok, (f.put ((if hasFields then [] else ['\n']) ++
        (joinLines (ls.map ([' ', ' ', ' ', ' '] ++ ·)) ++ [',', '\n'])), u')) := by
  have hp : Text.formatting.pretty f = true := hf
  have first : (if hasFields then pure FmtRes.ok else onFmt (U := U) (Text.formatting.write "\n")) (f, u) =
      (.ok .ok, (f.put (if hasFields then [] else ['\n']), u)) := by
    cases hasFields
    · exact onFmt_write "\n" f u
    · show (Res.ok FmtRes.ok, (f, u)) = _
      rw [if_pos rfl, Text.put_nil]
  generalize hg : f.put (if hasFields then [] else ['\n']) = g at first
  obtain ⟨u1, h1⟩ := h (Text.formatting.wrap g) u
  refine ⟨u1, ?_⟩
  unfold debugEntryFx
  rw [M.bind_ok (M.get_run _)]
  simp only [hp, if_true]
  unfold andThen
  rw [M.bind_ok first]
  simp only [M.bind_run, M.modify_run, h1, onFmt_write, M.pure_run, Text.put_put]
  congr 2
  have e : (Text.formatting.wrap g).put (joinLines ls ++ ",\n".toList) = _ := Text.put_wrap g true _
  have e4 : joinLines ls ++ ",\n".toList = joinLines ls ++ [',', '\n'] := rfl
  rw [e, e4, padLevel_lines hl hn]
  show ({ g.put _ with pads := (g.put _).pads } : Text) = _
  rw [← hg, Text.put_put]

theorem debugEntries_pretty {ms : List (List (List Char) × M (Text × U) FmtRes)}
    (h : ∀ m ∈ ms, PrintsText m.2 (joinLines m.1) ∧ m.1 ≠ [] ∧ ∀ l ∈ m.1, '\n' ∉ l) (f : Text) (hf : f.pretty = true) (u : U) :
    ∃ u', debugEntriesFx Text.formatting true .ok (ms.map Prod.snd) (f, u) =
      (.ok .ok, (f.put ((ms.map fun m => joinLines (m.1.map ([' ', ' ', ' ', ' '] ++ ·)) ++ [',', '\n']).flatten), u')) := by
  induction ms generalizing f u with
  | nil => exact ⟨u, by simp [debugEntriesFx, Text.put_nil]⟩
  | cons m ms ih =>
    have hm := h m List.mem_cons_self
    obtain ⟨u1, h1⟩ := debugEntry_pretty hm.1 hm.2.1 hm.2.2 f hf true u
    obtain ⟨u2, h2⟩ := ih (fun x hx => h x (List.mem_cons_of_mem _ hx)) (f.put _) (by exact hf) u1
    refine ⟨u2, ?_⟩
    simp only [List.map_cons, debugEntriesFx]
    rw [M.bind_ok h1, h2, Text.put_put, List.flatten_cons]
    rfl

theorem debugList_pretty {ms : List (List (List Char) × M (Text × U) FmtRes)}
    (h : ∀ m ∈ ms, PrintsText m.2 (joinLines m.1) ∧ m.1 ≠ [] ∧ ∀ l ∈ m.1, '\n' ∉ l) (f : Text) (hf : f.pretty = true) (u : U) :
    ∃ u', debugListFx Text.formatting (ms.map Prod.snd) (f, u) =
      (.ok .ok, (f.put (prettyText (ms.map Prod.fst)), u')) := by
  cases ms with
  | nil =>
    refine ⟨u, ?_⟩
    unfold debugListFx
    rw [M.bind_ok (onFmt_write "[" f u)]
    simp only [List.map_nil, debugEntriesFx, andThen, M.bind_run, M.pure_run, onFmt_write, Text.put_put]
    rfl
  | cons m ms =>
    have hm := h m List.mem_cons_self
    obtain ⟨u1, h1⟩ := debugEntry_pretty hm.1 hm.2.1 hm.2.2 (f.put "[".toList) hf false u
    obtain ⟨u2, h2⟩ := debugEntries_pretty (fun x hx => h x (List.mem_cons_of_mem _ hx)) ((f.put "[".toList).put _) (by exact hf) u1
    refine ⟨u2, ?_⟩
    unfold debugListFx
    rw [M.bind_ok (onFmt_write "[" f u)]
    unfold andThen
    have e2 := M.bind_ok h1 (f := fun r => debugEntriesFx Text.formatting true r (ms.map Prod.snd))
    rw [h2] at e2
    have e3 : debugEntriesFx Text.formatting false .ok ((m :: ms).map Prod.snd) (f.put "[".toList, u) = _ := e2
    rw [M.bind_ok e3]
    simp only [onFmt_write, Text.put_put]
    simp [prettyText, List.map_map, Function.comp_def]

end Dync
