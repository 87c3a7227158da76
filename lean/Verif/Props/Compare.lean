import Verif.CompareLemmas
import Verif.Props.VecDyn
/-!
# C77: comparison, hashing and formatting run the element's own code, in order, and nothing else

The user code is arbitrary: it may panic, keep state, fail.
-/
namespace Dync
variable {U H F V : Type} {Γ : TyEnv U} {Φ : UserFns U H F} {t t' : TyId} {es es' : List Bytes}

/-- The entries of the builtin tables, alone or as the second component of a `(DropFn, V)` table, run the
user code of the type they were built for. -/
theorem C77_tables (Γ : TyEnv U) (Φ : UserFns U H F) (t : TyId) (d : DropFn U) :
    LawfulEqFx Γ Φ t (EqTableFx.build Γ Φ t) ∧ LawfulEqFx Γ Φ t (d, EqTableFx.build Γ Φ t) ∧
    LawfulHashFx Γ Φ t (HashTableFx.build Γ Φ t) ∧ LawfulHashFx Γ Φ t (d, HashTableFx.build Γ Φ t) ∧
    LawfulFmtFx Γ Φ t (FmtTableFx.build Γ Φ t) ∧ LawfulFmtFx Γ Φ t (d, FmtTableFx.build Γ Φ t) := by
  have e : ∀ a b : Bytes, a.length = Γ.size t → b.length = Γ.size t → eqBytesFx Γ Φ t a b = Φ.eq t a b := by
    intro a b ha hb; simp only [eqBytesFx, ha, hb, beq_self_eq_true]; rfl
  have h : ∀ a : Bytes, a.length = Γ.size t → hashBytesFx Γ Φ t a = Φ.hash t a := by
    intro a ha; simp only [hashBytesFx, ha, beq_self_eq_true]; rfl
  have f : ∀ a : Bytes, a.length = Γ.size t → fmtBytesFx Γ Φ t a = Φ.fmt t a := by
    intro a ha; simp only [fmtBytesFx, ha, beq_self_eq_true]; rfl
  exact ⟨e, e, h, h, f, f⟩

/-- A table entry given bytes of another length panics before any user code runs. -/
theorem C77_wrong_length (Γ : TyEnv U) (Φ : UserFns U H F) (t : TyId) {a b : Bytes} (u : U) (h : H) (f : F)
    (ha : a.length ≠ Γ.size t) :
    eqBytesFx Γ Φ t a b u = (.panic .assertion, u) ∧ eqBytesFx Γ Φ t b a u = (.panic .assertion, u) ∧
    hashBytesFx Γ Φ t a (h, u) = (.panic .assertion, (h, u)) ∧
    fmtBytesFx Γ Φ t a (f, u) = (.panic .assertion, (f, u)) := by
  have e : (a.length == Γ.size t) = false := beq_eq_false_iff_ne.2 ha
  refine ⟨?_, ?_, ?_, ?_⟩
  · simp only [eqBytesFx, e]; rfl
  · simp only [eqBytesFx, e]
    cases (b.length == Γ.size t) <;> rfl
  · simp only [hashBytesFx, e]; rfl
  · simp only [fmtBytesFx, e]; rfl

/-! ### Comparison -/

/-- `==` on containers of one type compares the elements in order with the user's `==`, each pair once,
up to the shorter length; the first comparison that is not `true` (it returned `false` or panicked) is the
last one, and its outcome is that of the whole. -/
theorem C77_vec_eq [HasEqFx U V] {h h' : Heap} {a b : VecDyn V} (Ra : Repr Γ h t es a.data)
    (Rb : Repr Γ h' t es' b.data) (hl : LawfulEqFx Γ Φ t a.vtable) (u u' : U) (r : Res Bool) :
    VecDyn.eqFx a b u = (r, u') ↔
      Through (fun p : Bytes × Bytes => Φ.eq t p.1 p.2) true (es.zip es') u r u' := by
  unfold VecDyn.eqFx
  rw [M.bind_ok (VecDyn.iter_refs Ra u), M.bind_ok (VecDyn.iter_refs Rb u)]
  exact zipAll_through hl Ra.each Rb.each

/-- Containers of different types: no user code runs, and the answer is whether one of them is empty. -/
theorem C77_vec_eq_types [HasEqFx U V] {h h' : Heap} {a b : VecDyn V} (Ra : Repr Γ h t es a.data)
    (Rb : Repr Γ h' t' es' b.data) (ht : t ≠ t') (u : U) :
    VecDyn.eqFx a b u = (.ok (es.isEmpty || es'.isEmpty), u) := by
  unfold VecDyn.eqFx
  rw [M.bind_ok (VecDyn.iter_refs Ra u), M.bind_ok (VecDyn.iter_refs Rb u)]
  exact zipAll_diff ht es es' u

/-- For an element type whose `==` is a plain function of the two values, this is the plain element-wise
comparison of `C28_vecdyn_eq_is_zip`. -/
theorem C77_pure_eq [HasEqFx U V] [HasPartialEq V] {h h' : Heap} {a b : VecDyn V} (Ra : Repr Γ h t es a.data)
    (Rb : Repr Γ h' t' es' b.data) (hl : LawfulEqFx Γ Φ t a.vtable) (hl' : LawfulEq Γ t a.vtable)
    (hp : ∀ x y, Φ.eq t x y = pure (Γ.eq t x y)) (u : U) : VecDyn.eqFx a b u = VecDyn.eq a b u := by
  rw [C28_vecdyn_eq_is_zip Ra Rb hl']
  by_cases ht : t = t'
  · subst ht
    rw [if_pos rfl, C77_vec_eq Ra Rb hl]
    generalize es.zip es' = ps
    induction ps with
    | nil => exact through_nil.2 rfl
    | cons p ps ih =>
      rw [through_cons, hp]
      cases e : Γ.eq t p.1 p.2 with
      | true => exact .inl ⟨u, rfl, by simpa [List.all_cons, e] using ih⟩
      | false => exact .inr ⟨by simp [List.all_cons, e], by simp [List.all_cons, e]⟩
  · rw [if_neg ht, C77_vec_eq_types Ra Rb ht]

/-- `==` on slices and mutable slices: as for containers. -/
theorem C77_slice_eq [HasEqFx U V] {a b : SliceCopy V} (Ra : SRepr Γ t es a) (Rb : SRepr Γ t' es' b)
    (hl : LawfulEqFx Γ Φ t a.vtable) (u u' : U) (r : Res Bool) :
    SliceDyn.eqFx a b u = (r, u') ↔
      if t = t' then Through (fun p : Bytes × Bytes => Φ.eq t p.1 p.2) true (es.zip es') u r u'
      else (r, u') = (.ok (es.isEmpty || es'.isEmpty), u) := by
  unfold SliceDyn.eqFx
  rw [M.bind_ok (SliceDyn.iter_refs Ra u), M.bind_ok (SliceDyn.iter_refs Rb u)]
  split
  · rename_i e; subst e; exact zipAll_through hl Ra.each Rb.each
  · rename_i e; rw [zipAll_diff e es es' u]; exact eq_comm

/-- `==` on boxed values, inline values and references: one call of the user's `==` if the types agree,
otherwise `false` without running user code. -/
theorem C77_value_eq [HasEqFx U V] {x y : Bytes} :
    (∀ (h h' : Heap) (v v' : BoxValue V), IsBox Γ h t x v → IsBox Γ h' t' y v' → LawfulEqFx Γ Φ t v.vtable →
      Value.eqFx v v' = if t = t' then Φ.eq t x y else pure false) ∧
    (∀ v v' : SmallValue V, IsSmall Γ t x v → IsSmall Γ t' y v' → LawfulEqFx Γ Φ t v.vtable →
      Value.eqFx v v' = if t = t' then Φ.eq t x y else pure false) ∧
    (∀ v v' : ValueRef V, IsRef Γ t x v → IsRef Γ t' y v' → LawfulEqFx Γ Φ t v.vtable →
      ValueRef.eqFx v v' = if t = t' then Φ.eq t x y else pure false) := by
  refine ⟨fun h h' v v' hv hv' hl => ?_, fun v v' hv hv' hl => ?_, fun v v' hv hv' hl => ?_⟩
  · have e : ByteBuf.get v.bytes = x := hv.bytes
    have e' : ByteBuf.get v'.bytes = y := hv'.bytes
    simp only [Value.eqFx, hv.type_id, hv'.type_id, e, e']
    by_cases hr : t = t'
    · subst hr; simp only [ne_eq, not_true, if_false, if_true, hl x y hv.length hv'.length]
    · simp only [ne_eq, hr, not_false_eq_true, if_true, if_false]
  · have e : ByteBuf.get v.bytes = x := hv.bytes
    have e' : ByteBuf.get v'.bytes = y := hv'.bytes
    simp only [Value.eqFx, hv.type_id, hv'.type_id, e, e']
    by_cases hr : t = t'
    · subst hr; simp only [ne_eq, not_true, if_false, if_true, hl x y hv.length hv'.length]
    · simp only [ne_eq, hr, not_false_eq_true, if_true, if_false]
  · simp only [ValueRef.eqFx, hv.type_id, hv'.type_id, hv.bytes, hv'.bytes]
    by_cases hr : t = t'
    · subst hr; simp only [ne_eq, not_true, if_false, if_true, hl x y hv.length hv'.length]
    · simp only [ne_eq, hr, not_false_eq_true, if_true, if_false]

/-! ### Hashing -/

/-- Hashing a container hashes its elements in order into the given hasher, each once, with the user's
`Hash`; a panic stops it. -/
theorem C77_vec_hash [HasHashFx U H V] {h : Heap} {a : VecDyn V} (Ra : Repr Γ h t es a.data)
    (hl : LawfulHashFx Γ Φ t a.vtable) (s s' : H × U) (r : Res Unit) :
    VecDyn.hashFx a s = (r, s') ↔ Through (Φ.hash t) () es s r s' := by
  unfold VecDyn.hashFx
  rw [M.bind_ok (VecDyn.iter_refs Ra s), forEach_hashFx hl Ra.each]
  exact forEach_through

/-- Hashing values and references is one call of the user's `Hash`. -/
theorem C77_value_hash [HasHashFx U H V] {x : Bytes} :
    (∀ (h : Heap) (v : BoxValue V), IsBox Γ h t x v → LawfulHashFx Γ Φ t v.vtable → Value.hashFx v = Φ.hash t x) ∧
    (∀ v : SmallValue V, IsSmall Γ t x v → LawfulHashFx Γ Φ t v.vtable → Value.hashFx v = Φ.hash t x) ∧
    (∀ v : ValueRef V, IsRef Γ t x v → LawfulHashFx Γ Φ t v.vtable → ValueRef.hashFx v = Φ.hash t x) := by
  refine ⟨fun h v hv hl => ?_, fun v hv hl => ?_, fun v hv hl => ?_⟩
  · have e : ByteBuf.get v.bytes = x := hv.bytes
    simp only [Value.hashFx, e, hl x hv.length]
  · have e : ByteBuf.get v.bytes = x := hv.bytes
    simp only [Value.hashFx, e, hl x hv.length]
  · simp only [ValueRef.hashFx, hv.bytes, hl x hv.length]

/-! ### Formatting -/

/-- `{:?}` and `{:#?}` of a container do to any formatter exactly what `debug_list` of std does with the
elements' own `Debug` code, which is how `Vec<T>` is formatted; with all its effects, errors and panics. -/
theorem C77_vec_debug [HasFmtFx U F V] {h : Heap} {a : VecDyn V} (Ra : Repr Γ h t es a.data)
    (hl : LawfulFmtFx Γ Φ t a.vtable) (K : Formatting F) (s : F × U) :
    VecDyn.fmtFx K a s = debugListFx K (es.map (Φ.fmt t)) s := by
  unfold VecDyn.fmtFx
  rw [M.bind_ok (VecDyn.iter_refs Ra s), map_fmtFx hl Ra.each]

/-- The same for slices and mutable slices. -/
theorem C77_slice_debug [HasFmtFx U F V] {a : SliceCopy V} (Ra : SRepr Γ t es a)
    (hl : LawfulFmtFx Γ Φ t a.vtable) (K : Formatting F) (s : F × U) :
    SliceDyn.fmtFx K a s = debugListFx K (es.map (Φ.fmt t)) s := by
  unfold SliceDyn.fmtFx
  rw [M.bind_ok (SliceDyn.iter_refs Ra s), map_fmtFx hl Ra.each]

/-- The text `{:?}` prints, whatever the formatter is nested in. -/
theorem C77_vec_debug_text [HasFmtFx U Text V] {Φ : UserFns U H Text} {h : Heap} {a : VecDyn V}
    (Ra : Repr Γ h t es a.data) (hl : LawfulFmtFx Γ Φ t a.vtable) {text : Bytes → List Char}
    (hp : ∀ e ∈ es, PrintsText (Φ.fmt t e) (text e)) (f : Text) (hf : f.pretty = false) (u : U) :
    ∃ u', VecDyn.fmtFx Text.formatting a (f, u) = (.ok .ok, (f.put (plainText (es.map text)), u')) := by
  obtain ⟨u', h'⟩ := debugList_plain (ms := es.map fun e => (text e, Φ.fmt t e))
    (by intro m hm; obtain ⟨e, he, rfl⟩ := List.mem_map.1 hm; exact hp e he) f hf u
  refine ⟨u', ?_⟩
  rw [C77_vec_debug Ra hl]
  simpa only [List.map_map, Function.comp_def] using h'

/-- The text `{:#?}` prints, for elements that print lines of text: every element on its own lines,
indented by four spaces and followed by a comma. -/
theorem C77_vec_debug_pretty [HasFmtFx U Text V] {Φ : UserFns U H Text} {h : Heap} {a : VecDyn V}
    (Ra : Repr Γ h t es a.data) (hl : LawfulFmtFx Γ Φ t a.vtable) {lines : Bytes → List (List Char)}
    (hp : ∀ e ∈ es, PrintsText (Φ.fmt t e) (joinLines (lines e)))
    (hn : ∀ e ∈ es, lines e ≠ [] ∧ ∀ l ∈ lines e, '\n' ∉ l) (f : Text) (hf : f.pretty = true) (u : U) :
    ∃ u', VecDyn.fmtFx Text.formatting a (f, u) = (.ok .ok, (f.put (prettyText (es.map lines)), u')) := by
  obtain ⟨u', h'⟩ := debugList_pretty (ms := es.map fun e => (lines e, Φ.fmt t e))
    (by intro m hm; obtain ⟨e, he, rfl⟩ := List.mem_map.1 hm; exact ⟨hp e he, hn e he⟩) f hf u
  refine ⟨u', ?_⟩
  rw [C77_vec_debug Ra hl]
  simpa only [List.map_map, Function.comp_def] using h'

/-- If the `Debug` of an element reports an error or panics, so does that of the container, and nothing is written after what that
element has written: not even the closing bracket. -/
theorem C77_vec_debug_stop [HasFmtFx U Text V] {Φ : UserFns U H Text} {h : Heap} {a : VecDyn V} {pre post : List Bytes} {e : Bytes}
    (Ra : Repr Γ h t (pre ++ e :: post) a.data) (hl : LawfulFmtFx Γ Φ t a.vtable) {text : Bytes → List Char} {r : Res FmtRes}
    (hp : ∀ x ∈ pre, PrintsText (Φ.fmt t x) (text x)) (he : StopsAfter (Φ.fmt t e) (text e) r) (f : Text) (hf : f.pretty = false) (u : U) :
    ∃ u', VecDyn.fmtFx Text.formatting a (f, u) = (r, (f.put (plainText ((pre ++ [e]).map text)).dropLast, u')) := by
  obtain ⟨u', h'⟩ := debugList_stop (ms := pre.map fun x => (text x, Φ.fmt t x)) (m := Φ.fmt t e)
    (by intro m hm; obtain ⟨x, hx, rfl⟩ := List.mem_map.1 hm; exact hp x hx) he (post.map (Φ.fmt t)) f hf u
  refine ⟨u', ?_⟩
  rw [C77_vec_debug Ra hl]
  simpa only [List.map_map, Function.comp_def, List.map_append, List.map_cons, List.map_nil] using h'

/-- Formatting values and references is one call of the user's `Debug`. -/
theorem C77_value_debug [HasFmtFx U F V] {x : Bytes} :
    (∀ (h : Heap) (v : BoxValue V), IsBox Γ h t x v → LawfulFmtFx Γ Φ t v.vtable → Value.fmtFx v = Φ.fmt t x) ∧
    (∀ v : SmallValue V, IsSmall Γ t x v → LawfulFmtFx Γ Φ t v.vtable → Value.fmtFx v = Φ.fmt t x) ∧
    (∀ v : ValueRef V, IsRef Γ t x v → LawfulFmtFx Γ Φ t v.vtable → ValueRef.fmtFx v = Φ.fmt t x) := by
  refine ⟨fun h v hv hl => ?_, fun v hv hl => ?_, fun v hv hl => ?_⟩
  · have e : ByteBuf.get v.bytes = x := hv.bytes
    simp only [Value.fmtFx, e, hl x hv.length]
  · have e : ByteBuf.get v.bytes = x := hv.bytes
    simp only [Value.fmtFx, e, hl x hv.length]
  · simp only [ValueRef.fmtFx, hv.bytes, hl x hv.length]

/-! ### Examples -/

namespace Ex

/-- User code that logs what it is called with (as `cloned` events). `==` and `hash` panic on the value `badClone`. The hasher
is a list of bytes. `Debug` prints two lines. -/
def fns : UserFns Log (List Bytes) Text where
  eq _ a b := ⟨fun u => if a = badClone then (.panic .user, u ++ [.cloned 7 a]) else (.ok (a == b), u ++ [.cloned 7 a, .cloned 7 b])⟩
  hash _ a := ⟨fun s => if a = badClone then (.panic .user, s) else (.ok (), (s.1 ++ [a], s.2))⟩
  fmt _ a := ⟨fun s => (.ok .ok, (s.1.put ['x', '\n', 'y'], s.2 ++ [.cloned 7 a]))⟩

/-- A `Debug` that fails for `badClone`, after writing a letter. -/
def failingFns : UserFns Log (List Bytes) Text := { fns with
  fmt := fun _ a => ⟨fun s => (.ok (if a = badClone then .err else .ok), (s.1.put ['x'], s.2 ++ [.cloned 7 a]))⟩ }

def cmp7 (es : List Bytes) : VecDyn (EqTableFx Log) := ⟨vec 7 es 4, EqTableFx.build env fns 7⟩
def hash7 (es : List Bytes) : VecDyn (HashTableFx Log (List Bytes)) := ⟨vec 7 es 4, HashTableFx.build env fns 7⟩
def fmt7 (es : List Bytes) : VecDyn (FmtTableFx Log Text) := ⟨vec 7 es 4, FmtTableFx.build env fns 7⟩

theorem log7_repr {es : List Bytes} (h : ∀ e ∈ es, e.length = 8) (hl : es.length ≤ 4) :
    Repr env (world 7 4).heap 7 es (vec 7 es 4) :=
  vec_repr (by decide) h hl (by decide) (by unfold Room; decide)

end Ex

open Ex

/-- The second comparison panics: two calls were made, the third pair is not compared. -/
example : VecDyn.eqFx (cmp7 [g1, badClone, g2]) (cmp7 [g1, g1, g2]) [] = (.panic .user, [.cloned 7 g1, .cloned 7 g1, .cloned 7 badClone]) :=
  (C77_vec_eq (a := cmp7 [g1, badClone, g2]) (b := cmp7 [g1, g1, g2]) (log7_repr (by decide) (by decide))
    (log7_repr (by decide) (by decide)) (C77_tables env fns 7 (fun _ => pure ())).1 _ _ _).2
    (.inr ⟨by decide, [(g1, g1)], (badClone, g1), [(g2, g2)], [.cloned 7 g1, .cloned 7 g1], rfl, ⟨_, rfl, rfl⟩, rfl⟩)

/-- A shorter container: only the common part is compared, and the answer is `true`. -/
example : VecDyn.eqFx (cmp7 [g1, g2]) (cmp7 [g1]) [] = (.ok true, [.cloned 7 g1, .cloned 7 g1]) :=
  (C77_vec_eq (a := cmp7 [g1, g2]) (b := cmp7 [g1]) (log7_repr (by decide) (by decide))
    (log7_repr (by decide) (by decide)) (C77_tables env fns 7 (fun _ => pure ())).1 _ _ _).2
    (.inl ⟨rfl, _, rfl, rfl⟩)

/-- A table with both entries, for user code that is a plain function. -/
structure Ex.BothEq where
  eq : EqFn
  eqx : EqTableFx Log
instance : HasPartialEq Ex.BothEq := ⟨Ex.BothEq.eq⟩
instance : HasEqFx Log Ex.BothEq := ⟨fun v => v.eqx.eq⟩
def Ex.pureFns : UserFns Log (List Bytes) Text := { fns with eq := fun t a b => pure (env.eq t a b) }
def Ex.both7 (es : List Bytes) : VecDyn Ex.BothEq := ⟨vec 7 es 4, eqBytes env 7, EqTableFx.build env Ex.pureFns 7⟩
example := C77_pure_eq (Φ := Ex.pureFns) (a := both7 [g1, g2]) (b := both7 [g1, g1]) (log7_repr (by decide) (by decide))
  (log7_repr (by decide) (by decide)) (C77_tables env pureFns 7 (fun _ => pure ())).1 (lawfulEq_of rfl) (fun _ _ => rfl) []

example : VecDyn.hashFx (hash7 [g1, g2, badClone]) ([], []) = (.panic .user, ([g1, g2], [])) :=
  (C77_vec_hash (a := hash7 [g1, g2, badClone]) (log7_repr (by decide) (by decide))
    (C77_tables env fns 7 (fun _ => pure ())).2.2.1 _ _ _).2
    (.inr ⟨by decide, [g1, g2], badClone, [], ([g1, g2], []), rfl, ⟨_, rfl, _, rfl, rfl⟩, rfl⟩)

example := C77_vec_debug_text (a := fmt7 [g1, g2]) (log7_repr (by decide) (by decide))
  (C77_tables env fns 7 (fun _ => pure ())).2.2.2.2.1 (text := fun _ => ['x', '\n', 'y'])
  (fun _ _ _ _ => ⟨_, rfl⟩) ⟨[], false, []⟩ rfl []

example := C77_vec_debug_pretty (a := fmt7 [g1, g2]) (log7_repr (by decide) (by decide))
  (C77_tables env fns 7 (fun _ => pure ())).2.2.2.2.1 (lines := fun _ => [['x'], ['y']])
  (fun _ _ _ _ => ⟨_, rfl⟩) (fun _ _ => by decide) ⟨[], true, []⟩ rfl []

example : ∃ u', VecDyn.fmtFx Text.formatting (⟨vec 7 [g1, badClone, g2] 4, FmtTableFx.build env failingFns 7⟩ : VecDyn (FmtTableFx Log Text))
    (⟨[], false, []⟩, []) = (.ok .err, (Text.put ⟨[], false, []⟩ "[x, x".toList, u')) :=
  C77_vec_debug_stop (h := (world 7 4).heap) (a := ⟨vec 7 [g1, badClone, g2] 4, FmtTableFx.build env failingFns 7⟩) (pre := [g1]) (e := badClone) (post := [g2])
    (log7_repr (es := [g1, badClone, g2]) (by decide) (by decide)) (C77_tables env failingFns 7 (fun _ => pure ())).2.2.2.2.1 (text := fun _ => ['x'])
    (fun x hx f u => ⟨u ++ [.cloned 7 x], by
      have : x = g1 := by simpa using hx
      subst this
      rfl⟩) ⟨.inl rfl, fun f u => ⟨_, rfl⟩⟩ ⟨[], false, []⟩ rfl []

example : prettyText [[['x'], ['y']], [['z']]] = "[\n    x\n    y,\n    z,\n]".toList := by decide
example : plainText [['1'], ['2']] = "[1, 2]".toList := by decide

example := (C77_value_eq (Γ := env) (Φ := fns) (t := 7) (t' := 7) (x := g1) (y := g2)).2.2
  (ref 7 g1 (EqTableFx.build env fns 7)) (ref 7 g2 (EqTableFx.build env fns 7)) ⟨rfl, rfl, rfl, rfl⟩ ⟨rfl, rfl, rfl, rfl⟩
  (C77_tables env fns 7 (fun _ => pure ())).1

end Dync
