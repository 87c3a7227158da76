import Verif.NestedCompareLemmas
/-! # Lemmas about the text that containers of containers print -/
namespace Dync
variable {U H F V W S β γ σ : Type} {Γ : TyEnv U} {t : TyId}

/-- Formatting code that writes `cs` to whatever formatter with the alternate flag `p` it is given, and returns `Ok`. -/
def PrintsAs (p : Bool) (m : M (Text × U) FmtRes) (cs : List Char) : Prop :=
  ∀ f u, f.pretty = p → ∃ u', m (f, u) = (.ok .ok, (f.put cs, u'))

theorem PrintsText.as {m : M (Text × U) FmtRes} {cs : List Char} (h : PrintsText m cs) (p : Bool) : PrintsAs p m cs := fun f u _ => h f u

theorem entries_plainAs {ms : List (List Char × M (Text × U) FmtRes)}
    (h : ∀ m ∈ ms, PrintsAs false m.2 m.1) (f : Text) (hf : f.pretty = false) (u : U) :
    ∃ u', debugEntriesFx Text.formatting true .ok (ms.map Prod.snd) (f, u) =
      (.ok .ok, (f.put ((ms.map fun m => [',', ' '] ++ m.1).flatten), u')) := by
  induction ms generalizing f u with
  | nil => exact ⟨u, by simp [debugEntriesFx, Text.put_nil]⟩
  | cons m ms ih =>
    obtain ⟨u1, h1⟩ := h m List.mem_cons_self (f.put [',', ' ']) u hf
    have e : debugEntryFx Text.formatting true m.2 (f, u) = (.ok .ok, (f.put ([',', ' '] ++ m.1), u1)) := by
      have hp : Text.formatting.pretty f = false := hf
      simp only [debugEntryFx, M.bind_run, M.get_run, hp, Bool.false_eq_true, if_false, if_true, andThen, onFmt_write]
      show m.2 (f.put [',', ' '], u) = _
      rw [h1, Text.put_put]
    obtain ⟨u2, h2⟩ := ih (fun x hx => h x (List.mem_cons_of_mem _ hx)) (f.put ([',', ' '] ++ m.1)) hf u1
    refine ⟨u2, ?_⟩
    simp only [List.map_cons, debugEntriesFx]
    rw [M.bind_ok e, h2, Text.put_put, List.flatten_cons]

theorem list_plainAs {ms : List (List Char × M (Text × U) FmtRes)}
    (h : ∀ m ∈ ms, PrintsAs false m.2 m.1) (f : Text) (hf : f.pretty = false) (u : U) :
    ∃ u', debugListFx Text.formatting (ms.map Prod.snd) (f, u) =
      (.ok .ok, (f.put (plainText (ms.map Prod.fst)), u')) := by
  cases ms with
  | nil =>
    refine ⟨u, ?_⟩
    unfold debugListFx
    rw [M.bind_ok (onFmt_write "[" f u)]
    simp only [List.map_nil, debugEntriesFx, andThen, M.bind_run, M.pure_run, onFmt_write, Text.put_put]
    rfl
  | cons m ms =>
    obtain ⟨u1, h1⟩ := h m List.mem_cons_self (f.put ['[']) u hf
    have e : debugEntryFx Text.formatting false m.2 (f.put ['['], u) = (.ok .ok, (f.put ('[' :: m.1), u1)) := by
      have hp : Text.formatting.pretty (f.put ['[']) = false := hf
      simp only [debugEntryFx, M.bind_run, M.get_run, hp, Bool.false_eq_true, if_false, andThen, M.pure_run]
      rw [h1, Text.put_put]; rfl
    obtain ⟨u2, h2⟩ := entries_plainAs (fun x hx => h x (List.mem_cons_of_mem _ hx)) (f.put ('[' :: m.1)) hf u1
    refine ⟨u2, ?_⟩
    unfold debugListFx
    rw [M.bind_ok (onFmt_write "[" f u)]
    unfold andThen
    have e2 : debugEntriesFx Text.formatting false .ok ((m :: ms).map Prod.snd) (f.put ['['], u) =
        (.ok .ok, ((f.put ('[' :: m.1)).put ((ms.map fun m => [',', ' '] ++ m.1).flatten), u2)) := by
      simp only [List.map_cons, debugEntriesFx]
      rw [M.bind_ok e, h2]
    have e3 : debugEntriesFx Text.formatting false .ok ((m :: ms).map Prod.snd) (f.put "[".toList, u) =
        (.ok .ok, ((f.put ('[' :: m.1)).put ((ms.map fun m => [',', ' '] ++ m.1).flatten), u2)) := e2
    rw [M.bind_ok e3]
    simp only [onFmt_write, Text.put_put]
    simp [plainText, List.map_map, Function.comp_def]

theorem entry_prettyAs {ls : List (List Char)} {m : M (Text × U) FmtRes} (h : PrintsAs true m (joinLines ls))
    (hn : ls ≠ []) (hl : ∀ l ∈ ls, '\n' ∉ l) (f : Text) (hf : f.pretty = true) (hasFields : Bool) (u : U) :
    ∃ u', debugEntryFx Text.formatting hasFields m (f, u) =
      (.ok .ok, (f.put ((if hasFields then [] else ['\n']) ++
        (joinLines (ls.map ([' ', ' ', ' ', ' '] ++ ·)) ++ [',', '\n'])), u')) := by
  have hp : Text.formatting.pretty f = true := hf
  have first : (if hasFields then pure FmtRes.ok else onFmt (U := U) (Text.formatting.write "\n")) (f, u) =
      (.ok .ok, (f.put (if hasFields then [] else ['\n']), u)) := by
    cases hasFields
    · exact onFmt_write "\n" f u
    · show (Res.ok FmtRes.ok, (f, u)) = _
      rw [if_pos rfl, Text.put_nil]
  generalize hg : f.put (if hasFields then [] else ['\n']) = g at first
  obtain ⟨u1, h1⟩ := h (Text.formatting.wrap g) u (by rw [← hg]; exact hf)
  refine ⟨u1, ?_⟩
  unfold debugEntryFx
  rw [M.bind_ok (M.get_run _)]
  simp only [hp, if_true]
  unfold andThen
  rw [M.bind_ok first]
  simp only [M.bind_run, M.modify_run, h1, onFmt_write, M.pure_run, Text.put_put]
  congr 2
  have e : (Text.formatting.wrap g).put (joinLines ls ++ ",\n".toList) = _ := Text.put_wrap g true _
  have e4 : joinLines ls ++ ",\n".toList = joinLines ls ++ [',', '\n'] := rfl
  rw [e, e4, padLevel_lines hl hn]
  show ({ g.put _ with pads := (g.put _).pads } : Text) = _
  rw [← hg, Text.put_put]

theorem entries_prettyAs {ms : List (List (List Char) × M (Text × U) FmtRes)}
    (h : ∀ m ∈ ms, PrintsAs true m.2 (joinLines m.1) ∧ m.1 ≠ [] ∧ ∀ l ∈ m.1, '\n' ∉ l) (f : Text) (hf : f.pretty = true) (u : U) :
    ∃ u', debugEntriesFx Text.formatting true .ok (ms.map Prod.snd) (f, u) =
      (.ok .ok, (f.put ((ms.map fun m => joinLines (m.1.map ([' ', ' ', ' ', ' '] ++ ·)) ++ [',', '\n']).flatten), u')) := by
  induction ms generalizing f u with
  | nil => exact ⟨u, by simp [debugEntriesFx, Text.put_nil]⟩
  | cons m ms ih =>
    have hm := h m List.mem_cons_self
    obtain ⟨u1, h1⟩ := entry_prettyAs hm.1 hm.2.1 hm.2.2 f hf true u
    obtain ⟨u2, h2⟩ := ih (fun x hx => h x (List.mem_cons_of_mem _ hx)) (f.put _) (by exact hf) u1
    refine ⟨u2, ?_⟩
    simp only [List.map_cons, debugEntriesFx]
    rw [M.bind_ok h1, h2, Text.put_put, List.flatten_cons]
    rfl

theorem list_prettyAs {ms : List (List (List Char) × M (Text × U) FmtRes)}
    (h : ∀ m ∈ ms, PrintsAs true m.2 (joinLines m.1) ∧ m.1 ≠ [] ∧ ∀ l ∈ m.1, '\n' ∉ l) (f : Text) (hf : f.pretty = true) (u : U) :
    ∃ u', debugListFx Text.formatting (ms.map Prod.snd) (f, u) =
      (.ok .ok, (f.put (prettyText (ms.map Prod.fst)), u')) := by
  cases ms with
  | nil =>
    refine ⟨u, ?_⟩
    unfold debugListFx
    rw [M.bind_ok (onFmt_write "[" f u)]
    simp only [List.map_nil, debugEntriesFx, andThen, M.bind_run, M.pure_run, onFmt_write, Text.put_put]
    rfl
  | cons m ms =>
    have hm := h m List.mem_cons_self
    obtain ⟨u1, h1⟩ := entry_prettyAs hm.1 hm.2.1 hm.2.2 (f.put "[".toList) hf false u
    obtain ⟨u2, h2⟩ := entries_prettyAs (fun x hx => h x (List.mem_cons_of_mem _ hx)) ((f.put "[".toList).put _) (by exact hf) u1
    refine ⟨u2, ?_⟩
    unfold debugListFx
    rw [M.bind_ok (onFmt_write "[" f u)]
    unfold andThen
    have e2 := M.bind_ok h1 (f := fun r => debugEntriesFx Text.formatting true r (ms.map Prod.snd))
    rw [h2] at e2
    have e3 : debugEntriesFx Text.formatting false .ok ((m :: ms).map Prod.snd) (f.put "[".toList, u) = _ := e2
    rw [M.bind_ok e3]
    simp only [onFmt_write, Text.put_put]
    simp [prettyText, List.map_map, Function.comp_def]

theorem list_plainMap {A : Type} {c : A → List Char} {m : A → M (Text × U) FmtRes} {l : List A} (h : ∀ a ∈ l, PrintsAs false (m a) (c a))
    (f : Text) (hf : f.pretty = false) (u : U) : ∃ u', debugListFx Text.formatting (l.map m) (f, u) = (.ok .ok, (f.put (plainText (l.map c)), u')) := by
  obtain ⟨u', hu⟩ := list_plainAs (ms := l.map fun a => (c a, m a))
    (by intro x hx; obtain ⟨a, ha, rfl⟩ := List.mem_map.1 hx; exact h a ha) f hf u
  rw [List.map_map, List.map_map] at hu
  exact ⟨u', hu⟩

theorem list_prettyMap {A : Type} {c : A → List (List Char)} {m : A → M (Text × U) FmtRes} {l : List A}
    (h : ∀ a ∈ l, PrintsAs true (m a) (joinLines (c a)) ∧ c a ≠ [] ∧ ∀ l ∈ c a, '\n' ∉ l) (f : Text) (hf : f.pretty = true) (u : U) :
    ∃ u', debugListFx Text.formatting (l.map m) (f, u) = (.ok .ok, (f.put (prettyText (l.map c)), u')) := by
  obtain ⟨u', hu⟩ := list_prettyAs (ms := l.map fun a => (c a, m a))
    (by intro x hx; obtain ⟨a, ha, rfl⟩ := List.mem_map.1 hx; exact h a ha) f hf u
  rw [List.map_map, List.map_map] at hu
  exact ⟨u', hu⟩

/-! ### Nested lists -/

/-- What `{:?}` prints for a nested list, if it prints `text` for the values in it. -/
def treeText (text : Bytes → List Char) : (n : Nat) → Tree n → List Char
  | 0, x => text x
  | n + 1, ts => plainText ((show List (Tree n) from ts).map (treeText text n))

/-- A comma after the last line. -/
def commaLast : List (List Char) → List (List Char)
  | [] => []
  | [l] => [l ++ [',']]
  | l :: m :: ls => l :: commaLast (m :: ls)

/-- The lines that `{:#?}` prints for a list whose entries print these lines. -/
def prettyLines : List (List (List Char)) → List (List Char)
  | [] => [['[', ']']]
  | e :: es => ['['] :: (e :: es).flatMap (fun ls => commaLast (ls.map ([' ', ' ', ' ', ' '] ++ ·))) ++ [[']']]

/-- The lines that `{:#?}` prints for a nested list, if it prints `lines` for the values in it. -/
def treeLines (lines : Bytes → List (List Char)) : (n : Nat) → Tree n → List (List Char)
  | 0, x => lines x
  | n + 1, ts => prettyLines ((show List (Tree n) from ts).map (treeLines lines n))

theorem joinLines_cons {l : List Char} {ls : List (List Char)} (h : ls ≠ []) : joinLines (l :: ls) = l ++ '\n' :: joinLines ls := by
  cases ls with
  | nil => exact absurd rfl h
  | cons => rfl

theorem commaLast_ne {ls : List (List Char)} (h : ls ≠ []) : commaLast ls ≠ [] := by
  match ls with
  | [] => exact absurd rfl h
  | [_] => intro h; cases h
  | _ :: _ :: _ => intro h; cases h

theorem joinLines_commaLast {rest : List (List Char)} (hr : rest ≠ []) : ∀ {ls : List (List Char)}, ls ≠ [] →
    joinLines (commaLast ls ++ rest) = joinLines ls ++ [',', '\n'] ++ joinLines rest
  | [], h => absurd rfl h
  | [l], _ => by
    show joinLines ((l ++ [',']) :: rest) = l ++ [',', '\n'] ++ joinLines rest
    rw [joinLines_cons hr]
    simp
  | l :: m :: ls, _ => by
    show joinLines (l :: (commaLast (m :: ls) ++ rest)) = _
    rw [joinLines_cons (by intro h; exact hr (List.append_eq_nil_iff.1 h).2), joinLines_commaLast hr (by intro h; cases h)]
    rw [joinLines_cons (l := l) (ls := m :: ls) (by intro h; cases h)]
    simp

theorem joinLines_entries : ∀ {es : List (List (List Char))}, (∀ e ∈ es, e ≠ []) →
    joinLines (es.flatMap (fun ls => commaLast (ls.map ([' ', ' ', ' ', ' '] ++ ·))) ++ [[']']]) =
      (es.map fun ls => joinLines (ls.map ([' ', ' ', ' ', ' '] ++ ·)) ++ [',', '\n']).flatten ++ [']']
  | [], _ => rfl
  | e :: es, h => by
    rw [List.flatMap_cons, List.append_assoc, joinLines_commaLast (by intro h; cases (List.append_eq_nil_iff.1 h).2)
      (by intro h'; exact h e List.mem_cons_self (List.map_eq_nil_iff.1 h')), joinLines_entries fun x hx => h x (List.mem_cons_of_mem _ hx)]
    simp

theorem joinLines_pretty {es : List (List (List Char))} (h : ∀ e ∈ es, e ≠ []) : joinLines (prettyLines es) = prettyText es := by
  cases es with
  | nil => rfl
  | cons e es =>
    show joinLines (['['] :: ((e :: es).flatMap (fun ls => commaLast (ls.map ([' ', ' ', ' ', ' '] ++ ·))) ++ [[']']])) = _
    rw [joinLines_cons (by intro h; cases (List.append_eq_nil_iff.1 h).2), joinLines_entries h]
    simp [prettyText]

theorem commaLast_line : ∀ {ls : List (List Char)}, (∀ l ∈ ls, '\n' ∉ l) → ∀ l ∈ commaLast ls, '\n' ∉ l
  | [], _, _, hl => by cases hl
  | [a], h, l, hl => by
    rw [List.mem_singleton.1 hl, List.mem_append]
    rintro (h' | h')
    · exact h a List.mem_cons_self h'
    · exact absurd h' (by decide)
  | a :: b :: ls, h, l, hl => by
    rcases List.mem_cons.1 hl with rfl | hl
    · exact h _ List.mem_cons_self
    · exact commaLast_line (fun x hx => h x (List.mem_cons_of_mem _ hx)) l hl

theorem prettyLines_line {es : List (List (List Char))} (h : ∀ e ∈ es, ∀ l ∈ e, '\n' ∉ l) : ∀ l ∈ prettyLines es, '\n' ∉ l := by
  cases es with
  | nil => intro l hl; rw [List.mem_singleton.1 hl]; decide
  | cons e es =>
    intro l hl
    rcases List.mem_append.1 hl with hl | hl
    · rcases List.mem_cons.1 hl with rfl | hl
      · decide
      · obtain ⟨x, hx, hl⟩ := List.mem_flatMap.1 hl
        refine commaLast_line (fun m hm => ?_) l hl
        obtain ⟨m', hm', rfl⟩ := List.mem_map.1 hm
        rw [List.mem_append]
        rintro (h' | h')
        · exact absurd h' (by decide)
        · exact h x hx m' hm' h'
    · rw [List.mem_singleton.1 hl]; decide

theorem prettyLines_ne (es : List (List (List Char))) : prettyLines es ≠ [] := by
  cases es with
  | nil => intro h; cases h
  | cons => intro h; cases h

section
variable {Φ : UserFns U H Text}

theorem fmtTree_plain {text : Bytes → List Char} : ∀ (n : Nat) (T : Tree n), (∀ e ∈ leaves n T, PrintsText (Φ.fmt t e) (text e)) →
    PrintsAs false (fmtTree Text.formatting Φ t n T) (treeText text n T)
  | 0, x, h => (h x (List.mem_singleton.2 rfl)).as false
  | n + 1, T, h => by
    intro f u hf
    exact list_plainMap (A := Tree n) (l := T) (fun x hx => fmtTree_plain n x fun e he => h e (List.mem_flatMap.2 ⟨x, hx, he⟩)) f hf u

theorem fmtTree_pretty {lines : Bytes → List (List Char)} : ∀ (n : Nat) (T : Tree n),
    (∀ e ∈ leaves n T, PrintsText (Φ.fmt t e) (joinLines (lines e)) ∧ lines e ≠ [] ∧ ∀ l ∈ lines e, '\n' ∉ l) →
    PrintsAs true (fmtTree Text.formatting Φ t n T) (joinLines (treeLines lines n T)) ∧ treeLines lines n T ≠ [] ∧
      ∀ l ∈ treeLines lines n T, '\n' ∉ l
  | 0, x, h => ⟨(h x (List.mem_singleton.2 rfl)).1.as true, (h x (List.mem_singleton.2 rfl)).2⟩
  | n + 1, T, h => by
    have ih : ∀ x ∈ (show List (Tree n) from T), _ := fun x hx => fmtTree_pretty n x fun e he => h e (List.mem_flatMap.2 ⟨x, hx, he⟩)
    have hne : ∀ e ∈ List.map (α := Tree n) (treeLines lines n) T, e ≠ [] := by
      intro e he
      obtain ⟨x, hx, rfl⟩ := List.mem_map.1 he
      exact (ih x hx).2.1
    refine ⟨fun f u hf => ?_, prettyLines_ne _, prettyLines_line fun e he => ?_⟩
    · obtain ⟨u', hu⟩ := list_prettyMap (A := Tree n) (l := T) ih f hf u
      refine ⟨u', ?_⟩
      show _ = (_, (f.put (joinLines (prettyLines _)), u'))
      rw [joinLines_pretty hne]
      exact hu
    · obtain ⟨x, hx, rfl⟩ := List.mem_map.1 he
      exact (ih x hx).2.2

end

end Dync
