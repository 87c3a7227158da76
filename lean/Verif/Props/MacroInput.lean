import Verif.Props.Convert
import Mathlib.Tactic.Tauto
/-!
# C58: nothing but the documented invocations expands

The converse of `C58_from_dyn_expands` and `C58_into_dyn_expands`: an invocation written by a user that
expands is one of the forms in the documentation, token by token.
-/
namespace Dync
open MacroRules

/-- Tokens written by a user: no fragments bound by another macro. -/
def Written (ts : List Tok) : Prop := ∀ k ss, Tok.frag k ss ∉ ts

theorem Written.tail {x : Tok} {ts : List Tok} (h : Written (x :: ts)) : Written ts :=
  fun k ss hm => h k ss (List.mem_cons_of_mem _ hm)

theorem Written.append_right {as ts : List Tok} (h : Written (as ++ ts)) : Written ts :=
  fun k ss hm => h k ss (List.mem_append_right _ hm)

theorem takeSegments_inv (ts : List Tok) :
    ts = (takeSegments ts).1.flatMap (fun x => [.punct "::", .id x]) ++ (takeSegments ts).2 := by
  fun_induction takeSegments ts with
  | case1 s rest segs rest' heq ih => simp [heq] at ih; simp [← ih]
  | case2 ts h => simp

theorem takeFrag_path_inv {ts rest : List Tok} {f : Tok} (hw : Written ts) (h : takeFrag .path ts = some (f, rest)) :
    ∃ s segs, ts = pathToks s segs ++ rest := by
  cases ts with
  | nil => simp [takeFrag] at h
  | cons x ts =>
    cases x with
    | id s =>
      simp only [takeFrag, Option.some.injEq, Prod.mk.injEq] at h
      obtain ⟨-, h2⟩ := h
      refine ⟨s, (takeSegments ts).1, ?_⟩
      rw [← h2, pathToks, List.cons_append, ← takeSegments_inv ts]
    | frag k ss => exact absurd (List.mem_cons_self ..) (hw k ss)
    | kw s => simp [takeFrag] at h
    | punct s => simp [takeFrag] at h

theorem takeFrag_ident_inv {ts rest : List Tok} {f : Tok} (hw : Written ts) (h : takeFrag .ident ts = some (f, rest)) :
    ∃ s, ts = pathToks s [] ++ rest := by
  cases ts with
  | nil => simp [takeFrag] at h
  | cons x ts =>
    cases x with
    | id s => simp [takeFrag] at h; exact ⟨s, by simp [pathToks, h.2]⟩
    | frag k ss => exact absurd (List.mem_cons_self ..) (hw k ss)
    | kw s => simp [takeFrag] at h
    | punct s => simp [takeFrag] at h

theorem matchPat_tok_inv {t : Tok} {ps : List Pat} {ts : List Tok} {b : Binds}
    (h : matchPat (.tok t :: ps) ts = some b) : ∃ us, ts = t :: us ∧ matchPat ps us = some b := by
  cases ts with
  | nil => simp [matchPat] at h
  | cons u us =>
    simp only [matchPat] at h
    split at h
    · rename_i he; exact ⟨us, by rw [he], h⟩
    · cases h

theorem matchPat_var_inv {x : String} {k : Frag} {ps : List Pat} {ts : List Tok} {b : Binds}
    (h : matchPat (.var x k :: ps) ts = some b) :
    ∃ f rest b', takeFrag k ts = some (f, rest) ∧ matchPat ps rest = some b' := by
  unfold matchPat at h
  split at h
  · rename_i f rest he
    cases hm : matchPat ps rest with
    | none => rw [hm] at h; cases h
    | some b' => exact ⟨f, rest, b', he, hm⟩
  · cases h

theorem matchPat_nil_inv {ts : List Tok} {b : Binds} (h : matchPat [] ts = some b) : ts = [] := by
  cases ts with
  | nil => rfl
  | cons u us => simp [matchPat] at h

theorem fromArm_inv {c kind : String} {ts : List Tok} {b : Binds} (hw : Written ts)
    (h : matchPat (fromArm c kind).pat ts = some b) : ∃ T P, ts = fromCall c T P := by
  obtain ⟨u1, rfl, h1⟩ := matchPat_tok_inv h
  obtain ⟨u2, rfl, h2⟩ := matchPat_tok_inv h1
  obtain ⟨u3, rfl, h3⟩ := matchPat_tok_inv h2
  obtain ⟨f, u4, b1, hf, h4⟩ := matchPat_var_inv h3
  have hw3 := hw.tail.tail.tail
  obtain ⟨s, segs, rfl⟩ := takeFrag_path_inv hw3 hf
  obtain ⟨u5, rfl, h5⟩ := matchPat_tok_inv h4
  obtain ⟨g, u6, b2, hg, h6⟩ := matchPat_var_inv h5
  obtain ⟨s', segs', rfl⟩ := takeFrag_path_inv hw3.append_right.tail hg
  obtain ⟨u7, rfl, h7⟩ := matchPat_tok_inv h6
  cases matchPat_nil_inv h7
  exact ⟨(s, segs), (s', segs'), by simp [fromCall]⟩

theorem intoArm_inv {c kind : String} {k : Frag} {ts : List Tok} {b : Binds} (hw : Written ts)
    (h : matchPat (intoArm c k kind).pat ts = some b) : ∃ T, ts = intoCall c T := by
  obtain ⟨u1, rfl, h1⟩ := matchPat_tok_inv h
  obtain ⟨u2, rfl, h2⟩ := matchPat_tok_inv h1
  obtain ⟨u3, rfl, h3⟩ := matchPat_tok_inv h2
  obtain ⟨f, u4, b1, hf, h4⟩ := matchPat_var_inv h3
  have hw3 := hw.tail.tail.tail
  have : ∃ s segs, u3 = pathToks s segs ++ u4 := by
    cases k with
    | path => exact takeFrag_path_inv hw3 hf
    | ident => obtain ⟨s, hs⟩ := takeFrag_ident_inv hw3 hf; exact ⟨s, [], hs⟩
  obtain ⟨s, segs, rfl⟩ := this
  obtain ⟨u5, rfl, h5⟩ := matchPat_tok_inv h4
  cases matchPat_nil_inv h5
  exact ⟨(s, segs), by simp [intoCall]⟩

theorem firstArm_inv {arms : List Arm} {ts : List Tok} {r : Body × Binds} (h : firstArm arms ts = some r) :
    ∃ a ∈ arms, matchPat a.pat ts = some r.2 := by
  induction arms with
  | nil => simp [firstArm] at h
  | cons a as ih =>
    unfold firstArm at h
    split at h
    · rename_i b hb; cases h; exact ⟨a, List.mem_cons_self .., hb⟩
    · obtain ⟨a', ha, hb⟩ := ih h; exact ⟨a', List.mem_cons_of_mem _ ha, hb⟩

theorem expand_first {arms : List Arm} {n : Nat} {ts : List Tok} {out : Expanded} (h : expand arms n ts = some out) :
    ∃ r, firstArm arms ts = some r := by
  cases n with
  | zero => simp [expand] at h
  | succ n =>
    cases hf : firstArm arms ts with
    | none => simp [expand, hf] at h
    | some r => exact ⟨r, rfl⟩

theorem at_inv {ps : List Pat} {ts : List Tok} {b : Binds} (hat : ts.head? ≠ some (.punct "@"))
    (h : matchPat (at' :: ps) ts = some b) : False := by
  obtain ⟨us, rfl, -⟩ := matchPat_tok_inv h
  exact hat rfl

/-- An invocation of `from_dyn!` that expands is `from_dyn![C<dyn T as P>]` with `C` one of the two owned
containers; nothing may be missing, nothing may be added, in particular not after the closing bracket.
(Inputs starting with `@` are for the recursive calls of the macro.) -/
theorem C58_from_dyn_only (ts : List Tok) (hw : Written ts) (hat : ts.head? ≠ some (.punct "@")) (n : Nat) :
    (∃ out, expand fromDynArms (n + 2) ts = some out) ↔
      ∃ c T P, ts = fromCall c T P ∧ (c = "VecDyn" ∨ c = "VecCopy") := by
  constructor
  · rintro ⟨out, h⟩
    obtain ⟨r, hr⟩ := expand_first h
    obtain ⟨a, ha, hm⟩ := firstArm_inv hr
    have : ∃ c T P, ts = fromCall c T P := by
      simp only [fromDynArms, List.mem_cons, List.not_mem_nil, or_false] at ha
      rcases ha with rfl | rfl | rfl | rfl | rfl | rfl | rfl | rfl
      · exact ⟨_, fromArm_inv hw hm⟩
      · exact ⟨_, fromArm_inv hw hm⟩
      · exact ⟨_, fromArm_inv hw hm⟩
      · exact ⟨_, fromArm_inv hw hm⟩
      · exact ⟨_, fromArm_inv hw hm⟩
      · exact ⟨_, fromArm_inv hw hm⟩
      · exact (at_inv hat hm).elim
      · exact (at_inv hat hm).elim
    obtain ⟨c, T, P, rfl⟩ := this
    rw [C58_from_dyn_expands] at h
    refine ⟨c, T, P, rfl, ?_⟩
    split at h
    · assumption
    · cases h
  · rintro ⟨c, T, P, rfl, hc⟩
    exact ⟨_, by rw [C58_from_dyn_expands, if_pos hc]⟩

/-- An invocation of `into_dyn!` that expands is `into_dyn![Slice<dyn T>]` with any path `T`, or
`into_dyn![C<dyn T>]` with one of the other five containers and a single identifier `T`. -/
theorem C58_into_dyn_only (ts : List Tok) (hw : Written ts) (hat : ts.head? ≠ some (.punct "@")) (n : Nat) :
    (∃ out, expand intoDynArms (n + 2) ts = some out) ↔
      ∃ c T, ts = intoCall c T ∧
        (c = "Slice" ∨ (c ∈ ["SliceMut", "SliceCopy", "SliceCopyMut", "VecDyn", "VecCopy"] ∧ T.2 = [])) := by
  constructor
  · rintro ⟨out, h⟩
    obtain ⟨r, hr⟩ := expand_first h
    obtain ⟨a, ha, hm⟩ := firstArm_inv hr
    have : ∃ c T, ts = intoCall c T := by
      simp only [intoDynArms, List.mem_cons, List.not_mem_nil, or_false] at ha
      rcases ha with rfl | rfl | rfl | rfl | rfl | rfl | rfl | rfl
      · exact ⟨_, intoArm_inv hw hm⟩
      · exact ⟨_, intoArm_inv hw hm⟩
      · exact ⟨_, intoArm_inv hw hm⟩
      · exact ⟨_, intoArm_inv hw hm⟩
      · exact ⟨_, intoArm_inv hw hm⟩
      · exact ⟨_, intoArm_inv hw hm⟩
      · exact (at_inv hat hm).elim
      · exact (at_inv hat hm).elim
    obtain ⟨c, T, rfl⟩ := this
    rw [C58_into_dyn_expands] at h
    refine ⟨c, T, rfl, ?_⟩
    split at h
    · exact .inl ‹_›
    · rename_i hs
      split at h
      · cases h
      · rename_i hT
        refine .inr ⟨?_, Decidable.not_not.1 hT⟩
        split at h
        · rename_i hc; simp only [List.mem_cons, List.not_mem_nil, or_false] at hc ⊢; tauto
        · split at h
          · rename_i hc; simp only [List.mem_cons, List.not_mem_nil, or_false] at hc ⊢; tauto
          · cases h
  · rintro ⟨c, T, rfl, hc⟩
    rw [C58_into_dyn_expands]
    rcases hc with rfl | ⟨hc, hT⟩
    · exact ⟨_, if_pos rfl⟩
    · by_cases h1 : c = "Slice"
      · exact ⟨_, if_pos h1⟩
      · rw [if_neg h1, if_neg (Decidable.not_not.2 hT)]
        by_cases h2 : c ∈ ["SliceMut", "SliceCopy", "SliceCopyMut"]
        · exact ⟨_, if_pos h2⟩
        · rw [if_neg h2]
          refine ⟨_, if_pos ?_⟩
          simp only [List.mem_cons, List.not_mem_nil, or_false] at hc h2 ⊢; tauto

example := C58_from_dyn_only (fromCall "VecDyn" ("m", ["T"]) ("P", [])) (by intro k ss; simp [fromCall, pathToks])
  (by simp [fromCall]) 5
example := C58_into_dyn_only (intoCall "Slice" ("m", ["T"])) (by intro k ss; simp [intoCall, pathToks])
  (by simp [intoCall]) 5
/-- A forgotten or an additional token is an error. -/
example : ¬ ∃ out, expand fromDynArms 128 (fromCall "VecDyn" ("T", []) ("P", []) ++ [.punct ";"]) = some out := by
  rw [C58_from_dyn_only _ (by intro k ss; simp [fromCall, pathToks]) (by simp [fromCall])]
  rintro ⟨c, T, P, h, -⟩
  have hl : (fromCall "VecDyn" ("T", []) ("P", []) ++ [Tok.punct ";"]).getLast? = some (Tok.punct ";") := by simp
  rw [h, fromCall, List.getLast?_append] at hl
  simp at hl

/-! ### C62 copies of table references -/

/-- A copy of a table reference is equal to the original whenever a clone of the table is equal to the
table: it borrows or owns as the original does. -/
theorem C62_clone_eq {V : Type} (beq : V → V → Bool) (cl : V → V) (r : TableRef V) (hr : beq r.asRef r.asRef = true)
    (hc : beq r.asRef (cl r.asRef) = true) : r.eq beq (r.clone cl) = true := by
  cases r
  · exact hr
  · exact hc

example := C62_clone_eq (fun a b : Nat => a == b) id (.ofBox 3) rfl rfl

end Dync
