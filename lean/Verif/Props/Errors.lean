import Verif.ErrorText
import Verif.Props.Value
/-!
# C97 A refused assignment says which types did not match
-/
namespace Dync
variable {U V : Type} {Γ : TyEnv U} {t t' : TyId} {x x' : Bytes} {w : World U}

/-- Forgetting the error gives the function that all other theorems are about. -/
theorem C97_same_call [HasClone U V] (other : ValueRef V) (s : ValueRef V × World U) :
    ValueRef.cloneFromOther other s =
      ((ValueRef.cloneFromOtherE other s).1.map (fun r => match r with | .ok () => some () | .error _ => none), (ValueRef.cloneFromOtherE other s).2) := by
  rcases s with ⟨a, w⟩
  unfold ValueRef.cloneFromOther ValueRef.cloneFromOtherE
  rw [M.bind_ok (getSelf_run _), M.bind_ok (getSelf_run _)]
  dsimp only
  split
  · rw [M.bind_run, M.bind_run]
    generalize M.run _ (a, w) = out
    rcases out with ⟨r, s'⟩
    cases r <;> rfl
  · rfl

/-- `clone_from_other` on a reference to a value of type `t`, with a value of type `t'`: it fails exactly if the types
differ, then nothing happens, and the error has the type of the place as the expected one and that of the other value as
the actual one. -/
theorem C97_clone_from_other [HasClone U V] {a b : ValueRef V} (ha : IsRef Γ t x a) (hb : IsRef Γ t' x' b) (hl : LawfulClone Γ t a.vtable) :
    (t = t' → ∀ r d u', Γ.cloneFrom t x' (x, w.user) = (r, (d, u')) →
      ValueRef.cloneFromOtherE b (a, w) = (r.map .ok, ({ a with bytes := d }, { w with user := u' }))) ∧
    (t ≠ t' → ValueRef.cloneFromOtherE b (a, w) = (.ok (.error (.mismatchedTypes t t')), (a, w))) := by
  constructor
  · rintro rfl r d u' hc
    have := hl.from_eq (b := x') (d := x) (u := w.user) hb.length ha.length
    rw [hc] at this
    simp only [ValueRef.cloneFromOtherE, M.bind_run, show getSelf (a, w) = (.ok a, (a, w)) from rfl,
      ha.type_id, hb.type_id, if_true, M.zoom_run, ha.bytes, hb.bytes, this]
    cases r <;> rfl
  · intro h
    simp [ValueRef.cloneFromOtherE, ha.type_id, hb.type_id, h]

/-- No call reports that a value is too large. -/
theorem C97_never_too_large [HasClone U V] (other : ValueRef V) (s : ValueRef V × World U) :
    (ValueRef.cloneFromOtherE other s).1 ≠ .ok (.error .valueTooLarge) := by
  rcases s with ⟨a, w⟩
  unfold ValueRef.cloneFromOtherE
  rw [M.bind_ok (getSelf_run _)]
  dsimp only
  split
  · rw [M.bind_run]
    generalize M.run _ (a, w) = out
    rcases out with ⟨r, s'⟩
    cases r <;> intro h <;> cases h
  · intro h; cases h

/-- No closing bracket is followed by a space. -/
def NoGap (a : List Char) : Prop := ∀ u v, a ≠ u ++ ')' :: ' ' :: v

/-- Such a text can be read off in front of a bracket and a space. -/
theorem word_end {a b : List Char} {u v : List Char} (ha : NoGap a) (hb : NoGap b) (h : a ++ ')' :: ' ' :: u = b ++ ')' :: ' ' :: v) :
    a = b ∧ u = v := by
  induction a generalizing b with
  | nil =>
    cases b with
    | nil => simpa using h
    | cons c b =>
      simp only [List.nil_append, List.cons_append, List.cons.injEq] at h
      obtain ⟨rfl, h⟩ := h
      cases b with
      | nil => simp at h
      | cons c b =>
        simp only [List.cons_append, List.cons.injEq] at h
        exact absurd (by rw [← h.1]; rfl) (hb [] b)
  | cons c a ih =>
    cases b with
    | nil =>
      simp only [List.nil_append, List.cons_append, List.cons.injEq] at h
      obtain ⟨rfl, h⟩ := h
      cases a with
      | nil => simp at h
      | cons c a =>
        simp only [List.cons_append, List.cons.injEq] at h
        exact absurd (by rw [h.1]; rfl) (ha [] a)
    | cons d b =>
      simp only [List.cons_append, List.cons.injEq] at h
      obtain ⟨rfl, h⟩ := h
      obtain ⟨rfl, h'⟩ := ih (fun u v h => ha (c :: u) v (by rw [h]; rfl)) (fun u v h => hb (c :: u) v (by rw [h]; rfl)) h
      exact ⟨rfl, h'⟩

theorem tooLarge_head : Error.tooLargeText.head? = some 'V' := by decide +kernel
theorem before_head : Error.before = 'T' :: Error.before.tail := by decide +kernel
theorem between_head : Error.between = ')' :: ' ' :: (Error.between.drop 2) := by decide +kernel

theorem text_head (dbg : TyId → List Char) (a b : TyId) : ((Error.mismatchedTypes a b).text dbg).head? = some 'T' := by
  unfold Error.text
  rw [before_head]
  rfl

/-- The text of an error tells which error it is, and for a mismatch which type was expected and which one was found, if
the text of a `TypeId` tells which one it is and has no bracket before a space. (It is `TypeId(0x…)`, or with older
compilers `TypeId { t: … }`.) -/
theorem C97_text {dbg : TyId → List Char} (hd : ∀ t t', dbg t = dbg t' → t = t') (hs : ∀ t, NoGap (dbg t)) {e e' : Error}
    (h : e.text dbg = e'.text dbg) : e = e' := by
  cases e with
  | valueTooLarge =>
    cases e' with
    | valueTooLarge => rfl
    | mismatchedTypes a b =>
      have h := congrArg List.head? h
      rw [text_head, show (Error.valueTooLarge.text dbg).head? = some 'V' from tooLarge_head] at h
      exact absurd h (by decide)
  | mismatchedTypes a b =>
    cases e' with
    | valueTooLarge =>
      have h := congrArg List.head? h
      rw [text_head, show (Error.valueTooLarge.text dbg).head? = some 'V' from tooLarge_head] at h
      exact absurd h (by decide)
    | mismatchedTypes a' b' =>
      unfold Error.text at h
      have h := List.append_cancel_left h
      rw [between_head] at h
      obtain ⟨h1, h2⟩ := word_end (hs b) (hs b') h
      have h2 := List.append_cancel_right (List.append_cancel_left h2)
      rw [hd _ _ h1, hd _ _ h2]

/-- The wording of the message: the value of the actual type was to be assigned to a place of the expected type. -/
theorem C97_wording (dbg : TyId → String) (expected actual : TyId) :
    String.ofList ((Error.mismatchedTypes expected actual).text fun t => (dbg t).toList) =
      "Trying to assign a value of one type (with TypeId " ++ dbg actual ++ ") to a value of another (with TypeId " ++ dbg expected ++ ").\n" := by
  unfold Error.text Error.before Error.between Error.after
  generalize "Trying to assign a value of one type (with TypeId " = a
  generalize ") to a value of another (with TypeId " = b
  generalize ").\n" = c
  rw [← String.toList_inj]
  simp only [String.toList_ofList, String.toList_append, List.append_assoc]

/-- The text of a mismatch is one line. -/
theorem C97_lines {dbg : TyId → List Char} (hs : ∀ t, '\n' ∉ dbg t) (a b : TyId) :
    ((Error.mismatchedTypes a b).text dbg).count '\n' = 1 ∧ ((Error.mismatchedTypes a b).text dbg).getLast? = some '\n' := by
  unfold Error.text
  have h1 : Error.before.count '\n' = 0 := by decide +kernel
  have h2 : Error.between.count '\n' = 0 := by decide +kernel
  have h3 : Error.after.count '\n' = 1 := by decide +kernel
  have h4 : Error.after.getLast? = some '\n' := by decide +kernel
  have h5 : Error.after ≠ [] := by decide +kernel
  constructor
  · simp only [List.count_append, List.count_eq_zero.2 (hs a), List.count_eq_zero.2 (hs b), h1, h2, h3]
  · simp [List.getLast?_append, h4]

namespace Ex

/-- The types 7 and 10, with the number of the type as its text. -/
example : (ValueRef.cloneFromOtherE (⟨s2, 10, align 10, cloneVT 10⟩ : ValueRef _) (⟨g1, 7, align 7, cloneVT 7⟩, boxWorld 2)).1 =
    .ok (.error (.mismatchedTypes 7 10)) := by
  exact congrArg Prod.fst ((C97_clone_from_other (w := boxWorld 2) (ref_isRef (x := g1) (t := 7) (vt := cloneVT 7) rfl)
    (ref_isRef (x := s2) (t := 10) (vt := cloneVT 10) rfl) (cloneVT_clone 7)).2 (by decide))

def dbgName (t : TyId) : List Char := List.replicate t 'I'

example : String.ofList ((Error.mismatchedTypes 1 2).text dbgName) =
    "Trying to assign a value of one type (with TypeId II) to a value of another (with TypeId I).\n" := by decide +kernel

example : (Error.mismatchedTypes 1 2).text dbgName ≠ (Error.mismatchedTypes 2 1).text dbgName := fun h =>
  absurd (C97_text (fun t t' h => by simpa [dbgName] using congrArg List.length h) (fun t u v h => by
    have : ' ' ∈ dbgName t := by rw [h]; simp
    exact absurd (List.eq_of_mem_replicate this) (by decide)) h) (by decide)

example := C97_lines (dbg := dbgName) (fun t h => absurd (List.eq_of_mem_replicate h) (by decide)) 1 2

end Ex
end Dync
