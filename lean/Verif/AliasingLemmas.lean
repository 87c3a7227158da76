import Verif.Aliasing
/-!
# Lemmas: the stack of one byte
-/
namespace Dync
namespace Borrows

/-- The stack of a byte: `fl` are the references below those held at present, `S` tells which shared references are held, and `c` whether
the byte is inside a cell. -/
def Shape (c : Bool) (S : Nat → Prop) (fl s : Borrows) : Prop :=
  ∃ top blk : Borrows, s = top ++ (blk ++ fl) ∧ (∀ it ∈ blk, it.perm = .sharedRW) ∧
    ∀ t, S t → if c = true then (⟨t, .sharedRW⟩ : Borrow) ∈ blk else (⟨t, .sharedRO⟩ : Borrow) ∈ top

theorem Shape.mono {c : Bool} {S S' : Nat → Prop} {fl s : Borrows} (h : Shape c S fl s) (hS : ∀ t, S' t → S t) : Shape c S' fl s := by
  obtain ⟨top, blk, e, hb, hs⟩ := h
  exact ⟨top, blk, e, hb, fun t ht => hs t (hS t ht)⟩

/-! ### Reading -/

theorem read_tail {t : Nat} {s : Borrows} (h : read t s = some s) (top : Borrows) :
    ∃ top', read t (top ++ s) = some (top' ++ s) ∧ top'.Sublist top ∧ (∀ it ∈ top, it.perm ≠ .unique → it ∈ top') := by
  induction top with
  | nil => exact ⟨[], h, List.Sublist.refl _, by simp⟩
  | cons i top ih =>
    by_cases hi : i.tag = t
    · exact ⟨i :: top, by simp [read, hi], List.Sublist.refl _, fun it h _ => h⟩
    · obtain ⟨top', e, hs, hk⟩ := ih
      by_cases hp : i.perm = .unique
      · refine ⟨top', by simp [read, hi, e, hp], hs.cons _, ?_⟩
        intro it hit hu
        rcases List.mem_cons.1 hit with rfl | hit
        · exact absurd hp hu
        · exact hk it hit hu
      · refine ⟨i :: top', by simp [read, hi, e, hp], hs.cons_cons _, ?_⟩
        intro it hit hu
        rcases List.mem_cons.1 hit with rfl | hit
        · exact List.mem_cons_self
        · exact List.mem_cons_of_mem _ (hk it hit hu)

theorem read_block {t : Nat} {fl : Borrows} {blk : Borrows} (hb : ∀ it ∈ blk, it.perm = .sharedRW)
    (h : (∃ it ∈ blk, it.tag = t) ∨ read t fl = some fl) : read t (blk ++ fl) = some (blk ++ fl) := by
  induction blk with
  | nil => simpa using h
  | cons i blk ih =>
    by_cases hi : i.tag = t
    · simp [read, hi]
    · have hp := hb i List.mem_cons_self
      have := ih (fun it h => hb it (List.mem_cons_of_mem _ h)) (by
        rcases h with ⟨it, hit, e⟩ | h
        · rcases List.mem_cons.1 hit with rfl | hit
          · exact absurd e hi
          · exact .inl ⟨it, hit, e⟩
        · exact .inr h)
      simp [read, hi, this, hp]

theorem read_head {t : Nat} {p : Perm} {r : Borrows} : read t (⟨t, p⟩ :: r) = some (⟨t, p⟩ :: r) := by simp [read]

/-- An item in the upper part is found there. -/
theorem read_top {t : Nat} {s top : Borrows} (h : ∃ it ∈ top, it.tag = t) :
    ∃ top', read t (top ++ s) = some (top' ++ s) ∧ top'.Sublist top ∧ (∀ it ∈ top, it.perm ≠ .unique → it ∈ top') := by
  induction top with
  | nil => simp at h
  | cons i top ih =>
    by_cases hi : i.tag = t
    · exact ⟨i :: top, by simp [read, hi], List.Sublist.refl _, fun it h _ => h⟩
    · obtain ⟨top', e, hs, hk⟩ := ih (by
        obtain ⟨it, hit, e⟩ := h
        rcases List.mem_cons.1 hit with rfl | hit
        · exact absurd e hi
        · exact ⟨it, hit, e⟩)
      by_cases hp : i.perm = .unique
      · refine ⟨top', by simp [read, hi, e, hp], hs.cons _, ?_⟩
        intro it hit hu
        rcases List.mem_cons.1 hit with rfl | hit
        · exact absurd hp hu
        · exact hk it hit hu
      · refine ⟨i :: top', by simp [read, hi, e, hp], hs.cons_cons _, ?_⟩
        intro it hit hu
        rcases List.mem_cons.1 hit with rfl | hit
        · exact List.mem_cons_self
        · exact List.mem_cons_of_mem _ (hk it hit hu)

/-- A held reference may be read through, and this ends no held reference. -/
theorem Shape.read {c : Bool} {S : Nat → Prop} {fl s : Borrows} {t : Nat} (h : Shape c S fl s)
    (ht : S t ∨ ∃ p r, fl = ⟨t, p⟩ :: r) : ∃ s', Borrows.read t s = some s' ∧ Shape c S fl s' ∧ s'.Sublist s := by
  obtain ⟨top, blk, rfl, hb, hs⟩ := h
  have key : ∃ top', Borrows.read t (top ++ (blk ++ fl)) = some (top' ++ (blk ++ fl)) ∧ top'.Sublist top ∧
      (∀ it ∈ top, it.perm ≠ .unique → it ∈ top') := by
    have low : Borrows.read t (blk ++ fl) = some (blk ++ fl) → ∃ top', Borrows.read t (top ++ (blk ++ fl)) = some (top' ++ (blk ++ fl)) ∧
        top'.Sublist top ∧ (∀ it ∈ top, it.perm ≠ .unique → it ∈ top') := by
      intro e
      exact read_tail e top
    rcases ht with ht | ⟨p, r, rfl⟩
    · have := hs t ht
      cases c with
      | true => exact low (read_block hb (.inl ⟨_, by simpa using this, rfl⟩))
      | false => exact read_top ⟨_, by simpa using this, rfl⟩
    · exact low (read_block hb (.inr read_head))
  obtain ⟨top', e, hsub, hk⟩ := key
  refine ⟨_, e, ⟨top', blk, rfl, hb, fun t' ht' => ?_⟩, hsub.append_right _⟩
  have := hs t' ht'
  cases c with
  | true => simpa using this
  | false => exact hk _ (by simpa using this) (by simp)

/-! ### Writing -/

theorem writeAux_tail {t : Nat} {s s' : Borrows} {b : Bool} (h : writeAux t s = some (s', b)) (hb : s' = s) (top : Borrows) :
    ∃ top' b', writeAux t (top ++ s) = some (top' ++ s, b') ∧ top'.Sublist top := by
  subst hb
  induction top with
  | nil => exact ⟨[], b, h, List.Sublist.refl _⟩
  | cons i top ih =>
    by_cases hi : i.tag = t ∧ i.perm ≠ .sharedRO
    · exact ⟨i :: top, decide (i.perm = .sharedRW), by simp [writeAux, hi], List.Sublist.refl _⟩
    · obtain ⟨top', b', e, hs⟩ := ih
      by_cases hp : b' = true ∧ i.perm = .sharedRW
      · exact ⟨i :: top', true, by
          rw [List.cons_append, writeAux, if_neg hi, e]
          simp [hp], hs.cons_cons _⟩
      · exact ⟨top', false, by
          rw [List.cons_append, writeAux, if_neg hi, e]
          simp only [Option.map_some, if_neg hp], hs.cons _⟩

/-- Through the exclusive reference at the bottom of what is held, if no shared reference is held. -/
theorem Shape.write {c : Bool} {S : Nat → Prop} {fl s r : Borrows} {t : Nat} (h : Shape c S fl s)
    (hf : fl = ⟨t, .unique⟩ :: r) (hS : ∀ t, ¬ S t) : ∃ s', Borrows.write t s = some s' ∧ Shape c S fl s' ∧ s'.Sublist s := by
  obtain ⟨top, blk, rfl, hb, hs⟩ := h
  have e0 : writeAux t fl = some (fl, false) := by simp [hf, writeAux]
  obtain ⟨top', b', e, hsub⟩ := writeAux_tail e0 rfl (top ++ blk)
  refine ⟨top' ++ fl, by rw [← List.append_assoc, Borrows.write, e]; rfl, ⟨top', [], by simp, by simp, fun t ht => absurd ht (hS t)⟩, ?_⟩
  rw [← List.append_assoc]
  exact hsub.append_right _

theorem writeAux_block {t : Nat} {fl blk : Borrows} (hb : ∀ it ∈ blk, it.perm = .sharedRW) (h : (⟨t, .sharedRW⟩ : Borrow) ∈ blk) :
    writeAux t (blk ++ fl) = some (blk ++ fl, true) := by
  induction blk with
  | nil => simp at h
  | cons i blk ih =>
    have hp := hb i List.mem_cons_self
    by_cases hi : i.tag = t
    · simp [writeAux, hi, hp]
    · have := ih (fun it h => hb it (List.mem_cons_of_mem _ h)) (by
        rcases List.mem_cons.1 h with rfl | h
        · exact absurd rfl hi
        · exact h)
      simp [writeAux, hi, this, hp]

/-- Through a held shared reference to a cell. -/
theorem Shape.writeCell {S : Nat → Prop} {fl s : Borrows} {t : Nat} (h : Shape true S fl s)
    (ht : S t) : ∃ s', Borrows.write t s = some s' ∧ Shape true S fl s' ∧ s'.Sublist s := by
  obtain ⟨top, blk, rfl, hb, hs⟩ := h
  obtain ⟨top', b', e, hsub⟩ := writeAux_tail (writeAux_block (fl := fl) hb (by simpa using hs t ht)) rfl top
  refine ⟨_, by simp [Borrows.write, e], ⟨top', blk, rfl, hb, fun t' ht' => ?_⟩, hsub.append_right _⟩
  simpa using hs t' ht'

/-! ### New references -/

/-- A new shared reference to a byte outside cells. -/
theorem Shape.retagRO {S : Nat → Prop} {fl s : Borrows} {t : Nat} (strict : Bool) (new : Nat) (h : Shape false S fl s)
    (ht : S t ∨ ∃ p r, fl = ⟨t, p⟩ :: r) :
    ∃ s', Borrows.retag strict .sharedRO t new s = some (⟨new, .sharedRO⟩ :: s') ∧
      Shape false (fun u => S u ∨ u = new) fl (⟨new, .sharedRO⟩ :: s') ∧ s'.Sublist s := by
  obtain ⟨s', e, ⟨top, blk, rfl, hb, hs⟩, hsub⟩ := h.read ht
  refine ⟨_, by simp [Borrows.retag, e], ⟨⟨new, .sharedRO⟩ :: top, blk, rfl, hb, ?_⟩, hsub⟩
  rintro u (hu | rfl)
  · simpa using Or.inr (by simpa using hs u hu)
  · simp

theorem insertAux_top {t new : Nat} {s s' : Borrows} {b : Bool} {top : Borrows} (hn : ∀ it ∈ top, it.tag ≠ t)
    (h : insertAux t new s = some (s', b)) :
    (b = false ∧ insertAux t new (top ++ s) = some (top ++ s', false)) ∨
    (b = true ∧ ∃ x y, top = x ++ y ∧ (∀ it ∈ y, it.perm = .sharedRW) ∧
      ((x = [] ∧ insertAux t new (top ++ s) = some (y ++ s', true)) ∨
       (x ≠ [] ∧ insertAux t new (top ++ s) = some (x ++ (⟨new, .sharedRW⟩ :: (y ++ s')), false)))) := by
  induction top with
  | nil =>
    cases b with
    | false => exact .inl ⟨rfl, h⟩
    | true => exact .inr ⟨rfl, [], [], rfl, by simp, .inl ⟨rfl, h⟩⟩
  | cons i top ih =>
    have hi : ¬ (i.tag = t ∧ i.perm ≠ .sharedRO) := fun e => hn i List.mem_cons_self e.1
    rcases ih (fun it h => hn it (List.mem_cons_of_mem _ h)) with ⟨rfl, e⟩ | ⟨rfl, x, y, rfl, hy, ⟨rfl, e⟩ | ⟨hx, e⟩⟩
    · exact .inl ⟨rfl, by rw [List.cons_append, insertAux, if_neg hi, e]; simp⟩
    · rw [List.nil_append] at e
      by_cases hp : i.perm = .sharedRW
      · refine .inr ⟨rfl, [], i :: y, rfl, ?_, .inl ⟨rfl, ?_⟩⟩
        · intro it hit
          rcases List.mem_cons.1 hit with rfl | hit
          · exact hp
          · exact hy it hit
        · rw [List.nil_append, List.cons_append, insertAux, if_neg hi, e]; simp [hp]
      · refine .inr ⟨rfl, [i], y, rfl, hy, .inr ⟨by simp, ?_⟩⟩
        rw [List.nil_append, List.cons_append, insertAux, if_neg hi, e]; simp [hp]
    · refine .inr ⟨rfl, i :: x, y, rfl, hy, .inr ⟨by simp, ?_⟩⟩
      rw [List.cons_append, insertAux, if_neg hi, e]; simp

theorem insertAux_block {t new : Nat} {fl blk : Borrows} (hb : ∀ it ∈ blk, it.perm = .sharedRW) (h : (⟨t, .sharedRW⟩ : Borrow) ∈ blk) :
    insertAux t new (blk ++ fl) = some (blk ++ fl, true) := by
  induction blk with
  | nil => simp at h
  | cons i blk ih =>
    have hp := hb i List.mem_cons_self
    by_cases hi : i.tag = t
    · simp [insertAux, hi, hp]
    · have := ih (fun it h => hb it (List.mem_cons_of_mem _ h)) (by
        rcases List.mem_cons.1 h with rfl | h
        · exact absurd rfl hi
        · exact h)
      simp [insertAux, hi, this, hp]

/-- A new shared reference to a byte inside a cell. -/
theorem Shape.retagRW {S : Nat → Prop} {fl s : Borrows} {t : Nat} (strict : Bool) (new : Nat) (h : Shape true S fl s)
    (ht : S t ∨ ∃ r, fl = ⟨t, .unique⟩ :: r) (hn : (s.map (·.tag)).Nodup) :
    ∃ s', Borrows.retag strict .sharedRW t new s = some s' ∧
      Shape true (fun u => S u ∨ u = new) fl s' ∧ s'.Perm (⟨new, .sharedRW⟩ :: s) := by
  obtain ⟨top, blk, rfl, hb, hs⟩ := h
  have hs' : ∀ u, S u → (⟨u, .sharedRW⟩ : Borrow) ∈ blk := fun u hu => by simpa using hs u hu
  suffices ∃ top' blk', Borrows.insert t new (top ++ (blk ++ fl)) = some (top' ++ (blk' ++ fl)) ∧
      (top' ++ (blk' ++ fl)).Perm (⟨new, .sharedRW⟩ :: (top ++ (blk ++ fl))) ∧
      (∀ it ∈ blk', it.perm = .sharedRW) ∧ (∀ it ∈ blk, it ∈ blk') ∧ (⟨new, .sharedRW⟩ : Borrow) ∈ blk' by
    obtain ⟨top', blk', e, hp, hb', hk, hnew⟩ := this
    refine ⟨_, by simp [Borrows.retag, e], ⟨top', blk', rfl, hb', ?_⟩, hp⟩
    rintro u (hu | rfl)
    · simpa using hk _ (hs' u hu)
    · simpa using hnew
  rcases ht with ht | ⟨r, rfl⟩
  · -- from a shared reference
    have hm := hs' t ht
    have htop : ∀ it ∈ top, it.tag ≠ t := by
      intro it hit e
      rw [List.map_append, List.map_append] at hn
      exact (List.nodup_append.1 hn).2.2 t (List.mem_map.2 ⟨it, hit, e⟩) t
        (List.mem_append_left _ (List.mem_map.2 ⟨_, hm, rfl⟩)) rfl
    rcases insertAux_top htop (insertAux_block (new := new) (fl := fl) hb hm) with ⟨h, _⟩ | ⟨-, x, y, rfl, hy, ⟨rfl, e⟩ | ⟨hx, e⟩⟩
    · exact absurd h (by simp)
    · refine ⟨[], ⟨new, .sharedRW⟩ :: (y ++ blk), by rw [Borrows.insert, e]; simp, by simp, ?_, ?_, by simp⟩
      · intro it hit
        rcases List.mem_cons.1 hit with rfl | hit
        · rfl
        · exact (List.mem_append.1 hit).elim (hy it) (hb it)
      · intro it hit
        exact List.mem_cons_of_mem _ (List.mem_append_right _ hit)
    · refine ⟨x, ⟨new, .sharedRW⟩ :: (y ++ blk), by rw [Borrows.insert, e]; simp, ?_, ?_, ?_, by simp⟩
      · simp only [List.cons_append, List.append_assoc]
        exact List.perm_middle
      · intro it hit
        rcases List.mem_cons.1 hit with rfl | hit
        · rfl
        · exact (List.mem_append.1 hit).elim (hy it) (hb it)
      · intro it hit
        exact List.mem_cons_of_mem _ (List.mem_append_right _ hit)
  · -- from the exclusive reference below
    have htop : ∀ it ∈ top ++ blk, it.tag ≠ t := by
      intro it hit e
      rw [← List.append_assoc, List.map_append] at hn
      exact (List.nodup_append.1 hn).2.2 t (List.mem_map.2 ⟨it, hit, e⟩) t (by simp) rfl
    have e0 : insertAux t new (⟨t, .unique⟩ :: r) = some (⟨new, .sharedRW⟩ :: ⟨t, .unique⟩ :: r, false) := by simp [insertAux]
    rcases insertAux_top htop e0 with ⟨-, e⟩ | ⟨h, _⟩
    · refine ⟨top, blk ++ [⟨new, .sharedRW⟩], ?_, ?_, ?_, ?_, by simp⟩
      · rw [← List.append_assoc, Borrows.insert, e]; simp
      · have := List.perm_middle (a := (⟨new, .sharedRW⟩ : Borrow)) (l₁ := top ++ blk) (l₂ := ⟨t, .unique⟩ :: r)
        simpa using this
      · intro it hit
        rcases List.mem_append.1 hit with hit | hit
        · exact hb it hit
        · simp at hit; simp [hit]
      · intro it hit
        exact List.mem_append_left _ hit
    · exact absurd h (by simp)

/-- A new exclusive reference: everything there is goes below it. -/
theorem Shape.retagUnique {c : Bool} {S : Nat → Prop} {fl s r : Borrows} {t : Nat} (strict : Bool) (new : Nat) (h : Shape c S fl s)
    (hf : fl = ⟨t, .unique⟩ :: r) (hS : ∀ t, ¬ S t) :
    ∃ s', Borrows.retag strict .unique t new s = some (⟨new, .unique⟩ :: s') ∧ s'.Sublist s ∧ fl <:+ s' := by
  obtain ⟨s', e, ⟨top, blk, rfl, -, -⟩, hsub⟩ := h.write hf hS
  exact ⟨_, by simp [Borrows.retag, e], hsub, ⟨top ++ blk, by simp⟩⟩

end Borrows
end Dync
