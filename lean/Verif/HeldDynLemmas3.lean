import Verif.HeldDynLemmas2
/-!
# Lists that a program does not change
-/
namespace Dync
variable {U α : Type} {Γ : TyEnv U}

theorem atList_other {i k : Nat} (t : TyId) (es : List Bytes) (b : M (List Bytes × Outside U) α) (s : Lists × Outside U) (h : k ≠ i) :
    (atList i t es b s).2.1 k = s.1 k := by simp only [atList, Slots.put, if_neg h]

theorem KProg.plain_other (p : KProg U) {k : Nat} (hk : ¬ p.Changes k) : ∀ n, k < n → ∀ s, (p.plain Γ n s).2.1 k = s.1 k := by
  induction p with
  | skip => intro n _ s; rfl
  | seq p q ihp ihq =>
    intro n hn s
    have h1 := ihp (fun h => hk (.inl h)) n hn s
    simp only [KProg.plain]
    rcases e : p.plain Γ n s with ⟨r, s1⟩
    rw [e] at h1
    cases r with
    | ok a =>
      rw [M.bind_ok e]
      have h2 := ihq (fun h => hk (.inr h)) n hn s1
      rcases e2 : q.plain Γ n s1 with ⟨r2, s2⟩
      rw [e2] at h2
      cases r2 with
      | ok b => rw [M.bind_ok e2]; exact h2.trans h1
      | panic => rw [M.bind_panic e2]; exact h2.trans h1
      | ub => rw [M.bind_ub e2]; exact h2.trans h1
      | abort => rw [M.bind_abort e2]; exact h2.trans h1
    | panic => rw [M.bind_panic e]; exact h1
    | ub => rw [M.bind_ub e]; exact h1
    | abort => rw [M.bind_abort e]; exact h1
  | on i p =>
    intro n _ s
    simp only [KProg.plain]
    split
    · rfl
    · exact atList_other _ _ _ _ hk
  | swapValues i a j b =>
    intro n _ s
    simp only [KProg.Changes, not_or] at hk
    simp only [KProg.plain]
    split
    · rfl
    · split
      · split
        · simp only
          split
          · simp only [Slots.put, if_neg hk.1, if_neg hk.2]
          · rfl
        · rfl
      · rfl
  | cloneValue i a j b =>
    intro n _ s
    simp only [KProg.plain]
    split
    · rfl
    · split
      · split
        · exact atList_other _ _ _ _ hk
        · rfl
      · rfl
  | cloneSlice i j t =>
    intro n _ s
    simp only [KProg.plain]
    split
    · rfl
    · split
      · split
        · exact atList_other _ _ _ _ hk
        · rfl
      · rfl
  | cut i c q ih =>
    intro n hn s
    simp only [KProg.Changes, not_or] at hk
    simp only [KProg.plain]
    split
    · rfl
    · split
      · rfl
      · simp only [withParts, if_neg hk.1, if_pos hn]
        rw [ih hk.2 _ (by omega)]
        exact opened_old hk.1 hn

/-! ### Programs that only move values -/

theorem look_perm (l : Look) (t : TyId) (es : List Bytes) : (l.prog.plain t es).2.Perm es := by
  cases l with
  | get i => simp only [Look.prog, SProg.plain]; split <;> exact List.Perm.refl _
  | getAs t i => simp only [Look.prog, SProg.plain]; split <;> exact List.Perm.refl _
  | iter => exact List.Perm.refl _
  | asSlice t => exact List.Perm.refl _
  | swap i j =>
    simp only [Look.prog, SProg.plain]
    split
    · exact List.Perm.refl _
    · split
      · exact List.set_set_perm _ _
      · exact List.Perm.refl _
  | rotateLeft n =>
    simp only [Look.prog, SProg.plain]
    split
    · exact List.perm_append_comm.trans (by rw [List.take_append_drop])
    · exact List.Perm.refl _
  | rotateRight n =>
    simp only [Look.prog, SProg.plain]
    split
    · exact List.perm_append_comm.trans (by rw [List.take_append_drop])
    · exact List.Perm.refl _

/-- `m` reorders the elements, and does nothing outside. -/
def Reorders (m : M (List Bytes × Outside U) α) : Prop := ∀ s, (m s).2.1.Perm s.1 ∧ (m s).2.2 = s.2

theorem Reorders.pure (x : α) : Reorders (Pure.pure x : M (List Bytes × Outside U) α) := fun _ => ⟨List.Perm.refl _, rfl⟩

theorem Reorders.bind {β : Type} {a : M (List Bytes × Outside U) α} {f : α → M (List Bytes × Outside U) β} (h : Reorders a)
    (hf : ∀ x, Reorders (f x)) : Reorders (a >>= f) := by
  intro s
  have h1 := h s
  rcases e : a s with ⟨r, s1⟩
  rw [e] at h1
  cases r with
  | ok x => rw [M.bind_ok e]; exact ⟨(hf x s1).1.trans h1.1, (hf x s1).2.trans h1.2⟩
  | panic => rw [M.bind_panic e]; exact h1
  | ub => rw [M.bind_ub e]; exact h1
  | abort => rw [M.bind_abort e]; exact h1

theorem Reorders.each {m : M (List Bytes × Outside U) (List α)} (h : Reorders m) (cs : List (List Bytes)) (o : Outside U) :
    (Plain.each m cs o).2.1.flatten.Perm cs.flatten ∧ (Plain.each m cs o).2.2 = o := by
  induction cs generalizing o with
  | nil => exact ⟨List.Perm.refl _, rfl⟩
  | cons c cs ih =>
    have h1 := h (c, o)
    simp only [Plain.each]
    rcases e : m (c, o) with ⟨r, c', o'⟩
    rw [e] at h1
    have h2 : c'.Perm c := h1.1
    have h3 : o' = o := h1.2
    subst h3
    cases r with
    | ok a => exact ⟨by simpa using h2.append (ih o').1, (ih o').2⟩
    | panic => exact ⟨by simpa using h2.append_right cs.flatten, rfl⟩
    | ub => exact ⟨by simpa using h2.append_right cs.flatten, rfl⟩
    | abort => exact ⟨by simpa using h2.append_right cs.flatten, rfl⟩

theorem VProg.reorders (p : VProg U) (hp : p.Moves) (t : TyId) : Reorders (p.plain Γ t) := by
  induction p with
  | skip => exact .pure _
  | seq p q ihp ihq => exact .bind (ihp hp.1) fun _ => .bind (ihq hp.2) fun _ => .pure _
  | look l => exact fun s => ⟨look_perm l t s.1, rfl⟩
  | sub r p ih =>
    intro s
    simp only [VProg.plain, Plain.part]
    split
    · rename_i h
      obtain ⟨h1, h2⟩ := ih hp ((s.1.take (r.hi s.1.length)).drop r.lo, s.2)
      refine ⟨((List.Perm.append_left _ h1).append_right _).trans ?_, h2⟩
      have : s.1.take r.lo = (s.1.take (r.hi s.1.length)).take r.lo := by rw [List.take_take, Nat.min_eq_left h.1]
      rw [this, List.take_append_drop, List.take_append_drop]
    · exact ⟨List.Perm.refl _, rfl⟩
  | split mid p q ihp ihq =>
    intro s
    simp only [VProg.plain, Plain.split]
    split
    · have h1 := ihp hp.1 (s.1.take mid, s.2)
      rcases e : p.plain Γ t (s.1.take mid, s.2) with ⟨r, ls, o⟩
      rw [e] at h1
      have h2 : ls.Perm (s.1.take mid) := h1.1
      have h3 : o = s.2 := h1.2
      subst h3
      have stay : (ls ++ s.1.drop mid).Perm s.1 := (h2.append_right _).trans (by rw [List.take_append_drop])
      cases r with
      | ok a =>
        obtain ⟨h4, h5⟩ := ihq hp.2 (s.1.drop mid, s.2)
        exact ⟨(h2.append h4).trans (by rw [List.take_append_drop]), h5⟩
      | panic => exact ⟨stay, rfl⟩
      | ub => exact ⟨stay, rfl⟩
      | abort => exact ⟨stay, rfl⟩
    · exact ⟨List.Perm.refl _, rfl⟩
  | chunks k p ih =>
    intro s
    simp only [VProg.plain, Plain.chunks]
    split
    · exact ⟨List.Perm.refl _, rfl⟩
    · rename_i hk
      obtain ⟨h1, h2⟩ := (ih hp).each (pieces k s.1) s.2
      refine ⟨(h1.append_right _).trans ?_, h2⟩
      rw [pieces_flatten (Nat.pos_of_ne_zero hk), List.take_append_drop]
  | setAs => exact hp.elim
  | edit => exact hp.elim
  | assign => exact hp.elim
  | cloneFrom => exact hp.elim
  | cloneFromAll => exact hp.elim
  | cloneFromSlice => exact hp.elim

theorem howMany_add (σ : Lists) (n c : Nat) (t : TyId) (x : Bytes) :
    howMany σ (n + c) t x = howMany σ n t x + ((List.range c).map fun j => among (σ (n + j)) t x).sum := by
  simp [howMany, List.range_add, Function.comp_def]

theorem howMany_put {σ σ' : Lists} {i : Nat} {t : TyId} {x : Bytes} (h : ∀ k, k ≠ i → σ' k = σ k) :
    ∀ n, i < n → howMany σ' n t x + among (σ i) t x = howMany σ n t x + among (σ' i) t x := by
  have below : ∀ n, n ≤ i → howMany σ' n t x = howMany σ n t x := by
    intro n hn
    unfold howMany
    congr 1
    refine List.map_congr_left fun k hk => ?_
    rw [h k (by have := List.mem_range.1 hk; omega)]
  intro n hn
  induction n with
  | zero => omega
  | succ n ih =>
    rw [howMany_add _ n 1, howMany_add _ n 1]
    simp only [List.range_one, List.map_cons, List.map_nil, List.sum_cons, List.sum_nil, Nat.add_zero]
    by_cases hi : i = n
    · subst hi
      rw [below i (Nat.le_refl _)]
      omega
    · rw [h n (fun e => hi e.symm)]
      have := ih (by omega)
      omega

theorem among_perm {es fs : List Bytes} {t t' : TyId} {x : Bytes} (h : fs.Perm es) : among (some (t', fs)) t x = among (some (t', es)) t x := by
  simp only [among, h.count_eq]

theorem among_gather {σ : Lists} {n : Nat} {t t' : TyId} {x : Bytes} (c : Nat) (h : ∀ j, j < c → ∃ fs, σ (n + j) = some (t', fs)) :
    among (some (t', gather σ n c)) t x = ((List.range c).map fun j => among (σ (n + j)) t x).sum := by
  induction c with
  | zero => simp [gather, among]
  | succ c ih =>
    have e := ih fun j hj => h j (by omega)
    obtain ⟨fs, hf⟩ := h c (by omega)
    have g : gather σ n (c + 1) = gather σ n c ++ fs := by
      simp [gather, List.range_succ, hf]
    rw [g, List.range_succ, List.map_append, List.sum_append, ← e]
    simp only [List.map_cons, List.map_nil, List.sum_cons, List.sum_nil, Nat.add_zero, hf, among]
    split
    · rw [List.count_append]
    · rfl

theorem among_append {es fs : List Bytes} {t t' : TyId} {x : Bytes} :
    among (some (t', es ++ fs)) t x = among (some (t', es)) t x + among (some (t', fs)) t x := by
  simp only [among]
  split
  · rw [List.count_append]
  · rfl

/-- Nothing is lost or doubled, nothing happens outside, and the types of the lists stay. -/
structure MovesOnly (n : Nat) (s s' : Lists × Outside U) : Prop where
  count : ∀ t x, howMany s'.1 n t x = howMany s.1 n t x
  out : s'.2 = s.2
  types : ∀ k, (s'.1 k).map Prod.fst = (s.1 k).map Prod.fst

theorem MovesOnly.refl (n : Nat) (s : Lists × Outside U) : MovesOnly n s s := ⟨fun _ _ => rfl, rfl, fun _ => rfl⟩

theorem MovesOnly.trans {n : Nat} {s s1 s2 : Lists × Outside U} (h : MovesOnly n s s1) (h' : MovesOnly n s1 s2) : MovesOnly n s s2 :=
  ⟨fun t x => (h'.count t x).trans (h.count t x), h'.out.trans h.out, fun k => (h'.types k).trans (h.types k)⟩

theorem MovesOnly.free {n : Nat} {s s' : Lists × Outside U} (h : MovesOnly n s s') (f : ∀ k, n ≤ k → s.1 k = none) : ∀ k, n ≤ k → s'.1 k = none := by
  intro k hk
  have := h.types k
  rw [f k hk] at this
  simpa using this

theorem moves_set {es : List Bytes} {t : TyId} {x y : Bytes} {a : Nat} (h : a < es.length) :
    among (some (t, es.set a y)) t x + (if es[a] == x then 1 else 0) = among (some (t, es)) t x + if y == x then 1 else 0 := by
  simp only [among, if_true]
  have h1 : 0 < es.count es[a] := List.count_pos_iff.2 (List.getElem_mem h)
  rw [List.count_set h]
  split
  · rename_i e
    rw [beq_iff_eq] at e
    rw [e] at h1
    omega
  · omega

theorem KProg.moves (p : KProg U) (hp : p.Moves) : ∀ n s, (∀ k, n ≤ k → s.1 k = none) → MovesOnly n s (p.plain Γ n s).2 := by
  induction p with
  | skip => intro n s _; exact .refl n s
  | seq p q ihp ihq =>
    intro n s f
    have h1 := ihp hp.1 n s f
    simp only [KProg.plain]
    rcases e : p.plain Γ n s with ⟨r, s1⟩
    rw [e] at h1
    cases r with
    | ok a =>
      rw [M.bind_ok e]
      have h2 := ihq hp.2 n s1 (h1.free f)
      rcases e2 : q.plain Γ n s1 with ⟨r2, s2⟩
      rw [e2] at h2
      cases r2 with
      | ok b => rw [M.bind_ok e2]; exact h1.trans h2
      | panic => rw [M.bind_panic e2]; exact h1.trans h2
      | ub => rw [M.bind_ub e2]; exact h1.trans h2
      | abort => rw [M.bind_abort e2]; exact h1.trans h2
    | panic => rw [M.bind_panic e]; exact h1
    | ub => rw [M.bind_ub e]; exact h1
    | abort => rw [M.bind_abort e]; exact h1
  | on i p =>
    intro n s f
    simp only [KProg.plain]
    split
    · exact .refl n s
    · rename_i t es hs
      have hi : i < n := Nat.lt_of_not_le fun h => by rw [f i h] at hs; cases hs
      obtain ⟨h1, h2⟩ := p.reorders (Γ := Γ) hp t (es, s.2)
      refine ⟨fun t' x => ?_, h2, fun k => ?_⟩
      · have e := howMany_put (σ := s.1) (σ' := (atList i t es (p.plain Γ t) s).2.1) (i := i) (t := t') (x := x)
          (fun k hk => atList_other _ _ _ _ hk) n hi
        rw [hs, show (atList i t es (p.plain Γ t) s).2.1 i = some (t, (p.plain Γ t (es, s.2)).2.1) by simp [atList, Slots.put],
          among_perm h1] at e
        simp only at e
        show howMany (atList i t es (p.plain Γ t) s).2.1 n t' x = _
        omega
      · by_cases hk : k = i
        · subst hk; simp [atList, Slots.put, hs]
        · rw [atList_other _ _ _ _ hk]
  | swapValues i a j b =>
    intro n s f
    simp only [KProg.plain]
    split
    · exact .refl n s
    · rename_i hij
      split
      · rename_i t es t' fs hs hs'
        split
        · rename_i h
          by_cases ht : t = t'
          · subst ht
            rw [if_pos rfl]
            have hi : i < n := Nat.lt_of_not_le fun h => by rw [f i h] at hs; cases hs
            have hj : j < n := Nat.lt_of_not_le fun h => by rw [f j h] at hs'; cases hs'
            refine ⟨fun t1 x => ?_, rfl, fun k => ?_⟩
            · have e1 := howMany_put (σ := s.1) (σ' := Slots.put s.1 i (some (t, es.set a fs[b]))) (i := i) (t := t1) (x := x)
                (fun k hk => by simp only [Slots.put, if_neg hk]) n hi
              have e2 := howMany_put (σ := Slots.put s.1 i (some (t, es.set a fs[b])))
                (σ' := Slots.put (Slots.put s.1 i (some (t, es.set a fs[b]))) j (some (t, fs.set b es[a]))) (i := j) (t := t1) (x := x)
                (fun k hk => by simp only [Slots.put, if_neg hk]) n hj
              have p1 : Slots.put s.1 i (some (t, es.set a fs[b])) i = some (t, es.set a fs[b]) := by simp [Slots.put]
              have p2 : Slots.put s.1 i (some (t, es.set a fs[b])) j = some (t, fs) := by
                simp only [Slots.put, if_neg (Ne.symm hij)]; exact hs'
              have p3 : Slots.put (Slots.put s.1 i (some (t, es.set a fs[b]))) j (some (t, fs.set b es[a])) j = some (t, fs.set b es[a]) := by
                simp [Slots.put]
              rw [p1, hs] at e1
              rw [p2, p3] at e2
              show howMany (Slots.put (Slots.put s.1 i (some (t, es.set a fs[b]))) j (some (t, fs.set b es[a]))) n t1 x = _
              by_cases h1 : t = t1
              · subst h1
                have q1 := moves_set (t := t) (x := x) (y := fs[b]) h.1
                have q2 := moves_set (t := t) (x := x) (y := es[a]) h.2
                omega
              · simp only [among, if_neg h1] at e1 e2
                omega
            · simp only [Slots.put]
              split
              · rename_i e; subst e; rw [hs']; rfl
              · split
                · rename_i e; subst e; rw [hs]; rfl
                · rfl
          · rw [if_neg ht]; exact .refl n s
        · exact .refl n s
      · exact .refl n s
  | cut i c q ih =>
    intro n s f
    simp only [KProg.plain]
    split
    · exact .refl n s
    · rename_i t es hs
      split
      · exact .refl n s
      · rename_i pre parts post hc
        have hi : i < n := Nat.lt_of_not_le fun h => by rw [f i h] at hs; cases hs
        have hj := c.plain_join hc
        have K := ih hp (n + parts.length) (opened s.1 n i (parts.map fun es => (t, es)), s.2) (by
          intro k hk
          obtain ⟨d, rfl⟩ : ∃ d, k = n + d := ⟨k - n, by omega⟩
          show opened s.1 n i (parts.map fun es => (t, es)) (n + d) = none
          rw [opened_new hi]
          exact List.getElem?_eq_none (by simp; omega))
        generalize hq : q.plain Γ (n + parts.length) (opened s.1 n i (parts.map fun es => (t, es)), s.2) = P at K
        have ew : (withParts n i t pre parts post (q.plain Γ (n + parts.length)) s).2 =
            (fun k => if k = i then some (t, pre ++ gather P.2.1 n parts.length ++ post) else if k < n then P.2.1 k else none, P.2.2) := by
          simp only [withParts, hq]
        rw [ew]
        have ki : P.2.1 i = none := by
          have := K.types i
          rw [show (opened s.1 n i (parts.map fun es => (t, es)), s.2).1 i = none from opened_self] at this
          simpa using this
        have kn : ∀ d, d < parts.length → ∃ fs, P.2.1 (n + d) = some (t, fs) := by
          intro d hd
          have := K.types (n + d)
          rw [show (opened s.1 n i (parts.map fun es => (t, es)), s.2).1 (n + d) = some (t, parts[d]) by
            show opened s.1 n i (parts.map fun es => (t, es)) (n + d) = _
            rw [opened_new hi]; simp [hd]] at this
          simp only [Option.map_some] at this
          obtain ⟨⟨t', fs⟩, e1, e2⟩ := Option.map_eq_some_iff.1 this
          simp only at e2
          exact ⟨fs, by rw [e1, e2]⟩
        refine ⟨fun t' x => ?_, K.out, fun k => ?_⟩
        · have c1 := K.count t' x
          rw [howMany_add, howMany_add] at c1
          have g1 := among_gather (σ := P.2.1) (n := n) (t := t') (x := x) parts.length kn
          have g2 := among_gather (σ := opened s.1 n i (parts.map fun es => (t, es))) (n := n) (t := t') (t' := t) (x := x) parts.length
            (by intro d hd; rw [opened_new hi]; exact ⟨parts[d], by simp [hd]⟩)
          have g3 : gather (opened s.1 n i (parts.map fun es => (t, es))) n parts.length = parts.flatten := by
            simp only [gather]
            congr 1
            apply List.ext_getElem
            · simp
            · intro d h1 h2
              simp [opened_new hi, h2]
          rw [g3] at g2
          rw [← g1, ← g2] at c1
          -- without the variable `i`
          have b1 := howMany_put (σ := s.1) (σ' := fun k => if k = i then none else s.1 k) (i := i) (t := t') (x := x)
            (fun k hk => by simp only [if_neg hk]) n hi
          have b2 := howMany_put (σ := P.2.1)
            (σ' := fun k => if k = i then some (t, pre ++ gather P.2.1 n parts.length ++ post) else P.2.1 k) (i := i) (t := t') (x := x)
            (fun k hk => by simp only [if_neg hk]) n hi
          have same : ∀ {σ σ' : Lists}, (∀ k, k < n → σ k = σ' k) → howMany σ n t' x = howMany σ' n t' x := by
            intro σ σ' h
            unfold howMany
            congr 1
            exact List.map_congr_left fun k hk => by rw [h k (List.mem_range.1 hk)]
          rw [same (σ := fun k => if k = i then none else s.1 k) (σ' := opened s.1 n i (parts.map fun es => (t, es))) (by
            intro k hk
            by_cases h : k = i
            · subst h; rw [if_pos rfl, opened_self]
            · rw [if_neg h, opened_old h hk])] at b1
          rw [same (σ := fun k => if k = i then some (t, pre ++ gather P.2.1 n parts.length ++ post) else P.2.1 k)
            (σ' := fun k => if k = i then some (t, pre ++ gather P.2.1 n parts.length ++ post) else if k < n then P.2.1 k else none) (by
            intro k hk
            by_cases h : k = i
            · simp only [if_pos h]
            · simp only [if_neg h, if_pos hk])] at b2
          simp only [if_true, ki, hs] at b1 b2
          rw [hj, among_append, among_append] at b1
          rw [among_append, among_append] at b2
          have z : among none t' x = 0 := rfl
          rw [z] at b1 b2
          simp only at c1 ⊢
          omega
        · simp only
          by_cases h1 : k = i
          · subst h1; rw [if_pos rfl, hs]; rfl
          · rw [if_neg h1]
            by_cases h2 : k < n
            · rw [if_pos h2]
              have := K.types k
              rw [show (opened s.1 n i (parts.map fun es => (t, es)), s.2).1 k = s.1 k from opened_old h1 h2] at this
              exact this
            · rw [if_neg h2, f k (by omega)]
  | cloneValue => exact hp.elim
  | cloneSlice => exact hp.elim

end Dync
