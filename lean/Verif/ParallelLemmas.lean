import Verif.ParallelSpec
/-!
# Interleavings of computations that keep apart

Computations that write only bytes of their own and read no bytes of others do in every interleaving what they do alone.
-/
namespace Dync
namespace Steps
variable {α β : Type} {s : Nat → Steps α} {m0 : Store} {own sees : Nat → Nat → Prop}

/-- The accesses are to bytes the thread may access. -/
def Keeps (own sees : Nat → Prop) (l : List Touch) : Prop := ∀ x ∈ l, own x.addr ∨ (sees x.addr ∧ x.write = false)

/-- A thread in the middle of a run, compared with running alone: `m` is the memory it would see alone. -/
structure Solo (own sees : Nat → Prop) (s : Steps α) (m0 : Store) (c : Nat) (t : Steps α) (m mem : Store) : Prop where
  result : t.alone m = s.alone m0
  keeps : Keeps own sees (t.touches m)
  agrees : ∀ x, own x ∨ sees x → mem x = m x
  left : (t.touches m).length ≤ (s.touches m0).length - c

/-- All threads in the middle of a run. -/
structure Together (own sees : Nat → Nat → Prop) (s : Nat → Steps α) (m0 : Store) (c : Nat → Nat) (x : (Nat → Steps α) × Store) : Prop where
  solo : ∀ i, ∃ m, Solo (own i) (sees i) (s i) m0 (c i) (x.1 i) m x.2
  rest : ∀ a, (∀ i, ¬ own i a) → x.2 a = m0 a

theorem Together.start (h : ∀ i, Keeps (own i) (sees i) ((s i).touches m0)) : Together own sees s m0 (fun _ => 0) (s, m0) :=
  ⟨fun i => ⟨m0, rfl, h i, fun _ _ => rfl, Nat.le_refl _⟩, fun _ _ => rfl⟩

theorem Together.turn (A : ∀ i j a, i ≠ j → own i a → ¬ (own j a ∨ sees j a)) {c : Nat → Nat} {x : (Nat → Steps α) × Store}
    (T : Together own sees s m0 c x) (i : Nat) : Together own sees s m0 (fun j => c j + if j = i then 1 else 0) (turn i x) := by
  obtain ⟨m, S⟩ := T.solo i
  unfold Steps.turn
  rcases hx : x.1 i with r | ⟨a, k⟩ | ⟨a, b, k⟩
  · refine ⟨fun j => ?_, T.rest⟩
    obtain ⟨mj, Sj⟩ := T.solo j
    refine ⟨mj, Sj.result, Sj.keeps, Sj.agrees, ?_⟩
    by_cases h : j = i
    · subst h; simp only [hx, touches, List.length_nil]; exact Nat.zero_le _
    · rw [if_neg h]; exact Sj.left
  · refine ⟨fun j => ?_, T.rest⟩
    obtain ⟨mj, Sj⟩ := T.solo j
    by_cases h : j = i
    · subst h
      have hm : x.2 a = mj a := by
        have := Sj.keeps ⟨a, false⟩ (by rw [hx]; exact List.mem_cons_self ..)
        exact Sj.agrees a (this.imp_right (·.1))
      have e1 := Sj.result
      have e2 := Sj.keeps
      have e3 := Sj.left
      rw [hx] at e1 e2 e3
      simp only [touches, List.length_cons] at e3
      refine ⟨mj, ?_, ?_, Sj.agrees, ?_⟩
      · simp only [if_true]; rw [hm]; exact e1
      · simp only [if_true]; rw [hm]; exact fun y hy => e2 y (List.mem_cons_of_mem _ hy)
      · simp only [if_true]; rw [hm]; omega
    · refine ⟨mj, ?_⟩
      simp only [if_neg h]
      exact Sj
  · have ha : own i a := by
      rcases S.keeps ⟨a, true⟩ (by rw [hx]; exact List.mem_cons_self ..) with h | h
      · exact h
      · cases h.2
    refine ⟨fun j => ?_, fun y hy => ?_⟩
    · obtain ⟨mj, Sj⟩ := T.solo j
      by_cases h : j = i
      · subst h
        have e1 := Sj.result
        have e2 := Sj.keeps
        have e3 := Sj.left
        rw [hx] at e1 e2 e3
        simp only [touches, List.length_cons] at e3
        refine ⟨mj.set a b, ?_, ?_, fun y hy => ?_, ?_⟩
        · simp only [if_true]; exact e1
        · simp only [if_true]; exact fun y hy => e2 y (List.mem_cons_of_mem _ hy)
        · simp only [Store.set]; split
          · rfl
          · exact Sj.agrees y hy
        · simp only [if_true]; omega
      · refine ⟨mj, ?_⟩
        simp only [if_neg h]
        refine ⟨Sj.result, Sj.keeps, fun y hy => ?_, Sj.left⟩
        simp only [Store.set]
        rw [if_neg (fun (e : y = a) => A i j a (Ne.symm h) ha (e ▸ hy))]
        exact Sj.agrees y hy
    · simp only [Store.set]
      rw [if_neg (fun (e : y = a) => hy i (e ▸ ha))]
      exact T.rest y hy

theorem Together.run (A : ∀ i j a, i ≠ j → own i a → ¬ (own j a ∨ sees j a)) (l : List Nat) : ∀ {c : Nat → Nat} {x : (Nat → Steps α) × Store},
    Together own sees s m0 c x → Together own sees s m0 (fun j => c j + l.count j) (interleave l x) := by
  induction l with
  | nil => intro c x T; exact T
  | cons i l ih =>
    intro c x T
    have := ih (T.turn A i)
    refine ⟨fun j => ?_, this.rest⟩
    obtain ⟨m, S⟩ := this.solo j
    refine ⟨m, S.result, S.keeps, S.agrees, ?_⟩
    have := S.left
    simp only [List.count_cons, interleave] at this ⊢
    by_cases h : j = i
    · subst h; simp only [if_true, beq_self_eq_true] at this ⊢; omega
    · simp only [if_neg h, beq_iff_eq, if_neg (Ne.symm h)] at this ⊢; omega

/-- What the next access of a thread may be. -/
theorem Solo.next {own sees : Nat → Prop} {s t : Steps α} {c : Nat} {m mem : Store} (S : Solo own sees s m0 c t m mem) {x : Touch} (h : t.next = some x) :
    own x.addr ∨ (sees x.addr ∧ x.write = false) := by
  cases t with
  | done => cases h
  | load a k => cases h; exact S.keeps _ (List.mem_cons_self ..)
  | store a b k => cases h; exact S.keeps _ (List.mem_cons_self ..)

theorem Together.noRace (A : ∀ i j a, i ≠ j → own i a → ¬ (own j a ∨ sees j a)) {c : Nat → Nat} {x : (Nat → Steps α) × Store}
    (T : Together own sees s m0 c x) {i j : Nat} (h : i ≠ j) : ¬ Race (x.1 i) (x.1 j) := by
  rintro ⟨y, z, hy, hz, e, hw⟩
  obtain ⟨_, Si⟩ := T.solo i
  obtain ⟨_, Sj⟩ := T.solo j
  have h1 := Si.next hy
  have h2 := Sj.next hz
  rcases h1 with h1 | ⟨h1, h1'⟩
  · exact A i j _ h h1 (e ▸ h2.imp_right (·.1))
  · rcases h2 with h2 | ⟨h2, h2'⟩
    · exact A j i _ (Ne.symm h) h2 (.inr (e ▸ h1))
    · rcases hw with hw | hw
      · rw [h1'] at hw; cases hw
      · rw [h2'] at hw; cases hw

/-! ### Sequences of computations -/

/-- One computation after the other. -/
def andThen (f : α → Steps β) : Steps α → Steps β
  | done (.ok a) => f a
  | done (.panic y) => done (.panic y)
  | done .ub => done .ub
  | done .abort => done .abort
  | load a k => load a fun b => (k b).andThen f
  | store a b k => store a b (k.andThen f)

/-- Catch a panic. -/
def caught : Steps α → Steps (Option α)
  | done (.ok a) => done (.ok (some a))
  | done (.panic _) => done (.ok none)
  | done .ub => done .ub
  | done .abort => done .abort
  | load a k => load a fun b => (k b).caught
  | store a b k => store a b k.caught

theorem alone_andThen (f : α → Steps β) (s : Steps α) : ∀ m, (s.andThen f).alone m =
    match s.alone m with
    | (.ok a, m') => (f a).alone m'
    | (.panic y, m') => (.panic y, m')
    | (.ub, m') => (.ub, m')
    | (.abort, m') => (.abort, m') := by
  induction s with
  | done r => intro m; cases r <;> rfl
  | load a k ih => intro m; exact ih _ m
  | store a b k ih => intro m; exact ih _

theorem touches_andThen (f : α → Steps β) (s : Steps α) : ∀ m, (s.andThen f).touches m =
    s.touches m ++ match s.alone m with
    | (.ok a, m') => (f a).touches m'
    | _ => [] := by
  induction s with
  | done r => intro m; cases r <;> rfl
  | load a k ih => intro m; simp only [andThen, touches, alone, List.cons_append]; rw [ih]
  | store a b k ih => intro m; simp only [andThen, touches, alone, List.cons_append]; rw [ih]

theorem alone_caught (s : Steps α) : ∀ m, s.caught.alone m =
    match s.alone m with
    | (.ok a, m') => (.ok (some a), m')
    | (.panic _, m') => (.ok none, m')
    | (.ub, m') => (.ub, m')
    | (.abort, m') => (.abort, m') := by
  induction s with
  | done r => intro m; cases r <;> rfl
  | load a k ih => intro m; exact ih _ m
  | store a b k ih => intro m; exact ih _

theorem touches_caught (s : Steps α) : ∀ m, s.caught.touches m = s.touches m := by
  induction s with
  | done r => intro m; cases r <;> rfl
  | load a k ih => intro m; simp only [caught, touches]; rw [ih]
  | store a b k ih => intro m; simp only [caught, touches]; rw [ih]

/-- Read bytes one after the other. -/
def loads (a : Nat) : Nat → (Bytes → Steps α) → Steps α
  | 0, k => k []
  | n + 1, k => load a fun b => loads (a + 1) n fun bs => k (b :: bs)

/-- Write bytes one after the other. -/
def stores (a : Nat) : Bytes → Steps Unit
  | [] => done (.ok ())
  | b :: bs => store a b (stores (a + 1) bs)

theorem read_succ (m : Mem) (a n : Nat) : m.read a (n + 1) = m.byte a :: m.read (a + 1) n := by
  simp only [Mem.read, List.range_succ_eq_map, List.map_cons, List.map_map, Nat.add_zero]
  congr 1
  apply List.map_congr_left
  intro i _
  simp only [Function.comp]
  congr 1
  omega

theorem alone_loads (n : Nat) : ∀ {k : Bytes → Steps α} {a : Nat} (m : Mem),
    (loads a n k).alone m.byte = (k (m.read a n)).alone m.byte := by
  induction n with
  | zero => intro k a m; rfl
  | succ n ih => intro k a m; simp only [loads, alone]; rw [ih, read_succ]

theorem touches_loads (n : Nat) : ∀ {k : Bytes → Steps α} {a : Nat} (m : Mem),
    (loads a n k).touches m.byte = (List.range n).map (fun i => ⟨a + i, false⟩) ++ (k (m.read a n)).touches m.byte := by
  induction n with
  | zero => intro k a m; rfl
  | succ n ih =>
    intro k a m
    simp only [loads, touches]
    rw [ih, read_succ, List.range_succ_eq_map]
    simp only [List.map_cons, List.map_map, List.cons_append, Nat.add_zero]
    congr 2
    apply List.map_congr_left
    intro i _
    simp only [Function.comp]
    congr 1
    omega

theorem alone_stores (bs : Bytes) : ∀ {a : Nat} (m : Mem), (stores a bs).alone m.byte = (.ok (), (m.write a bs).byte) := by
  induction bs with
  | nil => intro a m; simp only [stores, alone, Mem.write]; congr 1; funext i; simp
  | cons b bs ih =>
    intro a m
    simp only [stores, alone]
    rw [show Store.set m.byte a b = ({ m with byte := Store.set m.byte a b } : Mem).byte from rfl, ih]
    congr 1
    funext i
    simp only [Mem.write, Store.set]
    by_cases h1 : a + 1 ≤ i
    · have h2 : a ≤ i := by omega
      have h3 : i - a = (i - (a + 1)) + 1 := by omega
      rw [if_pos h1, if_pos h2, h3, List.getElem?_cons_succ, if_neg (by omega)]
    · rw [if_neg h1]
      by_cases h2 : i = a
      · subst h2; simp
      · rw [if_neg h2, if_neg (by omega)]

theorem touches_stores (bs : Bytes) : ∀ {a : Nat} (m : Store), (stores a bs).touches m = (List.range bs.length).map fun i => ⟨a + i, true⟩ := by
  induction bs with
  | nil => intro a m; rfl
  | cons b bs ih =>
    intro a m
    simp only [stores, touches]
    rw [ih, List.length_cons, List.range_succ_eq_map]
    simp only [List.map_cons, List.map_map, Nat.add_zero]
    congr 1
    apply List.map_congr_left
    intro i _
    simp only [Function.comp]
    congr 1
    omega

/-! ### Every computation on memory can be carried out byte by byte -/

/-- The computation can be carried out. -/
def Doable (c : M Mem α) : Prop := ∃ s : Steps α, s.CarriesOut c

theorem Doable.lift (r : Res α) : Doable (M.lift r) := ⟨done r, fun m => ⟨rfl, [], (List.append_nil _).symm, fun x h => by cases h⟩⟩
theorem Doable.pure (a : α) : Doable (Pure.pure a : M Mem α) := Doable.lift (.ok a)
theorem Doable.panic (y : Why) : Doable (M.panic y : M Mem α) := Doable.lift (.panic y)
theorem Doable.assert (b : Bool) : Doable (M.assert b : M Mem Unit) := by
  cases b
  · exact Doable.lift (.panic .assertion)
  · exact Doable.lift (.ok ())

theorem Doable.bind {c : M Mem α} {g : α → M Mem β} (hc : Doable c) (hg : ∀ a, Doable (g a)) : Doable (c >>= g) := by
  obtain ⟨s, hs⟩ := hc
  obtain ⟨f, hf⟩ := Classical.axiomOfChoice hg
  refine ⟨s.andThen f, fun m => ?_⟩
  obtain ⟨e, l, el, hl⟩ := hs m
  rw [alone_andThen, touches_andThen, e]
  rcases h : c m with ⟨r, m1⟩
  rw [h] at el
  cases r with
  | ok a =>
    obtain ⟨e', l', el', hl'⟩ := hf a m1
    rw [M.bind_ok h]
    refine ⟨e', l ++ l', by rw [el', show m1.log = _ from el, List.append_assoc], fun x hx => ?_⟩
    rcases List.mem_append.1 hx with hx | hx
    · obtain ⟨y, hy, k⟩ := hl x hx
      exact ⟨y, List.mem_append_left _ hy, k⟩
    · obtain ⟨y, hy, k⟩ := hl' x hx
      exact ⟨y, List.mem_append_right _ hy, k⟩
  | panic y => rw [M.bind_panic h]; exact ⟨rfl, l, el, by simpa using hl⟩
  | ub => rw [M.bind_ub h]; exact ⟨rfl, l, el, by simpa using hl⟩
  | abort => rw [M.bind_abort h]; exact ⟨rfl, l, el, by simpa using hl⟩

theorem Doable.caught {c : M Mem α} (hc : Doable c) : Doable c.caught := by
  obtain ⟨s, hs⟩ := hc
  refine ⟨s.caught, fun m => ?_⟩
  obtain ⟨e, l, el, hl⟩ := hs m
  rw [alone_caught, touches_caught, e]
  unfold M.caught
  rcases h : c m with ⟨r, m1⟩
  rw [h] at el
  cases r <;> simp only [h] <;> exact ⟨trivial, l, el, hl⟩

theorem Doable.load (a n al : Nat) : Doable (Mem.load a n al) := by
  refine ⟨loads a n fun bs => done (.ok bs), fun m => ⟨alone_loads n m, [⟨a, n, al, false⟩], rfl, fun x hx => ?_⟩⟩
  rw [touches_loads] at hx
  simp only [touches, List.append_nil, List.mem_map, List.mem_range] at hx
  obtain ⟨i, hi, rfl⟩ := hx
  exact ⟨_, List.mem_singleton.2 rfl, by simp, by simp only; omega, fun h => by cases h⟩

theorem Doable.store (a : Nat) (bs : Bytes) (al : Nat) : Doable (Mem.store a bs al) := by
  refine ⟨stores a bs, fun m => ⟨alone_stores bs m, [⟨a, bs.length, al, true⟩], rfl, fun x hx => ?_⟩⟩
  rw [touches_stores] at hx
  simp only [List.mem_map, List.mem_range] at hx
  obtain ⟨i, hi, rfl⟩ := hx
  exact ⟨_, List.mem_singleton.2 rfl, by simp, by simp only; omega, fun _ => rfl⟩

end Steps
end Dync
