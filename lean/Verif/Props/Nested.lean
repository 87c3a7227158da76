import Verif.NestedLemmas3
import Verif.Props.ExampleDyn
/-!
# C98 Containers of containers, to any depth
-/
namespace Dync
variable {U : Type} {Γ : TyEnv U} {t : TyId} {N : Nesting U}

/-! ### What the memory says -/

/-- The value with image `b` is the nested list `T`: the bytes of its buffer are the images of its elements, and so on. -/
def Reads (Γ : TyEnv U) (t : TyId) (N : Nesting U) : (n : Nat) → Depth U n → Bytes → Tree n → Prop
  | 0, _, b, T => T = b
  | n + 1, s, b, T => ∃ c es, Nest.pool s b = some c ∧ Repr (Γ.depth N n) (Nest.world s).heap (depthTy t n) es c.data ∧
      List.Forall₂ (Reads Γ t N n (Nest.world s).user) es T

theorem forall₂_of_map {α β γ : Type} {f : α → β} {g : α → γ} {R : β → γ → Prop} :
    ∀ {l : List α}, (∀ a ∈ l, R (f a) (g a)) → List.Forall₂ R (l.map f) (l.map g)
  | [], _ => .nil
  | _ :: _, h => .cons (h _ List.mem_cons_self) (forall₂_of_map fun a ha => h a (List.mem_cons_of_mem _ ha))

theorem Forest.reads : ∀ {n : Nat} {leaks : Bool} {s : Depth U n} {vs : List (Bytes × Tree n)} {B : Below n}, Forest Γ t N leaks n s vs B →
    ∀ v ∈ vs, Reads Γ t N n s v.1 v.2
  | 0, _, _, _, _, h, v, hv => (h v hv).1
  | n + 1, _, s, _, _, ⟨ns, lost, h1, h2, h3, h4⟩, v, hv => by
    obtain ⟨p, hp, rfl⟩ := List.mem_map.1 (h1.mem_iff.2 hv)
    obtain ⟨-, d, hd, R⟩ := h2.is p hp
    refine ⟨_, p.2.map Prod.fst, hd, R, forall₂_of_map fun a ha => ?_⟩
    exact h4.reads a (List.mem_append_right _ (List.mem_flatMap.2 ⟨p, hp, ha⟩))

/-- All variables hold what the nested lists say. -/
def ReadsAll (Γ : TyEnv U) (t : TyId) (N : Nesting U) : (n : Nat) → Depth U n → Vars (fun _ => Bytes) (n + 1) → Vars Tree (n + 1) → Prop
  | 0, s, vs, ts => List.Forall₂ (Reads Γ t N 0 s) vs.1 ts.1
  | n + 1, s, vs, ts => List.Forall₂ (Reads Γ t N (n + 1) s) vs.1 ts.1 ∧ ReadsAll Γ t N n (Nest.world s).user vs.2 ts.2

theorem Forest.readsAll : ∀ {n : Nat} {leaks : Bool} {s : Depth U n} {E : List (Bytes × Tree n)} {v : Below (n + 1)}, Forest Γ t N leaks n s (E ++ v.1) v.2 →
    ReadsAll Γ t N n s (v.map fun _ => Prod.fst) (v.map fun _ => Prod.snd)
  | 0, _, _, _, _, h => forall₂_of_map fun a ha => h.reads a (List.mem_append_right _ ha)
  | n + 1, _, s, E, (l, (m, B)), h => by
    refine ⟨forall₂_of_map fun a ha => h.reads a (List.mem_append_right _ ha), ?_⟩
    obtain ⟨ns, lost, -, -, -, h4⟩ := h
    refine Forest.readsAll (v := (m, B)) (E := lost ++ ns.flatMap Prod.snd) (h4.perm ?_)
    show ((lost ++ m) ++ ns.flatMap Prod.snd).Perm _
    rw [List.append_assoc, List.append_assoc]
    exact List.perm_append_comm.append_left lost

/-! ### The specification does not break when user code does not -/

/-- The user's `Drop` and `Clone` are safe code: no undefined behaviour on values of the type. -/
def SafeCode (Γ : TyEnv U) (t : TyId) : Prop :=
  (∀ b u, b.length = Γ.size t → (Γ.drop t b u).1 ≠ .ub) ∧ ∀ b u, b.length = Γ.size t → (Γ.clone t b u).1 ≠ .ub

/-- All values in the nested list are values of the type. -/
def Sized (Γ : TyEnv U) (t : TyId) : (n : Nat) → Tree n → Prop
  | 0, x => List.length (α := Byte) x = Γ.size t
  | n + 1, ts => ∀ T ∈ (show List (Tree n) from ts), Sized Γ t n T

def SizedAll (Γ : TyEnv U) (t : TyId) : (n : Nat) → Vars Tree n → Prop
  | 0, _ => True
  | n + 1, (vs, low) => (∀ T ∈ vs, Sized Γ t n T) ∧ SizedAll Γ t n low

theorem forEach_safe {α σ : Type} {f : α → M σ Unit} : ∀ {l : List α}, (∀ a ∈ l, ∀ s, (f a s).1 ≠ .ub) → ∀ (s : σ), (M.forEach l f s).1 ≠ .ub
  | [], _, s => by intro h; cases h
  | a :: l, h, s => by
    rw [M.forEach_cons]
    have ha := h a List.mem_cons_self s
    rcases hx : f a s with ⟨r, s'⟩
    rw [hx] at ha
    cases r with
    | ok _ => rw [M.bind_ok hx]; exact forEach_safe (fun b hb => h b (List.mem_cons_of_mem _ hb)) s'
    | panic y => rw [M.bind_panic hx]; intro h; cases h
    | ub => exact absurd rfl ha
    | abort => rw [M.bind_abort hx]; intro h; cases h

theorem mapEach_safe {α β σ : Type} {P : β → Prop} {f : α → M σ β} :
    ∀ {l : List α}, (∀ a ∈ l, ∀ s, (f a s).1 ≠ .ub ∧ ∀ b, (f a s).1 = .ok b → P b) →
      ∀ (s : σ), (M.mapEach l f s).1 ≠ .ub ∧ ∀ bs, (M.mapEach l f s).1 = .ok bs → ∀ b ∈ bs, P b
  | [], _, s => ⟨(by intro h; cases h), (by intro bs h b hb; cases h; cases hb)⟩
  | a :: l, h, s => by
    rw [M.mapEach_cons]
    have ha := h a List.mem_cons_self s
    rcases hx : f a s with ⟨r, s'⟩
    rw [hx] at ha
    cases r with
    | ok b0 =>
      rw [M.bind_ok hx]
      have hl := mapEach_safe (fun b hb => h b (List.mem_cons_of_mem _ hb)) s'
      rcases hy : M.mapEach l f s' with ⟨r, s2⟩
      rw [hy] at hl
      cases r with
      | ok bs0 =>
        rw [M.bind_ok hy]
        refine ⟨(by intro h; cases h), fun bs hb b hm => ?_⟩
        cases hb
        rcases List.mem_cons.1 hm with rfl | hm
        · exact ha.2 _ rfl
        · exact hl.2 _ rfl b hm
      | panic y => rw [M.bind_panic hy]; exact ⟨(by intro h; cases h), (by intro bs h; cases h)⟩
      | ub => exact absurd rfl hl.1
      | abort => rw [M.bind_abort hy]; exact ⟨(by intro h; cases h), (by intro bs h; cases h)⟩
    | panic y => rw [M.bind_panic hx]; exact ⟨(by intro h; cases h), (by intro bs h; cases h)⟩
    | ub => exact absurd rfl ha.1
    | abort => rw [M.bind_abort hx]; exact ⟨(by intro h; cases h), (by intro bs h; cases h)⟩

theorem dropTree_safe (h : SafeCode Γ t) : ∀ (n : Nat) (T : Tree n) (u : U), Sized Γ t n T → (dropTree Γ t n T u).1 ≠ .ub
  | 0, T, u, hs => h.1 T u hs
  | n + 1, _, u, hs => forEach_safe (fun T hT u => dropTree_safe h n T u (hs T hT)) u

theorem cloneTree_safe (h : SafeCode Γ t) : ∀ (n : Nat) (T : Tree n) (u : U), Sized Γ t n T →
    (cloneTree Γ t n T u).1 ≠ .ub ∧ ∀ T', (cloneTree Γ t n T u).1 = .ok T' → Sized Γ t n T'
  | 0, T, u, hs => by
    refine ⟨h.2 T u hs, fun T' hT => ?_⟩
    exact Γ.clone_len (t := t) (b := T) (u := u) (b' := T') (u' := (Γ.clone t T u).2) (Prod.ext (y := (_, _)) hT rfl)
  | n + 1, _, u, hs => mapEach_safe (fun T hT u => cloneTree_safe h n T u (hs T hT)) u

theorem spec_safe (h : SafeCode Γ t) : ∀ {n : Nat} (a : Act n) (q : Vars Tree (n + 1) × U), SizedAll Γ t (n + 1) q.1 →
    (a.spec Γ t q).1 ≠ .ub ∧ SizedAll Γ t (n + 1) (a.spec Γ t q).2.1
  | _, .value x, ((vs, low), u), hs => by
    simp only [Act.spec]
    split
    · refine ⟨(by intro h; cases h), fun T hT => ?_, hs.2⟩
      rcases List.mem_cons.1 hT with rfl | hT
      · assumption
      · exact hs.1 T hT
    · exact ⟨(by intro h; cases h), hs⟩
  | n, .drop i, ((vs, low), u), hs => by
    simp only [Act.spec]
    split
    · exact ⟨(by intro h; cases h), hs⟩
    · rename_i T hT
      exact ⟨dropTree_safe h n _ u (hs.1 T (List.mem_of_getElem? hT)), fun T hT => hs.1 T (List.mem_of_mem_eraseIdx hT), hs.2⟩
  | n, .clone i, ((vs, low), u), hs => by
    simp only [Act.spec]
    split
    · exact ⟨(by intro h; cases h), hs⟩
    · rename_i T hT
      have := cloneTree_safe h n T u (hs.1 T (List.mem_of_getElem? hT))
      rcases hc : cloneTree Γ t n T u with ⟨r, u'⟩
      rw [hc] at this
      cases r with
      | ub => exact absurd rfl this.1
      | ok T' =>
        refine ⟨(by intro h; cases h), fun T hT => ?_, hs.2⟩
        rcases List.mem_cons.1 hT with rfl | hT
        · exact this.2 _ rfl
        · exact hs.1 T hT
      | panic _ => exact ⟨(by intro h; cases h), hs⟩
      | abort => exact ⟨(by intro h; cases h), hs⟩
  | n + 1, .room _, ((vs, low), u), hs => by
    refine ⟨(by intro h; cases h), fun T hT => ?_, hs.2⟩
    rcases List.mem_cons.1 hT with rfl | hT
    · intro T hT; cases hT
    · exact hs.1 T hT
  | n + 1, .new, ((vs, low), u), hs => by
    refine ⟨(by intro h; cases h), fun T hT => ?_, hs.2⟩
    rcases List.mem_cons.1 hT with rfl | hT
    · intro T hT; cases hT
    · exact hs.1 T hT
  | n + 1, .push i j, ((vs, (us, low)), u), hs => by
    simp only [Act.spec]
    split
    · rename_i T x hT hx
      refine ⟨(by intro h; cases h), fun T' hT' => ?_, fun x hx => hs.2.1 x (List.mem_of_mem_eraseIdx hx), hs.2.2⟩
      rcases List.mem_or_eq_of_mem_set hT' with hT' | rfl
      · exact hs.1 T' hT'
      · intro y hy
        rcases List.mem_append.1 hy with hy | hy
        · exact hs.1 T (List.mem_of_getElem? hT) y hy
        · rw [List.mem_singleton.1 hy]
          exact hs.2.1 x (List.mem_of_getElem? hx)
    · exact ⟨(by intro h; cases h), hs⟩
  | n + 1, .take i, ((vs, (us, low)), u), hs => by
    simp only [Act.spec]
    split
    · exact ⟨(by intro h; cases h), hs⟩
    · rename_i T hT
      refine ⟨(by intro h; cases h), fun T hT => hs.1 T (List.mem_of_mem_eraseIdx hT), fun x hx => ?_, hs.2.2⟩
      rcases List.mem_append.1 hx with hx | hx
      · exact hs.1 T (List.mem_of_getElem? hT) x hx
      · exact hs.2.1 x hx
  | n + 1, .pack k, ((vs, (us, low)), u), hs => by
    simp only [Act.spec]
    refine ⟨(by intro h; cases h), fun T hT => ?_, fun x hx => hs.2.1 x (List.mem_of_mem_drop hx), hs.2.2⟩
    rcases List.mem_cons.1 hT with rfl | hT
    · exact fun x hx => hs.2.1 x (List.mem_of_mem_take hx)
    · exact hs.1 T hT
  | n + 1, .pick i k, ((vs, (us, low)), u), hs => by
    simp only [Act.spec]
    split
    · exact ⟨(by intro h; cases h), hs⟩
    · rename_i T hT
      split
      · exact ⟨(by intro h; cases h), hs⟩
      · rename_i x hx
        have := cloneTree_safe h n x u (hs.1 T (List.mem_of_getElem? hT) x (List.mem_of_getElem? hx))
        rcases hc : cloneTree Γ t n x u with ⟨r, u'⟩
        rw [hc] at this
        cases r with
        | ub => exact absurd rfl this.1
        | ok x' =>
          refine ⟨(by intro h; cases h), hs.1, fun y hy => ?_, hs.2.2⟩
          rcases List.mem_cons.1 hy with rfl | hy
          · exact this.2 _ rfl
          · exact hs.2.1 y hy
        | panic _ => exact ⟨(by intro h; cases h), hs⟩
        | abort => exact ⟨(by intro h; cases h), hs⟩
  | n + 1, .swap i k j, ((vs, (us, low)), u), hs => by
    simp only [Act.spec]
    split
    · rename_i T x hT hx
      split
      · exact ⟨(by intro h; cases h), hs⟩
      · rename_i y hy
        have hTs := hs.1 T (List.mem_of_getElem? hT)
        refine ⟨(by intro h; cases h), fun T' hT' => ?_, fun z hz => ?_, hs.2.2⟩
        · rcases List.mem_or_eq_of_mem_set hT' with hT' | rfl
          · exact hs.1 T' hT'
          · intro z hz
            rcases List.mem_or_eq_of_mem_set hz with hz | rfl
            · exact hTs z hz
            · exact hs.2.1 _ (List.mem_of_getElem? hx)
        · rcases List.mem_or_eq_of_mem_set hz with hz | rfl
          · exact hs.2.1 z hz
          · exact hTs _ (List.mem_of_getElem? hy)
    · exact ⟨(by intro h; cases h), hs⟩
  | n + 1, .clear i, ((vs, low), u), hs => by
    simp only [Act.spec]
    split
    · exact ⟨(by intro h; cases h), hs⟩
    · rename_i T hT
      refine ⟨dropTree_safe h (n + 1) T u (hs.1 T (List.mem_of_getElem? hT)), fun S hS => ?_, hs.2⟩
      rcases List.mem_or_eq_of_mem_set hS with hS | rfl
      · exact hs.1 S hS
      · intro y hy; cases hy
  | n + 2, .append i j, ((vs, low), u), hs => by
    simp only [Act.spec]
    split
    · exact ⟨(by intro h; cases h), hs⟩
    · split
      · rename_i T T' hT hT'
        refine ⟨(by intro h; cases h), fun S hS => ?_, hs.2⟩
        rcases List.mem_or_eq_of_mem_set hS with hS | rfl
        · rcases List.mem_or_eq_of_mem_set hS with hS | rfl
          · exact hs.1 S hS
          · intro y hy
            rcases List.mem_append.1 hy with hy | hy
            · exact hs.1 T (List.mem_of_getElem? hT) y hy
            · exact hs.1 T' (List.mem_of_getElem? hT') y hy
        · intro y hy; cases hy
      · exact ⟨(by intro h; cases h), hs⟩
  | n + 2, .rotate left i k, ((vs, low), u), hs => by
    simp only [Act.spec]
    split
    · exact ⟨(by intro h; cases h), hs⟩
    · rename_i T hT
      split
      · refine ⟨(by intro h; cases h), fun S hS => ?_, hs.2⟩
        rcases List.mem_or_eq_of_mem_set hS with hS | rfl
        · exact hs.1 S hS
        · intro y hy
          exact hs.1 T (List.mem_of_getElem? hT) y ((rotated_perm left k T).mem_iff.1 hy)
      · exact ⟨(by intro h; cases h), hs⟩
  | n + 1, .inner a, ((vs, low), u), hs => by
    obtain ⟨h1, h2⟩ := spec_safe h a (low, u) hs.2
    exact ⟨h1, hs.1, h2⟩

theorem runActs_safe {σ A : Type} {I : σ → Prop} {f : A → M σ Unit} (h : ∀ a s, I s → (f a s).1 ≠ .ub ∧ I (f a s).2) :
    ∀ (as : List A) (s : σ), I s → (runActs f as s).1 ≠ .ub
  | [], s, _ => by intro h; cases h
  | a :: as, s, hi => by
    unfold runActs
    have ha := h a s hi
    rcases hx : f a s with ⟨r, s'⟩
    rw [hx] at ha
    have hs := runActs_safe h as s' ha.2
    rcases hy : runActs f as s' with ⟨q, s2⟩
    rw [hy] at hs
    cases r with
    | ub => exact absurd rfl ha.1
    | abort => intro h; cases h
    | ok _ =>
      dsimp only
      rw [hy]
      cases q with
      | ub => exact absurd rfl hs
      | ok _ => intro h; cases h
      | panic _ => intro h; cases h
      | abort => intro h; cases h
    | panic _ =>
      dsimp only
      rw [hy]
      cases q with
      | ub => exact absurd rfl hs
      | ok _ => intro h; cases h
      | panic _ => intro h; cases h
      | abort => intro h; cases h

theorem sizedAll_none : ∀ n, SizedAll Γ t n (Vars.none n)
  | 0 => trivial
  | n + 1 => ⟨(fun _ h => by cases h), sizedAll_none n⟩

/-! ### The property -/

section
variable {n : Nat} {as : List (Act n)} {s : Depth U n} {s' : Vars (fun _ => Bytes) (n + 1) × Depth U n}

theorem agree_start (hc : Clean n s) (hw : Depth.WF n s) : ActsAgree Γ t N false n (Vars.none (n + 1), s) (Vars.none (n + 1), s.base) := by
  obtain ⟨B, b1, b2, b3⟩ := Forest.start (Γ := Γ) (t := t) (N := N) hc hw
  exact ⟨rfl, ([], B), [], congrArg ([], ·) b1, congrArg ([], ·) b2, fun _ => rfl, b3⟩

/-- A program with values, containers of them, containers of such containers and so on, which makes new containers,
pushes values into them, clones, drops and clears, appends, rotates, clones or exchanges elements, takes containers
apart and makes containers of vectors, and whose user code may panic (`Drop` not while a container is cleared): each of its actions returns or panics as it does with
nested lists, user code is called with the same values in the same order, and at the end every variable holds the nested
list it should. -/
theorem C98_program {rs : List (Option Why)} (hpos : 0 < Γ.size t) (hc : Clean n s) (hw : Depth.WF n s) (hq : ClearsCalmly Γ t as (Vars.none (n + 1), s.base))
    (he : runActs (Act.run Γ t N) as (Vars.none (n + 1), s) = (.ok rs, s')) :
    ∃ trees, runActs (Act.spec Γ t) as (Vars.none (n + 1), s.base) = (.ok rs, (trees, s'.2.base)) ∧ ReadsAll Γ t N n s'.2 s'.1 trees := by
  obtain ⟨⟨trees, u⟩, h1, h2, v, lost, h3, h4, -, h5⟩ := acts_agree hpos as hq (agree_start hc hw) he
  have h2 : s'.2.base = u := h2
  have h3 : v.map (fun _ => Prod.fst) = s'.1 := h3
  have h4 : v.map (fun _ => Prod.snd) = trees := h4
  subst h2 h4
  refine ⟨_, h1, ?_⟩
  rw [← h3]
  exact h5.readsAll

/-- Such a program has no undefined behaviour if the user's `Drop` and `Clone` have none: no container is dropped twice or
used after it has been dropped, at any depth, also after panics. -/
theorem C98_safe (hu : SafeCode Γ t) (hpos : 0 < Γ.size t) (hc : Clean n s) (hw : Depth.WF n s) (hq : ClearsCalmly Γ t as (Vars.none (n + 1), s.base)) :
    (runActs (Act.run Γ t N) as (Vars.none (n + 1), s)).1 ≠ .ub := by
  intro h
  rcases he : runActs (Act.run Γ t N) as (Vars.none (n + 1), s) with ⟨r, s'⟩
  rw [he] at h
  cases h
  exact runActs_safe (I := fun q => SizedAll Γ t (n + 1) q.1) (fun a s => spec_safe hu a s) as _ (sizedAll_none (n + 1))
    (acts_agree hpos as hq (agree_start hc hw) he)

/-- If nothing panicked and the program has dropped or moved all its variables, then no container and no memory is left at
any depth. -/
theorem C98_nothing_left {rs : List (Option Why)} (hpos : 0 < Γ.size t) (hc : Clean n s) (hw : Depth.WF n s) (hq : ClearsCalmly Γ t as (Vars.none (n + 1), s.base))
    (he : runActs (Act.run Γ t N) as (Vars.none (n + 1), s) = (.ok rs, s')) (hr : ∀ r ∈ rs, r = none) (hv : s'.1 = Vars.none (n + 1)) :
    Clean n s'.2 := by
  obtain ⟨q, -, -, v, lost, h3, -, h4, h5⟩ := acts_agree hpos as hq (agree_start hc hw) he
  have hany : (false || rs.any Option.isSome) = false := by
    rw [Bool.false_or, List.any_eq_false]
    intro r hx
    rw [hr r hx]
    intro h; cases h
  rw [hany] at h4 h5
  cases h4 rfl
  rw [hv] at h3
  have h31 : v.1 = [] := List.map_eq_nil_iff.1 (congrArg Prod.fst h3)
  rw [h31] at h5
  exact Forest.clean h5 (congrArg Prod.snd h3)

/-- Dropping a variable at any depth, in a state that a program has reached: user code runs on each of the values in it once,
from left to right, until one panics; the other variables, at all depths, hold what they did. -/
theorem C98_drop {leaks : Bool} {v : Bytes × Tree n} {rest : List (Bytes × Tree n)} {B : Below n} {u' : Depth U n} {r : Res Unit}
    (hf : Forest Γ t N leaks n s (v :: rest) B) (he : (Γ.depth N n).drop (depthTy t n) v.1 s = (r, u')) :
    dropTree Γ t n v.2 s.base = (r, u'.base) ∧
      ((r = .ok () ∨ ∃ y, r = .panic y) → ReadsAll Γ t N n u' (Vars.map (n := n + 1) (fun _ => Prod.fst) (rest, B)) (Vars.map (n := n + 1) (fun _ => Prod.snd) (rest, B))) := by
  obtain ⟨h1, h2, h3⟩ := drop_forest hf he
  refine ⟨h1, ?_⟩
  rintro (rfl | ⟨y, rfl⟩)
  · exact Forest.readsAll (E := []) (v := (rest, B)) (h2 rfl)
  · obtain ⟨lost, h4⟩ := h3 y rfl
    exact Forest.readsAll (v := (rest, B)) h4

/-- Cloning a variable at any depth: user code runs on each of the values in it once, from left to right, until one panics;
the clone holds the same nested list of clones, in buffers of its own, and all variables hold what they did. -/
theorem C98_clone {leaks : Bool} {v : Bytes × Tree n} {vs : List (Bytes × Tree n)} {B : Below n} {u' : Depth U n} {b : Bytes}
    (hf : Forest Γ t N leaks n s vs B) (hv : v ∈ vs) (he : (Γ.depth N n).clone (depthTy t n) v.1 s = (.ok b, u')) :
    ∃ T, cloneTree Γ t n v.2 s.base = (.ok T, u'.base) ∧
      ReadsAll Γ t N n u' (Vars.map (n := n + 1) (fun _ => Prod.fst) ((b, T) :: vs, B)) (Vars.map (n := n + 1) (fun _ => Prod.snd) ((b, T) :: vs, B)) := by
  obtain ⟨T, h1, h2⟩ := clone_forest hf hv he
  exact ⟨T, h1, Forest.readsAll (E := []) (v := ((b, T) :: vs, B)) h2⟩

end

theorem noClear {Γ : TyEnv U} {t : TyId} {n : Nat} : ∀ {as : List (Act n)} (_ : as.all (fun a => !a.clears) = true) {q : Vars Tree (n + 1) × U},
    ClearsCalmly Γ t as q
  | [], _, _ => trivial
  | a :: as, h, q => by
    rw [List.all_cons, Bool.and_eq_true] at h
    refine ⟨fun hc => ?_, noClear h.2⟩
    rw [hc] at h
    cases h.1

/-- The condition of C98, for a program that has been run with nested lists: no `clear` was among the actions that panicked. -/
theorem calm_of_run {Γ : TyEnv U} {t : TyId} {n : Nat} : ∀ {as : List (Act n)} {q q' : Vars Tree (n + 1) × U} {rs : List (Option Why)},
    runActs (Act.spec Γ t) as q = (.ok rs, q') → (as.zip rs).all (fun p => !p.1.clears || p.2.isNone) = true → ClearsCalmly Γ t as q
  | [], _, _, _, _, _ => trivial
  | a :: as, q, q', rs, he, h => by
    unfold runActs at he
    unfold ClearsCalmly
    rcases hx : a.spec Γ t q with ⟨r, q1⟩
    rw [hx] at he
    rcases hy : runActs (Act.spec Γ t) as q1 with ⟨x, q2⟩
    cases r with
    | ok _ =>
      dsimp only at he
      rw [hy] at he
      cases x with
      | ok rs' =>
        cases he
        rw [List.zip_cons_cons, List.all_cons, Bool.and_eq_true] at h
        exact ⟨(fun _ _ h => by cases h), calm_of_run hy h.2⟩
      | panic _ => cases he
      | ub => cases he
      | abort => cases he
    | panic y =>
      dsimp only at he
      rw [hy] at he
      cases x with
      | ok rs' =>
        cases he
        rw [List.zip_cons_cons, List.all_cons, Bool.and_eq_true] at h
        refine ⟨fun hc => ?_, calm_of_run hy h.2⟩
        rw [hc] at h
        cases h.1
      | panic _ => cases he
      | ub => cases he
      | abort => cases he
    | ub => cases he
    | abort => cases he

theorem act_quiet {Γ : TyEnv U} {t : TyId} (h : ∀ x u y, (Γ.drop t x u).1 ≠ .panic y) : ∀ {n : Nat} (a : Act n) (_ : a.clears = true) (q : Vars Tree (n + 1) × U) y,
    (a.spec Γ t q).1 ≠ .panic y
  | n + 1, .clear i, _, ((vs, low), u), y => by
    simp only [Act.spec]
    split
    · intro h; cases h
    · exact dropTree_quiet h (n + 1) _ u y
  | n + 1, .inner a, hc, ((vs, low), u), y => act_quiet h a hc (low, u) y
  | _, .value _, hc, _, _ => by cases hc
  | _, .drop _, hc, _, _ => by cases hc
  | _, .clone _, hc, _, _ => by cases hc
  | _, .new, hc, _, _ => by cases hc
  | _, .room _, hc, _, _ => by cases hc
  | _, .push _ _, hc, _, _ => by cases hc
  | _, .take _, hc, _, _ => by cases hc
  | _, .pack _, hc, _, _ => by cases hc
  | _, .pick _ _, hc, _, _ => by cases hc
  | _, .swap _ _ _, hc, _, _ => by cases hc
  | _, .append _ _, hc, _, _ => by cases hc
  | _, .rotate _ _ _, hc, _, _ => by cases hc

/-- The condition of C98 is met by every program if the user's `Drop` never panics. -/
theorem calm_of_quiet {Γ : TyEnv U} {t : TyId} {n : Nat} (h : ∀ x u y, (Γ.drop t x u).1 ≠ .panic y) : ∀ (as : List (Act n)) (q : Vars Tree (n + 1) × U),
    ClearsCalmly Γ t as q
  | [], _ => trivial
  | a :: as, q => ⟨fun hc => act_quiet h a hc q, calm_of_quiet h as _⟩

/-! ### An example -/

namespace Ex

/-- Images of one word; the first one that is not in use. -/
def nesting : Nesting Log where
  cfg := ⟨true⟩
  words := 1
  pos := by decide
  small := by decide
  fresh s := ((List.range 200).map fun k => some (UInt8.ofNat k) :: List.replicate 7 (some 0)).find? (fun b => (s.pool b).isNone) |>.getD []

/-- Nothing exists yet. -/
def bare : Depth Log 2 :=
  (⟨fun _ => none, ⟨⟨0, fun _ => none⟩, (⟨fun _ => none, ⟨⟨0, fun _ => none⟩, []⟩⟩ : Nest Log)⟩⟩ : Nest (Nest Log))

theorem bare_clean : Clean 2 bare := ⟨fun _ => rfl, fun _ => rfl, fun _ => rfl, fun _ => rfl, trivial⟩

theorem bare_wf : Depth.WF 2 bare := ⟨fun _ _ => rfl, fun _ _ => rfl, trivial⟩

/-- `[[g1, g2], [x]]`, and a clone of it. -/
def building (x : Bytes) : List (Act 2) :=
  [.inner (.inner (.value g1)), .inner (.inner (.value g2)), .inner (.inner (.value x)),
    .inner .new, .inner (.push 0 2), .inner (.push 0 1), .inner .new, .inner (.push 0 0),
    .new, .push 0 1, .push 0 0, .clone 0]

/-- The buffers of the three containers, and the clones of them, are in use. -/
theorem built : (runActs (Act.run env 7 nesting) (building g1) (Vars.none 3, bare)).1 = .ok (List.replicate 12 none) := by decide +kernel

example : ∃ trees, runActs (Act.spec env 7) (building g1) (Vars.none 3, []) = (.ok (List.replicate 12 none),
      (trees, (runActs (Act.run env 7 nesting) (building g1) (Vars.none 3, bare)).2.2.base)) ∧
    ReadsAll env 7 nesting 2 (runActs (Act.run env 7 nesting) (building g1) (Vars.none 3, bare)).2.2
      (runActs (Act.run env 7 nesting) (building g1) (Vars.none 3, bare)).2.1 trees :=
  C98_program (by decide) bare_clean bare_wf (noClear (by decide)) (Prod.ext (y := (_, _)) built rfl)

/-- The list and its clone. -/
example : (show List (List (List Bytes)) from (runActs (Act.spec env 7) (building g1) (Vars.none 3, [])).2.1.1) =
    [[[g1, g2], [g1]], [[g1, g2], [g1]]] := by decide +kernel

/-- Cloning a value that panics, in the second of the inner containers: the program goes on and drops the list, in which the
`Drop` of that value does not panic. -/
example : (runActs (Act.run env 7 nesting) (building badClone ++ [.drop 0]) (Vars.none 3, bare)).1 =
    .ok (List.replicate 11 none ++ [some .user, none]) := by decide +kernel

theorem safe7 : SafeCode env 7 := by
  refine ⟨fun b u _ => ?_, fun b u hb => ?_⟩
  · show (drop 7 b u).1 ≠ .ub
    unfold drop
    split
    · intro h; cases h
    · split
      · intro h; cases h
      · intro h; cases h
  · show (clone 7 b u).1 ≠ .ub
    unfold clone
    rw [if_neg (fun h => h hb)]
    split
    · intro h; cases h
    · intro h; cases h

/-- A value whose `Drop` panics: the program catches it and goes on with the clone. -/
def panicking : List (Act 2) := building badDrop ++ [.drop 1, .clone 0, .inner .new, .push 0 0, .drop 1]

example : (runActs (Act.run env 7 nesting) panicking (Vars.none 3, bare)).1 ≠ .ub := C98_safe safe7 (by decide) bare_clean bare_wf (noClear (by decide))

example : (runActs (Act.run env 7 nesting) panicking (Vars.none 3, bare)).1 =
    .ok (List.replicate 12 none ++ [some .user, none, none, none, some .user]) := by decide +kernel

/-- The list and its clone are dropped: nothing is left. -/
theorem dropped : (runActs (Act.run env 7 nesting) (building g1 ++ [.drop 0, .drop 0]) (Vars.none 3, bare)).1 = .ok (List.replicate 14 none) := by
  decide +kernel

theorem dropped_vars : (runActs (Act.run env 7 nesting) (building g1 ++ [.drop 0, .drop 0]) (Vars.none 3, bare)).2.1 = Vars.none 3 := by
  show (show List Bytes × List Bytes × List Bytes × Unit from _) = ([], [], [], ())
  decide +kernel

example : Clean 2 (runActs (Act.run env 7 nesting) (building g1 ++ [.drop 0, .drop 0]) (Vars.none 3, bare)).2.2 :=
  C98_nothing_left (by decide) bare_clean bare_wf (noClear (by decide)) (Prod.ext (y := (_, _)) dropped rfl) (fun r hr => (List.mem_replicate.1 hr).2) dropped_vars

/-- The clone's first container moves to the second place, a new one takes its place, it is cloned there, and the list is
taken apart; so is the container that came out. -/
def parting : List (Act 2) := building g1 ++ [.inner .new, .swap 0 0 0, .swap 0 1 0, .pick 0 1, .take 0, .inner (.take 3)]

theorem parted : (runActs (Act.run env 7 nesting) parting (Vars.none 3, bare)).1 = .ok (List.replicate 18 none) := by decide +kernel

example : ∃ trees, runActs (Act.spec env 7) parting (Vars.none 3, []) = (.ok (List.replicate 18 none),
      (trees, (runActs (Act.run env 7 nesting) parting (Vars.none 3, bare)).2.2.base)) ∧
    ReadsAll env 7 nesting 2 (runActs (Act.run env 7 nesting) parting (Vars.none 3, bare)).2.2
      (runActs (Act.run env 7 nesting) parting (Vars.none 3, bare)).2.1 trees :=
  C98_program (by decide) bare_clean bare_wf (noClear (by decide)) (Prod.ext (y := (_, _)) parted rfl)

example : (show List (List (List Bytes)) from (runActs (Act.spec env 7) parting (Vars.none 3, [])).2.1.1) = [[[g1, g2], [g1]]] := by
  decide +kernel

example : (show List (List Bytes) from (runActs (Act.spec env 7) parting (Vars.none 3, [])).2.1.2.1) = [[], [g1, g2], [g1, g2]] := by
  decide +kernel

example : (show List Bytes from (runActs (Act.spec env 7) parting (Vars.none 3, [])).2.1.2.2.1) = [g1] := by decide +kernel

/-- What was taken apart is put together again with `from_vec`: two of the inner containers make a new list; the value that is left
makes an inner container, and no value at all another one, which is pushed on the new list; `with_capacity` makes two more
lists. -/
def packing : List (Act 2) := parting ++ [.pack 2, .inner (.pack 4), .inner (.pack 4), .pack 0, .push 1 0, .room 3, .room 0]

theorem packed : (runActs (Act.run env 7 nesting) packing (Vars.none 3, bare)).1 = .ok (List.replicate 25 none) := by decide +kernel

example : ∃ trees, runActs (Act.spec env 7) packing (Vars.none 3, []) = (.ok (List.replicate 25 none),
      (trees, (runActs (Act.run env 7 nesting) packing (Vars.none 3, bare)).2.2.base)) ∧
    ReadsAll env 7 nesting 2 (runActs (Act.run env 7 nesting) packing (Vars.none 3, bare)).2.2
      (runActs (Act.run env 7 nesting) packing (Vars.none 3, bare)).2.1 trees :=
  C98_program (by decide) bare_clean bare_wf (noClear (by decide)) (Prod.ext (y := (_, _)) packed rfl)

example : (show List (List (List Bytes)) from (runActs (Act.spec env 7) packing (Vars.none 3, [])).2.1.1) =
    [[], [], [], [[], [g1, g2], []], [[g1, g2], [g1]]] := by decide +kernel

example : (show List (List Bytes) from (runActs (Act.spec env 7) packing (Vars.none 3, [])).2.1.2.1) = [[g1], [g1, g2]] := by
  decide +kernel

/-- The original is moved to the end of its clone; nothing of it is left behind, and the clone is dropped with all. -/
def joining : List (Act 2) := building g1 ++ [.append 0 1, .append 0 0, .append 0 5]

theorem joined : (runActs (Act.run env 7 nesting) joining (Vars.none 3, bare)).1 = .ok (List.replicate 15 none) := by decide +kernel

example : ∃ trees, runActs (Act.spec env 7) joining (Vars.none 3, []) = (.ok (List.replicate 15 none),
      (trees, (runActs (Act.run env 7 nesting) joining (Vars.none 3, bare)).2.2.base)) ∧
    ReadsAll env 7 nesting 2 (runActs (Act.run env 7 nesting) joining (Vars.none 3, bare)).2.2
      (runActs (Act.run env 7 nesting) joining (Vars.none 3, bare)).2.1 trees :=
  C98_program (by decide) bare_clean bare_wf (noClear (by decide)) (Prod.ext (y := (_, _)) joined rfl)

example : (show List (List (List Bytes)) from (runActs (Act.spec env 7) joining (Vars.none 3, [])).2.1.1) = [[[g1, g2], [g1], [g1, g2], [g1]], []] := by
  decide +kernel

/-- Numbers (type 2): a list of two lists and its clone; the clone is cleared, and so is another list. -/
def clearing : List (Act 2) := [.inner (.inner (.value a1)), .inner (.inner (.value a2)), .inner .new, .inner (.push 0 0), .inner (.push 0 0),
  .inner (.clone 0), .inner (.clone 0), .new, .push 0 0, .push 0 0, .clone 0, .clear 0, .inner (.clear 0)]

theorem cleared : (runActs (Act.run env 2 nesting) clearing (Vars.none 3, bare)).1 = .ok (List.replicate 13 none) := by decide +kernel

theorem calm2 {n : Nat} (as : List (Act n)) (q : Vars Tree (n + 1) × Log) : ClearsCalmly env 2 as q :=
  calm_of_quiet (fun x u y h => by cases h) as q

example : ∃ trees, runActs (Act.spec env 2) clearing (Vars.none 3, []) = (.ok (List.replicate 13 none),
      (trees, (runActs (Act.run env 2 nesting) clearing (Vars.none 3, bare)).2.2.base)) ∧
    ReadsAll env 2 nesting 2 (runActs (Act.run env 2 nesting) clearing (Vars.none 3, bare)).2.2
      (runActs (Act.run env 2 nesting) clearing (Vars.none 3, bare)).2.1 trees :=
  C98_program (by decide) bare_clean bare_wf (calm2 _ _) (Prod.ext (y := (_, _)) cleared rfl)

example : (show List (List (List Bytes)) from (runActs (Act.spec env 2) clearing (Vars.none 3, [])).2.1.1) =
    [[], [[a2, a1], [a2, a1]]] := by decide +kernel

example : (show List (List Bytes) from (runActs (Act.spec env 2) clearing (Vars.none 3, [])).2.1.2.1) = [[]] := by decide +kernel

/-- A type whose `Drop` panics for some values (type 7): one list of lists is rotated and cleared, which calls `Drop` for good
values, and then a list with a bad one is dropped, which panics. -/
def turning : List (Act 2) := building g1 ++ [.rotate true 0 1, .rotate false 1 1, .rotate true 0 3, .clear 0, .inner (.inner (.value badDrop)), .inner .new,
  .inner (.push 0 0), .inner (.drop 0)]

theorem turned : (runActs (Act.run env 7 nesting) turning (Vars.none 3, bare)).1 =
    .ok (List.replicate 14 none ++ [some .assertion, none, none, none, none, some .user]) := by decide +kernel

theorem turned_spec : (runActs (Act.spec env 7) turning (Vars.none 3, [])).1 =
    .ok (List.replicate 14 none ++ [some .assertion, none, none, none, none, some .user]) := by decide +kernel

theorem calm_turning : ClearsCalmly env 7 turning (Vars.none 3, []) := calm_of_run (Prod.ext (y := (_, _)) turned_spec rfl) (by decide +kernel)

example : ∃ trees, runActs (Act.spec env 7) turning (Vars.none 3, []) = (.ok (List.replicate 14 none ++ [some .assertion, none, none, none, none, some .user]),
      (trees, (runActs (Act.run env 7 nesting) turning (Vars.none 3, bare)).2.2.base)) ∧
    ReadsAll env 7 nesting 2 (runActs (Act.run env 7 nesting) turning (Vars.none 3, bare)).2.2
      (runActs (Act.run env 7 nesting) turning (Vars.none 3, bare)).2.1 trees :=
  C98_program (by decide) bare_clean bare_wf calm_turning (Prod.ext (y := (_, _)) turned rfl)

example : (show List (List (List Bytes)) from (runActs (Act.spec env 7) turning (Vars.none 3, [])).2.1.1) = [[], [[g1], [g1, g2]]] := by
  decide +kernel

/-- There is no element at that place: the program panics and goes on. -/
example : (runActs (Act.run env 7 nesting) (building g1 ++ [.pick 0 2, .inner .new, .swap 0 2 0, .drop 0]) (Vars.none 3, bare)).1 =
    .ok (List.replicate 12 none ++ [some .assertion, none, some .assertion, none]) := by decide +kernel

/-- User code saw three clones, and then the drops of six values in order. -/
example : (runActs (Act.run env 7 nesting) (building g1 ++ [.drop 0, .drop 0]) (Vars.none 3, bare)).2.2.base =
    (runActs (Act.spec env 7) (building g1 ++ [.drop 0, .drop 0]) (Vars.none 3, [])).2.2 := by decide +kernel

end Ex

section
variable {U : Type} {Γ : TyEnv U} {t : TyId} {N : Nesting U}

/-- A container that does not exist does not come back by dropping others. -/
theorem drop_gone {W : Type} {cfg : Cfg} {b x : Bytes} {s : Nest W} (h : s.pool b = none) : (Nest.drop cfg x s).2.pool b = none := by
  unfold Nest.drop
  dsimp only
  split
  · exact h
  · show (if b = x then none else s.pool b) = none
    split
    · rfl
    · exact h

theorem drop_none {W : Type} {cfg : Cfg} {b : Bytes} {s : Nest W} (h : s.pool b = none) : Nest.drop cfg b s = (.ub, s) := by
  unfold Nest.drop
  dsimp only
  rw [h]

theorem drops_gone {W : Type} {cfg : Cfg} {b : Bytes} : ∀ {l : List Bytes} {s s' : Nest W} {r : Res Unit}, s.pool b = none →
    M.forEach l (Nest.drop cfg) s = (r, s') → s'.pool b = none
  | [], _, _, _, h, he => by cases he; exact h
  | x :: l, s, s', r, h, he => by
    rw [M.forEach_cons] at he
    have h1 := drop_gone (cfg := cfg) (x := x) h
    rcases hx : Nest.drop cfg x s with ⟨r, s'⟩
    rw [hx] at h1
    cases r with
    | ok _ => rw [M.bind_ok hx] at he; exact drops_gone h1 he
    | panic y => rw [M.bind_panic hx] at he; cases he; exact h1
    | ub => rw [M.bind_ub hx] at he; cases he; exact h1
    | abort => rw [M.bind_abort hx] at he; cases he; exact h1

/-- What happens when `clear` panics: if the first of the containers in it could be dropped, a later drop of the container
is undefined behaviour, for it still holds that one. -/
theorem C98_clear_panic {n : Nat} {leaks : Bool} {s s' : Depth U (n + 2)} {v : Bytes × Tree (n + 2)} {rest : List (Bytes × Tree (n + 2))} {B : Below (n + 2)}
    {T : Tree (n + 1)} {Ts : List (Tree (n + 1))} {y : Why} (hf : Forest Γ t N leaks (n + 2) s (v :: rest) B) (hv : v.2 = List.cons (α := Tree (n + 1)) T Ts)
    (hT : (dropTree Γ t (n + 1) T s.base).1 = .ok ()) (he : Nest.clear N.cfg (8 * N.words) N.fresh (Γ.depth N (n + 1)) v.1 s = (.panic y, s')) :
    ((Γ.depth N (n + 2)).drop (depthTy t (n + 2)) v.1 s').1 = .ub := by
  obtain ⟨p, ns, lost, rfl, -, hn, -, hb⟩ := Forest.pick hf
  obtain ⟨-, d, hc, R⟩ := hn.is p List.mem_cons_self
  obtain ⟨b, k⟩ := p
  cases k with
  | nil => cases hv
  | cons x k =>
    have hx : x.2 = T := (List.cons.inj (show x.2 :: k.map Prod.snd = T :: Ts from hv)).1
    subst hx
    rcases hd : (Γ.depth N (n + 1)).drop (depthTy t (n + 1)) x.1 (Nest.world s).user with ⟨r1, u1⟩
    obtain ⟨h1, -⟩ := drop_forest hb hd
    have h1 : dropTree Γ t (n + 1) x.2 s.base = (r1, u1.base) := h1
    rw [h1] at hT
    cases hT
    -- the first container is gone
    have hd' : Nest.drop N.cfg x.1 (Nest.world s).user = (.ok (), u1) := by
      have hd : (if Nest.ty = Nest.ty then Nest.drop N.cfg x.1 else pure ()).run (Nest.world s).user = (.ok (), u1) := hd
      rwa [if_pos rfl] at hd
    have hgone : Nest.pool u1 x.1 = none := by
      have h2 : (Nest.drop N.cfg x.1 (Nest.world s).user).2.pool x.1 = none := by
        unfold Nest.drop
        dsimp only
        split
        · assumption
        · show (if x.1 = x.1 then none else _) = none
          rw [if_pos rfl]
      rw [hd'] at h2
      exact h2
    have hdrop : (Γ.depth N (n + 1)).drop (depthTy t (n + 1)) = (Nest.drop N.cfg : Bytes → M (Depth U (n + 1)) Unit) := by
      funext z
      show (if Nest.ty = Nest.ty then Nest.drop N.cfg z else pure ()) = _
      rw [if_pos rfl]
    rcases hk : M.forEach ((x :: k).map Prod.fst) ((Γ.depth N (n + 1)).drop (depthTy t (n + 1))) (Nest.world s).user with ⟨q, u2⟩
    have hgone2 : Nest.pool u2 x.1 = none := by
      rw [List.map_cons, M.forEach_cons, M.bind_ok hd, hdrop] at hk
      exact drops_gone (cfg := N.cfg) (l := k.map Prod.fst) hgone hk
    -- the container still holds it
    have hs' : Nest.pool s' b = some ⟨d, CloneVTable.build (Γ.depth N (n + 1)) (depthTy t (n + 1))⟩ ∧ Nest.world s' = ⟨(Nest.world s).heap, u2⟩ := by
      have he : Nest.clear N.cfg (8 * N.words) N.fresh (Γ.depth N (n + 1)) b s = (.panic y, s') := he
      unfold Nest.clear at he
      dsimp only at he
      rw [hc] at he
      dsimp only at he
      by_cases hq : q = .ok ()
      · subst hq
        rw [VecDyn.clear_ok (cfg := N.cfg) (c := ⟨d, CloneVTable.build (Γ.depth N (n + 1)) (depthTy t (n + 1))⟩) R (lawfulDrop_build _ _) hk] at he
        dsimp only at he
        rcases enter_cases (8 * N.words) N.fresh ⟨⟨d.ptr, 0, d.cap, d.elem, []⟩, CloneVTable.build (Γ.depth N (n + 1)) (depthTy t (n + 1))⟩
          (Nest.set s b none ⟨(Nest.world s).heap, u2⟩) with e | ⟨b', e, -⟩
        · rw [e] at he; cases he
        · rw [e] at he; cases he
      · rw [clear_stops R hk hq] at he
        cases q with
        | ok _ => exact absurd rfl hq
        | panic z =>
          cases he
          refine ⟨?_, rfl⟩
          show (if b = b then _ else _) = _
          rw [if_pos rfl]
        | ub => cases he
        | abort => cases he
    have hk2 : M.forEach ((x :: k).map Prod.fst) ((Γ.depth N (n + 1)).drop (depthTy t (n + 1))) u2 = (.ub, u2) := by
      rw [List.map_cons, M.forEach_cons, hdrop]
      exact M.bind_ub (drop_none hgone2)
    have hR : Repr (Γ.depth N (n + 1)) (Nest.world s').heap (depthTy t (n + 1)) ((x :: k).map Prod.fst)
        (VecCopy.data (⟨d, CloneVTable.build (Γ.depth N (n + 1)) (depthTy t (n + 1))⟩ : VecDyn (CloneVTable (Depth U (n + 1))))) := by
      rw [hs'.2]; exact R
    have hend : (VecDyn.drop N.cfg (⟨d, CloneVTable.build (Γ.depth N (n + 1)) (depthTy t (n + 1))⟩ : VecDyn (CloneVTable (Depth U (n + 1)))) (Nest.world s')).1 = .ub := by
      unfold VecDyn.drop
      rw [M.bind_ok (VecCopy.byteChunks_ok hR _), VecDyn.dropLoop_eq (lawfulDrop_build _ _) R.each]
      rw [hs'.2]
      rw [M.bind_ub (worldUser_of hk2)]
    have hfin : (Γ.depth N (n + 2)).drop (depthTy t (n + 2)) b = (Nest.drop N.cfg b : M (Depth U (n + 2)) Unit) := by
      show (if Nest.ty = Nest.ty then Nest.drop N.cfg b else pure ()) = _
      rw [if_pos rfl]
    show ((Γ.depth N (n + 2)).drop (depthTy t (n + 2)) b s').1 = .ub
    rw [hfin]
    show (Nest.drop N.cfg b s').1 = .ub
    unfold Nest.drop
    dsimp only
    rw [hs'.1]
    exact hend

end

/-- The states that the theorems about single steps speak of are reached: after a program that has one variable at the
outermost level. -/
theorem reached_one {U : Type} {Γ : TyEnv U} {t : TyId} {N : Nesting U} {n : Nat} {as : List (Act n)} {s : Depth U n}
    {s' : Vars (fun _ => Bytes) (n + 1) × Depth U n} {rs : List (Option Why)} {T : Tree n} (hpos : 0 < Γ.size t) (hc : Clean n s) (hw : Depth.WF n s)
    (hq : ClearsCalmly Γ t as (Vars.none (n + 1), s.base)) (he : runActs (Act.run Γ t N) as (Vars.none (n + 1), s) = (.ok rs, s'))
    (hT : (runActs (Act.spec Γ t) as (Vars.none (n + 1), s.base)).2.1.1 = [T]) :
    ∃ b lost B leaks, s'.1.1 = [b] ∧ (runActs (Act.spec Γ t) as (Vars.none (n + 1), s.base)).2.2 = s'.2.base ∧
      Forest Γ t N leaks n s'.2 ((b, T) :: lost) B := by
  obtain ⟨⟨trees, u⟩, h1, h2, v, lost, h3, h4, -, h5⟩ := acts_agree hpos as hq (agree_start hc hw) he
  have h2 : s'.2.base = u := h2
  have h3 : v.map (fun _ => Prod.fst) = s'.1 := h3
  have h4 : v.map (fun _ => Prod.snd) = trees := h4
  rw [h1] at hT ⊢
  have h6 : List.map Prod.snd v.1 = [T] := (congrArg Prod.fst h4).trans hT
  have h7 : List.map Prod.fst v.1 = s'.1.1 := congrArg Prod.fst h3
  generalize v.1 = l at h6 h7 h5
  cases l with
  | nil => cases h6
  | cons p l =>
    cases l with
    | cons => have := congrArg List.length h6; cases this
    | nil =>
      obtain ⟨b, T'⟩ := p
      cases h6
      exact ⟨b, lost, v.2, _, h7.symm, h2.symm, h5.perm List.perm_append_comm⟩

namespace Ex

def why? {α : Type} : Res α → Option Why
  | .panic y => some y
  | _ => none

/-- A list of two lists; the value in the second one cannot be dropped. -/
def pair : List (Act 2) := [.inner (.inner (.value badDrop)), .inner (.inner (.value g1)), .inner .new, .inner (.push 0 0), .inner .new, .inner (.push 0 0), .new,
  .push 0 1, .push 0 0]

def pairState : Vars (fun _ => Bytes) 3 × Depth Log 2 := (runActs (Act.run env 7 nesting) pair (Vars.none 3, bare)).2

theorem paired : (runActs (Act.run env 7 nesting) pair (Vars.none 3, bare)).1 = .ok (List.replicate 9 none) := by decide +kernel

def list2 : Tree 2 := ([[g1], [badDrop]] : List (List Bytes))

theorem pair_spec : (show List (List (List Bytes)) from (runActs (Act.spec env 7) pair (Vars.none 3, [])).2.1.1) = [[[g1], [badDrop]]] := by decide +kernel

theorem pair_user : (runActs (Act.spec env 7) pair (Vars.none 3, [])).2.2 = [] := by decide +kernel

theorem pair_reached : ∃ b lost B leaks, pairState.1.1 = [b] ∧ pairState.2.base = [] ∧ Forest env 7 nesting leaks 2 pairState.2 ((b, list2) :: lost) B := by
  obtain ⟨b, lost, B, leaks, h1, h2, h3⟩ := reached_one (Γ := env) (t := 7) (N := nesting) (n := 2) (T := list2) (by decide) bare_clean bare_wf
    (noClear (by decide)) (Prod.ext (y := (_, _)) paired rfl) pair_spec
  exact ⟨b, lost, B, leaks, h1, h2.symm.trans pair_user, h3⟩

/-- Dropping that list panics, and the others are as before. -/
example : ∃ b, pairState.1.1 = [b] ∧ ∃ u', (env.depth nesting 2).drop 1 b pairState.2 = (.panic .user, u') ∧ u'.base = [.dropped 7 g1] := by
  obtain ⟨b, lost, B, leaks, h1, h2, h3⟩ := pair_reached
  rcases hd : (env.depth nesting 2).drop 1 b pairState.2 with ⟨r, u'⟩
  obtain ⟨h4, -⟩ := C98_drop h3 hd
  rw [h2] at h4
  have h5 : dropTree env 7 2 list2 [] = (.panic .user, [.dropped 7 g1]) := by rfl
  rw [h5] at h4
  have h6 : Res.panic .user = r := congrArg Prod.fst h4
  subst h6
  exact ⟨b, h1, u', hd, (congrArg Prod.snd h4).symm⟩

/-- Clearing it panics, and it must not be dropped afterwards. -/
example : ∃ b, pairState.1.1 = [b] ∧ ∃ s', Nest.clear nesting.cfg (8 * nesting.words) nesting.fresh (env.depth nesting 1) b pairState.2 = (.panic .user, s') ∧
    ((env.depth nesting 2).drop 1 b s').1 = .ub := by
  obtain ⟨b, lost, B, leaks, h1, h2, h3⟩ := pair_reached
  have h4 : (match pairState.1.1 with
    | [b] => why? (Nest.clear nesting.cfg (8 * nesting.words) nesting.fresh (env.depth nesting 1) b pairState.2).1
    | _ => none) = some .user := by decide +kernel
  rw [h1] at h4
  rcases hc : Nest.clear nesting.cfg (8 * nesting.words) nesting.fresh (env.depth nesting 1) b pairState.2 with ⟨r, s'⟩
  have h4 : why? (Nest.clear nesting.cfg (8 * nesting.words) nesting.fresh (env.depth nesting 1) b pairState.2).1 = some .user := h4
  rw [hc] at h4
  cases r with
  | panic y =>
    cases h4
    exact ⟨b, h1, s', hc, C98_clear_panic (n := 0) h3 (T := ([g1] : List Bytes)) (Ts := [([badDrop] : List Bytes)]) rfl (by rw [h2]; rfl) hc⟩
  | ok _ => cases h4
  | ub => cases h4
  | abort => cases h4

end Ex

/-- The condition on `Drop` is needed: if the second list in a list has a value whose `Drop` panics, `clear` panics after
the first list has been dropped, and the list still has both. Dropping the list is then undefined behaviour (the first
list is dropped again), although the user's code has none and the nested lists get along. -/
theorem C98_clear_condition : SafeCode Ex.env 7 ∧ ∃ as : List (Act 2),
    (runActs (Act.run Ex.env 7 Ex.nesting) as (Vars.none 3, Ex.bare)).1 = .ub ∧
    ∃ rs, (runActs (Act.spec Ex.env 7) as (Vars.none 3, [])).1 = .ok rs :=
  ⟨Ex.safe7, [.inner (.inner (.value Ex.badDrop)), .inner (.inner (.value Ex.g1)), .inner .new, .inner (.push 0 0), .inner .new, .inner (.push 0 0), .new,
    .push 0 1, .push 0 0, .clear 0, .drop 0], by decide +kernel, List.replicate 9 none ++ [some .user, none], by decide +kernel⟩

end Dync
