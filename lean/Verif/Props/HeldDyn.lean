import Verif.HeldDynLemmas3
import Verif.Props.HeldViews
import Verif.Props.DynViewProgs
/-!
# C86 Mutable views of non-`Copy` elements held at the same time are separate lists
-/
namespace Dync
variable {U V : Type} [HasDrop U V] [HasClone U V] {Γ : TyEnv U} {cfg : Cfg} {n : Nat} {m : Mem} {w : World U}
  {ρ : Nat → Option (PtrView V)} {σ : Lists} {vt : TyId → V}

/-- A program that holds any number of views of elements with destructors at once does what it does if every view is a list of
its own: it reads the same values or ends like it, also if a destructor or `Clone` panics while the other views are held; each
view then has the elements of its list, and destructors and clones ran in the same order. Bytes outside of the views stay. Boxes
are freed, except for those that are counted as leaked: at most one, and none if the program returns. -/
theorem C86_views (hd : ∀ t, LawfulDrop Γ t (vt t)) (H : HeldAt Γ n m ρ σ) (T : Tabled (U := U) Γ ρ σ) (wf : w.heap.WF) (l : Nat)
    (p : KProg U) (hs : p.Sized Γ) (hr : p.InRange Γ cfg n (shape σ)) :
    ∃ r m' h', p.runAt Γ cfg vt n ρ (m, w) = (r, (m', ⟨h', (p.plain Γ n (σ, ⟨l, w.user⟩)).2.2.user⟩)) ∧
      r.Alike (p.plain Γ n (σ, ⟨l, w.user⟩)).1 ∧ HeldAt Γ n m' ρ (p.plain Γ n (σ, ⟨l, w.user⟩)).2.1 ∧
      shape (p.plain Γ n (σ, ⟨l, w.user⟩)).2.1 = shape σ ∧
      (∀ x, (∀ k v, ρ k = some v → ¬ v.Covers x) → m'.byte x = m.byte x) ∧
      ∃ lost, Realloc w.heap none h' lost ∧ (∀ i, lost = some i → h'.live i ≠ none) ∧
        (p.plain Γ n (σ, ⟨l, w.user⟩)).2.2.leaked = l + lost.toList.length ∧ ∀ a, r = .ok a → lost = none := by
  have K := p.sim (cfg := cfg) hd hs n m w l ρ σ H T wf hr
  refine ⟨_, _, (p.runAt Γ cfg vt n ρ (m, w)).2.2.heap, ?_, K.res, K.mem.held, K.mem.shape, K.mem.frame, K.heap⟩
  rw [← K.user]

/-- All accesses are aligned and inside of views that the program holds. -/
theorem C86_accesses (hd : ∀ t, LawfulDrop Γ t (vt t)) (H : HeldAt Γ n m ρ σ) (T : Tabled (U := U) Γ ρ σ) (wf : w.heap.WF)
    (p : KProg U) (hs : p.Sized Γ) (hr : p.InRange Γ cfg n (shape σ)) :
    ∃ l, (p.runAt Γ cfg vt n ρ (m, w)).2.1.log = m.log ++ l ∧ ∀ a ∈ l, ∃ k v, ρ k = some v ∧ a.Within v.addr v.len :=
  (p.sim (cfg := cfg) hd hs n m w 0 ρ σ H T wf hr).mem.log

/-- A view that the program does not change keeps its bytes, whatever the program does with the others, whatever user code does
and wherever it panics. Cloning from a view does not change it. -/
theorem C86_untouched (hd : ∀ t, LawfulDrop Γ t (vt t)) (H : HeldAt Γ n m ρ σ) (T : Tabled (U := U) Γ ρ σ) (wf : w.heap.WF)
    (p : KProg U) (hs : p.Sized Γ) (hr : p.InRange Γ cfg n (shape σ)) {k : Nat} {v : PtrView V} (hv : ρ k = some v) (hk : ¬ p.Changes k) :
    v.contents (p.runAt Γ cfg vt n ρ (m, w)).2.1 = v.contents m := by
  obtain ⟨r, m', h', e, -, H', -⟩ := C86_views (cfg := cfg) hd H T wf 0 p hs hr
  rw [e]
  have hn : k < n := Nat.lt_of_not_le fun h => by rw [H.fresh k h] at hv; cases hv
  have e' := p.plain_other (Γ := Γ) hk n hn (σ, ⟨0, w.user⟩)
  simp only [PtrView.contents]
  rw [contents_eq_of_held H' H hv e']

/-- A program that only reads and exchanges values, within views and between them, runs no code of the elements and leaks
nothing, and no value is lost or doubled: every value is in the views as often as before, also after a panic. -/
theorem C86_moves (hd : ∀ t, LawfulDrop Γ t (vt t)) (H : HeldAt Γ n m ρ σ) (T : Tabled (U := U) Γ ρ σ) (wf : w.heap.WF)
    (p : KProg U) (hs : p.Sized Γ) (hr : p.InRange Γ cfg n (shape σ)) (hm : p.Moves) :
    ∃ r m' h' σ', p.runAt Γ cfg vt n ρ (m, w) = (r, (m', ⟨h', w.user⟩)) ∧ HeldAt Γ n m' ρ σ' ∧ shape σ' = shape σ ∧
      (∀ t x, howMany σ' n t x = howMany σ n t x) ∧ Realloc w.heap none h' none := by
  obtain ⟨r, m', h', e, -, H', S, -, lost, hl, -, hc, -⟩ := C86_views (cfg := cfg) hd H T wf 0 p hs hr
  have K := p.moves (Γ := Γ) hm n (σ, ⟨0, w.user⟩) fun k hk => (H.none_iff k).1 (H.fresh k hk)
  rw [K.out] at e hc
  refine ⟨r, m', h', _, e, H', S, K.count, ?_⟩
  cases lost with
  | none => exact hl
  | some i => simp at hc

/-- The views that `as_mut_slice` of different containers returns can be held at once, for every allocator. Afterwards each
container has the elements the lists say, also if user code panics, and all other blocks are as before. -/
theorem C86_containers (hd : ∀ t, LawfulDrop Γ t (vt t)) {base : Nat → Nat} (P : Placed w.heap base) {c : Nat → VecDyn V} {b : Nat → Nat}
    (hn : ∀ k, n ≤ k → σ k = none) (hc : StoredAt Γ n m w.heap base c b σ) (hb : ∀ j k, j < n → k < n → j ≠ k → b j ≠ b k)
    (ht : ∀ k, k < n → ∀ t es, σ k = some (t, es) → LawfulClone Γ t (c k).vtable) (wf : w.heap.WF) (l : Nat)
    (p : KProg U) (hs : p.Sized Γ) (hr : p.InRange Γ cfg n (shape σ)) :
    ∃ r m' h', p.runAt Γ cfg vt n (viewsOf n c fun k => base (b k)) (m, w) =
        (r, (m', ⟨h', (p.plain Γ n (σ, ⟨l, w.user⟩)).2.2.user⟩)) ∧
      r.Alike (p.plain Γ n (σ, ⟨l, w.user⟩)).1 ∧
      (∀ k, k < n → ∃ t es, (p.plain Γ n (σ, ⟨l, w.user⟩)).2.1 k = some (t, es) ∧
        Repr Γ h' t es { (c k).data with mem := m'.read (base (b k)) (c k).data.mem.length }) ∧
      (∀ j lay, (∀ k, k < n → b k ≠ j) → w.heap.live j = some lay → m'.read (base j) lay.size = m.read (base j) lay.size) ∧
      ∃ lost, Realloc w.heap none h' lost ∧ (∀ i, lost = some i → h'.live i ≠ none) ∧
        (p.plain Γ n (σ, ⟨l, w.user⟩)).2.2.leaked = l + lost.toList.length ∧ ∀ a, r = .ok a → lost = none := by
  have T : Tabled (U := U) Γ (viewsOf n c fun k => base (b k)) σ := by
    intro k v t es hv hk
    by_cases h : k < n
    · simp only [viewsOf, if_pos h, Option.some.injEq] at hv
      subst hv
      exact ht k h t es hk
    · simp only [viewsOf, if_neg h] at hv; cases hv
  obtain ⟨r, m', h', e, A, H', S, B, lost, hl, hlo⟩ := C86_views (cfg := cfg) hd (hc.held P hn hb) T wf l p hs hr
  refine ⟨r, m', h', e, A, fun k hk => ?_, hc.others P B, lost, hl, hlo⟩
  obtain ⟨t, es, h1, R⟩ := hc.after H' S k hk
  refine ⟨t, es, h1, R.frame_realloc wf hl ?_⟩
  obtain ⟨i, hi, -⟩ := R.block
  rw [hi]
  simp

/-! ### Examples -/

namespace Ex

/-- Two live blocks: room for two values of type 7 each. -/
def kWorld : World Log := ⟨⟨2, fun i => if i = 0 then some ⟨16, 8⟩ else if i = 1 then some ⟨16, 8⟩ else none⟩, []⟩
/-- The memory with the containers `[g1, g2]` and `[badClone, g2]`. -/
def kMem : Mem :=
  ⟨fun a => if 64 ≤ a ∧ a < 80 then ([g1, g2].flatten)[a - 64]?.getD none
    else if 80 ≤ a ∧ a < 96 then ([badClone, g2].flatten)[a - 80]?.getD none else some 9, []⟩
def kVecs (k : Nat) : VecDyn (CloneVTable Log) :=
  if k = 0 then ⟨vec 7 [g1, g2] 2, cloneVT 7⟩ else ⟨{ vec 7 [badClone, g2] 2 with ptr := some 1 }, cloneVT 7⟩
def kLists : Lists := fun k => if k = 0 then some (7, [g1, g2]) else if k = 1 then some (7, [badClone, g2]) else none

theorem kPlaced : Placed kWorld.heap heldBase := by
  constructor
  · intro i l h
    simp only [kWorld] at h
    split at h
    · rename_i e; cases h; subst e; decide
    · split at h
      · rename_i e; cases h; subst e; decide
      · cases h
  · intro i j k l hij h1 h2
    simp only [kWorld] at h1 h2
    split at h1 <;> split at h2 <;> rename_i e1 e2
    · omega
    · split at h2
      · rename_i e3; cases h1; cases h2; subst e1 e3; decide
      · cases h2
    · split at h1
      · rename_i e3; cases h1; cases h2; subst e2 e3; decide
      · cases h1
    · split at h1 <;> split at h2
      · omega
      · cases h2
      · cases h1
      · cases h1

theorem kWf : kWorld.heap.WF := by
  intro i hi
  have : 2 ≤ i := hi
  simp only [kWorld, if_neg (show ¬ i = 0 by omega), if_neg (show ¬ i = 1 by omega)]

theorem kStored : StoredAt env 2 kMem kWorld.heap heldBase kVecs id kLists := by
  intro k hk
  match k with
  | 0 =>
    refine ⟨7, [g1, g2], rfl, ?_, rfl, by decide +kernel⟩
    exact ⟨rfl, Nat.div_mul_cancel (env.align_dvd 7), rfl, by decide, rfl, by decide, rfl, by decide, by decide, by unfold Room; decide, 0, rfl, rfl⟩
  | 1 =>
    refine ⟨7, [badClone, g2], rfl, ?_, rfl, by decide +kernel⟩
    exact ⟨rfl, Nat.div_mul_cancel (env.align_dvd 7), rfl, by decide, rfl, by decide, rfl, by decide, by decide, by unfold Room; decide, 1, rfl, rfl⟩
  | k + 2 => omega

theorem kFree : ∀ k, 2 ≤ k → kLists k = none := by intro k hk; match k with | k + 2 => rfl

theorem kTables : ∀ k, k < 2 → ∀ t es, kLists k = some (t, es) → LawfulClone env t (kVecs k).vtable := by
  intro k hk t es h
  match k with
  | 0 => cases h; exact cloneVT_clone 7
  | 1 => cases h; exact cloneVT_clone 7
  | k + 2 => omega

theorem kHeld : HeldAt env 2 kMem (viewsOf 2 kVecs heldBase) kLists := kStored.held (b := id) kPlaced kFree (fun _ _ _ _ h => h)

theorem kTabled : Tabled (U := Log) env (viewsOf 2 kVecs heldBase) kLists := by
  intro k v t es hv hk
  by_cases h : k < 2
  · simp only [viewsOf, if_pos h, Option.some.injEq] at hv
    subst hv
    exact kTables k h t es hk
  · simp only [viewsOf, if_neg h] at hv; cases hv

/-- Hold both values of the first container and both halves of the second one. Exchange the first value with the one in the second
half, assign to the second value, and clone the value in the first half into it, which panics. -/
def kProg : KProg Log :=
  .cut 0 .values (.cut 1 (.split 1) (.seq (.swapValues 2 0 5 0) (.seq (.on 3 (.assign 0 7 g1)) (.cloneValue 3 0 4 0))))

theorem kProg_sized : kProg.Sized env := by simp only [kProg, KProg.Sized, VProg.Sized]; decide
theorem kProg_inRange : kProg.InRange env ⟨false⟩ 2 (shape kLists) := by
  simp [kProg, KProg.InRange, VProg.InRange, Cut.InRange, Cut.sizes, shape, kLists, opened, NoWrap, env, size, usizeMax]

theorem kProg_plain : (kProg.plain env 2 (kLists, ⟨0, []⟩)).1 = .panic .user ∧
    (kProg.plain env 2 (kLists, ⟨0, []⟩)).2.1 0 = some (7, [g2, g1]) ∧ (kProg.plain env 2 (kLists, ⟨0, []⟩)).2.1 1 = some (7, [badClone, g1]) ∧
    (kProg.plain env 2 (kLists, ⟨0, []⟩)).2.2.user = [.dropped 7 g2] ∧ (kProg.plain env 2 (kLists, ⟨0, []⟩)).2.2.leaked = 0 := by
  decide +kernel

/-- Exchange values between parts of both containers, and rotate one. -/
def kMoves : KProg Log := .cut 0 (.chunks 1) (.seq (.swapValues 2 0 1 1) (.seq (.on 1 (.look (.rotateLeft 1))) (.swapValues 3 0 1 0)))

theorem kMoves_sized : kMoves.Sized env := by simp only [kMoves, KProg.Sized, VProg.Sized, and_true]
theorem kMoves_inRange : kMoves.InRange env ⟨true⟩ 2 (shape kLists) := by
  simp [kMoves, KProg.InRange, VProg.InRange, Look.prog, SProg.InRange, Cut.InRange, Cut.sizes, shape, kLists, opened, NoWrap, env, size, usizeMax]
theorem kMoves_plain : (kMoves.plain env 2 (kLists, ⟨0, []⟩)).1 = .ok [] ∧
    (kMoves.plain env 2 (kLists, ⟨0, []⟩)).2.1 0 = some (7, [g2, g1]) ∧ (kMoves.plain env 2 (kLists, ⟨0, []⟩)).2.1 1 = some (7, [g2, badClone]) := by
  decide +kernel

end Ex

open Ex in
example := C86_views (cfg := ⟨false⟩) cloneVT_drop kHeld kTabled kWf 0 kProg kProg_sized kProg_inRange

open Ex in
/-- Cloning all values of the second container into the first one leaves the second one as it is. -/
example := C86_untouched (cfg := ⟨false⟩) (k := 1) cloneVT_drop kHeld kTabled kWf (.seq (.cloneSlice 0 1 7) (.on 0 (.assign 0 7 g1)))
  (by simp only [KProg.Sized, VProg.Sized, true_and]; decide)
  (by simp [KProg.InRange, VProg.InRange, shape, kLists, NoWrap, env, size, usizeMax]) rfl (by simp [KProg.Changes])

open Ex in
example := C86_moves (cfg := ⟨true⟩) cloneVT_drop kHeld kTabled kWf kMoves kMoves_sized kMoves_inRange (by simp [kMoves, KProg.Moves, VProg.Moves])

open Ex in
example := C86_accesses (cfg := ⟨false⟩) cloneVT_drop kHeld kTabled kWf kProg kProg_sized kProg_inRange

open Ex in
/-- The first program panics in `clone`: the containers are `[g2, g1]` and `[badClone, g1]`, only `g2` was dropped, and nothing is
leaked. -/
example : ∃ y m' h', kProg.runAt env ⟨false⟩ cloneVT 2 (viewsOf 2 kVecs heldBase) (kMem, kWorld) = (.panic y, (m', ⟨h', [.dropped 7 g2]⟩)) ∧
    Repr env h' 7 [g2, g1] { (kVecs 0).data with mem := m'.read 64 16 } ∧
    Repr env h' 7 [badClone, g1] { (kVecs 1).data with mem := m'.read 80 16 } := by
  obtain ⟨r, m', h', e, A, C, -⟩ := C86_containers (cfg := ⟨false⟩) (b := id) cloneVT_drop kPlaced kFree kStored (fun _ _ _ _ h => h) kTables kWf 0
    kProg kProg_sized kProg_inRange
  obtain ⟨p1, p2, p3, p4, -⟩ := kProg_plain
  rw [show (⟨0, kWorld.user⟩ : Outside Log) = ⟨0, []⟩ from rfl] at e A C
  rw [p4] at e
  rw [p1] at A
  obtain ⟨t, es, h1, R1⟩ := C 0 (by decide)
  obtain ⟨t', es', h2, R2⟩ := C 1 (by decide)
  rw [p2] at h1
  rw [p3] at h2
  cases h1
  cases h2
  cases r with
  | panic y => exact ⟨y, m', h', e, R1, R2⟩
  | ok _ => cases A
  | ub => cases A
  | abort => cases A

end Dync
