import Verif.DynMachineUb
import Verif.Ledger
/-!
# The balance of values in programs whose operations return

Lemmas for C72: on the machine of `Verif/DynMachine.lean`, for every operation that returns, the values
destroyed and owned afterwards are those owned before, passed in and cloned.
-/
namespace Dync
variable {U V σ α β : Type} {Γ : TyEnv U} {cfg : Cfg} {t : TyId} {a : Obj}

theorem cnt_perm {es fs : List Bytes} (h : es.Perm fs) : cnt a t es = cnt a t fs := by
  simp only [cnt, (h.map (Prod.mk t)).count_eq a]

/-- A state has a number of leaked blocks, and a weight: how often `a` is destroyed and owned in it, minus how
often it was cloned. -/
structure Meter (σ : Type) where
  leaked : σ → Nat
  weight : σ → Int

/-- Whenever `m` returns, it has leaked no block, and the weight went up by what it took minus what it returns. -/
def Meter.Moves (μ : Meter σ) (i : Int) (m : M σ α) (f : α → Int) : Prop :=
  ∀ s r s', m s = (.ok r, s') → μ.leaked s' = μ.leaked s ∧ μ.weight s' + f r = μ.weight s + i

namespace Meter
variable {μ : Meter σ} {i j : Int} {m : M σ α} {f : α → Int}

theorem Moves.pure {x : α} (h : f x = i) : μ.Moves i (Pure.pure x) f := by
  intro s r s' e
  cases e
  exact ⟨rfl, by omega⟩

theorem Moves.panic (y : Why) : μ.Moves i (M.panic y : M σ α) f := by
  intro s r s' e
  cases e

theorem Moves.bind {k : α → M σ β} {g : β → Int} (h : μ.Moves i m f) (hk : ∀ x, μ.Moves (f x) (k x) g) :
    μ.Moves i (m >>= k) g := by
  intro s r s' e
  obtain ⟨x, s1, e1, e2⟩ := M.bind_ok_inv e
  obtain ⟨h1, h2⟩ := h _ _ _ e1
  obtain ⟨h3, h4⟩ := hk x _ _ _ e2
  exact ⟨h3.trans h1, by omega⟩

theorem Moves.frame (h : μ.Moves i m f) (j : Int) : μ.Moves (i + j) m fun x => f x + j := by
  intro s r s' e
  obtain ⟨h1, h2⟩ := h _ _ _ e
  exact ⟨h1, by show _ + (f r + j) = _; omega⟩

theorem Moves.of_eq {g : α → Int} (h : μ.Moves i m f) (hi : i = j) (hf : ∀ x, f x = g x) : μ.Moves j m g := by
  intro s r s' e
  obtain ⟨h1, h2⟩ := h _ _ _ e
  exact ⟨h1, by rw [← hf, ← hi]; exact h2⟩

theorem Moves.unwindDrop {d : M σ Unit} {f : Unit → Int} (h : μ.Moves i d f) : μ.Moves i (M.unwindDrop d) f := by
  intro s r s' e
  simp only [M.unwindDrop] at e
  rcases hd : d s with ⟨r1, s1⟩
  rw [hd] at e
  cases r1 with
  | ok x => cases e; exact h _ _ _ hd
  | panic y => cases e
  | ub => cases e
  | abort => cases e

theorem Moves.thenDrop {d : M σ Unit} {j : Int} (h : μ.Moves i m f) (hd : μ.Moves j d fun _ => 0) :
    μ.Moves (i + j) (M.thenDrop m d) f := by
  intro s r s' e
  simp only [M.thenDrop] at e
  rcases hm : m s with ⟨r1, s1⟩
  rw [hm] at e
  cases r1 with
  | ok x =>
    simp only at e
    rcases hd1 : d s1 with ⟨r2, s2⟩
    rw [hd1] at e
    cases r2 with
    | ok y =>
      cases e
      obtain ⟨h1, h2⟩ := h _ _ _ hm
      obtain ⟨h3, h4⟩ := hd _ _ _ hd1
      simp only [Int.add_zero] at h4
      exact ⟨h3.trans h1, by omega⟩
    | panic y => cases e
    | ub => cases e
    | abort => cases e
  | panic y =>
    simp only at e
    rcases hd1 : d s1 with ⟨r2, s2⟩
    rw [hd1] at e
    cases r2 <;> cases e
  | ub => cases e
  | abort => cases e

theorem Moves.forEach {body : Bytes → M σ Unit} (h : ∀ b, μ.Moves (cnt a t [b]) (body b) fun _ => 0) :
    ∀ xs, μ.Moves (cnt a t xs) (M.forEach xs body) fun _ => 0
  | [] => Moves.pure rfl
  | x :: xs => by
    have h1 := (h x).frame (cnt a t xs)
    rw [← cnt_cons] at h1
    exact h1.bind fun _ => (Moves.forEach h xs).of_eq (by omega) fun _ => rfl

theorem Moves.dropEach {drop : Bytes → M σ Unit} (h : ∀ b, μ.Moves (cnt a t [b]) (drop b) fun _ => 0) :
    ∀ xs, μ.Moves (cnt a t xs) (M.dropEach xs drop) fun _ => 0
  | [] => Moves.pure rfl
  | x :: xs => ((h x).thenDrop (Moves.dropEach h xs)).of_eq (cnt_cons).symm fun _ => rfl

theorem Moves.mapEach {f : Bytes → M σ Bytes} (h : ∀ b, μ.Moves 0 (f b) fun c => cnt a t [c]) :
    ∀ xs, μ.Moves 0 (M.mapEach xs f) fun cs => cnt a t cs
  | [] => Moves.pure rfl
  | x :: xs => (h x).bind fun c => (((Moves.mapEach h xs).frame (cnt a t [c])).of_eq (by omega) fun _ => rfl).bind fun cs =>
      Moves.pure (by rw [cnt_cons (es := cs)]; omega)

end Meter

/-- The state of the user code. -/
def userMeter (a : Obj) : Meter (Ledger U) := ⟨fun _ => 0, Ledger.net a⟩
/-- What is outside of the variables. -/
def outMeter (a : Obj) : Meter (Outside (Ledger U)) := ⟨Outside.leaked, fun o => o.user.net a⟩

open Meter

theorem moves_call {i : Int} {m : M (Ledger U) α} {f : α → Int} (h : (userMeter a).Moves i m f) :
    (outMeter a).Moves i (call m) f := by
  intro s r s' e
  simp only [call, M.zoom_run] at e
  rcases hm : m s.user with ⟨r1, u⟩
  rw [hm] at e
  cases e
  exact ⟨rfl, (h _ _ _ hm).2⟩

theorem moves_drop (t : TyId) (x : Bytes) : (userMeter a).Moves (cnt a t [x]) (Γ.ledger.drop t x) fun _ => 0 := by
  intro l r l' e
  exact ⟨rfl, by rw [Int.add_zero]; exact ledger_drop_net e⟩

theorem moves_clone (t : TyId) (x : Bytes) : (userMeter a).Moves 0 (Γ.ledger.clone t x) fun c => cnt a t [c] := by
  intro l r l' e
  exact ⟨rfl, by rw [Int.add_zero]; exact ledger_clone_net e⟩

theorem moves_clones (t : TyId) (xs : List Bytes) : (userMeter a).Moves 0 (DSpec.clones Γ.ledger t xs) fun es => cnt a t es := by
  intro l r l' e
  exact ⟨rfl, by rw [Int.add_zero]; exact ledger_clones_net e ⟨by simp, by simp⟩⟩

theorem moves_vecOf (t : TyId) (n : Nat) (x : Bytes) :
    (userMeter a).Moves (cnt a t [x]) (DSpec.vecOf Γ.ledger t n x) fun es => cnt a t es := by
  intro l r l' e
  exact ⟨rfl, ledger_vecOf_net e ⟨by simp, by simp⟩⟩

theorem moves_dropAll (t : TyId) (es : List Bytes) : (outMeter a).Moves (cnt a t es) (dropAll Γ.ledger t es) fun _ => 0 :=
  moves_call (Moves.dropEach (moves_drop t) es)

theorem moves_leaking {i : Int} {n : Nat} {m : M (Outside (Ledger U)) α} {f : α → Int} (h : (outMeter a).Moves i m f) :
    (outMeter a).Moves i (leaking n m) f := by
  intro s r s' e
  simp only [leaking] at e
  rcases hm : m s with ⟨r1, s1⟩
  rw [hm] at e
  cases r1 with
  | ok x => cases e; exact h _ _ _ hm
  | panic y => cases e
  | ub => cases e
  | abort => cases e

theorem aside_ok {x : σ} {o : Outside U} {m : M (Outside U) α} {r : α} {s' : σ × Outside U}
    (h : aside m (x, o) = (.ok r, s')) : ∃ o', m o = (.ok r, o') ∧ s' = (x, o') := by
  simp only [aside, M.zoom_run] at h
  rcases hm : m o with ⟨r1, o1⟩
  rw [hm] at h
  cases h
  exact ⟨o1, rfl, rfl⟩

/-! ### Items -/

/-- How often a variable with content `x` owns `a`; a container whose content was lost counts as nothing. -/
def XVec.weigh (a : Obj) : XVec → Int
  | .vec t es _ => cnt a t es
  | .unit _ => 0

/-- How often a variable owns `a`. -/
def YItem.weigh (a : Obj) : YItem → Int
  | .vec _ x => x.weigh a
  | .box t x => cnt a t [x]
  | .small t x => cnt a t [x]

/-- Not a container whose content was lost. -/
def YItem.Whole : YItem → Prop
  | .vec _ (.unit _) => False
  | _ => True

theorem moves_item_drop (b : YItem) : (outMeter a).Moves (b.weigh a) (b.drop Γ.ledger) fun _ => 0 := by
  cases b with
  | vec d x =>
    cases x with
    | vec t es cap => exact moves_leaking (Moves.forEach (fun e => moves_call (moves_drop t e)) es)
    | unit n => exact Moves.panic _
  | box t x => exact moves_leaking (moves_call (moves_drop t x))
  | small t x => exact moves_call (moves_drop t x)

theorem moves_item_clone (b : YItem) : (outMeter a).Moves 0 (b.clone Γ.ledger) fun c => c.weigh a := by
  cases b with
  | vec d x =>
    cases x with
    | vec t es cap => exact (moves_call (Moves.mapEach (moves_clone t) es)).bind fun _ => Moves.pure rfl
    | unit n => exact Moves.panic _
  | box t x => exact (moves_call (moves_clone t x)).bind fun _ => Moves.pure rfl
  | small t x => exact (moves_call (moves_clone t x)).bind fun _ => Moves.pure rfl

theorem moves_wrapVec (t : TyId) (es : List Bytes) (n : Nat) :
    (outMeter a).Moves (cnt a t es) (wrapVec Γ.ledger t es n) fun c => c.weigh a := by
  unfold wrapVec
  split
  · exact (moves_dropAll t es).unwindDrop.bind fun _ => Moves.panic _
  · exact Moves.pure rfl

/-! ### What comes out is whole -/

/-- Whenever `m` returns, what it returns is whole. -/
def MakesWhole (m : M σ YItem) : Prop := ∀ s r s', m s = (.ok r, s') → r.Whole

theorem MakesWhole.bind {m : M σ α} {k : α → M σ YItem} (h : ∀ x, MakesWhole (k x)) : MakesWhole (m >>= k) := by
  intro s r s' e
  obtain ⟨x, s1, -, e2⟩ := M.bind_ok_inv e
  exact h x _ _ _ e2
theorem MakesWhole.pure {b : YItem} (h : b.Whole) : MakesWhole (Pure.pure b : M σ YItem) := by
  intro s r s' e
  cases e
  exact h
theorem MakesWhole.panic (y : Why) : MakesWhole (M.panic y : M σ YItem) := by
  intro s r s' e
  cases e
theorem MakesWhole.wrapVec (t : TyId) (es : List Bytes) (n : Nat) : MakesWhole (wrapVec Γ t es n) := by
  unfold Dync.wrapVec
  split
  · exact MakesWhole.bind fun _ => MakesWhole.panic _
  · exact MakesWhole.pure trivial
theorem MakesWhole.clone (b : YItem) : MakesWhole (b.clone Γ) := by
  cases b with
  | vec d x =>
    cases x with
    | vec t es cap => exact MakesWhole.bind fun _ => MakesWhole.pure trivial
    | unit n => exact MakesWhole.panic _
  | box t x => exact MakesWhole.bind fun _ => MakesWhole.pure trivial
  | small t x => exact MakesWhole.bind fun _ => MakesWhole.pure trivial

end Dync
