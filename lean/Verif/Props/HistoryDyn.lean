import Verif.HistoryDynStep
import Verif.Props.ExampleDyn
/-!
# Properties of whole programs over `VecDyn` containers and owned untyped values

Programs of any length over any number of variables, with any element types and arbitrary `Clone` and
`Drop` code (see `Verif/HistoryDyn.lean`).
-/
namespace Dync
variable {U V : Type} [HasDrop U V] [HasClone U V] {Γ : TyEnv U} {N : Nat} {slots : DSlots V} {s s' : DState}
  {cfg : Cfg} {vt : TyId → V} {w : World U} {u u' : U} {os : List Obs} {ops : List DOp}

/-! ### C53 programs -/

/-- Every program over `VecDyn` containers, boxed and inline untyped values sees exactly what it sees with
plain `Vec<T>`s, `Box<T>`s and `T`s; the user's `Clone` and `Drop` code is called for the same values in
the same order (the final user state is the same), and the final state holds exactly the plain values. -/
theorem C53_vecdyn_history (hvt : ∀ t, LawfulDrop Γ t (vt t) ∧ LawfulClone Γ t (vt t))
    (I : DInv Γ N slots w.heap s) (hwt : ∀ op ∈ ops, op.WellTyped Γ)
    (hsup : SupportedDOps Γ N ops (s, w.user)) (hspec : specDOps Γ ops (s, w.user) = (.ok os, (s', u'))) :
    ∃ slots' h', runDOps Γ cfg vt ops (slots, w) = (.ok os, (slots', ⟨h', u'⟩)) ∧ DInv Γ N slots' h' s' := by
  induction ops generalizing slots s w os with
  | nil => cases hspec; exact ⟨slots, w.heap, rfl, I⟩
  | cons op ops ih =>
    obtain ⟨o, ⟨s1, u1⟩, h1, h2⟩ := M.bind_ok_inv hspec
    obtain ⟨os1, q, h2, h3⟩ := M.bind_ok_inv h2
    cases h3
    obtain ⟨slots1, h1', hrun1, I1⟩ := dstep_ok (cfg := cfg) (vt := vt) op hvt I (hwt op (by simp)) hsup.1 h1
    obtain ⟨slots2, h2', hrun2, I2⟩ := ih (w := ⟨h1', u1⟩) I1
      (fun o ho => hwt o (List.mem_cons_of_mem _ ho)) (hsup.2 _ _ h1) h2
    exact ⟨slots2, h2', by simp only [runDOps, M.bind_run, hrun1, hrun2, M.pure_run], I2⟩

/-- The starting state of a program. -/
theorem dhistory_start (Γ : TyEnv U) (N : Nat) : DInv (V := V) Γ N (fun _ => none) Heap.empty (fun _ => none) :=
  ⟨fun _ _ => rfl, fun _ => trivial, (fun _ _ _ h => nomatch h), (fun _ _ h => by simp [Heap.empty] at h)⟩

/-! ### C21, C17, C18: memory -/

/-- No operation of a program violates the allocator's contract (that would be undefined behaviour in the
model), and at the end every live block belongs to exactly one variable. -/
theorem C21_vecdyn_history_partial (u : U) (hvt : ∀ t, LawfulDrop Γ t (vt t) ∧ LawfulClone Γ t (vt t))
    (hwt : ∀ op ∈ ops, op.WellTyped Γ) (hsup : SupportedDOps Γ N ops (fun _ => none, u))
    (hspec : specDOps Γ ops (fun _ => none, u) = (.ok os, (s', u'))) :
    ∃ slots' h', runDOps Γ cfg vt ops ((fun _ => none), ⟨Heap.empty, u⟩) = (.ok os, (slots', ⟨h', u'⟩)) ∧
      (∀ i l, h'.live i = some l → ∃ k, ownedPtr (slots' k) = some i ∧ ∀ k', ownedPtr (slots' k') = some i → k' = k) ∧
      (∀ k c, slots' k = some (.vec c) → ∃ i t, c.data.ptr = some i ∧ c.elementTypeId = t ∧
        h'.live i = some ⟨c.data.cap * Γ.size t, Γ.align t⟩) := by
  obtain ⟨slots', h', hrun, I⟩ := C53_vecdyn_history (cfg := cfg) (w := ⟨Heap.empty, u⟩) hvt (dhistory_start Γ N) hwt
    hsup hspec
  refine ⟨slots', h', hrun, fun i l hl => ?_, fun k c hc => ?_⟩
  · obtain ⟨k, hk⟩ := I.owned i l hl
    exact ⟨k, hk, fun k' hk' => I.inj k' k i hk' hk⟩
  · have := I.ok k
    rw [hc] at this
    rcases hs : s' k with _ | ⟨t, es⟩ | _ | _ <;> rw [hs] at this
    · exact this.elim
    · obtain ⟨i, hp, hl⟩ := this.1.block
      exact ⟨i, t, hp, this.1.type_id, hl⟩
    · exact this.elim
    · exact this.elim

/-- A program that starts with nothing and ends with empty variables leaves no heap block behind. -/
theorem C18_vecdyn_history_no_leak_partial (u : U) (hvt : ∀ t, LawfulDrop Γ t (vt t) ∧ LawfulClone Γ t (vt t))
    (hwt : ∀ op ∈ ops, op.WellTyped Γ) (hsup : SupportedDOps Γ N ops (fun _ => none, u))
    (hspec : specDOps Γ ops (fun _ => none, u) = (.ok os, (fun _ => none, u'))) :
    ∃ slots' h', runDOps Γ cfg vt ops ((fun _ => none), ⟨Heap.empty, u⟩) = (.ok os, (slots', ⟨h', u'⟩)) ∧
      ∀ i, h'.live i = none := by
  obtain ⟨slots', h', hrun, I⟩ := C53_vecdyn_history (cfg := cfg) (w := ⟨Heap.empty, u⟩) hvt (dhistory_start Γ N) hwt
    hsup hspec
  refine ⟨slots', h', hrun, fun i => ?_⟩
  cases hl : h'.live i with
  | none => rfl
  | some l =>
    obtain ⟨k, hk⟩ := I.owned i l hl
    rw [I.empty (k := k) rfl] at hk
    cases hk

/-! ### An example program -/

/-- Strings (type 10), droppable words (type 7) and bytes (type 1). -/
def Ex.dprog : List DOp :=
  [.withType 0 10, .pushAs 0 10 s1, .pushAs 0 7 g1, .pushAs 0 10 s2, .clone 0 1, .newBox 2 10 s1, .pushCloned 0 2 0,
   .assign 0 1 2, .append 0 1, .len 0, .rotateLeft 0 1, .swap 0 0 1, .resize 0 10 6 s2, .resize 0 10 2 s1, .fill 0 10 s2,
   .cloneIntoVec 0 10, .newSmall 3 7 g1, .cloneSmall 3 0 4, .newSmall 5 7 g2, .swapValues 3 0 5 0, .cloneFrom 3 0 5 0, .get 3 0,
   .fromVec 6 1 [[some 1], [some 2]], .newBox 7 1 [some 3], .pushBox 6 7, .asSlice 6 1, .iter 6, .setAs 6 1 0 [some 9],
   .getAs 6 1 0, .roundTrip 6 1, .consume 6 1, .cloneValue 0 1 8, .withSize 9 7 2 g1, .fromSlice 10 7 [g1, g2],
   .clear 10, .typeId 10, .drop 0, .drop 1, .drop 3, .drop 4, .drop 5, .consume 8 10, .drop 9, .drop 10]

theorem Ex.dprog_typed : ∀ op ∈ Ex.dprog, op.WellTyped Ex.env := by
  simp only [Ex.dprog, List.forall_mem_cons, DOp.WellTyped, List.not_mem_nil, false_implies, implies_true, and_true, true_and]
  decide

theorem SupportedDOps.cons {op : DOp} {o : Obs} {q1 : DState × U} {q : DState × U} (h : op.Supported Γ N q.1)
    (hs : op.spec Γ q = (.ok o, q1)) (hr : SupportedDOps Γ N ops q1) : SupportedDOps Γ N (op :: ops) q :=
  ⟨h, fun o' s' h' => by rw [hs] at h'; cases h'; exact hr⟩

theorem Ex.dprog_supported : SupportedDOps Ex.env 20 Ex.dprog (fun _ => none, []) := by
  have r10 : Room Ex.env 10 (4 * 20 + 16) := by unfold Room; decide
  have r7 : Room Ex.env 7 (4 * 20 + 16) := by unfold Room; decide
  have r1 : Room Ex.env 1 (4 * 20 + 16) := by unfold Room; decide
  repeat' refine SupportedDOps.cons ?_ rfl ?_
  all_goals first
    | exact trivial
    | exact r10
    | exact ⟨by decide, r7⟩
    | exact ⟨by decide, r1⟩
    | (intro es h; exact absurd (SItem.vec.inj (Option.some.inj h)).1 (by decide))
    | (intro es h; cases h; decide)
    | (intro es h; cases h; unfold Op.Supported.Odd; decide)
    | (intro t es h; cases h; decide)
    | (intro t h; cases h; decide)
    | (intro t es h h'; cases h; unfold Op.Supported.Odd; decide)
    | (intro t es x h h'; cases h; cases h'; decide)
    | (intro t es t' es' h h' e; cases h; cases h'; unfold Op.Supported.Odd; decide)

/-- What the program sees, and the calls of user code it makes. -/
def Ex.dprogObs : List Obs :=
  match (specDOps Ex.env Ex.dprog (fun _ => none, [])).1 with
  | .ok os => os
  | _ => []
def Ex.dprogLog : Ex.Log := (specDOps Ex.env Ex.dprog (fun _ => none, [])).2.2

theorem Ex.dprog_result : specDOps Ex.env Ex.dprog (fun _ => none, []) = (.ok Ex.dprogObs, (fun _ => none, Ex.dprogLog)) := by
  refine Prod.ext rfl (Prod.ext ?_ rfl)
  refine (show _ = _ from rfl).trans (b := fun k => (specDOps Ex.env Ex.dprog (fun _ => none, [])).2.1 k) ?_
  funext k
  match k with
  | 0 | 1 | 2 | 3 | 4 | 5 | 6 | 7 | 8 | 9 | 10 => rfl
  | k + 11 => rfl

example : Ex.dprogObs.length = 44 ∧ Ex.dprogLog.length = 38 := ⟨rfl, rfl⟩

theorem Ex.cloneVT_lawful (t : TyId) : LawfulDrop Ex.env t (Ex.cloneVT t) ∧ LawfulClone Ex.env t (Ex.cloneVT t) :=
  ⟨Ex.cloneVT_drop t, Ex.cloneVT_clone t⟩

example := C53_vecdyn_history (cfg := ⟨false⟩) (w := ⟨Heap.empty, []⟩) Ex.cloneVT_lawful (dhistory_start Ex.env 20)
  Ex.dprog_typed Ex.dprog_supported Ex.dprog_result
example := C21_vecdyn_history_partial (cfg := ⟨true⟩) [] Ex.cloneVT_lawful Ex.dprog_typed Ex.dprog_supported
  Ex.dprog_result
example := C18_vecdyn_history_no_leak_partial (cfg := ⟨true⟩) [] Ex.cloneVT_lawful Ex.dprog_typed
  Ex.dprog_supported Ex.dprog_result

end Dync
