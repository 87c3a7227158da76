import Verif.Balance6
import Verif.DynFrame
import Verif.Props.Ownership
/-!
# C72 Without a panic, nothing is lost

Programs over `VecDyn`, `BoxValue` and `SmallValue` whose operations all return, with any user code and element
types: every value that was passed in or cloned is destroyed once, or owned by one variable, or was forgotten by a
conversion to a wrong type.
-/
namespace Dync
variable {U V : Type} {Γ : TyEnv U} {cfg : Cfg} {vt : TyId → V} {K : Nat} [HasDrop (Ledger U) V] [HasClone (Ledger U) V]
  {ops : List DOp} {os : List Obs} {u : U} {slots' : DSlots V} {h' : Heap} {l' : Ledger U}

theorem start_holds (u : U) : YHolds Γ.ledger (fun _ => none : DSlots V) ⟨Heap.empty, .start u⟩ (fun _ => none) ⟨0, .start u⟩ :=
  C71_start _ _ (fun _ _ => rfl) (fun _ => rfl)

/-- The values destroyed (each occurrence in `dead` is one call of a destructor), those owned by the variables and
those forgotten are, each as often, the results of `clone` (`born`) and the values passed in. In release builds no
index or amount of an operation that writes to elements may be so large that the byte offset wraps around. -/
theorem C72_values (htab : ∀ t, Tab Γ.ledger t (vt t)) (ht : ∀ op ∈ ops, op.IsTyped Γ) (hb : ∀ op ∈ ops, op.Bounded Γ cfg)
    (hK : ∀ op ∈ ops, ∀ k ∈ op.vars, k < K)
    (hr : runDOps Γ.ledger cfg vt ops ((fun _ => none), ⟨Heap.empty, .start u⟩) = (.ok os, (slots', ⟨h', l'⟩))) :
    (l'.dead ++ DSlots.live K slots' ++ forgottenAlong Γ.ledger cfg vt ops ((fun _ => none), ⟨Heap.empty, .start u⟩)).Perm
      (l'.born ++ passedAlong Γ.ledger cfg vt ops ((fun _ => none), ⟨Heap.empty, .start u⟩)) := by
  obtain ⟨vars, o, H, -, -, e⟩ := run_settled htab ops ht hb hK (start_holds u) (fun _ _ h => by cases h) hr
  refine List.perm_iff_count.2 fun a => ?_
  have h1 := e a
  have h2 : l' = o.user := H.user
  have h3 : DSlots.live K (fun _ => none : DSlots V) = [] := by simp [DSlots.live]
  rw [h3, ← h2] at h1
  have h4 : (Ledger.start u).net a = 0 := rfl
  simp only [h4, List.count_nil] at h1
  simp only [Ledger.net] at h1
  simp only [List.count_append]
  omega

/-- The live blocks of memory are those of the variables, and one for each box that was forgotten. -/
theorem C72_blocks (htab : ∀ t, Tab Γ.ledger t (vt t)) (ht : ∀ op ∈ ops, op.IsTyped Γ) (hb : ∀ op ∈ ops, op.Bounded Γ cfg)
    (hr : runDOps Γ.ledger cfg vt ops ((fun _ => none), ⟨Heap.empty, .start u⟩) = (.ok os, (slots', ⟨h', l'⟩))) :
    ∃ L : List Nat, L.Nodup ∧ L.length = forgottenBlocksAlong Γ.ledger cfg vt ops ((fun _ => none), ⟨Heap.empty, .start u⟩) ∧
      ∀ i, h'.live i ≠ none ↔ i ∈ L ∨ ∃ k a, slots' k = some a ∧ a.ptr = some i := by
  obtain ⟨K, hK⟩ := dops_bound ops
  obtain ⟨vars, o, H, -, e, -⟩ := run_settled htab ops ht hb hK (start_holds u) (fun _ _ h => by cases h) hr
  obtain ⟨L, h1, h2, h3, -, h5⟩ := H.leaks
  simp only at H
  refine ⟨L, h1, by rw [h2, e]; simp, fun i => ⟨fun hl => ?_, fun hm => ?_⟩⟩
  · obtain ⟨l, hl⟩ := Option.ne_none_iff_exists'.1 hl
    exact h5 i l hl
  · rcases hm with hm | ⟨k, b, hs, hp⟩
    · exact h3 i hm
    · cases hv : vars k with
      | none => rw [(H.none_iff k).2 hv] at hs; cases hs
      | some y =>
        exact YItem.Is.live (H.is k b y hs hv) i hp

/-- So a program without conversions to wrong types that leaves its variables empty has destroyed every value
exactly once and freed all memory. -/
theorem C72_nothing_lost (htab : ∀ t, Tab Γ.ledger t (vt t)) (ht : ∀ op ∈ ops, op.IsTyped Γ) (hb : ∀ op ∈ ops, op.Bounded Γ cfg)
    (hr : runDOps Γ.ledger cfg vt ops ((fun _ => none), ⟨Heap.empty, .start u⟩) = (.ok os, (slots', ⟨h', l'⟩)))
    (hs : ∀ op ∈ ops, ∀ k ∈ op.vars, slots' k = none)
    (hf : forgottenAlong Γ.ledger cfg vt ops ((fun _ => none), ⟨Heap.empty, .start u⟩) = [])
    (hl : forgottenBlocksAlong Γ.ledger cfg vt ops ((fun _ => none), ⟨Heap.empty, .start u⟩) = 0) :
    l'.dead.Perm (l'.born ++ passedAlong Γ.ledger cfg vt ops ((fun _ => none), ⟨Heap.empty, .start u⟩)) ∧
      ∀ i, h'.live i = none := by
  obtain rfl : slots' = fun _ => none := by
    funext k
    by_cases h : ∀ op ∈ ops, k ∉ op.vars
    · have := run_spares (Γ := Γ.ledger) (cfg := cfg) (vt := vt) ops h ((fun _ => none), ⟨Heap.empty, .start u⟩)
      rw [hr] at this
      exact this
    · obtain ⟨op, h⟩ := Classical.not_forall.1 h
      obtain ⟨ho, h⟩ := Classical.not_imp.1 h
      exact hs op ho k (Classical.not_not.1 h)
  obtain ⟨K, hK⟩ := dops_bound ops
  have h1 := C72_values htab ht hb hK hr
  have h3 : DSlots.live K (fun _ => none : DSlots V) = [] := by simp [DSlots.live]
  rw [hf, h3, List.append_nil, List.append_nil] at h1
  obtain ⟨L, -, h4, h5⟩ := C72_blocks htab ht hb hr
  refine ⟨h1, fun i => ?_⟩
  rw [hl] at h4
  rw [List.length_eq_zero_iff.1 h4] at h5
  have := (not_congr (h5 i)).2 (by simp)
  simpa using this

omit [HasDrop (Ledger U) V] [HasClone (Ledger U) V] in
/-- However an operation ends, it changes only the variables it names. -/
theorem C71_frame [HasDrop U V] [HasClone U V] {op : DOp} {j : Nat} (h : j ∉ op.vars) (s : DSlots V × World U) :
    (op.exec Γ cfg vt s).2.1 j = s.1 j :=
  exec_spares h s

/-! ### Examples -/

namespace Ex

/-- Values are passed in, cloned, exchanged, moved between containers and values, and dropped; nothing panics. -/
def tidyProg : List DOp :=
  [.fromVec 0 10 [s1, s2], .clone 0 1, .rotateLeft 1 1, .append 0 1, .newBox 2 10 s1, .pushCloned 1 2 0, .assign 0 3 2, .swap 0 0 2,
   .withSize 3 7 2 g1, .newBox 4 7 g2, .swapValues 3 0 4 0, .setAs 3 7 1 g2, .resize 3 7 4 g1, .fill 3 7 g2, .cloneValue 0 1 5, .cloneFrom 5 0 0 0,
   .clear 1, .drop 0, .drop 1, .drop 3, .consume 4 7, .drop 5]

theorem tidyProg_typed : ∀ op ∈ tidyProg, op.IsTyped env := by
  simp only [tidyProg, List.forall_mem_cons]
  exact ⟨⟨by decide, by decide⟩, trivial, trivial, trivial, (by decide : s1.length = size 10), trivial, trivial, trivial,
    ⟨by decide, (by decide : g1.length = size 7)⟩, (by decide : g2.length = size 7), trivial, (by decide : g2.length = size 7),
    (by decide : g1.length = size 7), (by decide : g2.length = size 7), trivial, trivial, trivial, trivial, trivial, trivial, trivial, trivial,
    (fun _ h => by cases h)⟩

theorem tidyProg_bounded : ∀ op ∈ tidyProg, op.Bounded env ⟨false⟩ := by
  have f : ∀ n, n ≤ 9 → Fits env ⟨false⟩ n := by
    intro n hn
    refine .inr fun t => ?_
    have : env.size t ≤ 16384 := size_small t
    calc (n + 1) * env.size t ≤ 10 * 16384 := Nat.mul_le_mul (by omega) this
      _ ≤ usizeMax := by decide
  simp only [tidyProg, List.forall_mem_cons]
  exact ⟨trivial, trivial, f _ (by decide), trivial, trivial, trivial, f _ (by decide), ⟨f _ (by decide), f _ (by decide)⟩, trivial, trivial,
    ⟨f _ (by decide), f _ (by decide)⟩, trivial, trivial, trivial, trivial, f _ (by decide), trivial, trivial, trivial, trivial, trivial, trivial,
    (fun _ h => by cases h)⟩

/-- The state in which programs start. -/
abbrev begin : DSlots (CloneVTable (Ledger Log)) × World (Ledger Log) := ((fun _ => none), ⟨Heap.empty, .start []⟩)

theorem tidyProg_run : (runDOps env.ledger ⟨false⟩ ledgerVT tidyProg begin).1 = .ok (List.replicate 22 .done) := by decide +kernel

/-- 8 values passed in, 12 clones, 20 calls of destructors. -/
example : (runDOps env.ledger ⟨false⟩ ledgerVT tidyProg begin).2.2.user.dead.length = 20 ∧
    (runDOps env.ledger ⟨false⟩ ledgerVT tidyProg begin).2.2.user.born.length = 12 ∧
    (passedAlong env.ledger ⟨false⟩ ledgerVT tidyProg begin).length = 8 := by decide +kernel

theorem tidyProg_ends : runDOps env.ledger ⟨false⟩ ledgerVT tidyProg begin = (.ok (List.replicate 22 .done),
    ((runDOps env.ledger ⟨false⟩ ledgerVT tidyProg begin).2.1, ⟨(runDOps env.ledger ⟨false⟩ ledgerVT tidyProg begin).2.2.heap,
      (runDOps env.ledger ⟨false⟩ ledgerVT tidyProg begin).2.2.user⟩)) := by
  rw [← tidyProg_run]

example := C72_values (K := 6) ledgerVT_tab tidyProg_typed tidyProg_bounded (by decide) tidyProg_ends
example := C72_blocks ledgerVT_tab tidyProg_typed tidyProg_bounded tidyProg_ends

/-- The variables are empty at the end. -/
theorem tidyProg_empty : ∀ op ∈ tidyProg, ∀ k ∈ op.vars, (runDOps env.ledger ⟨false⟩ ledgerVT tidyProg begin).2.1 k = none := by
  have : ∀ op ∈ tidyProg, ∀ k ∈ op.vars, ((runDOps env.ledger ⟨false⟩ ledgerVT tidyProg begin).2.1 k).isNone = true := by decide +kernel
  simpa using this

example := C72_nothing_lost ledgerVT_tab tidyProg_typed tidyProg_bounded tidyProg_ends tidyProg_empty (by decide +kernel) (by decide +kernel)

example := C71_frame (Γ := env.ledger) (cfg := ⟨false⟩) (vt := ledgerVT) (op := .append 0 1) (j := 2) (by decide)
  (runDOps env.ledger ⟨false⟩ ledgerVT (tidyProg.take 6) begin).2

/-- A box and a container are converted to wrong types. -/
def wrongProg : List DOp := [.newBox 0 7 g1, .fromVec 1 10 [s1, s2], .consume 0 10, .roundTrip 1 7]

/-- Their three values and the block of the box are forgotten. -/
example : (runDOps env.ledger ⟨true⟩ ledgerVT wrongProg begin).1 = .ok [.done, .done, .refused, .refused] ∧
    forgottenAlong env.ledger ⟨true⟩ ledgerVT wrongProg begin = [(7, g1), (10, s1), (10, s2)] ∧
    forgottenBlocksAlong env.ledger ⟨true⟩ ledgerVT wrongProg begin = 1 ∧
    (runDOps env.ledger ⟨true⟩ ledgerVT wrongProg begin).2.2.user.dead = [] := by decide +kernel

/-- In release builds this is a rotation by 8 bytes. -/
def wrapProg : List DOp := [.fromVec 0 10 [s1, s2], .rotateLeft 0 12297829382473034411, .drop 0]

end Ex

open Ex in
/-- The condition on amounts is needed: two values that were never made are destroyed instead of `s1` and `s2`. -/
theorem C72_wrap : (runDOps env.ledger ⟨false⟩ ledgerVT wrapProg begin).1 = .ok [.done, .done, .done] ∧
    passedAlong env.ledger ⟨false⟩ ledgerVT wrapProg begin = [(10, s1), (10, s2)] ∧
    (runDOps env.ledger ⟨false⟩ ledgerVT wrapProg begin).2.2.user.born = [] ∧
    ¬ (10, s1) ∈ (runDOps env.ledger ⟨false⟩ ledgerVT wrapProg begin).2.2.user.dead := by decide +kernel
end Dync
