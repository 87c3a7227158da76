import Verif.DynMachineLemmas11
import Verif.DynMachineUb
import Verif.Props.ExampleDyn
import Mathlib.Data.List.Nodup
/-!
# C71 What every program over `VecDyn` containers and untyped values does, exactly

The machine of `Verif/DynMachine.lean` is the specification. It computes on lists of elements and capacities,
and calls the user's `Clone` and `Drop`.
-/
namespace Dync
variable {U V : Type} {Γ : TyEnv U} {cfg : Cfg} {vt : TyId → V} {slots : DSlots V} {w : World U} {vars : YVars} {o : Outside U}
  {t : TyId} {es : List Bytes} [HasDrop U V] [HasClone U V] [TableLaw V]

/-- Every call does what the machine says: it ends in the same way, with the same result; the user code was
called on the same values in the same order; the variables hold exactly the elements, types and capacities of
the machine, and the live blocks of memory are theirs and the leaked ones. There is no restriction on element
types, sizes, indices and amounts, and user code may panic at any call. -/
theorem C71_step {op : DOp} (H : YHolds Γ slots w vars o) (ht : op.IsTyped Γ) (htab : ∀ t, Tab Γ t (vt t)) :
    EndsAs Γ (op.exec Γ cfg vt (slots, w)) (op.step Γ cfg (vars, o)) := by
  have h := dyn_step (cfg := cfg) H ht htab
  rcases hs : op.step Γ cfg (vars, o) with ⟨r, vars', o'⟩
  rw [hs] at h
  cases r with
  | ok b => obtain ⟨a, s, h1, rfl, h2⟩ := h; rw [h1]; exact ⟨rfl, h2⟩
  | panic y => obtain ⟨a, s, h1, h2⟩ := h; rw [h1]; exact ⟨⟨_, rfl⟩, h2⟩
  | ub => exact h
  | abort => exact h

/-- Every program in which every call is wrapped in `catch_unwind` does what the machine says. -/
theorem C71_program (ops : List DOp) (H : YHolds Γ slots w vars o) (ht : ∀ op ∈ ops, op.IsTyped Γ) (htab : ∀ t, Tab Γ t (vt t)) :
    EndsAs Γ (runCaughtD Γ cfg vt ops (slots, w)) (stepsCaught Γ cfg ops (vars, o)) := by
  have h := dyn_run (cfg := cfg) htab ops H ht
  rcases hs : stepsCaught Γ cfg ops (vars, o) with ⟨r, vars', o'⟩
  rw [hs] at h
  cases r with
  | ok b => obtain ⟨a, s, h1, rfl, h2⟩ := h; rw [h1]; exact ⟨rfl, h2⟩
  | panic y => obtain ⟨a, s, h1, h2⟩ := h; exact h2.elim
  | ub => exact h
  | abort => exact h

/-- Programs start with empty variables and without memory. -/
theorem C71_start (h : Heap) (u : U) (wf : h.WF) (he : ∀ i, h.live i = none) :
    YHolds Γ (fun _ => none : DSlots V) ⟨h, u⟩ (fun _ => none) ⟨0, u⟩ :=
  ⟨rfl, wf, fun _ => ⟨fun _ => rfl, fun _ => rfl⟩, (fun _ _ _ h => by cases h), (fun _ _ _ _ _ h => by cases h),
    [], List.nodup_nil, rfl, (fun _ h => by cases h), (fun _ h => by cases h), fun i l h => by rw [he i] at h; cases h⟩

/-! ### Undefined behaviour -/

/-- The calls that are undefined behaviour: pushing a boxed value of a type whose alignment is not one; and
pushing a boxed `()` to a container whose content was lost. -/
def UndefinedPush (Γ : TyEnv U) (vars : YVars) (op : DOp) : Prop :=
  ∃ k j b x t y, op = .pushBox k j ∧ vars k = some (.vec b x) ∧ vars j = some (.box t y) ∧
    ((∃ es cap, x = .vec t es cap) ∧ Γ.align t ≠ 1 ∨ (∃ n, x = .unit n) ∧ t = Γ.unitTy)

omit [HasDrop U V] [HasClone U V] [TableLaw V] in
/-- These are the only ones, for safe user code. -/
theorem C71_ub_iff (S : SafeUser Γ) (op : DOp) : (op.step Γ cfg (vars, o)).1 = .ub ↔ UndefinedPush Γ vars op := by
  by_cases hp : ∃ k j, op = .pushBox k j
  swap
  · constructor
    · intro h
      exact absurd h (S.step op (fun k j e => hp ⟨k, j, e⟩) (vars, o))
    · rintro ⟨k, j, -, -, -, -, e, -⟩
      exact absurd ⟨k, j, e⟩ hp
  obtain ⟨k, j, rfl⟩ := hp
  constructor
  · intro h
    simp only [DOp.step] at h
    split at h
    · rename_i b x t y hk hj
      refine ⟨k, j, b, x, t, y, rfl, hk, hj, ?_⟩
      have hkj : k ≠ j := fun e => by rw [e, hj] at hk; cases hk
      rw [YOp.moveOut, M.bind_ok (M.modify_run _ _)] at h
      simp only [YOp.onVec, Slots.put_other _ _ hkj, hk, XVec.dynPush] at h
      rw [M.bind_ok (M.get_run _)] at h
      have hdrop : Defined (do aside ((YItem.box t y).drop Γ); return .refused : M (XVec × Outside U) Obs) :=
        (S.itemDrop _).aside.bind fun _ => Defined.pure _
      cases x with
      | vec t' es cap =>
        simp only at h
        by_cases ht : t = t'
        · subst ht
          refine .inl ⟨⟨es, cap, rfl⟩, fun ha => ?_⟩
          rw [if_pos rfl, if_pos ha] at h
          simp only [XVec.plain] at h
          have := push_not_ub (Γ := Γ) (t := t) (es := es) y cap
          cases hx : (XVec.push Γ t y (.vec t es cap)).out with
          | ub => exact this hx
          | _ => rw [hx] at h; cases h
        · rw [if_neg ht] at h
          exact absurd h (hdrop _)
      | unit n =>
        simp only at h
        by_cases ht : t = Γ.unitTy
        · exact .inr ⟨⟨n, rfl⟩, ht⟩
        · rw [if_neg ht] at h
          exact absurd h (hdrop _)
    · cases h
  · rintro ⟨k', j', b, x, t, y, e, hk, hj, h⟩
    cases e
    have hkj : k ≠ j := fun e => by rw [e, hj] at hk; cases hk
    simp only [DOp.step, hk, hj]
    rw [YOp.moveOut, M.bind_ok (M.modify_run _ _)]
    simp only [YOp.onVec, Slots.put_other _ _ hkj, hk, XVec.dynPush]
    rw [M.bind_ok (M.get_run _)]
    rcases h with ⟨⟨es, cap, rfl⟩, ha⟩ | ⟨⟨n, rfl⟩, rfl⟩
    · simp only [if_true, if_neg ha, M.ub_run]
    · simp only [if_true, M.ub_run]

/-- A program that never pushes a box is never undefined, whatever it does after caught panics and whatever
its destructors and clones do. -/
theorem C71_defined (S : SafeUser Γ) (ops : List DOp) (H : YHolds Γ slots w vars o) (ht : ∀ op ∈ ops, op.IsTyped Γ)
    (htab : ∀ t, Tab Γ t (vt t)) (hp : ∀ k j, DOp.pushBox k j ∉ ops) :
    (runCaughtD Γ cfg vt ops (slots, w)).1 ≠ .ub := by
  have hd : Defined (stepsCaught Γ cfg ops) := by
    clear ht H
    induction ops with
    | nil => exact Defined.pure _
    | cons op ops ih =>
      refine Defined.bind (fun s => ?_) fun _ => (ih fun k j h => hp k j (List.mem_cons_of_mem _ h)).bind fun _ => Defined.pure _
      have h := S.step (cfg := cfg) op (fun k j e => hp k j (e ▸ List.mem_cons_self ..)) s
      unfold M.caught
      rcases hs : op.step Γ cfg s with ⟨r, s'⟩
      rw [hs] at h
      cases r with
      | ub => exact absurd rfl h
      | _ => simp only [hs]; intro h; cases h
  have h := C71_program (cfg := cfg) ops H ht htab
  have hd' := hd (vars, o)
  rcases hs : stepsCaught Γ cfg ops (vars, o) with ⟨r, vars', o'⟩
  rw [hs] at h hd'
  intro e
  cases r with
  | ok b => rw [h.1] at e; cases e
  | panic y => obtain ⟨z, hz⟩ := h.1; rw [hz] at e; cases e
  | ub => exact hd' rfl
  | abort => have h : _ = Res.abort := h; rw [h] at e; cases e

/-! ### Memory -/

/-- The item owns a block of memory. -/
def YItem.owns (Γ : TyEnv U) : YItem → Bool
  | .vec _ (.vec ..) => true
  | .vec _ (.unit _) => false
  | .box t _ => Γ.size t != 0
  | .small .. => false

/-- The variables that own a block of memory. -/
def YVars.owners (Γ : TyEnv U) (vars : YVars) (ks : List Nat) : List Nat :=
  ks.filter fun k => match vars k with | some a => a.owns Γ | none => false

theorem owns_iff {h : Heap} {a : Item V} {b : YItem} (I : YItem.Is Γ h a b) :
    b.owns Γ = true ↔ ∃ i, a.ptr = some i := by
  cases a with
  | vec c =>
    cases b with
    | vec tb x =>
      cases x with
      | vec t es cap => obtain ⟨i, hi, -⟩ := I.1.1.block; exact ⟨fun _ => ⟨i, hi⟩, fun _ => rfl⟩
      | unit n =>
        have : IsUnits Γ n c.data := I.1
        exact ⟨fun h => (by cases h), fun ⟨i, hi⟩ => by rw [Item.ptr, this.ptr] at hi; cases hi⟩
    | box => exact I.elim
    | small => exact I.elim
  | box v =>
    cases b with
    | box t x =>
      rcases I.1.block with ⟨h0, hp⟩ | ⟨h0, i, hp, -⟩
      · constructor
        · intro h; simp [YItem.owns, h0] at h
        · rintro ⟨i, hi⟩; rw [Item.ptr, hp] at hi; cases hi
      · exact ⟨fun _ => ⟨i, hp⟩, fun _ => by simp [YItem.owns]; omega⟩
    | vec => exact I.elim
    | small => exact I.elim
  | small v =>
    cases b with
    | small t x => exact ⟨fun h => (by simp [YItem.owns] at h), fun ⟨i, hi⟩ => by simp [Item.ptr] at hi⟩
    | vec => exact I.elim
    | box => exact I.elim

/-- The live blocks of memory are one for every variable with a container that was not lost or a box with
content, and the leaked ones. `ks` are the variables of the program. -/
theorem C71_blocks (H : YHolds Γ slots w vars o) (ks : List Nat) (hn : ks.Nodup) (hk : ∀ k, vars k ≠ none → k ∈ ks) :
    ∃ B : List Nat, B.Nodup ∧ (∀ i, w.heap.live i ≠ none ↔ i ∈ B) ∧ B.length = (vars.owners Γ ks).length + o.leaked := by
  obtain ⟨L, hnd, hlen, hlive, hapart, hcover⟩ := H.leaks
  -- the block of a variable
  let blk : Nat → Nat := fun k => match slots k with
    | some a => a.ptr.getD 0
    | none => 0
  have hblk : ∀ k ∈ vars.owners Γ ks, ∃ a i, slots k = some a ∧ a.ptr = some i ∧ blk k = i ∧ w.heap.live i ≠ none := by
    intro k hko
    obtain ⟨-, hv⟩ := List.mem_filter.1 hko
    cases hx : vars k with
    | none => rw [hx] at hv; cases hv
    | some y =>
      rw [hx] at hv
      cases hs : slots k with
      | none => rw [(H.none_iff k).1 hs] at hx; cases hx
      | some a =>
        have I := H.is k a y hs hx
        obtain ⟨i, hi⟩ := (owns_iff I).1 hv
        exact ⟨a, i, rfl, hi, by simp only [blk, hs, hi]; rfl, YItem.Is.live I i hi⟩
  refine ⟨(vars.owners Γ ks).map blk ++ L, ?_, ?_, by simp [hlen]⟩
  · refine List.nodup_append.2 ⟨?_, hnd, ?_⟩
    · refine (List.nodup_map_iff_inj_on (hn.filter _)).2 ?_
      intro k1 h1 k2 h2 e
      obtain ⟨c1, i1, a1, b1, e1, -⟩ := hblk k1 h1
      obtain ⟨c2, i2, a2, b2, e2, -⟩ := hblk k2 h2
      rw [e1, e2] at e
      subst e
      exact H.inj k1 k2 c1 c2 i1 a1 a2 b1 b2
    · intro i hi j hj e
      subst e
      obtain ⟨k, hko, rfl⟩ := List.mem_map.1 hi
      obtain ⟨c, i', a, b, e, -⟩ := hblk k hko
      exact hapart _ hj k c a (by rw [b, e])
  · intro i
    constructor
    · intro hl
      cases hli : w.heap.live i with
      | none => exact absurd hli hl
      | some l =>
        rcases hcover i l hli with h1 | ⟨k, a, hs, hp⟩
        · exact List.mem_append_right _ h1
        · refine List.mem_append_left _ (List.mem_map.2 ⟨k, ?_, by simp only [blk, hs, hp]; rfl⟩)
          cases hx : vars k with
          | none => rw [(H.none_iff k).2 hx] at hs; cases hs
          | some y =>
            refine List.mem_filter.2 ⟨hk k (by rw [hx]; simp), ?_⟩
            rw [hx]
            exact (owns_iff (H.is k a y hs hx)).2 ⟨i, hp⟩
    · intro hi
      rcases List.mem_append.1 hi with h1 | h1
      · obtain ⟨k, hko, rfl⟩ := List.mem_map.1 h1
        obtain ⟨c, i, -, -, e, hl⟩ := hblk k hko
        rw [e]; exact hl
      · exact hlive i h1

/-! ### Places -/

theorem yholds_each {k cap : Nat} {b : TyId} (H : YHolds Γ slots w vars o) (hk : vars k = some (.vec b (.vec t es cap))) :
    b = t ∧ (∀ e ∈ es, e.length = Γ.size t) ∧ es.length * Γ.size t ≤ isizeMax ∧ es.length ≤ cap ∧ 0 < Γ.size t := by
  cases hs : slots k with
  | none => rw [(H.none_iff k).1 hs] at hk; cases hk
  | some a =>
    have I := H.is k a _ hs hk
    cases a with
    | vec c =>
      obtain ⟨⟨R, hc⟩, -, -, hb⟩ := I
      exact ⟨(hb t es cap rfl).symm, R.each, VecCopy.Repr_mul_le R, by rw [← hc]; exact R.len_cap, R.pos⟩
    | box => exact I.elim
    | small => exact I.elim

/-- Within the length of the container, in both build modes, the place `(k, i)` is the `i`th element, and
storing to it replaces that element and nothing else. Tables of containers with content belong to the
element type. -/
theorem C71_place {k cap i : Nat} {b : TyId} (H : YHolds Γ slots w vars o) (hk : vars k = some (.vec b (.vec t es cap)))
    (hi : i < es.length) :
    YItem.at Γ cfg i (.vec b (.vec t es cap)) = some ⟨t, t, es[i]⟩ ∧
    ∀ x, x.length = Γ.size t → YItem.store Γ cfg i x (.vec b (.vec t es cap)) = .vec b (.vec t (es.set i x) cap) := by
  obtain ⟨rfl, he, hm, -, -⟩ := yholds_each H hk
  have h1 : i * Γ.size b + Γ.size b ≤ es.length * Γ.size b := by
    rw [← Nat.succ_mul]; exact Nat.mul_le_mul_right _ hi
  have ho : offset cfg (Γ.size b) es.length i = some (i * Γ.size b) := by
    have h2 : i * Γ.size b % 2 ^ 64 = i * Γ.size b := Nat.mod_eq_of_lt (by unfold isizeMax at hm; omega)
    unfold offset
    rw [if_pos hi, h2, if_pos h1]
    split <;> rfl
  refine ⟨by simp only [YItem.at, ho, Option.map_some, drop_take_flatten he hi], fun x hx => ?_⟩
  have hsp := splice_flatten he hi hx
  unfold splice at hsp
  rw [hx] at hsp
  simp only [YItem.store, ho, hsp]
  have := cut_self (n := Γ.size b) (es := es.set i x) (by
    intro e hm
    rcases List.mem_or_eq_of_mem_set hm with h | rfl
    · exact he e h
    · exact hx)
  rw [List.length_set] at this
  rw [this]

omit [HasDrop U V] [HasClone U V] [TableLaw V] in
/-- Beyond the length there is no place in debug builds. -/
theorem C71_no_place {b : TyId} {cap i : Nat} (hd : cfg.debug = true) (hi : es.length ≤ i) :
    YItem.at Γ cfg i (.vec b (.vec t es cap)) = none := by
  simp only [YItem.at, offset, hd, if_true, if_neg (Nat.not_lt.2 hi), Option.map_none]

/-! ### Examples -/

namespace Ex

theorem tab (t : TyId) : Tab env t (cloneVT t) := ⟨rfl, rfl, rfl, rfl, trivial⟩

/-- an empty heap -/
def emptyHeap : Heap := ⟨0, fun _ => none⟩

theorem dyn_start_holds : YHolds env (fun _ => none : DSlots (CloneVTable Log)) ⟨emptyHeap, []⟩ (fun _ => none) ⟨0, []⟩ :=
  C71_start _ _ (fun _ _ => rfl) (fun _ => rfl)

/-- What the program sees, the leaked blocks and the calls of user code. -/
def seen {α : Type} (r : Res α × (YVars × Outside Log)) : Option (α × Nat × Log) :=
  match r.1 with
  | .ok a => some (a, r.2.2.leaked, r.2.2.user)
  | _ => none

/-- A clone panics in `push_cloned`: the content of the container is lost. -/
def lossyDyn : List DOp := [.fromVec 0 7 [g1, g2], .newBox 1 7 badClone, .pushCloned 0 1 0, .len 0, .typeId 0, .drop 0, .drop 1]

/-- The elements `g1` and `g2` are never dropped (the box is), and the container cannot be dropped. -/
theorem lossyDyn_run : seen (stepsCaught env ⟨true⟩ lossyDyn ((fun _ => none), ⟨0, []⟩)) =
    some ([some .done, some .done, none, some (.num 0), some (.num 0), none, some .done], 0, [.dropped 7 badClone]) := by
  decide +kernel

/-- A destructor panics in `clear`: the elements before it are dropped a second time with the container, whose
buffer is then leaked. -/
def twice : List DOp := [.fromVec 0 7 [g1, badDrop, g2], .clear 0, .len 0, .drop 0]

theorem twice_run : seen (stepsCaught env ⟨true⟩ twice ((fun _ => none), ⟨0, []⟩)) =
    some ([some .done, none, some (.num 3), none], 1, [.dropped 7 g1, .dropped 7 g1]) := by
  decide +kernel

/-- Values are cloned, moved and exchanged without any panic, and everything is dropped once. -/
def fine : List DOp := [.fromVec 0 10 [s1, s2], .cloneValue 0 1 1, .swapValues 0 0 1 0, .get 0 0, .pushCloned 0 1 0, .len 0, .drop 0, .drop 1]

theorem fine_run : seen (stepsCaught env ⟨false⟩ fine ((fun _ => none), ⟨0, []⟩)) =
    some ([some .done, some .done, some .done, some (.value 10 s2), some .done, some (.num 3), some .done, some .done], 0,
      [.cloned 10 s2, .cloned 10 s1, .dropped 10 s2, .dropped 10 s2, .dropped 10 s1, .dropped 10 s1]) := by
  decide +kernel

theorem lossyDyn_typed : ∀ op ∈ lossyDyn, op.IsTyped env := by
  simp only [lossyDyn, List.forall_mem_cons]
  exact ⟨⟨by decide, by decide⟩, (by decide : badClone.length = size 7), trivial, trivial, trivial, trivial, trivial, (fun _ h => by cases h)⟩

theorem twice_typed : ∀ op ∈ twice, op.IsTyped env := by
  simp only [twice, List.forall_mem_cons]
  exact ⟨⟨by decide, by decide⟩, trivial, trivial, trivial, (fun _ h => by cases h)⟩

theorem fine_typed : ∀ op ∈ fine, op.IsTyped env := by
  simp only [fine, List.forall_mem_cons]
  exact ⟨⟨by decide, by decide⟩, trivial, trivial, trivial, trivial, trivial, trivial, trivial, (fun _ h => by cases h)⟩

example := C71_program (cfg := ⟨true⟩) (vt := cloneVT) lossyDyn dyn_start_holds lossyDyn_typed tab
example := C71_program (cfg := ⟨false⟩) (vt := cloneVT) fine dyn_start_holds fine_typed tab
example := C71_step (cfg := ⟨false⟩) (vt := cloneVT) (op := .fromVec 0 7 [g1, badDrop]) dyn_start_holds ⟨by decide, by decide⟩ tab

/-- So the code drops the value twice. -/
example : (runCaughtD env ⟨true⟩ cloneVT twice ((fun _ => none), ⟨emptyHeap, []⟩)).2.2.user = [.dropped 7 g1, .dropped 7 g1] := by
  have h := C71_program (cfg := ⟨true⟩) (vt := cloneVT) twice dyn_start_holds twice_typed tab
  have hr := twice_run
  rcases hs : stepsCaught env ⟨true⟩ twice ((fun _ => none), ⟨0, []⟩) with ⟨r, vars', o'⟩
  rw [hs] at h hr
  cases r with
  | ok a =>
    have e := h.2.user
    simp only [seen, Option.some.injEq, Prod.mk.injEq] at hr
    rw [e, hr.2.2]
  | panic y => cases hr
  | ub => cases hr
  | abort => cases hr

/-- A state with a container of two values of type 7 in variable 3. -/
def vars3 : YVars := fun k => if k = 3 then some (.vec 7 (.vec 7 [g1, badDrop] 4)) else none
def slots3 : DSlots (CloneVTable Log) := fun k => if k = 3 then some (.vec ⟨vec 7 [g1, badDrop] 4, cloneVT 7⟩) else none

theorem vars3_holds : YHolds env slots3 (world 7 4) vars3 ⟨0, []⟩ where
  user := rfl
  wf := oneHeap_wf _
  none_iff k := by unfold slots3 vars3; split <;> simp [*]
  is k c x h1 h2 := by
    simp only [slots3, vars3] at h1 h2
    split at h1
    · rename_i hk
      rw [if_pos hk] at h2
      cases h1; cases h2
      exact ⟨⟨vec_repr (by decide) (by decide) (by decide) (by decide) (by unfold Room; decide), rfl⟩, tab 7, by decide,
        fun t es cap h => by cases h; rfl⟩
    · cases h1
  inj k k' c c' i h1 h2 _ _ := by
    simp only [slots3] at h1 h2
    split at h1
    · split at h2
      · omega
      · cases h2
    · cases h1
  leaks := by
    refine ⟨[], List.nodup_nil, rfl, (fun _ h => by cases h), (fun _ h => by cases h), fun i l h => .inr ⟨3, _, rfl, ?_⟩⟩
    simp only [world, oneHeap] at h
    split at h
    · rename_i hi; subst hi; rfl
    · cases h

example := C71_place (cfg := ⟨false⟩) (k := 3) (i := 1) vars3_holds rfl (by decide)
example := C71_no_place (Γ := env) (cfg := ⟨true⟩) (t := 7) (es := [g1, badDrop]) (b := 7) (cap := 4) (i := 2) rfl (by decide)
example := C71_step (cfg := ⟨true⟩) (vt := cloneVT) (op := .resize 3 7 usizeMax badClone) vars3_holds (by decide : badClone.length = size 7) tab
example := C71_blocks vars3_holds [3] (by decide) (fun k h => by
  simp only [vars3] at h; split at h
  · rename_i hk; simp [hk]
  · exact absurd rfl h)

/-- The environment with user code that is defined on all inputs. -/
def safeEnv : TyEnv Log := { env with
  clone := fun t b => if b.length = size t then clone t b else M.panic .user
  clone_len := by
    intro t b u b' u' h
    split at h
    · exact clone_len h
    · cases h
  cloneFrom := fun _ _ => pure ()
  cloneFrom_len := by intro t src d u r d' u' h hd; cases h; exact hd }

theorem safeEnv_safe : SafeUser safeEnv where
  drop t b u := by
    show (drop t b u).1 ≠ _
    unfold drop
    split
    · intro h; cases h
    · split <;> (intro h; cases h)
  clone t b u := by
    show ((if b.length = size t then clone t b else M.panic .user) u).1 ≠ _
    split
    · rename_i hl
      unfold clone
      rw [if_neg (not_not.2 hl)]
      split <;> (intro h; cases h)
    · intro h; cases h
  cloneFrom t b s := by intro h; cases h

theorem safe_tab (t : TyId) : Tab safeEnv t (CloneVTable.build safeEnv t) := ⟨rfl, rfl, rfl, rfl, trivial⟩

example := C71_defined (cfg := ⟨true⟩) (vt := CloneVTable.build safeEnv) safeEnv_safe lossyDyn
  (C71_start emptyHeap [] (fun _ _ => rfl) (fun _ => rfl)) lossyDyn_typed safe_tab
  (by intro k j h; simp [lossyDyn] at h)

/-- A boxed value of alignment 8 is pushed. -/
def pushVars : YVars := fun k => if k = 0 then some (.vec 7 (.vec 7 [g1] 4)) else if k = 1 then some (.box 7 g2) else none
example : (DOp.step safeEnv ⟨true⟩ (.pushBox 0 1) (pushVars, ⟨0, []⟩)).1 = .ub :=
  (C71_ub_iff safeEnv_safe _).2 ⟨0, 1, 7, _, 7, g2, rfl, rfl, rfl, .inl ⟨⟨_, _, rfl⟩, by decide⟩⟩
/-- A boxed value of another type is refused. -/
example : (DOp.step safeEnv ⟨true⟩ (.pushBox 0 1) ((fun k => if k = 1 then some (.box 10 s1) else pushVars k), ⟨0, []⟩)).1 ≠ .ub := by
  rw [Ne, C71_ub_iff safeEnv_safe]
  rintro ⟨k, j, b, x, t, y, e, hk, hj, h⟩
  cases e; cases hk; cases hj
  rcases h with ⟨⟨es, cap, e⟩, -⟩ | ⟨⟨n, e⟩, -⟩ <;> cases e

end Ex
end Dync
