import Verif.InPlace2
import Verif.Props.Amortised
/-!
# C96 The elements of a container stay where they are until it grows

Along every program over `VecCopy` containers, with caught panics and calls of any kind in between, the elements of a
container are in the same buffer as long as its capacity has not changed; the calls that need no more room call the
allocator not at all; and a round trip through `Vec` copies nothing.
-/
namespace Dync
open Place
variable {U V : Type} {Γ : TyEnv U} {t : TyId} {cfg : Cfg} {vt : V} {slots slots' : Slots V} {w w' : World U} {s : XState}

/-! ### Specification -/

/-- The address of the elements of the container in variable `k` (what `as_ptr` returns). -/
def bufferOf (slots : Slots V) (k : Nat) : Ptr := (slots k).bind (·.data.ptr)

/-- The operation makes, copies or destroys a container, or turns it into a `Vec`. -/
def Op.Allocates : Op → Prop
  | .withType .. | .withCapacity .. | .fromSlice .. | .clone .. | .drop .. | .roundTrip .. => True
  | _ => False

/-! ### One call -/

theorem holds_good {k : Nat} {c : VecCopy V} (H : s.Holds Γ slots w.heap) (hk : slots k = some c) : Place.Good Γ c.data := by
  cases hv : s.var k with
  | none => rw [(H.none_iff k).2 hv] at hk; cases hk
  | some x =>
    have I := H.is k c x hk hv
    cases x with
    | vec t es cap => obtain ⟨R, rfl⟩ := I; unfold Place.Good; rw [R.elem_eq]; rfl
    | unit n =>
      have I : IsUnits Γ n c.data := I
      unfold Place.Good; rw [I.good.elem]; rfl

theorem never_aborts {op : Op} {r : Res Obs} (H : s.Holds Γ slots w.heap) (ht : op.Typed Γ)
    (he : op.exec Γ cfg vt (slots, w) = (r, (slots', w'))) : r ≠ .abort := by
  have hs := C70_step (cfg := cfg) (vt := vt) H ht
  rintro rfl
  rw [he] at hs
  split at hs
  · cases hs
  · obtain ⟨_, _, _, h, -⟩ := hs; cases h
  · obtain ⟨_, _, h, -⟩ := hs; cases h

theorem exec_holds {op : Op} {r : Res Obs} (H : s.Holds Γ slots w.heap) (ht : op.Typed Γ)
    (he : op.exec Γ cfg vt (slots, w) = (r, (slots', w'))) (hr : r ≠ .ub) : ∃ s' : XState, s'.Holds Γ slots' w'.heap := by
  have hs := C70_step (cfg := cfg) (vt := vt) H ht
  rw [he] at hs
  split at hs
  · exact absurd hs hr
  · obtain ⟨_, _, _, h, h'⟩ := hs; cases h; exact ⟨_, h'⟩
  · obtain ⟨_, _, h, h'⟩ := hs; cases h; exact ⟨_, h'⟩

theorem heldBy_some {k n cap : Nat} (h : heldBy slots k = some (n, cap)) :
    ∃ c, slots k = some c ∧ c.data.elem.size ≠ 0 ∧ c.data.len = n ∧ c.data.cap = cap := by
  unfold heldBy at h
  cases hk : slots k with
  | none => rw [hk] at h; cases h
  | some c =>
    rw [hk, Option.bind_some] at h
    split at h
    · cases h
    · cases h; exact ⟨c, rfl, ‹_›, rfl, rfl⟩

theorem kept_buffer {k n n' cap : Nat} {c c' : VecCopy V} {R : Heap → Heap → Prop} {h h' : Heap} (hg : Place.Good Γ c.data)
    (K : Place.Kept Γ R c.data h c'.data h') (e : slots k = some c) (e' : slots' k = some c')
    (hb : heldBy slots k = some (n, cap)) (hb' : heldBy slots' k = some (n', cap)) :
    bufferOf slots' k = bufferOf slots k ∧ R h h' := by
  obtain ⟨d, hd, -, -, hc⟩ := heldBy_some hb
  obtain ⟨d', hd', hs, -, hc'⟩ := heldBy_some hb'
  rw [e] at hd; cases hd
  rw [e'] at hd'; cases hd'
  rcases (K hg).2 with ⟨-, ⟨h1, -, h2⟩ | h1⟩ | h1
  · exact ⟨by unfold bufferOf; rw [e, e']; exact h1, h2⟩
  · omega
  · exact absurd h1 hs

theorem buffer_same {k : Nat} (h : slots' k = slots k) : bufferOf slots' k = bufferOf slots k := by unfold bufferOf; rw [h]

/-- In each call, with any result, on any state of a program: a container that has the same capacity after the call as
before it has its elements in the same place. -/
theorem C96_step {op : Op} {k n n' cap : Nat} {r : Res Obs} (H : s.Holds Γ slots w.heap) (ht : op.Typed Γ)
    (hc : ¬ op.Creates k) (he : op.exec Γ cfg vt (slots, w) = (r, (slots', w'))) (hr : r ≠ .ub)
    (hb : heldBy slots k = some (n, cap)) (hb' : heldBy slots' k = some (n', cap)) : bufferOf slots' k = bufferOf slots k := by
  have ha := never_aborts H ht he
  have hP := SameAt.pre (β := VecCopy V) (U := U) k
  have hT : Pre (fun _ _ : Heap => True) := ⟨fun _ => trivial, fun _ _ => trivial⟩
  by_cases ho : Rehouses op
  · cases op with
    | withType j t =>
      exact buffer_same (Run.bind hP (SameAt.world _) (fun c => .bind hP (assign_same (cfg := cfg) (Ne.symm hc) c) fun _ => .pure hP _) _ _ _ he hr ha)
    | withCapacity j t i =>
      exact buffer_same (Run.bind hP (SameAt.world _) (fun c => .bind hP (assign_same (cfg := cfg) (Ne.symm hc) c) fun _ => .pure hP _) _ _ _ he hr ha)
    | fromSlice j t xs =>
      exact buffer_same (Run.bind hP (SameAt.world _) (fun c => .bind hP (assign_same (cfg := cfg) (Ne.symm hc) c) fun _ => .pure hP _) _ _ _ he hr ha)
    | drop j =>
      unfold Op.exec Op.takeSlot at he
      dsimp only at he
      split at he
      · cases he; rfl
      · have h := Run.bind hP (SameAt.world _) (fun _ => .pure hP _) _ _ _ he hr ha
        obtain ⟨d', hd', -⟩ := heldBy_some hb'
        by_cases hkj : k = j
        · subst hkj
          have : slots' k = none := h.trans (if_pos rfl)
          rw [this] at hd'; cases hd'
        · exact buffer_same (h.trans (if_neg hkj))
    | clone i j =>
      unfold Op.exec at he
      dsimp only at he
      split at he
      · cases he; rfl
      · exact buffer_same (Run.bind hP (SameAt.world _) (fun c => .bind hP (assign_same (cfg := cfg) (Ne.symm hc) c) fun _ => .pure hP _) _ _ _ he hr ha)
    | append i j =>
      unfold Op.exec at he
      dsimp only at he
      split at he
      · cases he; rfl
      · rename_i hij
        split at he
        · rename_i c b hi hj
          rcases hout : VecCopy.append Γ cfg (c, (⟨w.heap, (b, w.user)⟩ : World (VecCopy V × U))) with ⟨q, c', ⟨h', b', u'⟩⟩
          rw [hout] at he
          obtain ⟨e1, e2⟩ := Prod.mk.inj he
          obtain ⟨e2, e3⟩ := Prod.mk.inj e2
          subst e1 e2 e3
          obtain ⟨K1, K2⟩ := vecAppend_inv hT hout (fun h => hr (by rw [h]; rfl)) (fun h => ha (by rw [h]; rfl))
          by_cases hkj : k = j
          · subst hkj
            exact (kept_buffer (holds_good H hj) K2 hj (if_pos rfl) hb hb').1
          · by_cases hki : k = i
            · subst hki
              exact (kept_buffer (holds_good H hi) K1 hi ((if_neg hkj).trans (if_pos rfl)) hb hb').1
            · exact buffer_same ((if_neg hkj).trans (if_neg hki))
        · cases he; rfl
    | roundTrip j t =>
      unfold Op.exec Op.takeSlot at he
      dsimp only at he
      split at he
      · cases he; rfl
      · rename_i c hj
        obtain ⟨d', hd', hs', -, hc'⟩ := heldBy_some hb'
        obtain ⟨d, hd, hs, -, hcap⟩ := heldBy_some hb
        rcases bind_inv he hr ha with ⟨o, s1, e1, he⟩ | ⟨y, e1, -⟩
        · have h1 : s1.1 = Slots.put slots j none := (congrArg (·.2.1) e1).symm
          cases o with
          | none =>
            cases he
            by_cases hkj : k = j
            · subst hkj; have h1 : slots' = Slots.put slots k none := h1
              rw [h1, show Slots.put slots k none k = none from if_pos rfl] at hd'; cases hd'
            · have h1 : slots' = Slots.put slots j none := h1
              exact buffer_same (by rw [h1]; exact if_neg hkj)
          | some rv =>
            have hv := intoVec_inv (w' := s1.2) (r := .ok (some rv)) (Prod.ext (congrArg (·.1) e1) (congrArg (·.2.2) e1)) (by intro h; cases h) (by intro h; cases h) rv rfl
            rcases bind_inv he hr ha with ⟨c', s2, e2, he⟩ | ⟨y, e2, -⟩
            · have h2 : s2.1 = s1.1 := (congrArg (·.2.1) e2).symm
              have hf := vecFromVec_inv (w := s1.2) (w' := s2.2) hT (r := .ok c') (Prod.ext (congrArg (·.1) e2) (congrArg (·.2.2) e2)) (by intro h; cases h) (by intro h; cases h) c' rfl
              obtain ⟨sl, w2⟩ := s2
              dsimp only at h2
              subst h2
              by_cases hkj : k = j
              · subst hkj
                have hn : s1.1 k = none := by rw [h1]; exact if_pos rfl
                have : slots' = Slots.put s1.1 k (some c') := by
                  have hr' : Op.assign cfg k c' (s1.1, w2) = (.ok (), (Slots.put s1.1 k (some c'), w2)) := by
                    unfold Op.assign
                    rw [M.bind_ok (M.get_run _)]
                    dsimp only
                    rw [hn]
                    rfl
                  rw [M.bind_ok hr'] at he
                  exact (congrArg (·.2.1) he).symm
                rw [this] at hd'
                rw [show Slots.put s1.1 k (some c') k = some c' from if_pos rfl] at hd'
                cases hd'
                rw [hj] at hd; cases hd
                have : bufferOf slots' k = d'.data.ptr := by rw [this]; unfold bufferOf; rw [show Slots.put s1.1 k (some d') k = some d' from if_pos rfl]; rfl
                rw [this]
                have : bufferOf slots k = c.data.ptr := by unfold bufferOf; rw [hj]; rfl
                rw [this]
                rcases hf with ⟨hf, -, -⟩ | hf
                · rw [hf, hv.2.1]
                · rw [hv.2.2] at hf; omega
              · refine buffer_same ((Run.bind hP (assign_same (cfg := cfg) hkj c') (fun _ => .pure hP _) _ _ _ he hr ha).trans ?_)
                show s1.1 k = _
                rw [h1]; exact if_neg hkj
            · have h2 : slots' = s1.1 := (congrArg (·.2.1) e2).symm
              by_cases hkj : k = j
              · subst hkj; rw [h2, h1, show Slots.put slots k none k = none from if_pos rfl] at hd'; cases hd'
              · exact buffer_same (by rw [h2, h1]; exact if_neg hkj)
        · have h2 : slots' = Slots.put slots j none := (congrArg (·.2.1) e1).symm
          by_cases hkj : k = j
          · subst hkj; rw [h2, show Slots.put slots k none k = none from if_pos rfl] at hd'; cases hd'
          · exact buffer_same (by rw [h2]; exact if_neg hkj)
    | pushAs j t x => cases ho
    | push j t x => cases ho
    | resize j t n x => cases ho
    | reserve j n => cases ho
    | clear j => cases ho
    | fill j t x => cases ho
    | copyFromSlice j t xs => cases ho
    | rotateLeft j n => cases ho
    | rotateRight j n => cases ho
    | swap j i i' => cases ho
    | setAs j t i x => cases ho
    | setValue j i t x => cases ho
    | mapAll j f => cases ho
    | len j => cases ho
    | typeId j => cases ho
    | getAs j t i => cases ho
    | get j i => cases ho
    | asSlice j t => cases ho
    | iter j => cases ho
  · rcases exec_method ho he hr ha with ⟨rfl, -⟩ | ⟨j, c, c', hj, rfl, K⟩
    · rfl
    · by_cases hkj : k = j
      · subst hkj
        exact (kept_buffer (holds_good H hj) K hj (if_pos rfl) hb hb').1
      · exact buffer_same (if_neg hkj)

/-- A call that makes, copies or destroys no container, if all containers have content before and after it and no
capacity changes: no block is allocated, moved or freed. -/
theorem C96_quiet {op : Op} {r : Res Obs} (H : s.Holds Γ slots w.heap) (ht : op.Typed Γ) (hc : ¬ op.Allocates)
    (he : op.exec Γ cfg vt (slots, w) = (r, (slots', w'))) (hr : r ≠ .ub)
    (hb : ∀ k, slots k ≠ none → ∃ n n' cap, heldBy slots k = some (n, cap) ∧ heldBy slots' k = some (n', cap)) : w'.heap = w.heap := by
  have ha := never_aborts H ht he
  have hE : Pre (Eq (α := Heap)) := ⟨fun _ => rfl, fun h h' => h.trans h'⟩
  by_cases ho : Rehouses op
  · cases op <;> first | exact absurd trivial hc | (cases ho; done) | skip
    rename_i i j
    unfold Op.exec at he
    dsimp only at he
    split at he
    · cases he; rfl
    · rename_i hij
      split at he
      · rename_i c b hi hj
        rcases hout : VecCopy.append Γ cfg (c, (⟨w.heap, (b, w.user)⟩ : World (VecCopy V × U))) with ⟨q, c', ⟨h', b', u'⟩⟩
        rw [hout] at he
        obtain ⟨e1, e2⟩ := Prod.mk.inj he
        obtain ⟨e2, e3⟩ := Prod.mk.inj e2
        subst e1 e2 e3
        obtain ⟨K1, K2⟩ := vecAppend_inv hE hout (fun h => hr (by rw [h]; rfl)) (fun h => ha (by rw [h]; rfl))
        obtain ⟨n, n', cap, h1, h2⟩ := hb i (by rw [hi]; intro h; cases h)
        exact (kept_buffer (holds_good H hi) K1 hi ((if_neg hij).trans (if_pos rfl)) h1 h2).2.symm
      · cases he; rfl
  · rcases exec_method ho he hr ha with ⟨-, rfl⟩ | ⟨j, c, c', hj, rfl, K⟩
    · rfl
    · obtain ⟨n, n', cap, h1, h2⟩ := hb j (by rw [hj]; intro h; cases h)
      exact (kept_buffer (holds_good H hj) K hj (if_pos rfl) h1 h2).2.symm

/-! ### Programs -/

/-- A program with caught panics that does not assign a new container to variable `k`, and after which the container
has content: if no call changed its capacity, the elements are where they were before the program. -/
theorem C96_stays {k n' cap' : Nat} {os : List (Option Obs)} (ops : List Op) (H : s.Holds Γ slots w.heap) (ht : ∀ op ∈ ops, op.Typed Γ)
    (hc : ∀ op ∈ ops, ¬ op.Creates k) (hg : growths Γ cfg vt k ops (slots, w) = [])
    (he : runCaught Γ cfg vt ops (slots, w) = (.ok os, (slots', w'))) (hk : heldBy slots' k = some (n', cap')) :
    bufferOf slots' k = bufferOf slots k ∧ ∃ n, heldBy slots k = some (n, cap') := by
  induction ops generalizing s slots w os with
  | nil => cases he; exact ⟨rfl, _, hk⟩
  | cons op ops ih =>
    have ht' : ∀ o ∈ ops, o.Typed Γ := fun o h => ht o (List.mem_cons_of_mem _ h)
    have hc' : ∀ o ∈ ops, ¬ o.Creates k := fun o h => hc o (List.mem_cons_of_mem _ h)
    have key : ∀ {r : Res Obs} {slots1 : Slots V} {w1 : World U} {os1}, op.exec Γ cfg vt (slots, w) = (r, (slots1, w1)) → r ≠ .ub →
        runCaught Γ cfg vt ops (slots1, w1) = (.ok os1, (slots', w')) →
        bufferOf slots' k = bufferOf slots k ∧ ∃ n, heldBy slots k = some (n, cap') := by
      intro r slots1 w1 os1 e1 hr e2
      obtain ⟨s1, H1⟩ := exec_holds H (ht op List.mem_cons_self) e1 hr
      have ha := never_aborts H (ht op List.mem_cons_self) e1
      have hg' : (match heldBy slots k, heldBy slots1 k with
          | some (n, cap), some (n', cap') => if cap = cap' then [] else [(n, op.needs n n')]
          | _, _ => []) ++ growths Γ cfg vt k ops (slots1, w1) = [] := by
        refine Eq.trans ?_ hg
        show _ = (match (op.exec Γ cfg vt (slots, w)).1 with | .ub | .abort => [] | _ => _)
        rw [e1]
        cases r with
        | ub => exact absurd rfl hr
        | abort => exact absurd rfl ha
        | ok _ => rfl
        | panic _ => rfl
      obtain ⟨g1, g2⟩ := List.append_eq_nil_iff.1 hg'
      obtain ⟨hb, n1, hn1⟩ := ih H1 ht' hc' g2 e2
      obtain ⟨n, cap, h1, -, -, -⟩ := C95_step H (ht op List.mem_cons_self) (hc op List.mem_cons_self) e1 hr hn1
      rw [h1, hn1] at g1
      dsimp only at g1
      by_cases hcc : cap = cap'
      · subst hcc
        exact ⟨hb.trans (C96_step H (ht op List.mem_cons_self) (hc op List.mem_cons_self) e1 hr h1 hn1), n, h1⟩
      · rw [if_neg hcc] at g1; cases g1
    unfold runCaught at he
    rcases bind_inv he (by intro h; cases h) (by intro h; cases h) with ⟨o, ⟨slots1, w1⟩, e1, he⟩ | ⟨y, -, h⟩
    · rcases bind_inv he (by intro h; cases h) (by intro h; cases h) with ⟨os1, ⟨slots2, w2⟩, e2, he⟩ | ⟨y, -, h⟩
      · cases he
        rcases hx : op.exec Γ cfg vt (slots, w) with ⟨q, s1⟩
        have e1 : (match op.exec Γ cfg vt (slots, w) with
          | (.ok o, s') => ((.ok (some o), s') : Res (Option Obs) × (Slots V × World U))
          | (.panic _, s') => (.ok none, s')
          | (.ub, s') => (.ub, s')
          | (.abort, s') => (.abort, s')) = (.ok o, (slots1, w1)) := e1
        rw [hx] at e1
        cases q with
        | ub => cases e1
        | abort => cases e1
        | ok _ => cases e1; exact key hx (by intro h; cases h) e2
        | panic _ => cases e1; exact key hx (by intro h; cases h) e2
      · cases h
    · cases h

/-- One push into free room. -/
theorem push_stays {k cap : Nat} {x : Bytes} {es : List Bytes} (H : s.Holds Γ slots w.heap) (hk : s.var k = some (.vec t es cap))
    (ht : (Op.pushAs k t x).Typed Γ) (hf : es.length < cap) :
    ∃ slots', (Op.pushAs k t x).exec Γ cfg vt (slots, w) = (.ok .done, (slots', w)) ∧ bufferOf slots' k = bufferOf slots k ∧
      XState.Holds Γ slots' w.heap ⟨Slots.put s.var k (some (.vec t (es ++ [x]) cap)), s.leaked⟩ := by
  obtain ⟨-, -, hp, -⟩ := holds_vec H hk
  have hstep : (Op.pushAs k t x).step Γ cfg s = (.ok .done, ⟨Slots.put s.var k (some (.vec t (es ++ [x]) cap)), s.leaked⟩) := by
    have hg : growth (Γ.size t) (Γ.align t) 1 cap es.length 1 = .keep := by
      unfold growth; rw [if_pos (by omega)]
    simp only [Op.step, XState.method, hk, XVec.pushAs, hg, if_pos]
    rfl
  have hs := C70_step (cfg := cfg) (vt := vt) H ht
  rw [hstep] at hs
  obtain ⟨slots', h', he, H'⟩ := hs
  have hb : heldBy slots k = some (es.length, cap) := by
    rw [holds_holding H]; unfold XState.holding; rw [hk]
  have hb' : heldBy slots' k = some ((es ++ [x]).length, cap) := by
    rw [holds_holding (w := { w with heap := h' }) H']; unfold XState.holding
    dsimp only
    rw [show Slots.put s.var k (some (.vec t (es ++ [x]) cap)) k = some (.vec t (es ++ [x]) cap) from if_pos rfl]
  have hw : h' = w.heap := by
    rcases exec_method (op := .pushAs k t x) id he (by intro h; cases h) (by intro h; cases h) with ⟨-, h⟩ | ⟨j, c, c', hj, e, K⟩
    · exact congrArg World.heap h
    · by_cases hkj : k = j
      · subst hkj
        exact (kept_buffer (slots' := slots') (holds_good H hj) K hj (by rw [e]; exact if_pos rfl) hb hb').2.symm
      · have : slots' k = slots k := by rw [e]; exact if_neg hkj
        rw [show heldBy slots' k = heldBy slots k by unfold heldBy; rw [this], hb] at hb'
        simp at hb'
  subst hw
  exact ⟨slots', he, C96_step H ht (fun h => h) he (by intro h; cases h) hb hb', H'⟩

/-- As many pushes as there is room for: all of them succeed, no block is allocated, moved or freed, and the elements
stay where they are. -/
theorem C96_pushes {k cap : Nat} {es : List Bytes} (xs : List Bytes) (H : s.Holds Γ slots w.heap) (hk : s.var k = some (.vec t es cap))
    (ht : ∀ x ∈ xs, (Op.pushAs k t x).Typed Γ) (hf : es.length + xs.length ≤ cap) :
    ∃ slots', runCaught Γ cfg vt (xs.map (Op.pushAs k t)) (slots, w) = (.ok (xs.map fun _ => some .done), (slots', w)) ∧
      bufferOf slots' k = bufferOf slots k ∧
      XState.Holds Γ slots' w.heap ⟨Slots.put s.var k (some (.vec t (es ++ xs) cap)), s.leaked⟩ := by
  induction xs generalizing s slots es with
  | nil =>
    refine ⟨slots, rfl, rfl, ?_⟩
    rw [List.append_nil]
    have : Slots.put s.var k (some (.vec t es cap)) = s.var := by
      funext j
      unfold Slots.put
      split
      · rename_i h; rw [h, hk]
      · rfl
    rw [this]; exact H
  | cons x xs ih =>
    have hl : es.length + (xs.length + 1) ≤ cap := hf
    obtain ⟨slots1, e1, b1, H1⟩ := push_stays (cfg := cfg) (vt := vt) H hk (ht x List.mem_cons_self) (by omega)
    obtain ⟨slots2, e2, b2, H2⟩ := ih H1 (if_pos rfl) (fun y h => ht y (List.mem_cons_of_mem _ h)) (by simp only [List.length_append, List.length_singleton]; omega)
    refine ⟨slots2, ?_, b2.trans b1, ?_⟩
    · rw [List.map_cons, runCaught]
      rw [M.bind_ok (a := some Obs.done) (s' := (slots1, w)) (by dsimp only; rw [e1]), M.bind_ok e2]
      rfl
    · have : Slots.put (Slots.put s.var k (some (.vec t (es ++ [x]) cap))) k (some (.vec t (es ++ [x] ++ xs) cap)) =
          Slots.put s.var k (some (.vec t (es ++ x :: xs) cap)) := by
        funext j
        unfold Slots.put
        split
        · rw [List.append_assoc]; rfl
        · rfl
      rw [← this]; exact H2

/-! ### Examples -/

namespace Ex

example := C96_pushes (cfg := ⟨true⟩) (vt := ()) (w := world 2 4) [a2] m123_holds (k := 7) rfl
  (fun x h => by cases List.mem_singleton.1 h; exact ⟨typed 2 (by decide), by decide⟩) (by decide)

/-- A push that fits, all elements removed and pushed again, a refused push, an index out of bounds (a panic), a
round trip through `Vec`. -/
def settled : List Op := [.pushAs 7 2 a1, .clear 7, .pushAs 7 2 a3, .pushAs 7 4 (a1 ++ a2), .get 7 9, .resize 7 2 4 a2, .roundTrip 7 2]

theorem settled_typed : ∀ op ∈ settled, op.Typed env := by
  simp only [settled, List.forall_mem_cons]
  exact ⟨⟨typed 2 (by decide), by decide⟩, trivial, ⟨typed 2 (by decide), by decide⟩, ⟨typed 4 (by decide), by decide⟩, trivial,
    ⟨typed 2 (by decide), by decide⟩, typed 2 (by decide), (fun _ h => by cases h)⟩

theorem settled_keeps : ∀ op ∈ settled, ¬ op.Creates 7 := by
  simp only [settled, List.forall_mem_cons]
  exact ⟨id, id, id, id, id, id, id, (fun _ h => by cases h)⟩

theorem settled_runs : ∃ os slots' w', runCaught env ⟨true⟩ () settled (slots123, world 2 4) = (.ok os, (slots', w')) ∧
    heldBy slots' 7 = some (4, 4) ∧ os[4]? = some none := by
  refine ⟨_, _, _, rfl, ?_, ?_⟩ <;> decide +kernel

example : ∃ os slots' w', runCaught env ⟨true⟩ () settled (slots123, world 2 4) = (.ok os, (slots', w')) ∧
    bufferOf slots' 7 = bufferOf slots123 7 := by
  obtain ⟨os, slots', w', h, hk, -⟩ := settled_runs
  exact ⟨os, slots', w', h, (C96_stays settled m123_holds settled_typed settled_keeps (by decide +kernel) h hk).1⟩

/-- A push that does not fit moves the elements. -/
example : ∃ r slots' w', (Op.resize 7 2 5 a2).exec env ⟨true⟩ () (slots123, world 2 4) = (r, (slots', w')) ∧
    bufferOf slots' 7 ≠ bufferOf slots123 7 := by
  refine ⟨_, _, _, rfl, ?_⟩; decide +kernel

example := C96_quiet (cfg := ⟨true⟩) (vt := ()) (w := world 2 4) (op := .pushAs 7 2 a1) m123_holds ⟨typed 2 (by decide), by decide⟩ id rfl
  (by decide +kernel) (fun k hk => ⟨3, 4, 4, by
    have : k = 7 := Classical.byContradiction fun h => hk (if_neg h)
    subst this
    exact ⟨rfl, by decide +kernel⟩⟩)

end Ex

end Dync
