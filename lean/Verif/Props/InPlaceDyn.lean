import Verif.DynFrame
import Verif.Props.InPlace
import Verif.Props.AmortisedDyn
/-!
# C96 The elements of a container stay where they are until it grows: `VecDyn`

The same as `Verif/Props/InPlace.lean` for programs over `VecDyn` containers and values, with arbitrary user code.
-/
namespace Dync
open Place
variable {U V α : Type} {Γ : TyEnv U} {t : TyId} {cfg : Cfg}

/-! ### Specification -/

/-- The address of the elements of the `VecDyn` in variable `k`. -/
def dynBufferOf (slots : DSlots V) (k : Nat) : Ptr :=
  match slots k with
  | some (.vec c) => c.data.ptr
  | _ => none

/-! ### Methods -/

namespace Place

/-- Any change of the heap. -/
abbrev Any : Heap → Heap → Prop := fun _ _ => True

theorem anyPre : Pre Any := ⟨fun _ => trivial, fun _ _ => trivial⟩

theorem anyCalm {σ : Type} (m : M (σ × World U) α) : Run (Calm Any) m := .of fun _ => trivial

theorem any_world (m : M (World U) α) : Run (KeptC Γ Any) (onWorld m : M (VecCopy V × World U) α) := onWorld_run' (.of fun _ => trivial)

theorem Run.byteChunks {σ : Type} {P : σ → σ → Prop} (hP : Pre P) (v : VecVoid) : Run P (v.byteChunks : M σ _) :=
  .bind hP (.lift hP _) fun _ => .lift hP _

/-- If variable `k` holds a container, it held one before, whose buffer was kept or enlarged. -/
def KeptAt (Γ : TyEnv U) (k : Nat) (s s' : DSlots V × World U) : Prop :=
  ∀ c', s'.1 k = some (.vec c') → ∃ c, s.1 k = some (.vec c) ∧ Kept Γ Any c.data s.2.heap c'.data s'.2.heap

theorem KeptAt.pre (k : Nat) : Pre (KeptAt (V := V) Γ k) :=
  ⟨fun _ c h => ⟨c, h, Kept.refl anyPre _ _⟩, fun {_ _ _} h h' c'' e => by
    obtain ⟨c', e', h2⟩ := h' c'' e
    obtain ⟨c, e, h1⟩ := h c' e'
    exact ⟨c, e, Kept.trans anyPre h1 h2⟩⟩

theorem KeptAt.same {k : Nat} {s s' : DSlots V × World U} (h : s'.1 k = s.1 k) : KeptAt Γ k s s' :=
  fun c' e => ⟨c', h.symm.trans e, Kept.heap _ trivial⟩

theorem KeptAt.gone {k : Nat} {s s' : DSlots V × World U} (h : ∀ c, s'.1 k ≠ some (.vec c)) : KeptAt Γ k s s' :=
  fun c' e => absurd e (h c')

section
variable [HasDrop U V] [HasClone U V] {k j : Nat}

omit [HasDrop U V] [HasClone U V] in
theorem onVec_keeps {m : M (VecDyn V × World U) Obs} (h : Run (KeptC Γ Any) m) : Run (KeptAt Γ k) (DOp.onVec j m) := by
  rintro ⟨slots, w⟩ r ⟨slots', w'⟩ e h1 h2
  unfold DOp.onVec at e
  dsimp only at e
  split at e
  · rename_i c hc
    obtain ⟨e1, e2⟩ := Prod.mk.inj e
    obtain ⟨e2, e3⟩ := Prod.mk.inj e2
    subst e1 e2 e3
    by_cases hk : k = j
    · subst hk
      intro c' e'
      have e' : Slots.put slots k _ k = some (.vec c') := e'
      rw [show ∀ b, Slots.put slots k b k = b from fun b => if_pos rfl] at e'
      cases e'
      exact ⟨c, hc, h _ _ _ rfl h1 h2⟩
    · exact .same (if_neg hk)
  · cases e; exact .same rfl

omit [HasClone U V] in
theorem create_keeps (h : k ≠ j) (m : M (World U) (Item V)) : Run (KeptAt Γ k) (DOp.create cfg j m) :=
  .of fun s => .same (Spares.create h s)

omit [HasDrop U V] [HasClone U V] in
theorem clearVar_keeps : Run (KeptAt Γ k) (DOp.clearVar j : M (DSlots V × World U) Unit) := by
  refine .of fun s => ?_
  by_cases h : k = j
  · subst h
    refine .gone fun c e => ?_
    have e : Slots.put s.1 k none k = _ := e
    rw [show Slots.put s.1 k none k = none from if_pos rfl] at e
    cases e
  · exact .same (Spares.clearVar h s)

omit [HasDrop U V] [HasClone U V] in
theorem readRef_keeps {i : Nat} : Run (KeptAt Γ k) (DOp.readRef cfg j i : M (DSlots V × World U) _) :=
  .of fun s => .same (Spares.readRef s)

omit [HasDrop U V] [HasClone U V] in
theorem onWorld_keeps (m : M (World U) α) : Run (KeptAt Γ k) (onWorld m : M (DSlots V × World U) α) := .of fun s => .same (Spares.world _ s)

omit [HasDrop U V] [HasClone U V] in
theorem dynGetMut_keeps {i : Nat} (m : M (ValueRef V × World U) α) : Run (KeptC Γ Any) (VecDyn.getMut cfg i m) := by
  have hP := KeptC.pre (V := V) (Γ := Γ) anyPre
  refine .bind hP (.getSelf hP) fun c => .bind hP (.debugAssert hP _) fun _ => .bind hP ?_ fun b => .bind hP ?_ fun p => ?_
  · exact .bind hP (.debugAssert hP _) fun _ => .bind hP (.lift hP _) fun _ => .bind hP (.bind hP (.umul hP _ _) fun _ =>
      .bind hP (.uadd hP _ _) fun _ => .bind hP (.umul hP _ _) fun _ => .pure hP _) fun _ => .lift hP _
  · exact .bind hP (.umul hP _ _) fun _ => .bind hP (.uadd hP _ _) fun _ => .bind hP (.umul hP _ _) fun _ => .pure hP _
  · exact .of fun s => Kept.mem _ _ trivial

omit [HasDrop U V] [HasClone U V] in
theorem onMut_keeps {i : Nat} (m : M (ValueRef V × World U) Obs) : Run (KeptAt Γ k) (DOp.onMut cfg j i m) := by
  rintro ⟨slots, w⟩ r ⟨slots', w'⟩ e h1 h2
  by_cases hk : k = j
  · subst hk
    unfold DOp.onMut at e
    dsimp only at e
    split at e
    · cases e; exact .same rfl
    · rename_i c hc
      obtain ⟨e1, e2⟩ := Prod.mk.inj e
      obtain ⟨e2, e3⟩ := Prod.mk.inj e2
      subst e1 e2 e3
      intro c' e'
      have e' : Slots.put slots k _ k = some (.vec c') := e'
      rw [show ∀ b, Slots.put slots k b k = b from fun b => if_pos rfl] at e'
      cases e'
      exact ⟨c, hc, dynGetMut_keeps m _ _ _ rfl h1 h2⟩
    all_goals
      obtain ⟨e1, e2⟩ := Prod.mk.inj e
      obtain ⟨e2, e3⟩ := Prod.mk.inj e2
      subst e1 e2 e3
      refine .gone fun c' e' => ?_
      have e' : Slots.put slots k _ k = some (.vec c') := e'
      rw [show ∀ b, Slots.put slots k b k = b from fun b => if_pos rfl] at e'
      cases e'
  · exact .same (by have := Spares.onMut (cfg := cfg) (i := i) (m := m) hk (slots, w); rw [e] at this; exact this)

/-- What every call other than a round trip does. -/
theorem exec_keeps {vt : TyId → V} {op : DOp} (hc : ¬ op.Creates k) (ho : ∀ j t, op ≠ .roundTrip j t) : Run (KeptAt Γ k) (op.exec Γ cfg vt) := by
  have hP := KeptC.pre (V := V) (Γ := Γ) anyPre
  have hK := KeptAt.pre (V := V) (Γ := Γ) k
  cases op with
  | withType j t => exact create_keeps (Ne.symm hc) _
  | withCapacity j t n => exact create_keeps (Ne.symm hc) _
  | fromVec j t xs => exact create_keeps (Ne.symm hc) _
  | fromSlice j t xs => exact create_keeps (Ne.symm hc) _
  | withSize j t n x => exact create_keeps (Ne.symm hc) _
  | newBox j t x => exact create_keeps (Ne.symm hc) _
  | newSmall j t x => exact create_keeps (Ne.symm hc) _
  | drop j =>
    intro s r s' e h1 h2
    unfold DOp.exec at e
    dsimp only at e
    split at e
    · cases e; exact .same rfl
    · exact Run.bind hK clearVar_keeps (fun _ => .bind hK (onWorld_keeps _) fun _ => .pure hK _) _ _ _ e h1 h2
  | clone i j =>
    intro s r s' e h1 h2
    unfold DOp.exec at e
    dsimp only at e
    split at e
    · cases e; exact .same rfl
    · exact create_keeps (Ne.symm hc) _ _ _ _ e h1 h2
  | consume j t =>
    intro s r s' e h1 h2
    unfold DOp.exec at e
    dsimp only at e
    split at e
    · cases e; exact .same rfl
    · exact Run.bind hK clearVar_keeps (fun _ => onWorld_keeps _) _ _ _ e h1 h2
  | roundTrip j t => exact absurd rfl (ho j t)
  | append i j =>
    rintro ⟨slots, w⟩ r ⟨slots', w'⟩ he hr ha
    unfold DOp.exec at he
    dsimp only at he
    split at he
    · cases he; exact .same rfl
    · rename_i hij
      split at he
      · rename_i c b hi hj
        rcases hout : VecCopy.append Γ cfg (c, (⟨w.heap, (b, w.user)⟩ : World (VecCopy V × U))) with ⟨q, c', ⟨h', b', u'⟩⟩
        rw [hout] at he
        obtain ⟨e1, e2⟩ := Prod.mk.inj he
        obtain ⟨e2, e3⟩ := Prod.mk.inj e2
        subst e1 e2 e3
        obtain ⟨K1, K2⟩ := vecAppend_inv anyPre hout (fun h => hr (by rw [h]; rfl)) (fun h => ha (by rw [h]; rfl))
        by_cases hkj : k = j
        · subst hkj
          intro c1 e'
          have e' : Slots.put _ k _ k = some (Item.vec c1) := e'
          rw [show ∀ (s : DSlots V) b, Slots.put s k b k = b from fun s b => if_pos rfl] at e'
          cases e'
          exact ⟨b, hj, K2⟩
        · by_cases hki : k = i
          · subst hki
            intro c1 e'
            have e' : Slots.put (Slots.put slots k _) j _ k = some (.vec c1) := e'
            rw [show ∀ (s : DSlots V) b, Slots.put s j b k = s k from fun s b => if_neg hkj,
              show ∀ (s : DSlots V) b, Slots.put s k b k = b from fun s b => if_pos rfl] at e'
            cases e'
            exact ⟨c, hi, K1⟩
          · exact .same ((if_neg hkj).trans (if_neg hki))
      · cases he; exact .same rfl
  | pushAs j t x => exact onVec_keeps (.bind hP (pushAs_run anyPre x) fun _ => .pure hP _)
  | pushCloned j j' i =>
    refine .ite (fun _ => .pure hK _) fun _ => .bind hK readRef_keeps fun v => ?_
    split
    · exact .pure hK _
    · refine onVec_keeps (.bind hP (.bind hP (.getSelf hP) fun c => ?_) fun _ => .pure hP _)
      exact .ite (fun _ => .bind hP (onData_run (void_resizeWith anyPre _ (anyCalm _))) fun _ => .pure hP _) fun _ => .pure hP _
  | pushBox j j' =>
    intro s r s' e h1 h2
    unfold DOp.exec at e
    dsimp only at e
    split at e
    · refine Run.bind hK clearVar_keeps (fun _ => onVec_keeps (.bind hP (.bind hP (.getSelf hP) fun c => ?_) fun _ => .pure hP _)) _ _ _ e h1 h2
      exact .ite (fun _ => .bind hP (.thenDrop hP (onData_run (void_push anyPre _)) (any_world _)) fun _ => .pure hP _) fun _ =>
        .bind hP (any_world _) fun _ => .pure hP _
    · cases e; exact .same rfl
  | resize j t n x =>
    refine onVec_keeps (.bind hP (.thenDrop hP (.bind hP (.getSelf hP) fun c => ?_) (any_world _)) fun _ => .pure hP _)
    split
    · exact .pure hP _
    · refine .ite (fun _ => ?_) fun _ => ?_
      · exact .bind hP (onData_run (void_reserve anyPre _)) fun _ => .bind hP (.repeatN hP (.bind hP (any_world _) fun _ =>
          .bind hP (pushAs_run anyPre _) fun _ => .pure hP _) _) fun _ => .pure hP _
      · exact .bind hP (.byteChunks hP _) fun _ => .bind hP (.forEach hP (fun _ => any_world _) _) fun _ =>
          .bind hP (onData_run (void_truncate anyPre _)) fun _ => .pure hP _
  | fill j t x => exact onVec_keeps (.bind hP (.thenDrop hP (asMutSliceAs_run anyPre (anyCalm _)) (any_world _)) fun _ => .pure hP _)
  | clear j =>
    exact onVec_keeps (.bind hP (.bind hP (.getSelf hP) fun _ => .bind hP (.byteChunks hP _) fun _ =>
      .bind hP (.forEach hP (fun _ => any_world _) _) fun _ => onData_run (void_clear anyPre)) fun _ => .pure hP _)
  | rotateLeft j n => exact onVec_keeps (.bind hP (onData_run (void_rotateLeft anyPre n)) fun _ => .pure hP _)
  | rotateRight j n => exact onVec_keeps (.bind hP (onData_run (void_rotateRight anyPre n)) fun _ => .pure hP _)
  | swap j a b => exact onVec_keeps (.bind hP (asMutSlice_run anyPre _) fun _ => .pure hP _)
  | setAs j t i x =>
    refine onVec_keeps (.bind hP (getMutAs_run anyPre i (anyCalm _)) fun o => ?_)
    split
    · exact .pure hP _
    · exact .bind hP (any_world _) fun _ => .pure hP _
  | cloneIntoVec j t =>
    refine onVec_keeps (.bind hP (.getSelf hP) fun c => .bind hP (any_world _) fun o => ?_)
    split
    · exact .pure hP _
    · exact .bind hP (any_world _) fun _ => .pure hP _
  | cloneValue i i' j =>
    refine .bind hK readRef_keeps fun v => ?_
    split
    · exact .pure hK _
    · exact create_keeps (Ne.symm hc) _
  | cloneSmall i i' j =>
    refine .bind hK readRef_keeps fun v => ?_
    split
    · exact .pure hK _
    · exact create_keeps (Ne.symm hc) _
  | assign i i' j =>
    intro s r s' e h1 h2
    unfold DOp.exec at e
    dsimp only at e
    split at e
    · cases e; exact .same rfl
    · split at e
      · split at e
        · cases e; exact .same rfl
        · exact Run.bind hK readRef_keeps (fun _ => .bind hK clearVar_keeps fun _ => onMut_keeps _) _ _ _ e h1 h2
      · cases e; exact .same rfl
  | cloneFrom i i' j j' =>
    refine .ite (fun _ => .pure hK _) fun _ => .bind hK readRef_keeps fun v => ?_
    split
    · exact .pure hK _
    · exact onMut_keeps _
  | swapValues i i' j j' =>
    refine .ite (fun _ => .pure hK _) fun _ => .bind hK readRef_keeps fun v => ?_
    split
    · exact .pure hK _
    · refine .bind hK readRef_keeps fun v => ?_
      split
      · exact .pure hK _
      · exact .bind hK (.lift hK _) fun _ => .bind hK (onMut_keeps _) fun _ => onMut_keeps _
  | len j => exact onVec_keeps (.bind hP (.getSelf hP) fun _ => .pure hP _)
  | typeId j => exact onVec_keeps (.bind hP (.getSelf hP) fun _ => .pure hP _)
  | getAs j t i =>
    refine onVec_keeps (.bind hP (.getSelf hP) fun c => .bind hP (.getAs hP t i c) fun x => ?_)
    split <;> exact .pure hP _
  | get j i =>
    refine .bind hK readRef_keeps fun v => ?_
    split <;> exact .pure hK _
  | asSlice j t =>
    refine onVec_keeps (.bind hP (.getSelf hP) fun c => .bind hP (.asSliceAs hP t c) fun x => ?_)
    split <;> exact .pure hP _
  | iter j => exact onVec_keeps (.bind hP (.getSelf hP) fun c => .bind hP (.iter hP c) fun _ => .pure hP _)

end
end Place

/-! ### One call -/

section
variable [HasDrop U V] [HasClone U V] {vt : TyId → V} {slots slots' : DSlots V} {w w' : World U} {vars : YVars} {o : Outside U}

omit [HasDrop U V] [HasClone U V] in
theorem dynHolding_some {k n cap : Nat} (h : dynHolding slots k = some (n, cap)) :
    ∃ c, slots k = some (.vec c) ∧ c.data.elem.size ≠ 0 ∧ c.data.len = n ∧ c.data.cap = cap := by
  unfold dynHolding at h
  split at h
  · rename_i c hk
    split at h
    · cases h
    · cases h; exact ⟨c, hk, ‹_›, rfl, rfl⟩
  · cases h

theorem yholds_good {k : Nat} {c : VecDyn V} (H : YHolds Γ slots w vars o) (hk : slots k = some (.vec c)) : Place.Good Γ c.data := by
  cases hv : vars k with
  | none => rw [(H.none_iff k).2 hv] at hk; cases hk
  | some x =>
    have I := H.is k _ x hk hv
    cases x with
    | vec b x =>
      obtain ⟨I, -, -, -⟩ := I
      cases x with
      | vec t es cap => obtain ⟨R, rfl⟩ := I; unfold Place.Good; rw [R.elem_eq]; rfl
      | unit n =>
        have I : IsUnits Γ n c.data := I
        unfold Place.Good; rw [I.good.elem]; rfl
    | box t x => exact absurd I id
    | small t x => exact absurd I id

omit [HasDrop U V] [HasClone U V] in
theorem dynBuffer_of {k : Nat} {c : VecDyn V} (h : slots k = some (.vec c)) : dynBufferOf slots k = c.data.ptr := by unfold dynBufferOf; rw [h]

omit [HasDrop U V] [HasClone U V] in
theorem dynKept_buffer {k n n' cap : Nat} (hg : ∀ c, slots k = some (.vec c) → Place.Good Γ c.data) (K : KeptAt Γ k (slots, w) (slots', w'))
    (hb : dynHolding slots k = some (n, cap)) (hb' : dynHolding slots' k = some (n', cap)) : dynBufferOf slots' k = dynBufferOf slots k := by
  obtain ⟨d, hd, -, -, hc⟩ := dynHolding_some hb
  obtain ⟨d', hd', hs, -, hc'⟩ := dynHolding_some hb'
  obtain ⟨c, hc0, K⟩ := K d' hd'
  have hc0 : slots k = some (.vec c) := hc0
  rw [hd] at hc0; cases hc0
  rcases (K (hg _ hd)).2 with ⟨-, ⟨h1, -, -⟩ | h1⟩ | h1
  · rw [dynBuffer_of hd, dynBuffer_of hd']; exact h1
  · omega
  · exact absurd h1 hs

/-- In each call, whether it returns or panics: a `VecDyn` that has the same capacity after the call as before it has its
elements in the same place. -/
theorem C96_vecdyn_step {op : DOp} {k n n' cap : Nat} {r : Res Obs} (H : YHolds Γ slots w vars o) (hc : ¬ op.Creates k)
    (he : op.exec Γ cfg vt (slots, w) = (r, (slots', w'))) (hr : r ≠ .ub) (ha : r ≠ .abort)
    (hb : dynHolding slots k = some (n, cap)) (hb' : dynHolding slots' k = some (n', cap)) : dynBufferOf slots' k = dynBufferOf slots k := by
  have hg : ∀ c, slots k = some (.vec c) → Place.Good Γ c.data := fun c h => yholds_good H h
  by_cases ho : ∃ j t, op = .roundTrip j t
  · obtain ⟨j, t, rfl⟩ := ho
    unfold DOp.exec at he
    dsimp only at he
    split at he
    · rename_i c hj
      obtain ⟨d', hd', hs', -, hc'⟩ := dynHolding_some hb'
      obtain ⟨d, hd, hs, -, hcap⟩ := dynHolding_some hb
      by_cases hkj : k = j
      · subst hkj
        rw [hj] at hd; cases hd
        have hcl : (DOp.clearVar k : M (DSlots V × World U) Unit) (slots, w) = (.ok (), (Slots.put slots k none, w)) := rfl
        rw [M.bind_ok hcl] at he
        have hn : Slots.put slots k none k = none := if_pos rfl
        unfold DOp.roundTripVec at he
        rcases bind_inv he hr ha with ⟨q, s1, e1, he⟩ | ⟨y, e1, -⟩
        · have h1 : s1.1 = Slots.put slots k none := (congrArg (·.2.1) e1).symm
          cases q with
          | none =>
            cases he
            have h1 : slots' = _ := h1
            rw [h1, hn] at hd'; cases hd'
          | some rv =>
            have hv := intoVec_inv (w' := s1.2) (r := .ok (some rv)) (Prod.ext (congrArg (·.1) e1) (congrArg (·.2.2) e1)) (by intro h; cases h) (by intro h; cases h) rv rfl
            dsimp only at he
            unfold DOp.create at he
            rcases bind_inv he hr ha with ⟨a, s2, e2, he⟩ | ⟨y, e2, -⟩
            · have h2 : s2.1 = s1.1 := (congrArg (·.2.1) e2).symm
              have e3 : (do return .vec (← VecCopy.fromVec Γ t (vt t) rv) : M (World U) (Item V)) s1.2 = (.ok a, s2.2) :=
                Prod.ext (congrArg (·.1) e2) (congrArg (·.2.2) e2)
              rcases bind_inv e3 (by intro h; cases h) (by intro h; cases h) with ⟨c1, w3, e4, e5⟩ | ⟨y, -, h⟩
              · have hf := vecFromVec_inv anyPre e4 (by intro h; cases h) (by intro h; cases h) c1 rfl
                cases e5
                have hn1 : s2.1 k = none := by rw [h2, h1]; exact hn
                have hp : DOp.putItem cfg k (.vec c1) s2 = (.ok (), (Slots.put s2.1 k (some (.vec c1)), s2.2)) := by
                  unfold DOp.putItem
                  dsimp only
                  rw [hn1]
                rw [M.bind_ok hp] at he
                have h5 : slots' = Slots.put s2.1 k (some (.vec c1)) := (congrArg (·.2.1) he).symm
                rw [h5, show Slots.put s2.1 k (some (.vec c1)) k = some (.vec c1) from if_pos rfl] at hd'
                cases hd'
                rw [dynBuffer_of hj, dynBuffer_of (slots := slots') (c := d') (by rw [h5]; exact if_pos rfl)]
                rcases hf with ⟨hf, -, -⟩ | hf
                · rw [hf, hv.2.1]
                · rw [hv.2.2] at hf; omega
              · cases h
            · have h2 : slots' = s1.1 := (congrArg (·.2.1) e2).symm
              rw [h2, h1, hn] at hd'; cases hd'
        · have h2 : slots' = Slots.put slots k none := (congrArg (·.2.1) e1).symm
          rw [h2, hn] at hd'; cases hd'
      · refine dynKept_buffer (w := w) (w' := w') hg (KeptAt.same ?_) hb hb'
        have := exec_spares (Γ := Γ) (cfg := cfg) (vt := vt) (op := .roundTrip j t) (j := k) (by simpa [DOp.vars] using hkj) (slots, w)
        unfold DOp.exec at this
        dsimp only at this
        rw [hj] at this
        dsimp only at this
        rw [he] at this
        exact this
    · cases he; rfl
  · exact dynKept_buffer hg (exec_keeps hc (fun j t h => ho ⟨j, t, h⟩) _ _ _ he hr ha) hb hb'

/-! ### Programs -/

/-- A program with caught panics and arbitrary user code that does not assign something new to variable `k`, and after
which the container has content: if no call changed its capacity, the elements are where they were before the program. -/
theorem C96_vecdyn_stays {k n' cap' : Nat} {os : List (Option Obs)} (ops : List DOp) (H : YHolds Γ slots w vars o) (ht : ∀ op ∈ ops, op.IsTyped Γ)
    (htab : ∀ t, Tab Γ t (vt t)) (hc : ∀ op ∈ ops, ¬ op.Creates k) (hg : dynGrowths Γ cfg vt k ops (slots, w) = [])
    (he : runCaughtD Γ cfg vt ops (slots, w) = (.ok os, (slots', w'))) (hk : dynHolding slots' k = some (n', cap')) :
    dynBufferOf slots' k = dynBufferOf slots k ∧ ∃ n, dynHolding slots k = some (n, cap') := by
  induction ops generalizing vars o slots w os with
  | nil => cases he; exact ⟨rfl, _, hk⟩
  | cons op ops ih =>
    have ht' : ∀ o ∈ ops, o.IsTyped Γ := fun o h => ht o (List.mem_cons_of_mem _ h)
    have hc' : ∀ o ∈ ops, ¬ o.Creates k := fun o h => hc o (List.mem_cons_of_mem _ h)
    have hs := C71_step (cfg := cfg) H (ht op List.mem_cons_self) htab
    have key : ∀ {r : Res Obs} {slots1 : DSlots V} {w1 : World U} {os1}, op.exec Γ cfg vt (slots, w) = (r, (slots1, w1)) → r ≠ .ub → r ≠ .abort →
        runCaughtD Γ cfg vt ops (slots1, w1) = (.ok os1, (slots', w')) →
        dynBufferOf slots' k = dynBufferOf slots k ∧ ∃ n, dynHolding slots k = some (n, cap') := by
      intro r slots1 w1 os1 e1 hr ha e2
      obtain ⟨vars1, o1, H1⟩ : ∃ vars1 o1, YHolds Γ slots1 w1 vars1 o1 := by
        rw [e1] at hs
        rcases hst : op.step Γ cfg (vars, o) with ⟨q, vars1, o1⟩
        rw [hst] at hs
        cases q with
        | ok a => exact ⟨_, _, hs.2⟩
        | panic y => exact ⟨_, _, hs.2⟩
        | ub => exact absurd hs hr
        | abort => exact absurd hs ha
      have hg' : (match dynHolding slots k, dynHolding slots1 k with
          | some (n, cap), some (n', cap') => if cap = cap' then [] else [(n, op.needs n')]
          | _, _ => []) ++ dynGrowths Γ cfg vt k ops (slots1, w1) = [] := by
        refine Eq.trans ?_ hg
        show _ = (match (op.exec Γ cfg vt (slots, w)).1 with | .ub | .abort => [] | _ => _)
        rw [e1]
        cases r with
        | ub => exact absurd rfl hr
        | abort => exact absurd rfl ha
        | ok _ => rfl
        | panic _ => rfl
      obtain ⟨g1, g2⟩ := List.append_eq_nil_iff.1 hg'
      obtain ⟨hb, n1, hn1⟩ := ih H1 ht' hc' g2 e2
      obtain ⟨n, cap, h1, -, -, -⟩ := C95_vecdyn_step H (ht op List.mem_cons_self) htab (hc op List.mem_cons_self) e1 hr ha hn1
      rw [h1, hn1] at g1
      dsimp only at g1
      by_cases hcc : cap = cap'
      · subst hcc
        exact ⟨hb.trans (C96_vecdyn_step H (hc op List.mem_cons_self) e1 hr ha h1 hn1), n, h1⟩
      · rw [if_neg hcc] at g1; cases g1
    unfold runCaughtD at he
    rcases bind_inv he (by intro h; cases h) (by intro h; cases h) with ⟨o, ⟨slots1, w1⟩, e1, he⟩ | ⟨y, -, h⟩
    · rcases bind_inv he (by intro h; cases h) (by intro h; cases h) with ⟨os1, ⟨slots2, w2⟩, e2, he⟩ | ⟨y, -, h⟩
      · cases he
        rcases hx : op.exec Γ cfg vt (slots, w) with ⟨q, s1⟩
        unfold M.caught at e1
        dsimp only at e1
        rw [hx] at e1
        cases q with
        | ub => cases e1
        | abort => cases e1
        | ok _ => cases e1; exact key hx (by intro h; cases h) (by intro h; cases h) e2
        | panic _ => cases e1; exact key hx (by intro h; cases h) (by intro h; cases h) e2
      · cases h
    · cases h

end

/-! ### Examples -/

namespace Ex

/-- Two pushes that fit, a resize to 3 elements, an index out of bounds (a panic), a round trip through `Vec`. -/
def dynSettled : List DOp := [.pushAs 3 7 g1, .pushAs 3 7 g2, .resize 3 7 3 g1, .getAs 3 7 9, .roundTrip 3 7]

theorem dynSettled_typed : ∀ op ∈ dynSettled, op.IsTyped env := by
  simp only [dynSettled, List.forall_mem_cons]
  exact ⟨(by decide : g1.length = size 7), (by decide : g2.length = size 7), (by decide : g1.length = size 7), trivial,
    trivial, (fun _ h => by cases h)⟩

theorem dynSettled_runs : ∃ os slots' w', runCaughtD env ⟨true⟩ cloneVT dynSettled (slots3, world 7 4) = (.ok os, (slots', w')) ∧
    dynHolding slots' 3 = some (3, 4) ∧ os[3]? = some none := by
  refine ⟨[some .done, some .done, some .done, none, some .done], _, _, Prod.ext (y := (_, (_, _))) ?_ rfl, ?_, ?_⟩ <;> decide +kernel

example : ∃ os slots' w', runCaughtD env ⟨true⟩ cloneVT dynSettled (slots3, world 7 4) = (.ok os, (slots', w')) ∧
    dynBufferOf slots' 3 = dynBufferOf slots3 3 := by
  obtain ⟨os, slots', w', h, hk, -⟩ := dynSettled_runs
  exact ⟨os, slots', w', h, (C96_vecdyn_stays dynSettled vars3_holds dynSettled_typed tab
    (by simp only [dynSettled, List.forall_mem_cons]; exact ⟨id, id, id, id, id, (fun _ h => by cases h)⟩) (by decide +kernel) h hk).1⟩

end Ex

end Dync
