import Verif.CopyWholeLemmas2
import Verif.Props.Machine
/-!
# C82: whole programs over `VecCopy`

Programs that create containers in every way, change them, extend and collect them from iterators, and work on
mutable views of them, in any order and with every panic caught, do what the machine says.
-/
namespace Dync
variable {U V : Type} {Γ : TyEnv U} {cfg : Cfg} {vt : V} {slots : Slots V} {w : World U} {s : XState}

/-- A step ends as the machine says. -/
def Ended.Is (r : Res (List Read)) : Ended → Prop
  | .ok rs => r = .ok rs
  | .panic => ∃ y, r = .panic y
  | .ub => r = .ub

/-- The computation `m` does what the machine says. -/
def PSim (Γ : TyEnv U) (m : M (Slots V × World U) (List Read)) (slots : Slots V) (w : World U) (r : Ended × XState) : Prop :=
  r.1 = .ub ∧ (m (slots, w)).1 = .ub ∨ r.1 ≠ .ub ∧
  ∃ o slots' h', m (slots, w) = (o, (slots', { w with heap := h' })) ∧ r.1.Is o ∧ r.2.Holds Γ slots' h'

theorem PSim.of {m : M (Slots V × World U) Obs} {f : Obs → List Read} {r : Out × XState} (h : MSim Γ m slots w r)
    {g : M (Slots V × World U) (List Read)} (e : g (slots, w) = ((m (slots, w)).1.map f, (m (slots, w)).2)) :
    PSim Γ g slots w (r.1.ends f, r.2) := by
  obtain ⟨out, s'⟩ := r
  rcases h with ⟨h1, h2⟩ | ⟨h1, o, slots', h', h2, h3, h4⟩
  · simp only at h1
    subst h1
    exact .inl ⟨rfl, by rw [e, h2]; rfl⟩
  · simp only at h1 h3 h4
    refine .inr ⟨by cases out <;> simp [Out.ends] at h1 ⊢, o.map f, slots', h', by rw [e, h2], ?_, h4⟩
    cases out with
    | ub => exact absurd rfl h1
    | ok a => have h3 : o = .ok a := h3; rw [h3]; rfl
    | panic => obtain ⟨y, rfl⟩ := h3; exact ⟨y, rfl⟩

theorem PSim.same (H : s.Holds Γ slots w.heap) {m : M (Slots V × World U) (List Read)} {o : Ended} {r : Res (List Read)}
    (hm : m (slots, w) = (r, (slots, w))) (ho : o.Is r) (hu : o ≠ .ub) : PSim Γ m slots w (o, s) :=
  .inr ⟨hu, r, slots, w.heap, hm, ho, H⟩

theorem withSize_fresh {t : TyId} {n : Nat} {x : Bytes} (hc : Op.Typed.Copyable Γ t) (wf : w.heap.WF) (hx : x.length = Γ.size t) :
    Fresh Γ t (List.replicate n x) n (VecCopy.withSize Γ t vt n x) w := by
  by_cases h0 : Γ.size t = 0
  · unfold Fresh
    rw [if_pos (.inl h0)]
    exact ⟨.assertion, by
      simp only [VecCopy.withSize, M.bind_run, RVec.withCapacity, if_pos h0]
      exact VecCopy.fromVec_zst h0 (dropTyped_zst hc h0 _)⟩
  · have key := fromSlice_fresh (vt := vt) hc wf (es := List.replicate n x) (fun y hy => by rw [(List.mem_replicate.1 hy).2, hx])
    rw [List.length_replicate] at key
    have e : VecCopy.withSize Γ t vt n x w = VecCopy.fromSlice Γ t vt (List.replicate n x) w := by
      simp only [VecCopy.withSize, VecCopy.fromSlice, M.bind_run, RVec.withCapacity, if_neg h0, List.length_replicate]
      by_cases hr : n * Γ.size t + (Γ.align t - 1) ≤ isizeMax
      · simp only [if_pos hr]
        rw [withLocal_ok (U := U) (a := ())
          (x' := ⟨(w.heap.alloc ⟨n * Γ.size t, Γ.align t⟩).1, n, n, (List.replicate n x).flatten⟩)
          (w' := { w with heap := (w.heap.alloc ⟨n * Γ.size t, Γ.align t⟩).2 })]
        unfold RVec.extendFromSlice
        rw [M.bind_ok (RVec.reserve_fit (by simp))]
        simp
      · simp only [if_neg hr]
    unfold Fresh at key ⊢
    rw [e]
    exact key

theorem bind_pure_run {σ α β : Type} (m : M σ α) (f : α → β) (st : σ) :
    (do let a ← m; pure (f a) : M σ β) st = ((m st).1.map f, (m st).2) := by
  rw [M.bind_run]
  rcases m st with ⟨r, st'⟩
  cases r <;> rfl

theorem next_ok {a : After} {f : XVec → After} {o : Obs} (h : (a.next f).out = .ok o) :
    (∃ o', a.out = .ok o') ∧ a.next f = f a.now := by
  unfold After.next at h ⊢
  split
  · rename_i o' e
    exact ⟨⟨o', e⟩, rfl⟩
  · rename_i e
    split at h
    · rename_i e'; exact absurd e' (e _)
    · exact absurd h (e _)

theorem pushAll_ok (vs : List (TyId × Bytes)) : ∀ {x : XVec} {o : Obs}, (XVec.pushAll Γ vs x).out = .ok o → (XVec.pushAll Γ vs x).leak = false := by
  induction vs with
  | nil => intro x o _; rfl
  | cons v vs ih =>
    intro x o h
    unfold XVec.pushAll at h ⊢
    split
    · rename_i e
      rw [if_pos e] at h
      obtain ⟨-, h2⟩ := next_ok h
      rw [h2] at h ⊢
      exact ih h
    · rfl

theorem collected_ok {hint : Nat} {t : TyId} {x : Bytes} {vs : List (TyId × Bytes)} {o : Obs}
    (h : (XVec.collected Γ cfg hint t x vs).out = .ok o) : (XVec.collected Γ cfg hint t x vs).leak = false := by
  unfold XVec.collected XVec.extend at h ⊢
  obtain ⟨-, h2⟩ := next_ok h
  rw [h2] at h ⊢
  obtain ⟨-, h3⟩ := next_ok h
  rw [h3] at h ⊢
  exact pushAll_ok vs h

/-- A container made by `m` is assigned to a variable. -/
theorem made_sim (H : s.Holds Γ slots w.heap) (k : Nat) {m : M (World U) (VecCopy V)} {c : VecCopy V} {h' : Heap} {x : XVec}
    (hm : m w = (.ok c, { w with heap := h' })) (I : x.Is Γ h' c.data) (re : Realloc w.heap none h' c.data.ptr) :
    PSim Γ (do let c ← onWorld m; Op.assign cfg k c; pure []) slots w (.ok [], s.put k (some x)) := by
  obtain ⟨L, hL, O⟩ := H.owned
  obtain ⟨h'', ha, O'⟩ := assign_sim (cfg := cfg) O re I k
  refine .inr ⟨by simp, .ok [], Slots.put slots k (some c), h'', by
    simp only [M.bind_run, onWorld, M.zoom_run, hm, ha, M.pure_run], rfl, ?_⟩
  have := O'.holds
  rw [hL] at this
  exact this

/-- There is no container of values without size. -/
theorem withTypeFrom_zst {t : TyId} (h0 : Γ.size t = 0) : ∃ y, VecCopy.withTypeFrom ⟨ElemInfo.new Γ t, vt⟩ w = (.panic y, w) := by
  have ha := align_pos Γ t
  have e1 : (ElemInfo.new Γ t).alignment = Γ.align t := rfl
  have e2 : (ElemInfo.new Γ t).size = 0 := by simp only [ElemInfo.new, h0, Nat.zero_div]
  have hne : Γ.align t ≠ 0 := by omega
  simp only [VecCopy.withTypeFrom, e1, e2, evalAlign_align, M.bind_run, RVec.withCapacity, if_neg hne]
  by_cases hr : 0 * Γ.align t + (Γ.align t - 1) ≤ isizeMax
  · refine ⟨.divZero, ?_⟩
    simp only [if_pos hr]
    simp [VecVoid.fromVecOverride, e1, e2, M.bind_run, Heap.alloc]
  · exact ⟨.capacity, by simp only [if_neg hr]⟩

theorem collect_sim (H : s.Holds Γ slots w.heap) (k hint : Nat) {xs : List (TyId × Bytes)} (hx : ∀ v ∈ xs, v.2.length = Γ.size v.1) :
    PSim Γ ((POp.collect k hint xs).exec Γ cfg vt) slots w (s.collect Γ cfg k hint xs) := by
  obtain ⟨L, hL, O⟩ := H.owned
  have wf := H.wf
  cases xs with
  | nil => exact PSim.same H (r := .panic .unwrapNone) rfl ⟨_, rfl⟩ (by simp)
  | cons v vs =>
    obtain ⟨t, x⟩ := v
    have hv : x.length = Γ.size t := hx _ (List.mem_cons_self ..)
    have hvs : ∀ v ∈ vs, v.2.length = Γ.size v.1 := fun v h => hx v (List.mem_cons_of_mem _ h)
    have hm : Meta.ofValue x t (Γ.align t) vt = ⟨ElemInfo.new Γ t, vt⟩ := by simp only [Meta.ofValue, ElemInfo.new, hv]
    simp only [XState.collect]
    by_cases h0 : Γ.size t = 0
    · rw [if_pos h0]
      obtain ⟨y, hy⟩ := withTypeFrom_zst (vt := vt) (w := w) h0
      refine PSim.same H (r := .panic y) ?_ ⟨_, rfl⟩ (by simp)
      simp only [POp.exec, List.map_cons, VecCopy.fromIter, CopyValue.new, M.bind_run, onWorld, M.zoom_run, hm, hy]
    · rw [if_neg h0]
      have hpos : 0 < Γ.size t := Nat.pos_of_ne_zero h0
      obtain ⟨c, h1, hw, R, hvt, hcap, re⟩ := C46_with_type_from hpos wf vt
      have I : XVec.Is Γ h1 c.data (.vec t [] 1) := ⟨R, hcap⟩
      have A := collected_agrees (cfg := cfg) (vt := vt) (w := { w with heap := h1 }) R hcap re.wf hint hv hvs
      rcases hl : (do
        let _ ← VecCopy.push Γ cfg (CopyValue.new Γ t vt x)
        VecCopy.extend Γ cfg hint (vs.map fun x => CopyValue.new Γ x.1 vt x.2) : M (VecCopy V × World U) Unit)
          (c, { w with heap := h1 }) with ⟨r0, st⟩
      have hl2 : (do
        let _ ← VecCopy.push Γ cfg (CopyValue.new Γ t vt x)
        VecCopy.extend Γ cfg hint (vs.map fun x => CopyValue.new Γ x.1 vt x.2)
        return Obs.done : M (VecCopy V × World U) Obs) (c, { w with heap := h1 }) = (r0.map fun _ => Obs.done, st) := by
        rw [← bind_assoc]
        have := bind_pure_run (do
          let _ ← VecCopy.push Γ cfg (CopyValue.new Γ t vt x)
          VecCopy.extend Γ cfg hint (vs.map fun x => CopyValue.new Γ x.1 vt x.2) : M (VecCopy V × World U) Unit)
            (fun _ => Obs.done) (c, { w with heap := h1 })
        rw [hl] at this
        exact this
      unfold After.Agrees at A
      rw [hl2] at A
      have hfi : VecCopy.fromIter Γ cfg hint (((t, x) :: vs).map fun x => CopyValue.new Γ x.1 vt x.2) w =
          (match r0, st with
            | .ok _, (x', w') => (.ok x', w')
            | .panic y, (x', w') => match VecCopy.drop cfg x' w' with
              | (.ok _, w'') => (.panic y, w'')
              | (.panic _, w'') => (.abort, w'')
              | (.ub, w'') => (.ub, w'')
              | (.abort, w'') => (.abort, w'')
            | .ub, (_, w') => (.ub, w')
            | .abort, (_, w') => (.abort, w')) := by
        simp only [List.map_cons, VecCopy.fromIter, show (CopyValue.new Γ t vt x).bytes = x from rfl,
          show (CopyValue.new Γ t vt x).type_id = t from rfl, show (CopyValue.new Γ t vt x).alignment = Γ.align t from rfl,
          show (CopyValue.new Γ t vt x).vtable = vt from rfl, hm]
        rw [M.bind_ok hw, M.bind_run]
        simp only [withLocal, hl]
        obtain ⟨c', w'⟩ := st
        cases r0 with
        | ok a => rfl
        | panic y =>
          simp only
          rcases VecCopy.drop cfg c' w' with ⟨rd, wd⟩
          cases rd <;> rfl
        | ub => rfl
        | abort => rfl
      rcases ha : XVec.collected Γ cfg hint t x vs with ⟨out, now, leak⟩
      rw [ha] at A
      rcases A with ⟨k1, k2⟩ | ⟨k1, r, d, h2, k2, k3, k4, k5⟩
      · simp only at k1 k2
        subst k1
        refine .inl ⟨rfl, ?_⟩
        cases r0 <;> try cases k2
        simp only [POp.exec, M.bind_run, onWorld, M.zoom_run, hfi]
      · simp only at k1 k3 k4 k5
        have e1 := (Prod.mk.inj k2).1
        have e2 := (Prod.mk.inj k2).2
        subst e2
        have k6 : Moves w.heap none h2 d.ptr leak := Moves.after wf (fun i hi => by cases hi) re k5
        cases out with
        | ub => exact absurd rfl k1
        | ok o =>
          have k3 : r = .ok o := k3
          rw [k3] at e1
          cases r0 <;> try cases e1
          simp only at hfi
          have hlk : leak = false := by
            have := collected_ok (Γ := Γ) (cfg := cfg) (hint := hint) (t := t) (x := x) (vs := vs) (by rw [ha])
            rw [ha] at this
            exact this
          subst hlk
          exact made_sim (cfg := cfg) H k hfi k4 k6
        | panic =>
          obtain ⟨y, rfl⟩ := k3
          cases r0 <;> try cases e1
          obtain ⟨h3, hdrop, re3⟩ := drop_is (cfg := cfg) (c := { c with data := d }) (w := { w with heap := h2 }) k4 k5.wf
          simp only [hdrop] at hfi
          refine .inr ⟨by simp, .panic y, slots, h3, by simp only [POp.exec, M.bind_run, onWorld, M.zoom_run, hfi], ⟨y, rfl⟩, ?_⟩
          rw [← hL]
          cases leak with
          | false =>
            have O' := Owned.move (p := none) (p' := none) O (Realloc.trans wf (fun i hi => by cases hi) k6 re3) (fun i hi => by cases hi)
            exact O'.holds
          | true =>
            obtain ⟨e0, j, hj, k7⟩ := k6
            rw [e0] at re3
            have O1 := Owned.move (p := none) (p' := some j) O k7 (fun i hi => by cases hi; exact hj)
            have O2 := Owned.move (p := none) (p' := none) O1 re3 (fun i hi => by cases hi)
            exact O2.holds

theorem seen_reads (H : s.Holds Γ slots w.heap) (o : Op) : POp.seen slots o = o.reads Γ s := by
  funext r
  cases o <;> cases r <;> try rfl
  rename_i k bs
  simp only [POp.seen, Op.reads]
  cases hk : slots k with
  | none => rw [(H.none_iff k).1 hk]
  | some c =>
    obtain ⟨L, -, O⟩ := H.owned
    obtain ⟨x, hx, I⟩ := O.lookup hk
    simp only [hx]
    have e : c.elementTypeId = x.ty Γ := by
      cases x with
      | vec t es cap => exact repr_elementTypeId (w := w) I.1
      | unit n =>
        have u : IsUnits Γ n c.data := I
        simp only [VecCopy.elementTypeId, u.elem]
        rfl
    rw [e]

theorem step_psim {o : POp} (H : s.Holds Γ slots w.heap) (ht : o.Accepted Γ) (hd : o.Described Γ cfg s) :
    PSim Γ (o.exec Γ cfg vt) slots w (o.step Γ cfg s) := by
  cases o with
  | op o =>
    refine PSim.of (step_sim (cfg := cfg) (vt := vt) H ht) ?_
    rw [← seen_reads H]
    exact bind_pure_run (o.exec Γ cfg vt) _ _
  | withSize k t n x =>
    refine PSim.of (create_sim (cfg := cfg) H k (withSize_fresh (vt := vt) ht.1 H.wf ht.2.2)) ?_
    rw [← bind_pure_run]
    simp only [POp.exec, M.bind_run]
    rcases onWorld (VecCopy.withSize Γ t vt n x) (slots, w) with ⟨r, st⟩
    cases r <;> try rfl
    simp only
    rename_i c
    rcases Op.assign cfg k c st with ⟨r, st⟩
    cases r <;> rfl
  | withTypeFrom k j =>
    simp only [POp.step]
    obtain ⟨L, -, O⟩ := H.owned
    cases hk : slots j with
    | none =>
      simp only [(H.none_iff j).1 hk]
      exact PSim.same H (r := .ok []) (by simp only [POp.exec, hk]) rfl (by simp)
    | some c =>
      obtain ⟨x, hx, I⟩ := O.lookup hk
      simp only [hx]
      cases x with
      | unit n =>
        have u : IsUnits Γ n c.data := I
        have hm : c.toMeta = ⟨ElemInfo.new Γ Γ.unitTy, c.vtable⟩ := by simp only [VecCopy.toMeta, u.elem]
        obtain ⟨y, hy⟩ := withTypeFrom_zst (vt := c.vtable) (w := w) Γ.unit_size
        exact PSim.same H (r := .panic y) (by simp only [POp.exec, hk, M.bind_run, onWorld, M.zoom_run, hm, hy]) ⟨_, rfl⟩ (by simp)
      | vec t es cap =>
        have hm : c.toMeta = ⟨ElemInfo.new Γ t, c.vtable⟩ := by simp only [VecCopy.toMeta, Repr.elem_eq I.1]
        obtain ⟨c', h1, hw, R, hvt, hcap, re⟩ := C46_with_type_from (Repr.pos I.1) H.wf c.vtable
        have := made_sim (cfg := cfg) H k (x := .vec t [] 1) hw ⟨R, hcap⟩ re
        unfold PSim at this ⊢
        simp only [POp.exec, hk, hm]
        exact this
  | extend k hint xs =>
    refine PSim.of (onSlot_sim H k fun c x I => extend_agrees (cfg := cfg) (vt := vt) I H.wf hint ht) ?_
    exact bind_pure_run _ _ _
  | collect k hint xs => exact collect_sim H k hint ht
  | view k p =>
    simp only [POp.step]
    obtain ⟨L, -, O⟩ := H.owned
    cases hk : slots k with
    | none =>
      simp only [(H.none_iff k).1 hk]
      exact PSim.same H (r := .ok []) (by simp only [POp.exec, hk]) rfl (by simp)
    | some c =>
      obtain ⟨x, hx, I⟩ := O.lookup hk
      simp only [hx]
      cases x with
      | unit n =>
        have u : IsUnits Γ n c.data := I
        obtain ⟨r, h1, h2⟩ := p.lost_run (V := V) (cfg := cfg) ht (s := SliceCopy.fromRawParts [] c.data.elem c.vtable) ⟨rfl, u.elem⟩
        have e := unit_asMutSlice (w := w) u h1
        refine PSim.same H (r := r) ?_ ?_ ?_
        · simp only [POp.exec, hk, e]
          rw [← hk, Slots.put_self]
        · cases hp : p.onUnits Γ cfg with
          | none => rw [hp] at h2; exact h2
          | some rs => rw [hp] at h2; exact h2
        · cases p.onUnits Γ cfg <;> simp [Ended.ofOption]
      | vec t es cap =>
        simp only [POp.Described, hx] at hd
        obtain ⟨r, slots', h1, h2, h3⟩ := C74_step (cfg := cfg) (vt := vt) H hx p (ht t) hd
        refine .inr ⟨?_, r, slots', w.heap, h1, ?_, h3⟩
        · show Ended.ofRes _ ≠ _
          cases (p.plain t es).1 <;> simp [Ended.ofRes]
        · show (Ended.ofRes _).Is r
          cases hp : (p.plain t es).1 <;> rw [hp] at h2 <;> cases r <;> first | exact h2.elim | skip
          · exact congrArg _ h2
          · exact ⟨_, rfl⟩

/-- Every step does what the machine says: it returns what the machine says, panics exactly where the machine panics, and is
undefined exactly where the machine is; afterwards the variables hold the containers of the machine, and exactly the
counted buffers are lost. -/
theorem C82_step {o : POp} (H : s.Holds Γ slots w.heap) (ht : o.Accepted Γ) (hd : o.Described Γ cfg s) :
    match o.step Γ cfg s with
    | (.ok rs, s') => ∃ slots' h', o.exec Γ cfg vt (slots, w) = (.ok rs, (slots', { w with heap := h' })) ∧ s'.Holds Γ slots' h'
    | (.panic, s') => ∃ y slots' h', o.exec Γ cfg vt (slots, w) = (.panic y, (slots', { w with heap := h' })) ∧ s'.Holds Γ slots' h'
    | (.ub, _) => (o.exec Γ cfg vt (slots, w)).1 = .ub := by
  have h := step_psim (cfg := cfg) (vt := vt) H ht hd
  rcases hst : o.step Γ cfg s with ⟨e, s'⟩
  rw [hst] at h
  rcases h with ⟨h1, h2⟩ | ⟨h1, r, slots', h', hrun, ho, H'⟩
  · simp only at h1
    subst h1
    exact h2
  · simp only at h1 ho H'
    cases e with
    | ub => exact absurd rfl h1
    | ok rs => have : r = .ok rs := ho; subst this; exact ⟨slots', h', hrun, H'⟩
    | panic => obtain ⟨y, rfl⟩ : ∃ y, r = .panic y := ho; exact ⟨y, slots', h', hrun, H'⟩

/-- A whole program, with every panic caught: it is undefined exactly if the machine says so; otherwise its steps see
what the machine says, its variables hold the containers of the machine, and exactly the counted buffers are lost. -/
theorem C82_program (ops : List POp) : ∀ {s : XState} {slots : Slots V} {w : World U}, s.Holds Γ slots w.heap →
    (∀ o ∈ ops, o.Accepted Γ) → s.AllDescribed Γ cfg ops →
    match s.runAll Γ cfg ops with
    | none => (runAll Γ cfg vt ops (slots, w)).1 = .ub
    | some (os, s') => ∃ slots' h', runAll Γ cfg vt ops (slots, w) = (.ok os, (slots', { w with heap := h' })) ∧ s'.Holds Γ slots' h' := by
  induction ops with
  | nil => intro s slots w H _ _; exact ⟨slots, w.heap, rfl, H⟩
  | cons op ops ih =>
    intro s slots w H ht hd
    have hs := step_psim (cfg := cfg) (vt := vt) H (ht op (List.mem_cons_self ..)) hd.1
    have hts : ∀ op ∈ ops, op.Accepted Γ := fun op h => ht op (List.mem_cons_of_mem _ h)
    have hd2 := hd.2
    rcases hst : op.step Γ cfg s with ⟨o, s1⟩
    rw [hst] at hs hd2
    rcases hs with ⟨h1, h2⟩ | ⟨h1, r, slots1, h', hrun, ho, H1⟩
    · simp only at h1
      subst h1
      simp only [XState.runAll, hst]
      rcases he : op.exec Γ cfg vt (slots, w) with ⟨r, st⟩
      rw [he] at h2
      simp only at h2
      subst h2
      simp only [runAll, M.bind_run, he]
    · simp only at h1 H1 ho
      have hi := ih (s := s1) (slots := slots1) (w := { w with heap := h' }) H1 hts (hd2 h1)
      cases o with
      | ub => exact absurd rfl h1
      | ok o =>
        have : r = .ok o := ho
        subst this
        simp only [XState.runAll, hst]
        cases hr : XState.runAll Γ cfg ops s1 with
        | none =>
          rw [hr] at hi
          simp only [Option.map_none]
          rcases hc : runAll Γ cfg vt ops (slots1, ({ w with heap := h' } : World U)) with ⟨r2, st⟩
          rw [hc] at hi
          simp only at hi
          subst hi
          simp only [runAll, M.bind_run, hrun, hc]
        | some q =>
          obtain ⟨os, s2⟩ := q
          rw [hr] at hi
          obtain ⟨slots2, h2, hc, H2⟩ := hi
          simp only [Option.map_some]
          exact ⟨slots2, h2, by simp only [runAll, M.bind_run, hrun, hc, M.pure_run], H2⟩
      | panic =>
        obtain ⟨z, rfl⟩ : ∃ z, r = .panic z := ho
        simp only [XState.runAll, hst]
        cases hr : XState.runAll Γ cfg ops s1 with
        | none =>
          rw [hr] at hi
          simp only [Option.map_none]
          rcases hc : runAll Γ cfg vt ops (slots1, ({ w with heap := h' } : World U)) with ⟨r2, st⟩
          rw [hc] at hi
          simp only at hi
          subst hi
          simp only [runAll, M.bind_run, hrun, hc]
        | some q =>
          obtain ⟨os, s2⟩ := q
          rw [hr] at hi
          obtain ⟨slots2, h2, hc, H2⟩ := hi
          simp only [Option.map_some]
          exact ⟨slots2, h2, by simp only [runAll, M.bind_run, hrun, hc, M.pure_run], H2⟩

/-! ### Undefined behaviour -/

theorem pushAll_not_ub (vs : List (TyId × Bytes)) : ∀ {t : TyId} {es : List Bytes} {cap : Nat},
    (XVec.pushAll Γ vs (.vec t es cap)).out ≠ .ub := by
  induction vs with
  | nil => intro t es cap; simp [XVec.pushAll, After.same]
  | cons v vs ih =>
    intro t es cap
    unfold XVec.pushAll
    split
    · rename_i e
      have e : v.1 = t := e
      rw [e]
      intro h
      unfold After.next at h
      split at h
      · rename_i o ho
        obtain ⟨es', cap', e'⟩ := (push_ok_vec ho).2
        rw [e'] at h
        exact ih h
      · exact push_not_ub _ _ h
    · simp [After.same]

theorem extend_not_ub {hint : Nat} {vs : List (TyId × Bytes)} {x : XVec} : (x.extend Γ cfg hint vs).out ≠ .ub := by
  intro h
  unfold XVec.extend After.next at h
  split at h
  · rename_i o ho
    cases x with
    | unit n => cases ho
    | vec t es cap =>
      obtain ⟨cap', e'⟩ := (reserve_ok_vec ho).2
      rw [e'] at h
      exact pushAll_not_ub vs h
  · cases x with
    | unit n => cases h
    | vec t es cap => exact room_out_ub (fun c => by simp) h

/-- Only the operations of C70 can be undefined: `with_size`, `with_type_from`, `extend` and `collect` never are, with any
iterator and any size hint, and programs on views never are as long as their numbers are in range. -/
theorem C82_ub_iff (o : POp) : (o.step Γ cfg s).1 = .ub ↔ ∃ op, o = .op op ∧ Undefined Γ cfg s op := by
  constructor
  · intro h
    cases o with
    | op op =>
      refine ⟨op, rfl, (C70_ub_iff op).1 ?_⟩
      cases hr : (op.step Γ cfg s).1 with
      | ub => rfl
      | ok _ => simp only [POp.step, hr, Out.ends] at h; cases h
      | panic => simp only [POp.step, hr, Out.ends] at h; cases h
    | withSize k t n x => simp only [POp.step, XState.create] at h; split at h <;> cases h
    | withTypeFrom k j => simp only [POp.step] at h; split at h <;> cases h
    | extend k hint xs =>
      exfalso
      cases hr : (s.method k (XVec.extend Γ cfg hint xs)).1 with
      | ub => obtain ⟨y, -, h⟩ := method_ub hr; exact extend_not_ub h
      | ok _ => simp only [POp.step, hr, Out.ends] at h; cases h
      | panic => simp only [POp.step, hr, Out.ends] at h; cases h
    | collect k hint xs =>
      exfalso
      cases xs with
      | nil => cases h
      | cons v vs =>
        simp only [POp.step, XState.collect] at h
        split at h
        · cases h
        · split at h
          · cases h
          · cases h
          · rename_i hr
            unfold XVec.collected After.next at hr
            split at hr
            · exact extend_not_ub hr
            · exact push_not_ub _ _ hr
    | view k p =>
      exfalso
      simp only [POp.step] at h
      split at h
      · cases h
      · rename_i t es cap _
        cases hp : (p.plain t es).1 <;> simp only [hp, Ended.ofRes] at h <;> cases h
      · cases hp : p.onUnits Γ cfg <;> simp only [hp, Ended.ofOption] at h <;> cases h
  · rintro ⟨op, rfl, h⟩
    simp only [POp.step, (C70_ub_iff op).2 h, Out.ends]

/-! ### `extend` and `collect` -/

theorem push_value {t : TyId} {x : Bytes} {es : List Bytes} {cap : Nat} {o : Obs} (h : (XVec.push Γ t x (.vec t es cap)).out = .ok o) :
    ∃ cap', (XVec.push Γ t x (.vec t es cap)).now = .vec t (es ++ [x]) cap' := by
  simp only [XVec.push, ne_eq, not_true_eq_false, if_false] at h ⊢
  cases hg : growth (Γ.align t) (Γ.align t) (perElem Γ t) cap es.length 1 <;> simp only [hg] at h ⊢
  · by_cases e : perElem Γ t = 1
    · simp only [e, if_true]; exact ⟨_, rfl⟩
    · simp only [e, if_false] at h; cases h
  · by_cases e : perElem Γ t = 1
    · simp only [e, if_true]; exact ⟨_, rfl⟩
    · simp only [e, if_false] at h; cases h
  · cases h
  · cases h

theorem push_panic {t : TyId} {x : Bytes} {es : List Bytes} {cap : Nat} (h : (XVec.push Γ t x (.vec t es cap)).out = .panic) :
    (XVec.push Γ t x (.vec t es cap)).now = .unit 0 := by
  simp only [XVec.push, ne_eq, not_true_eq_false, if_false] at h ⊢
  cases hg : growth (Γ.align t) (Γ.align t) (perElem Γ t) cap es.length 1 <;> simp only [hg] at h ⊢
  · by_cases e : perElem Γ t = 1
    · simp only [e, if_true] at h; cases h
    · simp only [e, if_false]; rfl
  · by_cases e : perElem Γ t = 1
    · simp only [e, if_true] at h; cases h
    · simp only [e, if_false]; rfl
  · rfl
  · rfl

/-- What can happen when values are pushed to a container of `t` one after the other. -/
inductive Pushed (Γ : TyEnv U) (t : TyId) (es : List Bytes) (vs : List (TyId × Bytes)) (a : After) : Prop where
  | all (cap : Nat) : (∀ v ∈ vs, v.1 = t) → a.out = .ok .done → a.now = .vec t (es ++ vs.map Prod.snd) cap → a.leak = false → Pushed Γ t es vs a
  | stopped (pre post : List (TyId × Bytes)) (v : TyId × Bytes) (cap : Nat) : vs = pre ++ v :: post → v.1 ≠ t → (∀ v ∈ pre, v.1 = t) →
      a.out = .panic → a.now = .vec t (es ++ pre.map Prod.snd) cap → a.leak = false → Pushed Γ t es vs a
  | lost : a.out = .panic → a.now = .unit 0 → Pushed Γ t es vs a

theorem pushAll_pushed {t : TyId} (vs : List (TyId × Bytes)) : ∀ {es : List Bytes} {cap : Nat},
    Pushed Γ t es vs (XVec.pushAll Γ vs (.vec t es cap)) := by
  induction vs with
  | nil => intro es cap; exact .all cap (by simp) rfl (by simp [XVec.pushAll, After.same]) rfl
  | cons v vs ih =>
    intro es cap
    by_cases e : v.1 = t
    · have e1 : XVec.pushAll Γ (v :: vs) (.vec t es cap) = (XVec.push Γ t v.2 (.vec t es cap)).next (XVec.pushAll Γ vs) := by
        rw [← e]; exact if_pos rfl
      rw [e1]
      unfold After.next
      split
      · rename_i o ho
        obtain ⟨cap', e'⟩ := push_value ho
        rw [e']
        rcases ih (es := es ++ [v.2]) (cap := cap') with ⟨c, h1, h2, h3, hl⟩ | ⟨pre, post, v', c, h1, h2, h3, h4, h5, hl⟩ | ⟨h1, h2⟩
        · exact .all c (fun v' hv' => by rcases List.mem_cons.1 hv' with h | h; · rw [h, e]
                                         · exact h1 v' h) h2 (by rw [h3]; simp) hl
        · exact .stopped (v :: pre) post v' c (by rw [h1]; rfl) h2 (fun v' hv' => by rcases List.mem_cons.1 hv' with h | h; · rw [h, e]
                                                                                     · exact h3 v' h) h4 (by rw [h5]; simp) hl
        · exact .lost h1 h2
      · rename_i hno
        have hp : (XVec.push Γ t v.2 (.vec t es cap)).out = .panic := by
          cases ho : (XVec.push Γ t v.2 (.vec t es cap)).out with
          | ok o => exact absurd ho (hno o)
          | ub => exact absurd ho (push_not_ub _ _)
          | panic => rfl
        exact .lost hp (push_panic hp)
    · have e1 : XVec.pushAll Γ (v :: vs) (.vec t es cap) = .same (.vec t es cap) .panic := if_neg e
      rw [e1]
      exact .stopped [] vs v cap rfl e (by simp) rfl (by simp [After.same]) rfl

theorem reserve_panic {t : TyId} {es : List Bytes} {cap n : Nat} (h : (XVec.reserve Γ cfg n (.vec t es cap)).out = .panic) :
    (XVec.reserve Γ cfg n (.vec t es cap)).now = .unit 0 := by
  simp only [XVec.reserve, XVec.room] at h ⊢
  cases ht : times cfg n (perElem Γ t) <;> simp only [ht] at h ⊢
  · rfl
  · rename_i k
    cases hg : growth (Γ.align t) (Γ.align t) (perElem Γ t) cap es.length k <;> simp only [hg] at h ⊢
    · cases h
    · cases h
    · rfl
    · rfl

theorem extend_pushed {t : TyId} {es : List Bytes} {cap hint : Nat} {vs : List (TyId × Bytes)} :
    Pushed Γ t es vs (XVec.extend Γ cfg hint vs (.vec t es cap)) := by
  unfold XVec.extend After.next
  split
  · rename_i o ho
    obtain ⟨cap', e'⟩ := (reserve_ok_vec ho).2
    rw [e']
    exact pushAll_pushed vs
  · rename_i hno
    have hp : (XVec.reserve Γ cfg hint (.vec t es cap)).out = .panic := by
      cases ho : (XVec.reserve Γ cfg hint (.vec t es cap)).out with
      | ok o => exact absurd ho (hno o)
      | ub => exact absurd ho (room_out_ub (fun c => by simp))
      | panic => rfl
    exact .lost hp (reserve_panic hp)

theorem ite_le_one {b : Bool} : (if b then 1 else 0) ≤ 1 := by cases b <;> simp

/-- `extend` of a container of `t`: either all values are of type `t`, and they are appended in order; or it panics, and
either a value of another type was met, and exactly the values before it were appended, or the content is lost. Nothing
else happens to other variables. -/
theorem C82_extend {k hint : Nat} {t : TyId} {es : List Bytes} {cap : Nat} {xs : List (TyId × Bytes)} (hk : s.var k = some (.vec t es cap)) :
    (∃ cap', (∀ v ∈ xs, v.1 = t) ∧ (POp.extend k hint xs).step Γ cfg s = (.ok [], s.put k (some (.vec t (es ++ xs.map Prod.snd) cap')))) ∨
    (∃ pre v post cap', xs = pre ++ v :: post ∧ v.1 ≠ t ∧ (∀ v ∈ pre, v.1 = t) ∧
      (POp.extend k hint xs).step Γ cfg s = (.panic, s.put k (some (.vec t (es ++ pre.map Prod.snd) cap')))) ∨
    (∃ n, n ≤ 1 ∧ (POp.extend k hint xs).step Γ cfg s = (.panic, ⟨Slots.put s.var k (some (.unit 0)), s.leaked + n⟩)) := by
  have hm : (POp.extend k hint xs).step Γ cfg s = ((XVec.extend Γ cfg hint xs (.vec t es cap)).out.ends fun _ => [],
      ⟨Slots.put s.var k (some (XVec.extend Γ cfg hint xs (.vec t es cap)).now),
        s.leaked + if (XVec.extend Γ cfg hint xs (.vec t es cap)).leak then 1 else 0⟩) := by
    simp only [POp.step, XState.method, hk]
  rw [hm]
  rcases extend_pushed (Γ := Γ) (cfg := cfg) (hint := hint) (t := t) (es := es) (cap := cap) (vs := xs) with
    ⟨c, h1, h2, h3, hl⟩ | ⟨pre, post, v', c, h1, h2, h3, h4, h5, hl⟩ | ⟨h1, h2⟩
  · exact .inl ⟨c, h1, by rw [h2, h3, hl]; rfl⟩
  · exact .inr (.inl ⟨pre, v', post, c, h1, h2, h3, by rw [h4, h5, hl]; rfl⟩)
  · exact .inr (.inr ⟨_, ite_le_one, by rw [h1, h2]; rfl⟩)

/-- `collect`: either all values have the type of the first one, and the new container has exactly these values, in order; or
it panics, and no variable changes; at most one buffer is lost then. -/
theorem C82_collect {k hint : Nat} {xs : List (TyId × Bytes)} :
    (∃ v vs cap, xs = v :: vs ∧ (∀ u ∈ xs, u.1 = v.1) ∧
      (POp.collect k hint xs).step Γ cfg s = (.ok [], s.put k (some (.vec v.1 (xs.map Prod.snd) cap)))) ∨
    (∃ n, n ≤ 1 ∧ (POp.collect k hint xs).step Γ cfg s = (.panic, { s with leaked := s.leaked + n })) := by
  cases xs with
  | nil => exact .inr ⟨0, by omega, rfl⟩
  | cons v vs =>
    by_cases h0 : Γ.size v.1 = 0
    · exact .inr ⟨0, by omega, by simp only [POp.step, XState.collect, if_pos h0]; rfl⟩
    · have key : (∃ cap, (∀ u ∈ vs, u.1 = v.1) ∧ (XVec.collected Γ cfg hint v.1 v.2 vs).out = .ok .done ∧
          (XVec.collected Γ cfg hint v.1 v.2 vs).now = .vec v.1 (v.2 :: vs.map Prod.snd) cap) ∨
          (XVec.collected Γ cfg hint v.1 v.2 vs).out = .panic := by
        unfold XVec.collected After.next
        split
        · rename_i o ho
          obtain ⟨cap', e'⟩ := push_value ho
          rw [e']
          rcases extend_pushed (Γ := Γ) (cfg := cfg) (hint := hint) (t := v.1) (es := [] ++ [v.2]) (cap := cap') (vs := vs) with
            ⟨c, h1, h2, h3, hl⟩ | ⟨pre, post, v', c, h1, h2, h3, h4, h5, hl⟩ | ⟨h1, h2⟩
          · exact .inl ⟨c, h1, h2, h3⟩
          · exact .inr h4
          · exact .inr h1
        · rename_i hno
          right
          cases ho : (XVec.push Γ v.1 v.2 (.vec v.1 [] 1)).out with
          | ok o => exact absurd ho (hno o)
          | ub => exact absurd ho (push_not_ub _ _)
          | panic => rfl
      rcases key with ⟨cap, h1, h2, h3⟩ | h
      · refine .inl ⟨v, vs, cap, rfl, fun u hu => ?_, ?_⟩
        · rcases List.mem_cons.1 hu with h | h
          · rw [h]
          · exact h1 u h
        · simp only [POp.step, XState.collect, if_neg h0, h2, h3]; rfl
      · exact .inr ⟨_, ite_le_one, by simp only [POp.step, XState.collect, if_neg h0, h]; rfl⟩

/-! ### Examples -/

namespace Ex

/-- Collect two `u32`s; extend by a third one and a value of another type; turn the elements in a view and read them; make
a container of the same type, and extend it with an iterator that promises more than it yields; collect values of
different types; extend a container of `[u8; 3]`, which loses its content. -/
def copyProg : List POp :=
  [.collect 0 1 [(2, a1), (2, a2)], .extend 0 0 [(2, a3), (1, [some 1]), (2, a1)], .view 0 (.seq (.rotateLeft 1) .iter),
   .withTypeFrom 1 0, .extend 1 5 [(2, a3)], .op (.iter 1), .collect 0 0 [(2, a1), (1, [some 1])], .withSize 2 3 2 [some 1, some 2, some 3],
   .extend 2 1 [(3, [some 4, some 5, some 6])], .view 2 (.asSlice 2), .view 2 .iter, .op (.len 2)]

instance decReads : DecidableEq (Option (List Read)) := inferInstance

theorem copyProg_run : (XState.runAll env ⟨true⟩ copyProg .start).map (fun p => (p.1, p.2.leaked)) =
    some ([some [], none, some [(2, a2), (2, a3), (2, a1)], some [], some [], some [(2, a3)], none, some [], none, some [], none, some []], 1) := by
  decide +kernel

theorem copyProg_typed : ∀ o ∈ copyProg, o.Accepted env := by
  simp only [copyProg, List.forall_mem_cons]
  exact ⟨by simp [POp.Accepted]; decide, by simp [POp.Accepted]; decide, fun t => ⟨trivial, trivial⟩, trivial, by simp [POp.Accepted]; decide, trivial,
    by simp [POp.Accepted]; decide, ⟨typed 3 (by decide), by decide, by decide⟩, by simp [POp.Accepted]; decide, fun t => trivial,
    fun t => trivial, trivial, (fun _ h => by cases h)⟩

theorem copyProg_described : XState.start.AllDescribed env ⟨true⟩ copyProg := by
  have key : ∀ (s : XState) k p, (∀ n, SProg.InRange ⟨true⟩ n p) → (POp.view k p).Described env ⟨true⟩ s := by
    intro s k p h
    simp only [POp.Described]
    split
    · exact h _
    · trivial
  refine ⟨trivial, fun _ => ⟨trivial, fun _ => ⟨key _ _ _ fun n => ⟨.inl rfl, trivial⟩, fun _ => ⟨trivial, fun _ => ⟨trivial, fun _ => ⟨trivial,
    fun _ => ⟨trivial, fun _ => ⟨trivial, fun _ => ⟨trivial, fun _ => ⟨key _ _ _ fun n => trivial, fun _ => ⟨key _ _ _ fun n => trivial,
    fun _ => ⟨trivial, fun _ => trivial⟩⟩⟩⟩⟩⟩⟩⟩⟩⟩⟩⟩

example := C82_program (cfg := ⟨true⟩) (vt := ()) (w := ⟨noHeap, []⟩) copyProg start_holds copyProg_typed copyProg_described
example := C82_step (cfg := ⟨false⟩) (vt := ()) (w := world 2 4) (o := .extend 7 1 [(2, a1)]) m123_holds (by simp [POp.Accepted]; decide) trivial
example := C82_extend (Γ := env) (cfg := ⟨true⟩) (s := m123) (k := 7) (hint := 9) (xs := [(2, a1), (1, [some 1])]) rfl
example : ((POp.extend 7 0 [(2, a1), (1, [some 1])]).step env ⟨true⟩ m123).1 = .panic := by decide +kernel
example : ((POp.collect 7 0 [(2, a1), (2, a2)]).step env ⟨true⟩ m123).1 = .ok [] := by decide +kernel

end Ex

end Dync
