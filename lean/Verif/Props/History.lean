import Verif.HistoryPanic
/-!
# Properties of whole programs over `VecCopy` containers

Programs of any length over any number of variables, with any element types (see `Verif/History.lean`).
-/
namespace Dync
variable {U V : Type} {Γ : TyEnv U} {N : Nat} {slots : Slots V} {s s' : Op.VState} {cfg : Cfg} {vt : V} {w : World U}
  {os : List Obs} {ops : List Op}

/-! ### C14 histories -/

/-- Every program sees through `VecCopy` containers exactly what it sees with plain `Vec<T>`s, and ends
in a state that represents the plain vectors; no user code runs. What is missing compared with
`Vec<T>`: the restrictions listed in `Op.Supported`. -/
theorem C14_veccopy_history_partial (I : HInv Γ N slots w.heap s) (hwt : ∀ op ∈ ops, op.WellTyped Γ)
    (hsup : SupportedOps Γ N ops s) (hspec : specOps Γ ops s = some (os, s')) :
    ∃ slots' h', runOps Γ cfg vt ops (slots, w) = (.ok os, (slots', { w with heap := h' })) ∧ HInv Γ N slots' h' s' := by
  induction ops generalizing slots s w os with
  | nil => cases hspec; exact ⟨slots, w.heap, rfl, I⟩
  | cons op ops ih =>
    simp only [specOps] at hspec
    cases h1 : op.spec Γ s with
    | none => rw [h1] at hspec; cases hspec
    | some p =>
      obtain ⟨o, s1⟩ := p
      rw [h1] at hspec
      simp only at hspec
      cases h2 : specOps Γ ops s1 with
      | none => rw [h2] at hspec; cases hspec
      | some q =>
        obtain ⟨os1, s2⟩ := q
        rw [h2] at hspec
        cases hspec
        obtain ⟨slots1, h1', hrun1, I1⟩ := step_ok (cfg := cfg) (vt := vt) op I (hwt op (by simp)) hsup.1 h1
        obtain ⟨slots2, h2', hrun2, I2⟩ := ih (w := { w with heap := h1' }) I1
          (fun o ho => hwt o (List.mem_cons_of_mem _ ho)) (hsup.2 _ _ h1) h2
        exact ⟨slots2, h2', by simp only [runOps, M.bind_run, hrun1, hrun2, M.pure_run], I2⟩

/-- The starting state of a program. -/
theorem history_start (Γ : TyEnv U) (N : Nat) : HInv (V := V) Γ N (fun _ => none) Heap.empty (fun _ => none) :=
  ⟨fun _ _ => rfl, fun _ => by simp, fun _ _ _ _ h => by simp at h, fun _ _ _ _ h => by simp at h,
    fun _ _ h => by simp [Heap.empty] at h⟩

/-- A program that starts with nothing and leaves no container behind leaves no heap block behind, and
ran without undefined behaviour or aborting. -/
theorem C18_veccopy_history_no_leak_partial (u : U) (hwt : ∀ op ∈ ops, op.WellTyped Γ)
    (hsup : SupportedOps Γ N ops (fun _ => none)) (hspec : specOps Γ ops (fun _ => none) = some (os, fun _ => none)) :
    ∃ slots' h', runOps Γ cfg vt ops ((fun _ => none), ⟨Heap.empty, u⟩) = (.ok os, (slots', ⟨h', u⟩)) ∧
      ∀ i, h'.live i = none := by
  obtain ⟨slots', h', hrun, I⟩ := C14_veccopy_history_partial (cfg := cfg) (vt := vt) (w := ⟨Heap.empty, u⟩)
    (history_start Γ N) hwt hsup hspec
  refine ⟨slots', h', hrun, fun i => ?_⟩
  cases hl : h'.live i with
  | none => rfl
  | some l =>
    obtain ⟨k, c, hc, -⟩ := I.owned i l hl
    have := (I.none_iff k).2 rfl
    rw [this] at hc; cases hc

/-- At every point of a program two containers never share a buffer, and every container's buffer is
live. -/
theorem C17_veccopy_history_buffers_partial (u : U) (hwt : ∀ op ∈ ops, op.WellTyped Γ)
    (hsup : SupportedOps Γ N ops (fun _ => none)) (hspec : specOps Γ ops (fun _ => none) = some (os, s')) :
    ∃ slots' h', runOps Γ cfg vt ops ((fun _ => none), ⟨Heap.empty, u⟩) = (.ok os, (slots', ⟨h', u⟩)) ∧
      (∀ k c, slots' k = some c → ∃ i l, c.data.ptr = some i ∧ h'.live i = some l) ∧
      (∀ k k' c c' i, slots' k = some c → slots' k' = some c' → c.data.ptr = some i → c'.data.ptr = some i → k = k') := by
  obtain ⟨slots', h', hrun, I⟩ := C14_veccopy_history_partial (cfg := cfg) (vt := vt) (w := ⟨Heap.empty, u⟩)
    (history_start Γ N) hwt hsup hspec
  refine ⟨slots', h', hrun, ?_, ?_⟩
  · intro k c hc
    obtain ⟨t, es, -, R⟩ := I.lookup' hc
    obtain ⟨i, hp, hl⟩ := R.block
    exact ⟨i, _, hp, hl⟩
  · intro k k' c c' i hc hc' hp hp'
    exact I.inj k k' c c' hc hc' (by rw [hp, hp'])

/-- An example program using most operations, on `u32` and `u64` containers. -/
def Ex.prog : List Op :=
  [.withType 0 2, .pushAs 0 2 a1, .pushAs 0 5 b1, .push 0 2 a2, .pushAs 0 2 a3, .clone 0 1, .rotateLeft 0 1,
   .swap 1 0 2, .append 0 1, .resize 0 2 7 a1, .setAs 0 2 0 a1, .setValue 0 1 2 a2, .len 0, .asSlice 0 2,
   .typeId 0, .getAs 0 2 3, .get 0 2, .fromSlice 2 5 [b1, b2], .append 0 2, .roundTrip 2 5, .iter 2, .fill 0 2 a3,
   .clear 1, .reserve 1 3, .drop 0, .drop 1, .roundTrip 2 2]

theorem Ex.plain {t : TyId} (ht : t < 7 ∨ t = 9) (hz : 0 < Ex.size t) : Op.WellTyped.Plain Ex.env t := by
  refine ⟨hz, fun b u => ?_⟩
  have h7 : ¬ (t = 7 ∧ b.head? = some (some 255)) := by
    rintro ⟨rfl, -⟩; revert ht; decide
  show Ex.drop t b u = _
  unfold Ex.drop
  rw [if_neg h7, if_pos ht]
  rfl

theorem Ex.prog_typed : ∀ op ∈ Ex.prog, op.WellTyped Ex.env := by
  have p2 : Op.WellTyped.Plain Ex.env 2 := Ex.plain (by decide) (by decide)
  have p5 : Op.WellTyped.Plain Ex.env 5 := Ex.plain (by decide) (by decide)
  intro op hop
  simp only [Ex.prog, List.mem_cons, List.not_mem_nil, or_false] at hop
  rcases hop with rfl | rfl | rfl | rfl | rfl | rfl | rfl | rfl | rfl | rfl | rfl | rfl | rfl | rfl | rfl | rfl | rfl |
    rfl | rfl | rfl | rfl | rfl | rfl | rfl | rfl | rfl | rfl <;>
    first
    | exact trivial
    | exact p2
    | exact p5
    | exact ⟨p2, rfl⟩
    | exact ⟨p5, rfl⟩
    | exact ⟨p5, by decide⟩

theorem Ex.prog_result : specOps Ex.env Ex.prog (fun _ => none) = some
    ([.done, .done, .refused, .done, .done, .done, .done, .done, .done, .done, .done, .done, .num 7,
      .elems [a1, a2, a1, a3, a2, a1, a1], .num 2, .elem a3, .value 2 a1, .done, .refused, .done, .elems [b1, b2],
      .done, .done, .done, .done, .done, .refused], fun _ => none) := by
  refine (show _ = some (_, _) from rfl).trans ?_
  congr 2
  funext k
  by_cases h0 : k = 0
  · subst h0; rfl
  by_cases h1 : k = 1
  · subst h1; rfl
  by_cases h2 : k = 2
  · subst h2; rfl
  simp only [Slots.put, if_neg h0, if_neg h1, if_neg h2]

theorem SupportedOps.cons {op : Op} {o : Obs} {s1 : Op.VState} (h : op.Supported Γ N s) (hs : op.spec Γ s = some (o, s1))
    (hr : SupportedOps Γ N ops s1) : SupportedOps Γ N (op :: ops) s :=
  ⟨h, fun o' s' h' => by rw [hs] at h'; cases h'; exact hr⟩

theorem Ex.prog_supported : SupportedOps Ex.env 20 Ex.prog (fun _ => none) := by
  have r2 : Room Ex.env 2 (4 * 20 + 16) := by unfold Room; decide
  have r5 : Room Ex.env 5 (4 * 20 + 16) := by unfold Room; decide
  repeat' refine SupportedOps.cons ?_ rfl ?_
  all_goals first
    | exact trivial
    | exact r2
    | exact r5
    | exact ⟨by decide, r5⟩
    | (intro es h; exact absurd (Prod.mk.inj (Option.some.inj h)).1 (by decide))
    | (intro es h; cases h; decide)
    | (intro es h; cases h; unfold Op.Supported.Odd; decide)
    | (intro t es h; cases h; decide)
    | (intro t es h; cases h; unfold Op.Supported.Odd; decide)
    | (intro t es t' es' h h' e; cases h; cases h'; exact absurd e (by decide))
    | (intro t es t' es' h h' e; cases h; cases h'; unfold Op.Supported.Odd; decide)

example := C14_veccopy_history_partial (cfg := ⟨true⟩) (vt := ()) (w := ⟨Heap.empty, ([] : Ex.Log)⟩)
  (history_start Ex.env 20) Ex.prog_typed Ex.prog_supported Ex.prog_result
example := C18_veccopy_history_no_leak_partial (cfg := ⟨false⟩) (vt := ()) [] Ex.prog_typed Ex.prog_supported
  Ex.prog_result
example := C17_veccopy_history_buffers_partial (cfg := ⟨false⟩) (vt := ()) [] Ex.prog_typed Ex.prog_supported
  Ex.prog_result

/-- Only the memory part of `Op.Supported`. -/
def Op.Fits (Γ : TyEnv U) (N : Nat) (s : Op.VState) : Op → Prop
  | .withType _ t => Room Γ t (4 * N + 16)
  | .withCapacity _ t n => n ≤ N ∧ Room Γ t (4 * N + 16)
  | .fromSlice _ t xs => xs.length ≤ N ∧ Room Γ t (4 * N + 16)
  | .append k j => ∀ t es t' es', s k = some (t, es) → s j = some (t', es') → t = t' → es.length + es'.length ≤ N
  | .pushAs k t _ => ∀ es, s k = some (t, es) → es.length + 1 ≤ N
  | .push k t _ => ∀ es, s k = some (t, es) → es.length + 1 ≤ N
  | .resize k t n _ => ∀ es, s k = some (t, es) → n ≤ N
  | .reserve k n => ∀ t es, s k = some (t, es) → es.length + n ≤ N
  | _ => True

/-- The full claim: as long as the elements fit into memory, programs cannot tell a `VecCopy` from a
`Vec<T>`. -/
def C14_veccopy_full : Prop :=
  ∀ (U V : Type) (Γ : TyEnv U) (N : Nat) (cfg : Cfg) (vt : V) (u : U) (ops : List Op) (os : List Obs) (s' : Op.VState),
    (∀ op ∈ ops, op.WellTyped Γ) →
    (∀ pre op post, ops = pre ++ op :: post → ∀ os1 s1, specOps Γ pre (fun _ => none) = some (os1, s1) → op.Fits Γ N s1) →
    specOps Γ ops (fun _ => none) = some (os, s') →
    (runOps Γ cfg vt ops ((fun _ => none), ⟨Heap.empty, u⟩)).1 = .ok os

/-- Two operations refute it: a fresh container of `(u32, u32)` and an untyped push. -/
theorem C14_veccopy_refuted : ¬ C14_veccopy_full := by
  intro h
  have p4 : Op.WellTyped.Plain Ex.env 4 := Ex.plain (by decide) (by decide)
  have := h Ex.Log Unit Ex.env 20 ⟨true⟩ () [] [.withType 0 4, .push 0 4 Ex.b1] _ _ (by
      intro op hop
      simp only [List.mem_cons, List.not_mem_nil, or_false] at hop
      rcases hop with rfl | rfl
      · exact p4
      · exact ⟨p4, rfl⟩) (by
      intro pre op post e os1 s1 hs
      match pre, e with
      | [], e => cases e; show Room Ex.env 4 (4 * 20 + 16); unfold Room; decide
      | [_], e => cases e; cases hs; intro es he; cases he; decide
      | _ :: _ :: [], e => cases e
      | _ :: _ :: _ :: _, e => cases e) rfl
  revert this
  decide

/-! ### C03 the element type of a container is fixed -/

/-- The variable that an operation gives a new container to. -/
def Op.target : Op → Option Nat
  | .withType k _ => some k
  | .withCapacity k _ _ => some k
  | .fromSlice k _ _ => some k
  | .clone _ j => some j
  | _ => none

theorem specOn_type {k k' : Nat} {f : TyId → List Bytes → Option (Obs × List Bytes)} {o : Obs}
    (h : Op.specOn s k f = some (o, s')) {t : TyId} {es' : List Bytes} (hk : s' k' = some (t, es')) :
    ∃ es, s k' = some (t, es) := by
  unfold Op.specOn at h
  split at h
  · cases h; exact ⟨es', hk⟩
  · rename_i t0 es0 hs
    split at h
    · cases h
    · cases h
      by_cases e : k' = k
      · subst e
        rw [Slots.put_same] at hk
        cases hk
        exact ⟨es0, hs⟩
      · rw [Slots.put_other _ _ e] at hk
        exact ⟨es', hk⟩

theorem spec_type {op : Op} {k : Nat} {o : Obs} (h : op.spec Γ s = some (o, s')) (hk : op.target ≠ some k) {t : TyId}
    {es' : List Bytes} (hs' : s' k = some (t, es')) : ∃ es, s k = some (t, es) := by
  cases op <;> simp only [Op.spec] at h <;> try exact specOn_type h hs'
  case withType k' t' =>
    cases h
    rw [Slots.put_other _ _ (fun e => hk (by rw [e]; rfl))] at hs'
    exact ⟨_, hs'⟩
  case withCapacity k' t' =>
    cases h
    rw [Slots.put_other _ _ (fun e => hk (by rw [e]; rfl))] at hs'
    exact ⟨_, hs'⟩
  case fromSlice k' t' =>
    cases h
    rw [Slots.put_other _ _ (fun e => hk (by rw [e]; rfl))] at hs'
    exact ⟨_, hs'⟩
  case drop k' =>
    split at h
    · cases h; exact ⟨_, hs'⟩
    · cases h
      by_cases e : k = k'
      · subst e; rw [Slots.put_same] at hs'; cases hs'
      · rw [Slots.put_other _ _ e] at hs'; exact ⟨_, hs'⟩
  case clone k' j =>
    split at h
    · cases h; exact ⟨_, hs'⟩
    · cases h
      rw [Slots.put_other _ _ (fun e => hk (by rw [e]; rfl))] at hs'
      exact ⟨_, hs'⟩
  case append k' j =>
    split at h
    · cases h; exact ⟨_, hs'⟩
    · rename_i hne
      split at h
      · rename_i t1 es1 t2 es2 h1 h2
        split at h
        · rename_i he
          subst he
          cases h
          by_cases e : k = j
          · subst e; rw [Slots.put_same] at hs'; cases hs'; exact ⟨_, h2⟩
          · rw [Slots.put_other _ _ e] at hs'
            by_cases e' : k = k'
            · subst e'; rw [Slots.put_same] at hs'; cases hs'; exact ⟨_, h1⟩
            · rw [Slots.put_other _ _ e'] at hs'; exact ⟨_, hs'⟩
        · cases h; exact ⟨_, hs'⟩
      · cases h; exact ⟨_, hs'⟩
  case roundTrip k' t' =>
    split at h
    · cases h; exact ⟨_, hs'⟩
    · rename_i t1 es1 h1
      split at h
      · rename_i he
        subst he
        cases h
        by_cases e : k = k'
        · subst e; rw [Slots.put_same] at hs'; cases hs'; exact ⟨_, h1⟩
        · rw [Slots.put_other _ _ e] at hs'; exact ⟨_, hs'⟩
      · cases h
        by_cases e : k = k'
        · subst e; rw [Slots.put_same] at hs'; cases hs'
        · rw [Slots.put_other _ _ e] at hs'; exact ⟨_, hs'⟩

theorem specOps_type {k : Nat} (h : specOps Γ ops s = some (os, s')) (hk : ∀ op ∈ ops, op.target ≠ some k) {t : TyId}
    {es' : List Bytes} (hs' : s' k = some (t, es')) : ∃ es, s k = some (t, es) := by
  induction ops generalizing s os with
  | nil => cases h; exact ⟨es', hs'⟩
  | cons op ops ih =>
    simp only [specOps] at h
    split at h
    · cases h
    · rename_i o s1 h1
      split at h
      · cases h
      · rename_i os2 s2 h2
        cases h
        obtain ⟨es1, h3⟩ := ih h2 fun op hop => hk op (List.mem_cons_of_mem _ hop)
        exact spec_type h1 (hk op (by simp)) h3

/-- A state with one container of three `u32`. -/
theorem Ex.c123_history : HInv Ex.env 20 (Slots.put (fun _ => none) 0 (some Ex.c123)) (Ex.world 2 4).heap
    (Slots.put (fun _ => none) 0 (some (2, [Ex.a1, Ex.a2, Ex.a3]))) := by
  refine ⟨Ex.w4_wf, ?_, ?_, ?_, ?_⟩
  · intro k; by_cases h : k = 0 <;> simp [Slots.put, h]
  · intro k c t es hc hs
    by_cases h : k = 0
    · subst h; cases hc; cases hs
      exact ⟨Ex.c123_repr, by decide, by unfold Room; decide⟩
    · simp [Slots.put, h] at hc
  · intro k k' c c' hc hc' _
    by_cases h : k = 0
    · by_cases h' : k' = 0
      · omega
      · simp [Slots.put, h'] at hc'
    · simp [Slots.put, h] at hc
  · intro i l hl
    refine ⟨0, Ex.c123, rfl, ?_⟩
    simp only [Ex.world, Ex.oneHeap] at hl
    split at hl
    · rename_i h; subst h; rfl
    · cases hl

/-- A program on it that tries to change the element type. -/
def Ex.prog2 : List Op := [.pushAs 0 5 b1, .fromSlice 1 5 [b1], .append 0 1, .resize 0 5 1 b1, .clear 0, .pushAs 0 5 b1]

theorem Ex.prog2_typed : ∀ op ∈ Ex.prog2, op.WellTyped Ex.env := by
  have p5 : Op.WellTyped.Plain Ex.env 5 := Ex.plain (by decide) (by decide)
  intro op hop
  simp only [Ex.prog2, List.mem_cons, List.not_mem_nil, or_false] at hop
  rcases hop with rfl | rfl | rfl | rfl | rfl | rfl <;>
    first | exact trivial | exact ⟨p5, rfl⟩ | exact ⟨p5, by decide⟩

theorem Ex.prog2_supported : SupportedOps Ex.env 20 Ex.prog2
    (Slots.put (fun _ => none) 0 (some (2, [Ex.a1, Ex.a2, Ex.a3]))) := by
  have r5 : Room Ex.env 5 (4 * 20 + 16) := by unfold Room; decide
  repeat' refine SupportedOps.cons ?_ rfl ?_
  all_goals first
    | exact trivial
    | exact ⟨by decide, r5⟩
    | (intro es h; exact absurd (Prod.mk.inj (Option.some.inj h)).1 (by decide))
    | (intro t es t' es' h h' e; cases h; cases h'; exact absurd e (by decide))

/-! ### C45 programs that catch panics -/

/-- In a debug build, a program that catches panics sees exactly the panics that plain `Vec<T>`s would
raise, and after each of them all containers are as they were before the operation. What is missing:
`Op.Supported` as in C14, rotations beyond the length (see `C45_rotate_refuted`), `swap(i, i)` out of
range, and release builds (see `C27_refuted`). -/
theorem C45_veccopy_history_partial (I : HInv Γ N slots w.heap s) (hd : cfg.debug = true)
    (hwt : ∀ op ∈ ops, op.WellTyped Γ) (hca : CatchableOps Γ N ops s) :
    ∃ slots' h', runCaught Γ cfg vt ops (slots, w) = (.ok (specCaught Γ ops s).1, (slots', { w with heap := h' })) ∧
      HInv Γ N slots' h' (specCaught Γ ops s).2 := by
  induction ops generalizing slots s w with
  | nil => exact ⟨slots, w.heap, rfl, I⟩
  | cons op ops ih =>
    have hwt' : ∀ o ∈ ops, o.WellTyped Γ := fun o ho => hwt o (List.mem_cons_of_mem _ ho)
    cases h1 : op.spec Γ s with
    | none =>
      obtain ⟨y, hrun1⟩ := step_panic (cfg := cfg) (vt := vt) op I (hwt op (by simp)) hca.2.1 hd h1
      obtain ⟨slots2, h2', hrun2, I2⟩ := ih I hwt' (hca.2.2.1 h1)
      refine ⟨slots2, h2', ?_, ?_⟩
      · simp only [runCaught, M.bind_run, hrun1, hrun2, M.pure_run, specCaught, h1]
      · simp only [specCaught, h1]; exact I2
    | some p =>
      obtain ⟨o, s1⟩ := p
      obtain ⟨slots1, h1', hrun1, I1⟩ := step_ok (cfg := cfg) (vt := vt) op I (hwt op (by simp)) hca.1 h1
      obtain ⟨slots2, h2', hrun2, I2⟩ := ih (w := { w with heap := h1' }) I1 hwt' (hca.2.2.2 _ _ h1)
      refine ⟨slots2, h2', ?_, ?_⟩
      · simp only [runCaught, M.bind_run, hrun1, hrun2, M.pure_run, specCaught, h1]
      · simp only [specCaught, h1]; exact I2

theorem CatchableOps.panics {op : Op} (h : op.Supported Γ N s) (h' : op.Catchable s) (hs : op.spec Γ s = none)
    (hr : CatchableOps Γ N ops s) : CatchableOps Γ N (op :: ops) s :=
  ⟨h, h', fun _ => hr, fun o s' e => by rw [hs] at e; cases e⟩

theorem CatchableOps.returns {op : Op} {o : Obs} {s1 : Op.VState} (h : op.Supported Γ N s) (h' : op.Catchable s)
    (hs : op.spec Γ s = some (o, s1)) (hr : CatchableOps Γ N ops s1) : CatchableOps Γ N (op :: ops) s :=
  ⟨h, h', (fun e => by rw [hs] at e; cases e), (fun o s' e => by rw [hs] at e; cases e; exact hr)⟩

example : ∃ slots' h', runCaught Ex.env ⟨true⟩ () [.getAs 0 2 3, .push 0 5 Ex.b1, .get 0 7, .swap 0 0 9,
      .copyFromSlice 0 2 [Ex.a1], .setAs 0 2 3 Ex.a1, .asSlice 0 2]
      (Slots.put (fun _ => none) 0 (some Ex.c123), Ex.world 2 4) =
    (.ok [none, none, none, none, none, none, some (.elems [Ex.a1, Ex.a2, Ex.a3])], (slots', { Ex.world 2 4 with heap := h' })) ∧
    HInv Ex.env 20 slots' h' (Slots.put (fun _ => none) 0 (some (2, [Ex.a1, Ex.a2, Ex.a3]))) := by
  have p5 : Op.WellTyped.Plain Ex.env 5 := Ex.plain (by decide) (by decide)
  have p2 : Op.WellTyped.Plain Ex.env 2 := Ex.plain (by decide) (by decide)
  have hw : ∀ op ∈ ([.getAs 0 2 3, .push 0 5 Ex.b1, .get 0 7, .swap 0 0 9,
      .copyFromSlice 0 2 [Ex.a1], .setAs 0 2 3 Ex.a1, .asSlice 0 2] : List Op), op.WellTyped Ex.env := by
    intro op hop
    simp only [List.mem_cons, List.not_mem_nil, or_false] at hop
    rcases hop with rfl | rfl | rfl | rfl | rfl | rfl | rfl <;>
      first | exact trivial | exact ⟨p5, rfl⟩ | exact ⟨p2, rfl⟩ | exact ⟨p2, by decide⟩
  have hp : Slots.put (Slots.put (fun _ => none) 0 (some (2, [Ex.a1, Ex.a2, Ex.a3]))) 0
      (some (2, [Ex.a1, Ex.a2, Ex.a3])) = Slots.put (fun _ => none) 0 (some (2, [Ex.a1, Ex.a2, Ex.a3])) :=
    Slots.put_put ..
  have := C45_veccopy_history_partial (cfg := ⟨true⟩) (vt := ()) (w := Ex.world 2 4) Ex.c123_history rfl hw (by
    repeat' first
      | refine CatchableOps.panics ?_ ?_ rfl ?_
      | refine CatchableOps.returns ?_ ?_ rfl ?_
    all_goals first
      | exact trivial
      | (intro es h; exact absurd (Prod.mk.inj (Option.some.inj h)).1 (by decide))
      | (intro t es h e; cases h; revert e; decide))
  obtain ⟨slots', h', hrun, I⟩ := this
  refine ⟨slots', h', hrun, ?_⟩
  rw [← hp]; exact I

end Dync
