import Verif.HistoryDynStep
import Verif.HistoryPanic
/-!
# Programs over `VecDyn` containers and owned values that catch panics

`Clone` code of the user may panic at any call; destructors do not panic here (what happens when they do is
in `Props/VecDyn.lean`). A panicking operation must leave variables, heap and user state as the typed
program leaves them.
-/
namespace Dync
variable {U V : Type} [HasDrop U V] [HasClone U V] {Γ : TyEnv U} {N : Nat} {slots : DSlots V} {s s' : DState}
  {cfg : Cfg} {vt : TyId → V} {w : World U} {o : Obs} {u' : U} {k : Nat} {y : Why}

/-- No destructor panics (or does worse). -/
def TyEnv.QuietDrop (Γ : TyEnv U) : Prop := ∀ t x u, ∃ u', Γ.drop t x u = (.ok (), u')

/-- An index that is out of range is detected: debug assertions are on, or its byte offset fits `usize`. -/
def DState.IndexOk (Γ : TyEnv U) (cfg : Cfg) (s : DState) (k i : Nat) : Prop :=
  ∀ t es, s k = some (.vec t es) → NoWrap cfg ((i + 1) * Γ.size t)

/-- Panics after which the implementation is in the state the typed program is in. Not among them: a
panicking `Clone` while a container is cloned (the clones made so far leak) or while a clone is pushed
(the container loses its content), a rotation by more than the length (the content is lost) and swapping
an index out of range with itself (no panic). -/
def DOp.Catchable (Γ : TyEnv U) (cfg : Cfg) (s : DState) : DOp → Prop
  | .clone k _ => ∀ t es, s k ≠ some (.vec t es)
  | .pushCloned _ j i => s.IndexOk Γ cfg j i ∧ ∃ t es, s j = some (.vec t es) ∧ es.length ≤ i
  | .rotateLeft _ _ => False
  | .rotateRight _ _ => False
  | .swap k i j => i ≠ j ∧ s.IndexOk Γ cfg k i ∧ s.IndexOk Γ cfg k j
  | .get k i => s.IndexOk Γ cfg k i
  | .cloneValue k i _ => s.IndexOk Γ cfg k i
  | .cloneSmall k i _ => s.IndexOk Γ cfg k i
  | .assign k i _ => s.IndexOk Γ cfg k i
  | .cloneFrom k i j i' => s.IndexOk Γ cfg k i ∧ s.IndexOk Γ cfg j i'
  | .swapValues k i j i' => s.IndexOk Γ cfg k i ∧ s.IndexOk Γ cfg j i'
  | _ => True

/-- Catch a panic: `none`. -/
def M.caught {σ α : Type} (m : M σ α) : M σ (Option α) := ⟨fun s =>
  match m s with
  | (.ok a, s') => (.ok (some a), s')
  | (.panic _, s') => (.ok none, s')
  | (.ub, s') => (.ub, s')
  | (.abort, s') => (.abort, s')⟩

/-- Run a program in which every operation is wrapped in `catch_unwind`; `none` is a caught panic. -/
def runCaughtD (Γ : TyEnv U) (cfg : Cfg) (vt : TyId → V) : List DOp → M (DSlots V × World U) (List (Option Obs))
  | [] => pure []
  | op :: ops => do
    let o ← (op.exec Γ cfg vt).caught
    let os ← runCaughtD Γ cfg vt ops
    pure (o :: os)

/-- The same program on plain typed values. -/
def specCaughtD (Γ : TyEnv U) : List DOp → M (DState × U) (List (Option Obs))
  | [] => pure []
  | op :: ops => do
    let o ← (op.spec Γ).caught
    let os ← specCaughtD Γ ops
    pure (o :: os)

/-- Every operation is supported in the state in which it is executed, and catchable if it panics. -/
def CatchableDOps (Γ : TyEnv U) (cfg : Cfg) (N : Nat) : List DOp → DState × U → Prop
  | [], _ => True
  | op :: ops, s => op.Supported Γ N s.1 ∧
    (∀ o s', op.spec Γ s = (.ok o, s') → CatchableDOps Γ cfg N ops s') ∧
    ∀ y s', op.spec Γ s = (.panic y, s') → op.Catchable Γ cfg s.1 ∧ CatchableDOps Γ cfg N ops s'

/-! ### Inversion of specifications that panic -/

theorem M.bind_panic_inv {σ α β : Type} {m : M σ α} {f : α → M σ β} {s s2 : σ}
    (h : (m >>= f) s = (.panic y, s2)) :
    m s = (.panic y, s2) ∨ ∃ a s1, m s = (.ok a, s1) ∧ f a s1 = (.panic y, s2) := by
  simp only [M.bind_run] at h
  rcases hm : m s with ⟨r, s1⟩
  rw [hm] at h
  cases r with
  | ok a => exact .inr ⟨a, s1, rfl, h⟩
  | panic y => cases h; exact .inl rfl
  | ub => cases h
  | abort => cases h

theorem DSpec.user_panic_inv {α : Type} {m : M U α} {s : DState} {u : U} {q : DState × U}
    (h : DSpec.user m (s, u) = (.panic y, q)) : ∃ u', m u = (.panic y, u') ∧ q = (s, u') := by
  simp only [DSpec.user, M.zoom_run] at h
  rcases hm : m u with ⟨r, u1⟩
  rw [hm] at h
  simp only at h
  cases h
  exact ⟨u1, rfl, rfl⟩

theorem TyEnv.QuietDrop.dropEach (hq : Γ.QuietDrop) (t : TyId) (xs : List Bytes) (u : U) :
    ∃ u', M.dropEach xs (Γ.drop t) u = (.ok (), u') := by
  induction xs generalizing u with
  | nil => exact ⟨u, rfl⟩
  | cons x xs ih =>
    obtain ⟨u1, h1⟩ := hq t x u
    obtain ⟨u2, h2⟩ := ih u1
    refine ⟨u2, ?_⟩
    exact forEach_ok_dropEach (M.bind_ok h1 ▸ dropEach_ok_forEach h2)

theorem TyEnv.QuietDrop.item (hq : Γ.QuietDrop) (b : SItem) (u : U) : ∃ u', b.drop Γ u = (.ok (), u') := by
  cases b with
  | vec t es => exact hq.dropEach t es u
  | box t x => exact hq t x u
  | small t x => exact hq t x u

theorem DSpec.put_no_panic (hq : Γ.QuietDrop) {b : SItem} {s : DState} {u : U} {q : DState × U}
    (h : DSpec.put Γ k b (s, u) = (.panic y, q)) : False := by
  simp only [DSpec.put] at h
  cases hs : s k with
  | none => rw [hs] at h; cases h
  | some old =>
    obtain ⟨u1, hd⟩ := hq.item old u
    rw [hs] at h
    simp only [hd] at h
    cases h

theorem refuse_no_panic (hq : Γ.QuietDrop) {t : TyId} {x : Bytes} {q q' : List Bytes × U}
    (h : DSpec.refuse Γ t x q = (.panic y, q')) : False := by
  obtain ⟨u1, hd⟩ := hq t x q.2
  simp only [DSpec.refuse, M.bind_run, M.zoom_run, hd, M.pure_run] at h
  cases h

theorem tvec_panic_inv {f : List Bytes → U → Res Unit × (List Bytes × U)} {es : List Bytes} {u : U} {q : List Bytes × U}
    (h : DSpec.tvec f (es, u) = (.panic y, q)) : f es u = (.panic y, q) := by
  rcases M.bind_panic_inv h with h1 | ⟨a, s1, h1, h2⟩
  · exact h1
  · cases h2

theorem clones_panic (hq : Γ.QuietDrop) {t : TyId} {xs : List Bytes} {u u' : U}
    (h : DSpec.clones Γ t xs u = (.panic y, u')) :
    ∃ es u1, TVec.extendClones Γ t xs [] u = (.panic y, (es, u1)) ∧ M.dropEach es (Γ.drop t) u1 = (.ok (), u') := by
  simp only [DSpec.clones] at h
  rcases hx : TVec.extendClones Γ t xs [] u with ⟨r, es, u1⟩
  rw [hx] at h
  cases r with
  | ok a => cases h
  | panic y' =>
    obtain ⟨u2, hd⟩ := hq.dropEach t es u1
    have hu : M.unwindDrop (M.dropEach es (Γ.drop t)) u1 = (.ok (), u2) := by simp only [M.unwindDrop, hd]
    simp only [M.bind_ok hu] at h
    cases h
    exact ⟨es, u1, rfl, hd⟩
  | ub => cases h
  | abort => cases h

/-! ### Steps -/

/-- What an operation leaves behind when it panics. -/
def DOp.StepPanic (Γ : TyEnv U) (cfg : Cfg) (vt : TyId → V) (N : Nat) (op : DOp) (slots : DSlots V) (w : World U)
    (s' : DState) (u' : U) : Prop :=
  ∃ y slots' h', op.exec Γ cfg vt (slots, w) = (.panic y, (slots', ⟨h', u'⟩)) ∧ DInv Γ N slots' h' s'

/-- Blocks came and went, but none of them belongs to a variable. -/
theorem DInv.unowned {h h' : Heap} (I : DInv Γ N slots h s) (hre : Realloc h none h' none) : DInv Γ N slots h' s := by
  have hf : ∀ i, h'.live i = h.live i := fun i => hre.other i (by simp) (by simp)
  refine ⟨hre.wf, fun k => (I.ok k).frame fun i _ => hf i, I.inj, fun i l hl => I.owned i l ?_⟩
  rw [← hf i]; exact hl

theorem create_panic {h1 : Heap} {u1 : U} {m : M (World U) (Item V)} {s : DState}
    (I : DInv Γ N slots w.heap s) (hm : m w = (.panic y, ⟨h1, u1⟩)) (hre : Realloc w.heap none h1 none) :
    ∃ y slots' h', DOp.create cfg k m (slots, w) = (.panic y, (slots', ⟨h', u1⟩)) ∧ DInv Γ N slots' h' s :=
  ⟨y, slots, h1, by simp only [DOp.create, M.bind_run, onWorld, M.zoom_run, hm], I.unowned hre⟩

theorem method_panic {m : M (VecDyn V × World U) Obs} {f : TyId → M (List Bytes × U) Obs}
    (I : DInv Γ N slots w.heap s) (hspec : DSpec.methodVec k f (s, w.user) = (.panic y, (s', u')))
    (hm : ∀ c t es es', slots k = some (.vec c) → s k = some (.vec t es) → f t (es, w.user) = (.panic y, (es', u')) →
      Repr Γ w.heap t es c.data → c.data.cap ≤ 2 * N + 8 → Room Γ t (4 * N + 16) →
      LawfulDrop Γ t c.vtable → LawfulClone Γ t c.vtable →
      ∃ y' d h' n, m (c, w) = (.panic y', ({ c with data := d }, ⟨h', u'⟩)) ∧
        Evolves Γ t n es' w.heap c.data h' d ∧ n ≤ N) :
    ∃ y' slots' h', DOp.onVec k m (slots, w) = (.panic y', (slots', ⟨h', u'⟩)) ∧ DInv Γ N slots' h' s' := by
  rcases hs : s k with _ | ⟨t, es⟩ | ⟨t, x⟩ | ⟨t, x⟩
  · simp only [DSpec.methodVec, hs] at hspec; cases hspec
  · obtain ⟨a, ha, A⟩ := I.lookup hs
    obtain ⟨c, rfl, R, hcap, hroom, hl, hlc⟩ := A.vec
    simp only [DSpec.methodVec, hs] at hspec
    rcases hf : f t (es, w.user) with ⟨r, es', u1⟩
    rw [hf] at hspec
    simp only at hspec
    cases hspec
    obtain ⟨y', d, h', n, hrun, hev, hn⟩ := hm c t es es' ha hs hf R hcap hroom hl hlc
    refine ⟨y', Slots.put slots k (some (.vec { c with data := d })), h', ?_, ?_⟩
    · simp only [DOp.onVec, ha, hrun]
    · refine I.update (a := some (.vec { c with data := d })) (by rw [ha]; exact hev.realloc) ⟨hev.repr, ?_, hroom, hl, hlc⟩
      have := hev.cap_bound
      show d.cap ≤ _; omega
  · simp only [DSpec.methodVec, hs] at hspec; cases hspec
  · simp only [DSpec.methodVec, hs] at hspec; cases hspec

/-- A method that panics without touching the container. -/
theorem stays {t : TyId} {es : List Bytes} {c : VecDyn V} {m : M (VecDyn V × World U) Obs} {u' : U}
    (R : Repr Γ w.heap t es c.data) (wf : w.heap.WF) (hm : m (c, w) = (.panic y, (c, ⟨w.heap, u'⟩))) :
    ∃ y' d h' n, m (c, w) = (.panic y', ({ c with data := d }, ⟨h', u'⟩)) ∧
      Evolves Γ t n es w.heap c.data h' d ∧ n ≤ N :=
  ⟨y, c.data, w.heap, 0, hm, Evolves.refl R wf, Nat.zero_le _⟩

theorem pure_panic {m : M (VecDyn V × World U) Obs} {f : TyId → List Bytes → Option (Obs × List Bytes)}
    (I : DInv Γ N slots w.heap s) (hspec : DSpec.pureVec k f (s, w.user) = (.panic y, (s', u')))
    (hm : ∀ c t es, s k = some (.vec t es) → f t es = none → Repr Γ w.heap t es c.data →
      ∃ y', m (c, w) = (.panic y', (c, w))) :
    ∃ y' slots' h', DOp.onVec k m (slots, w) = (.panic y', (slots', ⟨h', u'⟩)) ∧ DInv Γ N slots' h' s' := by
  refine method_panic I hspec ?_
  intro c t es es' ha hs hf R hcap hroom hl hlc
  simp only at hf
  cases hfe : f t es with
  | none =>
    rw [hfe] at hf; cases hf
    obtain ⟨y', hy'⟩ := hm c t es hs hfe R
    exact stays R I.wf hy'
  | some p => rw [hfe] at hf; cases hf

theorem read_panic {i : Nat} {q : DState × U} (I : DInv Γ N slots w.heap s) (hi : s.IndexOk Γ cfg k i)
    (hspec : DSpec.read k i (s, w.user) = (.panic y, q)) :
    q = (s, w.user) ∧ (∃ y', DOp.readRef cfg k i (slots, w) = (.panic y', (slots, w))) ∧
      ∃ c t es, slots k = some (.vec c) ∧ s k = some (.vec t es) ∧ es.length ≤ i ∧ Repr Γ w.heap t es c.data := by
  rcases hs : s k with _ | ⟨t, es⟩ | ⟨t, x⟩ | ⟨t, x⟩ <;> simp only [DSpec.read, hs] at hspec
  · cases hspec
  · obtain ⟨a, ha, A⟩ := I.lookup hs
    obtain ⟨c, rfl, R, -⟩ := A.vec
    by_cases hlt : i < es.length
    · rw [dif_pos hlt] at hspec; cases hspec
    · rw [dif_neg hlt] at hspec; cases hspec
      obtain ⟨y', hy'⟩ := VecDyn.get_out (cfg := cfg) R (Nat.le_of_not_lt hlt) (hi t es hs) w
      refine ⟨rfl, ⟨y', by simp only [DOp.readRef, ha, hy', Res.map]⟩, c, t, es, ha, rfl, Nat.le_of_not_lt hlt, R⟩
  · cases hspec
  · cases hspec

theorem VecDyn.getMut_out {α : Type} {t : TyId} {es : List Bytes} {c : VecDyn V} (R : Repr Γ w.heap t es c.data) {i : Nat}
    (hi : es.length ≤ i) (hw : NoWrap cfg ((i + 1) * Γ.size t)) (m : M (ValueRef V × World U) α) :
    ∃ y, VecDyn.getMut cfg i m (c, w) = (.panic y, (c, w)) := by
  obtain ⟨y, hy⟩ := VecDyn.get_out (cfg := cfg) R hi hw (c, w)
  refine ⟨y, ?_⟩
  simp only [VecDyn.get] at hy
  simp only [VecDyn.getMut]
  rw [M.bind_ok (getSelf_run _)]
  rcases M.bind_panic_inv hy with h1 | ⟨a, q, h1, h2⟩
  · rw [M.bind_panic h1]
  · rw [M.bind_ok h1]
    rcases M.bind_panic_inv h2 with h3 | ⟨a, q', h3, h4⟩
    · rw [M.bind_panic h3]
    · cases h4

theorem onMut_panic {i : Nat} {q : DState × U} (I : DInv Γ N slots w.heap s) (hi : s.IndexOk Γ cfg k i)
    (hspec : DSpec.read k i (s, w.user) = (.panic y, q)) (m : M (ValueRef V × World U) Obs) :
    ∃ y', DOp.onMut cfg k i m (slots, w) = (.panic y', (slots, w)) := by
  obtain ⟨-, -, c, t, es, ha, hs, hle, R⟩ := read_panic I hi hspec
  obtain ⟨y', hy'⟩ := VecDyn.getMut_out (cfg := cfg) R hle (hi t es hs) m
  refine ⟨y', ?_⟩
  simp only [DOp.onMut, ha, hy']
  rw [← ha, Slots.put_self]

theorem dstep_panic (op : DOp) (hvt : ∀ t, LawfulDrop Γ t (vt t) ∧ LawfulClone Γ t (vt t)) (hq : Γ.QuietDrop)
    (I : DInv Γ N slots w.heap s) (hwt : op.WellTyped Γ) (hsup : op.Supported Γ N s) (hca : op.Catchable Γ cfg s)
    (hspec : op.spec Γ (s, w.user) = (.panic y, (s', u'))) : op.StepPanic Γ cfg vt N slots w s' u' := by
  have wf := I.wf
  cases op with
  | withType k t => exact (DSpec.put_no_panic hq hspec).elim
  | withCapacity k t n => exact (DSpec.put_no_panic hq hspec).elim
  | fromVec k t xs => exact (DSpec.put_no_panic hq hspec).elim
  | fromSlice k t xs =>
    obtain ⟨hn, hroom⟩ := hsup
    rcases M.bind_panic_inv hspec with h1 | ⟨es', q, h1, h2⟩
    · obtain ⟨u1, h0, h⟩ := DSpec.user_panic_inv h1
      cases h
      obtain ⟨es, u1, hx, hd⟩ := clones_panic hq h0
      obtain ⟨h', hrun, hre⟩ := VecDyn.fromSlice_panic (vt := vt t) wf hwt.1 (hroom.mono (by omega)) hx hd
      exact create_panic (y := y) I (m := do return .vec (← VecDyn.fromSlice Γ t (vt t) xs)) (by simp only [M.bind_run, hrun]) hre
    · exact (DSpec.put_no_panic hq h2).elim
  | withSize k t n x =>
    obtain ⟨hn, hroom⟩ := hsup
    rcases M.bind_panic_inv hspec with h1 | ⟨es', q, h1, h2⟩
    · obtain ⟨u1, h0, h⟩ := DSpec.user_panic_inv h1
      cases h
      cases n with
      | zero =>
        obtain ⟨u2, hd⟩ := hq t x w.user
        simp only [DSpec.vecOf, M.bind_run, hd, M.pure_run] at h0
        cases h0
      | succ n =>
        simp only [DSpec.vecOf] at h0
        rcases hp : TVec.pushClones Γ t x n [] w.user with ⟨r, es, u2⟩
        rw [hp] at h0
        cases r with
        | ok a => cases h0
        | panic y' =>
          obtain ⟨u3, hd3⟩ := hq t x u2
          obtain ⟨u4, hd4⟩ := hq.dropEach t es u3
          have hu : M.unwindDrop (do Γ.drop t x; M.dropEach es (Γ.drop t)) u2 = (.ok (), u4) := by
            simp only [M.unwindDrop, M.bind_run, hd3, hd4]
          simp only [M.bind_ok hu] at h0
          cases h0
          obtain ⟨h', hrun, hre⟩ := VecDyn.withSize_panic (vt := vt t) wf hwt.1 (hroom.mono (by omega)) hp hd3 hd4
          exact create_panic (y := y) I (m := do return .vec (← VecDyn.withSize Γ t (vt t) (n + 1) x)) (by simp only [M.bind_run, hrun]) hre
        | ub => cases h0
        | abort => cases h0
    · exact (DSpec.put_no_panic hq h2).elim
  | newBox k t x => exact (DSpec.put_no_panic hq hspec).elim
  | newSmall k t x => exact (DSpec.put_no_panic hq hspec).elim
  | drop k =>
    simp only [DOp.spec] at hspec
    cases hs : s k with
    | none => rw [hs] at hspec; cases hspec
    | some b =>
      rw [hs] at hspec
      obtain ⟨u1, hd⟩ := hq.item b w.user
      simp only [M.bind_run, DSpec.moveOut, M.modify_run, DSpec.user, M.zoom_run, hd, M.pure_run] at hspec
      cases hspec
  | clone k j =>
    simp only [DOp.spec] at hspec
    cases hs : s k with
    | none => rw [hs] at hspec; cases hspec
    | some b =>
      rw [hs] at hspec
      obtain ⟨a, ha, A⟩ := I.lookup hs
      rcases M.bind_panic_inv hspec with h1 | ⟨b', q, h1, h2⟩
      · obtain ⟨u1, h0, h⟩ := DSpec.user_panic_inv h1
        cases h
        have key : ∃ h', DOp.cloneItem cfg a w = (.panic y, ⟨h', u'⟩) ∧ Realloc w.heap none h' none := by
          cases b with
          | vec t es => exact absurd hs (hca t es)
          | box t x =>
            obtain ⟨v, rfl, B, hl, hlc⟩ := A.box
            rcases M.bind_panic_inv h0 with h3 | ⟨_, _, _, h3⟩
            · refine ⟨w.heap, ?_, Realloc.refl wf none⟩
              have := ValueRef.cloneValue_panic (w := w) (v := v.asRef) B.asRef hlc h3
              simp only [DOp.cloneItem, M.bind_run, BoxValue.clone, this]
            · cases h3
          | small t x =>
            obtain ⟨v, rfl, B, hl, hlc⟩ := A.small
            rcases M.bind_panic_inv h0 with h3 | ⟨_, _, _, h3⟩
            · refine ⟨w.heap, ?_, Realloc.refl wf none⟩
              have := ValueRef.cloneSmallValue_panic (w := w) (v := v.asRef) B.asRef B.size hlc h3
              simp only [DOp.cloneItem, M.bind_run, SmallValue.clone, this]
            · cases h3
        obtain ⟨h', hrun, hre⟩ := key
        obtain ⟨y', slots', h'', hr, I'⟩ := create_panic (cfg := cfg) (k := j) I hrun hre
        exact ⟨y', slots', h'', by simp only [DOp.exec, ha, hr], I'⟩
      · exact (DSpec.put_no_panic hq h2).elim
  | consume k t =>
    simp only [DOp.spec] at hspec
    cases hs : s k with
    | none => rw [hs] at hspec; cases hspec
    | some b =>
      rw [hs] at hspec
      obtain ⟨u1, hd⟩ := hq.item b w.user
      simp only [M.bind_run, DSpec.moveOut, M.modify_run, DSpec.user, M.zoom_run, hd, M.pure_run] at hspec
      cases hspec
  | roundTrip k t =>
    simp only [DOp.spec] at hspec
    split at hspec
    · split at hspec
      · cases hspec
      · rename_i t' es _ _
        obtain ⟨u1, hd⟩ := hq.item (.vec t' es) w.user
        simp only [M.bind_run, DSpec.moveOut, M.modify_run, DSpec.user, M.zoom_run, hd, M.pure_run] at hspec
        cases hspec
    · cases hspec
  | append k j =>
    simp only [DOp.spec] at hspec
    split at hspec
    · cases hspec
    · split at hspec
      · split at hspec <;> cases hspec
      · cases hspec
  | pushAs k t x =>
    refine method_panic I hspec ?_
    intro c t' es es' hc hs hf R hcap hroom hl hlc
    split at hf
    · cases hf
    · exact (refuse_no_panic hq hf).elim
  | pushCloned k j i =>
    obtain ⟨hi, t, es, hs, hle⟩ := hca
    simp only [DOp.spec] at hspec
    by_cases hkj : k = j
    · rw [if_pos hkj] at hspec; cases hspec
    · rw [if_neg hkj] at hspec
      rcases M.bind_panic_inv hspec with h1 | ⟨r, q, h1, h2⟩
      · obtain ⟨h, ⟨y', hy'⟩, -⟩ := read_panic I hi h1
        cases h
        exact ⟨y', slots, w.heap, by simp only [DOp.exec, if_neg hkj, M.bind_run, hy'], I⟩
      · simp only [DSpec.read, hs, dif_neg (Nat.not_lt.mpr hle)] at h1
        cases h1
  | pushBox k j =>
    simp only [DOp.spec] at hspec
    split at hspec
    · rename_i hk hj
      simp only [M.bind_run, DSpec.moveOut, M.modify_run] at hspec
      by_cases hkj : k = j
      · subst hkj; rw [hk] at hj; cases hj
      · simp only [DSpec.methodVec, Slots.put_other _ _ hkj, hk] at hspec
        injection hspec with h1 h2
        split at h1
        · cases h1
        · exact (refuse_no_panic hq (Prod.ext h1 rfl)).elim
    · cases hspec
  | resize k t n x =>
    refine method_panic I hspec ?_
    intro c t' es es' hc hs hf R hcap hroom hl hlc
    by_cases ht : t = t'
    · subst ht
      rw [if_pos rfl] at hf
      obtain ⟨hn, hodd⟩ := hsup es hs
      have hg := tvec_panic_inv hf
      by_cases hle : es.length ≤ n
      · rw [if_pos hle] at hg
        obtain ⟨d, h', hrun, hev⟩ := VecDyn.resize_grow (cfg := cfg) R wf hle (hroom.mono (by omega))
          (fun hb => hodd ⟨hb.1, hb.2.1, hb.2.2.2⟩) hg
        exact ⟨y, d, h', n, by simp only [M.bind_run, hrun, Res.map], hev, hn⟩
      · rw [if_neg hle] at hg
        obtain ⟨u1, hd⟩ := hq.dropEach t (es.drop n) w.user
        obtain ⟨u2, hx⟩ := hq t x u1
        simp only [hd, TVec.thenDropArg, hx] at hg
        cases hg
    · rw [if_neg ht] at hf
      exact (refuse_no_panic hq hf).elim
  | fill k t x =>
    refine method_panic I hspec ?_
    intro c t' es es' hc hs hf R hcap hroom hl hlc
    by_cases ht : t = t'
    · subst ht
      rw [if_pos rfl] at hf
      have hg := tvec_panic_inv hf
      obtain ⟨d, hrun, hev⟩ := VecDyn.fill_run R wf hg
      exact ⟨y, d, w.heap, 0, by simp only [M.bind_run, hrun, Res.map], hev, Nat.zero_le _⟩
    · rw [if_neg ht] at hf
      exact (refuse_no_panic hq hf).elim
  | clear k =>
    refine method_panic (f := fun t => DSpec.tvec fun es u =>
      ((M.dropEach es (Γ.drop t) u).1, ([], (M.dropEach es (Γ.drop t) u).2))) I hspec ?_
    intro c t es es' hc hs hf R hcap hroom hl hlc
    have hg := tvec_panic_inv hf
    obtain ⟨u1, hd⟩ := hq.dropEach t es w.user
    rw [hd] at hg
    cases hg
  | rotateLeft k n => exact hca.elim
  | rotateRight k n => exact hca.elim
  | swap k i j =>
    obtain ⟨hne, hi, hj⟩ := hca
    simp only [DOp.spec] at hspec
    refine pure_panic I hspec ?_
    intro c t es hs hf R
    by_cases h : i < es.length ∧ j < es.length
    · rw [dif_pos h] at hf; cases hf
    · obtain ⟨y', hy'⟩ := (C45_veccopy_partial (W := V) (α := Unit) (cfg := cfg) (w := w) R).2.2.2.2 i j hne (by omega)
        (hi t es hs) (hj t es hs)
      exact ⟨y', by simp only [M.bind_run, hy']⟩
  | setAs k t i x =>
    refine method_panic I hspec ?_
    intro c t' es es' hc hs hf R hcap hroom hl hlc
    by_cases hi : i < es.length
    · simp only [dif_pos hi] at hf
      split at hf
      · obtain ⟨u1, hd⟩ := hq t es[i] w.user
        rw [hd] at hf; cases hf
      · exact (refuse_no_panic hq hf).elim
    · simp only [dif_neg hi] at hf
      cases hf
      refine stays (y := .assertion) R wf ?_
      have := C27_veccopy_get_mut_as R (Nat.le_of_not_lt hi) t (VecDyn.assignTyped Γ t x)
      simp only [M.bind_run, this]
  | cloneIntoVec k t =>
    refine method_panic I hspec ?_
    intro c t' es es' hc hs hf R hcap hroom hl hlc
    by_cases ht : t = t'
    · subst ht
      simp only [if_pos] at hf
      rcases hm : (DSpec.clones Γ t es >>= fun es => M.dropEach es (Γ.drop t) >>= fun _ => pure (Obs.elems es)) w.user
        with ⟨r, u1⟩
      rw [hm] at hf
      cases hf
      rcases M.bind_panic_inv hm with h1 | ⟨xs, u2, h1, h2⟩
      · obtain ⟨xs, u2, hx, hd⟩ := clones_panic hq h1
        refine stays (y := y) R wf ?_
        simp only [M.bind_run, getSelf_run, onWorld, M.zoom_run, VecDyn.cloneIntoVec_panic R hx hd]
      · obtain ⟨u3, hd⟩ := hq.dropEach t xs u2
        simp only [M.bind_run, hd, M.pure_run] at h2
        cases h2
    · simp only [if_neg ht] at hf; cases hf
  | cloneValue k i j =>
    rcases M.bind_panic_inv hspec with h1 | ⟨r, q, h1, h2⟩
    · obtain ⟨h, ⟨y', hy'⟩, -⟩ := read_panic I hca h1
      cases h
      exact ⟨y', slots, w.heap, by simp only [DOp.exec, M.bind_run, hy'], I⟩
    · obtain ⟨rfl, r', hrun, hr'⟩ := read_step (cfg := cfg) I h1
      cases r with
      | none => cases h2
      | some p =>
        cases r' with
        | none => exact hr'.elim
        | some v =>
          obtain ⟨t, x⟩ := p
          obtain ⟨hv, hl, hlc, hty⟩ := hr'
          rcases M.bind_panic_inv h2 with h3 | ⟨x', q, h3, h4⟩
          · obtain ⟨u1, h5, h⟩ := DSpec.user_panic_inv h3
            cases h
            have hcl := ValueRef.cloneValue_panic (w := w) hv hlc h5
            obtain ⟨y', slots', h', hr, I'⟩ := create_panic (cfg := cfg) (k := j) I
              (m := do return .box (← ValueRef.cloneValue v)) (h1 := w.heap) (by simp only [M.bind_run, hcl]; rfl) (Realloc.refl wf none)
            exact ⟨y', slots', h', by simp only [DOp.exec, M.bind_run, hrun]; exact hr, I'⟩
          · exact (DSpec.put_no_panic hq h4).elim
  | cloneSmall k i j =>
    rcases M.bind_panic_inv hspec with h1 | ⟨r, q, h1, h2⟩
    · obtain ⟨h, ⟨y', hy'⟩, -⟩ := read_panic I hca h1
      cases h
      exact ⟨y', slots, w.heap, by simp only [DOp.exec, M.bind_run, hy'], I⟩
    · obtain ⟨rfl, r', hrun, hr'⟩ := read_step (cfg := cfg) I h1
      cases r with
      | none => cases h2
      | some p =>
        cases r' with
        | none => exact hr'.elim
        | some v =>
          obtain ⟨t, x⟩ := p
          obtain ⟨hv, hl, hlc, hty⟩ := hr'
          rcases M.bind_panic_inv h2 with h3 | ⟨x', q, h3, h4⟩
          · obtain ⟨u1, h5, h⟩ := DSpec.user_panic_inv h3
            cases h
            have hcl := ValueRef.cloneSmallValue_panic (w := w) hv (hsup t hty) hlc h5
            obtain ⟨y', slots', h', hr, I'⟩ := create_panic (cfg := cfg) (k := j) I
              (m := do return .small (← ValueRef.cloneSmallValue v)) (h1 := w.heap) (by simp only [M.bind_run, hcl]; rfl) (Realloc.refl wf none)
            exact ⟨y', slots', h', by simp only [DOp.exec, M.bind_run, hrun]; exact hr, I'⟩
          · exact (DSpec.put_no_panic hq h4).elim
  | assign k i j =>
    simp only [DOp.spec] at hspec
    by_cases hkj : k = j
    · rw [if_pos hkj] at hspec; cases hspec
    · rw [if_neg hkj] at hspec
      have key : ∀ t x, DOp.spec.assignPlace Γ k i j t x (s, w.user) = (.panic y, (s', u')) →
          (s', u') = (s, w.user) ∧ ∃ y', DOp.readRef cfg k i (slots, w) = (.panic y', (slots, w)) := by
        intro t x h
        rcases M.bind_panic_inv h with h1 | ⟨r, q, h1, h2⟩
        · obtain ⟨h, hy', -⟩ := read_panic I hca h1
          exact ⟨h, hy'⟩
        · exfalso
          cases r with
          | none => cases h2
          | some p =>
            obtain ⟨t', old⟩ := p
            simp only at h2
            split at h2
            · simp only [M.bind_run, DSpec.moveOut, DSpec.write, M.modify_run, DSpec.user, M.zoom_run] at h2
              obtain ⟨u1, hd⟩ := hq t old q.2
              rw [hd] at h2; cases h2
            · simp only [M.bind_run, DSpec.moveOut, M.modify_run, DSpec.user, M.zoom_run] at h2
              obtain ⟨u1, hd⟩ := hq t x q.2
              rw [hd] at h2; cases h2
      split at hspec
      · rename_i hk hj
        obtain ⟨h, y', hy'⟩ := key _ _ hspec
        cases h
        obtain ⟨a, ha, A⟩ := I.lookup hk
        obtain ⟨b, hb, B⟩ := I.lookup hj
        obtain ⟨v, rfl, -⟩ := B.box
        exact ⟨y', slots, w.heap, by simp only [DOp.exec, if_neg hkj, ha, hb, M.bind_run, hy'], I⟩
      · rename_i hk hj
        obtain ⟨h, y', hy'⟩ := key _ _ hspec
        cases h
        obtain ⟨a, ha, A⟩ := I.lookup hk
        obtain ⟨b, hb, B⟩ := I.lookup hj
        obtain ⟨v, rfl, -⟩ := B.small
        exact ⟨y', slots, w.heap, by simp only [DOp.exec, if_neg hkj, ha, hb, M.bind_run, hy'], I⟩
      · cases hspec
  | cloneFrom k i j i' =>
    obtain ⟨hi, hi'⟩ := hca
    simp only [DOp.spec] at hspec
    by_cases hkj : k = j
    · rw [if_pos hkj] at hspec; cases hspec
    · rw [if_neg hkj] at hspec
      rcases M.bind_panic_inv hspec with h1 | ⟨r, q, h1, h2⟩
      · obtain ⟨h, ⟨y', hy'⟩, -⟩ := read_panic I hi' h1
        cases h
        exact ⟨y', slots, w.heap, by simp only [DOp.exec, if_neg hkj, M.bind_run, hy'], I⟩
      · obtain ⟨rfl, r', hrun, hr'⟩ := read_step (cfg := cfg) I h1
        cases r with
        | none => cases h2
        | some p =>
          cases r' with
          | none => exact hr'.elim
          | some v =>
            obtain ⟨t, x⟩ := p
            obtain ⟨hv, hl, hlc, hty⟩ := hr'
            rcases M.bind_panic_inv h2 with h3 | ⟨r2, q, h3, h4⟩
            · obtain ⟨h, -, -⟩ := read_panic I hi h3
              cases h
              obtain ⟨y', hy'⟩ := onMut_panic I hi h3 (do return Obs.ofUnit (← ValueRef.cloneFromOther v))
              exact ⟨y', slots, w.heap, by simp only [DOp.exec, if_neg hkj, M.bind_run, hrun]; exact hy', I⟩
            · obtain ⟨rfl, r2', hrun2, hr2'⟩ := read_step (cfg := cfg) I h3
              cases r2 with
              | none => cases h4
              | some p =>
                obtain ⟨t', d⟩ := p
                simp only at h4
                by_cases ht : t = t'
                · subst ht
                  rw [if_pos rfl] at h4
                  rcases hc : Γ.cloneFrom t x (d, w.user) with ⟨r, b', u1⟩
                  rw [hc] at h4
                  cases r with
                  | ok a => cases h4
                  | ub => cases h4
                  | abort => cases h4
                  | panic y' =>
                    simp only [Res.map, DSpec.write, M.modify_run] at h4
                    cases h4
                    have hd : d.length = Γ.size t := by
                      cases r2' with
                      | none => exact hr2'.elim
                      | some v2 => exact hr2'.1.length
                    obtain ⟨a', hmut, I'⟩ := onMut_step (cfg := cfg) (r := .panic y) (w' := { w with user := u' })
                      (m := do return Obs.ofUnit (← ValueRef.cloneFromOther v)) I h3 (Γ.cloneFrom_len hc hd) (by
                        intro v2 hv2 hl2 hlc2
                        have := ((C33_clone_from_other (w := w) hv2 hv hlc2).1 rfl _ _ _ hc).1
                        simp only [M.bind_run, this, Res.map])
                    exact ⟨y, _, w.heap, by simp only [DOp.exec, if_neg hkj, M.bind_run, hrun]; exact hmut, I'⟩
                · rw [if_neg ht] at h4; cases h4
  | swapValues k i j i' =>
    obtain ⟨hi, hi'⟩ := hca
    simp only [DOp.spec] at hspec
    by_cases hkj : k = j
    · rw [if_pos hkj] at hspec; cases hspec
    · rw [if_neg hkj] at hspec
      rcases M.bind_panic_inv hspec with h1 | ⟨r, q, h1, h2⟩
      · obtain ⟨h, ⟨y', hy'⟩, -⟩ := read_panic I hi h1
        cases h
        exact ⟨y', slots, w.heap, by simp only [DOp.exec, if_neg hkj, M.bind_run, hy'], I⟩
      · obtain ⟨rfl, r', hrun, hr'⟩ := read_step (cfg := cfg) I h1
        cases r with
        | none => cases h2
        | some p =>
          cases r' with
          | none => exact hr'.elim
          | some v =>
            obtain ⟨t, x⟩ := p
            rcases M.bind_panic_inv h2 with h3 | ⟨r2, q, h3, h4⟩
            · obtain ⟨h, ⟨y', hy'⟩, -⟩ := read_panic I hi' h3
              cases h
              exact ⟨y', slots, w.heap, by simp only [DOp.exec, if_neg hkj, M.bind_run, hrun, hy'], I⟩
            · exfalso
              cases r2 with
              | none => cases h4
              | some p =>
                obtain ⟨t', x'⟩ := p
                simp only at h4
                split at h4 <;> cases h4
  | len k => exact pure_panic (f := fun _ es => some (.num es.length, es)) I hspec fun c t es _ hf _ => by cases hf
  | typeId k => exact pure_panic (f := fun t es => some (.num t, es)) I hspec fun c t es _ hf _ => by cases hf
  | getAs k t i =>
    simp only [DOp.spec] at hspec
    refine pure_panic I hspec ?_
    intro c t' es hs hf R
    by_cases hi : i < es.length
    · rw [dif_pos hi] at hf; split at hf <;> cases hf
    · exact ⟨.assertion, by simp only [M.bind_run, getSelf_run, VecCopy.getAs_out R (Nat.le_of_not_lt hi)]⟩
  | get k i =>
    rcases M.bind_panic_inv hspec with h1 | ⟨r, q, h1, h2⟩
    · obtain ⟨h, ⟨y', hy'⟩, -⟩ := read_panic I hca h1
      cases h
      exact ⟨y', slots, w.heap, by simp only [DOp.exec, M.bind_run, hy'], I⟩
    · cases r <;> cases h2
  | asSlice k t =>
    simp only [DOp.spec] at hspec
    refine pure_panic I hspec ?_
    intro c t' es hs hf R
    split at hf <;> cases hf
  | iter k => exact pure_panic (f := fun _ es => some (.elems es, es)) I hspec fun c t es _ hf _ => by cases hf

end Dync
