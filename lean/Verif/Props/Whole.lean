import Verif.WholeLemmas
import Verif.WholeUb
import Verif.Props.Compare
/-!
# C79: whole programs

Programs that create, change, convert, clone, compare, hash, print and drop containers and values, in any order and
with every panic caught, do what the machine says.
-/
namespace Dync
variable {U V H F : Type} {Γ : TyEnv U} {Φ : UserFns U H F} {K : Formatting F} {cfg : Cfg} {vt : TyId → V}
  [HasDrop U V] [HasClone U V] [TableLaw V] [HasEqFx U V] [HasHashFx U H V] [HasFmtFx U F V]
  {slots : DSlots V} {w : World U} {vars : YVars} {o : Outside U}

omit [HasEqFx U V] [HasHashFx U H V] [HasFmtFx U F V] in
/-- From what is known of programs on views. -/
theorem alike_step {r q : Res (List Read)} (h : r.Alike q) (S : YHolds Γ slots w vars o) :
    InStepW Γ (r.map (WObs.reads (H := H) (F := F)), (slots, w)) (q.map .reads, (vars, o)) := by
  cases r <;> cases q <;> first | exact h.elim | skip
  · cases (show _ = _ from h); exact .ok ⟨rfl, S⟩
  · exact .panic S
  · exact .ub
  · exact .abort

theorem whole_step (L : RunsUserFns V Γ Φ) (htab : ∀ t, Tab Γ t (vt t)) {c : WOp U V H F} (S : YHolds Γ slots w vars o)
    (ht : c.IsTyped Γ) (hd : c.Described Γ cfg vars) :
    InStepW Γ (c.exec Γ cfg K vt (slots, w)) (c.step Γ cfg Φ K (vars, o)) := by
  cases c with
  | op d => exact obs_step (dyn_step S ht htab)
  | view k p =>
    have J := S.var k
    rcases hk : slots k with _ | a <;> rcases hv : vars k with _ | y <;> rw [hk, hv] at J
    · simp only [WOp.exec, WOp.step, hk, hv]; exact .ok ⟨rfl, S⟩
    · exact J.elim
    · exact J.elim
    replace J : YItem.Is Γ w.heap a y := J
    cases a <;> cases y <;> try exact J.elim
    · rename_i c tb x
      cases x with
      | unit n =>
        obtain ⟨r, w', h1, h2, h3, -⟩ := C75_units (cfg := cfg) (vt := vt) (fun t => lawfulDrop_of (htab t).drop) S hk hv p ht
        simp only [WOp.exec, WOp.step, hk, hv, h1]
        rw [← hk, Slots.put_self]
        exact alike_step h2 h3
      | vec t es cap =>
        have e := J.2.2.2 _ _ _ rfl
        subst e
        simp only [WOp.Described, hv] at hd
        obtain ⟨r, c', w', h1, h2, h3, -⟩ := C75_step (cfg := cfg) (vt := vt) (fun t => lawfulDrop_of (htab t).drop) S hk hv p ht hd
        simp only [WOp.exec, WOp.step, hk, hv, h1, WOp.viewed]
        exact alike_step h2 h3
    · simp only [WOp.exec, WOp.step, hk, hv]; exact .ok ⟨rfl, S⟩
    · simp only [WOp.exec, WOp.step, hk, hv]; exact .ok ⟨rfl, S⟩
  | typeFrom k j =>
    have J := S.var k
    rcases hk : slots k with _ | a <;> rcases hv : vars k with _ | y <;> rw [hk, hv] at J
    · simp only [WOp.exec, WOp.step, hk, hv]; exact .ok ⟨rfl, S⟩
    · exact J.elim
    · exact J.elim
    replace J : YItem.Is Γ w.heap a y := J
    cases a <;> cases y <;> try exact J.elim
    · rename_i c tb x
      cases x with
      | unit n =>
        simp only [WOp.exec, WOp.step, hk, hv]
        have e := withTypeFrom_unit (w := w) (show IsUnits Γ n c.data from J.1)
        simp only [DOp.create, M.bind_run, onWorld_run, e]
        exact .panic S
      | vec t es cap =>
        have e := J.2.2.2 _ _ _ rfl
        subst e
        simp only [WOp.exec, WOp.step, hk, hv]
        exact obs_step (ycreate_step S fun G O W => typeFrom_makes W J)
    · simp only [WOp.exec, WOp.step, hk, hv]; exact .ok ⟨rfl, S⟩
    · simp only [WOp.exec, WOp.step, hk, hv]; exact .ok ⟨rfl, S⟩
  | check k t =>
    have J := S.var k
    rcases hk : slots k with _ | a <;> rcases hv : vars k with _ | y <;> rw [hk, hv] at J
    · simp only [WOp.exec, WOp.step, hk, hv]; exact .ok ⟨rfl, S⟩
    · exact J.elim
    · exact J.elim
    replace J : YItem.Is Γ w.heap a y := J
    cases a <;> cases y <;> try exact J.elim
    · simp only [WOp.exec, WOp.step, hk, hv]
      exact check_step S hk J
    · simp only [WOp.exec, WOp.step, hk, hv]; exact .ok ⟨rfl, S⟩
    · simp only [WOp.exec, WOp.step, hk, hv]; exact .ok ⟨rfl, S⟩
  | upcast k f =>
    have J := S.var k
    rcases hk : slots k with _ | a <;> rcases hv : vars k with _ | y <;> rw [hk, hv] at J
    · simp only [WOp.exec, WOp.step, hk, hv]; exact .ok ⟨rfl, S⟩
    · exact J.elim
    · exact J.elim
    simp only [WOp.exec, WOp.step, hk, hv]
    exact .ok ⟨rfl, upcast_step S hk hv ht⟩
  | eq k j =>
    have J := S.var k
    rcases hk : slots k with _ | a <;> rcases hv : vars k with _ | y <;> rw [hk, hv] at J
    · simp only [WOp.exec, WOp.step, hk, hv]; exact .ok ⟨rfl, S⟩
    · exact J.elim
    · exact J.elim
    have J' := S.var j
    rcases hk' : slots j with _ | b <;> rcases hv' : vars j with _ | z <;> rw [hk', hv'] at J'
    · simp only [WOp.exec, WOp.step, hk, hv, hk', hv']; exact .ok ⟨rfl, S⟩
    · exact J'.elim
    · exact J'.elim
    simp only [WOp.exec, WOp.step, hk, hv, hk', hv']
    rcases item_eq L J J' with ⟨e1, e2⟩ | ⟨m, q, e1, e2, e3⟩
    · simp only [e1, e2]; exact .ok ⟨rfl, S⟩
    · simp only [e1, e2]; exact watch_step S e3 _
  | eqAt k i j i' =>
    exact atPlace_step S fun v p P => atPlace_step S fun v' q Q => watch_step S (fun u => by rw [place_eq L P Q]) _
  | hash k h =>
    have J := S.var k
    rcases hk : slots k with _ | a <;> rcases hv : vars k with _ | y <;> rw [hk, hv] at J
    · simp only [WOp.exec, WOp.step, hk, hv]; exact .ok ⟨rfl, S⟩
    · exact J.elim
    · exact J.elim
    simp only [WOp.exec, WOp.step, hk, hv]
    exact watch_step S (withTemp_congr (item_hash L J)) _
  | hashAt k i h =>
    exact atPlace_step S fun v p P => watch_step S (withTemp_congr fun s => by rw [place_hash L P]) _
  | fmt k f =>
    have J := S.var k
    rcases hk : slots k with _ | a <;> rcases hv : vars k with _ | y <;> rw [hk, hv] at J
    · simp only [WOp.exec, WOp.step, hk, hv]; exact .ok ⟨rfl, S⟩
    · exact J.elim
    · exact J.elim
    simp only [WOp.exec, WOp.step, hk, hv]
    exact watch_step S (withTemp_congr (item_fmt L J)) _
  | fmtAt k i f =>
    exact atPlace_step S fun v p P => watch_step S (withTemp_congr fun s => by rw [place_fmt L P]) _

omit [HasEqFx U V] [HasHashFx U H V] [HasFmtFx U F V] in
/-- What holds step by step, as a statement about outcomes. -/
theorem InStepW.endsAs {r : Res (WObs H F) × (DSlots V × World U)} {q : Res (WObs H F) × (YVars × Outside U)}
    (h : InStepW Γ r q) : EndsAs Γ r q := by
  rcases q with ⟨q, vars', o'⟩
  cases q with
  | ok b => obtain ⟨a, s, h1, rfl, h2⟩ := h; rw [h1]; exact ⟨rfl, h2⟩
  | panic y => obtain ⟨a, s, h1, h2⟩ := h; rw [h1]; exact ⟨⟨_, rfl⟩, h2⟩
  | ub => exact h
  | abort => exact h

/-- Every step ends as the machine says. -/
theorem C79_step (L : RunsUserFns V Γ Φ) (htab : ∀ t, Tab Γ t (vt t)) {c : WOp U V H F} (S : YHolds Γ slots w vars o)
    (ht : c.IsTyped Γ) (hd : c.Described Γ cfg vars) :
    EndsAs Γ (c.exec Γ cfg K vt (slots, w)) (c.step Γ cfg Φ K (vars, o)) :=
  (whole_step (K := K) L htab S ht hd).endsAs

/-- Hashing a container or value shows the hasher as the elements' own code leaves it. -/
theorem C79_hash (L : RunsUserFns V Γ Φ) (htab : ∀ t, Tab Γ t (vt t)) (S : YHolds Γ slots w vars o) {k : Nat} {a : YItem} {h h' : H} {u : U}
    (ha : vars k = some a) (e : a.hash Φ (h, o.user) = (.ok (), (h', u))) :
    ∃ slots' w', (WOp.hash k h : WOp U V H F).exec Γ cfg K vt (slots, w) = (.ok (.hashed h'), (slots', w')) ∧
      YHolds Γ slots' w' vars { o with user := u } := by
  have E := C79_step (K := K) (cfg := cfg) (c := .hash k h) L htab S trivial trivial
  have es : (WOp.hash k h : WOp U V H F).step Γ cfg Φ K (vars, o) = (.ok (.hashed h'), (vars, { o with user := u })) := by
    simp only [WOp.step, ha, WOp.see, aside, call, withTemp, M.bind_run, M.zoom_run, e, M.pure_run, Res.map]
  rw [es] at E
  exact ⟨_, _, Prod.ext E.1 rfl, E.2⟩

/-- Printing a container or value shows the formatter as the elements' own code and std's list format leave it. -/
theorem C79_fmt (L : RunsUserFns V Γ Φ) (htab : ∀ t, Tab Γ t (vt t)) (S : YHolds Γ slots w vars o) {k : Nat} {a : YItem} {f f' : F} {r : FmtRes}
    {u : U} (ha : vars k = some a) (e : a.fmt Φ K (f, o.user) = (.ok r, (f', u))) :
    ∃ slots' w', (WOp.fmt k f : WOp U V H F).exec Γ cfg K vt (slots, w) = (.ok (.text f' r), (slots', w')) ∧
      YHolds Γ slots' w' vars { o with user := u } := by
  have E := C79_step (K := K) (cfg := cfg) (c := .fmt k f) L htab S trivial trivial
  have es : (WOp.fmt k f : WOp U V H F).step Γ cfg Φ K (vars, o) = (.ok (.text f' r), (vars, { o with user := u })) := by
    simp only [WOp.step, ha, WOp.see, aside, call, withTemp, M.bind_run, M.zoom_run, e, M.pure_run, Res.map]
  rw [es] at E
  exact ⟨_, _, Prod.ext E.1 rfl, E.2⟩

omit [HasEqFx U V] [HasHashFx U H V] [HasFmtFx U F V] in
/-- Catching the panic of a step. -/
theorem whole_caught {m : M (DSlots V × World U) (WObs H F)} {q : M (YVars × Outside U) (WObs H F)} {s : DSlots V × World U}
    {x : YVars × Outside U} (h : InStepW Γ (m s) (q x)) :
    InStep (fun a s b x => a = b ∧ YHolds Γ s.1 s.2 x.1 x.2) (fun _ _ => False) (m.caught s) (q.caught x) := by
  unfold M.caught
  rcases hq : q x with ⟨r, x'⟩
  rw [hq] at h
  cases r with
  | ok b => obtain ⟨a, s', h1, rfl, h2⟩ := h; simp only [h1, hq]; exact .ok ⟨rfl, h2⟩
  | panic z => obtain ⟨a, s', h1, h2⟩ := h; simp only [h1, hq]; exact .ok ⟨rfl, h2⟩
  | ub => rcases h3 : m s with ⟨r', s'⟩; rw [h3] at h; cases h; simp only [hq, h3]; exact .ub
  | abort => rcases h3 : m s with ⟨r', s'⟩; rw [h3] at h; cases h; simp only [hq, h3]; exact .abort

theorem whole_run (L : RunsUserFns V Γ Φ) (htab : ∀ t, Tab Γ t (vt t)) (ops : List (WOp U V H F)) :
    ∀ {slots : DSlots V} {w : World U} {vars : YVars} {o : Outside U}, YHolds Γ slots w vars o → (∀ c ∈ ops, c.IsTyped Γ) →
    WOp.AllDescribed Γ cfg Φ K ops (vars, o) →
    InStep (fun a s b x => a = b ∧ YHolds Γ s.1 s.2 x.1 x.2) (fun _ _ => False) (WOp.runCaught Γ cfg K vt ops (slots, w))
      (WOp.stepsCaught Γ cfg Φ K ops (vars, o)) := by
  induction ops with
  | nil => intro slots w vars o S _ _; exact .ok ⟨rfl, S⟩
  | cons c ops ih =>
    intro slots w vars o S ht hd
    have hc := whole_caught (whole_step (K := K) (cfg := cfg) L htab S (ht c (List.mem_cons_self ..)) hd.1)
    rcases hq : (c.step Γ cfg Φ K).caught (vars, o) with ⟨r, vars', o'⟩
    rw [hq] at hc
    simp only [WOp.runCaught, WOp.stepsCaught]
    cases r with
    | ok b =>
      obtain ⟨a, ⟨slots', w'⟩, h1, rfl, h2⟩ := hc
      rw [M.bind_ok h1, M.bind_ok hq]
      refine InStep.bind (ih h2 (fun c h => ht c (List.mem_cons_of_mem _ h)) (hd.2 _ _ hq)) (fun a' s' b' x' h' => ?_) (fun _ _ h => h)
      obtain ⟨rfl, H2⟩ := h'
      exact .ok ⟨rfl, H2⟩
    | panic y => exact hc.elim fun _ h => h.elim fun _ h => h.2.elim
    | ub =>
      rcases hm : (c.exec Γ cfg K vt).caught (slots, w) with ⟨r', s'⟩
      rw [hm] at hc
      cases (show r' = .ub from hc)
      rw [M.bind_ub hm, M.bind_ub hq]
      exact .ub
    | abort =>
      rcases hm : (c.exec Γ cfg K vt).caught (slots, w) with ⟨r', s'⟩
      rw [hm] at hc
      cases (show r' = .abort from hc)
      rw [M.bind_abort hm, M.bind_abort hq]
      exact .abort

/-- Every program in which every step is wrapped in `catch_unwind` does what the machine says. -/
theorem C79_program (L : RunsUserFns V Γ Φ) (htab : ∀ t, Tab Γ t (vt t)) (ops : List (WOp U V H F))
    (S : YHolds Γ slots w vars o) (ht : ∀ c ∈ ops, c.IsTyped Γ) (hd : WOp.AllDescribed Γ cfg Φ K ops (vars, o)) :
    EndsAs Γ (WOp.runCaught Γ cfg K vt ops (slots, w)) (WOp.stepsCaught Γ cfg Φ K ops (vars, o)) := by
  have h := whole_run (K := K) L htab ops S ht hd
  rcases hs : WOp.stepsCaught Γ cfg Φ K ops (vars, o) with ⟨r, vars', o'⟩
  rw [hs] at h
  cases r with
  | ok b => obtain ⟨a, s, h1, rfl, h2⟩ := h; rw [h1]; exact ⟨rfl, h2⟩
  | panic y => obtain ⟨a, s, h1, h2⟩ := h; exact h2.elim
  | ub => exact h
  | abort => exact h

/-- Safe programs with safe user code are never undefined behaviour, if no box is pushed (C71_ub_iff says when that is). -/
theorem C79_defined (L : RunsUserFns V Γ Φ) (htab : ∀ t, Tab Γ t (vt t)) (US : SafeUser Γ) (P : SafeFns Φ K)
    (ops : List (WOp U V H F)) (S : YHolds Γ slots w vars o) (ht : ∀ c ∈ ops, c.IsTyped Γ)
    (hd : WOp.AllDescribed Γ cfg Φ K ops (vars, o)) (hs : ∀ c ∈ ops, c.Safe) :
    (WOp.runCaught Γ cfg K vt ops (slots, w)).1 ≠ .ub := by
  have h := C79_program (K := K) L htab ops S ht hd
  have hd' : Defined (WOp.stepsCaught Γ cfg Φ K ops) := by
    clear ht S hd h
    induction ops with
    | nil => unfold WOp.stepsCaught; exact Defined.pure _
    | cons c ops ih =>
      refine Defined.bind (fun s => ?_) fun _ => (ih (fun c h => hs c (List.mem_cons_of_mem _ h))).bind fun _ => Defined.pure _
      have h := P.step US (cfg := cfg) c (hs c (List.mem_cons_self ..)) s
      unfold M.caught
      rcases hq : c.step Γ cfg Φ K s with ⟨r, s'⟩
      rw [hq] at h
      cases r with
      | ub => exact absurd rfl h
      | _ => simp only [hq]; intro h; cases h
  have hd'' := hd' (vars, o)
  rcases hq : WOp.stepsCaught Γ cfg Φ K ops (vars, o) with ⟨r, vars', o'⟩
  rw [hq] at h hd''
  intro e
  cases r with
  | ok b => rw [h.1] at e; cases e
  | panic y => obtain ⟨z, hz⟩ := h.1; rw [hz] at e; cases e
  | ub => exact hd'' rfl
  | abort => have h : _ = Res.abort := h; rw [h] at e; cases e

/-! ### Examples -/

namespace Ex

/-- A table with all entries. -/
structure FullTable where
  base : CloneVTable Log
  eqx : EqTableFx Log
  hashx : HashTableFx Log (List Bytes)
  fmtx : FmtTableFx Log Text

instance : HasDrop Log FullTable := ⟨fun v => HasDrop.dropFn v.base⟩
instance : HasClone Log FullTable := ⟨fun v => v.base.clone, fun v => v.base.cloneFrom, fun v => v.base.cloneIntoRaw⟩
instance : HasEqFx Log FullTable := ⟨fun v => HasEqFx.eqFn v.eqx⟩
instance : HasHashFx Log (List Bytes) FullTable := ⟨fun v => HasHashFx.hashFn v.hashx⟩
instance : HasFmtFx Log Text FullTable := ⟨fun v => HasFmtFx.fmtFn v.fmtx⟩
instance : TableLaw FullTable := ⟨fun t v =>
  v.eqx = EqTableFx.build env fns t ∧ v.hashx = HashTableFx.build env fns t ∧ v.fmtx = FmtTableFx.build env fns t⟩

/-- The table of a type. -/
def fullVT (t : TyId) : FullTable :=
  ⟨cloneVT t, EqTableFx.build env fns t, HashTableFx.build env fns t, FmtTableFx.build env fns t⟩

theorem fullTab (t : TyId) : Tab env t (fullVT t) := ⟨rfl, rfl, rfl, rfl, rfl, rfl, rfl⟩

theorem fullRuns : RunsUserFns FullTable env fns where
  eq t v h := by
    show HasEqFx.eqFn v.eqx = _
    rw [h.1]; rfl
  hash t v h := by
    show HasHashFx.hashFn v.hashx = _
    rw [h.2.1]; rfl
  fmt t v h := by
    show HasFmtFx.fmtFn v.fmtx = _
    rw [h.2.2]; rfl

theorem full_start : YHolds env (fun _ => none : DSlots FullTable) ⟨emptyHeap, []⟩ (fun _ => none) ⟨0, []⟩ :=
  C71_start _ _ (fun _ _ => rfl) (fun _ => rfl)

/-- Create, fill, compare, hash, print, work on a view, convert the table, compare with a panic, and lose a container to a type check;
at the end a program on a view panics. -/
def wholeProg : List (WOp Log FullTable (List Bytes) Text) :=
  [.op (.fromVec 0 7 [g1, badDrop]), .typeFrom 0 1, .op (.pushAs 1 7 g1), .view 0 dynView2, .eq 0 1, .hash 0 [], .fmt 1 ⟨[], false, []⟩,
    .upcast 1 id, .op (.newBox 2 7 badClone), .eqAt 2 0 0 1, .check 1 10, .eq 0 1, .view 0 (.assign 2 7 g1), .op (.drop 0)]

/-- What steps show, with the text that was written. -/
inductive Shown where
  | obs (o : Obs)
  | reads (rs : List Read)
  | bool (b : Bool)
  | hashed (h : List Bytes)
  | text (s : List Char)
deriving DecidableEq
def shown : WObs (List Bytes) Text → Shown
  | .obs o => .obs o
  | .reads rs => .reads rs
  | .bool b => .bool b
  | .hashed h => .hashed h
  | .text f _ => .text f.out

theorem wholeProg_run : (seen (WOp.stepsCaught env ⟨true⟩ fns Text.formatting wholeProg ((fun _ => none), ⟨0, []⟩))).map
    (fun r => (r.1.map (·.map shown), r.2)) =
    some ([some (.obs .done), some (.obs .done), some (.obs .done), some (.reads [(7, g1), (7, g2)]), some (.bool true),
      some (.hashed [g1, g2]), some (.text "[x\ny]".toList), some (.obs .done), some (.obs .done), none,
      some (.obs .refused), some (.obs .absent), none, some (.obs .done)], 0,
      [.cloned 7 g2, .dropped 7 badDrop, .cloned 7 g1, .dropped 7 g1, .cloned 7 g1, .cloned 7 g1, .cloned 7 g1, .cloned 7 badClone,
        .dropped 7 g1, .dropped 7 g1, .dropped 7 g2]) := by
  decide +kernel

theorem wholeProg_typed : ∀ c ∈ wholeProg, c.IsTyped env := by
  simp only [wholeProg, List.forall_mem_cons]
  exact ⟨⟨by decide, by decide⟩, trivial, (by decide : g1.length = size 7), dynView2_sized, trivial, trivial, trivial, (fun _ _ h => h),
    (by decide : badClone.length = size 7), trivial, trivial, trivial, (by decide : g1.length = size 7), trivial, (fun _ h => by cases h)⟩

theorem next_described {c : WOp Log FullTable (List Bytes) Text} {ops : List (WOp Log FullTable (List Bytes) Text)} {s : YVars × Outside Log}
    (h1 : c.Described env ⟨true⟩ s.1)
    (h2 : WOp.AllDescribed env ⟨true⟩ fns Text.formatting ops ((c.step env ⟨true⟩ fns Text.formatting).caught s).2) :
    WOp.AllDescribed env ⟨true⟩ fns Text.formatting (c :: ops) s :=
  ⟨h1, fun o s' h => by rw [h] at h2; exact h2⟩

theorem wholeProg_described : WOp.AllDescribed env ⟨true⟩ fns Text.formatting wholeProg ((fun _ => none), ⟨0, []⟩) := by
  refine next_described trivial (next_described trivial (next_described trivial ?_))
  refine next_described dynView2_inRange ?_
  refine next_described trivial (next_described trivial (next_described trivial ?_))
  refine next_described trivial (next_described trivial (next_described trivial ?_))
  refine next_described trivial (next_described trivial ?_)
  refine ⟨?_, fun _ _ _ => ⟨trivial, fun _ _ _ => trivial⟩⟩
  show NoWrap ⟨true⟩ ((2 + 1) * env.size 7)
  unfold NoWrap
  decide

example := C79_program (cfg := ⟨true⟩) (vt := fullVT) fullRuns fullTab wholeProg full_start wholeProg_typed wholeProg_described
example := C79_step (cfg := ⟨true⟩) (vt := fullVT) (K := Text.formatting) (c := .typeFrom 0 1) fullRuns fullTab full_start trivial trivial

/-- After one call a container with two elements is there to be hashed and printed. -/
theorem full_after : ∃ slots w, YHolds env (slots : DSlots FullTable) w (Slots.put (fun _ => none) 0 (some (.vec 7 (.vec 7 [g1, g2] 2)))) ⟨0, []⟩ := by
  have E := C79_step (cfg := ⟨true⟩) (vt := fullVT) (K := Text.formatting) (c := .op (.fromVec 0 7 [g1, g2])) fullRuns fullTab full_start
    (show (DOp.fromVec 0 7 [g1, g2]).IsTyped env from ⟨by decide, by decide⟩) trivial
  exact ⟨_, _, E.2⟩

example {slots : DSlots FullTable} {w : World Log}
    (S : YHolds env slots w (Slots.put (fun _ => none) 0 (some (.vec 7 (.vec 7 [g1, g2] 2)))) ⟨0, []⟩) :=
  C79_hash (cfg := ⟨true⟩) (vt := fullVT) (K := Text.formatting) (k := 0) (h := [g1]) (h' := [g1, g1, g2]) fullRuns fullTab S rfl rfl
example {slots : DSlots FullTable} {w : World Log}
    (S : YHolds env slots w (Slots.put (fun _ => none) 0 (some (.vec 7 (.vec 7 [g1, g2] 2)))) ⟨0, []⟩) :=
  C79_fmt (cfg := ⟨true⟩) (vt := fullVT) (K := Text.formatting) (k := 0) (f := ⟨[], false, []⟩) fullRuns fullTab S rfl rfl

/-- A box is leaked by the destructor that runs in it; a container loses its content, and without overflow checks views of it
give elements of type `()`. -/
def lostProg : List (WOp Log FullTable (List Bytes) Text) :=
  [.op (.fromVec 0 7 [badDrop, g2]), .view 0 (.assign 0 7 g1), .op (.newBox 1 7 badClone), .op (.pushCloned 0 1 0),
    .view 0 (.sub (.range 3 5) (.look (.get 4))), .view 0 (.assign 0 7 badDrop), .view 0 (.look .iter), .op (.drop 1)]

theorem lostProg_run : (seen (WOp.stepsCaught env ⟨false⟩ fns Text.formatting lostProg ((fun _ => none), ⟨0, []⟩))).map
    (fun r => (r.1.map (·.map shown), r.2)) =
    some ([some (.obs .done), none, some (.obs .done), none, some (.reads [(env.unitTy, [])]), none, none, some (.obs .done)], 2,
      [.dropped 7 badClone]) := by
  decide +kernel

theorem lostProg_described : WOp.AllDescribed env ⟨false⟩ fns Text.formatting lostProg ((fun _ => none), ⟨0, []⟩) := by
  refine ⟨trivial, fun _ _ h1 => ?_⟩
  cases h1
  refine ⟨?_, fun _ _ h2 => ?_⟩
  · show NoWrap ⟨false⟩ ((0 + 1) * env.size 7)
    unfold NoWrap; decide
  cases h2
  refine ⟨trivial, fun _ _ h3 => ?_⟩
  cases h3
  refine ⟨trivial, fun _ _ h4 => ?_⟩
  cases h4
  refine ⟨trivial, fun _ _ h5 => ?_⟩
  cases h5
  refine ⟨trivial, fun _ _ h6 => ?_⟩
  cases h6
  exact ⟨trivial, fun _ _ h7 => ⟨trivial, fun _ _ h8 => trivial⟩⟩

example := C79_program (cfg := ⟨false⟩) (vt := fullVT) fullRuns fullTab lostProg full_start
  (by
    simp only [lostProg, List.forall_mem_cons]
    exact ⟨⟨by decide, by decide⟩, (by decide : g1.length = size 7), (by decide : badClone.length = size 7), trivial, trivial,
      (by decide : badDrop.length = size 7), trivial, trivial, (fun _ h => by cases h)⟩) lostProg_described

/-- User code that is defined on all inputs. -/
theorem fns_safe : SafeFns fns Text.formatting where
  eq t a b u := by
    show (if a = badClone then _ else _ : Res Bool × Log).1 ≠ _
    split <;> (intro h; cases h)
  hash t a s := by
    show (if a = badClone then _ else _ : Res Unit × (List Bytes × Log)).1 ≠ _
    split <;> (intro h; cases h)
  fmt t a s := by intro h; cases h
  write x f := by intro h; cases h

/-- The tables for `safeEnv`. -/
def safeVT (t : TyId) : FullTable := { fullVT t with base := CloneVTable.build safeEnv t }
theorem safeTab (t : TyId) : Tab safeEnv t (safeVT t) := ⟨rfl, rfl, rfl, rfl, rfl, rfl, rfl⟩
theorem safeRuns : RunsUserFns FullTable safeEnv fns := ⟨fullRuns.eq, fullRuns.hash, fullRuns.fmt⟩

example := C79_defined (cfg := ⟨true⟩) (vt := safeVT) safeRuns safeTab safeEnv_safe fns_safe
  [.op (.fromVec 0 7 [g1, badDrop]), .eq 0 0, .fmt 0 ⟨[], true, []⟩, .op (.clear 0), .check 0 10]
  (C71_start emptyHeap [] (fun _ _ => rfl) (fun _ => rfl))
  (by simp only [List.forall_mem_cons]; exact ⟨⟨by decide, by decide⟩, trivial, trivial, trivial, trivial, (fun _ h => by cases h)⟩)
  ⟨trivial, fun _ _ _ => ⟨trivial, fun _ _ _ => ⟨trivial, fun _ _ _ => ⟨trivial, fun _ _ _ => ⟨trivial, fun _ _ _ => trivial⟩⟩⟩⟩⟩
  (by
    simp only [List.forall_mem_cons]
    exact ⟨(fun _ _ h => by cases h), trivial, trivial, (fun _ _ h => by cases h), trivial, (fun _ h => by cases h)⟩)

end Ex
end Dync
