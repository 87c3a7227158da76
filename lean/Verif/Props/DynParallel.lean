import Verif.DynParallelLemmas2
import Verif.Props.Parallel
import Verif.Props.HeldDyn
/-!
# C90: threads on parts of containers of non-`Copy` elements do not race

Threads that work on mutable views of their own, and read and clone from shared views, do not race, and do under every interleaving of
single accesses what each of them does alone with lists. Destructors and `Clone` run in the threads and may panic.
-/
namespace Dync
variable {U V : Type} [HasDrop U V] [HasClone U V] {Γ : TyEnv U} {cfg : Cfg} {n : Nat} {m : Mem} {ρ : Nat → Option (PtrView V)} {σ : Lists}
  {owner : Nat → Option Nat} {P : Nat → DTProg U} {w : Nat → World U} {vt : TyId → V}
  {s : Nat → Steps (Res (List (Option (List Read))) × World U)}

open Steps

/-- The threads can start: the views `ρ` do not overlap and have the elements `σ`, the heaps are well-formed, and the programs are ones
for C86. -/
structure Ready (Γ : TyEnv U) (cfg : Cfg) (vt : TyId → V) (n : Nat) (m : Mem) (ρ : Nat → Option (PtrView V)) (σ : Lists)
    (owner : Nat → Option Nat) (P : Nat → DTProg U) (w : Nat → World U) : Prop where
  drops : ∀ t, LawfulDrop Γ t (vt t)
  held : HeldAt Γ n m ρ σ
  tables : Tabled (U := U) Γ ρ σ
  heaps : ∀ i, (w i).heap.WF
  fits : ∀ i, (P i).Fits Γ cfg n (shape (given owner (some i) σ)) (shape (given owner none σ))

/-- What thread `i` does, starting with user code and the allocator in the state `w i`. -/
def threadOf (Γ : TyEnv U) (cfg : Cfg) (vt : TyId → V) (n : Nat) (ρ : Nat → Option (PtrView V)) (owner : Nat → Option Nat)
    (P : Nat → DTProg U) (w : Nat → World U) (i : Nat) : M Mem (Res (List (Option (List Read))) × World U) :=
  ((P i).runAt Γ cfg vt n (given owner (some i) ρ) (given owner none ρ)).inWorld (w i)

/-- What each thread does alone. -/
theorem Ready.solo (R : Ready Γ cfg vt n m ρ σ owner P w) (i : Nat) :
    DTSim Γ n m (w i) 0 (given owner (some i) ρ) (given owner none ρ) (given owner (some i) σ)
      ((P i).runAt Γ cfg vt n (given owner (some i) ρ) (given owner none ρ) (m, w i))
      (soloPlain Γ owner σ P n (fun i => (w i).user) i) := by
  refine (P i).sim R.drops (R.held.given owner _) (fun k v t es h1 h2 => ?_) (R.held.given owner _) (R.heaps i)
    (fun j k v w h1 h2 x hx => held_apart R.held (a := some i) (b := none) (by simp) x ⟨j, v, h1, hx.1⟩ ⟨k, w, h2, hx.2⟩) (R.fits i)
  exact R.tables k v t es (given_some h1).2 (given_some h2).2

theorem Ready.together (R : Ready Γ cfg vt n m ρ σ owner P w) (hs : ∀ i, (s i).CarriesOut (threadOf Γ cfg vt n ρ owner P w i)) (sched : List Nat) :
    Together (fun i => HeldBy ρ owner (some i)) (fun _ => HeldBy ρ owner none) s m.byte (fun j => 0 + sched.count j)
      (interleave sched (s, m.byte)) := by
  refine Together.run (fun i j a hij h => ?_) sched (Together.start fun i x hx => ?_)
  · rintro (h' | h')
    · exact held_apart R.held (fun e => hij (Option.some.inj e)) a h h'
    · exact held_apart R.held (by simp) a h h'
  · obtain ⟨-, l, el, hl⟩ := hs i m
    obtain ⟨l', el', hl'⟩ := (R.solo i).mem.log
    rw [show (threadOf Γ cfg vt n ρ owner P w i m).2.log = _ from el'] at el
    cases List.append_cancel_left el
    obtain ⟨a, ha, h1, h2, h3⟩ := hl x hx
    rcases hl' a ha with ⟨k, v, hk, hw⟩ | ⟨hf, k, v, hk, hw⟩
    · exact .inl ⟨k, v, hk, Nat.le_trans hw.lower h1, Nat.lt_of_lt_of_le h2 hw.upper⟩
    · refine .inr ⟨⟨k, v, hk, Nat.le_trans hw.lower h1, Nat.lt_of_lt_of_le h2 hw.upper⟩, ?_⟩
      cases e : x.write with
      | false => rfl
      | true => rw [h3 e] at hf; cases hf

/-- At no time are two threads about to access the same byte, one of them to write it. -/
theorem C90_no_race (R : Ready Γ cfg vt n m ρ σ owner P w) (hs : ∀ i, (s i).CarriesOut (threadOf Γ cfg vt n ρ owner P w i))
    (sched : List Nat) (i j : Nat) (hij : i ≠ j) : ¬ Race ((interleave sched (s, m.byte)).1 i) ((interleave sched (s, m.byte)).1 j) := by
  refine (R.together hs sched).noRace (fun i j a hij h => ?_) hij
  rintro (h' | h')
  · exact held_apart R.held (fun e => hij (Option.some.inj e)) a h h'
  · exact held_apart R.held (by simp) a h h'

/-- A thread that has ended has seen what it would have seen alone with lists, or ended like it; destructors and clones ran in this
thread in the same order, it has leaked as many blocks, and its views have the elements of these lists, whatever the other threads have
done so far. -/
theorem C90_result (R : Ready Γ cfg vt n m ρ σ owner P w) (hs : ∀ i, (s i).CarriesOut (threadOf Γ cfg vt n ρ owner P w i))
    (sched : List Nat) (i : Nat) {r : Res (Res (List (Option (List Read))) × World U)}
    (hd : (interleave sched (s, m.byte)).1 i = .done r) :
    ∃ o w', r = .ok (o, w') ∧ o.Alike (soloPlain Γ owner σ P n (fun i => (w i).user) i).1 ∧
      w'.user = (soloPlain Γ owner σ P n (fun i => (w i).user) i).2.2.user ∧
      LeaksBlocks (w i).heap w'.heap 0 (soloPlain Γ owner σ P n (fun i => (w i).user) i).2.2.leaked ∧
      HeldAt Γ n ⟨(interleave sched (s, m.byte)).2, []⟩ (given owner (some i) ρ)
        (soloPlain Γ owner σ P n (fun i => (w i).user) i).2.1 := by
  obtain ⟨mi, S⟩ := (R.together hs sched).solo i
  have K := R.solo i
  have e := S.result
  rw [hd, (hs i m).1] at e
  obtain ⟨e1, e2⟩ := Prod.mk.inj e
  refine ⟨_, _, e1, K.res, K.user, K.heap, K.mem.held.congr fun k v hk x hx => ?_⟩
  have e3 : mi x = ((P i).runAt Γ cfg vt n (given owner (some i) ρ) (given owner none ρ) (m, w i)).2.1.byte x := congrFun e2 x
  show (interleave sched (s, m.byte)).2 x = _
  rw [S.agrees x (.inl ⟨k, v, hk, hx⟩), e3]

/-- Bytes outside of the views that threads own, among them those of the shared views, never change. -/
theorem C90_outside (R : Ready Γ cfg vt n m ρ σ owner P w) (hs : ∀ i, (s i).CarriesOut (threadOf Γ cfg vt n ρ owner P w i))
    (sched : List Nat) {x : Nat} (hx : ∀ k v i, owner k = some i → ρ k = some v → ¬ v.Covers x) :
    (interleave sched (s, m.byte)).2 x = m.byte x := by
  refine (R.together hs sched).rest x fun i ⟨k, v, hk, hv⟩ => ?_
  obtain ⟨e, hk⟩ := given_some hk
  exact hx k v i e hk hv

/-- A thread ends after as many turns as it makes accesses alone, whatever the other threads do. -/
theorem C90_ends (R : Ready Γ cfg vt n m ρ σ owner P w) (hs : ∀ i, (s i).CarriesOut (threadOf Γ cfg vt n ρ owner P w i))
    (sched : List Nat) (i : Nat) (hc : ((s i).touches m.byte).length ≤ sched.count i) : ∃ r, (interleave sched (s, m.byte)).1 i = .done r := by
  obtain ⟨mi, S⟩ := (R.together hs sched).solo i
  have h := S.left
  cases e : (interleave sched (s, m.byte)).1 i with
  | done r => exact ⟨r, rfl⟩
  | load a k => rw [e] at h; simp only [touches, List.length_cons] at h; omega
  | store a b k => rw [e] at h; simp only [touches, List.length_cons] at h; omega

/-- When all threads have ended, all views have the elements of the lists. -/
theorem C90_all (R : Ready Γ cfg vt n m ρ σ owner P w) (hs : ∀ i, (s i).CarriesOut (threadOf Γ cfg vt n ρ owner P w i))
    (sched : List Nat) (hd : ∀ i, ∃ r, (interleave sched (s, m.byte)).1 i = .done r) :
    HeldAt Γ n ⟨(interleave sched (s, m.byte)).2, []⟩ ρ (dynAfterAll Γ owner σ P n fun i => (w i).user) ∧
      shape (dynAfterAll Γ owner σ P n fun i => (w i).user) = shape σ := by
  have H := R.held
  have key : ∀ k i, owner k = some i →
      dynAfterAll Γ owner σ P n (fun i => (w i).user) k = (soloPlain Γ owner σ P n (fun i => (w i).user) i).2.1 k ∧
      given owner (some i) ρ k = ρ k := by
    intro k i e
    simp only [dynAfterAll, given, e, if_true, and_self]
  have hsh : shape (dynAfterAll Γ owner σ P n fun i => (w i).user) = shape σ := by
    funext k
    cases e : owner k with
    | none => simp only [shape, dynAfterAll, e]
    | some i =>
      have h := congrFun (R.solo i).mem.shape k
      rw [shape_given] at h
      simp only [given, e, if_true] at h
      rw [← h]
      simp only [shape, (key k i e).1]
  refine ⟨⟨H.fresh, fun k => ?_, fun k v t es h1 h2 => ?_, H.apart⟩, hsh⟩
  · have := congrFun hsh k
    simp only [shape] at this
    rw [H.none_iff k]
    cases h1 : σ k <;> cases h2 : dynAfterAll Γ owner σ P n (fun i => (w i).user) k <;> rw [h1, h2] at this <;> simp at this ⊢
  · cases e : owner k with
    | none =>
      have h2 : σ k = some (t, es) := by simpa only [dynAfterAll, e] using h2
      have e' : v.contents ⟨(interleave sched (s, m.byte)).2, []⟩ = v.contents m := by
        unfold PtrView.contents
        rw [Mem.read_congr fun x h3 h4 => C90_outside R hs sched (x := x) fun j w i hj hw hc =>
          H.apart j k w v (fun e' => by rw [e', e] at hj; cases hj) hw h1 x ⟨hc, h3, h4⟩]
      rw [e']
      exact H.view k v t es h1 h2
    | some i =>
      obtain ⟨r, hr⟩ := hd i
      obtain ⟨_, _, -, -, -, -, K⟩ := C90_result R hs sched i hr
      exact K.view k v t es ((key k i e).2.trans h1) ((key k i e).1.symm.trans h2)

/-- The order of the accesses does not matter: two schedules that let all threads end leave the same memory, the same results and the
same state of every thread. -/
theorem C90_schedules (R : Ready Γ cfg vt n m ρ σ owner P w) (hs : ∀ i, (s i).CarriesOut (threadOf Γ cfg vt n ρ owner P w i))
    (sched sched' : List Nat) (hd : ∀ i, ∃ r, (interleave sched (s, m.byte)).1 i = .done r)
    (hd' : ∀ i, ∃ r, (interleave sched' (s, m.byte)).1 i = .done r) : interleave sched (s, m.byte) = interleave sched' (s, m.byte) := by
  have T := R.together hs sched
  have T' := R.together hs sched'
  refine Prod.ext (funext fun i => ?_) (funext fun x => ?_)
  · obtain ⟨r, h⟩ := hd i
    obtain ⟨r', h'⟩ := hd' i
    obtain ⟨_, S⟩ := T.solo i
    obtain ⟨_, S'⟩ := T'.solo i
    have e := S.result.trans S'.result.symm
    rw [h, h'] at e
    rw [h, h', (Prod.mk.inj e).1]
  · by_cases hx : ∃ i, HeldBy ρ owner (some i) x
    · obtain ⟨i, hx⟩ := hx
      obtain ⟨r, h⟩ := hd i
      obtain ⟨r', h'⟩ := hd' i
      obtain ⟨mi, S⟩ := T.solo i
      obtain ⟨mi', S'⟩ := T'.solo i
      have e := S.result.trans S'.result.symm
      rw [h, h'] at e
      have e2 : mi = mi' := (Prod.mk.inj e).2
      rw [S.agrees x (.inl hx), S'.agrees x (.inl hx), e2]
    · have hx' : ∀ i, ¬ HeldBy ρ owner (some i) x := fun i h => hx ⟨i, h⟩
      rw [T.rest x hx', T'.rest x hx']

/-- Every program of a thread can be carried out in single accesses. -/
theorem C90_possible (i : Nat) : ∃ s : Steps _, s.CarriesOut (threadOf Γ cfg vt n ρ owner P w i) := (P i).doable (w i)

/-- Fork and join: a view is taken apart, the parts are given to threads, and when all have ended, the view has the elements of the
parts as the threads left them. -/
theorem C90_parts (hdrop : ∀ t, LawfulDrop Γ t (vt t)) {i : Nat} {v : PtrView V} {t : TyId} {es : List Bytes} (H : HeldAt Γ n m ρ σ)
    (T : Tabled (U := U) Γ ρ σ) (hw : ∀ i, (w i).heap.WF) (hv : ρ i = some v) (he : σ i = some (t, es)) {c : Cut} (hc : c.InRange cfg (Γ.size t))
    {pre post : List Bytes} {parts : List (List Bytes)} (e : c.plain es = some (pre, parts, post))
    (F : ∀ j, (P j).Fits Γ cfg (n + parts.length) (shape (given owner (some j) (opened σ n i (parts.map fun es => (t, es)))))
      (shape (given owner none (opened σ n i (parts.map fun es => (t, es)))))) :
    ∃ cs, c.parts cfg v m = (.ok cs, m) ∧ cs.length = parts.length ∧
      ∀ s : Nat → Steps _, (∀ j, (s j).CarriesOut (threadOf Γ cfg vt (n + parts.length) (opened ρ n i cs) owner P w j)) →
      ∀ sched, (∀ j k, j ≠ k → ¬ Race ((interleave sched (s, m.byte)).1 j) ((interleave sched (s, m.byte)).1 k)) ∧
        ((∀ j, ∃ r, (interleave sched (s, m.byte)).1 j = .done r) → HeldAt Γ n ⟨(interleave sched (s, m.byte)).2, []⟩ ρ
          (inParts n i t pre parts post ⟨fun σ' => (.ok (), dynAfterAll Γ owner σ' P (n + parts.length) fun i => (w i).user)⟩ σ).2) := by
  obtain ⟨O, S⟩ := H.view i v t es hv he
  rcases c.parts_sim (m := m) O S hc with ⟨h, -⟩ | ⟨pre', parts', post', cs, h, h1, h2, L, hx⟩
  · rw [h] at e; cases e
  rw [h] at e
  cases e
  refine ⟨cs, h1, h2, fun s hs sched => ?_⟩
  have he' : σ i = some (t, pre ++ parts.flatten ++ post) := by rw [he, ← c.plain_join h]
  have hx' : ∀ (c : Nat) (w : PtrView V) (es : List Bytes), cs[c]? = some w → parts[c]? = some es → w.Ok Γ t ∧ w.len = es.length * Γ.size t :=
    fun c w fs a b => ⟨(hx c w fs a b).1, (hx c w fs a b).2.1⟩
  have H' : HeldAt Γ (n + parts.length) m (opened ρ n i cs) (opened σ n i (parts.map fun es => (t, es))) := by
    apply Classical.byContradiction
    intro hn
    exact (keeps_parts (α := Unit) (R := (.ok (), m)) (q := M.panic .index) H hv he' h2 L hx' fun h => absurd h hn).res
  have hi : i < n := Nat.lt_of_not_le fun h => by rw [H.fresh i h] at hv; cases hv
  have R : Ready Γ cfg vt (n + parts.length) m (opened ρ n i cs) (opened σ n i (parts.map fun es => (t, es))) owner P w :=
    ⟨hdrop, H', T.opened hi hv he fun c w fs a b => (hx c w fs a b).2.2, hw, F⟩
  refine ⟨fun j k hjk => C90_no_race R hs sched j k hjk, fun hd => ?_⟩
  obtain ⟨K, hsh⟩ := C90_all R hs sched hd
  have hR := keeps_parts (α := Unit) (R := (.ok (), ⟨(interleave sched (s, m.byte)).2, m.log⟩))
    (q := ⟨fun σ' => (.ok (), dynAfterAll Γ owner σ' P (n + parts.length) fun i => (w i).user)⟩) H hv he' h2 L hx'
    fun _ => ⟨rfl, K.congr fun _ _ _ _ _ => rfl, hsh, fun x hx => C90_outside R hs sched fun k w _ _ hk => hx k w hk, [],
      (List.append_nil _).symm, fun _ h => by cases h⟩
  exact hR.held.congr fun _ _ _ _ _ => rfl

/-- Threads on containers: every container is owned by one thread, or read and cloned from by any number of them. When all threads have
ended, the containers have the elements of the lists. -/
theorem C90_containers (hdrop : ∀ t, LawfulDrop Γ t (vt t)) {h : Heap} {base : Nat → Nat} {c : Nat → VecDyn V} {b : Nat → Nat} (A : Placed h base)
    (hn : ∀ k, n ≤ k → σ k = none) (hc : StoredAt Γ n m h base c b σ) (hb : ∀ j k, j < n → k < n → j ≠ k → b j ≠ b k)
    (ht : ∀ k, k < n → ∀ t es, σ k = some (t, es) → LawfulClone Γ t (c k).vtable) (hw : ∀ i, (w i).heap.WF)
    (F : ∀ i, (P i).Fits Γ cfg n (shape (given owner (some i) σ)) (shape (given owner none σ)))
    (hs : ∀ i, (s i).CarriesOut (threadOf Γ cfg vt n (viewsOf n c fun k => base (b k)) owner P w i)) (sched : List Nat) :
    let x := interleave sched (s, m.byte)
    (∀ i j, i ≠ j → ¬ Race (x.1 i) (x.1 j)) ∧
    ((∀ i, ∃ r, x.1 i = .done r) → ∀ k, k < n → ∃ t es, dynAfterAll Γ owner σ P n (fun i => (w i).user) k = some (t, es) ∧
      Repr Γ h t es { (c k).data with mem := Mem.read ⟨x.2, []⟩ (base (b k)) (c k).data.mem.length }) ∧
    ∀ j l, (∀ k, k < n → b k ≠ j) → h.live j = some l → Mem.read ⟨x.2, []⟩ (base j) l.size = m.read (base j) l.size := by
  intro x
  have T : Tabled (U := U) Γ (viewsOf n c fun k => base (b k)) σ := by
    intro k v t es hv hk
    by_cases h : k < n
    · simp only [viewsOf, if_pos h, Option.some.injEq] at hv
      subst hv
      exact ht k h t es hk
    · simp only [viewsOf, if_neg h] at hv; cases hv
  have R : Ready Γ cfg vt n m (viewsOf n c fun k => base (b k)) σ owner P w := ⟨hdrop, hc.held A hn hb, T, hw, F⟩
  refine ⟨fun i j hij => C90_no_race R hs sched i j hij, fun hd => ?_, ?_⟩
  · obtain ⟨K, hsh⟩ := C90_all R hs sched hd
    exact hc.after K hsh
  · exact hc.others A (m' := ⟨x.2, []⟩) fun y hy => C90_outside R hs sched fun k v _ _ hk => hy k v hk

namespace Ex

/-- Thread 0 clones the values of the shared container `[badClone, g2]` into its own `[g1, g2]`, the second one first: the clone of the
other one panics. When it has seen the panic, it exchanges its values. The other threads read the shared container. -/
def dparProg (i : Nat) : DTProg Log :=
  if i = 0 then .cloneValue 0 0 1 1 fun _ => .cloneValue 0 1 1 0 fun o =>
    if o = none then .own (.cut 0 .values (.swapValues 2 0 3 0)) fun _ => .stop else .stop
  else .look 1 .iter fun _ => .stop

/-- Every thread starts with an allocator and user code of its own. -/
def dparWorld (_ : Nat) : World Log := kWorld

theorem dparProg_fits (i : Nat) : (dparProg i).Fits env ⟨false⟩ 2 (shape (given parOwner (some i) kLists)) (shape (given parOwner none kLists)) := by
  unfold dparProg
  split
  · subst i
    simp [DTProg.Fits, shape, kLists, given, parOwner, NoWrap, env, size, usizeMax]
    intro o
    split
    · simp [DTProg.Fits, KProg.Sized, KProg.InRange, Cut.InRange, Cut.sizes, opened, NoWrap, shape, given, parOwner, kLists, size, usizeMax]
    · trivial
  · simp [DTProg.Fits, SProg.Reads, SProg.InRange]

theorem dparReady : Ready env ⟨false⟩ cloneVT 2 kMem (viewsOf 2 kVecs heldBase) kLists parOwner dparProg dparWorld :=
  ⟨cloneVT_drop, kHeld, kTabled, fun _ => kWf, dparProg_fits⟩

theorem dparSteps : ∃ s : Nat → Steps _, ∀ i, (s i).CarriesOut
    (threadOf env ⟨false⟩ cloneVT 2 (viewsOf 2 kVecs heldBase) parOwner dparProg dparWorld i) :=
  Classical.axiomOfChoice fun i => C90_possible i

/-- Thread 0 sees the panic and has dropped the old value `g1` after the first clone. -/
theorem dparProg_after : (soloPlain env parOwner kLists dparProg 2 (fun _ => []) 0).1 = .ok [some [], none, some []] ∧
    (soloPlain env parOwner kLists dparProg 2 (fun _ => []) 0).2.2.user = [.cloned 7 g2, .dropped 7 g1] ∧
    (soloPlain env parOwner kLists dparProg 2 (fun _ => []) 0).2.2.leaked = 0 ∧
    dynAfterAll env parOwner kLists dparProg 2 (fun _ => []) 0 = some (7, [g2, g2]) ∧
    dynAfterAll env parOwner kLists dparProg 2 (fun _ => []) 1 = some (7, [badClone, g2]) := by
  refine ⟨rfl, ?_, ?_, ?_, ?_⟩ <;> decide +kernel

/-- Threads 0 and 1 own a value of the first container each: thread 0 clones the value `g2` of the shared container, thread 1 clones
`badClone`, which panics, and then assigns `g1`. -/
def dcutProg (i : Nat) : DTProg Log :=
  .cloneValue (i + 2) 0 1 (if i = 0 then 1 else 0) fun o =>
    if o = none then .own (.on (i + 2) (.assign 0 7 g1)) fun _ => .stop else .stop

theorem dcutProg_fits (i : Nat) : (dcutProg i).Fits env ⟨false⟩ (2 + 2)
    (shape (given cutOwner (some i) (opened kLists 2 0 ([[g1], [g2]].map fun es => (7, es)))))
    (shape (given cutOwner none (opened kLists 2 0 ([[g1], [g2]].map fun es => (7, es))))) := by
  simp only [dcutProg, DTProg.Fits]
  have hz : ∀ t, (0 + 1) * env.size t ≤ usizeMax := by
    intro t; show (0 + 1) * size t ≤ usizeMax; unfold size; split <;> decide
  refine ⟨fun t m _ => .inr (hz t), fun t m _ => .inr ?_, fun o => ?_⟩
  · split
    · show (1 + 1) * size t ≤ usizeMax; unfold size; split <;> decide
    · exact hz t
  · split
    · simp only [DTProg.Fits, KProg.Sized, KProg.InRange, VProg.Sized, VProg.InRange]
      exact ⟨by decide, fun t m _ => .inr (hz t), fun _ => trivial⟩
    · trivial

end Ex

open Ex in
example := fun s hs => C90_no_race (s := s) dparReady hs
open Ex in
example := fun s hs => C90_result (s := s) dparReady hs [0, 1, 0, 2, 1, 0] 0 (r := .ok (.ok [some [], none, some []], ⟨kWorld.heap, [.cloned 7 g2, .dropped 7 g1]⟩))
open Ex in
example := fun s hs => C90_ends (s := s) dparReady hs
open Ex in
example := fun s hs => C90_schedules (s := s) dparReady hs
open Ex in
/-- The containers `[g1, g2]` and `[badClone, g2]` become `[g2, g2]` and `[badClone, g2]`, however the threads are interleaved. -/
example : ∃ s : Nat → Steps _, (∀ i, (s i).CarriesOut (threadOf env ⟨false⟩ cloneVT 2 (viewsOf 2 kVecs heldBase) parOwner dparProg dparWorld i)) ∧
    ∀ sched, (∀ i, ∃ r, (interleave sched (s, kMem.byte)).1 i = .done r) →
      Repr env kWorld.heap 7 [g2, g2] { (kVecs 0).data with mem := Mem.read ⟨(interleave sched (s, kMem.byte)).2, []⟩ 64 16 } ∧
      Repr env kWorld.heap 7 [badClone, g2] { (kVecs 1).data with mem := Mem.read ⟨(interleave sched (s, kMem.byte)).2, []⟩ 80 16 } := by
  obtain ⟨s, hs⟩ := dparSteps
  refine ⟨s, hs, fun sched hd => ?_⟩
  obtain ⟨-, h, -⟩ := C90_containers (b := id) cloneVT_drop kPlaced kFree kStored (fun _ _ _ _ h => h) kTables (fun _ => kWf) dparProg_fits hs sched
  have h := h hd
  obtain ⟨t, es, h1, h2⟩ := h 0 (by decide)
  obtain ⟨u, fs, h3, h4⟩ := h 1 (by decide)
  obtain ⟨-, -, -, p1, p2⟩ := dparProg_after
  rw [show kWorld.user = [] from rfl] at h1 h3
  rw [p1] at h1
  rw [p2] at h3
  cases h1
  cases h3
  exact ⟨h2, h4⟩
open Ex in
/-- Threads that do nothing. -/
example := C90_all (P := fun _ => .stop) (w := dparWorld) (s := fun _ => .done (.ok (.ok [], kWorld))) (owner := fun k => some k) (cfg := ⟨false⟩)
  ⟨cloneVT_drop, kHeld, kTabled, fun _ => kWf, fun _ => trivial⟩
  (fun _ m => ⟨rfl, [], (List.append_nil _).symm, fun _ h => by cases h⟩) [0, 1, 0] fun _ => ⟨_, rfl⟩
open Ex in
/-- Two threads change the values of `[g1, g2]`; the clone of one of them panics. -/
example := C90_parts (i := 0) (t := 7) (es := [g1, g2]) cloneVT_drop kHeld kTabled (fun i => (kWf : (dparWorld i).heap.WF))
  (v := (kVecs 0).ptrView (heldBase 0)) rfl rfl (c := .values) trivial rfl dcutProg_fits
open Ex in
example : (inParts 2 0 7 [] [[g1], [g2]] [] ⟨fun σ' => (.ok (), dynAfterAll env cutOwner σ' dcutProg 4 fun _ => [])⟩ kLists).2 0 = some (7, [g2, g1]) ∧
    (inParts 2 0 7 [] [[g1], [g2]] [] ⟨fun σ' => (.ok (), dynAfterAll env cutOwner σ' dcutProg 4 fun _ => [])⟩ kLists).2 1 = some (7, [badClone, g2]) := by
  decide +kernel
open Ex in
/-- The bytes of the shared container never change. -/
example := fun s hs sched => C90_outside (s := s) (x := 83) dparReady hs sched
  (by intro k v i e h; cases k with | zero => cases h; show ¬ (64 ≤ 83 ∧ 83 < 80); decide | succ k => cases e)

end Dync
