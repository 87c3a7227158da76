import Verif.ParallelLemmas3
import Verif.HeldDynLemmas
import Verif.Props.HeldViews
/-!
# C87: threads on parts of containers do not race

Threads that work on mutable views of their own, and read shared views, do not race and do under every interleaving of single
accesses what each of them does alone with lists.
-/
namespace Dync
variable {U V : Type} {Γ : TyEnv U} {cfg : Cfg} {n : Nat} {m : Mem} {ρ : Nat → Option (PtrView V)} {σ : Lists} {owner : Nat → Option Nat}
  {P : Nat → TProg} {s : Nat → Steps (List (Option (List Read)))}

open Steps

theorem given_some {α : Type} {ρ : Nat → Option α} {who : Option Nat} {k : Nat} {v : α} (h : given owner who ρ k = some v) :
    owner k = who ∧ ρ k = some v := by
  unfold given at h
  split at h
  · exact ⟨‹_›, h⟩
  · cases h

/-- A view covers the byte, and `who` has the view. -/
def HeldBy (ρ : Nat → Option (PtrView V)) (owner : Nat → Option Nat) (who : Option Nat) (x : Nat) : Prop :=
  ∃ k v, given owner who ρ k = some v ∧ v.Covers x

theorem held_apart (H : HeldAt Γ n m ρ σ) {a b : Option Nat} (h : a ≠ b) (x : Nat) (ha : HeldBy ρ owner a x) : ¬ HeldBy ρ owner b x := by
  rintro ⟨k, v, hk, hv⟩
  obtain ⟨j, w, hj, hw⟩ := ha
  obtain ⟨e1, hk⟩ := given_some hk
  obtain ⟨e2, hj⟩ := given_some hj
  exact H.apart j k w v (fun e => h (by rw [← e1, ← e2, e])) hj hk x ⟨hw, hv⟩

/-- What each thread does alone. -/
theorem solo_sim (H : HeldAt Γ n m ρ σ) {i : Nat}
    (F : (P i).Fits Γ cfg n (shape (given owner (some i) σ)) (shape (given owner none σ))) :
    ThreadSim Γ n m (given owner (some i) ρ) (given owner none ρ) (given owner (some i) σ)
      ((P i).runAt Γ cfg n (given owner (some i) ρ) (given owner none ρ) m) ((P i).plain n (given owner none σ) (given owner (some i) σ)) :=
  (P i).sim (H.given owner _) (H.given owner _)
    (fun j k v w h1 h2 x hx => held_apart H (a := some i) (b := none) (by simp) x ⟨j, v, h1, hx.1⟩ ⟨k, w, h2, hx.2⟩) F

theorem together (H : HeldAt Γ n m ρ σ)
    (F : ∀ i, (P i).Fits Γ cfg n (shape (given owner (some i) σ)) (shape (given owner none σ)))
    (hs : ∀ i, (s i).CarriesOut ((P i).runAt Γ cfg n (given owner (some i) ρ) (given owner none ρ))) (sched : List Nat) :
    Together (fun i => HeldBy ρ owner (some i)) (fun _ => HeldBy ρ owner none) s m.byte (fun j => 0 + sched.count j)
      (interleave sched (s, m.byte)) := by
  refine Together.run (fun i j a hij h => ?_) sched (Together.start fun i x hx => ?_)
  · rintro (h' | h')
    · exact held_apart H (fun e => hij (Option.some.inj e)) a h h'
    · exact held_apart H (by simp) a h h'
  · obtain ⟨-, l, el, hl⟩ := hs i m
    obtain ⟨l', el', hl'⟩ := (solo_sim H (F i)).log
    rw [el] at el'
    cases List.append_cancel_left el'
    obtain ⟨a, ha, h1, h2, h3⟩ := hl x hx
    rcases hl' a ha with ⟨k, v, hk, hw⟩ | ⟨hf, k, v, hk, hw⟩
    · exact .inl ⟨k, v, hk, Nat.le_trans hw.lower h1, Nat.lt_of_lt_of_le h2 hw.upper⟩
    · refine .inr ⟨⟨k, v, hk, Nat.le_trans hw.lower h1, Nat.lt_of_lt_of_le h2 hw.upper⟩, ?_⟩
      cases e : x.write with
      | false => rfl
      | true => rw [h3 e] at hf; cases hf

/-- At no time are two threads about to access the same byte, one of them to write it. -/
theorem C87_no_race (H : HeldAt Γ n m ρ σ)
    (F : ∀ i, (P i).Fits Γ cfg n (shape (given owner (some i) σ)) (shape (given owner none σ)))
    (hs : ∀ i, (s i).CarriesOut ((P i).runAt Γ cfg n (given owner (some i) ρ) (given owner none ρ))) (sched : List Nat) (i j : Nat)
    (hij : i ≠ j) : ¬ Race ((interleave sched (s, m.byte)).1 i) ((interleave sched (s, m.byte)).1 j) := by
  refine (together H F hs sched).noRace (fun i j a hij h => ?_) hij
  rintro (h' | h')
  · exact held_apart H (fun e => hij (Option.some.inj e)) a h h'
  · exact held_apart H (by simp) a h h'

/-- A thread that has ended has seen what it would have seen alone with lists, and its views have the elements of these lists,
whatever the other threads have done so far. -/
theorem C87_result (H : HeldAt Γ n m ρ σ)
    (F : ∀ i, (P i).Fits Γ cfg n (shape (given owner (some i) σ)) (shape (given owner none σ)))
    (hs : ∀ i, (s i).CarriesOut ((P i).runAt Γ cfg n (given owner (some i) ρ) (given owner none ρ))) (sched : List Nat) (i : Nat)
    {r : Res (List (Option (List Read)))} (hd : (interleave sched (s, m.byte)).1 i = .done r) :
    r.Agrees ((P i).plain n (given owner none σ) (given owner (some i) σ)).1 ∧
    HeldAt Γ n ⟨(interleave sched (s, m.byte)).2, []⟩ (given owner (some i) ρ)
      ((P i).plain n (given owner none σ) (given owner (some i) σ)).2 := by
  obtain ⟨mi, S⟩ := (together H F hs sched).solo i
  have K := solo_sim H (F i)
  have e := S.result
  rw [hd, (hs i m).1] at e
  obtain ⟨e1, e2⟩ := Prod.mk.inj e
  refine ⟨e1 ▸ K.res, K.held.congr fun k v hk x hx => ?_⟩
  rw [← e2]
  exact S.agrees x (.inl ⟨k, v, hk, hx⟩)

/-- Bytes outside of the views that threads own, among them those of the shared views, never change. -/
theorem C87_outside (H : HeldAt Γ n m ρ σ)
    (F : ∀ i, (P i).Fits Γ cfg n (shape (given owner (some i) σ)) (shape (given owner none σ)))
    (hs : ∀ i, (s i).CarriesOut ((P i).runAt Γ cfg n (given owner (some i) ρ) (given owner none ρ))) (sched : List Nat) {x : Nat}
    (hx : ∀ k v i, owner k = some i → ρ k = some v → ¬ v.Covers x) : (interleave sched (s, m.byte)).2 x = m.byte x := by
  refine (together H F hs sched).rest x fun i ⟨k, v, hk, hv⟩ => ?_
  obtain ⟨e, hk⟩ := given_some hk
  exact hx k v i e hk hv

/-- A thread ends after as many turns as it makes accesses alone, whatever the other threads do. -/
theorem C87_ends (H : HeldAt Γ n m ρ σ)
    (F : ∀ i, (P i).Fits Γ cfg n (shape (given owner (some i) σ)) (shape (given owner none σ)))
    (hs : ∀ i, (s i).CarriesOut ((P i).runAt Γ cfg n (given owner (some i) ρ) (given owner none ρ))) (sched : List Nat) (i : Nat)
    (hc : ((s i).touches m.byte).length ≤ sched.count i) : ∃ r, (interleave sched (s, m.byte)).1 i = .done r := by
  obtain ⟨mi, S⟩ := (together H F hs sched).solo i
  have h := S.left
  cases e : (interleave sched (s, m.byte)).1 i with
  | done r => exact ⟨r, rfl⟩
  | load a k => rw [e] at h; simp only [touches, List.length_cons] at h; omega
  | store a b k => rw [e] at h; simp only [touches, List.length_cons] at h; omega

/-- When all threads have ended, all views have the elements of the lists. -/
theorem C87_all (H : HeldAt Γ n m ρ σ)
    (F : ∀ i, (P i).Fits Γ cfg n (shape (given owner (some i) σ)) (shape (given owner none σ)))
    (hs : ∀ i, (s i).CarriesOut ((P i).runAt Γ cfg n (given owner (some i) ρ) (given owner none ρ))) (sched : List Nat)
    (hd : ∀ i, ∃ r, (interleave sched (s, m.byte)).1 i = .done r) :
    HeldAt Γ n ⟨(interleave sched (s, m.byte)).2, []⟩ ρ (afterAll owner σ P n) ∧ shape (afterAll owner σ P n) = shape σ := by
  have key : ∀ k i, owner k = some i → afterAll owner σ P n k = ((P i).plain n (given owner none σ) (given owner (some i) σ)).2 k ∧
      given owner (some i) ρ k = ρ k := by
    intro k i e
    simp only [afterAll, given, e, if_true, and_self]
  have hsh : shape (afterAll owner σ P n) = shape σ := by
    funext k
    cases e : owner k with
    | none => simp only [shape, afterAll, e]
    | some i =>
      have h := congrFun (solo_sim H (F i)).shape k
      rw [shape_given] at h
      simp only [given, e, if_true] at h
      rw [← h]
      simp only [shape, (key k i e).1]
  refine ⟨⟨H.fresh, fun k => ?_, fun k v t es h1 h2 => ?_, H.apart⟩, hsh⟩
  · have := congrFun hsh k
    simp only [shape] at this
    rw [H.none_iff k]
    cases h1 : σ k <;> cases h2 : afterAll owner σ P n k <;> rw [h1, h2] at this <;> simp at this ⊢
  · cases e : owner k with
    | none =>
      have h2 : σ k = some (t, es) := by simpa only [afterAll, e] using h2
      have e' : v.contents ⟨(interleave sched (s, m.byte)).2, []⟩ = v.contents m := by
        unfold PtrView.contents
        rw [Mem.read_congr fun x h3 h4 => C87_outside H F hs sched (x := x) fun j w i hj hw hc =>
          H.apart j k w v (fun e' => by rw [e', e] at hj; cases hj) hw h1 x ⟨hc, h3, h4⟩]
      rw [e']
      exact H.view k v t es h1 h2
    | some i =>
      obtain ⟨r, hr⟩ := hd i
      exact (C87_result H F hs sched i hr).2.view k v t es ((key k i e).2.trans h1) ((key k i e).1.symm.trans h2)

/-- The order of the accesses does not matter: two schedules that let all threads end leave the same memory and the same results. -/
theorem C87_schedules (H : HeldAt Γ n m ρ σ)
    (F : ∀ i, (P i).Fits Γ cfg n (shape (given owner (some i) σ)) (shape (given owner none σ)))
    (hs : ∀ i, (s i).CarriesOut ((P i).runAt Γ cfg n (given owner (some i) ρ) (given owner none ρ))) (sched sched' : List Nat)
    (hd : ∀ i, ∃ r, (interleave sched (s, m.byte)).1 i = .done r) (hd' : ∀ i, ∃ r, (interleave sched' (s, m.byte)).1 i = .done r) :
    interleave sched (s, m.byte) = interleave sched' (s, m.byte) := by
  have T := together H F hs sched
  have T' := together H F hs sched'
  refine Prod.ext (funext fun i => ?_) (funext fun x => ?_)
  · obtain ⟨r, h⟩ := hd i
    obtain ⟨r', h'⟩ := hd' i
    obtain ⟨_, S⟩ := T.solo i
    obtain ⟨_, S'⟩ := T'.solo i
    have e := S.result.trans S'.result.symm
    rw [h, h'] at e
    rw [h, h', (Prod.mk.inj e).1]
  · by_cases hx : ∃ i, HeldBy ρ owner (some i) x
    · obtain ⟨i, hx⟩ := hx
      obtain ⟨r, h⟩ := hd i
      obtain ⟨r', h'⟩ := hd' i
      obtain ⟨mi, S⟩ := T.solo i
      obtain ⟨mi', S'⟩ := T'.solo i
      have e := S.result.trans S'.result.symm
      rw [h, h'] at e
      have e2 : mi = mi' := (Prod.mk.inj e).2
      rw [S.agrees x (.inl hx), S'.agrees x (.inl hx), e2]
    · have hx' : ∀ i, ¬ HeldBy ρ owner (some i) x := fun i h => hx ⟨i, h⟩
      rw [T.rest x hx', T'.rest x hx']

/-- Every program of a thread can be carried out in single accesses. -/
theorem C87_possible (p : TProg) (ρ sh : Nat → Option (PtrView V)) : ∃ s : Steps _, s.CarriesOut (p.runAt Γ cfg n ρ sh) := p.doable

/-- Fork and join: a view is taken apart, the parts are given to threads, and when all have ended, the view has the elements of the
parts as the threads left them. -/
theorem C87_parts {i : Nat} {v : PtrView V} {t : TyId} {es : List Bytes} (H : HeldAt Γ n m ρ σ) (hv : ρ i = some v) (he : σ i = some (t, es))
    {c : Cut} (hc : c.InRange cfg (Γ.size t)) {pre post : List Bytes} {parts : List (List Bytes)} (e : c.plain es = some (pre, parts, post))
    (F : ∀ j, (P j).Fits Γ cfg (n + parts.length) (shape (given owner (some j) (opened σ n i (parts.map fun es => (t, es)))))
      (shape (given owner none (opened σ n i (parts.map fun es => (t, es)))))) :
    ∃ cs, c.parts cfg v m = (.ok cs, m) ∧ cs.length = parts.length ∧
      ∀ s : Nat → Steps _, (∀ j, (s j).CarriesOut ((P j).runAt Γ cfg (n + parts.length) (given owner (some j) (opened ρ n i cs))
        (given owner none (opened ρ n i cs)))) →
      ∀ sched, (∀ j k, j ≠ k → ¬ Race ((interleave sched (s, m.byte)).1 j) ((interleave sched (s, m.byte)).1 k)) ∧
        ((∀ j, ∃ r, (interleave sched (s, m.byte)).1 j = .done r) → HeldAt Γ n ⟨(interleave sched (s, m.byte)).2, []⟩ ρ
          (inParts n i t pre parts post ⟨fun σ' => (.ok (), afterAll owner σ' P (n + parts.length))⟩ σ).2) := by
  obtain ⟨O, S⟩ := H.view i v t es hv he
  rcases c.parts_sim (m := m) O S hc with ⟨h, -⟩ | ⟨pre', parts', post', cs, h, h1, h2, L, hw⟩
  · rw [h] at e; cases e
  rw [h] at e
  cases e
  refine ⟨cs, h1, h2, fun s hs sched => ?_⟩
  have he' : σ i = some (t, pre ++ parts.flatten ++ post) := by rw [he, ← c.plain_join h]
  have hw' : ∀ (c : Nat) (w : PtrView V) (es : List Bytes), cs[c]? = some w → parts[c]? = some es → w.Ok Γ t ∧ w.len = es.length * Γ.size t :=
    fun c w fs a b => ⟨(hw c w fs a b).1, (hw c w fs a b).2.1⟩
  have H' : HeldAt Γ (n + parts.length) m (opened ρ n i cs) (opened σ n i (parts.map fun es => (t, es))) := by
    apply Classical.byContradiction
    intro hn
    exact (keeps_parts (α := Unit) (R := (.ok (), m)) (q := M.panic .index) H hv he' h2 L hw' fun h => absurd h hn).res
  refine ⟨fun j k hjk => C87_no_race H' F hs sched j k hjk, fun hd => ?_⟩
  obtain ⟨K, hsh⟩ := C87_all H' F hs sched hd
  have hR := keeps_parts (α := Unit) (R := (.ok (), ⟨(interleave sched (s, m.byte)).2, m.log⟩))
    (q := ⟨fun σ' => (.ok (), afterAll owner σ' P (n + parts.length))⟩) H hv he' h2 L hw'
    fun _ => ⟨rfl, K.congr fun _ _ _ _ _ => rfl, hsh, fun x hx => C87_outside H' F hs sched fun k w _ _ hk => hx k w hk, [],
      (List.append_nil _).symm, fun _ h => by cases h⟩
  exact hR.held.congr fun _ _ _ _ _ => rfl

/-- Threads on containers: every container is owned by one thread, or read by any number of them. When all threads have ended, the
containers have the elements of the lists. -/
theorem C87_containers {h : Heap} {base : Nat → Nat} {c : Nat → VecCopy V} {b : Nat → Nat} (A : Placed h base) (hn : ∀ k, n ≤ k → σ k = none)
    (hc : StoredAt Γ n m h base c b σ) (hb : ∀ j k, j < n → k < n → j ≠ k → b j ≠ b k)
    (F : ∀ i, (P i).Fits Γ cfg n (shape (given owner (some i) σ)) (shape (given owner none σ)))
    (hs : ∀ i, (s i).CarriesOut ((P i).runAt Γ cfg n (given owner (some i) (viewsOf n c fun k => base (b k)))
      (given owner none (viewsOf n c fun k => base (b k))))) (sched : List Nat) :
    let x := interleave sched (s, m.byte)
    (∀ i j, i ≠ j → ¬ Race (x.1 i) (x.1 j)) ∧
    ((∀ i, ∃ r, x.1 i = .done r) → ∀ k, k < n → ∃ t es, afterAll owner σ P n k = some (t, es) ∧
      Repr Γ h t es { (c k).data with mem := Mem.read ⟨x.2, []⟩ (base (b k)) (c k).data.mem.length }) ∧
    ∀ j l, (∀ k, k < n → b k ≠ j) → h.live j = some l → Mem.read ⟨x.2, []⟩ (base j) l.size = m.read (base j) l.size := by
  intro x
  have H := hc.held A hn hb
  refine ⟨fun i j hij => C87_no_race H F hs sched i j hij, fun hd => ?_, ?_⟩
  · obtain ⟨K, hsh⟩ := C87_all H F hs sched hd
    exact hc.after K hsh
  · exact hc.others A (m' := ⟨x.2, []⟩) fun y hy => C87_outside H F hs sched fun k v _ _ hk => hy k v hk

namespace Ex

/-- Thread 0 owns the first container, the second one is shared. -/
def parOwner (k : Nat) : Option Nat := if k = 0 then some 0 else none

/-- Thread 0 reads the first value of the second container and writes it over the first one of its own, then rotates; the other threads
read the second container. -/
def parProg (i : Nat) : TProg :=
  if i = 0 then .look 1 (.get 0) fun o => .own (.on 0 (.seq (.setAs 2 0 (if o = some [(2, a3)] then a3 else a1)) (.rotateLeft 1))) fun _ => .stop
  else .look 1 .iter fun _ => .stop

theorem parProg_fits (i : Nat) : (parProg i).Fits env ⟨false⟩ 2 (shape (given parOwner (some i) heldLists)) (shape (given parOwner none heldLists)) := by
  unfold parProg
  split
  · subst i
    simp [TProg.Fits, SProg.Reads, HProg.Sized, HProg.InRange, SProg.Sized, SProg.InRange, shape, heldLists, given, parOwner, NoWrap, env, size,
      usizeMax]
    intro o
    split <;> decide
  · simp [TProg.Fits, SProg.Reads, SProg.InRange]

theorem parSteps : ∃ s : Nat → Steps _, ∀ i, (s i).CarriesOut ((parProg i).runAt env ⟨false⟩ 2
    (given parOwner (some i) (viewsOf 2 heldVecs heldBase)) (given parOwner none (viewsOf 2 heldVecs heldBase))) :=
  Classical.axiomOfChoice fun i => C87_possible (parProg i) _ _

theorem parProg_after : afterAll parOwner heldLists parProg 2 0 = some (2, [a2, a3, a3]) ∧
    afterAll parOwner heldLists parProg 2 1 = some (2, [a3, a2]) := by decide +kernel

/-- The values of the first container are given to threads 0, 1 and 2. -/
def cutOwner (k : Nat) : Option Nat := if k < 2 then none else some (k - 2)

/-- Each of the threads 0, 1 and 2 looks for its value in the shared container and changes it. -/
def cutProg (i : Nat) : TProg :=
  .look 1 .iter fun o => .own (.on (i + 2) (if o = some [(2, a3), (2, a2)] then .setAs 2 0 (if i = 1 then a1 else a3) else .skip)) fun _ => .stop

theorem cutProg_fits (i : Nat) : (cutProg i).Fits env ⟨false⟩ (2 + 3)
    (shape (given cutOwner (some i) (opened heldLists 2 0 ([[a1], [a2], [a3]].map fun es => (2, es)))))
    (shape (given cutOwner none (opened heldLists 2 0 ([[a1], [a2], [a3]].map fun es => (2, es))))) := by
  simp only [cutProg, TProg.Fits, HProg.Sized, HProg.InRange]
  refine ⟨trivial, fun _ _ _ => trivial, fun o => ⟨?_, fun _ _ _ => ?_, fun _ => trivial⟩⟩
  · intro t
    split
    · split <;> simp [SProg.Sized, env, size, a1, a3]
    · trivial
  · split <;> trivial

end Ex

open Ex in
example := fun s hs => C87_no_race (s := s) heldAt parProg_fits hs
open Ex in
example := fun s hs => C87_result (s := s) heldAt parProg_fits hs [0, 1, 0, 2, 1, 0] 0 (r := .ok [some [(2, a3)], some []])
open Ex in
example := fun s hs => C87_ends (s := s) heldAt parProg_fits hs
open Ex in
example := fun s hs => C87_schedules (s := s) heldAt parProg_fits hs
open Ex in
/-- The containers `[1, 2, 3]` and `[3, 2]` become `[2, 3, 3]` and `[3, 2]`, however the threads are interleaved. -/
example : ∃ s : Nat → Steps _, (∀ i, (s i).CarriesOut ((parProg i).runAt env ⟨false⟩ 2
      (given parOwner (some i) (viewsOf 2 heldVecs heldBase)) (given parOwner none (viewsOf 2 heldVecs heldBase)))) ∧
    ∀ sched, (∀ i, ∃ r, (interleave sched (s, heldMem.byte)).1 i = .done r) →
      Repr env heldWorld.heap 2 [a2, a3, a3] { (heldVecs 0).data with mem := Mem.read ⟨(interleave sched (s, heldMem.byte)).2, []⟩ 64 12 } ∧
      Repr env heldWorld.heap 2 [a3, a2] { (heldVecs 1).data with mem := Mem.read ⟨(interleave sched (s, heldMem.byte)).2, []⟩ 80 8 } := by
  obtain ⟨s, hs⟩ := parSteps
  refine ⟨s, hs, fun sched hd => ?_⟩
  obtain ⟨-, h, -⟩ := C87_containers (b := id) heldPlaced (by intro k hk; match k with | k + 2 => rfl) heldVecs_ok
    (fun _ _ _ _ h => h) parProg_fits hs sched
  have h := h hd
  obtain ⟨t, es, h1, h2⟩ := h 0 (by decide)
  obtain ⟨u, fs, h3, h4⟩ := h 1 (by decide)
  rw [parProg_after.1] at h1
  rw [parProg_after.2] at h3
  cases h1
  cases h3
  exact ⟨h2, h4⟩
open Ex in
example := C87_all (P := fun _ => .stop) (s := fun _ => .done (.ok [])) (owner := fun k => some k) (cfg := ⟨false⟩) heldAt (fun _ => trivial)
  (fun _ m => ⟨rfl, [], (List.append_nil _).symm, fun _ h => by cases h⟩) [0, 1, 0] fun _ => ⟨_, rfl⟩
open Ex in
/-- Three threads change the values of `[1, 2, 3]` to `[3, 1, 3]`. -/
example := C87_parts (i := 0) (t := 2) (es := [a1, a2, a3]) heldAt (v := (heldVecs 0).ptrView (heldBase 0)) rfl rfl (c := .values) trivial rfl
  cutProg_fits
open Ex in
example : (inParts 2 0 2 [] [[a1], [a2], [a3]] [] ⟨fun σ' => (.ok (), afterAll cutOwner σ' cutProg 5)⟩ heldLists).2 0 = some (2, [a3, a1, a3]) ∧
    (inParts 2 0 2 [] [[a1], [a2], [a3]] [] ⟨fun σ' => (.ok (), afterAll cutOwner σ' cutProg 5)⟩ heldLists).2 1 = some (2, [a3, a2]) := by
  decide +kernel
open Ex in
/-- The bytes of the shared container never change. -/
example := fun s hs sched => C87_outside (s := s) (x := 83) heldAt parProg_fits hs sched
  (by intro k v i e h; cases k with | zero => cases h; show ¬ (64 ≤ 83 ∧ 83 < 76); decide | succ k => cases e)

end Dync
