import Verif.MachineLemmas7
import Verif.Props.Example
import Mathlib.Data.List.Nodup
/-!
# C70 What every program over `VecCopy` containers does, exactly

The machine of `Verif/Machine.lean` is the specification. It computes on lists of elements and capacities.
-/
namespace Dync
variable {U V : Type} {Γ : TyEnv U} {cfg : Cfg} {vt : V} {slots : Slots V} {w : World U} {s : XState} {t : TyId} {es : List Bytes}

/-- Every program that the type checker accepts, in which every call is wrapped in `catch_unwind`, does what
the machine says: if the machine runs into undefined behaviour then so does the program; otherwise the
program sees what the machine sees, its variables hold the containers of the machine with exactly these
elements, types and capacities, the live blocks of memory are theirs and the leaked ones, and no user code
is run. There is no restriction on the sizes, indices and amounts used. -/
theorem C70_program (ops : List Op) (H : s.Holds Γ slots w.heap) (ht : ∀ op ∈ ops, op.Typed Γ) :
    match XState.run Γ cfg ops s with
    | none => (runCaught Γ cfg vt ops (slots, w)).1 = .ub
    | some (os, s') => ∃ slots' h', runCaught Γ cfg vt ops (slots, w) = (.ok os, (slots', { w with heap := h' })) ∧
        s'.Holds Γ slots' h' := run_sim ops H ht

/-- The same for a single call, without `catch_unwind`. -/
theorem C70_step {op : Op} (H : s.Holds Γ slots w.heap) (ht : op.Typed Γ) :
    match op.step Γ cfg s with
    | (.ub, _) => (op.exec Γ cfg vt (slots, w)).1 = .ub
    | (.panic, s') => ∃ y slots' h', op.exec Γ cfg vt (slots, w) = (.panic y, (slots', { w with heap := h' })) ∧ s'.Holds Γ slots' h'
    | (.ok o, s') => ∃ slots' h', op.exec Γ cfg vt (slots, w) = (.ok o, (slots', { w with heap := h' })) ∧ s'.Holds Γ slots' h' := by
  have h := step_sim (cfg := cfg) (vt := vt) H ht
  rcases hst : op.step Γ cfg s with ⟨o, s'⟩
  rw [hst] at h
  rcases h with ⟨h1, h2⟩ | ⟨h1, r, slots', h', h2, h3, h4⟩
  · simp only at h1; subst h1; exact h2
  · simp only at h1 h3
    cases o with
    | ub => exact absurd rfl h1
    | panic => obtain ⟨y, rfl⟩ : ∃ y, r = .panic y := h3; exact ⟨y, slots', h', h2, h4⟩
    | ok o => obtain rfl : r = .ok o := h3; exact ⟨slots', h', h2, h4⟩

/-- Programs start without containers and without memory. -/
theorem C70_start (h : Heap) (wf : h.WF) (he : ∀ i, h.live i = none) : XState.start.Holds Γ (fun _ => none : Slots V) h :=
  ⟨wf, fun _ => ⟨fun _ => rfl, fun _ => rfl⟩, (fun _ _ _ h => by cases h), (fun _ _ _ _ _ h => by cases h),
    [], List.nodup_nil, rfl, (fun _ h => by cases h), (fun _ h => by cases h), fun i l h => by rw [he i] at h; cases h⟩

/-! ### Undefined behaviour -/

/-- The calls of safe functions that are undefined behaviour: looking at or writing to an element with an
index that is (after multiplication modulo `2^64`) out of range, in release builds; and pushing a `()` to a
container whose content was lost. -/
def Undefined (Γ : TyEnv U) (cfg : Cfg) (s : XState) (op : Op) : Prop :=
  (cfg.debug = false ∧ ∃ k i t es cap, (op = .get k i ∨ ∃ t' x, op = .setValue k i t' x) ∧ s.var k = some (.vec t es cap) ∧
    es.length * Γ.size t < i * Γ.size t % 2 ^ 64 + Γ.size t) ∨
  ∃ k n x, op = .push k Γ.unitTy x ∧ s.var k = some (.unit n)

theorem method_ub {k : Nat} {f : XVec → After} (h : (s.method k f).1 = .ub) : ∃ x, s.var k = some x ∧ (f x).out = .ub := by
  unfold XState.method at h
  cases hv : s.var k with
  | none => rw [hv] at h; cases h
  | some x => rw [hv] at h; exact ⟨x, rfl, h⟩

theorem method_some {k : Nat} {f : XVec → After} {x : XVec} (h : s.var k = some x) : (s.method k f).1 = (f x).out := by
  simp only [XState.method, h]

theorem room_out_ub {len cap : Nat} {k : Option Nat} {f : Nat → After} (hf : ∀ c, (f c).out ≠ .ub) :
    (XVec.room Γ t len cap k f).out ≠ .ub := by
  unfold XVec.room
  split
  · simp [After.lost]
  · split
    · exact hf _
    · exact hf _
    · simp [After.lost]
    · simp [After.leaked]

/-- These are the only ones. -/
theorem C70_ub_iff (op : Op) : (op.step Γ cfg s).1 = .ub ↔ Undefined Γ cfg s op := by
  constructor
  · intro h
    cases op with
    | withType k t => simp only [Op.step, XState.create] at h; split at h <;> cases h
    | withCapacity k t n => simp only [Op.step, XState.create] at h; split at h <;> cases h
    | fromSlice k t xs => simp only [Op.step, XState.create] at h; split at h <;> cases h
    | drop k => simp only [Op.step] at h; split at h <;> cases h
    | clone k j => simp only [Op.step] at h; split at h <;> cases h
    | append k j =>
      simp only [Op.step, XState.append] at h
      split at h
      · cases h
      · split at h
        · split at h
          · split at h <;> cases h
          · cases h
        · cases h
        · cases h
        · cases h
    | roundTrip k t =>
      simp only [Op.step] at h
      split at h
      · cases h
      · split at h <;> cases h
      · dsimp only at h; split at h <;> cases h
    | pushAs k t x =>
      obtain ⟨y, hy, h⟩ := method_ub h
      exfalso
      cases y with
      | vec t' es cap =>
        simp only [XVec.pushAs] at h
        split at h
        · split at h <;> cases h
        · cases h
      | unit n =>
        simp only [XVec.pushAs] at h
        split at h
        · split at h <;> cases h
        · cases h
    | push k t x =>
      obtain ⟨y, hy, h⟩ := method_ub h
      cases y with
      | vec t' es cap =>
        exfalso
        simp only [XVec.push] at h
        split at h
        · cases h
        · split at h
          · cases h
          · split at h
            · cases h
            · cases h
            · split at h <;> cases h
            · split at h <;> cases h
      | unit n =>
        simp only [XVec.push] at h
        split at h
        · cases h
        · split at h
          · cases h
          · rename_i ht
            have ht := Decidable.not_not.1 ht
            subst ht
            exact .inr ⟨k, n, x, rfl, hy⟩
    | resize k t n x =>
      obtain ⟨y, hy, h⟩ := method_ub h
      exfalso
      cases y with
      | vec t' es cap =>
        simp only [XVec.resize] at h
        split at h
        · split at h
          · exact room_out_ub (fun c => by split <;> simp [After.lost]) h
          · cases h
        · cases h
      | unit n => simp only [XVec.resize] at h; split at h <;> cases h
    | reserve k n =>
      obtain ⟨y, hy, h⟩ := method_ub h
      exfalso
      cases y with
      | vec t' es cap => exact room_out_ub (fun c => by simp) h
      | unit n => cases h
    | clear k => obtain ⟨y, hy, h⟩ := method_ub h; cases y <;> cases h
    | fill k t x =>
      obtain ⟨y, hy, h⟩ := method_ub h
      cases y <;> simp only [XVec.fill] at h
      · split at h <;> cases h
      · cases h
    | copyFromSlice k t xs =>
      obtain ⟨y, hy, h⟩ := method_ub h
      cases y <;> simp only [XVec.copyFromSlice] at h
      · split at h
        · split at h <;> cases h
        · cases h
      · cases h
    | rotateLeft k n =>
      obtain ⟨y, hy, h⟩ := method_ub h
      cases y <;> simp only [XVec.rotateLeft] at h
      · split at h
        · cases h
        · split at h
          · cases h
          · split at h <;> cases h
      · cases h
    | rotateRight k n =>
      obtain ⟨y, hy, h⟩ := method_ub h
      cases y <;> simp only [XVec.rotateRight] at h
      · split at h
        · cases h
        · split at h
          · cases h
          · split at h <;> cases h
      · cases h
    | swap k i j =>
      obtain ⟨y, hy, h⟩ := method_ub h
      cases y <;> simp only [XVec.swap] at h
      · split at h
        · cases h
        · split at h
          · split at h <;> cases h
          · split at h <;> cases h
      · simp only [After.same] at h; split at h <;> cases h
    | setAs k t i x =>
      obtain ⟨y, hy, h⟩ := method_ub h
      cases y <;> simp only [XVec.setAs] at h
      · split at h
        · split at h <;> cases h
        · cases h
      · simp only [After.same] at h; split at h <;> cases h
    | setValue k i t x =>
      obtain ⟨y, hy, h⟩ := method_ub h
      cases y with
      | vec t' es cap =>
        simp only [XVec.setValue] at h
        split at h
        · split at h
          · split at h <;> cases h
          · cases h
        · rename_i hd
          split at h
          · split at h <;> cases h
          · rename_i hi
            exact .inl ⟨by simpa using hd, k, i, t', es, cap, .inr ⟨t, x, rfl⟩, hy, Nat.lt_of_not_le hi⟩
      | unit n => simp only [XVec.setValue, After.same] at h; split at h <;> cases h
    | mapAll k f => obtain ⟨y, hy, h⟩ := method_ub h; cases y <;> cases h
    | len k => obtain ⟨y, hy, h⟩ := method_ub h; cases y <;> cases h
    | typeId k => obtain ⟨y, hy, h⟩ := method_ub h; cases y <;> cases h
    | getAs k t i =>
      obtain ⟨y, hy, h⟩ := method_ub h
      cases y <;> simp only [XVec.look, After.same] at h <;> split at h <;> cases h
    | get k i =>
      obtain ⟨y, hy, h⟩ := method_ub h
      cases y with
      | vec t' es cap =>
        simp only [XVec.look, After.same] at h
        split at h
        · split at h <;> cases h
        · rename_i hd
          split at h
          · cases h
          · rename_i hi
            exact .inl ⟨by simpa using hd, k, i, t', es, cap, .inl rfl, hy, Nat.lt_of_not_le hi⟩
      | unit n => simp only [XVec.look, After.same] at h; split at h <;> cases h
    | asSlice k t => obtain ⟨y, hy, h⟩ := method_ub h; cases y <;> cases h
    | iter k => obtain ⟨y, hy, h⟩ := method_ub h; cases y <;> cases h
  · rintro (⟨hd, k, i, t, es, cap, rfl | ⟨t', x, rfl⟩, hv, hi⟩ | ⟨k, n, x, rfl, hv⟩)
    · simp only [Op.step, method_some hv, XVec.look, After.same, hd, Bool.false_eq_true, if_false, if_neg (Nat.not_le.2 hi)]
    · simp only [Op.step, method_some hv, XVec.setValue, hd, Bool.false_eq_true, if_false, if_neg (Nat.not_le.2 hi)]
    · simp only [Op.step, method_some hv, XVec.push, Γ.unit_size, ne_eq, not_true, if_false]

/-! ### Memory -/

/-- The variables that hold a container with memory. -/
def XState.owners (s : XState) (ks : List Nat) : List Nat :=
  ks.filter fun k => match s.var k with | some (.vec ..) => true | _ => false

/-- The live blocks of memory are one for every variable with a container that was not lost, and the leaked
ones. `ks` are the variables of the program. -/
theorem C70_blocks (H : s.Holds Γ slots w.heap) (ks : List Nat) (hn : ks.Nodup) (hk : ∀ k, s.var k ≠ none → k ∈ ks) :
    ∃ B : List Nat, B.Nodup ∧ (∀ i, w.heap.live i ≠ none ↔ i ∈ B) ∧ B.length = (s.owners ks).length + s.leaked := by
  obtain ⟨L, hnd, hlen, hlive, hapart, hcover⟩ := H.leaks
  -- the block of a variable
  let blk : Nat → Nat := fun k => match slots k with
    | some c => c.data.ptr.getD 0
    | none => 0
  have hblk : ∀ k ∈ s.owners ks, ∃ c i l, slots k = some c ∧ c.data.ptr = some i ∧ blk k = i ∧ w.heap.live i = some l := by
    intro k hko
    obtain ⟨-, hv⟩ := List.mem_filter.1 hko
    cases hx : s.var k with
    | none => rw [hx] at hv; cases hv
    | some x =>
      cases x with
      | unit n => rw [hx] at hv; cases hv
      | vec t es cap =>
        cases hs : slots k with
        | none => rw [(H.none_iff k).1 hs] at hx; cases hx
        | some c =>
          obtain ⟨i, hp, hl⟩ := (H.is k c _ hs hx).1.block
          exact ⟨c, i, _, rfl, hp, by simp only [blk, hs, hp]; rfl, hl⟩
  refine ⟨(s.owners ks).map blk ++ L, ?_, ?_, by simp [hlen]⟩
  · refine List.nodup_append.2 ⟨?_, hnd, ?_⟩
    · refine (List.nodup_map_iff_inj_on (hn.filter _)).2 ?_
      intro k1 h1 k2 h2 e
      obtain ⟨c1, i1, l1, a1, b1, e1, -⟩ := hblk k1 h1
      obtain ⟨c2, i2, l2, a2, b2, e2, -⟩ := hblk k2 h2
      rw [e1, e2] at e
      subst e
      exact H.inj k1 k2 c1 c2 i1 a1 a2 b1 b2
    · intro i hi j hj e
      subst e
      obtain ⟨k, hko, rfl⟩ := List.mem_map.1 hi
      obtain ⟨c, i', l, a, b, e, -⟩ := hblk k hko
      exact hapart _ hj k c a (by rw [b, e])
  · intro i
    constructor
    · intro hl
      cases hli : w.heap.live i with
      | none => exact absurd hli hl
      | some l =>
        rcases hcover i l hli with h1 | ⟨k, c, hs, hp⟩
        · exact List.mem_append_right _ h1
        · refine List.mem_append_left _ (List.mem_map.2 ⟨k, ?_, by simp only [blk, hs, hp]; rfl⟩)
          cases hx : s.var k with
          | none => rw [(H.none_iff k).2 hx] at hs; cases hs
          | some x =>
            refine List.mem_filter.2 ⟨hk k (by rw [hx]; simp), ?_⟩
            cases x with
            | vec t es cap => rw [hx]
            | unit n =>
              have : IsUnits Γ n c.data := H.is k c _ hs hx
              rw [this.ptr] at hp; cases hp
    · intro hi
      rcases List.mem_append.1 hi with h1 | h1
      · obtain ⟨k, hko, rfl⟩ := List.mem_map.1 h1
        obtain ⟨c, i, l, -, -, e, hl⟩ := hblk k hko
        rw [e, hl]; simp
      · exact hlive i h1

/-- Growing a buffer goes wrong in exactly one case: elements of three bytes with alignment 1, and a
container of capacity one that has to take two of them. -/
theorem C70_torn_iff (u q cap len n : Nat) (hq : 0 < q) (hl : len ≤ cap) (hc : 0 < cap) :
    growth u u q cap len (n * q) = .torn ↔ u = 1 ∧ q = 3 ∧ cap = 1 ∧ len + n = 2 := by
  constructor
  · intro h
    unfold growth at h
    split at h
    · cases h
    split at h
    · cases h
    split at h
    · cases h
    rename_i h1 h2 h3
    have h1 : cap - len < n := Nat.lt_of_mul_lt_mul_right (Nat.lt_of_not_le h1)
    have e : len * q + n * q = (len + n) * q := by rw [Nat.add_mul]
    rw [e] at h3
    have hmul : ∀ m, m * q % q = 0 := fun m => Nat.mul_mod_left _ _
    -- the new capacity can only be the minimal one
    have hle1 : 2 * (cap * q) < leastCap u ∧ (len + n) * q < leastCap u := by
      unfold nextCap at h3
      rcases Nat.lt_or_ge (max (2 * (cap * q)) ((len + n) * q)) (leastCap u) with h4 | h4
      · omega
      · exfalso
        rw [Nat.max_eq_right h4] at h3
        rcases Nat.le_total (2 * (cap * q)) ((len + n) * q) with h5 | h5
        · rw [Nat.max_eq_right h5] at h3; exact h3 (hmul _)
        · rw [Nat.max_eq_left h5, ← Nat.mul_assoc] at h3; exact h3 (hmul _)
    have hmin : nextCap u (cap * q) ((len + n) * q) = leastCap u := by unfold nextCap; omega
    rw [hmin] at h3
    have hge : 2 * q ≤ (len + n) * q := Nat.mul_le_mul_right _ (by omega)
    have hq8 : 2 * q < leastCap u := by omega
    by_cases hu1 : u = 1
    · have hl8 : leastCap u = 8 := by simp [leastCap, hu1]
      rw [hl8] at h3 hq8 hle1
      have : q = 3 := by
        have : q = 1 ∨ q = 2 ∨ q = 3 := by omega
        rcases this with rfl | rfl | rfl
        · simp at h3
        · simp at h3
        · rfl
      subst this
      exact ⟨hu1, rfl, by omega, by omega⟩
    · exfalso
      have hl4 : leastCap u ≤ 4 := by
        unfold leastCap
        rw [if_neg hu1]
        split <;> omega
      have : q = 1 := by omega
      subst this
      simp [Nat.mod_one] at h3
  · rintro ⟨rfl, rfl, rfl, hn⟩
    have h1 : ¬ n * 3 ≤ (1 - len) * 3 := by omega
    have h2 : nextCap 1 (1 * 3) (len * 3 + n * 3) = 8 := by
      have : len * 3 + n * 3 = 6 := by omega
      rw [this]; rfl
    unfold growth
    rw [if_neg h1, h2]
    simp [isizeMax]

/-- The calls that leak a buffer (debug builds). -/
inductive Leaks (Γ : TyEnv U) (s : XState) : Op → Prop
  | reserve (k n : Nat) (t : TyId) (es : List Bytes) : s.var k = some (.vec t es 1) → Γ.size t = 3 → Γ.align t = 1 →
      es.length + n = 2 → Leaks Γ s (.reserve k n)
  | resize (k : Nat) (t : TyId) (es : List Bytes) (x : Bytes) : s.var k = some (.vec t es 1) → Γ.size t = 3 → Γ.align t = 1 →
      Leaks Γ s (.resize k t 2 x)
  | append (k j : Nat) (t : TyId) (es es' : List Bytes) (cap : Nat) : k ≠ j → s.var k = some (.vec t es 1) →
      s.var j = some (.vec t es' cap) → Γ.size t = 3 → Γ.align t = 1 → es.length + es'.length = 2 → Leaks Γ s (.append k j)
  | push (k : Nat) (t : TyId) (x : Bytes) (es : List Bytes) (cap : Nat) : s.var k = some (.vec t es cap) → Γ.size t ≠ Γ.align t →
      growth (Γ.align t) (Γ.align t) (perElem Γ t) cap es.length 1 ≠ .full → Leaks Γ s (.push k t x)

theorem holds_vec {k cap : Nat} (H : s.Holds Γ slots w.heap) (hk : s.var k = some (.vec t es cap)) :
    es.length ≤ cap ∧ 0 < cap ∧ 0 < perElem Γ t ∧ perElem Γ t * Γ.align t = Γ.size t := by
  cases hs : slots k with
  | none => rw [(H.none_iff k).1 hs] at hk; cases hk
  | some c =>
    obtain ⟨R, rfl⟩ := H.is k c _ hs hk
    refine ⟨by rw [← R.len]; exact R.len_le, R.cap_pos, ?_, ?_⟩
    · rw [← R.perElem_eq]; exact R.chunk_pos
    · rw [← R.perElem_eq]; exact R.chunks

theorem method_leaked {k : Nat} {f : XVec → After} :
    (s.method k f).2.leaked = s.leaked + (match s.var k with | some x => if (f x).leak then 1 else 0 | none => 0) := by
  unfold XState.method
  cases s.var k <;> rfl

theorem room_leak {len cap : Nat} {k : Option Nat} {f : Nat → After} (hf : ∀ c, (f c).leak = false) :
    (XVec.room Γ t len cap k f).leak = true ↔ ∃ m, k = some m ∧ growth (Γ.align t) (Γ.align t) (perElem Γ t) cap len m = .torn := by
  unfold XVec.room
  cases k with
  | none => simp [After.lost]
  | some m =>
    simp only [Option.some.injEq, exists_eq_left']
    cases growth (Γ.align t) (Γ.align t) (perElem Γ t) cap len m <;> simp [hf, After.lost, After.leaked]

theorem torn_three {len cap n : Nat} (hl : len ≤ cap) (hc : 0 < cap) (hp : 0 < perElem Γ t)
    (hs : perElem Γ t * Γ.align t = Γ.size t) :
    growth (Γ.align t) (Γ.align t) (perElem Γ t) cap len (n * perElem Γ t) = .torn ↔
      Γ.size t = 3 ∧ Γ.align t = 1 ∧ cap = 1 ∧ len + n = 2 := by
  rw [C70_torn_iff _ _ _ _ _ hp hl hc]
  constructor
  · rintro ⟨h1, h2, h3, h4⟩
    rw [h1, h2] at hs
    exact ⟨hs.symm, h1, h3, h4⟩
  · rintro ⟨h1, h2, h3, h4⟩
    rw [h1, h2, Nat.mul_one] at hs
    exact ⟨h2, hs, h3, h4⟩

theorem times_debug (hd : cfg.debug = true) {a b m : Nat} (h : times cfg a b = some m) : m = a * b := by
  unfold times at h
  split at h
  · exact (Option.some.inj h).symm
  · cases h

theorem times_small {a b : Nat} (h : a * b < 2 ^ 64) : times cfg a b = some (a * b) := by unfold times; rw [if_pos h]

/-- In debug builds these are the only calls that leak memory: a buffer of 3-byte elements grown from one to
two of them, and the untyped `push` of a value whose size is not its alignment. -/
theorem C70_leaks_iff (hd : cfg.debug = true) (H : s.Holds Γ slots w.heap) (op : Op) :
    (op.step Γ cfg s).2.leaked = s.leaked + 1 ∧ Leaks Γ s op ∨ (op.step Γ cfg s).2.leaked = s.leaked ∧ ¬ Leaks Γ s op := by
  have hno : ∀ {P : Prop}, ((op.step Γ cfg s).2.leaked = s.leaked ∧ ¬ Leaks Γ s op) →
      P ∨ (op.step Γ cfg s).2.leaked = s.leaked ∧ ¬ Leaks Γ s op := fun h => .inr h
  -- a method that never leaks
  have hm : ∀ (k : Nat) (f : XVec → After), (∀ x, (f x).leak = false) → op.step Γ cfg s = s.method k f →
      (op.step Γ cfg s).2.leaked = s.leaked := by
    intro k f hf e
    rw [e, method_leaked]
    cases s.var k <;> simp [hf]
  cases op with
  | withType k t => exact hno ⟨by simp only [Op.step, XState.create]; split <;> rfl, fun h => by cases h⟩
  | withCapacity k t n => exact hno ⟨by simp only [Op.step, XState.create]; split <;> rfl, fun h => by cases h⟩
  | fromSlice k t xs => exact hno ⟨by simp only [Op.step, XState.create]; split <;> rfl, fun h => by cases h⟩
  | drop k => exact hno ⟨by simp only [Op.step]; split <;> rfl, fun h => by cases h⟩
  | clone k j => exact hno ⟨by simp only [Op.step]; split <;> rfl, fun h => by cases h⟩
  | roundTrip k t =>
    refine hno ⟨?_, fun h => by cases h⟩
    simp only [Op.step]
    split
    · rfl
    · split <;> rfl
    · rfl
  | clear k => exact hno ⟨hm k _ (fun x => by cases x <;> rfl) rfl, fun h => by cases h⟩
  | mapAll k f => exact hno ⟨hm k _ (fun x => by cases x <;> rfl) rfl, fun h => by cases h⟩
  | len k => exact hno ⟨hm k _ (fun x => by cases x <;> rfl) rfl, fun h => by cases h⟩
  | typeId k => exact hno ⟨hm k _ (fun x => by cases x <;> rfl) rfl, fun h => by cases h⟩
  | getAs k t i => exact hno ⟨hm k _ (fun x => by cases x <;> rfl) rfl, fun h => by cases h⟩
  | get k i => exact hno ⟨hm k _ (fun x => by cases x <;> rfl) rfl, fun h => by cases h⟩
  | asSlice k t => exact hno ⟨hm k _ (fun x => by cases x <;> rfl) rfl, fun h => by cases h⟩
  | iter k => exact hno ⟨hm k _ (fun x => by cases x <;> rfl) rfl, fun h => by cases h⟩
  | fill k t x =>
    refine hno ⟨hm k _ (fun x => ?_) rfl, fun h => by cases h⟩
    cases x <;> simp only [XVec.fill, After.same]
    split <;> rfl
  | copyFromSlice k t xs =>
    refine hno ⟨hm k _ (fun x => ?_) rfl, fun h => by cases h⟩
    cases x <;> simp only [XVec.copyFromSlice, After.same]
    split
    · split <;> rfl
    · rfl
  | rotateLeft k n =>
    refine hno ⟨hm k _ (fun x => ?_) rfl, fun h => by cases h⟩
    cases x <;> simp only [XVec.rotateLeft, After.lost]
    split
    · rfl
    · split
      · rfl
      · split <;> rfl
  | rotateRight k n =>
    refine hno ⟨hm k _ (fun x => ?_) rfl, fun h => by cases h⟩
    cases x <;> simp only [XVec.rotateRight, After.lost]
    split
    · rfl
    · split
      · rfl
      · split <;> rfl
  | swap k i j =>
    refine hno ⟨hm k _ (fun x => ?_) rfl, fun h => by cases h⟩
    cases x <;> simp only [XVec.swap, After.same]
    split
    · rfl
    · split <;> rfl
  | setAs k t i x =>
    refine hno ⟨hm k _ (fun x => ?_) rfl, fun h => by cases h⟩
    cases x <;> simp only [XVec.setAs, After.same]
    split
    · split <;> rfl
    · rfl
  | setValue k i t x =>
    refine hno ⟨hm k _ (fun x => ?_) rfl, fun h => by cases h⟩
    cases x <;> simp only [XVec.setValue, After.same]
    split
    · split
      · split <;> rfl
      · rfl
    · split
      · split <;> rfl
      · rfl
  | pushAs k t x =>
    refine hno ⟨hm k _ (fun x => ?_) rfl, fun h => by cases h⟩
    cases x <;> simp only [XVec.pushAs, After.same, After.lost]
    · split
      · split <;> rfl
      · rfl
    · split
      · split <;> rfl
      · rfl
  | reserve k n =>
    show (s.method k _).2.leaked = _ ∧ _ ∨ (s.method k _).2.leaked = _ ∧ _
    rw [method_leaked]
    cases hv : s.var k with
    | none => exact .inr ⟨rfl, fun h => by cases h with | reserve _ _ t es h1 => rw [hv] at h1; cases h1⟩
    | some x =>
      cases x with
      | unit m => exact .inr ⟨rfl, fun h => by cases h with | reserve _ _ t es h1 => rw [hv] at h1; cases h1⟩
      | vec t es cap =>
        obtain ⟨h1, h2, h3, h4⟩ := holds_vec H hv
        have hiff : (XVec.reserve Γ cfg n (.vec t es cap)).leak = true ↔ Leaks Γ s (.reserve k n) := by
          simp only [XVec.reserve]
          rw [room_leak (fun _ => rfl)]
          constructor
          · rintro ⟨m, hm1, hm2⟩
            rw [times_debug hd hm1, torn_three h1 h2 h3 h4] at hm2
            obtain ⟨g1, g2, rfl, g4⟩ := hm2
            exact .reserve k n t es hv g1 g2 g4
          · intro hl
            cases hl with
            | reserve _ _ t' es' g0 g1 g2 g3 =>
              rw [hv] at g0; cases g0
              refine ⟨n * perElem Γ t, times_small ?_, (torn_three h1 h2 h3 h4).2 ⟨g1, g2, rfl, g3⟩⟩
              rw [g2, Nat.mul_one] at h4
              rw [h4, g1]
              omega
        by_cases hl : (XVec.reserve Γ cfg n (.vec t es cap)).leak = true
        · exact .inl ⟨by simp [hl], hiff.1 hl⟩
        · exact .inr ⟨by simp [hl], fun g => hl (hiff.2 g)⟩
  | resize k t n x =>
    show (s.method k _).2.leaked = _ ∧ _ ∨ (s.method k _).2.leaked = _ ∧ _
    rw [method_leaked]
    cases hv : s.var k with
    | none => exact .inr ⟨rfl, fun h => by cases h with | resize _ _ es _ h1 => rw [hv] at h1; cases h1⟩
    | some y =>
      cases y with
      | unit m =>
        refine .inr ⟨?_, fun h => by cases h with | resize _ _ es _ h1 => rw [hv] at h1; cases h1⟩
        simp only [XVec.resize]
        split <;> rfl
      | vec t' es cap =>
        obtain ⟨h1, h2, h3, h4⟩ := holds_vec H hv
        have hiff : (XVec.resize Γ cfg t n x (.vec t' es cap)).leak = true ↔ Leaks Γ s (.resize k t n x) := by
          simp only [XVec.resize]
          constructor
          · intro hl
            split at hl
            · rename_i ht
              subst ht
              split at hl
              · rename_i hle
                rw [room_leak (fun _ => by split <;> rfl)] at hl
                obtain ⟨m, hm1, hm2⟩ := hl
                rw [times_debug hd hm1, torn_three h1 h2 h3 h4] at hm2
                obtain ⟨g1, g2, rfl, g4⟩ := hm2
                have : n = 2 := by omega
                subst this
                exact .resize k t es x hv g1 g2
              · cases hl
            · cases hl
          · intro hl
            cases hl with
            | resize _ _ es' _ g0 g1 g2 =>
              rw [hv] at g0; cases g0
              rw [if_pos rfl, if_pos (by omega), room_leak (fun _ => by split <;> rfl)]
              refine ⟨(2 - es.length) * perElem Γ t, times_small ?_, (torn_three h1 h2 h3 h4).2 ⟨g1, g2, rfl, by omega⟩⟩
              rw [g2, Nat.mul_one] at h4
              rw [h4, g1]
              omega
        by_cases hl : (XVec.resize Γ cfg t n x (.vec t' es cap)).leak = true
        · exact .inl ⟨by simp [hl], hiff.1 hl⟩
        · exact .inr ⟨by simp [hl], fun g => hl (hiff.2 g)⟩
  | push k t x =>
    show (s.method k _).2.leaked = _ ∧ _ ∨ (s.method k _).2.leaked = _ ∧ _
    rw [method_leaked]
    cases hv : s.var k with
    | none => exact .inr ⟨rfl, fun h => by cases h with | push _ _ _ es cap h1 => rw [hv] at h1; cases h1⟩
    | some y =>
      cases y with
      | unit m =>
        refine .inr ⟨?_, fun h => by cases h with | push _ _ _ es cap h1 => rw [hv] at h1; cases h1⟩
        simp only [XVec.push, After.same]
        split
        · rfl
        · split <;> rfl
      | vec t' es cap =>
        obtain ⟨h1, h2, h3, h4⟩ := holds_vec H hv
        have hsa : perElem Γ t' = 1 ↔ Γ.size t' = Γ.align t' := by
          constructor
          · intro e; rw [e, Nat.one_mul] at h4; exact h4.symm
          · intro e
            have ha := align_pos Γ t'
            unfold perElem
            rw [e, Nat.div_self ha]
        have hiff : (XVec.push Γ t x (.vec t' es cap)).leak = true ↔ Leaks Γ s (.push k t x) := by
          simp only [XVec.push]
          constructor
          · intro hl
            split at hl
            · cases hl
            split at hl
            · cases hl
            rename_i ht
            have ht := Decidable.not_not.1 ht
            subst ht
            have hone : perElem Γ t = 1 → growth (Γ.align t) (Γ.align t) (perElem Γ t) cap es.length 1 ≠ .torn := by
              intro e
              rw [e]
              unfold growth
              split
              · simp
              split
              · simp
              rw [if_pos (Nat.mod_one _)]
              simp
            split at hl
            · cases hl
            · rename_i hg
              exact .push k t x es cap hv (fun e => hone (hsa.2 e) hg) (by rw [hg]; simp)
            · rename_i hg
              split at hl
              · cases hl
              · rename_i hp; exact .push k t x es cap hv (fun e => hp (hsa.2 e)) (by rw [hg]; simp)
            · rename_i hg
              split at hl
              · cases hl
              · rename_i hp; exact .push k t x es cap hv (fun e => hp (hsa.2 e)) (by rw [hg]; simp)
          · intro hl
            cases hl with
            | push _ _ _ es' cap' g0 g1 g2 =>
              rw [hv] at g0; cases g0
              have hp : ¬ perElem Γ t = 1 := fun e => g1 (hsa.1 e)
              simp only [ne_eq, not_true, if_false]
              split
              · rename_i hg; exact absurd hg g2
              · rfl
              · rw [if_neg hp]; rfl
              · rw [if_neg hp]; rfl
        by_cases hl : (XVec.push Γ t x (.vec t' es cap)).leak = true
        · exact .inl ⟨by simp [hl], hiff.1 hl⟩
        · exact .inr ⟨by simp [hl], fun g => hl (hiff.2 g)⟩
  | append k j =>
    simp only [Op.step, XState.append]
    by_cases hkj : k = j
    · rw [if_pos hkj]
      exact .inr ⟨rfl, fun h => by cases h with | append _ _ _ _ _ _ h1 => exact h1 hkj⟩
    rw [if_neg hkj]
    cases hv : s.var k with
    | none =>
      exact .inr ⟨rfl, fun h => by cases h with | append _ _ _ _ _ _ _ h1 => rw [hv] at h1; cases h1⟩
    | some y =>
      cases hv' : s.var j with
      | none =>
        refine .inr ⟨by cases y <;> rfl, fun h => by cases h with | append _ _ _ _ _ _ _ _ h1 => rw [hv'] at h1; cases h1⟩
      | some y' =>
        cases y with
        | unit m =>
          refine .inr ⟨by cases y' <;> rfl, fun h => by cases h with | append _ _ _ _ _ _ _ h1 => rw [hv] at h1; cases h1⟩
        | vec t es cap =>
          cases y' with
          | unit m =>
            exact .inr ⟨rfl, fun h => by cases h with | append _ _ _ _ _ _ _ _ h1 => rw [hv'] at h1; cases h1⟩
          | vec t' es' cap' =>
            obtain ⟨h1, h2, h3, h4⟩ := holds_vec H hv
            by_cases ht : t = t'
            swap
            · simp only [if_neg ht]
              refine .inr ⟨by first | rfl | trivial, fun h => ?_⟩
              cases h with
              | append _ _ _ _ _ _ _ g1 g2 =>
                rw [hv] at g1; rw [hv'] at g2; cases g1; cases g2; exact ht rfl
            subst ht
            simp only [if_true]
            have hiff : growth (Γ.align t) (Γ.align t) (perElem Γ t) cap es.length (es'.length * perElem Γ t) = .torn ↔
                Leaks Γ s (.append k j) := by
              rw [torn_three h1 h2 h3 h4]
              constructor
              · rintro ⟨g1, g2, rfl, g4⟩
                exact .append k j t es es' cap' hkj hv hv' g1 g2 g4
              · intro h
                cases h with
                | append _ _ _ _ _ _ _ g1 g2 g3 g4 g5 =>
                  rw [hv] at g1; rw [hv'] at g2; cases g1; cases g2; exact ⟨g3, g4, rfl, g5⟩
            cases hg : growth (Γ.align t) (Γ.align t) (perElem Γ t) cap es.length (es'.length * perElem Γ t) with
            | torn => exact .inl ⟨rfl, hiff.1 hg⟩
            | keep => exact .inr ⟨rfl, fun h => by rw [hiff.2 h] at hg; cases hg⟩
            | grown c => exact .inr ⟨rfl, fun h => by rw [hiff.2 h] at hg; cases hg⟩
            | full => exact .inr ⟨rfl, fun h => by rw [hiff.2 h] at hg; cases hg⟩

/-! ### What this means for a few calls -/

theorem cut_of_flatten {n : Nat} : ∀ {l : List Bytes}, (∀ e ∈ l, e.length = n) → cut n l.length l.flatten = l
  | [], _ => rfl
  | e :: l, h => by
    rw [List.length_cons, cut_succ, List.flatten_cons]
    have he := h e List.mem_cons_self
    rw [List.take_append_of_le_length (by omega), List.take_of_length_le (by omega), ← he, List.drop_left, he,
      cut_of_flatten fun x hx => h x (List.mem_cons_of_mem _ hx)]

theorem holds_each {k cap : Nat} (H : s.Holds Γ slots w.heap) (hk : s.var k = some (.vec t es cap)) :
    Room Γ t cap ∧ ∀ e ∈ es, e.length = Γ.size t := by
  cases hs : slots k with
  | none => rw [(H.none_iff k).1 hs] at hk; cases hk
  | some c =>
    obtain ⟨R, rfl⟩ := H.is k c _ hs hk
    exact ⟨R.room, R.each⟩

/-- Rotating by at most the length moves the first `n` elements to the end. -/
theorem C70_rotateLeft {k cap n : Nat} (H : s.Holds Γ slots w.heap) (hk : s.var k = some (.vec t es cap))
    (ha : Γ.align t ≤ 8192) (hn : n ≤ es.length) :
    Op.step Γ cfg s (.rotateLeft k n) = (.ok .done, s.put k (some (.vec t (es.drop n ++ es.take n) cap))) := by
  obtain ⟨h1, h2, h3, h4⟩ := holds_vec H hk
  obtain ⟨h5, h6⟩ := holds_each H hk
  have hsmall : n * perElem Γ t < 2 ^ 64 := by
    have a1 : n * perElem Γ t ≤ cap * Γ.size t := by
      rw [← h4]
      exact Nat.mul_le_mul (by omega) (Nat.le_mul_of_pos_right _ (align_pos Γ t))
    have a2 : cap * Γ.size t + (Γ.align t - 1) ≤ isizeMax := h5
    have a3 : isizeMax < 2 ^ 64 := by decide
    omega
  have hb : n * perElem Γ t * Γ.align t = n * Γ.size t := by rw [Nat.mul_assoc, h4]
  have hl : es.length = (es.drop n ++ es.take n).length := by simp; omega
  simp only [Op.step, XState.method, hk, XVec.rotateLeft, if_neg (Nat.not_lt.2 ha), times_small hsmall,
    if_pos (Nat.mul_le_mul_right _ hn), hb, drop_flatten h6, take_flatten h6, ← List.flatten_append, XState.put]
  rw [hl, cut_of_flatten]
  · rfl
  · intro e he
    rcases List.mem_append.1 he with h | h
    · exact h6 e (List.mem_of_mem_drop h)
    · exact h6 e (List.mem_of_mem_take h)

/-- In debug builds, rotating by more than the length loses the content: what is left is an empty container
of `()`. -/
theorem C70_rotateLeft_lost {k cap n : Nat} (hd : cfg.debug = true) (H : s.Holds Γ slots w.heap)
    (hk : s.var k = some (.vec t es cap)) (ha : Γ.align t ≤ 8192) (hn : es.length < n) :
    Op.step Γ cfg s (.rotateLeft k n) = (.panic, s.put k (some (.unit 0))) := by
  obtain ⟨h1, h2, h3, h4⟩ := holds_vec H hk
  simp only [Op.step, XState.method, hk, XVec.rotateLeft, if_neg (Nat.not_lt.2 ha)]
  cases ht : times cfg n (perElem Γ t) with
  | none => rfl
  | some m =>
    have := times_debug hd ht
    subst this
    have : ¬ n * perElem Γ t ≤ es.length * perElem Γ t := by
      intro h; exact absurd (Nat.le_of_mul_le_mul_right h h3) (by omega)
    simp only [if_neg this]
    rfl

/-- In debug builds the only undefined call is pushing a `()` to a container whose content was lost. -/
theorem C70_ub_debug (hd : cfg.debug = true) (op : Op) :
    (op.step Γ cfg s).1 = .ub ↔ ∃ k n x, op = .push k Γ.unitTy x ∧ s.var k = some (.unit n) := by
  rw [C70_ub_iff]
  constructor
  · rintro (⟨h, -⟩ | h)
    · rw [hd] at h; cases h
    · exact h
  · exact .inr

/-- Without lost containers, a program in a debug build is never undefined, as long as no call panics: only
panics lose content. -/
theorem C70_ok_keeps {op : Op} (h : ∀ k n, s.var k ≠ some (.unit n)) {o : Obs} (ho : (op.step Γ cfg s).1 = .ok o) :
    ∀ k n, (op.step Γ cfg s).2.var k ≠ some (.unit n) := by
  have hput : ∀ (j : Nat) (x : Option XVec), (∀ n, x ≠ some (.unit n)) → ∀ k n, Slots.put s.var j x k ≠ some (.unit n) := by
    intro j x hx k n
    unfold Slots.put
    split
    · exact hx n
    · exact h k n
  have hmeth : ∀ (j : Nat) (f : XVec → After), (∀ t es cap o, (f (.vec t es cap)).out = .ok o → ∀ n, (f (.vec t es cap)).now ≠ .unit n) →
      (s.method j f).1 = .ok o → ∀ k n, (s.method j f).2.var k ≠ some (.unit n) := by
    intro j f hf hout k n
    unfold XState.method at hout ⊢
    cases hv : s.var j with
    | none => exact h k n
    | some x =>
      rw [hv] at hout
      cases x with
      | unit m => exact absurd hv (h j m)
      | vec t es cap => exact hput j _ (fun n e => hf t es cap o hout n (Option.some.inj e)) k n
  have hcreate : ∀ (j : Nat) (t : TyId) (es : List Bytes) (m : Nat), ∀ k n, (s.create Γ j t es m).2.var k ≠ some (.unit n) := by
    intro j t es m k n
    unfold XState.create
    split
    · exact h k n
    · exact hput j _ (fun _ e => by cases e) k n
  have hroom : ∀ {t : TyId} {len cap : Nat} {q : Option Nat} {f : Nat → After} {o : Obs},
      (∀ c o, (f c).out = .ok o → ∀ n, (f c).now ≠ .unit n) → (XVec.room Γ t len cap q f).out = .ok o →
      ∀ n, (XVec.room Γ t len cap q f).now ≠ .unit n := by
    intro t len cap q f o hf hout n
    unfold XVec.room at hout ⊢
    split at hout
    · cases hout
    · split at hout
      · exact hf _ _ hout n
      · exact hf _ _ hout n
      · cases hout
      · cases hout
  cases op with
  | withType k t => exact hcreate k t [] 0
  | withCapacity k t n => exact hcreate k t [] n
  | fromSlice k t xs => exact hcreate k t xs xs.length
  | drop k =>
    simp only [Op.step]
    split
    · exact h
    · exact hput k none (fun _ e => by cases e)
  | clone k j =>
    simp only [Op.step]
    split
    · exact h
    · exact hput j _ (fun _ e => by cases e)
    · exact h
  | roundTrip k t =>
    simp only [Op.step]
    split
    · exact h
    · split
      · exact h
      · exact hput k none (fun _ e => by cases e)
    · exact hput k none (fun _ e => by cases e)
  | append k j =>
    simp only [Op.step, XState.append] at ho ⊢
    split
    · exact h
    · rename_i hkj
      rw [if_neg hkj] at ho
      split
      · rename_i hk hj
        rw [hk, hj] at ho
        simp only at ho
        split
        · rename_i ht
          rw [if_pos ht] at ho
          have h2 : ∀ t1 es1 c1 t2 es2 c2 k' n, (Slots.put (Slots.put s.var k (some (XVec.vec t1 es1 c1))) j (some (.vec t2 es2 c2))) k' ≠
              some (.unit n) := by
            intro t1 es1 c1 t2 es2 c2 k' n
            unfold Slots.put
            split
            · intro e; cases e
            · split
              · intro e; cases e
              · exact h k' n
          split
          · exact h2 _ _ _ _ _ _
          · exact h2 _ _ _ _ _ _
          · rename_i hg; rw [hg] at ho; cases ho
          · rename_i hg; rw [hg] at ho; cases ho
        · exact h
      · rename_i hk hj; exact absurd hk (h k _)
      · exact h
      · exact h
  | clear k => exact hmeth k _ (fun t es cap o _ n e => by cases e) ho
  | mapAll k f => exact hmeth k _ (fun t es cap o _ n e => by cases e) ho
  | len k => exact hmeth k _ (fun t es cap o _ n e => by cases e) ho
  | typeId k => exact hmeth k _ (fun t es cap o _ n e => by cases e) ho
  | getAs k t i => exact hmeth k _ (fun t es cap o _ n e => by cases e) ho
  | get k i => exact hmeth k _ (fun t es cap o _ n e => by cases e) ho
  | asSlice k t => exact hmeth k _ (fun t es cap o _ n e => by cases e) ho
  | iter k => exact hmeth k _ (fun t es cap o _ n e => by cases e) ho
  | reserve k n => exact hmeth k _ (fun t es cap o ho n => hroom (fun c o _ n e => by cases e) ho n) ho
  | fill k t x =>
    refine hmeth k _ (fun t es cap o ho n => ?_) ho
    simp only [XVec.fill] at ho ⊢
    split <;> (intro e; cases e)
  | copyFromSlice k t xs =>
    refine hmeth k _ (fun t es cap o ho n => ?_) ho
    simp only [XVec.copyFromSlice] at ho ⊢
    split
    · split <;> (intro e; cases e)
    · intro e; cases e
  | rotateLeft k m =>
    refine hmeth k _ (fun t es cap o ho n => ?_) ho
    simp only [XVec.rotateLeft] at ho ⊢
    split at ho
    · cases ho
    · rename_i ha
      rw [if_neg ha]
      split at ho
      · cases ho
      · split at ho
        · rename_i hle; simp only [if_pos hle]; intro e; cases e
        · cases ho
  | rotateRight k m =>
    refine hmeth k _ (fun t es cap o ho n => ?_) ho
    simp only [XVec.rotateRight] at ho ⊢
    split at ho
    · cases ho
    · rename_i ha
      rw [if_neg ha]
      split at ho
      · cases ho
      · split at ho
        · rename_i hle; simp only [if_pos hle]; intro e; cases e
        · cases ho
  | swap k i j =>
    refine hmeth k _ (fun t es cap o ho n => ?_) ho
    simp only [XVec.swap] at ho ⊢
    split
    · intro e; cases e
    · split
      · split <;> (intro e; cases e)
      · split <;> (intro e; cases e)
  | setAs k t i x =>
    refine hmeth k _ (fun t es cap o ho n => ?_) ho
    simp only [XVec.setAs] at ho ⊢
    split
    · split <;> (intro e; cases e)
    · intro e; cases e
  | setValue k i t x =>
    refine hmeth k _ (fun t es cap o ho n => ?_) ho
    simp only [XVec.setValue] at ho ⊢
    split
    · split
      · split <;> (intro e; cases e)
      · intro e; cases e
    · split
      · split <;> (intro e; cases e)
      · intro e; cases e
  | pushAs k t x =>
    refine hmeth k _ (fun t es cap o ho n => ?_) ho
    simp only [XVec.pushAs] at ho ⊢
    split at ho
    · rename_i ht
      rw [if_pos ht]
      split at ho
      · rename_i hg; simp only [hg]; intro e; cases e
      · rename_i hg; simp only [hg]; intro e; cases e
      · cases ho
    · rename_i ht
      rw [if_neg ht]; intro e; cases e
  | push k t x =>
    refine hmeth k _ (fun t es cap o ho n => ?_) ho
    simp only [XVec.push] at ho ⊢
    split at ho
    · cases ho
    · rename_i h1
      rw [if_neg h1]
      split at ho
      · rename_i h2; rw [if_pos h2]; intro e; cases e
      · rename_i h2
        rw [if_neg h2]
        split at ho
        · cases ho
        · cases ho
        · split at ho
          · rename_i h3; simp only [if_pos h3]; intro e; cases e
          · cases ho
        · split at ho
          · rename_i h3; simp only [if_pos h3]; intro e; cases e
          · cases ho
  | resize k t m x =>
    refine hmeth k _ (fun t es cap o ho n => ?_) ho
    simp only [XVec.resize] at ho ⊢
    split at ho
    · rename_i h1
      rw [if_pos h1]
      split at ho
      · rename_i h2
        rw [if_pos h2]
        refine hroom (fun c o ho n => ?_) ho n
        split at ho
        · rename_i h3; rw [if_pos h3]; intro e; cases e
        · cases ho
      · rename_i h2; rw [if_neg h2]; intro e; cases e
    · rename_i h1; rw [if_neg h1]; intro e; cases e

/-! ### Concrete programs -/

namespace Ex

/-- an empty heap -/
def noHeap : Heap := ⟨0, fun _ => none⟩

theorem start_holds : XState.start.Holds env (fun _ => none : Slots Unit) noHeap :=
  C70_start _ (fun _ _ => rfl) (fun _ => rfl)

/-- A container of `[u8; 3]` is grown from one element to two: its buffer leaks. -/
def leaky : List Op := [.fromSlice 0 3 [[some 1, some 2, some 3]], .resize 0 3 2 [some 4, some 5, some 6], .len 0, .typeId 0]

/-- What the machine says: the second call panics, the container is an empty container of `()` afterwards,
and one block has leaked. -/
theorem leaky_run : (XState.run env ⟨true⟩ leaky .start).map (fun p => (p.1, p.2.leaked)) =
    some ([some .done, none, some (.num 0), some (.num 0)], 1) := by decide +kernel

/-- Content is lost by rotating too far, then a `()` is pushed. -/
def lossy : List Op := [.fromSlice 0 2 [a1, a2], .rotateLeft 0 1, .iter 0, .rotateLeft 0 3, .len 0, .push 0 0 []]

theorem lossy_run : (XState.run env ⟨true⟩ (lossy.take 5) .start).map (fun p => (p.1, p.2.leaked)) =
      some ([some .done, some .done, some (.elems [a2, a1]), none, some (.num 0)], 0) ∧
    (XState.run env ⟨true⟩ lossy .start).isNone = true := by decide +kernel

theorem typed (t : TyId) (h : t < 7) : Op.Typed.Copyable env t := by
  intro b u
  match t, h with
  | 0, _ | 1, _ | 2, _ | 3, _ | 4, _ | 5, _ | 6, _ => rfl

theorem leaky_typed : ∀ op ∈ leaky, op.Typed env := by
  simp only [leaky, List.forall_mem_cons]
  exact ⟨⟨typed 3 (by decide), by decide⟩, ⟨typed 3 (by decide), by decide⟩, trivial, trivial, (fun _ h => by cases h)⟩

theorem lossy_typed : ∀ op ∈ lossy, op.Typed env := by
  simp only [lossy, List.forall_mem_cons]
  exact ⟨⟨typed 2 (by decide), by decide⟩, trivial, trivial, trivial, trivial, ⟨typed 0 (by decide), by decide⟩, (fun _ h => by cases h)⟩

example := C70_program (cfg := ⟨true⟩) (vt := ()) (w := ⟨noHeap, []⟩) leaky start_holds leaky_typed

/-- The program `lossy` is undefined, in the model of the code, with debug assertions on. -/
example : (runCaught env ⟨true⟩ () lossy ((fun _ => none), ⟨noHeap, []⟩)).1 = .ub := by
  have h := C70_program (cfg := ⟨true⟩) (vt := ()) (w := ⟨noHeap, []⟩) lossy start_holds lossy_typed
  cases hr : XState.run env ⟨true⟩ lossy .start with
  | none => rw [hr] at h; exact h
  | some p => have := lossy_run.2; rw [hr] at this; cases this

/-- A state with a container of three `u32`s in variable 7. -/
def m123 : XState := ⟨fun k => if k = 7 then some (.vec 2 [a1, a2, a3] 4) else none, 0⟩
def slots123 : Slots Unit := fun k => if k = 7 then some c123 else none

theorem m123_holds : m123.Holds env slots123 (world 2 4).heap where
  wf := oneHeap_wf _
  none_iff k := by unfold slots123 m123; split <;> simp [*]
  is k c x h1 h2 := by
    simp only [slots123, m123] at h1 h2
    split at h1
    · rename_i hk
      rw [if_pos hk] at h2
      cases h1; cases h2
      exact ⟨c123_repr, rfl⟩
    · cases h1
  inj k k' c c' i h1 h2 _ _ := by
    simp only [slots123] at h1 h2
    split at h1
    · split at h2
      · omega
      · cases h2
    · cases h1
  leaks := by
    refine ⟨[], List.nodup_nil, rfl, (fun _ h => by cases h), (fun _ h => by cases h), fun i l h => .inr ⟨7, c123, rfl, ?_⟩⟩
    simp only [world, oneHeap] at h
    split at h
    · rename_i hi; subst hi; rfl
    · cases h

example := C70_rotateLeft (cfg := ⟨true⟩) (k := 7) (n := 2) (w := world 2 4) m123_holds rfl (by decide) (by decide)
example := C70_rotateLeft_lost (cfg := ⟨true⟩) (k := 7) (n := 4) (w := world 2 4) rfl m123_holds rfl (by decide) (by decide)
example := C70_leaks_iff (cfg := ⟨true⟩) (w := world 2 4) rfl m123_holds (.reserve 7 9)
example := C70_step (cfg := ⟨false⟩) (vt := ()) (w := world 2 4) (op := .append 7 3) m123_holds trivial
example := C70_blocks (w := world 2 4) m123_holds [7] (by decide) (fun k h => by
  simp only [m123] at h; split at h
  · rename_i hk; simp [hk]
  · exact absurd rfl h)
example : Undefined env ⟨false⟩ m123 (.get 7 3) := .inl ⟨rfl, 7, 3, 2, _, _, .inl rfl, rfl, by decide⟩

end Ex

end Dync
