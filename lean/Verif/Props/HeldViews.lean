import Verif.HeldViewsLemmas3
import Verif.Props.Pointers
/-!
# C85 Mutable views held at the same time are separate lists
-/
namespace Dync
variable {U V : Type} {Γ : TyEnv U} {cfg : Cfg} {n : Nat} {m : Mem} {ρ : Nat → Option (PtrView V)} {σ : Lists}

/-- A program that holds any number of mutable views at once, among them parts of one view, does what it does if every view is
a list of its own: it reads the same values or panics like it, and each view then has the elements of its list, also after a
panic. Bytes outside of the views stay, and every access lies in a view and is aligned. -/
theorem C85_views (H : HeldAt Γ n m ρ σ) (p : HProg) (hs : p.Sized Γ) (hr : p.InRange Γ cfg n (shape σ)) :
    (p.runAt Γ cfg n ρ m).1.Agrees (p.plain n σ).1 ∧ HeldAt Γ n (p.runAt Γ cfg n ρ m).2 ρ (p.plain n σ).2 ∧
    shape (p.plain n σ).2 = shape σ ∧
    (∀ x, (∀ k v, ρ k = some v → ¬ v.Covers x) → (p.runAt Γ cfg n ρ m).2.byte x = m.byte x) ∧
    ∃ l, (p.runAt Γ cfg n ρ m).2.log = m.log ++ l ∧ ∀ a ∈ l, ∃ k v, ρ k = some v ∧ a.Within v.addr v.len :=
  have K := p.sim (cfg := cfg) hs n m ρ σ H hr
  ⟨K.res, K.held, K.shape, K.frame, K.log⟩

theorem contents_eq_of_held {m1 m2 : Mem} {σ1 σ2 : Lists} (H1 : HeldAt Γ n m1 ρ σ1) (H2 : HeldAt Γ n m2 ρ σ2) {k : Nat} {v : PtrView V}
    (hv : ρ k = some v) (e : σ1 k = σ2 k) : m1.read v.addr v.len = m2.read v.addr v.len := by
  rcases H1.cases k with ⟨h1, -⟩ | ⟨v', t, es, h1, h2, -, S⟩
  · rw [h1] at hv; cases hv
  · rw [h1] at hv
    cases hv
    have S2 := (H2.view k v t es h1 (e ▸ h2)).2
    exact S.data.trans S2.data.symm

theorem byte_of_read {m1 m2 : Mem} {a k x : Nat} (h : m1.read a k = m2.read a k) (h1 : a ≤ x) (h2 : x < a + k) : m1.byte x = m2.byte x := by
  have h3 : x - a < (m1.read a k).length := by rw [Mem.read_length]; omega
  have h4 : x - a < (m2.read a k).length := by rw [Mem.read_length]; omega
  have e1 := Mem.read_get h3
  have e2 := Mem.read_get h4
  rw [show a + (x - a) = x by omega] at e1 e2
  rw [← e1, ← e2]
  simp only [h]

/-- A view that the program does not name keeps its bytes, whatever the program does with the others. -/
theorem C85_untouched (H : HeldAt Γ n m ρ σ) (p : HProg) (hs : p.Sized Γ) (hr : p.InRange Γ cfg n (shape σ)) {k : Nat} {v : PtrView V}
    (hv : ρ k = some v) (hk : ¬ p.Uses k) : v.contents (p.runAt Γ cfg n ρ m).2 = v.contents m := by
  obtain ⟨-, H', -⟩ := C85_views (cfg := cfg) H p hs hr
  have F : FreeFrom n σ := fun k hk => (H.none_iff k).1 (H.fresh k hk)
  have e := (p.local p.Uses (fun _ h => h) n).other σ F k hk
  simp only [PtrView.contents]
  rw [contents_eq_of_held H' H hv e]

/-- Programs that name different views can run in any order: if they return in one order, they return in the other one, with the
same reads and the same bytes in memory. -/
theorem C85_commute (H : HeldAt Γ n m ρ σ) (p q : HProg) (hp : p.Sized Γ) (hq : q.Sized Γ) (hrp : p.InRange Γ cfg n (shape σ))
    (hrq : q.InRange Γ cfg n (shape σ)) (hd : ∀ k, k < n → ¬ (p.Uses k ∧ q.Uses k)) {a b : List Read} {m1 m2 : Mem}
    (h1 : p.runAt Γ cfg n ρ m = (.ok a, m1)) (h2 : q.runAt Γ cfg n ρ m1 = (.ok b, m2)) :
    ∃ m1' m2', q.runAt Γ cfg n ρ m = (.ok b, m1') ∧ p.runAt Γ cfg n ρ m1' = (.ok a, m2') ∧ m2'.byte = m2.byte := by
  have F : FreeFrom n σ := fun k hk => (H.none_iff k).1 (H.fresh k hk)
  have okOf : ∀ {r : HProg} {m m1 : Mem} {σ : Lists} {x}, r.runAt Γ cfg n ρ m = (.ok x, m1) → (r.runAt Γ cfg n ρ m).1.Agrees (r.plain n σ).1 →
      r.plain n σ = (.ok x, (r.plain n σ).2) := by
    intro r m m1 σ x h A
    rw [h] at A
    rcases A.cases with ⟨y, e1, e2⟩ | ⟨_, _, e1, _⟩
    · cases e1; exact Prod.ext e2 rfl
    · cases e1
  have okOf' : ∀ {r : HProg} {m : Mem} {σ σ' : Lists} {x}, r.plain n σ = (.ok x, σ') → (r.runAt Γ cfg n ρ m).1.Agrees (r.plain n σ).1 →
      r.runAt Γ cfg n ρ m = (.ok x, (r.runAt Γ cfg n ρ m).2) := by
    intro r m σ σ' x h A
    rw [h] at A
    rcases A.cases with ⟨y, e1, e2⟩ | ⟨_, _, _, e2⟩
    · cases e2; exact Prod.ext e1 rfl
    · cases e2
  obtain ⟨A1, H1, S1, B1, -⟩ := C85_views (cfg := cfg) H p hp hrp
  have e1 := okOf h1 A1
  rw [h1] at H1 B1
  obtain ⟨A2, H2, S2, B2, -⟩ := C85_views (cfg := cfg) H1 q hq (by rw [S1]; exact hrq)
  have e2 := okOf h2 A2
  rw [h2] at H2 B2
  obtain ⟨σ1', f1, f2⟩ := HProg.plain_comm p q hd F e1 e2
  obtain ⟨A3, H3, S3, B3, -⟩ := C85_views (cfg := cfg) H q hq hrq
  have e3 := okOf' f1 A3
  rw [f1] at H3 S3
  obtain ⟨A4, H4, S4, B4, -⟩ := C85_views (cfg := cfg) H3 p hp (by rw [S3]; exact hrp)
  have e4 := okOf' f2 A4
  refine ⟨_, _, e3, e4, funext fun x => ?_⟩
  rw [f2] at H4
  by_cases hx : ∃ k v, ρ k = some v ∧ v.Covers x
  · obtain ⟨k, v, hv, hc⟩ := hx
    exact byte_of_read (contents_eq_of_held H4 H2 hv rfl) hc.1 hc.2
  · have hx' : ∀ k v, ρ k = some v → ¬ v.Covers x := fun k v hv hc => hx ⟨k, v, hv, hc⟩
    rw [B4 x hx', B3 x hx', B2 x hx', B1 x hx']

/-- The views of `n` containers, each in a block of its own. -/
def viewsOf (n : Nat) (c : Nat → VecCopy V) (addr : Nat → Nat) : Nat → Option (PtrView V) :=
  fun k => if k < n then some ((c k).ptrView (addr k)) else none

/-- Containers in blocks of their own, with the elements `σ`, in the memory `m`. -/
def StoredAt (Γ : TyEnv U) (n : Nat) (m : Mem) (h : Heap) (base : Nat → Nat) (c : Nat → VecCopy V) (b : Nat → Nat) (σ : Lists) : Prop :=
  ∀ k, k < n → ∃ t es, σ k = some (t, es) ∧ Repr Γ h t es (c k).data ∧ (c k).data.ptr = some (b k) ∧
    m.read (base (b k)) (c k).data.mem.length = (c k).data.mem

variable {w : World U} {h : Heap} {base : Nat → Nat} {c : Nat → VecCopy V} {b : Nat → Nat}

theorem block_facts {k : Nat} {t : TyId} {es : List Bytes} (R : Repr Γ h t es (c k).data) (hp : (c k).data.ptr = some (b k)) :
    h.live (b k) = some ⟨(c k).data.cap * Γ.size t, Γ.align t⟩ ∧ (c k).data.mem.length = es.length * Γ.size t ∧
      ((c k).ptrView (base (b k))).len = es.length * Γ.size t ∧ es.length * Γ.size t ≤ (c k).data.cap * Γ.size t := by
  obtain ⟨i, hi, hl⟩ := R.block
  rw [hp] at hi
  cases hi
  refine ⟨hl, by rw [R.mem, length_flatten_eq R.each], ?_, Nat.mul_le_mul_right _ (R.len ▸ R.len_le)⟩
  show (c k).data.len * (c k).data.elem.numBytes = _
  rw [R.len, R.elem_eq, numBytes_new]

theorem StoredAt.held (P : Placed h base) (hn : ∀ k, n ≤ k → σ k = none) (hc : StoredAt Γ n m h base c b σ)
    (hb : ∀ j k, j < n → k < n → j ≠ k → b j ≠ b k) : HeldAt Γ n m (viewsOf n c fun k => base (b k)) σ := by
  refine ⟨?_, ?_, ?_, ?_⟩
  · intro k hk; simp only [viewsOf, if_neg (show ¬ k < n by omega)]
  · intro k
    by_cases hk : k < n
    · obtain ⟨t, es, h1, -⟩ := hc k hk
      simp only [viewsOf, if_pos hk, h1]
      simp
    · simp only [viewsOf, if_neg hk, hn k (by omega)]
  · intro k v t es hv he
    by_cases hk : k < n
    · simp only [viewsOf, if_pos hk, Option.some.injEq] at hv
      subst hv
      obtain ⟨t', es', h1, R, hp, hm⟩ := hc k hk
      rw [he] at h1
      cases h1
      obtain ⟨f1, f2, f3, f4⟩ := block_facts (base := base) R hp
      refine ⟨⟨R.elem_eq, P.aligned _ _ f1⟩, ?_, R.each, R.elem_eq, R.pos, ?_⟩
      · show m.read (base (b k)) ((c k).ptrView (base (b k))).len = _
        rw [f3, ← f2, hm, R.mem]
      · have hr := R.room
        unfold Room at hr
        omega
    · simp only [viewsOf, if_neg hk] at hv; cases hv
  · intro j k v v' hjk hv hv' x hx
    by_cases hj : j < n
    · by_cases hk : k < n
      · simp only [viewsOf, if_pos hj, if_pos hk, Option.some.injEq] at hv hv'
        subst hv hv'
        obtain ⟨t, es, -, R, hp, -⟩ := hc j hj
        obtain ⟨t', es', -, R', hp', -⟩ := hc k hk
        obtain ⟨f1, f2, f3, f4⟩ := block_facts (base := base) R hp
        obtain ⟨g1, g2, g3, g4⟩ := block_facts (base := base) R' hp'
        have A := P.apart _ _ _ _ (hb j k hj hk hjk) f1 g1
        simp only at A
        have x1 := hx.1.1
        have x2 := hx.1.2
        have x3 := hx.2.1
        have x4 := hx.2.2
        rw [f3] at x2
        rw [g3] at x4
        have a1 : ((c j).ptrView (base (b j))).addr = base (b j) := rfl
        have a2 : ((c k).ptrView (base (b k))).addr = base (b k) := rfl
        omega
      · simp only [viewsOf, if_neg hk] at hv'; cases hv'
    · simp only [viewsOf, if_neg hj] at hv; cases hv

/-- The containers afterwards. -/
theorem StoredAt.after {m' : Mem} {σ' : Lists} (hc : StoredAt Γ n m h base c b σ) (H : HeldAt Γ n m' (viewsOf n c fun k => base (b k)) σ')
    (S : shape σ' = shape σ) : ∀ k, k < n → ∃ t es, σ' k = some (t, es) ∧
      Repr Γ h t es { (c k).data with mem := m'.read (base (b k)) (c k).data.mem.length } := by
  intro k hk
  obtain ⟨t, es, h1, R, hp, -⟩ := hc k hk
  have e := congrFun S k
  simp only [shape, h1, Option.map_some] at e
  obtain ⟨⟨t', fs⟩, e1, e2⟩ := Option.map_eq_some_iff.1 e
  simp only [Prod.mk.injEq] at e2
  obtain ⟨rfl, e2⟩ := e2
  obtain ⟨f1, f2, f3, f4⟩ := block_facts (base := base) R hp
  obtain ⟨O, S'⟩ := H.view k ((c k).ptrView (base (b k))) t' fs (by simp only [viewsOf, if_pos hk]) e1
  refine ⟨t', fs, e1, R.type_id, R.chunks, R.align, R.pos, ?_, S'.each, by rw [e2]; exact R.len, R.len_le, R.cap_pos, R.room, R.block⟩
  show m'.read (base (b k)) _ = _
  rw [f2, ← f3]
  exact S'.data

/-- All other blocks afterwards. -/
theorem StoredAt.others {m' : Mem} (P : Placed h base) (hc : StoredAt Γ n m h base c b σ)
    (B : ∀ x, (∀ k v, viewsOf n c (fun k => base (b k)) k = some v → ¬ v.Covers x) → m'.byte x = m.byte x) :
    ∀ j l, (∀ k, k < n → b k ≠ j) → h.live j = some l → m'.read (base j) l.size = m.read (base j) l.size := by
  intro j lay hj hlive
  refine Mem.read_congr fun x h1 h2 => B x ?_
  intro k v hv hcov
  by_cases hk : k < n
  · simp only [viewsOf, if_pos hk, Option.some.injEq] at hv
    subst hv
    obtain ⟨t, es, -, R, hp, -⟩ := hc k hk
    obtain ⟨f1, f2, f3, f4⟩ := block_facts (base := base) R hp
    have A := P.apart _ _ _ _ (hj k hk) f1 hlive
    simp only at A
    have x1 := hcov.1
    have x2 := hcov.2
    rw [f3] at x2
    have a1 : ((c k).ptrView (base (b k))).addr = base (b k) := rfl
    omega
  · simp only [viewsOf, if_neg hk] at hv; cases hv

/-- The views that `as_mut_slice` of different containers returns can be held at once, for every allocator. Afterwards the
block of each container has the elements the lists say, all other blocks are as before, and every access lies in the elements of a
container. -/
theorem C85_containers (P : Placed w.heap base) (hn : ∀ k, n ≤ k → σ k = none) (hc : StoredAt Γ n m w.heap base c b σ)
    (hb : ∀ j k, j < n → k < n → j ≠ k → b j ≠ b k) (p : HProg) (hs : p.Sized Γ) (hr : p.InRange Γ cfg n (shape σ)) :
    let out := p.runAt Γ cfg n (viewsOf n c fun k => base (b k)) m
    out.1.Agrees (p.plain n σ).1 ∧
    (∀ k, k < n → ∃ t es, (p.plain n σ).2 k = some (t, es) ∧
      Repr Γ w.heap t es { (c k).data with mem := out.2.read (base (b k)) (c k).data.mem.length }) ∧
    (∀ j l, (∀ k, k < n → b k ≠ j) → w.heap.live j = some l → out.2.read (base j) l.size = m.read (base j) l.size) ∧
    ∃ l, out.2.log = m.log ++ l ∧ ∀ a ∈ l, ∃ k, k < n ∧ a.Within (base (b k)) (c k).data.mem.length := by
  intro out
  obtain ⟨A, H', S, B, l, hl, hl'⟩ := C85_views (cfg := cfg) (hc.held P hn hb) p hs hr
  refine ⟨A, hc.after H' S, hc.others P B, l, hl, ?_⟩
  intro a ha
  obtain ⟨k, v, hv, W⟩ := hl' a ha
  by_cases hk : k < n
  · simp only [viewsOf, if_pos hk, Option.some.injEq] at hv
    subst hv
    obtain ⟨t, es, -, R, hp, -⟩ := hc k hk
    obtain ⟨f1, f2, f3, f4⟩ := block_facts (base := base) R hp
    rw [f3, ← f2] at W
    exact ⟨k, hk, W⟩
  · simp only [viewsOf, if_neg hk] at hv; cases hv

/-! ### Examples -/

namespace Ex

/-- Two live blocks: room for four and for two `u32`. -/
def heldWorld : World Log := ⟨⟨2, fun i => if i = 0 then some ⟨16, 4⟩ else if i = 1 then some ⟨8, 4⟩ else none⟩, []⟩
/-- Block 0 is at address 64, block 1 directly behind it. -/
def heldBase (i : Nat) : Nat := if i = 0 then 64 else 80
/-- The memory with the containers `[1, 2, 3]` and `[3, 2]`. -/
def heldMem : Mem :=
  ⟨fun a => if 64 ≤ a ∧ a < 76 then ([a1, a2, a3].flatten)[a - 64]?.getD none
    else if 80 ≤ a ∧ a < 88 then ([a3, a2].flatten)[a - 80]?.getD none else some 9, []⟩
def heldVecs (k : Nat) : VecCopy Unit := if k = 0 then c123 else ⟨{ vec 2 [a3, a2] 2 with ptr := some 1 }, ()⟩
def heldLists : Lists := fun k => if k = 0 then some (2, [a1, a2, a3]) else if k = 1 then some (2, [a3, a2]) else none

/-- All values of the first container and both halves of the second one at once: exchange the first values, copy the value in the
second half over the last one, and change the middle one. -/
def heldProg : HProg :=
  .values 0 (.split 1 1 (.seq (.swapValues 2 0 5 0) (.seq (.copyValue 4 0 6 0) (.seq (.on 3 (.setAs 2 0 a1)) (.on 5 .iter)))))

theorem heldProg_sized : heldProg.Sized env := by
  simp [heldProg, HProg.Sized, SProg.Sized, env, size, a1]

theorem heldProg_inRange : heldProg.InRange env ⟨false⟩ 2 (shape heldLists) := by
  simp [heldProg, HProg.InRange, SProg.InRange, shape, heldLists, opened, NoWrap, env, size, usizeMax]

theorem heldProg_plain : (heldProg.plain 2 heldLists).1 = .ok [(2, a1)] ∧
    (heldProg.plain 2 heldLists).2 0 = some (2, [a3, a1, a2]) ∧ (heldProg.plain 2 heldLists).2 1 = some (2, [a1, a2]) := by
  decide +kernel

theorem heldPlaced : Placed heldWorld.heap heldBase := by
  constructor
  · intro i l h
    simp only [heldWorld] at h
    split at h
    · rename_i e; cases h; subst e; decide
    · split at h
      · rename_i e; cases h; subst e; decide
      · cases h
  · intro i j k l hij h1 h2
    simp only [heldWorld] at h1 h2
    split at h1 <;> split at h2 <;> rename_i e1 e2
    · omega
    · split at h2
      · rename_i e3; cases h1; cases h2; subst e1 e3; decide
      · cases h2
    · split at h1
      · rename_i e3; cases h1; cases h2; subst e2 e3; decide
      · cases h1
    · split at h1 <;> split at h2
      · omega
      · cases h2
      · cases h1
      · cases h1

theorem heldVecs_ok : StoredAt env 2 heldMem heldWorld.heap heldBase heldVecs id heldLists := by
  intro k hk
  match k with
  | 0 =>
    refine ⟨2, [a1, a2, a3], rfl, ?_, rfl, by decide +kernel⟩
    exact ⟨rfl, Nat.div_mul_cancel (env.align_dvd 2), rfl, by decide, rfl, by decide, rfl, by decide, by decide, by unfold Room; decide, 0, rfl, rfl⟩
  | 1 =>
    refine ⟨2, [a3, a2], rfl, ?_, rfl, by decide +kernel⟩
    exact ⟨rfl, Nat.div_mul_cancel (env.align_dvd 2), rfl, by decide, rfl, by decide, rfl, by decide, by decide, by unfold Room; decide, 1, rfl, rfl⟩
  | k + 2 => omega

/-- The views of the two containers in their variables. -/
theorem heldAt : HeldAt env 2 heldMem (viewsOf 2 heldVecs heldBase) heldLists :=
  heldVecs_ok.held (b := id) heldPlaced (by intro k hk; match k with | k + 2 => rfl) (fun _ _ _ _ h => h)

end Ex

open Ex in
example := C85_views (cfg := ⟨false⟩) heldAt heldProg heldProg_sized heldProg_inRange

open Ex in
example := C85_untouched (cfg := ⟨false⟩) (k := 1) heldAt (.split 0 2 (.on 3 (.setAs 2 0 a1)))
  (by simp [HProg.Sized, SProg.Sized, env, size, a1])
  (by simp [HProg.InRange, SProg.InRange, shape, heldLists, opened, NoWrap, env, size, usizeMax]) rfl (by simp [HProg.Uses])

open Ex in
/-- The middle value of the first container and the values of the second one. -/
example := C85_commute (cfg := ⟨false⟩) (a := [(2, a2)]) (b := []) heldAt (.values 0 (.on 3 .iter)) (.split 1 1 (.swapValues 2 0 3 0))
  (by simp [HProg.Sized, SProg.Sized]) (by simp [HProg.Sized])
  (by simp [HProg.InRange, SProg.InRange, shape, heldLists, opened])
  (by simp [HProg.InRange, shape, heldLists, opened, NoWrap, env, size, usizeMax])
  (by intro k hk; simp [HProg.Uses]; omega)
  (show _ = (_, (HProg.runAt env ⟨false⟩ (.values 0 (.on 3 .iter)) 2 (viewsOf 2 heldVecs heldBase) heldMem).2) from
    Prod.ext (by decide +kernel) rfl)
  (show _ = (_, (HProg.runAt env ⟨false⟩ (.split 1 1 (.swapValues 2 0 3 0)) 2 (viewsOf 2 heldVecs heldBase) _).2) from
    Prod.ext (by decide +kernel) rfl)

open Ex in
/-- The program above leaves `[3, 1, 2]` and `[1, 2]` in the two containers. -/
example : Repr env heldWorld.heap 2 [a3, a1, a2] { (heldVecs 0).data with
    mem := (heldProg.runAt env ⟨false⟩ 2 (viewsOf 2 heldVecs heldBase) heldMem).2.read 64 12 } := by
  obtain ⟨-, h, -⟩ := C85_containers (cfg := ⟨false⟩) (b := id) heldPlaced (by intro k hk; match k with | k + 2 => rfl) heldVecs_ok
    (fun _ _ _ _ h => h) heldProg heldProg_sized heldProg_inRange
  obtain ⟨t, es, h1, h2⟩ := h 0 (by decide)
  rw [heldProg_plain.2.1] at h1
  cases h1
  exact h2

end Dync
