import Verif.Machine
import Verif.SafetyLemmas
/-!
# The methods of `VecCopy` do what the machine of `Machine.lean` says
-/
namespace Dync
variable {U V α : Type}

/-! ### Growth of buffers -/

theorem nextCap_eq (T : Layout) (c n : Nat) : RVec.grownCap T c n = nextCap T.size c n := by
  unfold RVec.grownCap nextCap RVec.minNonZeroCap leastCap
  rw [Nat.mul_comm c 2]

theorem need_le_nextCap (u c n : Nat) : n ≤ nextCap u c n := by unfold nextCap; omega
theorem cap_le_nextCap (u c n : Nat) : c ≤ nextCap u c n := by unfold nextCap; omega

/-- `Vec::reserve` by cases of `growth`. -/
theorem RVec.reserve_cases {T : Layout} {v : RVec} {w : World U} {s cap len i : Nat} (k : Nat) (hT : 0 < T.size) (hs : 0 < s)
    (hcap : v.cap = cap * s) (hlen : v.len = len * s) (hpos : 0 < cap) (wf : w.heap.WF)
    (hp : v.ptr = some i) (hl : w.heap.live i = some ⟨v.cap * T.size, T.align⟩) :
    (growth T.size T.align s cap len k = .keep ∧ RVec.reserve T k (v, w) = (.ok (), (v, w)) ∧ len * s + k ≤ max (len * s) (cap * s)) ∨
    (∃ c j h', growth T.size T.align s cap len k = .grown c ∧
      RVec.reserve T k (v, w) = (.ok (), (⟨some j, v.len, c * s, v.bytes⟩, { w with heap := h' })) ∧
      Realloc w.heap (some i) h' (some j) ∧ h'.live j = some ⟨c * s * T.size, T.align⟩ ∧ cap ≤ c ∧ len * s + k ≤ c * s ∧
      c * s * T.size + (T.align - 1) ≤ isizeMax) ∨
    (growth T.size T.align s cap len k = .full ∧ ∃ y, RVec.reserve T k (v, w) = (.panic y, (v, w))) ∨
    (growth T.size T.align s cap len k = .torn ∧ ∃ C j h',
      RVec.reserve T k (v, w) = (.ok (), (⟨some j, v.len, C, v.bytes⟩, { w with heap := h' })) ∧
      Realloc w.heap (some i) h' (some j) ∧ h'.live j ≠ none ∧ s ≤ C ∧ C % s ≠ 0) := by
  unfold growth
  have hsub : v.cap - v.len = (cap - len) * s := by rw [hcap, hlen, Nat.sub_mul]
  have hc0 : 0 < v.cap := by rw [hcap]; exact Nat.mul_pos hpos hs
  by_cases h1 : k ≤ (cap - len) * s
  · left
    refine ⟨if_pos h1, RVec.reserve_fit (by omega), ?_⟩
    rw [Nat.sub_mul] at h1
    omega
  rw [if_neg h1]
  have hlt : v.cap - v.len < k := by omega
  have hn : len * s + k ≤ nextCap T.size (cap * s) (len * s + k) := need_le_nextCap _ _ _
  have hcn : cap * s ≤ nextCap T.size (cap * s) (len * s + k) := cap_le_nextCap _ _ _
  have hg : RVec.grownCap T v.cap (v.len + k) = nextCap T.size (cap * s) (len * s + k) := by
    rw [nextCap_eq, hcap, hlen]
  by_cases h2 : isizeMax < nextCap T.size (cap * s) (len * s + k) * T.size + (T.align - 1)
  · right; right; left
    refine ⟨if_pos h2, .capacity, ?_⟩
    simp only [RVec.reserve, RVec.grow, M.bind_run, M.get_run, if_pos hlt, if_neg (Nat.ne_of_gt hT), hg]
    by_cases h3 : usizeMax < v.len + k
    · simp only [if_pos h3]; rfl
    · simp only [if_neg h3, if_pos h2]; rfl
  rw [if_neg h2]
  have hroom : RVec.grownCap T v.cap (v.len + k) * T.size + (T.align - 1) ≤ isizeMax := by rw [hg]; omega
  have hrun := RVec.reserve_grow (w := w) hlt (Nat.ne_of_gt hT) (Nat.ne_of_gt hc0) hp hl hroom
  rw [hg] at hrun
  have hsz : (⟨nextCap T.size (cap * s) (len * s + k) * T.size, T.align⟩ : Layout).size ≠ 0 :=
    Nat.ne_of_gt (Nat.mul_pos (Nat.lt_of_lt_of_le (Nat.mul_pos hpos hs) hcn) hT)
  have hre := Realloc.of_free_alloc wf hl hsz
  have hal := Heap.alloc_live (h := w.heap.free i) hsz
  rw [hal.1] at hre hrun
  by_cases h3 : nextCap T.size (cap * s) (len * s + k) % s = 0
  · right; left
    have hd : nextCap T.size (cap * s) (len * s + k) / s * s = nextCap T.size (cap * s) (len * s + k) :=
      Nat.div_mul_cancel (Nat.dvd_of_mod_eq_zero h3)
    refine ⟨_, _, _, if_pos h3, ?_, hre, ?_, ?_, ?_, ?_⟩
    · rw [hrun, hd]
    · rw [hd]; exact hal.2
    · exact (Nat.le_div_iff_mul_le hs).2 hcn
    · rw [hd]; exact hn
    · rw [hd]; omega
  · right; right; right
    refine ⟨if_neg h3, _, _, _, hrun, hre, ?_, ?_, h3⟩
    · rw [hal.2]; simp
    · exact Nat.le_trans (Nat.le_mul_of_pos_left _ hpos) hcn

/-- `Vec::push` is `reserve(1)` and a write. -/
theorem RVec.push_eq {T : Layout} {v : RVec} {w : World U} (x : Bytes) (h : v.len ≤ v.cap) :
    RVec.push T x (v, w) = (do
      RVec.reserve T 1
      M.modify fun s => ({ s.1 with len := s.1.len + 1, bytes := s.1.bytes ++ x }, s.2) : M (RVec × World U) Unit) (v, w) := by
  simp only [RVec.push, RVec.reserve, M.bind_run, M.get_run]
  by_cases hc : v.len = v.cap
  · rw [if_pos hc, if_pos (by omega)]; rfl
  · rw [if_neg hc, if_neg (by omega)]; rfl

/-! ### What it means that a method does what the machine says -/

/-- A result is the outcome of the machine. -/
def Out.Is (r : Res Obs) : Out → Prop
  | .ok o => r = .ok o
  | .panic => ∃ y, r = .panic y
  | .ub => r = .ub

/-- What happens to the block at `p`. -/
def Moves (h : Heap) (p : Ptr) (h' : Heap) (p' : Ptr) : Bool → Prop
  | true => p' = none ∧ ∃ j, h'.live j ≠ none ∧ Realloc h p h' (some j)
  | false => Realloc h p h' p'

/-- A method of `VecVoid`. -/
def After.AgreesV (Γ : TyEnv U) (m : M (VecVoid × World U) Unit) (v : VecVoid) (w : World U) (a : After) : Prop :=
  ∃ r d h', m (v, w) = (r, (d, { w with heap := h' })) ∧ a.out.Is (r.map fun _ => Obs.done) ∧ a.now.Is Γ h' d ∧
    Moves w.heap v.ptr h' d.ptr a.leak

/-- A method of `VecCopy`. -/
def After.Agrees (Γ : TyEnv U) (m : M (VecCopy V × World U) Obs) (c : VecCopy V) (w : World U) (a : After) : Prop :=
  a.out = .ub ∧ (m (c, w)).1 = .ub ∨ a.out ≠ .ub ∧
  ∃ r d h', m (c, w) = (r, ({ c with data := d }, { w with heap := h' })) ∧ a.out.Is r ∧ a.now.Is Γ h' d ∧
    Moves w.heap c.data.ptr h' d.ptr a.leak

variable {Γ : TyEnv U} {t : TyId} {es : List Bytes} {v : VecVoid} {c : VecCopy V} {w : World U} {cfg : Cfg}

theorem IsUnits.default (Γ : TyEnv U) : IsUnits Γ 0 (VecVoid.default Γ) := ⟨rfl, rfl, rfl, rfl, rfl⟩

theorem perElem_pos (hpos : 0 < Γ.size t) : 0 < perElem Γ t :=
  Nat.div_pos (Nat.le_of_dvd hpos (Γ.align_dvd t)) (align_pos Γ t)

theorem perElem_mul (Γ : TyEnv U) (t : TyId) : perElem Γ t * Γ.align t = Γ.size t := Nat.div_mul_cancel (Γ.align_dvd t)

theorem Repr.perElem_eq {h : Heap} (R : Repr Γ h t es v) : v.elem.size = perElem Γ t := by rw [R.elem_eq]; rfl

/-- The content is lost, the block is freed. -/
theorem AgreesV.lost {m : M (VecVoid × World U) Unit} {y : Why} {w' : World U} {i : Nat} (wf : w.heap.WF) (hp : v.ptr = some i)
    (hw : w' = { w with heap := w.heap.free i })
    (hm : m (v, w) = (.panic y, (VecVoid.default Γ, w'))) : After.lost.AgreesV Γ m v w := by
  refine ⟨_, _, w.heap.free i, by rw [hm, hw], ⟨y, rfl⟩, IsUnits.default Γ, ?_⟩
  show Realloc _ _ _ _
  rw [hp]
  exact ⟨wf.free i, Nat.le_refl _, fun j h1 _ => by simp only [Heap.free]; rw [if_neg (fun e => h1 (by rw [e]))],
    fun _ j e => by cases e; simp [Heap.free], fun _ _ e => by cases e⟩

/-- The content is lost, the block is leaked. -/
theorem AgreesV.leaked {m : M (VecVoid × World U) Unit} {y : Why} {h' : Heap} {j : Nat} (hre : Realloc w.heap v.ptr h' (some j))
    (hl : h'.live j ≠ none) (hm : m (v, w) = (.panic y, (VecVoid.default Γ, { w with heap := h' }))) :
    After.leaked.AgreesV Γ m v w :=
  ⟨_, _, h', hm, ⟨y, rfl⟩, IsUnits.default Γ, rfl, j, hl, hre⟩

theorem AgreesV.ok {m : M (VecVoid × World U) Unit} {h' : Heap} {d : VecVoid} {x : XVec} (hx : x.Is Γ h' d)
    (hre : Realloc w.heap v.ptr h' d.ptr) (hm : m (v, w) = (.ok (), (d, { w with heap := h' }))) :
    (After.mk (.ok .done) x false).AgreesV Γ m v w := ⟨_, d, h', hm, rfl, hx, hre⟩

/-- A container over a grown buffer. -/
theorem Repr.regrow {h h' : Heap} {es' : List Bytes} {k j : Nat} (R : Repr Γ h t es v) (he : ∀ e ∈ es', e.length = Γ.size t)
    (hk : es'.length ≤ k) (hpos : 0 < k) (hl : h'.live j = some ⟨k * v.elem.size * Γ.align t, Γ.align t⟩)
    (hr : k * v.elem.size * Γ.align t + (Γ.align t - 1) ≤ isizeMax) :
    Repr Γ h' t es' ⟨some j, es'.length, k, v.elem, es'.flatten⟩ := by
  rw [Nat.mul_assoc, R.chunks] at hl hr
  exact ⟨R.type_id, R.chunks, R.align, R.pos, rfl, he, rfl, hk, hpos, hr, j, rfl, hl⟩

theorem umul_times {σ : Type} (a b : Nat) (s : σ) :
    umul cfg a b s = match times cfg a b with
      | some k => (.ok k, s)
      | none => (.panic .overflow, s) := by
  unfold umul times
  have : usizeMax + 1 = 2 ^ 64 := by decide
  by_cases h : a * b ≤ usizeMax
  · simp only [if_pos h, if_pos (show a * b < 2 ^ 64 by omega)]; rfl
  · simp only [if_neg h, if_neg (show ¬ a * b < 2 ^ 64 by omega), this]
    by_cases hd : cfg.debug = true
    · simp only [if_pos hd]; rfl
    · simp only [if_neg hd]; rfl

/-- The room a container has to make, through the view of its buffer in units. -/
theorem Repr.room_cases {W : Type} {w : World W} (R : Repr Γ w.heap t es v) (wf : w.heap.WF) (k : Nat) :
    (growth (Γ.align t) (Γ.align t) (perElem Γ t) v.cap es.length k = .keep ∧
      RVec.reserve ⟨Γ.align t, Γ.align t⟩ k (v.chunkView, w) = (.ok (), (v.chunkView, w)) ∧
      es.length * v.elem.size + k ≤ v.cap * v.elem.size) ∨
    (∃ c j h', growth (Γ.align t) (Γ.align t) (perElem Γ t) v.cap es.length k = .grown c ∧
      RVec.reserve ⟨Γ.align t, Γ.align t⟩ k (v.chunkView, w) =
        (.ok (), (⟨some j, v.len * v.elem.size, c * v.elem.size, v.mem⟩, { w with heap := h' })) ∧
      Realloc w.heap v.ptr h' (some j) ∧ h'.live j = some ⟨c * v.elem.size * Γ.align t, Γ.align t⟩ ∧ v.cap ≤ c ∧
      es.length * v.elem.size + k ≤ c * v.elem.size ∧ c * v.elem.size * Γ.align t + (Γ.align t - 1) ≤ isizeMax) ∨
    (growth (Γ.align t) (Γ.align t) (perElem Γ t) v.cap es.length k = .full ∧
      ∃ y, RVec.reserve ⟨Γ.align t, Γ.align t⟩ k (v.chunkView, w) = (.panic y, (v.chunkView, w))) ∨
    (growth (Γ.align t) (Γ.align t) (perElem Γ t) v.cap es.length k = .torn ∧ ∃ C j h',
      RVec.reserve ⟨Γ.align t, Γ.align t⟩ k (v.chunkView, w) =
        (.ok (), (⟨some j, v.len * v.elem.size, C, v.mem⟩, { w with heap := h' })) ∧
      Realloc w.heap v.ptr h' (some j) ∧ h'.live j ≠ none ∧ v.elem.size ≤ C ∧ C % v.elem.size ≠ 0) := by
  obtain ⟨i, hp, hl⟩ := R.chunkBlock
  have hc := RVec.reserve_cases (T := ⟨Γ.align t, Γ.align t⟩) (v := v.chunkView) (w := w) (s := v.elem.size) (cap := v.cap)
    (len := es.length) k (align_pos Γ t) R.chunk_pos rfl (by show v.len * _ = _; rw [R.len]) R.cap_pos wf hp hl
  have hle := Nat.mul_le_mul_right v.elem.size R.len_cap
  rw [← R.perElem_eq, hp]
  rcases hc with ⟨h1, h2, h3⟩ | h | h | h
  · exact .inl ⟨h1, h2, by omega⟩
  · exact .inr (.inl h)
  · exact .inr (.inr (.inl h))
  · exact .inr (.inr (.inr h))

theorem mul_mod_self_right (a b : Nat) : a * b % b = 0 := Nat.mul_mod_left _ _

/-- `VecVoid::reserve`. -/
theorem VecVoid.reserve_agrees (R : Repr Γ w.heap t es v) (wf : w.heap.WF) (n : Nat) :
    (XVec.reserve Γ cfg n (.vec t es v.cap)).AgreesV Γ (VecVoid.reserve Γ cfg n) v w := by
  obtain ⟨i, hp, hdrop⟩ := R.dropChunk
  have hrun : VecVoid.reserve Γ cfg n (v, w) = VecVoid.applyAligned Γ cfg ⟨Γ.align t, Γ.align t⟩ (do
      let m ← umul cfg n (perElem Γ t)
      RVec.reserve ⟨Γ.align t, Γ.align t⟩ m) (v, w) := by
    simp only [VecVoid.reserve, M.bind_run, getSelf_run, R.align, evalAlign_align, R.perElem_eq]
  simp only [XVec.reserve, XVec.room]
  cases ht : times cfg n (perElem Γ t) with
  | none =>
    refine AgreesV.lost wf hp rfl (y := .overflow) (hrun.trans (applyAligned_panic R (v' := v.chunkView) (w' := w) ?_ hdrop))
    simp only [M.bind_run, umul_times, ht]
  | some k =>
    have hf : (do
        let m ← umul cfg n (perElem Γ t)
        RVec.reserve ⟨Γ.align t, Γ.align t⟩ m : M (RVec × World U) Unit) (v.chunkView, w) =
        RVec.reserve ⟨Γ.align t, Γ.align t⟩ k (v.chunkView, w) := by simp only [M.bind_run, umul_times, ht]
    rcases R.room_cases wf k with ⟨h1, h2, h3⟩ | ⟨c, j, h', h1, h2, h3, h4, h5, h6, h7⟩ | ⟨h1, y, h2⟩ |
        ⟨h1, C, j, h', h2, h3, h4, h5, h6⟩
    · simp only [h1]
      have := applyAligned_ok (cfg := cfg) R (hf.trans h2) (n := v.len) (c := v.cap) rfl rfl R.cap_pos
      exact AgreesV.ok (d := v) (x := .vec t es v.cap) ⟨R, rfl⟩ (Realloc.refl wf _) (hrun.trans this)
    · simp only [h1]
      have := applyAligned_ok (cfg := cfg) R (hf.trans h2) (n := v.len) (c := c) rfl rfl (Nat.lt_of_lt_of_le R.cap_pos h5)
      refine AgreesV.ok (x := .vec t es c) ⟨?_, rfl⟩ h3 (hrun.trans this)
      have := R.regrow (es' := es) (k := c) (j := j) (h' := h') R.each (Nat.le_trans R.len_cap h5) (Nat.lt_of_lt_of_le R.cap_pos h5) h4 h7
      rw [R.mem, R.len]
      exact this
    · simp only [h1]
      exact AgreesV.lost wf hp rfl (hrun.trans (applyAligned_panic R (hf.trans h2) hdrop))
    · simp only [h1]
      exact AgreesV.leaked h3 h4 (hrun.trans (applyAligned_badCap R (hf.trans h2) h5 (mul_mod_self_right _ _) h6))

end Dync
