import Verif.Props.TablePanic
/-!
# C94 What safe code can do with the public helper traits

`DropAsAligned` (src/copy_value.rs:57-94), `VTable` (src/vtable.rs:15-17), `HasDrop` and `HasClone`
(src/traits.rs:116-126) are public traits without `unsafe`: any code may call the first on boxed bytes of its
own, and implement the others for a table of its own.
-/
namespace Dync
variable {U V α : Type} {Γ : TyEnv U} {t : TyId} {es : List Bytes} {w : World U} {cfg : Cfg}

/-! ### `drop_as_aligned` -/

/-- Boxed bytes that own their memory: a block of the size of the content, with alignment `a` (1 for boxed bytes
made by safe code, the alignment of the type for the raw parts of a boxed value); no block if there are no
bytes. -/
def OwnsBytes (h : Heap) (a : Nat) (b : BoxBytes) : Prop :=
  (b.bytes.length = 0 ∧ b.ptr = none) ∨ (0 < b.bytes.length ∧ ∃ i, b.ptr = some i ∧ h.live i = some ⟨b.bytes.length, a⟩)

/-- The alignments that the crate supports. -/
def Supported (a : Nat) : Prop := ∃ k ≤ 29, a = 2 ^ k

theorem selectArm_none {a : Nat} (h : ¬ Supported a) : selectArm fullArms a = none := by
  have hk : ∀ k : Fin 30, a ≠ 2 ^ k.1 := fun k e => h ⟨k.1, by omega, e⟩
  have : ∀ p ∈ fullArms, ∃ k : Fin 30, p.1 = 2 ^ k.1 := by decide
  have hf : fullArms.find? (fun p => p.1 == a) = none := by
    rw [List.find?_eq_none]
    intro p hp
    obtain ⟨k, hk'⟩ := this p hp
    simp only [beq_iff_eq]
    intro e
    exact hk k (by rw [← e, hk'])
  simp [selectArm, hf]

theorem dropAsAligned_run {k : Nat} (hk : k ≤ 29) (b : BoxBytes) :
    (BoxBytes.dropAsAligned (2 ^ k) b : M (World U) Unit) = worldHeap (dealloc b.ptr ⟨b.bytes.length / 2 ^ k * 2 ^ k, 2 ^ k⟩) := by
  simp only [BoxBytes.dropAsAligned, evalAlign, selectArm_full hk]

/-- Calling `drop_as_aligned(n)` on boxed bytes whose memory has alignment `a`: undefined behaviour exactly if `n`
is a supported alignment not above the number of bytes, and it is not `a` or does not divide their number. -/
theorem C94_drop_as_aligned_exact {a n : Nat} {b : BoxBytes} (h : OwnsBytes w.heap a b) :
    ((BoxBytes.dropAsAligned n b w).1 = .ub ↔ Supported n ∧ n ≤ b.bytes.length ∧ ¬ (n = a ∧ n ∣ b.bytes.length)) := by
  by_cases hn : Supported n
  · obtain ⟨k, hk, rfl⟩ := hn
    have hpos : 0 < 2 ^ k := Nat.two_pow_pos k
    rw [dropAsAligned_run hk]
    rcases h with ⟨h0, hp⟩ | ⟨h0, i, hp, hi⟩
    · simp only [worldHeap, M.zoom_run, dealloc, h0, Nat.zero_div, Nat.zero_mul, if_true]
      constructor
      · intro h; cases h
      · rintro ⟨-, h1, -⟩; omega
    · by_cases hlt : b.bytes.length < 2 ^ k
      · simp only [worldHeap, M.zoom_run, dealloc, Nat.div_eq_of_lt hlt, Nat.zero_mul, if_true]
        constructor
        · intro h; cases h
        · rintro ⟨-, h1, -⟩; omega
      · have hq : 0 < b.bytes.length / 2 ^ k := Nat.div_pos (by omega) hpos
        have hne : b.bytes.length / 2 ^ k * 2 ^ k ≠ 0 := Nat.mul_ne_zero (by omega) (by omega)
        have hiff : (⟨b.bytes.length, a⟩ : Layout) = ⟨b.bytes.length / 2 ^ k * 2 ^ k, 2 ^ k⟩ ↔ (2 ^ k = a ∧ 2 ^ k ∣ b.bytes.length) := by
          constructor
          · intro e
            injection e with e1 e2
            exact ⟨e2.symm, ⟨b.bytes.length / 2 ^ k, by rw [Nat.mul_comm]; exact e1⟩⟩
          · rintro ⟨rfl, hd⟩
            rw [Nat.div_mul_cancel hd]
        have hsup : Supported (2 ^ k) := ⟨k, hk, rfl⟩
        by_cases he : 2 ^ k = a ∧ 2 ^ k ∣ b.bytes.length
        · simp only [worldHeap, M.zoom_run, dealloc, if_neg hne, hp, hi, Option.some.injEq, if_pos (hiff.2 he)]
          exact ⟨fun h => (by cases h), fun h => absurd he h.2.2⟩
        · have he' := mt hiff.1 he
          simp only [worldHeap, M.zoom_run, dealloc, if_neg hne, hp, hi, Option.some.injEq, if_neg he']
          exact ⟨fun _ => ⟨hsup, by omega, he⟩, fun _ => trivial⟩
  · have : BoxBytes.dropAsAligned n b w = (.panic .unreachable, w) := by
      simp only [BoxBytes.dropAsAligned, evalAlign, selectArm_none hn]; rfl
    rw [this]
    constructor
    · intro h; cases h
    · rintro ⟨h, -⟩; exact absurd h hn

/-- In all other cases: an unsupported alignment panics and changes nothing; the alignment of the memory, if it
divides the number of bytes, frees exactly that memory; one above the number of bytes frees nothing, although the
box is used up. -/
theorem C94_drop_as_aligned_partial {a n : Nat} {b : BoxBytes} (h : OwnsBytes w.heap a b) :
    (¬ Supported n → BoxBytes.dropAsAligned n b w = (.panic .unreachable, w)) ∧
    (Supported n → b.bytes.length < n → BoxBytes.dropAsAligned n b w = (.ok (), w)) ∧
    (Supported n → n = a → n ∣ b.bytes.length → ∀ i, b.ptr = some i →
      BoxBytes.dropAsAligned n b w = (.ok (), { w with heap := w.heap.free i })) := by
  refine ⟨fun hn => ?_, ?_, ?_⟩
  · simp only [BoxBytes.dropAsAligned, evalAlign, selectArm_none hn]; rfl
  · rintro ⟨k, hk, rfl⟩ hlt
    rw [dropAsAligned_run hk]
    simp [worldHeap, dealloc, Nat.div_eq_of_lt hlt]
  · rintro ⟨k, hk, rfl⟩ rfl hd i hp
    rw [dropAsAligned_run hk, Nat.div_mul_cancel hd]
    rcases h with ⟨-, h2⟩ | ⟨h0, j, h2, hj⟩
    · rw [h2] at hp; cases hp
    · rw [h2] at hp; cases hp
      simp [worldHeap, dealloc, h2, hj, Nat.ne_of_gt h0]

/-- The full claim: `drop_as_aligned`, being safe to call, is never undefined on boxed bytes made by safe code. -/
def C94_drop_full : Prop :=
  ∀ (U : Type) (w : World U) (b : BoxBytes) (n : Nat), OwnsBytes w.heap 1 b → (BoxBytes.dropAsAligned n b w).1 ≠ .ub

/-- Eight bytes boxed by safe code. -/
def Ex.plainBox : BoxBytes := ⟨some 0, List.replicate 8 (some 0)⟩
def Ex.plainBoxWorld : World Ex.Log := ⟨Ex.oneHeap ⟨8, 1⟩, []⟩
theorem Ex.plainBox_owns : OwnsBytes Ex.plainBoxWorld.heap 1 Ex.plainBox := .inr ⟨by decide, 0, rfl, rfl⟩

theorem C94_drop_refuted : ¬ C94_drop_full := fun h =>
  h Ex.Log Ex.plainBoxWorld Ex.plainBox 8 Ex.plainBox_owns
    ((C94_drop_as_aligned_exact Ex.plainBox_owns).2 ⟨⟨3, by decide, rfl⟩, by decide, by decide⟩)

example := C94_drop_as_aligned_partial (n := 16) Ex.plainBox_owns

/-! ### Tables of one's own -/

/-- A table written by the user: a builtin table for some type of their choice. -/
structure UserTable (U : Type) where
  inner : CloneVTable U

/-- `impl HasDrop for UserTable` that forwards. -/
instance : HasDrop U (UserTable U) := ⟨fun v => HasDrop.dropFn v.inner⟩
/-- `impl HasClone for UserTable` that forwards. -/
instance : HasClone U (UserTable U) :=
  ⟨fun v => HasClone.cloneFn v.inner, fun v => HasClone.cloneFromFn v.inner, fun v => HasClone.cloneIntoRawFn v.inner⟩

/-- `impl<T> VTable<T> for UserTable`, in safe code: the builtin table of the type `pick T`. -/
def UserTable.build (Γ : TyEnv U) (pick : TyId → TyId) (t : TyId) : UserTable U := ⟨CloneVTable.build Γ (pick t)⟩

/-- The full claim: whatever the implementation, a container made with it destroys and clones its elements with
the code of their own type. -/
def C94_table_full : Prop :=
  ∀ (U : Type) (Γ : TyEnv U) (cfg : Cfg) (pick : TyId → TyId) (t : TyId) (es : List Bytes) (rv : RVec) (w w' : World U)
    (c : VecDyn (UserTable U)), IsVec Γ w.heap t es rv → w.heap.WF → 0 < Γ.size t →
    VecCopy.fromVecT Γ cfg t (pure (UserTable.build Γ pick t)) rv w = (.ok c, w') →
    LawfulDrop Γ t c.vtable ∧ LawfulClone Γ t c.vtable

/-- It holds if the implementation picks the type itself. Missing: any other implementation. -/
theorem C94_table_partial {pick : TyId → TyId} {rv : RVec} (hv : IsVec Γ w.heap t es rv) (wf : w.heap.WF)
    (hpos : 0 < Γ.size t) (hp : pick t = t) :
    ∃ c w', VecCopy.fromVecT Γ cfg t (pure (UserTable.build Γ pick t)) rv w = (.ok c, w') ∧ Repr Γ w'.heap t es c.data ∧
      LawfulDrop Γ t c.vtable ∧ LawfulClone Γ t c.vtable := by
  obtain ⟨d, h', R, -, hok, -⟩ := C93_from_vec (cfg := cfg) (build := pure (UserTable.build Γ pick t)) hv wf hpos
  refine ⟨_, _, hok _ _ rfl, R, ?_, ?_⟩
  · simp only [UserTable.build, hp]; exact lawfulDrop_of rfl
  · simp only [UserTable.build, hp]; exact lawfulClone_of rfl rfl rfl

/-- A `Vec<u64>` of one element. -/
def Ex.vecLongs : RVec := ⟨some 0, 1, 1, Ex.b1⟩
theorem Ex.vecLongs_isVec : IsVec Ex.env (Ex.world 5 1).heap 5 [Ex.b1] Ex.vecLongs :=
  ⟨rfl, by decide, rfl, by decide, by unfold Room; decide, .inr ⟨by decide, 0, rfl, rfl⟩⟩

example := C94_table_partial (cfg := ⟨true⟩) (pick := id) Ex.vecLongs_isVec (Ex.oneHeap_wf _) (by decide) rfl

theorem C94_table_refuted : ¬ C94_table_full := by
  intro h
  obtain ⟨d, h', R, -, hok, -⟩ := C93_from_vec (cfg := ⟨true⟩) (build := pure (UserTable.build Ex.env (fun _ => 7) 5))
    Ex.vecLongs_isVec (Ex.oneHeap_wf _) (by decide)
  have hl := (h _ Ex.env ⟨true⟩ (fun _ => 7) 5 _ _ _ _ _ Ex.vecLongs_isVec (Ex.oneHeap_wf _) (by decide) (hok _ _ rfl)).1
  have h4 := hl Ex.b1 rfl
  have h6 : HasDrop.dropFn (UserTable.build Ex.env (fun _ => 7) 5) Ex.b1 = Ex.env.drop 7 Ex.b1 := Ex.cloneVT_drop 7 Ex.b1 rfl
  rw [h6] at h4
  have h5 : (Ex.env.drop 7 Ex.b1 []).2 ≠ (Ex.env.drop 5 Ex.b1 []).2 := by decide
  exact h5 (by rw [h4])

/-- The consequence: a container of a `u64` whose elements are destroyed by the destructor of another type. -/
theorem C94_table_drop_refuted :
    let prog : M (World Ex.Log) Unit := (do
      let c ← VecCopy.fromVecT Ex.env ⟨true⟩ 5 (pure (UserTable.build Ex.env (fun _ => 7) 5)) Ex.vecLongs
      VecDyn.drop ⟨true⟩ c)
    (prog (Ex.world 5 1)).1 = .ok () ∧ (prog (Ex.world 5 1)).2.user = [.dropped 7 Ex.b1] := by decide +kernel

end Dync
