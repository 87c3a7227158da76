import Verif.DynMachine
import Verif.MachineLemmas7
/-!
# Tools for the machine of `DynMachine.lean`: running both sides in step, and who owns which block
-/
namespace Dync
variable {U V α β γ δ σ τ : Type}

/-! ### Running both sides in step -/

/-- The implementation result `r` ends as the machine result `q`: `Q` holds after a regular end, `E` after a
panic. -/
def InStep (Q : α → σ → β → τ → Prop) (E : σ → τ → Prop) (r : Res α × σ) (q : Res β × τ) : Prop :=
  match q with
  | (.ok b, t) => ∃ a s, r = (.ok a, s) ∧ Q a s b t
  | (.panic _, t) => ∃ y s, r = (.panic y, s) ∧ E s t
  | (.ub, _) => r.1 = .ub
  | (.abort, _) => r.1 = .abort

variable {Q : α → σ → β → τ → Prop} {E : σ → τ → Prop} {r : Res α × σ} {q : Res β × τ}

theorem InStep.ok {a : α} {s : σ} {b : β} {t : τ} (h : Q a s b t) : InStep Q E (.ok a, s) (.ok b, t) := ⟨a, s, rfl, h⟩
theorem InStep.panic {y z : Why} {s : σ} {t : τ} (h : E s t) : InStep Q E (.panic y, s) (.panic z, t) := ⟨y, s, rfl, h⟩
theorem InStep.ub {s : σ} {t : τ} : InStep Q E (.ub, s) (.ub, t) := rfl
theorem InStep.abort {s : σ} {t : τ} : InStep Q E (.abort, s) (.abort, t) := rfl

theorem InStep.mono {Q' : α → σ → β → τ → Prop} {E' : σ → τ → Prop} (h : InStep Q E r q)
    (hQ : ∀ a s b t, Q a s b t → Q' a s b t) (hE : ∀ s t, E s t → E' s t) : InStep Q' E' r q := by
  rcases q with ⟨q, t⟩
  cases q with
  | ok b => obtain ⟨a, s, h1, h2⟩ := h; exact ⟨a, s, h1, hQ _ _ _ _ h2⟩
  | panic y => obtain ⟨y, s, h1, h2⟩ := h; exact ⟨y, s, h1, hE _ _ h2⟩
  | ub => exact h
  | abort => exact h

theorem InStep.bind {m : M σ α} {n : M τ β} {f : α → M σ γ} {g : β → M τ δ} {s : σ} {t : τ}
    {Q' : γ → σ → δ → τ → Prop} {E' : σ → τ → Prop} (h : InStep Q E (m s) (n t))
    (hf : ∀ a s b t, Q a s b t → InStep Q' E' (f a s) (g b t)) (hE : ∀ s t, E s t → E' s t) :
    InStep Q' E' ((m >>= f) s) ((n >>= g) t) := by
  simp only [M.bind_run]
  rcases hq : n t with ⟨q, t'⟩
  rw [hq] at h
  cases q with
  | ok b => obtain ⟨a, s', h1, h2⟩ := h; rw [h1]; exact hf _ _ _ _ h2
  | panic y => obtain ⟨y, s', h1, h2⟩ := h; rw [h1]; exact ⟨y, s', rfl, hE _ _ h2⟩
  | ub =>
    rcases hr : m s with ⟨r, s'⟩
    rw [hr] at h
    have h : r = .ub := h
    subst h; rfl
  | abort =>
    rcases hr : m s with ⟨r, s'⟩
    rw [hr] at h
    have h : r = .abort := h
    subst h; rfl

/-- A computation followed by a conversion of its result. -/
theorem InStep.map {m : M σ α} {n : M τ β} {f : α → γ} {g : β → δ} {s : σ} {t : τ}
    {Q' : γ → σ → δ → τ → Prop} (h : InStep Q E (m s) (n t))
    (hf : ∀ a s b t, Q a s b t → Q' (f a) s (g b) t) :
    InStep Q' E ((m >>= fun a => pure (f a)) s) ((n >>= fun b => pure (g b)) t) :=
  h.bind (fun a s b t hq => .ok (hf a s b t hq)) (fun _ _ h => h)

theorem InStep.thenDrop {m : M σ α} {n : M τ β} {d : M σ Unit} {e : M τ Unit} {s : σ} {t : τ}
    {Q' : α → σ → β → τ → Prop} {E' : σ → τ → Prop} (h : InStep Q E (m s) (n t))
    (hQ : ∀ a s b t, Q a s b t → InStep (fun _ s _ t => Q' a s b t) E' (d s) (e t))
    (hE : ∀ s t, E s t → InStep (fun _ s _ t => E' s t) (fun _ _ => True) (d s) (e t)) :
    InStep Q' E' (M.thenDrop m d s) (M.thenDrop n e t) := by
  unfold M.thenDrop
  simp only
  rcases hq : n t with ⟨q, t'⟩
  rw [hq] at h
  cases q with
  | ok b =>
    obtain ⟨a, s', h1, h2⟩ := h
    have h3 := hQ _ _ _ _ h2
    rw [h1]
    simp only
    rcases he : e t' with ⟨q2, t2⟩
    rw [he] at h3
    cases q2 with
    | ok b2 => obtain ⟨a2, s2, h4, h5⟩ := h3; rw [h4]; exact .ok h5
    | panic z => obtain ⟨z, s2, h4, h5⟩ := h3; rw [h4]; exact .panic h5
    | ub =>
      rcases hd : d s' with ⟨r2, s2⟩
      rw [hd] at h3
      have h3 : r2 = .ub := h3
      subst h3; rfl
    | abort =>
      rcases hd : d s' with ⟨r2, s2⟩
      rw [hd] at h3
      have h3 : r2 = .abort := h3
      subst h3; rfl
  | panic y =>
    obtain ⟨y, s', h1, h2⟩ := h
    have h3 := hE _ _ h2
    rw [h1]
    simp only
    rcases he : e t' with ⟨q2, t2⟩
    rw [he] at h3
    cases q2 with
    | ok b2 => obtain ⟨a2, s2, h4, h5⟩ := h3; rw [h4]; exact .panic h5
    | panic z => obtain ⟨z, s2, h4, h5⟩ := h3; rw [h4]; exact .abort
    | ub =>
      rcases hd : d s' with ⟨r2, s2⟩
      rw [hd] at h3
      have h3 : r2 = .ub := h3
      subst h3; rfl
    | abort =>
      rcases hd : d s' with ⟨r2, s2⟩
      rw [hd] at h3
      have h3 : r2 = .abort := h3
      subst h3; rfl
  | ub =>
    rcases hr : m s with ⟨r, s'⟩
    rw [hr] at h
    have h : r = .ub := h
    subst h; rfl
  | abort =>
    rcases hr : m s with ⟨r, s'⟩
    rw [hr] at h
    have h : r = .abort := h
    subst h; rfl

/-- A destructor while unwinding, followed by the panic. -/
theorem InStep.unwind {d : M σ Unit} {e : M τ Unit} {s : σ} {t : τ} {y z : Why}
    (h : InStep (fun _ s _ t => E s t) (fun _ _ => True) (d s) (e t)) :
    InStep Q E (match d s with
        | (.ok _, s'') => ((.panic y : Res α), s'')
        | (.panic _, s'') => (.abort, s'')
        | (.ub, s'') => (.ub, s'')
        | (.abort, s'') => (.abort, s'')) ((M.unwindDrop e >>= fun _ => (M.panic z : M τ β)) t) := by
  simp only [M.bind_run, M.unwindDrop]
  rcases he : e t with ⟨q2, t2⟩
  rw [he] at h
  cases q2 with
  | ok b2 => obtain ⟨a2, s2, h4, h5⟩ := h; rw [h4]; exact .panic h5
  | panic z => obtain ⟨z, s2, h4, h5⟩ := h; rw [h4]; exact .abort
  | ub =>
    rcases hd : d s with ⟨r2, s2⟩
    rw [hd] at h
    have h3 : r2 = .ub := h
    subst h3; rfl
  | abort =>
    rcases hd : d s with ⟨r2, s2⟩
    rw [hd] at h
    have h3 : r2 = .abort := h
    subst h3; rfl

/-! ### Who owns which block -/

/-- The live blocks are those of the frame `F` (with the given layouts), the blocks `O`, and `n` leaked ones. -/
structure Blocks (F : Nat → Option Layout) (O : List Nat) (h : Heap) (n : Nat) : Prop where
  wf : h.WF
  frame : ∀ i l, F i = some l → h.live i = some l
  rest : ∃ L : List Nat, L.length = n ∧ (O ++ L).Nodup ∧ (∀ i ∈ O ++ L, F i = none ∧ h.live i ≠ none) ∧
    ∀ i, h.live i ≠ none → F i ≠ none ∨ i ∈ O ++ L

variable {F : Nat → Option Layout} {O : List Nat} {h h' : Heap} {n : Nat} {p p' : Ptr} {i : Nat}

theorem Blocks.perm {O' : List Nat} (B : Blocks F O h n) (hp : O.Perm O') : Blocks F O' h n := by
  obtain ⟨L, h1, h2, h3, h4⟩ := B.rest
  have hm : ∀ i, i ∈ O ++ L ↔ i ∈ O' ++ L := fun i => (hp.append_right L).mem_iff
  exact ⟨B.wf, B.frame, L, h1, (hp.append_right L).nodup_iff.1 h2, fun i hi => h3 i ((hm i).2 hi),
    fun i hi => (h4 i hi).imp_right (hm i).1⟩

/-- A block is kept, exchanged or freed. -/
theorem Blocks.move (B : Blocks F (p.toList ++ O) h n) (re : Realloc h p h' p') (hl : ∀ i, p' = some i → h'.live i ≠ none) :
    Blocks F (p'.toList ++ O) h' n := by
  obtain ⟨L, h1, h2, h3, h4⟩ := B.rest
  rw [List.append_assoc] at h2 h3 h4
  have hfr : ∀ i, h.live i ≠ none → p ≠ some i → h'.live i = h.live i := by
    intro i hi hne
    refine re.other i (fun e => hne e.symm) fun e => ?_
    by_cases hpp : p' = p
    · exact hne (hpp.symm.trans e.symm)
    · have := re.new_fresh hpp i e.symm
      have := live_lt B.wf hi
      omega
  have hnew : ∀ i, p' = some i → p ≠ some i → h.next ≤ i := fun i hi hne => re.new_fresh (fun e => hne (e.symm.trans hi)) i hi
  have hLp : ∀ i ∈ O ++ L, p ≠ some i := by
    intro i hi e
    rw [e] at h2
    simp only [Option.toList_some, List.cons_append, List.nil_append, List.nodup_cons] at h2
    exact h2.1 hi
  have hFp : ∀ i l, F i = some l → p ≠ some i := by
    intro i l hi e
    have := (h3 i (by simp [e])).1
    rw [this] at hi
    cases hi
  refine ⟨re.wf, ?_, L, h1, ?_, ?_, ?_⟩
  · intro i l hi
    have := B.frame i l hi
    rw [hfr i (by rw [this]; simp) (hFp i l hi), this]
  · rw [List.append_assoc]
    cases hp' : p' with
    | none => exact (List.nodup_append.1 h2).2.1
    | some j =>
      simp only [Option.toList_some, List.cons_append, List.nil_append, List.nodup_cons]
      refine ⟨fun hj => ?_, (List.nodup_append.1 h2).2.1⟩
      have h5 := live_lt B.wf (h3 j (List.mem_append_right _ hj)).2
      have h6 := hnew j hp' (hLp j hj)
      omega
  · intro i hi
    rw [List.append_assoc] at hi
    rcases List.mem_append.1 hi with h5 | h5
    · have h5 : p' = some i := by simpa using h5
      refine ⟨?_, hl i h5⟩
      by_cases e : p = some i
      · exact (h3 i (by simp [e])).1
      · have h6 := hnew i h5 e
        cases hF : F i with
        | none => rfl
        | some l =>
          have := live_lt B.wf (i := i) (by rw [B.frame i l hF]; simp)
          omega
    · have h6 := h3 i (List.mem_append_right _ h5)
      exact ⟨h6.1, by rw [hfr i h6.2 (hLp i h5)]; exact h6.2⟩
  · intro i hi
    rw [List.append_assoc]
    by_cases e' : p' = some i
    · right; simp [e']
    by_cases e : p = some i
    · exact absurd (re.old_dead (fun hpp => e' (hpp.trans e)) i e) hi
    · rw [re.other i (fun h => e h.symm) (fun h => e' h.symm)] at hi
      rcases h4 i hi with h5 | h5
      · exact .inl h5
      · rcases List.mem_append.1 h5 with h6 | h6
        · exact absurd (by simpa using h6) e
        · exact .inr (List.mem_append_right _ h6)

/-- A block is not owned any more. -/
theorem Blocks.leak (B : Blocks F (p.toList ++ O) h n) : Blocks F O h (n + p.toList.length) := by
  obtain ⟨L, h1, h2, h3, h4⟩ := B.rest
  have hp : (p.toList ++ O ++ L).Perm (O ++ (p.toList ++ L)) := by
    rw [List.append_assoc]
    exact List.perm_append_comm_assoc _ _ _
  exact ⟨B.wf, B.frame, p.toList ++ L, by simp [h1]; omega, hp.nodup_iff.1 h2, fun i hi => h3 i (hp.mem_iff.2 hi),
    fun i hi => (h4 i hi).imp_right hp.mem_iff.1⟩

theorem Blocks.moves {lk : Bool} (B : Blocks F (p.toList ++ O) h n) (m : Moves h p h' p' lk)
    (hl : ∀ i, p' = some i → h'.live i ≠ none) : Blocks F (p'.toList ++ O) h' (n + if lk then 1 else 0) := by
  cases lk with
  | false => exact B.move m hl
  | true =>
    obtain ⟨rfl, j, hj, re⟩ := m
    exact (B.move re (fun i hi => by cases hi; exact hj)).leak

/-- The frame `F` and the block `p`. -/
def withBlock (F : Nat → Option Layout) (p : Ptr) (h : Heap) : Nat → Option Layout := fun i => if p = some i then h.live i else F i

theorem Blocks.toFrame (B : Blocks F (p.toList ++ O) h n) : Blocks (withBlock F p h) O h n := by
  obtain ⟨L, h1, h2, h3, h4⟩ := B.rest
  rw [List.append_assoc] at h2 h3 h4
  refine ⟨B.wf, ?_, L, h1, (List.nodup_append.1 h2).2.1, ?_, ?_⟩
  · intro i l hi
    unfold withBlock at hi
    split at hi
    · exact hi
    · exact B.frame i l hi
  · intro i hi
    have h5 := h3 i (List.mem_append_right _ hi)
    refine ⟨?_, h5.2⟩
    unfold withBlock
    rw [if_neg ?_]
    · exact h5.1
    · intro e
      rw [e] at h2
      simp only [Option.toList_some, List.cons_append, List.nil_append, List.nodup_cons] at h2
      exact h2.1 hi
  · intro i hi
    unfold withBlock
    by_cases e : p = some i
    · left; rw [if_pos e]; exact hi
    · rw [if_neg e]
      rcases h4 i hi with h5 | h5
      · exact .inl h5
      · rcases List.mem_append.1 h5 with h6 | h6
        · exact absurd (by simpa using h6) e
        · exact .inr h6

theorem Blocks.free_of (B : Blocks F (p.toList ++ O) h n) : ∀ i, p = some i → F i = none ∧ h.live i ≠ none := by
  obtain ⟨L, h1, h2, h3, h4⟩ := B.rest
  intro i hi
  exact h3 i (by simp [hi])

theorem Blocks.ofFrame {h0 : Heap} (B : Blocks (withBlock F p h0) O h n) (hp : ∀ i, p = some i → F i = none ∧ h0.live i ≠ none) :
    Blocks F (p.toList ++ O) h n ∧ ∀ i, p = some i → h.live i = h0.live i := by
  obtain ⟨L, h1, h2, h3, h4⟩ := B.rest
  have hl : ∀ i, p = some i → h.live i = h0.live i := by
    intro i hi
    cases hl : h0.live i with
    | none => exact absurd hl (hp i hi).2
    | some l => exact B.frame i l (by simp only [withBlock, if_pos hi, hl])
  have hO : ∀ i ∈ O ++ L, p ≠ some i := by
    intro i hi e
    have := (h3 i hi).1
    simp only [withBlock, if_pos e] at this
    exact (hp i e).2 this
  refine ⟨⟨B.wf, ?_, L, h1, ?_, ?_, ?_⟩, hl⟩
  · intro i l hi
    refine B.frame i l ?_
    simp only [withBlock]
    rw [if_neg (fun e => by rw [(hp i e).1] at hi; cases hi)]
    exact hi
  · rw [List.append_assoc]
    cases hp' : p with
    | none => exact h2
    | some j =>
      simp only [Option.toList_some, List.cons_append, List.nil_append, List.nodup_cons]
      exact ⟨fun hj => hO j hj hp', h2⟩
  · intro i hi
    rw [List.append_assoc] at hi
    rcases List.mem_append.1 hi with h5 | h5
    · have h5 : p = some i := by simpa using h5
      exact ⟨(hp i h5).1, by rw [hl i h5]; exact (hp i h5).2⟩
    · have h6 := h3 i h5
      refine ⟨?_, h6.2⟩
      have := h6.1
      simp only [withBlock, if_neg (hO i h5)] at this
      exact this
  · intro i hi
    rw [List.append_assoc]
    by_cases e : p = some i
    · right; simp [e]
    · rcases h4 i hi with h5 | h5
      · simp only [withBlock, if_neg e] at h5
        exact .inl h5
      · exact .inr (List.mem_append_right _ h5)

/-- Both worlds agree: the same user state, and the blocks. -/
structure Worlds (F : Nat → Option Layout) (O : List Nat) (w : World U) (o : Outside U) : Prop where
  user : w.user = o.user
  blocks : Blocks F O w.heap o.leaked

variable {w w' : World U} {o o' : Outside U}

theorem Worlds.wf (W : Worlds F O w o) : w.heap.WF := W.blocks.wf

theorem Worlds.move (W : Worlds F (p.toList ++ O) w o) (re : Realloc w.heap p h' p') (hl : ∀ i, p' = some i → h'.live i ≠ none) :
    Worlds F (p'.toList ++ O) { w with heap := h' } o := ⟨W.user, W.blocks.move re hl⟩

theorem Worlds.toFrame (W : Worlds F (p.toList ++ O) w o) : Worlds (withBlock F p w.heap) O w o := ⟨W.user, W.blocks.toFrame⟩

theorem Worlds.ofFrame {h0 : Heap} (W : Worlds (withBlock F p h0) O w o) (hp : ∀ i, p = some i → F i = none ∧ h0.live i ≠ none) :
    Worlds F (p.toList ++ O) w o ∧ ∀ i, p = some i → w.heap.live i = h0.live i :=
  ⟨⟨W.user, (W.blocks.ofFrame hp).1⟩, (W.blocks.ofFrame hp).2⟩

theorem Worlds.swap {O1 O2 : List Nat} (W : Worlds F (O1 ++ O2) w o) : Worlds F (O2 ++ O1) w o :=
  ⟨W.user, W.blocks.perm List.perm_append_comm⟩

/-- User code on both sides. -/
theorem Worlds.call (W : Worlds F O w o) (m : M U α) :
    InStep (fun a w' b o' => a = b ∧ w'.heap = w.heap ∧ Worlds F O w' o') (fun w' o' => w'.heap = w.heap ∧ Worlds F O w' o')
      (worldUser m w) (call m o) := by
  simp only [worldUser_run, Dync.call, M.zoom_run, ← W.user]
  rcases m w.user with ⟨r, u⟩
  cases r with
  | ok a => exact .ok ⟨rfl, rfl, rfl, W.blocks⟩
  | panic y => exact .panic ⟨rfl, rfl, W.blocks⟩
  | ub => exact .ub
  | abort => exact .abort

theorem Worlds.leak (W : Worlds F (p.toList ++ O) w o) : Worlds F O w { o with leaked := o.leaked + p.toList.length } :=
  ⟨W.user, W.blocks.leak⟩

/-! ### Items -/

section
variable [HasDrop U V] [HasClone U V] [TableLaw V] {Γ : TyEnv U} {a : Item V} {b : YItem}

theorem YItem.Is.frame (I : YItem.Is Γ h a b) (hl : ∀ i, a.ptr = some i → h'.live i = h.live i) : YItem.Is Γ h' a b := by
  cases a <;> cases b <;> try exact I.elim
  · exact ⟨XVec.Is.frame I.1 hl, I.2⟩
  · exact ⟨IsBox.frame I.1 hl, I.2⟩
  · exact I

theorem YItem.Is.live (I : YItem.Is Γ h a b) : ∀ i, a.ptr = some i → h.live i ≠ none := by
  cases a <;> cases b <;> try exact I.elim
  · rename_i c t x
    cases x with
    | vec t es cap =>
      intro i hi
      obtain ⟨j, hp, hl⟩ := I.1.1.block
      rw [show c.data.ptr = some i from hi] at hp
      cases hp
      rw [hl]; simp
    | unit n =>
      intro i hi
      have := (show IsUnits Γ n c.data from I.1).ptr
      rw [show c.data.ptr = some i from hi] at this
      cases this
  · rename_i v t x
    intro i hi
    rcases I.1.block with ⟨-, hp⟩ | ⟨-, j, hp, hl⟩
    · rw [show v.bytes.ptr = some i from hi] at hp; cases hp
    · rw [show v.bytes.ptr = some i from hi] at hp; cases hp; rw [hl]; simp
  · intro i hi; cases hi

/-- What is in a variable. -/
def VarIs (Γ : TyEnv U) (h : Heap) : Option (Item V) → Option YItem → Prop
  | none, none => True
  | some a, some b => YItem.Is Γ h a b
  | _, _ => False

/-- The block of a variable. -/
def varPtr (a : Option (Item V)) : Ptr := a.bind Item.ptr

theorem VarIs.frame {a : Option (Item V)} {b : Option YItem} (I : VarIs Γ h a b)
    (hl : ∀ i, varPtr a = some i → h'.live i = h.live i) : VarIs Γ h' a b := by
  cases a <;> cases b <;> try exact I
  exact YItem.Is.frame I hl

theorem VarIs.live {a : Option (Item V)} {b : Option YItem} (I : VarIs Γ h a b) :
    ∀ i, varPtr a = some i → h.live i ≠ none := by
  cases a <;> cases b <;> try exact I.elim
  · intro i hi; cases hi
  · exact YItem.Is.live I

variable {slots : DSlots V} {vars : YVars}

theorem YHolds.var (H : YHolds Γ slots w vars o) (k : Nat) : VarIs Γ w.heap (slots k) (vars k) := by
  cases hk : slots k with
  | none => rw [(H.none_iff k).1 hk]; trivial
  | some a =>
    cases hv : vars k with
    | none => rw [(H.none_iff k).2 hv] at hk; cases hk
    | some b => exact H.is k a b hk hv

/-- Take variable `k` out of the program, and put something back. -/
theorem YHolds.hole (H : YHolds Γ slots w vars o) (k : Nat) :
    ∃ F, Worlds F (varPtr (slots k)).toList w o ∧
      (∀ i, F i ≠ none ↔ ∃ k' a, k' ≠ k ∧ slots k' = some a ∧ a.ptr = some i) ∧
      ∀ (a : Option (Item V)) b w' o', Worlds F (varPtr a).toList w' o' → VarIs Γ w'.heap a b →
        YHolds Γ (Slots.put slots k a) w' (Slots.put vars k b) o' := by
  classical
  obtain ⟨L, l1, l2, l3, l4, l5⟩ := H.leaks
  let F : Nat → Option Layout := fun i => if ∃ k' a, k' ≠ k ∧ slots k' = some a ∧ a.ptr = some i then w.heap.live i else none
  have hFn : ∀ i, (¬ ∃ k' a, k' ≠ k ∧ slots k' = some a ∧ a.ptr = some i) → F i = none := fun i hi => if_neg hi
  have hFs : ∀ k' a i, k' ≠ k → slots k' = some a → a.ptr = some i → F i = w.heap.live i :=
    fun k' a i h1 h2 h3 => if_pos ⟨k', a, h1, h2, h3⟩
  have hvar : ∀ i, varPtr (slots k) = some i → ∃ a, slots k = some a ∧ a.ptr = some i := by
    intro i hi
    cases hk : slots k with
    | none => rw [hk] at hi; cases hi
    | some a => rw [hk] at hi; exact ⟨a, rfl, hi⟩
  have hlive : ∀ k' a i, slots k' = some a → a.ptr = some i → w.heap.live i ≠ none := by
    intro k' a i h1 h2
    have := (H.var k').live i (by rw [h1]; exact h2)
    exact this
  refine ⟨F, ⟨H.user, H.wf, ?_, L, l2, ?_, ?_, ?_⟩, ?_, ?_⟩
  · intro i l hi
    by_cases e : ∃ k' a, k' ≠ k ∧ slots k' = some a ∧ a.ptr = some i
    · rw [show F i = w.heap.live i from if_pos e] at hi; exact hi
    · rw [hFn i e] at hi; cases hi
  · cases hp : varPtr (slots k) with
    | none => exact l1
    | some i =>
      obtain ⟨a, h1, h2⟩ := hvar i hp
      simp only [Option.toList_some, List.cons_append, List.nil_append, List.nodup_cons]
      exact ⟨fun hi => l4 i hi k a h1 h2, l1⟩
  · intro i hi
    rcases List.mem_append.1 hi with h1 | h1
    · have h1 : varPtr (slots k) = some i := by simpa using h1
      obtain ⟨a, h2, h3⟩ := hvar i h1
      refine ⟨hFn i ?_, hlive k a i h2 h3⟩
      rintro ⟨k', a', h4, h5, h6⟩
      exact h4 (H.inj k' k a' a i h5 h2 h6 h3)
    · refine ⟨hFn i ?_, l3 i h1⟩
      rintro ⟨k', a', h4, h5, h6⟩
      exact l4 i h1 k' a' h5 h6
  · intro i hi
    cases hl : w.heap.live i with
    | none => exact absurd hl hi
    | some l =>
      rcases l5 i l hl with h1 | ⟨k', a, h1, h2⟩
      · exact .inr (List.mem_append_right _ h1)
      · by_cases e : k' = k
        · subst e
          right
          refine List.mem_append_left _ ?_
          rw [h1]
          show i ∈ (a.ptr).toList
          rw [h2]; simp
        · left; rw [hFs k' a i e h1 h2, hl]; simp
  · intro i
    constructor
    · exact fun h1 => Classical.byContradiction fun e => h1 (hFn i e)
    · rintro ⟨k', a, h1, h2, h3⟩
      rw [hFs k' a i h1 h2 h3]
      exact hlive k' a i h2 h3
  · intro a b w' o' W I
    obtain ⟨L', m1, m2, m3, m4⟩ := W.blocks.rest
    have hfr : ∀ k' d i, k' ≠ k → slots k' = some d → d.ptr = some i → w'.heap.live i = w.heap.live i := by
      intro k' d i h1 h2 h3
      cases hl : w.heap.live i with
      | none => exact absurd hl (hlive k' d i h2 h3)
      | some l => exact W.blocks.frame i l (by rw [hFs k' d i h1 h2 h3, hl])
    have hFsome : ∀ k' d i, k' ≠ k → slots k' = some d → d.ptr = some i → F i ≠ none := by
      intro k' d i h1 h2 h3
      rw [hFs k' d i h1 h2 h3]
      exact hlive k' d i h2 h3
    have key : ∀ {γ : Type} {s : Nat → Option γ} {a : Option γ} {j : Nat} {d : γ}, Slots.put s k a j = some d →
        j = k ∧ a = some d ∨ j ≠ k ∧ s j = some d := by
      intro γ s a j d hj
      by_cases e : j = k
      · rw [e, Slots.put_same] at hj; exact .inl ⟨e, hj⟩
      · rw [Slots.put_other _ _ e] at hj; exact .inr ⟨e, hj⟩
    have hmine : ∀ d i, a = some d → d.ptr = some i → i ∈ (varPtr a).toList ++ L' := by
      rintro d i rfl h2
      refine List.mem_append_left _ ?_
      show i ∈ (d.ptr).toList
      rw [h2]; simp
    refine ⟨W.user, W.wf, ?_, ?_, ?_, L', (List.nodup_append.1 m2).2.1, m1, ?_, ?_, ?_⟩
    · intro j
      by_cases e : j = k
      · subst e
        rw [Slots.put_same, Slots.put_same]
        cases a <;> cases b <;> simp_all [VarIs]
      · rw [Slots.put_other _ _ e, Slots.put_other _ _ e]; exact H.none_iff j
    · intro j d y hj hy
      rcases key hj with ⟨rfl, rfl⟩ | ⟨e, hj⟩
      · rw [Slots.put_same] at hy; subst hy; exact I
      · rw [Slots.put_other _ _ e] at hy
        exact (H.is j d y hj hy).frame fun i hi => hfr j d i e hj hi
    · intro j j' d d' i hj hj' hi hi'
      rcases key hj with ⟨rfl, h1⟩ | ⟨e, h1⟩ <;> rcases key hj' with ⟨e1, h2⟩ | ⟨e', h2⟩
      · exact e1.symm
      · exact absurd (m3 i (hmine d i h1 hi)).1 (hFsome j' d' i e' h2 hi')
      · exact absurd (m3 i (hmine d' i h2 hi')).1 (hFsome j d i e h1 hi)
      · exact H.inj j j' d d' i h1 h2 hi hi'
    · exact fun i hi => (m3 i (List.mem_append_right _ hi)).2
    · intro i hi j d hj e
      rcases key hj with ⟨rfl, h1⟩ | ⟨e', h1⟩
      · subst h1
        have hp : varPtr (some d) = some i := e
        rw [hp] at m2
        simp only [Option.toList_some, List.cons_append, List.nil_append, List.nodup_cons] at m2
        exact m2.1 hi
      · exact absurd (m3 i (List.mem_append_right _ hi)).1 (hFsome j d i e' h1 e)
    · intro i l hi
      rcases m4 i (by rw [hi]; simp) with h1 | h1
      · right
        by_cases e : ∃ k' a, k' ≠ k ∧ slots k' = some a ∧ a.ptr = some i
        · obtain ⟨k', d, h2, h3, h4⟩ := e
          exact ⟨k', d, by rw [Slots.put_other _ _ h2]; exact h3, h4⟩
        · exact absurd (hFn i e) h1
      · rcases List.mem_append.1 h1 with h2 | h2
        · right
          have h2 : varPtr a = some i := by simpa using h2
          cases a with
          | none => cases h2
          | some d => exact ⟨k, d, Slots.put_same _ _ _, h2⟩
        · exact .inl h2

end
end Dync
