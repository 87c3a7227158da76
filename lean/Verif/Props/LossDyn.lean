import Verif.LossQuiet
import Verif.Props.Loss
/-!
# C91: which calls lose the content of a `VecDyn`
-/
namespace Dync
variable {U V : Type} {Γ : TyEnv U} {cfg : Cfg} {vt : TyId → V} {slots slots' : DSlots V} {w w' : World U} {vars : YVars} {o : Outside U}
  {b t : TyId} {es : List Bytes} {k cap : Nat} {op : DOp}

theorem yfit [HasDrop U V] [HasClone U V] [TableLaw V] (H : YHolds Γ slots w vars o) (hk : vars k = some (.vec b (.vec t es cap))) :
    Fit Γ t cap es.length := by
  cases hs : slots k with
  | none => rw [(H.none_iff k).1 hs] at hk; cases hk
  | some a =>
    have hi := H.is k a _ hs hk
    cases a with
    | vec c =>
      obtain ⟨⟨R, rfl⟩, -⟩ := hi
      refine ⟨by rw [← R.len]; exact R.len_le, R.cap_pos, R.room, ?_, ?_⟩
      · rw [← R.perElem_eq]; exact R.chunk_pos
      · rw [← R.perElem_eq]; exact R.chunks
    | box v => exact hi.elim
    | small v => exact hi.elim

theorem dappend_loss {i j : Nat} (F : ∀ k b t es cap, vars k = some (.vec b (.vec t es cap)) → Fit Γ t cap es.length)
    (hk : vars k = some (.vec b (.vec t es cap))) :
    YLoss (YOp.append Γ i j (vars, o)) k b (DLoses Γ cfg vars o.user k (.append i j)) := by
  have hT : ∀ o' : Outside U, TypedAt k (vars, o') := by intro o' a ha b' n e; simp only [hk] at ha; cases ha; cases e
  unfold YOp.append
  by_cases hij : i = j
  · subst j
    simp only [if_true]
    exact YLoss.calm (hT _) fun h => by cases h <;> contradiction
  simp only [if_neg hij]
  cases hi : vars i with
  | none => exact YLoss.calm (hT _) fun h => by cases h <;> simp_all
  | some a =>
  cases hj : vars j with
  | none => rcases a with ⟨_, _ | _⟩ | _ | _ <;> exact YLoss.calm (hT _) fun h => by cases h <;> simp_all
  | some c =>
  by_cases h2 : ∃ b1 t1 es1 cap1 b2 es2 cap2, a = .vec b1 (.vec t1 es1 cap1) ∧ c = .vec b2 (.vec t1 es2 cap2)
  · obtain ⟨b1, t1, es1, cap1, b2, es2, cap2, rfl, rfl⟩ := h2
    simp only [if_true]
    have F := F i _ _ _ _ hi
    have h1 := F.growth_full (n := es2.length)
    have h2 : _ ↔ BadGrowth Γ t1 cap1 (es1.length + es2.length) :=
      torn_three (Γ := Γ) (t := t1) (n := es2.length) F.le F.pos F.per F.units
    have hl : DLoses Γ cfg vars o.user k (.append i j) ↔ (k = i ∧ NoGrowth Γ t1 cap1 es1.length es2.length) ∨
        (k = j ∧ TooLarge Γ t1 cap1 es1.length es2.length) := by
      constructor
      · intro h
        cases h with
        | append _ _ t' es' es'' c' c'' _ hn ha hb hg =>
          obtain ⟨-, rfl, rfl, rfl⟩ := vec_inj' (hi.symm.trans ha)
          obtain ⟨-, _, rfl, rfl⟩ := vec_inj' (hj.symm.trans hb)
          exact .inl ⟨rfl, hg⟩
        | appended _ _ t' es' es'' c' c'' _ hn ha hb hg =>
          obtain ⟨-, rfl, rfl, rfl⟩ := vec_inj' (hj.symm.trans ha)
          obtain ⟨-, _, rfl, rfl⟩ := vec_inj' (hi.symm.trans hb)
          exact .inr ⟨rfl, hg⟩
      · rintro (⟨rfl, hg⟩ | ⟨rfl, hg⟩)
        · exact .append _ _ _ _ _ _ _ _ hij hi hj hg
        · exact .appended _ _ _ _ _ _ _ _ (Ne.symm hij) hj hi hg
    have typed2 : ∀ (x y : YItem) (o' : Outside U), (k = i → x.Typed) → (k = j → y.Typed) →
        TypedAt k (Slots.put (Slots.put vars i (some x)) j (some y), o') := by
      intro x y o' hx hy a ha
      simp only [Slots.put] at ha
      split at ha
      · cases ha; exact hy ‹_›
      · split at ha
        · cases ha; exact hx ‹_›
        · exact hT o' a ha
    have vecT : ∀ b' t' es' cap', (YItem.vec b' (.vec t' es' cap')).Typed := by intro b' t' es' cap' b'' n; simp
    have calm : growth (Γ.align t1) (Γ.align t1) (perElem Γ t1) cap1 es1.length (es2.length * perElem Γ t1) ≠ .full →
        growth (Γ.align t1) (Γ.align t1) (perElem Γ t1) cap1 es1.length (es2.length * perElem Γ t1) ≠ .torn →
        ¬ DLoses Γ cfg vars o.user k (.append i j) := by
      intro g1 g2 h
      rcases hl.1 h with ⟨_, h | h⟩ | ⟨_, h⟩
      · exact absurd (h1.2 h) g1
      · exact absurd (h2.2 h) g2
      · exact absurd (h1.2 h) g1
    cases hg : growth (Γ.align t1) (Γ.align t1) (perElem Γ t1) cap1 es1.length (es2.length * perElem Γ t1) with
    | keep => exact YLoss.calm (typed2 _ _ _ (fun _ => vecT _ _ _ _) fun _ => vecT _ _ _ _) (calm (by rw [hg]; simp) (by rw [hg]; simp))
    | grown c => exact YLoss.calm (typed2 _ _ _ (fun _ => vecT _ _ _ _) fun _ => vecT _ _ _ _) (calm (by rw [hg]; simp) (by rw [hg]; simp))
    | full =>
      have hL := h1.1 hg
      refine ⟨fun _ _ h => ⟨⟨_, rfl⟩, ?_⟩, fun h => ?_⟩
      · rcases hl.1 h with ⟨rfl, _⟩ | ⟨rfl, _⟩
        · obtain ⟨rfl, -⟩ := vec_inj' (hk.symm.trans hi)
          simp [Slots.put, hij]
        · obtain ⟨rfl, -⟩ := vec_inj' (hk.symm.trans hj)
          simp [Slots.put]
      · exact typed2 _ _ _ (fun e => absurd (hl.2 (.inl ⟨e, .inl hL⟩)) h) (fun e => absurd (hl.2 (.inr ⟨e, hL⟩)) h)
    | torn =>
      have hB := h2.1 hg
      have hL : ¬ TooLarge Γ t1 cap1 es1.length es2.length := fun h => by rw [h1.2 h] at hg; cases hg
      refine ⟨fun _ _ h => ⟨⟨_, rfl⟩, ?_⟩, fun h => ?_⟩
      · rcases hl.1 h with ⟨rfl, _⟩ | ⟨_, h3⟩
        · obtain ⟨rfl, -⟩ := vec_inj' (hk.symm.trans hi)
          simp [Slots.put, hij]
        · exact absurd h3 hL
      · exact typed2 _ _ _ (fun e => absurd (hl.2 (.inl ⟨e, .inr hB⟩)) h) (fun _ => vecT _ _ _ _)
  · have hn : ¬ DLoses Γ cfg vars o.user k (.append i j) := by
      intro h
      cases h with
      | append _ _ t' es' es'' c' c'' _ hn ha hb hg =>
        exact h2 ⟨_, _, _, _, _, _, _, Option.some.inj (hi.symm.trans ha), Option.some.inj (hj.symm.trans hb)⟩
      | appended _ _ t' es' es'' c' c'' _ hn ha hb hg =>
        exact h2 ⟨_, _, _, _, _, _, _, Option.some.inj (hi.symm.trans hb), Option.some.inj (hj.symm.trans ha)⟩
    refine YLoss.calm ?_ hn
    rcases a with ⟨b1, ⟨t1, es1, cap1⟩ | m⟩ | ⟨t1, x1⟩ | ⟨t1, x1⟩ <;> rcases c with ⟨b2, ⟨t2, es2, cap2⟩ | m'⟩ | ⟨t2, x2⟩ | ⟨t2, x2⟩
    all_goals first | exact hT _ | skip
    · have ht : t1 ≠ t2 := fun e => h2 ⟨_, _, _, _, _, _, _, rfl, by rw [e]⟩
      simp only [if_neg ht]
      exact hT _
    · have hki : k ≠ i := fun e => by subst e; rw [hk] at hi; cases hi
      have hkj : k ≠ j := fun e => by subst e; rw [hk] at hj; cases hj
      intro a ha
      simp only [Slots.put, if_neg hki, if_neg hkj] at ha
      exact hT o a ha

theorem dstep_loss (F : ∀ k b t es cap, vars k = some (.vec b (.vec t es cap)) → Fit Γ t cap es.length)
    (hc : op.Countable Γ cfg vars) (hk : vars k = some (.vec b (.vec t es cap))) :
    YLoss (op.step Γ cfg (vars, o)) k b (DLoses Γ cfg vars o.user k op) := by
  have hx : ∀ n, XVec.vec t es cap ≠ .unit n := by simp
  have hT : ∀ o' : Outside U, TypedAt k (vars, o') := by intro o' a ha b' n e; simp only [hk] at ha; cases ha; cases e
  have boxT : ∀ t x, (YItem.box t x).Typed := by intro t x b n; simp
  have smallT : ∀ t x, (YItem.small t x).Typed := by intro t x b n; simp
  have F' := F k b t es cap hk
  cases op with
  | withType => exact YLoss.calm (Stays.create .wrap _ (hT _)) (by rintro ⟨⟩)
  | withCapacity => exact YLoss.calm (Stays.create (.ite .wrap .panic) _ (hT _)) (by rintro ⟨⟩)
  | fromVec => exact YLoss.calm (Stays.create (.ite .wrap .panic) _ (hT _)) (by rintro ⟨⟩)
  | fromSlice => exact YLoss.calm (Stays.create (.ite (.bind fun _ => .wrap) .panic) _ (hT _)) (by rintro ⟨⟩)
  | withSize => exact YLoss.calm (Stays.create (.ite (.bind fun _ => .wrap) (.bind fun _ => .panic)) _ (hT _)) (by rintro ⟨⟩)
  | newBox => exact YLoss.calm (Stays.create (.pure (boxT _ _)) _ (hT _)) (by rintro ⟨⟩)
  | newSmall => exact YLoss.calm (Stays.create (.ite (.pure (smallT _ _)) .panic) _ (hT _)) (by rintro ⟨⟩)
  | drop j =>
    refine YLoss.calm ?_ (by rintro ⟨⟩)
    simp only [DOp.step]
    cases hj : vars j with
    | none => exact hT _
    | some a => exact (Stays.moveOut.bind fun _ => Stays.beside.bind fun _ => Stays.pure _) _ (hT _)
  | clone i j =>
    refine YLoss.calm ?_ (by rintro ⟨⟩)
    simp only [DOp.step]
    cases hj : vars i with
    | none => exact hT _
    | some a => exact Stays.create (.clone a) _ (hT _)
  | consume j t' =>
    refine YLoss.calm ?_ (by rintro ⟨⟩)
    simp only [DOp.step]
    cases hj : vars j with
    | none => exact hT _
    | some a => exact (Stays.moveOut.bind fun _ => Stays.beside) _ (hT _)
  | roundTrip j t' =>
    refine YLoss.calm ?_ (by rintro ⟨⟩)
    simp only [DOp.step]
    split
    · split
      · exact hT _
      · exact TypedAt.put (hT o) (by simp)
    · split
      · exact (Stays.moveOut.bind fun _ => Stays.beside.bind fun _ => Stays.panic _) _ (hT _)
      · exact TypedAt.put (hT o) (by simp)
    · exact hT _
  | append i j => exact dappend_loss F hk
  | pushAs j t' x =>
    refine (YLoss.onVec hk hx fun _ => VLoss.pushAs F').congr ⟨?_, fun h => ?_⟩
    · rintro ⟨rfl, rfl, h⟩; exact .pushAs _ _ _ _ _ hk h
    · cases h with
      | pushAs _ _ es' cap' _ h hg => obtain ⟨-, rfl, rfl, rfl⟩ := vec_inj' (hk.symm.trans h); exact ⟨rfl, rfl, hg⟩
  | pushCloned i j l =>
    simp only [DOp.step]
    by_cases hij : i = j
    · rw [if_pos hij]
      exact YLoss.calm (hT _) fun h => by cases h; contradiction
    rw [if_neg hij]
    have hr := read_same (Γ := Γ) (cfg := cfg) (k' := j) (i := l) (vars, o)
    cases hj : vars j with
    | none =>
      have hrd : YOp.read Γ cfg j l (vars, o) = (.ok none, (vars, o)) := by simp only [YOp.read, hj]
      rw [M.bind_ok hrd]
      exact YLoss.calm (hT _) fun h => by cases h; simp_all
    | some a =>
      cases ha : a.at Γ cfg l with
      | none =>
        have hrd : YOp.read Γ cfg j l (vars, o) = (.panic .index, (vars, o)) := by simp only [YOp.read, hj, ha]
        rw [M.bind_panic hrd]
        refine YLoss.calm (hT _) fun h => ?_
        cases h with
        | pushCloned _ _ _ _ _ a' p hn h1 h2 h3 => rw [hj] at h2; cases h2; rw [ha] at h3; cases h3
      | some p =>
        have hrd : YOp.read Γ cfg j l (vars, o) = (.ok (some p), (vars, o)) := by simp only [YOp.read, hj, ha]
        rw [M.bind_ok hrd]
        refine (YLoss.onVec hk hx fun _ => VLoss.pushCloned F').congr ⟨?_, fun h => ?_⟩
        · rintro ⟨rfl, rfl, h⟩; exact .pushCloned _ _ _ _ _ _ _ hij hk hj ha h
        · cases h with
          | pushCloned _ es' cap' _ _ a' p' hn h1 h2 h3 h4 =>
            rw [hj] at h2; cases h2; rw [ha] at h3; cases h3
            obtain ⟨-, rfl, rfl, rfl⟩ := vec_inj' (hk.symm.trans h1)
            exact ⟨rfl, rfl, h4⟩
  | pushBox i j =>
    by_cases hb : ∃ b1 x1 t2 x2, vars i = some (.vec b1 x1) ∧ vars j = some (.box t2 x2)
    · obtain ⟨b1, x1, t2, x2, hi, hj⟩ := hb
      have hkj : k ≠ j := fun e => by subst e; rw [hk] at hj; cases hj
      have hst : DOp.step Γ cfg (.pushBox i j) (vars, o) = YOp.onVec i (XVec.dynPush Γ t2 x2) (Slots.put vars j none, o) := by
        simp only [DOp.step, hi, hj]
        rfl
      rw [hst]
      refine (YLoss.onVec (vars := Slots.put vars j none) (by simp [Slots.put, hkj, hk]) hx fun _ => VLoss.push F').congr ⟨?_, fun h => ?_⟩
      · rintro ⟨rfl, rfl, h⟩; exact .pushBox _ _ _ _ _ _ hk hj h
      · cases h with
        | pushBox _ _ es' cap' _ x h1 h2 h3 =>
          obtain ⟨-, rfl, rfl, rfl⟩ := vec_inj' (hk.symm.trans h1)
          rw [hj] at h2; cases h2
          exact ⟨rfl, rfl, h3⟩
    · have hst : DOp.step Γ cfg (.pushBox i j) (vars, o) = (.ok .absent, (vars, o)) := by
        simp only [DOp.step]
        split
        · rename_i h1 h2; exact absurd ⟨_, _, _, _, h1, h2⟩ hb
        · rfl
      rw [hst]
      refine YLoss.calm (hT _) fun h => ?_
      cases h with
      | pushBox _ _ es' cap' _ x h1 h2 h3 => exact hb ⟨_, _, _, _, h1, h2⟩
  | resize j t' n x =>
    refine (YLoss.onVec hk hx fun e => VLoss.resize F' (hc b t es cap (by rw [e]; exact hk))).congr ⟨?_, fun h => ?_⟩
    · rintro ⟨rfl, rfl, hl, h⟩; exact .resize _ _ _ _ _ _ hk hl h
    · cases h with
      | resize _ _ es' cap' _ _ h hl hg => obtain ⟨-, rfl, rfl, rfl⟩ := vec_inj' (hk.symm.trans h); exact ⟨rfl, rfl, hl, hg⟩
  | rotateLeft j n =>
    refine (YLoss.onVec hk hx fun e => VLoss.plain (Loss.rotate F' (hc b t es cap (by rw [e]; exact hk)))).congr ⟨?_, fun h => ?_⟩
    · rintro ⟨rfl, ha, h⟩; exact .rotateLeft _ _ _ _ _ hk ha h
    · cases h with
      | rotateLeft _ t' es' cap' _ h ha hg => obtain ⟨-, rfl, rfl, rfl⟩ := vec_inj' (hk.symm.trans h); exact ⟨rfl, ha, hg⟩
  | rotateRight j n =>
    refine (YLoss.onVec hk hx fun e => VLoss.plain (Loss.rotate F' (hc b t es cap (by rw [e]; exact hk)))).congr ⟨?_, fun h => ?_⟩
    · rintro ⟨rfl, ha, h⟩; exact .rotateRight _ _ _ _ _ hk ha h
    · cases h with
      | rotateRight _ t' es' cap' _ h ha hg => obtain ⟨-, rfl, rfl, rfl⟩ := vec_inj' (hk.symm.trans h); exact ⟨rfl, ha, hg⟩
  | fill => exact YLoss.onVec_calm hk hx (fun _ => Stays.fill) (by rintro ⟨⟩)
  | clear => exact YLoss.onVec_calm hk hx (fun _ => Stays.clear) (by rintro ⟨⟩)
  | swap => exact YLoss.onVec_calm hk hx (fun _ => (VLoss.plain Loss.swap).kept fun h => h) (by rintro ⟨⟩)
  | setAs => exact YLoss.onVec_calm hk hx (fun _ => Stays.setAs) (by rintro ⟨⟩)
  | cloneIntoVec => exact YLoss.onVec_calm hk hx (fun _ => Stays.cloneIntoVec) (by rintro ⟨⟩)
  | cloneValue i l j =>
    refine YLoss.calm ?_ (by rintro ⟨⟩)
    refine Stays.bind Stays.read (fun p => ?_) _ (hT _)
    cases p with
    | none => exact Stays.pure _
    | some p => exact Stays.create (.bind fun _ => .pure (boxT _ _))
  | cloneSmall i l j =>
    refine YLoss.calm ?_ (by rintro ⟨⟩)
    refine Stays.bind Stays.read (fun p => ?_) _ (hT _)
    cases p with
    | none => exact Stays.pure _
    | some p => exact Stays.create (.bind fun _ => .ite (.pure (smallT _ _)) (.bind fun _ => .panic))
  | assign i l j =>
    have place : ∀ t x mk, Stays (TypedAt k) (YOp.assignPlace Γ cfg i l j t x mk) := by
      intro t x mk
      refine Stays.bind Stays.read fun p => ?_
      cases p with
      | none => exact Stays.pure _
      | some p =>
        refine Stays.moveOut.bind fun _ => .ite ?_ ?_
        · exact Stays.write.bind fun _ => Stays.beside.bind fun _ => Stays.pure _
        · exact Stays.beside.bind fun _ => Stays.pure _
    refine YLoss.calm ?_ (by rintro ⟨⟩)
    simp only [DOp.step]
    split
    · exact hT _
    · split
      · exact place _ _ _ _ (hT _)
      · exact place _ _ _ _ (hT _)
      · exact hT _
  | cloneFrom i l j l' =>
    refine YLoss.calm ?_ (by rintro ⟨⟩)
    simp only [DOp.step]
    refine Stays.ite (P := TypedAt k) (Stays.pure _) ?_ _ (hT _)
    refine Stays.bind Stays.read fun p => ?_
    cases p with
    | none => exact Stays.pure _
    | some p =>
      refine Stays.bind Stays.read fun d => ?_
      cases d with
      | none => exact Stays.pure _
      | some d =>
        refine .ite (.ite (fun s hs => ?_) (Stays.panic _)) (Stays.pure _)
        exact Stays.write (s.1, { s.2 with user := (Γ.cloneFrom d.ty p.bytes (d.bytes, s.2.user)).2.2 }) hs
  | swapValues i l j l' =>
    refine YLoss.calm ?_ (by rintro ⟨⟩)
    simp only [DOp.step]
    refine Stays.ite (P := TypedAt k) (Stays.pure _) ?_ _ (hT _)
    refine Stays.bind Stays.read fun p => ?_
    cases p with
    | none => exact Stays.pure _
    | some p =>
      refine Stays.bind Stays.read fun d => ?_
      cases d with
      | none => exact Stays.pure _
      | some d => exact .ite (Stays.write.bind fun _ => Stays.write.bind fun _ => Stays.pure _) (Stays.pure _)
  | get i l =>
    refine YLoss.calm ?_ (by rintro ⟨⟩)
    refine Stays.bind Stays.read (fun p => ?_) _ (hT _)
    cases p with
    | none => exact Stays.pure _
    | some p => exact Stays.pure _
  | len => exact YLoss.look hk hx (by rintro ⟨⟩)
  | typeId => exact YLoss.look hk hx (by rintro ⟨⟩)
  | getAs => exact YLoss.look hk hx (by rintro ⟨⟩)
  | asSlice => exact YLoss.look hk hx (by rintro ⟨⟩)
  | iter => exact YLoss.look hk hx (by rintro ⟨⟩)

theorem dstep_kept (S : QuietUser Γ) (F : ∀ k b t es cap, vars k = some (.vec b (.vec t es cap)) → Fit Γ t cap es.length)
    (hc : op.Countable Γ cfg vars) (hk : vars k = some (.vec b (.vec t es cap))) (hl : ¬ DLoses Γ cfg vars o.user k op)
    (he : ¬ DEmpties Γ vars k op) {y : Why} (hp : (op.step Γ cfg (vars, o)).1 = .panic y) :
    (op.step Γ cfg (vars, o)).2.1 k = some (.vec b (.vec t es cap)) := by
  have hT : (YItem.vec b (.vec t es cap)).Typed := by intro b n; simp
  have boxT : ∀ t x, (YItem.box t x).Typed := by intro t x b n; simp
  have smallT : ∀ t x, (YItem.small t x).Typed := by intro t x b n; simp
  have F' := F k b t es cap hk
  have rs : ∀ {k' i : Nat} (s : YVars × Outside U), (YOp.read Γ cfg k' i s).2.1 = s.1 := fun s => by rw [read_same]
  cases op with
  | withType => exact YKept.create S hT _ hk _ hp
  | withCapacity => exact YKept.create S hT _ hk _ hp
  | fromVec => exact YKept.create S hT _ hk _ hp
  | fromSlice => exact YKept.create S hT _ hk _ hp
  | withSize => exact YKept.create S hT _ hk _ hp
  | newBox => exact YKept.create S hT _ hk _ hp
  | newSmall => exact YKept.create S hT _ hk _ hp
  | drop j =>
    simp only [DOp.step] at hp ⊢
    cases hj : vars j with
    | none => rw [hj] at hp; cases hp
    | some a =>
      simp only [hj] at hp ⊢
      by_cases e : k = j
      · subst e
        rw [hk] at hj; cases hj
        exact absurd hp (((Calm.modify _).bind fun _ => (S.itemDrop hT).aside.bind fun _ => Calm.pure _) _ y)
      · have hm : YOp.moveOut j (vars, o) = (.ok (), (Slots.put vars j none, o)) := rfl
        rw [M.bind_ok hm] at hp ⊢
        exact YKept.after aside_same (fun _ => YKept.quiet (Calm.pure _)) (Slots.put vars j none, o) (by simp [Slots.put, e, hk]) y hp
  | clone i j =>
    simp only [DOp.step] at hp ⊢
    cases hj : vars i with
    | none => rw [hj] at hp; cases hp
    | some a => simp only [hj] at hp ⊢; exact YKept.create S hT _ hk _ hp
  | consume j t' =>
    simp only [DOp.step] at hp ⊢
    cases hj : vars j with
    | none => rw [hj] at hp; cases hp
    | some a =>
      simp only [hj] at hp ⊢
      exact absurd hp (((Calm.modify _).bind fun _ => (S.itemConsume a t').aside) _ y)
  | roundTrip j t' =>
    simp only [DOp.step] at hp ⊢
    cases hj : vars j with
    | none => rw [hj] at hp; cases hp
    | some a =>
      simp only [hj] at hp ⊢
      rcases a with ⟨b1, ⟨t1, es1, cap1⟩ | m⟩ | ⟨t1, x1⟩ | ⟨t1, x1⟩
      · simp only at hp
        split at hp <;> cases hp
      · have hkj : k ≠ j := fun e => by subst e; rw [hk] at hj; cases hj
        simp only at hp ⊢
        split at hp
        · rename_i ht
          rw [if_pos ht]
          have hm : YOp.moveOut j (vars, o) = (.ok (), (Slots.put vars j none, o)) := rfl
          rw [M.bind_ok hm] at hp ⊢
          exact YKept.after aside_same (fun _ => YKept.panic) (Slots.put vars j none, o) (by simp [Slots.put, hkj, hk]) y hp
        · cases hp
      · cases hp
      · cases hp
  | append i j =>
    simp only [DOp.step] at hp ⊢
    unfold YOp.append at hp ⊢
    by_cases hij : i = j
    · simp only [if_pos hij] at hp; cases hp
    simp only [if_neg hij] at hp ⊢
    cases hi : vars i with
    | none => simp only [hi] at hp; cases hp
    | some a =>
    cases hj : vars j with
    | none => simp only [hi, hj] at hp; rcases a with ⟨_, _ | _⟩ | _ | _ <;> cases hp
    | some c =>
    simp only [hi, hj] at hp ⊢
    rcases a with ⟨b1, ⟨t1, es1, cap1⟩ | m⟩ | ⟨t1, x1⟩ | ⟨t1, x1⟩ <;> rcases c with ⟨b2, ⟨t2, es2, cap2⟩ | m'⟩ | ⟨t2, x2⟩ | ⟨t2, x2⟩
    all_goals first | (cases hp; done) | skip
    · simp only at hp ⊢
      by_cases ht : t1 = t2
      swap
      · rw [if_neg ht] at hp; cases hp
      subst ht
      rw [if_pos rfl] at hp ⊢
      have F := F i _ _ _ _ hi
      have h1 := F.growth_full (n := es2.length)
      have h2 : _ ↔ BadGrowth Γ t1 cap1 (es1.length + es2.length) :=
        torn_three (Γ := Γ) (t := t1) (n := es2.length) F.le F.pos F.per F.units
      cases hg : growth (Γ.align t1) (Γ.align t1) (perElem Γ t1) cap1 es1.length (es2.length * perElem Γ t1) with
      | keep => rw [hg] at hp; cases hp
      | grown c => rw [hg] at hp; cases hp
      | full =>
        have hki : k ≠ i := fun e => by subst e; exact hl (.append _ _ _ _ _ _ _ _ hij hi hj (.inl (h1.1 hg)))
        have hkj : k ≠ j := fun e => by subst e; exact hl (.appended _ _ _ _ _ _ _ _ (Ne.symm hij) hj hi (h1.1 hg))
        simp [Slots.put, hki, hkj, hk]
      | torn =>
        have hki : k ≠ i := fun e => by subst e; exact hl (.append _ _ _ _ _ _ _ _ hij hi hj (.inr (h2.1 hg)))
        have hkj : k ≠ j := fun e => by subst e; exact he (.append _ _ _ _ _ _ _ _ (Ne.symm hij) hj hi (h2.1 hg))
        simp [Slots.put, hki, hkj, hk]
    · have hki : k ≠ i := fun e => by subst e; rw [hk] at hi; cases hi
      have hkj : k ≠ j := fun e => by subst e; rw [hk] at hj; cases hj
      simp [Slots.put, hki, hkj, hk]
  | pushAs j t' x =>
    refine YKept.onVec (fun e o => VKept.pushAs S F' ?_) _ hk _ hp
    rintro ⟨rfl, h⟩; subst e; exact hl (.pushAs _ _ _ _ _ hk h)
  | pushCloned i j l =>
    simp only [DOp.step] at hp ⊢
    by_cases hij : i = j
    · rw [if_pos hij] at hp; cases hp
    rw [if_neg hij] at hp ⊢
    cases hj : vars j with
    | none =>
      have hrd : YOp.read Γ cfg j l (vars, o) = (.ok none, (vars, o)) := by simp only [YOp.read, hj]
      rw [M.bind_ok hrd] at hp; cases hp
    | some a =>
      cases ha : a.at Γ cfg l with
      | none =>
        have hrd : YOp.read Γ cfg j l (vars, o) = (.panic .index, (vars, o)) := by simp only [YOp.read, hj, ha]
        rw [M.bind_panic hrd]; exact hk
      | some p =>
        have hrd : YOp.read Γ cfg j l (vars, o) = (.ok (some p), (vars, o)) := by simp only [YOp.read, hj, ha]
        rw [M.bind_ok hrd] at hp ⊢
        refine YKept.onVec (fun e o => VKept.pushCloned S F' ?_) _ hk _ hp
        rintro ⟨rfl, h⟩; subst e; exact hl (.pushCloned _ _ _ _ _ _ _ hij hk hj ha (.inl h))
  | pushBox i j =>
    by_cases hb : ∃ b1 x1 t2 x2, vars i = some (.vec b1 x1) ∧ vars j = some (.box t2 x2)
    · obtain ⟨b1, x1, t2, x2, hi, hj⟩ := hb
      have hkj : k ≠ j := fun e => by subst e; rw [hk] at hj; cases hj
      have hst : DOp.step Γ cfg (.pushBox i j) (vars, o) = YOp.onVec i (XVec.dynPush Γ t2 x2) (Slots.put vars j none, o) := by
        simp only [DOp.step, hi, hj]
        rfl
      rw [hst] at hp ⊢
      refine YKept.onVec (fun e o => VKept.push S F' ?_) (Slots.put vars j none, o) (by simp [Slots.put, hkj, hk]) _ hp
      rintro ⟨rfl, h⟩; subst e; exact hl (.pushBox _ _ _ _ _ _ hk hj h)
    · have hst : DOp.step Γ cfg (.pushBox i j) (vars, o) = (.ok .absent, (vars, o)) := by
        simp only [DOp.step]
        split
        · rename_i h1 h2; exact absurd ⟨_, _, _, _, h1, h2⟩ hb
        · rfl
      rw [hst] at hp; cases hp
  | resize j t' n x =>
    refine YKept.onVec (fun e o => VKept.resize S F' (hc b t es cap (by rw [e]; exact hk)) ?_) _ hk _ hp
    rintro ⟨rfl, h1, h⟩; subst e; exact hl (.resize _ _ _ _ _ _ hk h1 h)
  | rotateLeft j n =>
    refine YKept.onVec (fun e o => VKept.plain (Loss.rotate F' (hc b t es cap (by rw [e]; exact hk))) ?_) _ hk _ hp
    rintro ⟨h1, h⟩; subst e; exact hl (.rotateLeft _ _ _ _ _ hk h1 h)
  | rotateRight j n =>
    refine YKept.onVec (fun e o => VKept.plain (Loss.rotate F' (hc b t es cap (by rw [e]; exact hk))) ?_) _ hk _ hp
    rintro ⟨h1, h⟩; subst e; exact hl (.rotateRight _ _ _ _ _ hk h1 h)
  | fill => exact YKept.onVec (fun _ _ => VKept.fill S) _ hk _ hp
  | clear => exact YKept.onVec (fun _ _ => VKept.clear S) _ hk _ hp
  | swap => exact YKept.onVec (fun _ _ => VKept.plain Loss.swap fun h => h) _ hk _ hp
  | setAs => exact YKept.onVec (fun _ _ => VKept.setAs S) _ hk _ hp
  | cloneIntoVec => exact YKept.onVec (fun _ _ => VKept.cloneIntoVec S) _ hk _ hp
  | cloneValue i l j =>
    refine YKept.after rs (fun p => ?_) _ hk _ hp
    cases p with
    | none => exact .quiet (Calm.pure _)
    | some p => exact YKept.create S hT
  | cloneSmall i l j =>
    refine YKept.after rs (fun p => ?_) _ hk _ hp
    cases p with
    | none => exact .quiet (Calm.pure _)
    | some p => exact YKept.create S hT
  | assign i l j =>
    have place : ∀ (t' : TyId) (x : Bytes) (mk : TyId → Bytes → YItem), (∀ t x, (mk t x).Typed) →
        YKept k (.vec b (.vec t es cap)) (YOp.assignPlace Γ cfg i l j t' x mk) := by
      intro t' x mk hmk
      refine YKept.after rs fun p => ?_
      cases p with
      | none => exact .quiet (Calm.pure _)
      | some p =>
        refine .quiet ((Calm.modify _).bind fun _ => .ite ?_ ?_)
        · exact (Calm.modify _).bind fun _ => (S.itemDrop (hmk _ _)).aside.bind fun _ => Calm.pure _
        · exact (S.itemDrop (hmk _ _)).aside.bind fun _ => Calm.pure _
    simp only [DOp.step] at hp ⊢
    by_cases hij : i = j
    · simp only [if_pos hij] at hp; cases hp
    simp only [if_neg hij] at hp ⊢
    cases hi : vars i with
    | none => simp only [hi] at hp; cases hp
    | some a =>
    cases hj : vars j with
    | none => simp only [hi, hj] at hp; cases hp
    | some c =>
      simp only [hi, hj] at hp ⊢
      rcases c with ⟨b2, x2⟩ | ⟨t2, x2⟩ | ⟨t2, x2⟩
      · cases hp
      · exact place _ _ _ boxT _ hk _ hp
      · exact place _ _ _ smallT _ hk _ hp
  | cloneFrom i l j l' =>
    simp only [DOp.step] at hp ⊢
    refine YKept.ite (.quiet (Calm.pure _)) ?_ _ hk _ hp
    refine YKept.after rs fun p => ?_
    cases p with
    | none => exact .quiet (Calm.pure _)
    | some p =>
      refine YKept.after rs fun d => ?_
      cases d with
      | none => exact .quiet (Calm.pure _)
      | some d =>
        refine .ite (.ite (.quiet fun s y h => ?_) .panic) (.quiet (Calm.pure _))
        have hq := S.cloneFrom d.ty p.bytes (d.bytes, s.2.user)
        simp only at h
        cases hr : (Γ.cloneFrom d.ty p.bytes (d.bytes, s.2.user)).1 with
        | panic z => exact hq z hr
        | _ => rw [hr] at h; cases h
  | swapValues i l j l' =>
    simp only [DOp.step] at hp ⊢
    refine YKept.ite (.quiet (Calm.pure _)) ?_ _ hk _ hp
    refine YKept.after rs fun p => ?_
    cases p with
    | none => exact .quiet (Calm.pure _)
    | some p =>
      refine YKept.after rs fun d => ?_
      cases d with
      | none => exact .quiet (Calm.pure _)
      | some d => exact .quiet (.ite ((Calm.modify _).bind fun _ => (Calm.modify _).bind fun _ => Calm.pure _) (Calm.pure _))
  | get i l =>
    refine YKept.after rs (fun p => ?_) _ hk _ hp
    cases p with
    | none => exact .quiet (Calm.pure _)
    | some p => exact .quiet (Calm.pure _)
  | len => exact YKept.look _ hk _ hp
  | typeId => exact YKept.look _ hk _ hp
  | getAs => exact YKept.look _ hk _ hp
  | asSlice => exact YKept.look _ hk _ hp
  | iter => exact YKept.look _ hk _ hp

section
variable [HasDrop U V] [HasClone U V] [TableLaw V]

/-- The calls in the list lose the content: unless the process is aborted (by a destructor that panics while the call unwinds), they
panic, and the variable holds an empty container of `()`. -/
theorem C91_vecdyn_lost (H : YHolds Γ slots w vars o) (ht : op.IsTyped Γ) (htab : ∀ t, Tab Γ t (vt t)) (hc : op.Countable Γ cfg vars)
    (hk : vars k = some (.vec b (.vec t es cap))) (hl : DLoses Γ cfg vars o.user k op)
    (hu : (op.exec Γ cfg vt (slots, w)).1 ≠ .ub) (ha : (op.exec Γ cfg vt (slots, w)).1 ≠ .abort) :
    ∃ y slots' w' c, op.exec Γ cfg vt (slots, w) = (.panic y, (slots', w')) ∧ slots' k = some (.vec c) ∧ IsUnits Γ 0 c.data := by
  have S := dstep_loss (cfg := cfg) (op := op) (o := o) (fun k b t es cap hk => yfit H hk) hc hk
  have h := C71_step (cfg := cfg) (op := op) H ht htab
  rcases hs : op.step Γ cfg (vars, o) with ⟨r, vars', o'⟩
  rw [hs] at S h
  have hu' : r ≠ .ub := fun e => by subst e; exact hu h
  have ha' : r ≠ .abort := fun e => by subst e; exact ha h
  obtain ⟨⟨y, e⟩, hv⟩ := S.lost hu' ha' hl
  obtain rfl : r = .panic y := e
  replace hv : vars' k = some (.vec b (.unit 0)) := hv
  obtain ⟨⟨y', hp⟩, H'⟩ := h
  rcases he : op.exec Γ cfg vt (slots, w) with ⟨r', slots', w'⟩
  rw [he] at hp H'
  obtain rfl : r' = .panic y' := hp
  cases hk' : slots' k with
  | none => exact absurd ((H'.none_iff k).1 hk') (by rw [hv]; simp)
  | some a =>
    have I := H'.is k a _ hk' hv
    cases a with
    | vec c => exact ⟨y', slots', w', c, rfl, hk', I.1⟩
    | box => exact I.elim
    | small => exact I.elim

/-- A call makes a container of `()` of a container exactly if it is in the list. -/
theorem C91_vecdyn_iff {r : Res Obs} {c : VecDyn V} {n : Nat} (H : YHolds Γ slots w vars o) (ht : op.IsTyped Γ)
    (htab : ∀ t, Tab Γ t (vt t)) (hc : op.Countable Γ cfg vars) (hk : vars k = some (.vec b (.vec t es cap)))
    (hr : op.exec Γ cfg vt (slots, w) = (r, (slots', w'))) (hu : r ≠ .ub) (ha : r ≠ .abort) (hs : slots' k = some (.vec c)) :
    (IsUnits Γ 0 c.data ↔ DLoses Γ cfg vars o.user k op) ∧ (IsUnits Γ n c.data → n = 0) := by
  have S := dstep_loss (cfg := cfg) (op := op) (o := o) (fun k b t es cap hk => yfit H hk) hc hk
  have h := C71_step (cfg := cfg) (op := op) H ht htab
  rcases hst : op.step Γ cfg (vars, o) with ⟨r1, vars', o'⟩
  rw [hst, hr] at h
  rw [hst] at S
  have H' : YHolds Γ slots' w' vars' o' := by
    cases r1 with
    | ok a => exact h.2
    | panic y => exact h.2
    | ub => exact absurd h hu
    | abort => exact absurd h ha
  have hu' : r1 ≠ .ub := fun e => by subst e; exact hu h
  have ha' : r1 ≠ .abort := fun e => by subst e; exact ha h
  have units : ∀ m, IsUnits Γ m c.data → ∃ b', vars' k = some (.vec b' (.unit m)) := by
    intro m hm
    cases hv : vars' k with
    | none => rw [(H'.none_iff k).2 hv] at hs; cases hs
    | some a =>
      have I := H'.is k _ a hs hv
      rcases a with ⟨b', ⟨t', es', cap'⟩ | m'⟩ | ⟨t', x'⟩ | ⟨t', x'⟩
      · obtain ⟨⟨hR, _⟩, -⟩ := I
        obtain ⟨i, hp, _⟩ := hR.block
        exact absurd (hm.ptr.symm.trans hp) (by simp)
      · have : m = m' := hm.len.symm.trans (IsUnits.len I.1)
        exact ⟨b', by rw [this]⟩
      · exact I.elim
      · exact I.elim
  constructor
  · constructor
    · intro hI
      obtain ⟨b', hv⟩ := units 0 hI
      exact Classical.not_not.1 fun hl => S.kept hl _ hv b' 0 rfl
    · intro hl
      have hv := (S.lost hu' ha' hl).2
      exact (H'.is k _ _ hs hv).1
  · intro hI
    obtain ⟨b', hv⟩ := units n hI
    by_cases hl : DLoses Γ cfg vars o.user k op
    · have hv' : vars' k = some (.vec b (.unit 0)) := (S.lost hu' ha' hl).2
      rw [hv'] at hv; cases hv; rfl
    · exact absurd rfl (S.kept hl _ hv b' n)

/-- If the user code does not panic and any other call panics, every `VecDyn` is as it was. -/
theorem C91_vecdyn_kept {y : Why} (S : QuietUser Γ) (H : YHolds Γ slots w vars o) (ht : op.IsTyped Γ) (htab : ∀ t, Tab Γ t (vt t))
    (hc : op.Countable Γ cfg vars) (hk : vars k = some (.vec b (.vec t es cap))) (hl : ¬ DLoses Γ cfg vars o.user k op)
    (he : ¬ DEmpties Γ vars k op) (hr : op.exec Γ cfg vt (slots, w) = (.panic y, (slots', w'))) :
    ∃ c, slots' k = some (.vec c) ∧ Repr Γ w'.heap t es c.data ∧ c.data.cap = cap := by
  have hkept := fun y => dstep_kept (cfg := cfg) (op := op) (o := o) (y := y) S (fun k b t es cap hk => yfit H hk) hc hk hl he
  have h := C71_step (cfg := cfg) (op := op) H ht htab
  rcases hst : op.step Γ cfg (vars, o) with ⟨r1, vars', o'⟩
  rw [hst, hr] at h
  rw [hst] at hkept
  cases r1 with
  | ok a => exact absurd h.1 (by simp)
  | ub => exact nomatch (show Res.panic y = Res.ub from h)
  | abort => exact nomatch (show Res.panic y = Res.abort from h)
  | panic z =>
    have H' : YHolds Γ slots' w' vars' o' := h.2
    have hv : vars' k = some (.vec b (.vec t es cap)) := hkept z rfl
    cases hs : slots' k with
    | none => exact absurd ((H'.none_iff k).1 hs) (by rw [hv]; simp)
    | some a =>
      have I := H'.is k a _ hs hv
      cases a with
      | vec c => exact ⟨c, rfl, I.1⟩
      | box => exact I.elim
      | small => exact I.elim

/-- The call in the second list panics and leaves the `VecDyn` that was appended empty. -/
theorem C91_vecdyn_emptied (H : YHolds Γ slots w vars o) (htab : ∀ t, Tab Γ t (vt t)) (hk : vars k = some (.vec b (.vec t es cap)))
    (he : DEmpties Γ vars k op) :
    ∃ y slots' w' c, op.exec Γ cfg vt (slots, w) = (.panic y, (slots', w')) ∧ slots' k = some (.vec c) ∧ Repr Γ w'.heap t [] c.data ∧
      c.data.cap = cap := by
  cases he with
  | append b1 b2 t1 es1 es2 c1 c2 j hn ha hj hb =>
    rw [hk] at ha
    cases ha
    have F := yfit H hj
    have hg := (torn_three (Γ := Γ) (t := t) (n := es.length) F.le F.pos F.per F.units).2 hb
    have h := C71_step (cfg := cfg) (op := .append j k) H trivial htab
    rcases hst : DOp.step Γ cfg (.append j k) (vars, o) with ⟨r, vars', o'⟩
    rcases hr : DOp.exec Γ cfg vt (.append j k) (slots, w) with ⟨r', slots', w'⟩
    rw [hst, hr] at h
    simp only [DOp.step, YOp.append, if_neg (Ne.symm hn), hj, hk, if_true, hg] at hst
    cases hst
    obtain ⟨⟨y, hy⟩, H'⟩ := h
    obtain rfl : r' = .panic y := hy
    cases hs : slots' k with
    | none => exact absurd ((H'.none_iff k).1 hs) (by simp [Slots.put])
    | some a =>
      have I := H'.is k a (.vec b (.vec t [] cap)) hs (by simp [Slots.put])
      cases a with
      | vec c => exact ⟨y, slots', w', c, rfl, hs, I.1⟩
      | box => exact I.elim
      | small => exact I.elim

end

namespace Ex

/-- Rotation of two elements by three loses them. -/
example := C91_vecdyn_lost (cfg := ⟨true⟩) (vt := cloneVT) (op := .rotateLeft 3 3) vars3_holds trivial tab (fun _ _ _ _ _ => .inl rfl) rfl
  (.rotateLeft 7 7 _ 4 3 rfl (by decide) (by decide))
/-- A clone that panics. -/
example : DLoses env ⟨true⟩ (fun k => if k = 4 then some (.box 7 badClone) else vars3 k) [] 3 (.pushCloned 3 4 0) :=
  .pushCloned 7 [g1, badDrop] 4 4 0 (.box 7 badClone) ⟨7, 7, badClone⟩ (by decide) rfl rfl rfl (.inr ⟨.user, rfl⟩)
/-- No call of `swap` loses anything. -/
example (r slots' w' c n) := C91_vecdyn_iff (cfg := ⟨true⟩) (vt := cloneVT) (op := .swap 3 0 9) (k := 3) (r := r) (slots' := slots') (w' := w') (c := c) (n := n)
  vars3_holds trivial tab trivial rfl

/-- User code that never panics. -/
def calmEnv : TyEnv Log := { env with
  drop := fun t b => M.modify (· ++ [.dropped t b])
  clone := fun t b => if b.length = size t then pure b else M.ub
  clone_len := by
    intro t b u b' u' h
    split at h
    · rename_i hl; cases h; exact hl
    · cases h
  cloneFrom := fun _ _ => pure ()
  cloneFrom_len := by intro t src d u r d' u' h hd; cases h; exact hd }

theorem calmEnv_quiet : QuietUser calmEnv where
  drop t b u y h := by cases h
  clone t b u y := by
    show ((if b.length = size t then pure b else M.ub : M Log Bytes) u).1 ≠ _
    split <;> (intro h; cases h)
  cloneFrom t b s y h := by cases h

theorem calm_tab (t : TyId) : Tab calmEnv t (CloneVTable.build calmEnv t) := ⟨rfl, rfl, rfl, rfl, trivial⟩

/-- Two containers, of one `[u8; 3]` each. -/
def threesD : YVars := Slots.put (Slots.put (fun _ => none) 0 (some (.vec 3 (.vec 3 [[some 1, some 2, some 3]] 1)))) 1
  (some (.vec 3 (.vec 3 [[some 4, some 5, some 6]] 1)))

theorem threesD_holds : ∃ slots w o, YHolds calmEnv (slots : DSlots (CloneVTable Log)) w threesD o := by
  have h1 := C71_step (Γ := calmEnv) (cfg := ⟨true⟩) (vt := CloneVTable.build calmEnv) (op := .fromVec 0 3 [[some 1, some 2, some 3]])
    (C71_start emptyHeap [] (fun _ _ => rfl) (fun _ => rfl)) ⟨by decide, by decide⟩ calm_tab
  have h2 := C71_step (cfg := ⟨true⟩) (vt := CloneVTable.build calmEnv) (op := .fromVec 1 3 [[some 4, some 5, some 6]]) h1.2
    ⟨by decide, by decide⟩ calm_tab
  exact ⟨_, _, _, h2.2⟩

/-- Pushing to the first one changes the second one in no way. -/
example (slots w o) (H : YHolds calmEnv (slots : DSlots (CloneVTable Log)) w threesD o) (slots' w' y) :=
  C91_vecdyn_kept (cfg := ⟨true⟩) (vt := CloneVTable.build calmEnv) (op := .pushBox 0 1) (k := 1) (slots' := slots') (w' := w') (y := y)
    calmEnv_quiet H trivial calm_tab trivial rfl (by rintro ⟨⟩) (by rintro ⟨⟩)
/-- Appending the second one to the first one loses the first one and empties the second one. -/
example (slots w o) (H : YHolds calmEnv (slots : DSlots (CloneVTable Log)) w threesD o) :=
  C91_vecdyn_emptied (cfg := ⟨true⟩) (vt := CloneVTable.build calmEnv) (op := .append 0 1) (k := 1) H calm_tab rfl
    (.append 3 3 3 [[some 4, some 5, some 6]] [[some 1, some 2, some 3]] 1 1 0 (by decide) rfl rfl ⟨rfl, rfl, rfl, rfl⟩)

end Ex
end Dync
