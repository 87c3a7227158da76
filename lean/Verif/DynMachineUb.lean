import Verif.DynMachine
import Verif.MachineLemmas2

/-! Which operations of the machine are undefined. -/

namespace Dync
variable {U V σ τ α β : Type} {Γ : TyEnv U} {cfg : Cfg} {t : TyId} {k j : Nat}

/-- User code is never undefined (it is safe code). -/
structure SafeUser (Γ : TyEnv U) : Prop where
  drop : ∀ t b u, (Γ.drop t b u).1 ≠ .ub
  clone : ∀ t b u, (Γ.clone t b u).1 ≠ .ub
  cloneFrom : ∀ t b s, (Γ.cloneFrom t b s).1 ≠ .ub

/-- `m` is defined in every state. -/
def Defined (m : M σ α) : Prop := ∀ s, (m s).1 ≠ .ub

namespace Defined
variable {m : M σ α} {d : M σ Unit}

theorem pure (a : α) : Defined (Pure.pure a : M σ α) := fun _ h => by cases h
theorem panic (y : Why) : Defined (M.panic y : M σ α) := fun _ h => by cases h
theorem get : Defined (M.get : M σ σ) := fun _ h => by cases h
theorem modify (f : σ → σ) : Defined (M.modify f : M σ Unit) := fun _ h => by cases h
theorem bind {f : α → M σ β} (h : Defined m) (hf : ∀ a, Defined (f a)) : Defined (m >>= f) := by
  intro s
  have hs := h s
  rw [M.bind_run]
  rcases hm : m s with ⟨r, s'⟩
  rw [hm] at hs
  cases r with
  | ok a => exact hf a s'
  | panic => intro h; cases h
  | ub => exact absurd rfl hs
  | abort => intro h; cases h
theorem zoom {g : τ → σ} {f : σ → τ → τ} (h : Defined m) : Defined (M.zoom g f m) := fun s => h (g s)
theorem unwindDrop (h : Defined d) : Defined (M.unwindDrop d) := by
  intro s
  have hs := h s
  unfold M.unwindDrop
  rcases hm : d s with ⟨r, s'⟩
  rw [hm] at hs
  cases r with
  | ub => exact absurd rfl hs
  | _ => simp only [hm]; intro h; cases h
theorem thenDrop (h : Defined m) (hd : Defined d) : Defined (M.thenDrop m d) := by
  intro s
  have hs := h s
  unfold M.thenDrop
  rcases hm : m s with ⟨r, s'⟩
  rw [hm] at hs
  have hd' := hd s'
  rcases he : d s' with ⟨r', s''⟩
  rw [he] at hd'
  cases r with
  | ub => exact absurd rfl hs
  | abort => simp only [hm]; intro h; cases h
  | ok => cases r' with
    | ub => exact absurd rfl hd'
    | _ => simp only [hm, he]; intro h; cases h
  | panic => cases r' with
    | ub => exact absurd rfl hd'
    | _ => simp only [hm, he]; intro h; cases h
theorem forEach {body : β → M σ Unit} (h : ∀ b, Defined (body b)) : ∀ xs, Defined (M.forEach xs body)
  | [] => Defined.pure ()
  | x :: xs => (h x).bind fun _ => Defined.forEach h xs
theorem mapEach {f : β → M σ α} (h : ∀ b, Defined (f b)) : ∀ xs, Defined (M.mapEach xs f)
  | [] => Defined.pure []
  | x :: xs => (h x).bind fun _ => (Defined.mapEach h xs).bind fun _ => Defined.pure _
theorem dropEach {f : β → M σ Unit} (h : ∀ b, Defined (f b)) : ∀ xs, Defined (M.dropEach xs f)
  | [] => Defined.pure ()
  | x :: xs => (h x).thenDrop (Defined.dropEach h xs)
theorem repeatN (h : Defined d) : ∀ n, Defined (M.repeatN n d)
  | 0 => Defined.pure ()
  | n + 1 => h.bind fun _ => Defined.repeatN h n
theorem call {m : M U α} (h : Defined m) : Defined (call m) := h.zoom
theorem aside {m : M (Outside U) α} (h : Defined m) : Defined (aside m : M (σ × Outside U) α) := h.zoom
theorem leak (n : Nat) : Defined (leak n : M (Outside U) Unit) := modify _
theorem leaking {m : M (Outside U) α} (h : Defined m) (n : Nat) : Defined (leaking n m) := by
  intro s
  have hs := h s
  unfold Dync.leaking
  rcases hm : m s with ⟨r, s'⟩
  rw [hm] at hs
  cases r with
  | ub => exact absurd rfl hs
  | _ => simp only [hm]; intro h; cases h
theorem losing {m : M (Outside U) α} (h : Defined m) : Defined (losing m) := by
  intro s
  have hs := h s.2
  unfold Dync.losing
  rcases hm : m s.2 with ⟨r, s'⟩
  rw [hm] at hs
  cases r with
  | ub => exact absurd rfl hs
  | _ => simp only [hm]; intro h; cases h
theorem lose : Defined (lose : M (XVec × Outside U) α) := (modify _).bind fun _ => panic _
theorem plain {f : XVec → After} (h : ∀ x, (f x).out ≠ .ub) : Defined (XVec.plain f : M (XVec × Outside U) Obs) := by
  intro s
  have := h s.1
  unfold XVec.plain
  cases hf : (f s.1).out with
  | ub => exact absurd hf this
  | _ => simp only [hf]; intro h; cases h
theorem ite {c : Prop} [Decidable c] {m n : M σ α} (h1 : Defined m) (h2 : Defined n) : Defined (if c then m else n) := by
  split
  · exact h1
  · exact h2
end Defined

open Defined

section
variable (S : SafeUser Γ)
include S

theorem SafeUser.dropD (t b) : Defined (Γ.drop t b) := fun u => S.drop t b u
theorem SafeUser.cloneD (t b) : Defined (Γ.clone t b) := fun u => S.clone t b u
theorem SafeUser.dropAllD (t es) : Defined (dropAll Γ t es) := (Defined.dropEach (S.dropD t) es).call

theorem SafeUser.itemDrop (a : YItem) : Defined (a.drop Γ) := by
  rcases a with ⟨b, ⟨t, es, cap⟩ | n⟩ | ⟨t, x⟩ | ⟨t, x⟩
  · exact (Defined.forEach (fun e => (S.dropD t e).call) es).leaking 1
  · exact Defined.panic _
  · exact (S.dropD t x).call.leaking _
  · exact (S.dropD t x).call

theorem SafeUser.itemClone (a : YItem) : Defined (a.clone Γ) := by
  rcases a with ⟨b, ⟨t, es, cap⟩ | n⟩ | ⟨t, x⟩ | ⟨t, x⟩
  · exact (Defined.mapEach (S.cloneD t) es).call.bind fun _ => Defined.pure _
  · exact Defined.panic _
  · exact (S.cloneD t x).call.bind fun _ => Defined.pure _
  · exact (S.cloneD t x).call.bind fun _ => Defined.pure _

theorem SafeUser.itemConsume (a : YItem) (t : TyId) : Defined (a.consume Γ t) := by
  rcases a with ⟨b, ⟨t', es, cap⟩ | n⟩ | ⟨t', x⟩ | ⟨t', x⟩
  · exact .ite ((S.dropAllD _ _).bind fun _ => Defined.pure _) (Defined.pure _)
  · exact .ite ((S.dropAllD _ _).bind fun _ => Defined.pure _) (Defined.pure _)
  · exact .ite ((S.dropD _ _).call.bind fun _ => Defined.pure _) ((Defined.leak _).bind fun _ => Defined.pure _)
  · exact .ite ((S.dropD _ _).call.bind fun _ => Defined.pure _) (Defined.pure _)

theorem SafeUser.wrap (es n) : Defined (wrapVec Γ t es n) :=
  .ite ((S.dropAllD _ _).unwindDrop.bind fun _ => Defined.panic _) (Defined.pure _)

theorem SafeUser.refuse (x) : Defined (refuse Γ t x) := ((S.dropD t x).call.aside).bind fun _ => Defined.pure _

theorem SafeUser.placeClone (p : Place) : Defined (p.clone Γ) := .ite (S.cloneD _ _).call (Defined.panic _)

theorem SafeUser.pushAs (x) : Defined (XVec.dynPushAs Γ t x) := by
  have h : ∀ es, Defined (do
      Dync.aside (M.unwindDrop (Dync.call (Γ.drop t x)))
      Dync.aside (M.unwindDrop (dropAll Γ t es))
      (Dync.lose : M (XVec × Outside U) Obs)) := fun es =>
    (S.dropD t x).call.unwindDrop.aside.bind fun _ => (S.dropAllD t es).unwindDrop.aside.bind fun _ => Defined.lose
  refine Defined.get.bind fun s => ?_
  split
  · refine .ite ?_ (S.refuse x)
    split
    · exact (Defined.modify _).bind fun _ => Defined.pure _
    · exact (Defined.modify _).bind fun _ => Defined.pure _
    · exact h _
  · exact .ite (.ite (h _) ((Defined.modify _).bind fun _ => Defined.pure _)) (S.refuse x)

theorem SafeUser.pushCloned (p) : Defined (XVec.dynPushCloned Γ p) := by
  have hc : ∀ t, Defined (Dync.losing (Dync.call (Γ.clone t p.bytes))) := fun t => (S.cloneD _ _).call.losing
  refine Defined.get.bind fun s => ?_
  split
  · refine .ite ?_ (Defined.pure _)
    split
    · exact Defined.lose
    · exact (hc _).bind fun _ => (Defined.leak 1).aside.bind fun _ => Defined.lose
    · exact (hc _).bind fun _ => (Defined.modify _).bind fun _ => Defined.pure _
    · exact (hc _).bind fun _ => (Defined.modify _).bind fun _ => Defined.pure _
  · exact .ite Defined.lose (Defined.pure _)

theorem SafeUser.resize (n x) : Defined (XVec.dynResize Γ cfg t n x) := by
  refine Defined.thenDrop ?_ (S.dropD t x).call.aside
  refine Defined.get.bind fun s => ?_
  split
  · refine .ite (.ite ?_ ?_) (Defined.pure _)
    · refine Defined.bind (Defined.plain fun y => ?_) fun _ => Defined.bind (Defined.repeatN ?_ _) fun _ => Defined.pure _
      · cases y with
        | vec t' es' cap' => exact room_not_ub fun c => by simp
        | unit m => simp [XVec.reserve, After.lost]
      · exact (S.cloneD _ _).call.aside.bind fun c => (S.pushAs c).bind fun _ => Defined.pure _
    · exact (Defined.forEach (fun e => (S.dropD _ e).call.aside) _).bind fun _ => (Defined.modify _).bind fun _ => Defined.pure _
  · exact .ite (.ite Defined.lose (Defined.panic _)) (Defined.pure _)

theorem SafeUser.clear : Defined (XVec.dynClear Γ) := by
  refine Defined.get.bind fun s => ?_
  split
  · exact (Defined.forEach (fun e => (S.dropD _ e).call.aside) _).bind fun _ => (Defined.modify _).bind fun _ => Defined.pure _
  · exact Defined.panic _

theorem SafeUser.setAs (i x) : Defined (XVec.dynSetAs Γ t i x) := by
  refine Defined.get.bind fun s => ?_
  split
  · split
    · exact .ite ((Defined.modify _).bind fun _ => (S.dropD _ _).call.aside.bind fun _ => Defined.pure _) (S.refuse x)
    · exact Defined.panic _
  · exact .ite (.ite ((S.dropD _ _).call.aside.bind fun _ => Defined.pure _) (S.refuse x)) (Defined.panic _)

theorem SafeUser.extendClones : ∀ xs es u, (TVec.extendClones Γ t xs es u).1 ≠ .ub
  | [], es, u => by simp [TVec.extendClones]
  | x :: xs, es, u => by
    have h := S.clone t x u
    unfold TVec.extendClones
    rcases hc : Γ.clone t x u with ⟨r, u'⟩
    rw [hc] at h
    cases r with
    | ok c => exact SafeUser.extendClones xs _ _
    | ub => exact absurd rfl h
    | _ => intro h; cases h

theorem SafeUser.clones (xs) : Defined (DSpec.clones Γ t xs) := by
  intro u
  have h := S.extendClones (t := t) xs [] u
  unfold DSpec.clones
  rcases hc : TVec.extendClones Γ t xs [] u with ⟨r, es, u'⟩
  rw [hc] at h
  cases r with
  | ok => simp only [hc]; intro h; cases h
  | panic y =>
    simp only [hc]
    exact ((Defined.dropEach (S.dropD t) es).unwindDrop.bind fun _ => Defined.panic y) u'
  | ub => exact absurd rfl h
  | abort => simp only [hc]; intro h; cases h

theorem SafeUser.vecOf (n x) : Defined (DSpec.vecOf Γ t n x) := by
  cases n with
  | zero => exact (S.dropD t x).bind fun _ => Defined.pure _
  | succ n =>
    intro u
    have h := S.extendClones (t := t) (List.replicate n x) [] u
    simp only [DSpec.vecOf, TVec.pushClones]
    rcases hc : TVec.extendClones Γ t (List.replicate n x) [] u with ⟨r, es, u'⟩
    rw [hc] at h
    cases r with
    | ok => simp only; intro h; cases h
    | panic y =>
      simp only
      exact (((S.dropD t x).bind fun _ => Defined.dropEach (S.dropD t) es).unwindDrop.bind fun _ => Defined.panic y) u'
    | ub => exact absurd rfl h
    | abort => simp only; intro h; cases h

theorem SafeUser.tfill {x} : ∀ es u, (TVec.fill Γ t x es u).1 ≠ .ub
  | [], u => by simp [TVec.fill]
  | e :: es, u => by
    have h := S.clone t x u
    unfold TVec.fill
    rcases hc : Γ.clone t x u with ⟨r, u1⟩
    rw [hc] at h
    cases r with
    | ub => exact absurd rfl h
    | ok c =>
      have h' := S.drop t e u1
      rcases hd : Γ.drop t e u1 with ⟨r, u2⟩
      rw [hd] at h'
      cases r with
      | ub => exact absurd rfl h'
      | ok => simp only [hd]; exact SafeUser.tfill es u2
      | _ => simp only [hd]; intro h; cases h
    | _ => intro h; cases h

theorem SafeUser.fill (x) : Defined (XVec.dynFill Γ t x) := by
  refine Defined.thenDrop ?_ (S.dropD t x).call.aside
  refine Defined.get.bind fun s => ?_
  split
  · exact .ite (Defined.bind (fun s => S.tfill _ _) fun _ => Defined.pure _) (Defined.pure _)
  · exact .ite (Defined.bind (fun s => S.tfill _ _) fun _ => Defined.pure _) (Defined.pure _)

theorem SafeUser.cloneIntoVec : Defined (XVec.dynCloneIntoVec Γ t) := by
  refine Defined.get.bind fun s => ?_
  split
  · exact .ite ((S.clones _).call.aside.bind fun cs => (S.dropAllD _ _).aside.bind fun _ => Defined.pure _) (Defined.pure _)
  · exact .ite ((S.clones _).call.aside.bind fun cs => (S.dropAllD _ _).aside.bind fun _ => Defined.pure _) (Defined.pure _)

theorem SafeUser.assign (a) : Defined (YOp.assign Γ k a) := by
  intro s
  unfold YOp.assign
  cases hs : s.1 k with
  | none => simp only [hs]; intro h; cases h
  | some old =>
    simp only [hs]
    have h := S.itemDrop old s.2
    rcases hr : old.drop Γ s.2 with ⟨r, o'⟩
    rw [hr] at h
    cases r with
    | ub => exact absurd rfl h
    | _ => intro h; cases h

theorem SafeUser.create {m : M (Outside U) YItem} (h : Defined m) : Defined (YOp.create Γ k m) := h.aside.bind fun a => S.assign a

end

theorem Defined.onVec {m : M (XVec × Outside U) Obs} (h : Defined m) : Defined (YOp.onVec k m) := by
  intro s
  unfold YOp.onVec
  simp only
  split
  · exact h _
  · intro h; cases h

theorem Defined.look {f : TyId → List Bytes → Out} {g : Nat → Out} (hf : ∀ t es, f t es ≠ .ub) (hg : ∀ n, g n ≠ .ub) :
    Defined (YOp.look Γ k f g) := by
  refine Defined.onVec (Defined.plain fun x => ?_)
  cases x with
  | vec t es cap => exact hf t es
  | unit n => exact hg n

theorem Defined.read {i : Nat} : Defined (YOp.read Γ cfg k i) := by
  intro s
  unfold YOp.read
  simp only
  split
  · intro h; cases h
  · split <;> (intro h; cases h)

theorem Defined.write {i : Nat} {b : Bytes} : Defined (YOp.write Γ cfg k i b) := Defined.modify _

theorem Defined.append : Defined (YOp.append Γ k j) := by
  intro s
  unfold YOp.append
  simp only
  split
  · intro h; cases h
  · split
    · split
      · split <;> (intro h; cases h)
      · intro h; cases h
    · intro h; cases h
    · intro h; cases h
    · intro h; cases h

theorem SafeUser.assignPlace (S : SafeUser Γ) {i t x mk} : Defined (YOp.assignPlace Γ cfg k i j t x mk) := by
  refine Defined.read.bind fun p => ?_
  cases p with
  | none => exact Defined.pure _
  | some p =>
    exact (Defined.modify _).bind fun _ => .ite (Defined.write.bind fun _ => (S.itemDrop _).aside.bind fun _ => Defined.pure _)
      ((S.itemDrop _).aside.bind fun _ => Defined.pure _)

/-- All operations but `push` of a box. -/
theorem SafeUser.step (S : SafeUser Γ) (op : DOp) (h : ∀ k j, op ≠ .pushBox k j) : Defined (op.step Γ cfg) := by
  cases op with
  | withType k t => exact S.create (S.wrap _ _)
  | withCapacity k t n => exact S.create (.ite (S.wrap _ _) (Defined.panic _))
  | fromVec k t xs => exact S.create (.ite (S.wrap _ _) (Defined.panic _))
  | fromSlice k t xs => exact S.create (.ite ((S.clones _).call.bind fun _ => S.wrap _ _) (Defined.panic _))
  | withSize k t n x =>
    exact S.create (.ite ((S.vecOf _ _).call.bind fun _ => S.wrap _ _) ((S.dropD _ _).call.unwindDrop.bind fun _ => Defined.panic _))
  | newBox k t x => exact S.create (Defined.pure _)
  | newSmall k t x => exact S.create (.ite (Defined.pure _) (Defined.panic _))
  | drop k =>
    intro s
    simp only [DOp.step]
    split
    · intro h; cases h
    · exact ((Defined.modify _).bind fun _ => (S.itemDrop _).aside.bind fun _ => Defined.pure _) s
  | clone k j =>
    intro s
    simp only [DOp.step]
    split
    · intro h; cases h
    · exact S.create (S.itemClone _) s
  | consume k t =>
    intro s
    simp only [DOp.step]
    split
    · intro h; cases h
    · exact ((Defined.modify _).bind fun _ => (S.itemConsume _ _).aside) s
  | roundTrip k t =>
    intro s
    simp only [DOp.step]
    split
    · split <;> (intro h; cases h)
    · split
      · exact ((Defined.modify _).bind fun _ => (S.dropAllD _ _).unwindDrop.aside.bind fun _ => Defined.panic _) s
      · intro h; cases h
    · intro h; cases h
  | append k j => exact Defined.append
  | pushAs k t x => exact (S.pushAs x).onVec
  | pushCloned k j i =>
    refine .ite (Defined.pure _) (Defined.read.bind fun p => ?_)
    cases p with
    | none => exact Defined.pure _
    | some p => exact (S.pushCloned p).onVec
  | pushBox k j => exact absurd rfl (h k j)
  | resize k t n x => exact (S.resize n x).onVec
  | fill k t x => exact (S.fill x).onVec
  | clear k => exact S.clear.onVec
  | rotateLeft k n =>
    refine Defined.onVec (Defined.plain fun x => ?_)
    cases x with
    | vec t es cap =>
      simp only [XVec.rotateLeft]
      split
      · simp [After.same]
      · split
        · simp [After.lost]
        · split <;> simp [After.lost]
    | unit n => simp [XVec.rotateLeft, After.lost]
  | rotateRight k n =>
    refine Defined.onVec (Defined.plain fun x => ?_)
    cases x with
    | vec t es cap =>
      simp only [XVec.rotateRight]
      split
      · simp [After.same]
      · split
        · simp [After.lost]
        · split <;> simp [After.lost]
    | unit n => simp [XVec.rotateRight, After.lost]
  | swap k i j =>
    refine Defined.onVec (Defined.plain fun x => ?_)
    cases x with
    | vec t es cap =>
      simp only [XVec.swap]
      split
      · simp [After.same]
      · split
        · split <;> simp [After.same]
        · split <;> simp [After.same]
    | unit n => simp only [XVec.swap, After.same]; split <;> simp
  | setAs k t i x => exact (S.setAs i x).onVec
  | cloneIntoVec k t => exact S.cloneIntoVec.onVec
  | cloneValue k i j =>
    refine Defined.read.bind fun p => ?_
    cases p with
    | none => exact Defined.pure _
    | some p => exact S.create ((S.placeClone p).bind fun _ => Defined.pure _)
  | cloneSmall k i j =>
    refine Defined.read.bind fun p => ?_
    cases p with
    | none => exact Defined.pure _
    | some p =>
      exact S.create ((S.placeClone p).bind fun _ => .ite (Defined.pure _) ((S.dropD _ _).call.unwindDrop.bind fun _ => Defined.panic _))
  | assign k i j =>
    intro s
    simp only [DOp.step]
    split
    · intro h; cases h
    · split
      · exact S.assignPlace s
      · exact S.assignPlace s
      · intro h; cases h
  | cloneFrom k i j i' =>
    refine .ite (Defined.pure _) (Defined.read.bind fun p => ?_)
    cases p with
    | none => exact Defined.pure _
    | some p =>
      refine Defined.read.bind fun d => ?_
      cases d with
      | none => exact Defined.pure _
      | some d =>
        refine .ite (.ite (fun s => ?_) (Defined.panic _)) (Defined.pure _)
        have h := S.cloneFrom d.ty p.bytes (d.bytes, s.2.user)
        simp only
        rcases hr : Γ.cloneFrom d.ty p.bytes (d.bytes, s.2.user) with ⟨r, s'⟩
        rw [hr] at h
        cases r with
        | ub => exact absurd rfl h
        | _ => intro h; cases h
  | swapValues k i j i' =>
    refine .ite (Defined.pure _) (Defined.read.bind fun p => ?_)
    cases p with
    | none => exact Defined.pure _
    | some p =>
      refine Defined.read.bind fun d => ?_
      cases d with
      | none => exact Defined.pure _
      | some d => exact .ite (Defined.write.bind fun _ => Defined.write.bind fun _ => Defined.pure _) (Defined.pure _)
  | len k => exact Defined.look (by simp) (by simp)
  | typeId k => exact Defined.look (by simp) (by simp)
  | getAs k t i => exact Defined.look (fun t es => by split <;> simp) (fun n => by split <;> simp)
  | get k i =>
    refine Defined.read.bind fun p => ?_
    cases p <;> exact Defined.pure _
  | asSlice k t => exact Defined.look (by simp) (by simp)
  | iter k => exact Defined.look (by simp) (by simp)

end Dync
