import Verif.ThreadsSpec
import Verif.DynMachine

/-! Machine steps respect relations between states of user code. -/

namespace Dync
variable {U V H F σ τ α β X : Type} {Γ : TyEnv U} {cfg : Cfg} {t : TyId} {k j : Nat} {Φ : UserFns U H F} {K : Formatting F}
  {R : σ → σ → Prop} {R' : τ → τ → Prop} {Q : U → U → Prop} {D : Nat × Nat}

/-- The states of user code are related, and the numbers of leaked blocks differ as the numbers in `D` do. -/
def OnUser (Q : U → U → Prop) (D : Nat × Nat) (o o' : Outside U) : Prop :=
  Q o.user o'.user ∧ o.leaked + D.1 = o'.leaked + D.2

theorem OnUser.add {o o' : Outside U} {u u' : U} (h : OnUser Q D o o') (hu : Q u u') (n : Nat) :
    OnUser Q D ⟨o.leaked + n, u⟩ ⟨o'.leaked + n, u'⟩ := ⟨hu, by have := h.2; show o.leaked + n + _ = o'.leaked + n + _; omega⟩

namespace Respects
variable {m : M σ α} {d : M σ Unit}

theorem pure (a : α) : Respects R (Pure.pure a : M σ α) := fun _ _ h => ⟨rfl, h⟩
theorem panic (y : Why) : Respects R (M.panic y : M σ α) := fun _ _ h => ⟨rfl, h⟩
theorem ub : Respects R (M.ub : M σ α) := fun _ _ h => ⟨rfl, h⟩
theorem modify {f : σ → σ} (h : ∀ s s', R s s' → R (f s) (f s')) : Respects R (M.modify f) := fun s s' h' => ⟨rfl, h s s' h'⟩
theorem both {s s' : σ} (h : Respects R m) (hs : R s s') : ∃ r t t', m s = (r, t) ∧ m s' = (r, t') ∧ R t t' := by
  obtain ⟨h1, h2⟩ := h s s' hs
  rcases hm : m s with ⟨r, t⟩
  rcases hm' : m s' with ⟨r', t'⟩
  rw [hm, hm'] at h1 h2
  cases (show r = r' from h1)
  exact ⟨r, t, t', rfl, rfl, h2⟩
theorem bind {f : α → M σ β} (h : Respects R m) (hf : ∀ a, Respects R (f a)) : Respects R (m >>= f) := by
  intro s s' hs
  obtain ⟨h1, h2⟩ := h s s' hs
  rw [M.bind_run, M.bind_run]
  rcases hm : m s with ⟨r, s1⟩
  rcases hm' : m s' with ⟨r', s1'⟩
  rw [hm, hm'] at h1 h2
  cases (show r = r' from h1)
  cases r with
  | ok a => exact hf a s1 s1' h2
  | panic => exact ⟨rfl, h2⟩
  | ub => exact ⟨rfl, h2⟩
  | abort => exact ⟨rfl, h2⟩
theorem zoom {g : τ → σ} {f : σ → τ → τ} (h : Respects R m) (hg : ∀ s s', R' s s' → R (g s) (g s'))
    (hf : ∀ a a' s s', R a a' → R' s s' → R' (f a s) (f a' s')) : Respects R' (M.zoom g f m) := by
  intro s s' hs
  obtain ⟨h1, h2⟩ := h _ _ (hg s s' hs)
  exact ⟨h1, hf _ _ _ _ h2 hs⟩
theorem unwindDrop (h : Respects R d) : Respects R (M.unwindDrop d) := by
  intro s s' hs
  obtain ⟨h1, h2⟩ := h s s' hs
  unfold M.unwindDrop
  rcases hm : d s with ⟨r, s1⟩
  rcases hm' : d s' with ⟨r', s1'⟩
  rw [hm, hm'] at h1 h2
  cases (show r = r' from h1)
  cases r <;> simp only [hm, hm'] <;> exact ⟨by trivial, h2⟩
theorem thenDrop (h : Respects R m) (hd : Respects R d) : Respects R (M.thenDrop m d) := by
  intro s s' hs
  obtain ⟨h1, h2⟩ := h s s' hs
  unfold M.thenDrop
  rcases hm : m s with ⟨r, s1⟩
  rcases hm' : m s' with ⟨r', s1'⟩
  rw [hm, hm'] at h1 h2
  cases (show r = r' from h1)
  obtain ⟨h3, h4⟩ := hd s1 s1' h2
  rcases hn : d s1 with ⟨q, s2⟩
  rcases hn' : d s1' with ⟨q', s2'⟩
  rw [hn, hn'] at h3 h4
  cases (show q = q' from h3)
  cases r <;> cases q <;> simp only [hm, hm', hn, hn'] <;> first | exact ⟨by trivial, h4⟩ | exact ⟨by trivial, h2⟩
theorem forEach {body : β → M σ Unit} (h : ∀ b, Respects R (body b)) : ∀ xs, Respects R (M.forEach xs body)
  | [] => Respects.pure ()
  | x :: xs => (h x).bind fun _ => Respects.forEach h xs
theorem mapEach {f : β → M σ α} (h : ∀ b, Respects R (f b)) : ∀ xs, Respects R (M.mapEach xs f)
  | [] => Respects.pure []
  | x :: xs => (h x).bind fun _ => (Respects.mapEach h xs).bind fun _ => Respects.pure _
theorem dropEach {f : β → M σ Unit} (h : ∀ b, Respects R (f b)) : ∀ xs, Respects R (M.dropEach xs f)
  | [] => Respects.pure ()
  | x :: xs => (h x).thenDrop (Respects.dropEach h xs)
theorem repeatN (h : Respects R d) : ∀ n, Respects R (M.repeatN n d)
  | 0 => Respects.pure ()
  | n + 1 => h.bind fun _ => Respects.repeatN h n
theorem ite {c : Prop} [Decidable c] {m n : M σ α} (h1 : Respects R m) (h2 : Respects R n) : Respects R (if c then m else n) := by
  split
  · exact h1
  · exact h2
theorem call {m : M U α} (h : Respects Q m) : Respects (OnUser Q D) (call m) :=
  h.zoom (fun _ _ h => h.1) (fun _ _ _ _ h h' => ⟨h, h'.2⟩)
theorem aside {m : M (Outside U) α} (h : Respects (OnUser Q D) m) : Respects (Beside (OnUser Q D)) (aside m : M (X × Outside U) α) :=
  h.zoom (fun _ _ h => h.2) (fun _ _ _ _ h h' => ⟨h'.1, h⟩)
theorem leak (n : Nat) : Respects (OnUser Q D) (leak n : M (Outside U) Unit) := modify fun _ _ h => h.add h.1 n
theorem leaking {m : M (Outside U) α} (h : Respects (OnUser Q D) m) (n : Nat) : Respects (OnUser Q D) (leaking n m) := by
  intro s s' hs
  obtain ⟨h1, h2⟩ := h s s' hs
  unfold Dync.leaking
  rcases hm : m s with ⟨r, s1⟩
  rcases hm' : m s' with ⟨r', s1'⟩
  rw [hm, hm'] at h1 h2
  cases (show r = r' from h1)
  cases r <;> simp only [hm, hm'] <;> first | exact ⟨by trivial, h2⟩ | exact ⟨by trivial, OnUser.add h2 h2.1 n⟩
theorem losing {m : M (Outside U) α} (h : Respects (OnUser Q D) m) : Respects (Beside (OnUser Q D)) (losing m) := by
  intro s s' hs
  obtain ⟨h1, h2⟩ := h s.2 s'.2 hs.2
  unfold Dync.losing
  rcases hm : m s.2 with ⟨r, s1⟩
  rcases hm' : m s'.2 with ⟨r', s1'⟩
  rw [hm, hm'] at h1 h2
  cases (show r = r' from h1)
  cases r <;> simp only [hm, hm'] <;> first | exact ⟨by trivial, rfl, h2⟩ | exact ⟨by trivial, hs.1, h2⟩
/-- Overwriting the first part. -/
theorem put {f : X × Outside U → X × Outside U} {x : X} (h : ∀ s, f s = (x, s.2)) : Respects (Beside (OnUser Q D)) (M.modify f) :=
  modify fun s s' hs => by rw [h, h]; exact ⟨rfl, hs.2⟩
theorem lose : Respects (Beside (OnUser Q D)) (lose : M (XVec × Outside U) α) := (put fun _ => rfl).bind fun _ => panic _
theorem plain {f : XVec → After} : Respects (Beside (OnUser Q D)) (XVec.plain f : M (XVec × Outside U) Obs) := by
  rintro ⟨x, o⟩ ⟨x', o'⟩ ⟨h1, h2⟩
  cases (show x = x' from h1)
  exact ⟨rfl, rfl, OnUser.add h2 h2.1 _⟩
/-- Looking at the first part. -/
theorem first {f : X → M (X × Outside U) α} (h : ∀ x, Respects (Beside (OnUser Q D)) (f x)) :
    Respects (Beside (OnUser Q D)) (M.get >>= fun s => f s.1) := by
  rintro ⟨x, o⟩ ⟨x', o'⟩ ⟨h1, h2⟩
  cases (show x = x' from h1)
  exact h x _ _ ⟨rfl, h2⟩
end Respects

section
variable (S : UserRespects Q Γ Φ)
include S

theorem UserRespects.dropAll (t es) : Respects (OnUser Q D) (dropAll Γ t es) := (Respects.dropEach (S.drop t) es).call

theorem UserRespects.itemDrop (a : YItem) : Respects (OnUser Q D) (a.drop Γ) := by
  rcases a with ⟨b, ⟨t, es, cap⟩ | n⟩ | ⟨t, x⟩ | ⟨t, x⟩
  · exact (Respects.forEach (fun e => (S.drop t e).call) es).leaking 1
  · exact Respects.panic _
  · exact (S.drop t x).call.leaking _
  · exact (S.drop t x).call

theorem UserRespects.itemClone (a : YItem) : Respects (OnUser Q D) (a.clone Γ) := by
  rcases a with ⟨b, ⟨t, es, cap⟩ | n⟩ | ⟨t, x⟩ | ⟨t, x⟩
  · exact (Respects.mapEach (S.clone t) es).call.bind fun _ => Respects.pure _
  · exact Respects.panic _
  · exact (S.clone t x).call.bind fun _ => Respects.pure _
  · exact (S.clone t x).call.bind fun _ => Respects.pure _

theorem UserRespects.itemConsume (a : YItem) (t : TyId) : Respects (OnUser Q D) (a.consume Γ t) := by
  rcases a with ⟨b, ⟨t', es, cap⟩ | n⟩ | ⟨t', x⟩ | ⟨t', x⟩
  · exact .ite ((S.dropAll _ _).bind fun _ => Respects.pure _) (Respects.pure _)
  · exact .ite ((S.dropAll _ _).bind fun _ => Respects.pure _) (Respects.pure _)
  · exact .ite ((S.drop _ _).call.bind fun _ => Respects.pure _) ((Respects.leak _).bind fun _ => Respects.pure _)
  · exact .ite ((S.drop _ _).call.bind fun _ => Respects.pure _) (Respects.pure _)

theorem UserRespects.wrap (es n) : Respects (OnUser Q D) (wrapVec Γ t es n) :=
  .ite ((S.dropAll _ _).unwindDrop.bind fun _ => Respects.panic _) (Respects.pure _)

theorem UserRespects.refuse (x) : Respects (Beside (OnUser Q D)) (refuse Γ t x) := ((S.drop t x).call.aside).bind fun _ => Respects.pure _

theorem UserRespects.placeClone (p : Place) : Respects (OnUser Q D) (p.clone Γ) := .ite (S.clone _ _).call (Respects.panic _)

theorem UserRespects.pushAs (x) : Respects (Beside (OnUser Q D)) (XVec.dynPushAs Γ t x) := by
  have h : ∀ es, Respects (Beside (OnUser Q D)) (do
      Dync.aside (M.unwindDrop (Dync.call (Γ.drop t x)))
      Dync.aside (M.unwindDrop (Dync.dropAll Γ t es))
      (Dync.lose : M (XVec × Outside U) Obs)) := fun es =>
    (S.drop t x).call.unwindDrop.aside.bind fun _ => (S.dropAll t es).unwindDrop.aside.bind fun _ => Respects.lose
  rintro ⟨y, o⟩ ⟨y', o'⟩ ⟨h1, h2⟩
  cases (show y = y' from h1)
  unfold XVec.dynPushAs
  simp only [M.bind_run, M.get_run]
  cases y with
  | vec t' es cap =>
    refine Respects.ite (R := Beside (OnUser Q D)) ?_ (S.refuse x) _ _ ⟨rfl, h2⟩
    split
    · exact (Respects.put fun _ => rfl).bind fun _ => Respects.pure _
    · exact (Respects.put fun _ => rfl).bind fun _ => Respects.pure _
    · exact h _
  | unit n =>
    exact Respects.ite (.ite (h _) ((Respects.put fun _ => rfl).bind fun _ => Respects.pure _)) (S.refuse x) _ _ ⟨rfl, h2⟩


theorem UserRespects.pushCloned (p) : Respects (Beside (OnUser Q D)) (XVec.dynPushCloned Γ p) := by
  have hc : ∀ t, Respects (Beside (OnUser Q D)) (Dync.losing (Dync.call (Γ.clone t p.bytes))) := fun t => (S.clone _ _).call.losing
  rintro ⟨y, o⟩ ⟨y', o'⟩ ⟨h1, h2⟩
  cases (show y = y' from h1)
  unfold XVec.dynPushCloned
  simp only [M.bind_run, M.get_run]
  cases y with
  | vec t' es cap =>
    refine Respects.ite (R := Beside (OnUser Q D)) ?_ (Respects.pure _) _ _ ⟨rfl, h2⟩
    split
    · exact Respects.lose
    · exact (hc _).bind fun _ => (Respects.leak 1).aside.bind fun _ => Respects.lose
    · exact (hc _).bind fun _ => (Respects.put fun _ => rfl).bind fun _ => Respects.pure _
    · exact (hc _).bind fun _ => (Respects.put fun _ => rfl).bind fun _ => Respects.pure _
  | unit n => exact Respects.ite Respects.lose (Respects.pure _) _ _ ⟨rfl, h2⟩

theorem UserRespects.push (x) : Respects (Beside (OnUser Q D)) (XVec.dynPush Γ t x) := by
  rintro ⟨y, o⟩ ⟨y', o'⟩ ⟨h1, h2⟩
  cases (show y = y' from h1)
  unfold XVec.dynPush
  simp only [M.bind_run, M.get_run]
  cases y with
  | vec t' es cap =>
    exact Respects.ite (.ite Respects.plain Respects.ub) ((S.itemDrop _).aside.bind fun _ => Respects.pure _) _ _ ⟨rfl, h2⟩
  | unit n => exact Respects.ite Respects.ub ((S.itemDrop _).aside.bind fun _ => Respects.pure _) _ _ ⟨rfl, h2⟩

theorem UserRespects.resize (n x) : Respects (Beside (OnUser Q D)) (XVec.dynResize Γ cfg t n x) := by
  refine Respects.thenDrop ?_ (S.drop t x).call.aside
  rintro ⟨y, o⟩ ⟨y', o'⟩ ⟨h1, h2⟩
  cases (show y = y' from h1)
  unfold XVec.dynResizeBody
  simp only [M.bind_run, M.get_run]
  cases y with
  | vec t' es cap =>
    refine Respects.ite (R := Beside (OnUser Q D)) (.ite ?_ ?_) (Respects.pure _) _ _ ⟨rfl, h2⟩
    · refine Respects.plain.bind fun _ => Respects.bind (Respects.repeatN ?_ _) fun _ => Respects.pure _
      exact (S.clone _ _).call.aside.bind fun c => (S.pushAs c).bind fun _ => Respects.pure _
    · exact (Respects.forEach (fun e => (S.drop _ e).call.aside) _).bind fun _ => (Respects.put fun _ => rfl).bind fun _ => Respects.pure _
  | unit n => exact Respects.ite (.ite Respects.lose (Respects.panic _)) (Respects.pure _) _ _ ⟨rfl, h2⟩

theorem UserRespects.clear : Respects (Beside (OnUser Q D)) (XVec.dynClear Γ) := by
  rintro ⟨y, o⟩ ⟨y', o'⟩ ⟨h1, h2⟩
  cases (show y = y' from h1)
  unfold XVec.dynClear
  simp only [M.bind_run, M.get_run]
  cases y with
  | vec t' es cap =>
    exact ((Respects.forEach (fun e => (S.drop _ e).call.aside) _).bind fun _ => (Respects.put fun _ => rfl).bind fun _ =>
      Respects.pure _) _ _ ⟨rfl, h2⟩
  | unit n => exact ⟨rfl, rfl, h2⟩

theorem UserRespects.setAs (i x) : Respects (Beside (OnUser Q D)) (XVec.dynSetAs Γ t i x) := by
  rintro ⟨y, o⟩ ⟨y', o'⟩ ⟨h1, h2⟩
  cases (show y = y' from h1)
  unfold XVec.dynSetAs
  simp only [M.bind_run, M.get_run]
  cases y with
  | vec t' es cap =>
    simp only
    split
    · exact Respects.ite ((Respects.put fun _ => rfl).bind fun _ => (S.drop _ _).call.aside.bind fun _ => Respects.pure _) (S.refuse x) _ _
        ⟨rfl, h2⟩
    · exact ⟨rfl, rfl, h2⟩
  | unit n =>
    exact Respects.ite (.ite ((S.drop _ _).call.aside.bind fun _ => Respects.pure _) (S.refuse x)) (Respects.panic _) _ _ ⟨rfl, h2⟩

theorem UserRespects.extendClones : ∀ xs es, Respects (Beside Q) (⟨fun s => TVec.extendClones Γ t xs (es ++ s.1) s.2⟩ : M (List Bytes × U) Unit)
  | [], es => fun s s' h => ⟨rfl, congrArg (es ++ ·) h.1, h.2⟩
  | x :: xs, es => by
    rintro ⟨a, u⟩ ⟨a', u'⟩ ⟨h1, h2⟩
    cases (show a = a' from h1)
    obtain ⟨r, v, v', e, e', q⟩ := (S.clone t x).both h2
    simp only [TVec.extendClones, e, e']
    cases r with
    | ok c =>
      have := UserRespects.extendClones xs (es ++ a ++ [c]) ([], v) ([], v') ⟨rfl, q⟩
      simpa using this
    | _ => exact ⟨rfl, rfl, q⟩

theorem UserRespects.clones (xs) : Respects Q (DSpec.clones Γ t xs) := by
  intro u u' h
  obtain ⟨r, ⟨es, v⟩, ⟨es', v'⟩, e, e', q⟩ := (S.extendClones (t := t) xs []).both (s := ([], u)) (s' := ([], u')) ⟨rfl, h⟩
  cases (show es = es' from q.1)
  simp only [List.append_nil] at e e'
  unfold DSpec.clones
  simp only [show TVec.extendClones Γ t xs [] u = _ from e, show TVec.extendClones Γ t xs [] u' = _ from e']
  cases r with
  | panic y => exact ((Respects.dropEach (S.drop t) es).unwindDrop.bind fun _ => Respects.panic y) v v' q.2
  | _ => exact ⟨rfl, q.2⟩

theorem UserRespects.vecOf (n x) : Respects Q (DSpec.vecOf Γ t n x) := by
  cases n with
  | zero => exact (S.drop t x).bind fun _ => Respects.pure _
  | succ n =>
    intro u u' h
    obtain ⟨r, ⟨es, v⟩, ⟨es', v'⟩, e, e', q⟩ :=
      (S.extendClones (t := t) (List.replicate n x) []).both (s := ([], u)) (s' := ([], u')) ⟨rfl, h⟩
    cases (show es = es' from q.1)
    simp only [List.append_nil] at e e'
    simp only [DSpec.vecOf, TVec.pushClones, show TVec.extendClones Γ t (List.replicate n x) [] u = _ from e,
      show TVec.extendClones Γ t (List.replicate n x) [] u' = _ from e']
    cases r with
    | panic y =>
      exact (((S.drop t x).bind fun _ => Respects.dropEach (S.drop t) es).unwindDrop.bind fun _ => Respects.panic y) v v' q.2
    | _ => exact ⟨rfl, q.2⟩

theorem UserRespects.tfill {x} : ∀ es u u', Q u u' →
    (TVec.fill Γ t x es u).1 = (TVec.fill Γ t x es u').1 ∧ Beside Q (TVec.fill Γ t x es u).2 (TVec.fill Γ t x es u').2
  | [], u, u', h => ⟨rfl, rfl, h⟩
  | e :: es, u, u', h => by
    obtain ⟨r, v, v', h1, h1', q⟩ := (S.clone t x).both h
    unfold TVec.fill
    simp only [h1, h1']
    cases r with
    | ok c =>
      obtain ⟨r, z, z', h2, h2', q'⟩ := (S.drop t e).both q
      simp only [h2, h2']
      cases r with
      | ok =>
        obtain ⟨k1, k2, k3⟩ := UserRespects.tfill es z z' q'
        exact ⟨k1, congrArg (c :: ·) k2, k3⟩
      | _ => exact ⟨rfl, rfl, q'⟩
    | _ => exact ⟨rfl, rfl, q⟩

theorem UserRespects.fill (x) : Respects (Beside (OnUser Q D)) (XVec.dynFill Γ t x) := by
  refine Respects.thenDrop ?_ (S.drop t x).call.aside
  have h : ∀ es (f : List Bytes → XVec), Respects (Beside (OnUser Q D)) (⟨fun s => let out := fillAll Γ t x (es, s.2)
      (out.1, (f out.2.1, out.2.2))⟩ : M (XVec × Outside U) Unit) := by
    intro es f s s' hs
    obtain ⟨k1, k2, k3⟩ := S.tfill (t := t) (x := x) es s.2.user s'.2.user hs.2.1
    exact ⟨k1, congrArg f k2, k3, hs.2.2⟩
  rintro ⟨y, o⟩ ⟨y', o'⟩ ⟨h1, h2⟩
  cases (show y = y' from h1)
  simp only [M.bind_run, M.get_run]
  cases y with
  | vec t' es cap =>
    exact Respects.ite ((h es fun es => .vec t es cap).bind fun _ => Respects.pure _) (Respects.pure _) _ _ ⟨rfl, h2⟩
  | unit n =>
    exact Respects.ite ((h (List.replicate n []) fun _ => .unit n).bind fun _ => Respects.pure _) (Respects.pure _) _ _ ⟨rfl, h2⟩

theorem UserRespects.cloneIntoVec : Respects (Beside (OnUser Q D)) (XVec.dynCloneIntoVec Γ t) := by
  rintro ⟨y, o⟩ ⟨y', o'⟩ ⟨h1, h2⟩
  cases (show y = y' from h1)
  unfold XVec.dynCloneIntoVec
  simp only [M.bind_run, M.get_run]
  cases y with
  | vec t' es cap =>
    exact Respects.ite ((S.clones _).call.aside.bind fun cs => (S.dropAll _ _).aside.bind fun _ => Respects.pure _) (Respects.pure _) _ _
      ⟨rfl, h2⟩
  | unit n =>
    exact Respects.ite ((S.clones _).call.aside.bind fun cs => (S.dropAll _ _).aside.bind fun _ => Respects.pure _) (Respects.pure _) _ _
      ⟨rfl, h2⟩

end

/-! ### Variables -/

/-- Two states that agree on the variables in `sees`; in the first, those outside of `own` are as in `G`. -/
structure SeesSame (own sees : Nat → Prop) (G : YVars) (Q : U → U → Prop) (D : Nat × Nat) (s s' : YVars × Outside U) : Prop where
  seen : ∀ k, sees k → s.1 k = s'.1 k
  kept : ∀ k, ¬ own k → s.1 k = G k
  user : OnUser Q D s.2 s'.2

variable {own sees : Nat → Prop} {G : YVars}

theorem SeesSame.put {s s' : YVars × Outside U} (h : SeesSame own sees G Q D s s') (hk : own k) (a : Option YItem) {o o' : Outside U}
    (ho : OnUser Q D o o') : SeesSame own sees G Q D (Slots.put s.1 k a, o) (Slots.put s'.1 k a, o') := by
  refine ⟨fun j hj => ?_, fun j hj => ?_, ho⟩
  · simp only [Slots.put]
    split
    · rfl
    · exact h.seen j hj
  · simp only [Slots.put]
    split
    · subst_vars; exact absurd hk hj
    · exact h.kept j hj

theorem SeesSame.outside {s s' : YVars × Outside U} (h : SeesSame own sees G Q D s s') {o o' : Outside U} (ho : OnUser Q D o o') :
    SeesSame own sees G Q D (s.1, o) (s'.1, o') := ⟨h.seen, h.kept, ho⟩

theorem Respects.outside {m : M (Outside U) α} (h : Respects (OnUser Q D) m) :
    Respects (SeesSame own sees G Q D) (Dync.aside m : M (YVars × Outside U) α) :=
  h.zoom (fun _ _ h => h.user) (fun _ _ _ _ h h' => h'.outside h)

theorem Respects.moveOut (hk : own k) : Respects (SeesSame own sees G Q D) (YOp.moveOut k : M (YVars × Outside U) Unit) :=
  modify fun _ _ h => h.put hk _ h.user

theorem Respects.write (os : ∀ k, own k → sees k) (hk : own k) {i b} : Respects (SeesSame own sees G Q D) (YOp.write Γ cfg k i b) :=
  modify fun s s' h => by rw [h.seen k (os k hk)]; exact h.put hk _ h.user

theorem Respects.read (hk : sees k) {i} : Respects (SeesSame own sees G Q D) (YOp.read Γ cfg k i) := by
  intro s s' h
  unfold YOp.read
  simp only [h.seen k hk]
  cases s'.1 k with
  | none => exact ⟨rfl, h⟩
  | some a => cases ha : a.at Γ cfg i <;> simp only [ha] <;> exact ⟨trivial, h⟩

theorem Respects.onVec (os : ∀ k, own k → sees k) (hk : own k) {m : M (XVec × Outside U) Obs} (hm : Respects (Beside (OnUser Q D)) m) :
    Respects (SeesSame own sees G Q D) (YOp.onVec k m) := by
  intro s s' h
  unfold YOp.onVec
  simp only [h.seen k (os k hk)]
  rcases s'.1 k with _ | ⟨b, x⟩ | ⟨t, x⟩ | ⟨t, x⟩
  · exact ⟨rfl, h⟩
  · obtain ⟨h1, h2, h3⟩ := hm (x, s.2) (x, s'.2) ⟨rfl, h.user⟩
    refine ⟨h1, ?_⟩
    simp only [h2]
    exact h.put hk _ h3
  · exact ⟨rfl, h⟩
  · exact ⟨rfl, h⟩

/-- The container stays as it is. -/
def KeepsVec (m : M (XVec × Outside U) Obs) : Prop := ∀ s, (m s).2.1 = s.1

theorem Respects.onVecRead (hk : sees k) {m : M (XVec × Outside U) Obs} (hm : Respects (Beside (OnUser Q D)) m) (hK : KeepsVec m) :
    Respects (SeesSame own sees G Q D) (YOp.onVec k m) := by
  intro s s' h
  unfold YOp.onVec
  have e := h.seen k hk
  simp only [e]
  rcases hv : s'.1 k with _ | ⟨b, x⟩ | ⟨t, x⟩ | ⟨t, x⟩
  · exact ⟨rfl, h⟩
  · obtain ⟨h1, h2, h3⟩ := hm (x, s.2) (x, s'.2) ⟨rfl, h.user⟩
    refine ⟨h1, ?_⟩
    have p1 : Slots.put s.1 k (some (.vec b x)) = s.1 := by
      funext j; simp only [Slots.put]; split
      · subst_vars; rw [e, hv]
      · rfl
    have p2 : Slots.put s'.1 k (some (.vec b x)) = s'.1 := by
      funext j; simp only [Slots.put]; split
      · subst_vars; rw [hv]
      · rfl
    have q1 : (m (x, s.2)).2.1 = x := hK _
    have q2 : (m (x, s'.2)).2.1 = x := hK _
    simp only [q1, q2, p1, p2]
    exact h.outside h3
  · exact ⟨rfl, h⟩
  · exact ⟨rfl, h⟩

theorem Respects.look (hk : sees k) {f : TyId → List Bytes → Out} {g : Nat → Out} :
    Respects (SeesSame own sees G Q D) (YOp.look Γ k f g) := by
  refine Respects.onVecRead hk Respects.plain fun s => ?_
  rcases s with ⟨⟨t, es, cap⟩ | n, o⟩ <;> rfl

theorem keeps_cloneIntoVec : KeepsVec (XVec.dynCloneIntoVec Γ t : M (XVec × Outside U) Obs) := by
  have h : ∀ (es : List Bytes) (s : XVec × Outside U), (((do
      let cs ← Dync.aside (Dync.call (DSpec.clones Γ t es))
      Dync.aside (Dync.dropAll Γ t cs)
      return .elems cs : M (XVec × Outside U) Obs)) s).2.1 = s.1 := by
    intro es s
    simp only [Dync.aside, M.bind_run, M.zoom_run]
    rcases Dync.call (DSpec.clones Γ t es) s.2 with ⟨r, o⟩
    cases r with
    | ok cs =>
      simp only
      rcases Dync.dropAll Γ t cs o with ⟨r, o'⟩
      cases r <;> rfl
    | _ => rfl
  rintro ⟨y, o⟩
  unfold XVec.dynCloneIntoVec
  simp only [M.bind_run, M.get_run]
  cases y with
  | vec t' es cap =>
    simp only
    split
    · exact h es (_, o)
    · rfl
  | unit n =>
    simp only
    split
    · exact h _ (_, o)
    · rfl

section
variable (S : UserRespects Q Γ Φ) (os : ∀ k, own k → sees k)
include S os

theorem UserRespects.assign (hk : own k) (a) : Respects (SeesSame own sees G Q D) (YOp.assign Γ k a) := by
  intro s s' h
  unfold YOp.assign
  simp only [h.seen k (os k hk)]
  cases s'.1 k with
  | none => exact ⟨rfl, h.put hk _ h.user⟩
  | some old =>
    obtain ⟨h1, h2⟩ := S.itemDrop old _ _ h.user
    exact ⟨by simp only [h1], h.put hk _ h2⟩

theorem UserRespects.create (hk : own k) {m : M (Outside U) YItem} (h : Respects (OnUser Q D) m) :
    Respects (SeesSame own sees G Q D) (YOp.create Γ k m) := h.outside.bind fun a => S.assign os hk a

omit S in
theorem Respects.append (hk : own k) (hj : own j) : Respects (SeesSame own sees G Q D) (YOp.append Γ k j) := by
  intro s s' h
  unfold YOp.append
  simp only [h.seen k (os k hk), h.seen j (os j hj)]
  have two : ∀ a b {o o' : Outside U}, OnUser Q D o o' →
      SeesSame own sees G Q D (Slots.put (Slots.put s.1 k a) j b, o) (Slots.put (Slots.put s'.1 k a) j b, o') :=
    fun a b o o' ho => (h.put hk a ho).put hj b ho
  split
  · exact ⟨rfl, h⟩
  · rcases s'.1 k with _ | ⟨b, ⟨t, es, cap⟩ | n⟩ | ⟨t, x⟩ | ⟨t, x⟩ <;> rcases s'.1 j with _ | ⟨b', ⟨t', es', cap'⟩ | n'⟩ | ⟨t', x'⟩ | ⟨t', x'⟩ <;>
      simp only <;> first | exact ⟨trivial, h⟩ | exact ⟨trivial, two _ _ h.user⟩ | skip
    split
    · split <;> first | exact ⟨rfl, two _ _ h.user⟩ | exact ⟨rfl, two _ _ (h.user.add h.user.1 1)⟩
    · exact ⟨rfl, h⟩

theorem UserRespects.assignPlace (hk : own k) (hj : own j) {i t x mk} :
    Respects (SeesSame own sees G Q D) (YOp.assignPlace Γ cfg k i j t x mk) := by
  refine (Respects.read (os k hk)).bind fun p => ?_
  cases p with
  | none => exact Respects.pure _
  | some p =>
    exact (Respects.moveOut hj).bind fun _ => .ite ((Respects.write os hk).bind fun _ => (S.itemDrop _).outside.bind fun _ => Respects.pure _)
      ((S.itemDrop _).outside.bind fun _ => Respects.pure _)

theorem UserRespects.step (d : DOp) (hw : ∀ k ∈ d.writes, own k) (hr : ∀ k ∈ d.reads, sees k) :
    Respects (SeesSame own sees G Q D) (d.step Γ cfg) := by
  cases d with
  | withType k t => exact S.create os (hw k (by simp [DOp.writes])) (S.wrap _ _)
  | withCapacity k t n => exact S.create os (hw k (by simp [DOp.writes])) (.ite (S.wrap _ _) (Respects.panic _))
  | fromVec k t xs => exact S.create os (hw k (by simp [DOp.writes])) (.ite (S.wrap _ _) (Respects.panic _))
  | fromSlice k t xs =>
    exact S.create os (hw k (by simp [DOp.writes])) (.ite ((S.clones _).call.bind fun _ => S.wrap _ _) (Respects.panic _))
  | withSize k t n x =>
    exact S.create os (hw k (by simp [DOp.writes])) (.ite ((S.vecOf _ _).call.bind fun _ => S.wrap _ _)
      ((S.drop _ _).call.unwindDrop.bind fun _ => Respects.panic _))
  | newBox k t x => exact S.create os (hw k (by simp [DOp.writes])) (Respects.pure _)
  | newSmall k t x => exact S.create os (hw k (by simp [DOp.writes])) (.ite (Respects.pure _) (Respects.panic _))
  | drop k =>
    have hk := hw k (by simp [DOp.writes])
    intro s s' h
    simp only [DOp.step, h.seen k (os k hk)]
    cases s'.1 k with
    | none => exact ⟨rfl, h⟩
    | some a => exact ((Respects.moveOut hk).bind fun _ => (S.itemDrop a).outside.bind fun _ => Respects.pure _) s s' h
  | clone k j =>
    intro s s' h
    simp only [DOp.step, h.seen k (hr k (by simp [DOp.reads]))]
    cases s'.1 k with
    | none => exact ⟨rfl, h⟩
    | some a => exact S.create os (hw j (by simp [DOp.writes])) (S.itemClone a) s s' h
  | consume k t =>
    have hk := hw k (by simp [DOp.writes])
    intro s s' h
    simp only [DOp.step, h.seen k (os k hk)]
    cases s'.1 k with
    | none => exact ⟨rfl, h⟩
    | some a => exact ((Respects.moveOut hk).bind fun _ => (S.itemConsume a _).outside) s s' h
  | roundTrip k t =>
    have hk := hw k (by simp [DOp.writes])
    intro s s' h
    simp only [DOp.step, h.seen k (os k hk)]
    rcases s'.1 k with _ | ⟨b, ⟨t', es, cap⟩ | n⟩ | ⟨t', x⟩ | ⟨t', x⟩
    · exact ⟨rfl, h⟩
    · simp only
      split
      · exact ⟨rfl, h⟩
      · exact ⟨rfl, h.put hk _ h.user⟩
    · simp only
      split
      · exact ((Respects.moveOut hk).bind fun _ => (S.dropAll _ _).unwindDrop.outside.bind fun _ => Respects.panic _) s s' h
      · exact ⟨rfl, h.put hk _ h.user⟩
    · exact ⟨rfl, h⟩
    · exact ⟨rfl, h⟩
  | append k j => exact Respects.append os (hw k (by simp [DOp.writes])) (hw j (by simp [DOp.writes]))
  | pushAs k t x => exact (S.pushAs x).onVec os (hw k (by simp [DOp.writes]))
  | pushCloned k j i =>
    refine .ite (Respects.pure _) ((Respects.read (hr j (by simp [DOp.reads]))).bind fun p => ?_)
    cases p with
    | none => exact Respects.pure _
    | some p => exact (S.pushCloned p).onVec os (hw k (by simp [DOp.writes]))
  | pushBox k j =>
    have hk := hw k (by simp [DOp.writes])
    have hj := hw j (by simp [DOp.writes])
    intro s s' h
    simp only [DOp.step, h.seen k (os k hk), h.seen j (os j hj)]
    rcases s'.1 k with _ | ⟨b, x⟩ | ⟨t, x⟩ | ⟨t, x⟩ <;> rcases s'.1 j with _ | ⟨b', x'⟩ | ⟨t', x'⟩ | ⟨t', x'⟩ <;>
      first | exact ⟨rfl, h⟩ | exact ((Respects.moveOut hj).bind fun _ => (S.push _).onVec os hk) s s' h
  | resize k t n x => exact (S.resize n x).onVec os (hw k (by simp [DOp.writes]))
  | fill k t x => exact (S.fill x).onVec os (hw k (by simp [DOp.writes]))
  | clear k => exact S.clear.onVec os (hw k (by simp [DOp.writes]))
  | rotateLeft k n => exact Respects.plain.onVec os (hw k (by simp [DOp.writes]))
  | rotateRight k n => exact Respects.plain.onVec os (hw k (by simp [DOp.writes]))
  | swap k i j => exact Respects.plain.onVec os (hw k (by simp [DOp.writes]))
  | setAs k t i x => exact (S.setAs i x).onVec os (hw k (by simp [DOp.writes]))
  | cloneIntoVec k t => exact S.cloneIntoVec.onVecRead (hr k (by simp [DOp.reads])) keeps_cloneIntoVec
  | cloneValue k i j =>
    refine (Respects.read (hr k (by simp [DOp.reads]))).bind fun p => ?_
    cases p with
    | none => exact Respects.pure _
    | some p => exact S.create os (hw j (by simp [DOp.writes])) ((S.placeClone p).bind fun _ => Respects.pure _)
  | cloneSmall k i j =>
    refine (Respects.read (hr k (by simp [DOp.reads]))).bind fun p => ?_
    cases p with
    | none => exact Respects.pure _
    | some p =>
      exact S.create os (hw j (by simp [DOp.writes])) ((S.placeClone p).bind fun _ => .ite (Respects.pure _)
        ((S.drop _ _).call.unwindDrop.bind fun _ => Respects.panic _))
  | assign k i j =>
    have hk := hw k (by simp [DOp.writes])
    have hj := hw j (by simp [DOp.writes])
    intro s s' h
    simp only [DOp.step, h.seen k (os k hk), h.seen j (os j hj)]
    split
    · exact ⟨rfl, h⟩
    · rcases s'.1 k with _ | a <;> rcases s'.1 j with _ | ⟨b', x'⟩ | ⟨t', x'⟩ | ⟨t', x'⟩ <;>
        first | exact ⟨rfl, h⟩ | exact S.assignPlace os hk hj s s' h
  | cloneFrom k i j i' =>
    have hk := hw k (by simp [DOp.writes])
    refine .ite (Respects.pure _) ((Respects.read (hr j (by simp [DOp.reads]))).bind fun p => ?_)
    cases p with
    | none => exact Respects.pure _
    | some p =>
      refine (Respects.read (os k hk)).bind fun d => ?_
      cases d with
      | none => exact Respects.pure _
      | some d =>
        refine .ite (.ite (fun s s' h => ?_) (Respects.panic _)) (Respects.pure _)
        obtain ⟨h1, h2, h3⟩ := S.cloneFrom d.ty p.bytes (d.bytes, s.2.user) (d.bytes, s'.2.user) ⟨rfl, h.user.1⟩
        refine ⟨by simp only [h1], ?_⟩
        simp only [h2]
        exact (Respects.write os hk _ _ (h.outside (show OnUser Q D ⟨s.2.leaked, _⟩ ⟨s'.2.leaked, _⟩ from ⟨h3, h.user.2⟩))).2
  | swapValues k i j i' =>
    have hk := hw k (by simp [DOp.writes])
    have hj := hw j (by simp [DOp.writes])
    refine .ite (Respects.pure _) ((Respects.read (os k hk)).bind fun p => ?_)
    cases p with
    | none => exact Respects.pure _
    | some p =>
      refine (Respects.read (os j hj)).bind fun q => ?_
      cases q with
      | none => exact Respects.pure _
      | some q =>
        exact .ite ((Respects.write os hk).bind fun _ => (Respects.write os hj).bind fun _ => Respects.pure _) (Respects.pure _)
  | len k => exact Respects.look (hr k (by simp [DOp.reads]))
  | typeId k => exact Respects.look (hr k (by simp [DOp.reads]))
  | getAs k t i => exact Respects.look (hr k (by simp [DOp.reads]))
  | get k i =>
    refine (Respects.read (hr k (by simp [DOp.reads]))).bind fun p => ?_
    cases p <;> exact Respects.pure _
  | asSlice k t => exact Respects.look (hr k (by simp [DOp.reads]))
  | iter k => exact Respects.look (hr k (by simp [DOp.reads]))


/-! ### Views -/

omit os in
theorem UserRespects.tcloneFrom : ∀ ds ss u u', Q u u' → (TVec.cloneFrom Γ t ds ss u).1 = (TVec.cloneFrom Γ t ds ss u').1 ∧
    Beside Q (TVec.cloneFrom Γ t ds ss u).2 (TVec.cloneFrom Γ t ds ss u').2
  | [], ss, u, u', h => by simp only [TVec.cloneFrom]; exact ⟨trivial, rfl, h⟩
  | _ :: _, [], u, u', h => by simp only [TVec.cloneFrom]; exact ⟨trivial, rfl, h⟩
  | d :: ds, x :: ss, u, u', h => by
    obtain ⟨r, ⟨d1, v⟩, ⟨d1', v'⟩, e, e', q⟩ := (S.cloneFrom t x).both (s := (d, u)) (s' := (d, u')) ⟨rfl, h⟩
    cases (show d1 = d1' from q.1)
    simp only [TVec.cloneFrom, e, e']
    cases r with
    | ok a =>
      obtain ⟨k1, k2, k3⟩ := UserRespects.tcloneFrom ds ss v v' q.2
      exact ⟨k1, congrArg (d1 :: ·) k2, k3⟩
    | _ => exact ⟨rfl, rfl, q.2⟩

omit S os in
theorem Respects.each {m : M (List Bytes × U) (List α)} (hm : Respects (Beside Q) m) : ∀ cs u u', Q u u' →
    (Plain.each m cs u).1 = (Plain.each m cs u').1 ∧ Beside Q (Plain.each m cs u).2 (Plain.each m cs u').2
  | [], u, u', h => ⟨rfl, rfl, h⟩
  | c :: cs, u, u', h => by
    obtain ⟨r, ⟨c1, v⟩, ⟨c1', v'⟩, e, e', q⟩ := hm.both (s := (c, u)) (s' := (c, u')) ⟨rfl, h⟩
    cases (show c1 = c1' from q.1)
    simp only [Plain.each, e, e']
    cases r with
    | ok a =>
      obtain ⟨k1, k2, k3⟩ := Respects.each hm cs v v' q.2
      exact ⟨congrArg (Res.map (a ++ ·)) k1, congrArg (c1 :: ·) k2, k3⟩
    | _ => exact ⟨rfl, rfl, q.2⟩

omit os in
theorem UserRespects.destroy : Respects (OnUser Q D) (Plain.destroy Γ t n x) := by
  intro s s' h
  obtain ⟨k1, k2⟩ := S.drop t x _ _ h.1
  refine ⟨k1, ?_⟩
  simp only [Plain.destroy, k1]
  exact h.add k2 _

omit os in
theorem UserRespects.plain : ∀ (p : VProg U), p.Respects Q → Respects (Beside (OnUser Q D)) (p.plain Γ t)
  | .skip, _ => Respects.pure _
  | .seq p q, h => (UserRespects.plain p h.1).bind fun _ => (UserRespects.plain q h.2).bind fun _ => Respects.pure _
  | .look l, _ => by
    rintro ⟨es, u⟩ ⟨es', u'⟩ ⟨h1, h2⟩
    cases (show es = es' from h1)
    exact ⟨rfl, rfl, h2⟩
  | .setAs t' i x, _ => .ite (store_r S) (discard_r S)
  | .edit t' m, h => .ite (fun s s' hs => by
      obtain ⟨k1, k2, k3⟩ := h (s.1, s.2.user) (s'.1, s'.2.user) ⟨hs.1, hs.2.1⟩
      exact ⟨congrArg (Res.map fun _ => []) k1, k2, k3, hs.2.2⟩) (Respects.pure _)
  | .assign i t' x, _ => .ite (store_r S) (discard_r S)
  | .cloneFrom i t' x, _ => by
    refine .ite ?_ ?_ <;> (rintro ⟨es, u⟩ ⟨es', u'⟩ ⟨h1, h2⟩; cases (show es = es' from h1))
    · simp only [Plain.cloneFrom]
      split
      · rename_i hi
        obtain ⟨k1, k2, k3⟩ := S.cloneFrom t x (es[i], u.user) (es[i], u'.user) ⟨rfl, h2.1⟩
        exact ⟨congrArg (Res.map fun _ => []) k1, congrArg (es.set i ·) k2, k3, h2.2⟩
      · exact ⟨rfl, rfl, h2⟩
    · simp only; split <;> exact ⟨rfl, rfl, h2⟩
  | .cloneFromAll t' x, _ => by
    refine .ite ?_ (Respects.pure _)
    rintro ⟨es, u⟩ ⟨es', u'⟩ ⟨h1, h2⟩
    cases (show es = es' from h1)
    exact cloneFromSlice_r S _ _ ⟨rfl, h2⟩
  | .cloneFromSlice t' xs, _ => .ite (cloneFromSlice_r S) (Respects.pure _)
  | .sub r p, h => by
    rintro ⟨es, u⟩ ⟨es', u'⟩ ⟨h1, h2⟩
    cases (show es = es' from h1)
    simp only [VProg.plain, Plain.part]
    split
    · obtain ⟨k1, k2, k3⟩ := UserRespects.plain p h ((es.take (r.hi es.length)).drop r.lo, u) (_, u') ⟨rfl, h2⟩
      exact ⟨k1, by simp only [k2], k3⟩
    · exact ⟨rfl, rfl, h2⟩
  | .split mid p q, h => by
    rintro ⟨es, u⟩ ⟨es', u'⟩ ⟨h1, h2⟩
    cases (show es = es' from h1)
    simp only [VProg.plain, Plain.split]
    split
    · obtain ⟨r, ⟨ls, v⟩, ⟨ls', v'⟩, e, e', k⟩ :=
        (UserRespects.plain p h.1).both (s := (es.take mid, u)) (s' := (es.take mid, u')) ⟨rfl, h2⟩
      cases (show ls = ls' from k.1)
      simp only [e, e']
      cases r with
      | ok a =>
        obtain ⟨k1, k2, k3⟩ := UserRespects.plain q h.2 (es.drop mid, v) (es.drop mid, v') ⟨rfl, k.2⟩
        exact ⟨congrArg (Res.map (a ++ ·)) k1, congrArg (ls ++ ·) k2, k3⟩
      | _ => exact ⟨rfl, rfl, k.2⟩
    · exact ⟨rfl, rfl, h2⟩
  | .chunks k p, h => by
    rintro ⟨es, u⟩ ⟨es', u'⟩ ⟨h1, h2⟩
    cases (show es = es' from h1)
    simp only [VProg.plain, Plain.chunks]
    split
    · exact ⟨rfl, rfl, h2⟩
    · obtain ⟨k1, k2, k3⟩ := (UserRespects.plain p h).each (pieces k es) u u' h2
      exact ⟨k1, by simp only [k2], k3⟩
where
  store_r {t n i x} (S : UserRespects Q Γ Φ) : Respects (Beside (OnUser Q D)) (Plain.store Γ t n i x) := by
    rintro ⟨es, u⟩ ⟨es', u'⟩ ⟨h1, h2⟩
    cases (show es = es' from h1)
    simp only [Plain.store]
    split
    · exact ⟨congrArg (Res.map fun _ => []) (S.destroy _ _ h2).1, rfl, (S.destroy _ _ h2).2⟩
    · exact ⟨rfl, rfl, h2⟩
  discard_r {t n i x} (S : UserRespects Q Γ Φ) : Respects (Beside (OnUser Q D)) (Plain.discard Γ t n i x) := by
    rintro ⟨es, u⟩ ⟨es', u'⟩ ⟨h1, h2⟩
    cases (show es = es' from h1)
    simp only [Plain.discard]
    split
    · exact ⟨congrArg (Res.map fun _ => []) (S.destroy _ _ h2).1, rfl, (S.destroy _ _ h2).2⟩
    · exact ⟨rfl, rfl, h2⟩
  cloneFromSlice_r {t xs} (S : UserRespects Q Γ Φ) : Respects (Beside (OnUser Q D)) (Plain.cloneFromSlice Γ t xs) := by
    rintro ⟨es, u⟩ ⟨es', u'⟩ ⟨h1, h2⟩
    cases (show es = es' from h1)
    simp only [Plain.cloneFromSlice]
    split
    · obtain ⟨k1, k2⟩ := S.tcloneFrom (t := t) es xs u.user u'.user h2.1
      exact ⟨congrArg (Res.map fun _ => []) k1, k2.1, k2.2, h2.2⟩
    · exact ⟨rfl, rfl, h2⟩

omit os in
theorem UserRespects.onUnits : ∀ (p : VProg U), Respects (OnUser Q D) (p.onUnits Γ cfg)
  | .skip => Respects.pure _
  | .seq p q => (UserRespects.onUnits p).bind fun _ => (UserRespects.onUnits q).bind fun _ => Respects.pure _
  | .look (.get _) => .ite (Respects.panic _) (Respects.pure _)
  | .look (.asSlice _) => .ite (Respects.panic _) (Respects.pure _)
  | .look (.swap _ _) => .ite (Respects.panic _) (Respects.pure _)
  | .look (.rotateLeft _) => Respects.pure _
  | .look (.rotateRight _) => Respects.pure _
  | .look (.getAs ..) => Respects.panic _
  | .look .iter => Respects.panic _
  | .assign _ t x => .ite (Respects.panic _) (S.destroy.bind fun _ => Respects.pure _)
  | .cloneFrom _ _ _ => .ite (Respects.panic _) (Respects.pure _)
  | .sub r p => by
    cases r <;> simp only [VProg.onUnits] <;> first | exact Respects.panic _ | exact UserRespects.onUnits p
  | .split _ p q => (UserRespects.onUnits p).bind fun _ => (UserRespects.onUnits q).bind fun _ => Respects.pure _
  | .setAs .. => Respects.panic _
  | .edit .. => Respects.panic _
  | .cloneFromAll .. => Respects.panic _
  | .cloneFromSlice .. => Respects.panic _
  | .chunks .. => Respects.panic _

/-! ### Comparison, hashing, formatting -/

omit os in
theorem UserRespects.pairs (t) : ∀ ps, Respects Q (eqPairs Φ t ps)
  | [] => Respects.pure _
  | _ :: ps => (S.eq _ _ _).bind fun _ => .ite (UserRespects.pairs t ps) (Respects.pure _)

omit S os in
theorem Respects.onFmt (m : M F α) : Respects (Beside Q) (onFmt m : M (F × U) α) := by
  rintro ⟨f, u⟩ ⟨f', u'⟩ ⟨h1, h2⟩
  cases (show f = f' from h1)
  exact ⟨rfl, rfl, h2⟩

omit S os in
theorem Respects.andThen {m k : M σ FmtRes} (h : Respects R m) (h' : Respects R k) : Respects R (andThen m k) :=
  h.bind fun r => by cases r; exact h'; exact Respects.pure _

omit S os in
theorem Respects.entry {b} {e : M (F × U) FmtRes} (h : Respects (Beside Q) e) : Respects (Beside Q) (debugEntryFx K b e) := by
  rintro ⟨f, u⟩ ⟨f', u'⟩ ⟨h1, h2⟩
  cases (show f = f' from h1)
  have hm : ∀ g : F → F, Respects (Beside Q) (M.modify fun s : F × U => (g s.1, s.2)) :=
    fun g => modify fun s s' h => ⟨congrArg g h.1, h.2⟩
  unfold debugEntryFx
  simp only [M.bind_run, M.get_run]
  refine Respects.ite (R := Beside Q) (.andThen (.ite (Respects.pure _) (Respects.onFmt _)) ?_)
    (.andThen (.ite (Respects.onFmt _) (Respects.pure _)) h) _ _ ⟨rfl, h2⟩
  exact (hm _).bind fun _ => (h.andThen (Respects.onFmt _)).bind fun _ => (hm _).bind fun _ => Respects.pure _

omit S os in
theorem Respects.entries : ∀ (es : List (M (F × U) FmtRes)), (∀ e ∈ es, Respects (Beside Q) e) → ∀ b r,
    Respects (Beside Q) (debugEntriesFx K b r es)
  | [], _, _, _ => by unfold debugEntriesFx; exact Respects.pure _
  | e :: es, h, b, .ok => by
    unfold debugEntriesFx
    exact (Respects.entry (h e (List.mem_cons_self ..))).bind fun _ => Respects.entries es (fun e he => h e (List.mem_cons_of_mem _ he)) _ _
  | e :: es, h, b, .err => by
    unfold debugEntriesFx
    exact Respects.entries es (fun e he => h e (List.mem_cons_of_mem _ he)) _ _

omit S os in
theorem Respects.list {es : List (M (F × U) FmtRes)} (h : ∀ e ∈ es, Respects (Beside Q) e) : Respects (Beside Q) (debugListFx K es) :=
  (Respects.onFmt _).bind fun _ => (Respects.entries es h _ _).andThen (Respects.onFmt _)

omit os in
theorem UserRespects.itemEq {a b : YItem} {m} (h : a.eq Φ b = some m) : Respects Q m := by
  unfold YItem.eq at h
  split at h <;> cases h
  · exact .ite (S.pairs _ _) (Respects.pure _)
  · exact Respects.panic _
  · exact .ite (S.eq _ _ _) (Respects.pure _)
  · exact .ite (S.eq _ _ _) (Respects.pure _)

omit os in
theorem UserRespects.itemHash (a : YItem) : Respects (Beside Q) (a.hash Φ) := by
  unfold YItem.hash
  split
  · exact Respects.forEach (S.hash _) _
  · exact Respects.panic _
  · exact S.hash _ _
  · exact S.hash _ _

omit os in
theorem UserRespects.itemFmt (a : YItem) : Respects (Beside Q) (a.fmt Φ K) := by
  unfold YItem.fmt
  split
  · exact Respects.list fun e he => by obtain ⟨x, -, rfl⟩ := List.mem_map.1 he; exact S.fmt _ _
  · exact Respects.panic _
  · exact S.fmt _ _
  · exact S.fmt _ _

omit S os in
theorem Respects.see {g : α → WObs H F} {m : M U α} (h : Respects Q m) :
    Respects (SeesSame own sees G Q D) (WOp.see g m : M (YVars × Outside U) (WObs H F)) :=
  h.call.outside.bind fun _ => Respects.pure _

omit S os in
theorem Respects.withTemp {A : Type} {a : A} {m : M (A × U) α} (h : Respects (Beside Q) m) : Respects Q (withTemp a m) := by
  intro u u' hs
  obtain ⟨k1, k2, k3⟩ := h (a, u) (a, u') ⟨rfl, hs⟩
  exact ⟨by simp only [Dync.withTemp, k1, k2], k3⟩

omit S os in
theorem Respects.seePlace (hk : sees k) {i : Nat} {m : Place → M (YVars × Outside U) (WObs H F)}
    (h : ∀ p, Respects (SeesSame own sees G Q D) (m p)) : Respects (SeesSame own sees G Q D) (WOp.seePlace Γ cfg k i m) :=
  (Respects.read hk).bind fun q => by cases q; exact Respects.pure _; exact h _

/-- How many blocks were leaked before does not matter. -/
theorem UserRespects.whole (c : WOp U V H F) (hw : ∀ k ∈ c.writes, own k) (hr : ∀ k ∈ c.reads, sees k) (hc : c.Respects Q)
    : Respects (SeesSame own sees G Q D) (c.step Γ cfg Φ K) := by
  intro s s' h
  cases c with
  | op d => exact ((S.step os d hw hr).bind fun _ => Respects.pure _) s s' h
  | view k p =>
    have hk := hw k (by simp [WOp.writes])
    simp only [WOp.step, h.seen k (os k hk)]
    rcases s'.1 k with _ | ⟨b, ⟨t, es, cap⟩ | n⟩ | ⟨t, x⟩ | ⟨t, x⟩
    · exact ⟨rfl, h⟩
    · obtain ⟨k1, k2, k3⟩ := S.plain (t := t) p hc (es, s.2) (es, s'.2) ⟨rfl, h.user⟩
      simp only [WOp.viewed]
      refine ⟨congrArg (Res.map WObs.reads) k1, ?_⟩
      simp only [k2]
      exact h.put hk _ k3
    · obtain ⟨k1, k2⟩ := S.onUnits (cfg := cfg) p s.2 s'.2 h.user
      exact ⟨congrArg (Res.map WObs.reads) k1, h.outside k2⟩
    · exact ⟨rfl, h⟩
    · exact ⟨rfl, h⟩
  | typeFrom k j =>
    simp only [WOp.step, h.seen k (hr k (by simp [WOp.reads]))]
    rcases s'.1 k with _ | ⟨b, ⟨t, es, cap⟩ | n⟩ | ⟨t, x⟩ | ⟨t, x⟩
    · exact ⟨rfl, h⟩
    · exact ((S.create os (hw j (by simp [WOp.writes])) (Respects.pure _)).bind fun _ => Respects.pure _) s s' h
    · exact ⟨rfl, h⟩
    · exact ⟨rfl, h⟩
    · exact ⟨rfl, h⟩
  | check k t =>
    have hk := hw k (by simp [WOp.writes])
    simp only [WOp.step, h.seen k (os k hk)]
    rcases s'.1 k with _ | ⟨b, x⟩ | ⟨t, x⟩ | ⟨t, x⟩
    · exact ⟨rfl, h⟩
    · simp only
      split
      · exact ⟨rfl, h⟩
      · exact ((Respects.moveOut hk).bind fun _ => (S.itemDrop _).outside.bind fun _ => Respects.pure _) s s' h
    · exact ⟨rfl, h⟩
    · exact ⟨rfl, h⟩
  | upcast k f =>
    simp only [WOp.step, h.seen k (os k (hw k (by simp [WOp.writes])))]
    rcases s'.1 k with _ | a <;> exact ⟨rfl, h⟩
  | eq k j =>
    simp only [WOp.step, h.seen k (hr k (by simp [WOp.reads])), h.seen j (hr j (by simp [WOp.reads]))]
    rcases s'.1 k with _ | a
    · exact ⟨rfl, h⟩
    · rcases s'.1 j with _ | b
      · exact ⟨rfl, h⟩
      · rcases hm : a.eq Φ b with _ | m
        · simp only [hm]; exact ⟨rfl, h⟩
        · simp only [hm]; exact (S.itemEq hm).see s s' h
  | eqAt k i j i' =>
    exact Respects.seePlace (hr k (by simp [WOp.reads])) (fun a => .seePlace (hr j (by simp [WOp.reads])) fun b =>
      Respects.see (.ite (.ite (S.eq _ _ _) (Respects.panic _)) (Respects.pure _))) s s' h
  | hash k f =>
    simp only [WOp.step, h.seen k (hr k (by simp [WOp.reads]))]
    rcases s'.1 k with _ | a
    · exact ⟨rfl, h⟩
    · exact (S.itemHash a).withTemp.see s s' h
  | hashAt k i f =>
    exact Respects.seePlace (hr k (by simp [WOp.reads]))
      (fun a => Respects.see (Respects.withTemp (.ite (S.hash _ _) (Respects.panic _)))) s s' h
  | fmt k f =>
    simp only [WOp.step, h.seen k (hr k (by simp [WOp.reads]))]
    rcases s'.1 k with _ | a
    · exact ⟨rfl, h⟩
    · exact (S.itemFmt a).withTemp.see s s' h
  | fmtAt k i f =>
    exact Respects.seePlace (hr k (by simp [WOp.reads]))
      (fun a => Respects.see (Respects.withTemp (.ite (S.fmt _ _) (Respects.panic _)))) s s' h

end
end Dync
