import Verif.NestedCompare
import Verif.Props.Compare
import Verif.Props.Nested
/-! # Lemmas about comparing, hashing and printing containers of containers -/
namespace Dync
variable {U H F α β σ τ : Type} {Γ : TyEnv U} {t : TyId} {N : Nesting U} {Φ : UserFns U H F} {K : Formatting F}

/-! ### Running on a part of the state -/

/-- `m`, in a state that contains a state of `k`, does what `k` does. -/
def Lifts (f : τ → σ) (m : M σ α) (k : M τ α) : Prop := ∀ u, m (f u) = ((k u).1, f (k u).2)

theorem Lifts.pure {f : τ → σ} (a : α) : Lifts f (pure a : M σ α) (pure a) := fun _ => rfl

theorem Lifts.bind {f : τ → σ} {m : M σ α} {k : M τ α} {m' : α → M σ β} {k' : α → M τ β} (h : Lifts f m k) (h' : ∀ a, Lifts f (m' a) (k' a)) :
    Lifts f (m >>= m') (k >>= k') := by
  intro u
  have hu := h u
  rcases hk : k u with ⟨r, u'⟩
  rw [hk] at hu
  cases r with
  | ok a => rw [M.bind_ok hk, M.bind_ok hu]; exact h' a u'
  | panic y => rw [M.bind_panic hk, M.bind_panic hu]
  | ub => rw [M.bind_ub hk, M.bind_ub hu]
  | abort => rw [M.bind_abort hk, M.bind_abort hu]

theorem Lifts.allPairs {A B : Type} {f : τ → σ} {R : A → B → Prop} {m : A → A → M σ Bool} {k : B → B → M τ Bool}
    (h : ∀ a a' b b', R a b → R a' b' → Lifts f (m a a') (k b b')) :
    ∀ {as as' : List A} {bs bs' : List B}, List.Forall₂ R as bs → List.Forall₂ R as' bs' → Lifts f (allPairs m as as') (allPairs k bs bs')
  | _, _, _, _, .nil, _ => Lifts.pure true
  | _, _, _, _, .cons _ _, .nil => Lifts.pure true
  | _, _, _, _, .cons r rs, .cons r' rs' =>
    (h _ _ _ _ r r').bind fun b => by
      cases b with
      | true => exact Lifts.allPairs h rs rs'
      | false => exact Lifts.pure false

theorem Lifts.forEach {A B : Type} {f : τ → σ} {R : A → B → Prop} {m : A → M σ Unit} {k : B → M τ Unit} (h : ∀ a b, R a b → Lifts f (m a) (k b)) :
    ∀ {as : List A} {bs : List B}, List.Forall₂ R as bs → Lifts f (M.forEach as m) (M.forEach bs k)
  | _, _, .nil => Lifts.pure ()
  | _, _, .cons r rs => by
    rw [M.forEach_cons, M.forEach_cons]
    exact (h _ _ r).bind fun _ => Lifts.forEach h rs

/-! ### Formatting -/

section
variable {g : τ → σ}

/-- The formatter beside a part of the state. -/
abbrev beside (g : τ → σ) : F × τ → F × σ := fun s => (s.1, g s.2)

theorem Lifts.onFmt (m : M F α) : Lifts (beside g) (onFmt m) (onFmt m) := fun _ => rfl

theorem Lifts.andThen {f : τ → σ} {m m' : M σ FmtRes} {k k' : M τ FmtRes} (h : Lifts f m k) (h' : Lifts f m' k') : Lifts f (andThen m m') (andThen k k') :=
  h.bind fun r => by cases r with
    | ok => exact h'
    | err => exact Lifts.pure _

theorem Lifts.modify (w : F → F) : Lifts (beside g) (M.modify fun s => (w s.1, s.2)) (M.modify fun s => (w s.1, s.2)) := fun _ => rfl

theorem Lifts.entry {m : M (F × σ) FmtRes} {k : M (F × τ) FmtRes} (h : Lifts (beside g) m k) (b : Bool) :
    Lifts (beside g) (debugEntryFx K b m) (debugEntryFx K b k) := by
  intro s
  have hs : Lifts (beside g)
      (if K.pretty s.1 then
        Dync.andThen (if b then Pure.pure .ok else Dync.onFmt (K.write "\n")) (do
          M.modify fun s => (K.wrap s.1, s.2)
          let r ← Dync.andThen m (Dync.onFmt (K.write ",\n"))
          M.modify fun s => (K.unwrap s.1, s.2)
          Pure.pure r)
      else Dync.andThen (if b then Dync.onFmt (K.write ", ") else Pure.pure .ok) m)
      (if K.pretty s.1 then
        Dync.andThen (if b then Pure.pure .ok else Dync.onFmt (K.write "\n")) (do
          M.modify fun s => (K.wrap s.1, s.2)
          let r ← Dync.andThen k (Dync.onFmt (K.write ",\n"))
          M.modify fun s => (K.unwrap s.1, s.2)
          Pure.pure r)
      else Dync.andThen (if b then Dync.onFmt (K.write ", ") else Pure.pure .ok) k) := by
    split
    · refine Lifts.andThen ?_ ((Lifts.modify _).bind fun _ => (h.andThen (Lifts.onFmt _)).bind fun r => (Lifts.modify _).bind fun _ => Lifts.pure r)
      split
      · exact Lifts.pure _
      · exact Lifts.onFmt _
    · refine Lifts.andThen ?_ h
      split
      · exact Lifts.onFmt _
      · exact Lifts.pure _
  exact hs s

theorem Lifts.entries {A B : Type} {R : A → B → Prop} {m : A → M (F × σ) FmtRes} {k : B → M (F × τ) FmtRes} (h : ∀ a b, R a b → Lifts (beside g) (m a) (k b)) :
    ∀ {as : List A} {bs : List B} (b : Bool) (r : FmtRes), List.Forall₂ R as bs →
      Lifts (beside g) (debugEntriesFx K b r (as.map m)) (debugEntriesFx K b r (bs.map k))
  | _, _, b, r, .nil => by
    cases b <;> cases r <;> exact Lifts.pure _
  | _, _, b, .ok, .cons x xs => by
    simp only [List.map_cons, debugEntriesFx]
    exact ((h _ _ x).entry b).bind fun r => Lifts.entries h true r xs
  | _, _, b, .err, .cons x xs => by
    simp only [List.map_cons, debugEntriesFx]
    exact Lifts.entries h true .err xs

theorem Lifts.list {A B : Type} {R : A → B → Prop} {m : A → M (F × σ) FmtRes} {k : B → M (F × τ) FmtRes} (h : ∀ a b, R a b → Lifts (beside g) (m a) (k b))
    {as : List A} {bs : List B} (hr : List.Forall₂ R as bs) : Lifts (beside g) (debugListFx K (as.map m)) (debugListFx K (bs.map k)) := by
  unfold debugListFx
  exact (Lifts.onFmt _).bind fun r => (Lifts.entries h false r hr).andThen (Lifts.onFmt _)

end

/-! ### Nested lists -/

theorem zipAll_pairs {W V : Type} [HasEqFx W V] {Γ : TyEnv W} {Φ : UserFns W H F} {vt vt' : V} {n n' : Nat} (hl : LawfulEqFx Γ Φ t vt) :
    ∀ {es es' : List Bytes}, (∀ e ∈ es, e.length = Γ.size t) → (∀ e ∈ es', e.length = Γ.size t) →
      zipAll (es.map fun e => (⟨e, t, n, vt⟩ : ValueRef V)) (es'.map fun e => ⟨e, t, n', vt'⟩) = allPairs (Φ.eq t) es es'
  | [], _, _, _ => rfl
  | _ :: _, [], _, _ => rfl
  | x :: es, y :: es', h, h' => by
    simp only [List.map_cons, zipAll, allPairs]
    rw [ValueRef.eqFx_same hl rfl rfl rfl (h x List.mem_cons_self) (h' y List.mem_cons_self),
      zipAll_pairs hl (fun e he => h e (List.mem_cons_of_mem _ he)) (fun e he => h' e (List.mem_cons_of_mem _ he))]

section
variable {W V : Type} {Γ : TyEnv W} {Φ : UserFns W H F} {h h' : Heap} {es es' : List Bytes} {c d : VecDyn V}

theorem eqFx_pairs (R : Repr Γ h t es c.data) (R' : Repr Γ h' t es' d.data) (u : W) :
    VecDyn.eqFx (c.withTable (EqTableFx.build Γ Φ t)) (d.withTable (EqTableFx.build Γ Φ t)) u = allPairs (Φ.eq t) es es' u := by
  unfold VecDyn.eqFx
  rw [M.bind_ok (VecDyn.iter_refs (a := c.withTable (EqTableFx.build Γ Φ t)) R u), M.bind_ok (VecDyn.iter_refs (a := d.withTable (EqTableFx.build Γ Φ t)) R' u)]
  exact congrArg (fun m : M W Bool => m u) (zipAll_pairs (C77_tables Γ Φ t (fun _ => pure ())).1 R.each R'.each)

theorem hashFx_each (R : Repr Γ h t es c.data) (u : H × W) :
    VecDyn.hashFx (c.withTable (HashTableFx.build Γ Φ t)) u = M.forEach es (Φ.hash t) u := by
  unfold VecDyn.hashFx
  rw [M.bind_ok (VecDyn.iter_refs (a := c.withTable (HashTableFx.build Γ Φ t)) R u)]
  exact congrArg (fun m : M (H × W) Unit => m u) (forEach_hashFx (C77_tables Γ Φ t (fun _ => pure ())).2.2.1 R.each)

theorem fmtFx_list (R : Repr Γ h t es c.data) (u : F × W) :
    VecDyn.fmtFx K (c.withTable (FmtTableFx.build Γ Φ t)) u = debugListFx K (es.map (Φ.fmt t)) u :=
  C77_vec_debug (a := c.withTable (FmtTableFx.build Γ Φ t)) R (C77_tables Γ Φ t (fun _ => pure ())).2.2.2.2.1 K u

end

theorem eq_lifts : ∀ {n : Nat} {s : Depth U n} {a b : Bytes} {x y : Tree n}, Reads Γ t N n s a x → Reads Γ t N n s b y →
    Lifts s.setBase ((UserFns.depth K Γ N Φ t n).eq (depthTy t n) a b) (eqTree Φ t n x y)
  | 0, s, a, b, x, y, ha, hb => by
    have ha : x = a := ha
    have hb : y = b := hb
    subst ha hb
    exact fun u => rfl
  | n + 1, s, a, b, x, y, ⟨c, es, hc, R, hx⟩, ⟨d, es', hd, R', hy⟩ => by
    intro u
    show (UserFns.nest K (Γ.depth N n) (UserFns.depth K Γ N Φ t n) (depthTy t n)).eq _ a b (Nest.setUser s ((Nest.world s).user.setBase u)) = _
    unfold UserFns.nest
    dsimp only
    have hc' : (Nest.setUser s ((Nest.world s).user.setBase u)).pool a = some c := hc
    have hd' : (Nest.setUser s ((Nest.world s).user.setBase u)).pool b = some d := hd
    rw [hc', hd']
    dsimp only
    have hrun := Lifts.allPairs (R := Reads Γ t N n (Nest.world s).user) (f := (Nest.world s).user.setBase) (m := (UserFns.depth K Γ N Φ t n).eq (depthTy t n)) (k := eqTree Φ t n) (fun _ _ _ _ r r' => eq_lifts r r') hx hy u
    show ((VecDyn.eqFx _ _ ((Nest.world s).user.setBase u)).1, Nest.setUser _ (VecDyn.eqFx _ _ ((Nest.world s).user.setBase u)).2) = _
    rw [eqFx_pairs R R']
    have hrun : allPairs ((UserFns.depth K Γ N Φ t n).eq (depthTy t n)) es es' ((Nest.world s).user.setBase u) = _ := hrun
    rw [hrun]
    rfl

/-- Hashing nested lists. -/
def hashTree (Φ : UserFns U H F) (t : TyId) : (n : Nat) → Tree n → M (H × U) Unit
  | 0, x => Φ.hash t x
  | n + 1, ts => M.forEach (α := Tree n) ts (hashTree Φ t n)

theorem forEach_append {S A : Type} {f : A → M S Unit} : ∀ {as bs : List A} (s : S), M.forEach (as ++ bs) f s = (M.forEach as f >>= fun _ => M.forEach bs f) s
  | [], bs, s => by rw [M.bind_ok (a := ()) (s' := s) rfl]; rfl
  | a :: as, bs, s => by
    rw [List.cons_append, M.forEach_cons, M.forEach_cons]
    rcases hx : f a s with ⟨r, s'⟩
    cases r with
    | ok _ =>
      rw [M.bind_ok hx, forEach_append]
      rcases hy : M.forEach as f s' with ⟨q, s2⟩
      have hz : (f a >>= fun _ => M.forEach as f) s = (q, s2) := by rw [M.bind_ok hx, hy]
      cases q with
      | ok _ => rw [M.bind_ok hy, M.bind_ok hz]
      | panic y => rw [M.bind_panic hy, M.bind_panic hz]
      | ub => rw [M.bind_ub hy, M.bind_ub hz]
      | abort => rw [M.bind_abort hy, M.bind_abort hz]
    | panic y => rw [M.bind_panic hx, M.bind_panic (M.bind_panic hx)]
    | ub => rw [M.bind_ub hx, M.bind_ub (M.bind_ub hx)]
    | abort => rw [M.bind_abort hx, M.bind_abort (M.bind_abort hx)]

theorem hashTree_leaves : ∀ (n : Nat) (T : Tree n) (s : H × U), hashTree Φ t n T s = M.forEach (leaves n T) (Φ.hash t) s
  | 0, x, s => by
    revert x
    intro (x : Bytes)
    show Φ.hash t x s = M.forEach [x] (Φ.hash t) s
    rw [M.forEach_cons]
    rcases hx : Φ.hash t x s with ⟨r, s'⟩
    cases r with
    | ok _ => rw [M.bind_ok hx]; rfl
    | panic y => rw [M.bind_panic hx]
    | ub => rw [M.bind_ub hx]
    | abort => rw [M.bind_abort hx]
  | n + 1, T, s => by
    have key : ∀ (ts : List (Tree n)) (s : H × U), M.forEach ts (hashTree Φ t n) s = M.forEach (ts.flatMap (leaves n)) (Φ.hash t) s := by
      intro ts
      induction ts with
      | nil => intro s; rfl
      | cons x ts ih =>
        intro s
        rw [M.forEach_cons, List.flatMap_cons, forEach_append]
        have h0 := hashTree_leaves n x s
        rcases hx : hashTree Φ t n x s with ⟨r, s'⟩
        rw [hx] at h0
        cases r with
        | ok _ => rw [M.bind_ok hx, M.bind_ok h0.symm, ih]
        | panic y => rw [M.bind_panic hx, M.bind_panic h0.symm]
        | ub => rw [M.bind_ub hx, M.bind_ub h0.symm]
        | abort => rw [M.bind_abort hx, M.bind_abort h0.symm]
    exact key T s

theorem hash_lifts : ∀ {n : Nat} {s : Depth U n} {a : Bytes} {x : Tree n}, Reads Γ t N n s a x →
    Lifts (beside s.setBase) ((UserFns.depth K Γ N Φ t n).hash (depthTy t n) a) (hashTree Φ t n x)
  | 0, s, a, x, ha => by
    have ha : x = a := ha
    subst ha
    exact fun u => rfl
  | n + 1, s, a, x, ⟨c, es, hc, R, hx⟩ => by
    rintro ⟨h, u⟩
    show (UserFns.nest K (Γ.depth N n) (UserFns.depth K Γ N Φ t n) (depthTy t n)).hash _ a (h, Nest.setUser s ((Nest.world s).user.setBase u)) = _
    unfold UserFns.nest
    dsimp only
    have hc' : (Nest.setUser s ((Nest.world s).user.setBase u)).pool a = some c := hc
    rw [hc']
    dsimp only
    have hrun := Lifts.forEach (R := Reads Γ t N n (Nest.world s).user) (f := beside (Nest.world s).user.setBase) (m := (UserFns.depth K Γ N Φ t n).hash (depthTy t n)) (k := hashTree Φ t n) (fun _ _ r => hash_lifts r) hx (h, u)
    show ((VecDyn.hashFx _ (h, (Nest.world s).user.setBase u)).1, ((VecDyn.hashFx _ (h, (Nest.world s).user.setBase u)).2.1,
      Nest.setUser _ (VecDyn.hashFx _ (h, (Nest.world s).user.setBase u)).2.2)) = _
    rw [hashFx_each R]
    have hrun : M.forEach es ((UserFns.depth K Γ N Φ t n).hash (depthTy t n)) (h, (Nest.world s).user.setBase u) = _ := hrun
    rw [hrun]
    rfl

theorem fmt_lifts : ∀ {n : Nat} {s : Depth U n} {a : Bytes} {x : Tree n}, Reads Γ t N n s a x →
    Lifts (beside s.setBase) ((UserFns.depth K Γ N Φ t n).fmt (depthTy t n) a) (fmtTree K Φ t n x)
  | 0, s, a, x, ha => by
    have ha : x = a := ha
    subst ha
    exact fun u => rfl
  | n + 1, s, a, x, ⟨c, es, hc, R, hx⟩ => by
    rintro ⟨h, u⟩
    show (UserFns.nest K (Γ.depth N n) (UserFns.depth K Γ N Φ t n) (depthTy t n)).fmt _ a (h, Nest.setUser s ((Nest.world s).user.setBase u)) = _
    unfold UserFns.nest
    dsimp only
    have hc' : (Nest.setUser s ((Nest.world s).user.setBase u)).pool a = some c := hc
    rw [hc']
    dsimp only
    have hrun := Lifts.list (K := K) (R := Reads Γ t N n (Nest.world s).user) (g := (Nest.world s).user.setBase) (m := (UserFns.depth K Γ N Φ t n).fmt (depthTy t n)) (k := fmtTree K Φ t n) (fun _ _ r => fmt_lifts r) hx (h, u)
    show ((VecDyn.fmtFx K _ (h, (Nest.world s).user.setBase u)).1, ((VecDyn.fmtFx K _ (h, (Nest.world s).user.setBase u)).2.1,
      Nest.setUser _ (VecDyn.fmtFx K _ (h, (Nest.world s).user.setBase u)).2.2)) = _
    rw [fmtFx_list R]
    have hrun : debugListFx K (es.map ((UserFns.depth K Γ N Φ t n).fmt (depthTy t n))) (h, (Nest.world s).user.setBase u) = _ := hrun
    rw [hrun]
    rfl

theorem Depth.setBase_base : ∀ {n : Nat} (s : Depth U n), s.setBase s.base = s
  | 0, _ => rfl
  | n + 1, s => by
    show Nest.setUser s ((Nest.world s).user.setBase (Nest.world s).user.base) = s
    rw [Depth.setBase_base]
    rfl

theorem Depth.base_setBase : ∀ {n : Nat} (s : Depth U n) (u : U), (s.setBase u).base = u
  | 0, _, _ => rfl
  | _ + 1, s, u => Depth.base_setBase (Nest.world s).user u

theorem forall₂_imp {A B : Type} {R S : A → B → Prop} (h : ∀ a b, R a b → S a b) : ∀ {as : List A} {bs : List B}, List.Forall₂ R as bs → List.Forall₂ S as bs
  | _, _, .nil => .nil
  | _, _, .cons r rs => .cons (h _ _ r) (forall₂_imp h rs)

theorem Reads.setBase : ∀ {n : Nat} {s : Depth U n} {b : Bytes} {T : Tree n} (u : U), Reads Γ t N n s b T → Reads Γ t N n (s.setBase u) b T
  | 0, _, _, _, _, h => h
  | n + 1, s, b, T, u, ⟨c, es, h1, h2, h3⟩ => ⟨c, es, h1, h2, forall₂_imp (fun _ _ h => Reads.setBase u h) h3⟩

theorem ReadsAll.setBase : ∀ {n : Nat} {s : Depth U n} {vs : Vars (fun _ => Bytes) (n + 1)} {ts : Vars Tree (n + 1)} (u : U),
    ReadsAll Γ t N n s vs ts → ReadsAll Γ t N n (s.setBase u) vs ts
  | 0, _, _, _, u, h => forall₂_imp (fun _ _ h => Reads.setBase u h) h
  | _ + 1, _, _, _, u, h => ⟨forall₂_imp (fun _ _ h => Reads.setBase u h) h.1, ReadsAll.setBase u h.2⟩

end Dync
