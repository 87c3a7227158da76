import Verif.WholeSpec
import Verif.DynMachineUb

/-! Which steps of the machine of whole programs are undefined. -/

namespace Dync
variable {U V H F σ τ α β : Type} {Γ : TyEnv U} {cfg : Cfg} {t : TyId} {k j : Nat} {Φ : UserFns U H F} {K : Formatting F}

/-- The user's `==`, `hash` and `fmt`, and the formatter they write to, are never undefined (they are safe code). -/
structure SafeFns (Φ : UserFns U H F) (K : Formatting F) : Prop where
  eq : ∀ t a b u, (Φ.eq t a b u).1 ≠ .ub
  hash : ∀ t a s, (Φ.hash t a s).1 ≠ .ub
  fmt : ∀ t a s, (Φ.fmt t a s).1 ≠ .ub
  write : ∀ x f, (K.write x f).1 ≠ .ub

/-- The code of a program on a view is never undefined (it is safe code). -/
def VProg.Safe : VProg U → Prop
  | .seq p q => p.Safe ∧ q.Safe
  | .edit _ m => ∀ s, (m s).1 ≠ .ub
  | .sub _ p => p.Safe
  | .split _ p q => p.Safe ∧ q.Safe
  | .chunks _ p => p.Safe
  | _ => True

/-- The step is no push of a box, and the code on views in it is safe. -/
def WOp.Safe : WOp U V H F → Prop
  | .op d => ∀ k j, d ≠ .pushBox k j
  | .view _ p => p.Safe
  | _ => True

theorem Res.map_ub {f : α → β} {r : Res α} (h : r ≠ .ub) : r.map f ≠ .ub := by
  cases r with
  | ub => exact absurd rfl h
  | _ => intro h; cases h

theorem Look.plain_defined (l : Look) : Defined (l.prog.plain t) := by
  intro es
  cases l <;> simp only [Look.prog, SProg.plain] <;> (repeat' split) <;> (intro h; cases h)

theorem cloneFrom_defined (S : SafeUser Γ) : ∀ (ds ss : List Bytes) (u : U), (TVec.cloneFrom Γ t ds ss u).1 ≠ .ub
  | [], ss, u => by intro h; simp only [TVec.cloneFrom] at h; cases h
  | _ :: _, [], u => by intro h; simp only [TVec.cloneFrom] at h; cases h
  | d :: ds, s :: ss, u => by
    have hs := S.cloneFrom t s (d, u)
    simp only [TVec.cloneFrom]
    rcases hm : Γ.cloneFrom t s (d, u) with ⟨r, d', u'⟩
    rw [hm] at hs
    cases r with
    | ok a => exact cloneFrom_defined S ds ss u'
    | ub => exact absurd rfl hs
    | _ => intro h; cases h

theorem each_defined {m : M (List Bytes × U) (List α)} (hm : Defined m) : ∀ (cs : List (List Bytes)) (u : U), (Plain.each m cs u).1 ≠ .ub
  | [], u => by intro h; cases h
  | c :: cs, u => by
    have hs := hm (c, u)
    simp only [Plain.each]
    rcases h1 : m (c, u) with ⟨r, c', u'⟩
    rw [h1] at hs
    cases r with
    | ok a => exact Res.map_ub (each_defined hm cs u')
    | ub => exact absurd rfl hs
    | _ => intro h; cases h

theorem VProg.plain_defined (S : SafeUser Γ) : ∀ (p : VProg U), p.Safe → Defined (p.plain Γ t)
  | .skip, _ => Defined.pure _
  | .seq p q, h => (plain_defined S p h.1).bind fun _ => (plain_defined S q h.2).bind fun _ => Defined.pure _
  | .look l, _ => fun s => l.plain_defined s.1
  | .setAs t' i x, _ => .ite (store_d S) (discard_d S)
  | .edit t' m, h => .ite (fun s => Res.map_ub (h (s.1, s.2.user))) (Defined.pure _)
  | .assign i t' x, _ => .ite (store_d S) (discard_d S)
  | .cloneFrom i t' x, _ => by
    refine .ite (fun s => ?_) (fun s => ?_)
    · simp only [Plain.cloneFrom]
      split
      · exact Res.map_ub (S.cloneFrom _ _ _)
      · intro h; cases h
    · simp only; split <;> (intro h; cases h)
  | .cloneFromAll t' x, _ => .ite (fun s => cloneFromSlice_d S s) (Defined.pure _)
  | .cloneFromSlice t' xs, _ => .ite (cloneFromSlice_d S) (Defined.pure _)
  | .sub r p, h => by
    intro s
    simp only [VProg.plain, Plain.part]
    split
    · exact plain_defined S p h _
    · intro h; cases h
  | .split mid p q, h => by
    intro s
    simp only [VProg.plain, Plain.split]
    split
    · have h1 := plain_defined S p h.1 (s.1.take mid, s.2)
      rcases h2 : p.plain Γ t (s.1.take mid, s.2) with ⟨r, ls, u⟩
      rw [h2] at h1
      cases r with
      | ok a => exact Res.map_ub (plain_defined S q h.2 _)
      | ub => exact absurd rfl h1
      | _ => intro h; cases h
    · intro h; cases h
  | .chunks k p, h => by
    intro s
    simp only [VProg.plain, Plain.chunks]
    split
    · intro h; cases h
    · exact each_defined (plain_defined S p h) _ _
where
  store_d {t n i x} (S : SafeUser Γ) : Defined (Plain.store Γ t n i x) := by
    intro s
    simp only [Plain.store]
    split
    · exact Res.map_ub (S.drop _ _ _)
    · intro h; cases h
  discard_d {t n i x} (S : SafeUser Γ) : Defined (Plain.discard Γ t n i x) := by
    intro s
    simp only [Plain.discard]
    split
    · exact Res.map_ub (S.drop _ _ _)
    · intro h; cases h
  cloneFromSlice_d {t xs} (S : SafeUser Γ) : Defined (Plain.cloneFromSlice Γ t xs) := by
    intro s
    simp only [Plain.cloneFromSlice]
    split
    · exact Res.map_ub (cloneFrom_defined S _ _ _)
    · intro h; cases h

theorem VProg.onUnits_defined (S : SafeUser Γ) : ∀ (p : VProg U), Defined (p.onUnits Γ cfg)
  | .skip => Defined.pure _
  | .seq p q => (onUnits_defined S p).bind fun _ => (onUnits_defined S q).bind fun _ => Defined.pure _
  | .look (.get _) => .ite (Defined.panic _) (Defined.pure _)
  | .look (.asSlice _) => .ite (Defined.panic _) (Defined.pure _)
  | .look (.swap _ _) => .ite (Defined.panic _) (Defined.pure _)
  | .look (.rotateLeft _) => Defined.pure _
  | .look (.rotateRight _) => Defined.pure _
  | .look (.getAs ..) => Defined.panic _
  | .look .iter => Defined.panic _
  | .assign _ t x => .ite (Defined.panic _) (Defined.bind (fun o => S.drop t x o.user) fun _ => Defined.pure _)
  | .cloneFrom _ _ _ => .ite (Defined.panic _) (Defined.pure _)
  | .sub r p => by
    cases r <;> simp only [VProg.onUnits] <;> first | exact Defined.panic _ | exact onUnits_defined S p
  | .split _ p q => (onUnits_defined S p).bind fun _ => (onUnits_defined S q).bind fun _ => Defined.pure _
  | .setAs .. => Defined.panic _
  | .edit .. => Defined.panic _
  | .cloneFromAll .. => Defined.panic _
  | .cloneFromSlice .. => Defined.panic _
  | .chunks .. => Defined.panic _

section
variable (P : SafeFns Φ K)
include P

theorem SafeFns.eqD (t a b) : Defined (Φ.eq t a b) := fun u => P.eq t a b u
theorem SafeFns.hashD (t a) : Defined (Φ.hash t a) := fun s => P.hash t a s
theorem SafeFns.fmtD (t a) : Defined (Φ.fmt t a) := fun s => P.fmt t a s

theorem SafeFns.pairs (t) : ∀ ps, Defined (eqPairs Φ t ps)
  | [] => Defined.pure _
  | _ :: ps => (P.eqD _ _ _).bind fun _ => .ite (SafeFns.pairs t ps) (Defined.pure _)

theorem SafeFns.onFmt (x) : Defined (onFmt (K.write x) : M (F × U) FmtRes) := fun s => P.write x s.1

omit P in
theorem Defined.andThen {m k : M σ FmtRes} (h : Defined m) (h' : Defined k) : Defined (andThen m k) :=
  h.bind fun r => by cases r; exact h'; exact Defined.pure _

theorem SafeFns.entry {b} {e : M (F × U) FmtRes} (h : Defined e) : Defined (debugEntryFx K b e) := by
  refine Defined.get.bind fun s => .ite (.andThen (.ite (Defined.pure _) (P.onFmt _)) ?_) (.andThen (.ite (P.onFmt _) (Defined.pure _)) h)
  exact (Defined.modify _).bind fun _ => (h.andThen (P.onFmt _)).bind fun _ => (Defined.modify _).bind fun _ => Defined.pure _

theorem SafeFns.entries : ∀ (es : List (M (F × U) FmtRes)), (∀ e ∈ es, Defined e) → ∀ b r, Defined (debugEntriesFx K b r es)
  | [], _, _, _ => by unfold debugEntriesFx; exact Defined.pure _
  | e :: es, h, b, .ok => by
    unfold debugEntriesFx
    exact (P.entry (h e (List.mem_cons_self ..))).bind fun _ => SafeFns.entries es (fun e he => h e (List.mem_cons_of_mem _ he)) _ _
  | e :: es, h, b, .err => by
    unfold debugEntriesFx
    exact SafeFns.entries es (fun e he => h e (List.mem_cons_of_mem _ he)) _ _

theorem SafeFns.list {es : List (M (F × U) FmtRes)} (h : ∀ e ∈ es, Defined e) : Defined (debugListFx K es) :=
  (P.onFmt _).bind fun _ => (P.entries es h _ _).andThen (P.onFmt _)

theorem SafeFns.itemEq {a b : YItem} {m} (h : a.eq Φ b = some m) : Defined m := by
  unfold YItem.eq at h
  split at h <;> cases h
  · exact .ite (P.pairs _ _) (Defined.pure _)
  · exact Defined.panic _
  · exact .ite (P.eqD _ _ _) (Defined.pure _)
  · exact .ite (P.eqD _ _ _) (Defined.pure _)

theorem SafeFns.itemHash (a : YItem) : Defined (a.hash Φ) := by
  unfold YItem.hash
  split
  · exact Defined.forEach (P.hashD _) _
  · exact Defined.panic _
  · exact P.hashD _ _
  · exact P.hashD _ _

theorem SafeFns.itemFmt (a : YItem) : Defined (a.fmt Φ K) := by
  unfold YItem.fmt
  split
  · exact P.list fun e he => by obtain ⟨x, -, rfl⟩ := List.mem_map.1 he; exact P.fmtD _ _
  · exact Defined.panic _
  · exact P.fmtD _ _
  · exact P.fmtD _ _

omit P in
theorem Defined.see {g : α → WObs H F} {m : M U α} (h : Defined m) : Defined (WOp.see g m : M (σ × Outside U) (WObs H F)) :=
  h.call.aside.bind fun _ => Defined.pure _

omit P in
theorem Defined.withTemp {A : Type} {a : A} {m : M (A × U) α} (h : Defined m) : Defined (withTemp a m) :=
  fun u => Res.map_ub (h (a, u))

omit P in
theorem Defined.seePlace {i : Nat} {m : Place → M (YVars × Outside U) (WObs H F)} (h : ∀ p, Defined (m p)) :
    Defined (WOp.seePlace Γ cfg k i m) :=
  Defined.read.bind fun q => by cases q; exact Defined.pure _; exact h _

/-- All steps but `push` of a box. -/
theorem SafeFns.step (S : SafeUser Γ) (c : WOp U V H F) (h : c.Safe) : Defined (c.step Γ cfg Φ K) := by
  cases c with
  | op d => exact (S.step d h).bind fun _ => Defined.pure _
  | view k p =>
    intro s
    simp only [WOp.step]
    split
    · exact Res.map_ub (p.plain_defined S h _)
    · exact Res.map_ub (p.onUnits_defined S _)
    · intro h; cases h
  | typeFrom k j =>
    intro s
    simp only [WOp.step]
    split
    · exact ((S.create (Defined.pure _)).bind fun _ => Defined.pure _ : Defined _) s
    · intro h; cases h
    · intro h; cases h
  | check k t =>
    intro s
    simp only [WOp.step]
    split
    · split
      · intro h; cases h
      · exact ((Defined.modify _).bind fun _ => (S.itemDrop _).aside.bind fun _ => Defined.pure _ : Defined _) s
    · intro h; cases h
  | upcast k f =>
    intro s
    simp only [WOp.step]
    split <;> (intro h; cases h)
  | eq k j =>
    intro s
    simp only [WOp.step]
    split
    · split
      · rename_i hm; exact (P.itemEq hm).see s
      · intro h; cases h
    · intro h; cases h
  | eqAt k i j i' =>
    exact .seePlace fun a => .seePlace fun b => Defined.see (.ite (.ite (P.eqD _ _ _) (Defined.panic _)) (Defined.pure _))
  | hash k h =>
    intro s
    simp only [WOp.step]
    split
    · exact (P.itemHash _).withTemp.see s
    · intro h; cases h
  | hashAt k i h => exact .seePlace fun a => Defined.see (Defined.withTemp (.ite (P.hashD _ _) (Defined.panic _)))
  | fmt k f =>
    intro s
    simp only [WOp.step]
    split
    · exact (P.itemFmt _).withTemp.see s
    · intro h; cases h
  | fmtAt k i f => exact .seePlace fun a => Defined.see (Defined.withTemp (.ite (P.fmtD _ _) (Defined.panic _)))

end
end Dync
