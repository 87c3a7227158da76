import Verif.Props.Sig
/-!
# C52: exactly which signatures `#[dync_trait_method]` accepts

The acceptance conditions are stated on the syntax of the signature, without the functions of the macro.
-/
namespace Dync
open Sig

/-- A single name without leading `::`; `<>` counts as no arguments (as in syn). -/
def PlainName (n : String) (lead : Bool) (segs : List Seg) : Prop :=
  lead = false ∧ (segs = [.mk n .none] ∨ segs = [.mk n (.angle [])])

mutual
/-- The types met when arrays, function pointers, groups, parentheses, pointers, references, slices and tuples
are taken apart. -/
def leavesT : Ty → List Ty
  | .array e _ | .group e | .paren e | .ptr _ e | .reference _ _ e | .slice e => leavesT e
  | .bareFn ins out => leavesL ins ++ leavesO out
  | .tuple es => leavesL es
  | t => [t]
def leavesL : List Ty → List Ty
  | [] => []
  | t :: ts => leavesT t ++ leavesL ts
def leavesO : Option Ty → List Ty
  | none => []
  | some t => leavesT t
end

/-- What the macro tolerates inside a composite type: no `<T as Trait>::X`, and no single name or single applied
name, except for `Self`. -/
def LeafOk : Ty → Prop
  | .qpath _ _ => False
  | .path l s => l = true ∨ s.length ≠ 1 ∨ PlainName "Self" l s
  | _ => True

/-- A generic name can be turned into a trait object: one of its bounds is a trait. -/
def HasTrait (bs : List Bound) : Prop := ∃ l s, Bound.trait l s ∈ bs

/-- A path in a position where names of generics are replaced. -/
def PathOk (g : List (String × List Bound)) (l : Bool) (s : List Seg) : Prop :=
  ∀ n bs, PlainName n l s → g.lookup n = some bs → HasTrait bs

/-- The argument and return types accepted when the generics `g` are in scope. -/
def AcceptedTy (g : List (String × List Bound)) : Ty → Prop
  | .paren e => AcceptedTy g e
  | .path l s => PathOk g l s
  | .qpath _ _ => False
  | .ptr _ e | .reference _ _ e => (∀ q s, e ≠ .qpath q s) ∧ ∀ l s, e = .path l s → PathOk g l s
  | .implTrait _ => True
  | t => ∀ x ∈ leavesT t, LeafOk x

/-- A generic parameter `N: bounds`, without attributes and default. -/
def AcceptedParam : Param → Prop
  | .type _ attrs colon dflt _ => attrs = false ∧ colon = true ∧ dflt = false
  | _ => False

/-- A predicate of the where clause. The accepted paths are those like `N<A>::B`. -/
def AcceptedPred : Pred → Prop
  | .type lts bounded _ => lts = false ∧ (∀ q s, bounded ≠ .qpath q s) ∧
      ∀ l s, bounded = .path l s → l = false ∧ s.length ≠ 1 ∧ ∃ i a ss, s = .mk i a :: ss ∧ a ≠ .none ∧ a ≠ .angle []
  | .lifetime _ => False
  | .eq _ => True

/-- An argument; `mut self` is not accepted. -/
def AcceptedArg (g : List (String × List Bound)) : Arg → Prop
  | .receiver r m => r = none → m = false
  | .typed _ t => AcceptedTy g t

/-- The bounds a parameter declares. -/
def paramBounds : Param → List (String × List Bound)
  | .type n _ _ _ bs => [(n, bs)]
  | _ => []

/-- The bounds a predicate declares: for the first name of the path. -/
def predBounds : Pred → List (String × List Bound)
  | .type _ (.path _ (.mk i _ :: _)) bs => [(i, bs)]
  | _ => []

/-- The generics in scope; a later declaration hides an earlier one. -/
def Sig.Signature.declared (sig : Signature) : List (String × List Bound) :=
  sig.preds.reverse.flatMap predBounds ++ sig.params.reverse.flatMap paramBounds

theorem args_isEmpty_iff {a : Args} : a.isEmpty = true ↔ a = .none ∨ a = .angle [] := by
  cases a with
  | none => simp [Args.isEmpty]
  | angle l => simp [Args.isEmpty]
  | parens i o => simp [Args.isEmpty]

theorem plainName_cons {n i : String} {l : Bool} {a : Args} {ss : List Seg} :
    PlainName n l (.mk i a :: ss) ↔ l = false ∧ ss = [] ∧ i = n ∧ a.isEmpty = true := by
  rw [args_isEmpty_iff]
  unfold PlainName
  constructor
  · rintro ⟨h, h1 | h1⟩ <;> cases h1 <;> simp [h]
  · rintro ⟨h, rfl, rfl, rfl | rfl⟩ <;> simp [h]

theorem checkPath_iff {l : Bool} {s : List Seg} : checkPath l s = true ↔ LeafOk (.path l s) := by
  unfold checkPath LeafOk
  cases l
  · match s with
    | [] => simp
    | [.mk i a] => simp [plainName_cons, and_comm]
    | _ :: _ :: _ => simp
  · simp

mutual
theorem check_iff : ∀ t : Ty, check t = true ↔ ∀ x ∈ leavesT t, LeafOk x
  | .array e _ => by unfold check leavesT; exact check_iff e
  | .group e => by unfold check leavesT; exact check_iff e
  | .paren e => by unfold check leavesT; exact check_iff e
  | .ptr _ e => by unfold check leavesT; exact check_iff e
  | .reference _ _ e => by unfold check leavesT; exact check_iff e
  | .slice e => by unfold check leavesT; exact check_iff e
  | .bareFn ins out => by
    unfold check leavesT
    rw [Bool.and_eq_true, checkL_iff ins, checkO_iff out]
    simp only [List.mem_append, or_imp, forall_and]
  | .tuple es => by unfold check leavesT; exact checkL_iff es
  | .path l s => by unfold check leavesT; simp [checkPath_iff]
  | .qpath _ _ => by unfold check leavesT; simp [LeafOk]
  | .implTrait _ => by unfold check leavesT; simp [LeafOk]
  | .traitObject _ => by unfold check leavesT; simp [LeafOk]
  | .verbatim _ => by unfold check leavesT; simp [LeafOk]
theorem checkL_iff : ∀ ts : List Ty, checkL ts = true ↔ ∀ x ∈ leavesL ts, LeafOk x
  | [] => by unfold checkL leavesL; simp
  | t :: ts => by
    unfold checkL leavesL
    rw [Bool.and_eq_true, check_iff t, checkL_iff ts]
    simp only [List.mem_append, or_imp, forall_and]
theorem checkO_iff : ∀ o : Option Ty, checkO o = true ↔ ∀ x ∈ leavesO o, LeafOk x
  | none => by unfold checkO leavesO; simp
  | some t => by unfold checkO leavesO; exact check_iff t
end

theorem dynBounds_iff {bs : List Bound} : (dynBounds bs).isSome = true ↔ HasTrait bs := by
  unfold dynBounds HasTrait
  split
  · rename_i h
    rw [List.any_eq_true] at h
    obtain ⟨b, hb, h⟩ := h
    cases b with
    | trait l s => simp only [Option.isSome_some, true_iff]; exact ⟨l, s, hb⟩
    | lifetime s => simp at h
  · rename_i h
    simp only [Option.isSome_none, Bool.false_eq_true, false_iff, not_exists]
    intro l s hb
    exact h (List.any_eq_true.2 ⟨_, hb, rfl⟩)

theorem processPath_iff {g : Generics} {l : Bool} {s : List Seg} {owned : Bool} :
    (processPath l s g owned).isSome = true ↔ PathOk g l s := by
  unfold processPath PathOk
  cases l
  · match s with
    | [] => simp [PlainName]
    | [.mk i a] =>
      cases ha : a.isEmpty
      · simp [ha, plainName_cons]
      · cases hg : g.get i with
        | none =>
          unfold Generics.get at hg
          simp only [ha, plainName_cons, Generics.get, hg, Bool.false_or, List.length_singleton, bne_self_eq_false,
            Bool.false_eq_true, if_false, Bool.not_true, Option.isSome_some, true_iff]
          rintro n bs ⟨-, -, rfl, -⟩ h
          rw [hg] at h; cases h
        | some bs =>
          unfold Generics.get at hg
          simp only [ha, plainName_cons, Generics.get, hg, Bool.false_or, List.length_singleton, bne_self_eq_false,
            Bool.false_eq_true, if_false, Bool.not_true, Option.isSome_map, dynBounds_iff]
          constructor
          · rintro ht n bs' ⟨-, -, rfl, -⟩ h
            rw [hg] at h; cases h; exact ht
          · intro h
            exact h i bs ⟨trivial, trivial, rfl, trivial⟩ hg
    | _ :: _ :: _ => simp [PlainName]
  · simp [PlainName]

theorem selfPathInto_some {l : Bool} {s : List Seg} {into : Ty} : (selfPathInto l s into).isSome = true := by
  unfold selfPathInto
  split
  · rename_i h
    match s, h with
    | .mk i a :: _, _ => simp only; split <;> rfl
    | [], h => simp at h
  · rfl

theorem processPath_shape {g : Generics} {l : Bool} {s : List Seg} {owned : Bool} {t : Ty}
    (h : processPath l s g owned = some t) : (∃ l' s', t = .path l' s') ∨ (owned = false ∧ ∃ bs, t = .traitObject bs) := by
  unfold processPath at h
  split at h
  · cases h; exact .inl ⟨_, _, rfl⟩
  · split at h
    · split at h
      · cases h; exact .inl ⟨_, _, rfl⟩
      · split at h
        · rw [Option.map_eq_some_iff] at h
          obtain ⟨d, hd, rfl⟩ := h
          unfold dynBounds at hd
          split at hd
          · cases hd
            cases owned
            · exact .inr ⟨rfl, _, rfl⟩
            · exact .inl ⟨_, _, rfl⟩
          · cases hd
        · cases h; exact .inl ⟨_, _, rfl⟩
    · cases h

theorem ref_iff {g : Generics} {e : Ty} :
    ((refToTraitObject g e).bind selfToByteSlice).isSome = true ↔
      (∀ q s, e ≠ .qpath q s) ∧ ∀ l s, e = .path l s → PathOk g l s := by
  by_cases hp : ∃ l s, e = .path l s
  · obtain ⟨l, s, rfl⟩ := hp
    simp only [refToTraitObject]
    constructor
    · intro h
      refine ⟨(by intro q s e; cases e), ?_⟩
      intro l' s' e; cases e
      rw [← processPath_iff (owned := false)]
      cases hx : processPath l s g false with
      | none => rw [hx] at h; simp at h
      | some _ => rfl
    · rintro ⟨-, h⟩
      have h' := (processPath_iff (owned := false)).2 (h l s rfl)
      obtain ⟨t, ht⟩ := Option.isSome_iff_exists.1 h'
      rw [ht, Option.bind_some]
      obtain ⟨l', s', rfl⟩ | ⟨-, bs, rfl⟩ := processPath_shape ht
      · exact selfPathInto_some
      · rfl
  · cases e with
    | path l s => exact absurd ⟨l, s, rfl⟩ hp
    | qpath q s =>
      simp only [refToTraitObject, Option.bind_some, selfToByteSlice, Option.isSome_none, Bool.false_eq_true, false_iff]
      intro h
      exact h.1 q s rfl
    | _ => simp [refToTraitObject, selfToByteSlice]

theorem isSome_ite {α : Type} {c : Bool} {a : α} : (if c = true then some a else none).isSome = c := by
  cases c <;> rfl

theorem translate_other {g : Generics} {t : Ty} (h1 : processGenerics g t = if check t then some t else none)
    (h2 : typeToBytes t = if check t then some t else none) : (translate g t).isSome = true ↔ ∀ x ∈ leavesT t, LeafOk x := by
  rw [← check_iff]
  unfold translate
  rw [h1]
  cases hc : check t
  · simp
  · simp [h2, hc]

theorem translate_iff {g : Generics} : ∀ {t : Ty}, (translate g t).isSome = true ↔ AcceptedTy g t
  | .paren e => by
    unfold AcceptedTy
    rw [← translate_iff (t := e)]
    unfold translate
    rw [processGenerics]
    cases processGenerics g e with
    | none => simp
    | some e' => simp [typeToBytes]
  | .path l s => by
    unfold AcceptedTy translate
    rw [processGenerics, ← processPath_iff (owned := true)]
    cases hx : processPath l s g true with
    | none => simp
    | some t =>
      obtain ⟨l', s', rfl⟩ | ⟨h, -⟩ := processPath_shape hx
      · simp only [Option.bind_some, typeToBytes, selfPathInto_some, Option.isSome_some]
      · cases h
  | .qpath q s => by
    unfold AcceptedTy translate
    simp [processGenerics, typeToBytes]
  | .ptr m e => by
    unfold AcceptedTy translate
    rw [processGenerics, ← ref_iff]
    cases refToTraitObject g e with
    | none => simp
    | some t => simp [typeToBytes]
  | .reference l m e => by
    unfold AcceptedTy translate
    rw [processGenerics, ← ref_iff]
    cases refToTraitObject g e with
    | none => simp
    | some t => simp [typeToBytes]
  | .implTrait bs => by
    unfold AcceptedTy translate
    simp [processGenerics, check, typeToBytes]
  | .array e n => by unfold AcceptedTy; exact translate_other (by rw [processGenerics] <;> (intros; first | rfl | contradiction)) (by rw [typeToBytes] <;> (intros; first | rfl | contradiction))
  | .bareFn i o => by unfold AcceptedTy; exact translate_other (by rw [processGenerics] <;> (intros; first | rfl | contradiction)) (by rw [typeToBytes] <;> (intros; first | rfl | contradiction))
  | .group e => by unfold AcceptedTy; exact translate_other (by rw [processGenerics] <;> (intros; first | rfl | contradiction)) (by rw [typeToBytes] <;> (intros; first | rfl | contradiction))
  | .slice e => by unfold AcceptedTy; exact translate_other (by rw [processGenerics] <;> (intros; first | rfl | contradiction)) (by rw [typeToBytes] <;> (intros; first | rfl | contradiction))
  | .tuple es => by unfold AcceptedTy; exact translate_other (by rw [processGenerics] <;> (intros; first | rfl | contradiction)) (by rw [typeToBytes] <;> (intros; first | rfl | contradiction))
  | .traitObject bs => by unfold AcceptedTy; exact translate_other (by rw [processGenerics] <;> (intros; first | rfl | contradiction)) (by rw [typeToBytes] <;> (intros; first | rfl | contradiction))
  | .verbatim s => by unfold AcceptedTy; exact translate_other (by rw [processGenerics] <;> (intros; first | rfl | contradiction)) (by rw [typeToBytes] <;> (intros; first | rfl | contradiction))

theorem collectParams_iff : ∀ {ps : List Param} {g : Generics} {g' : Generics},
    collectParams g ps = some g' ↔ (∀ p ∈ ps, AcceptedParam p) ∧ g' = ps.reverse.flatMap paramBounds ++ g
  | [], g, g' => by simp [collectParams, eq_comm]
  | .type n at_ c d bs :: ps, g, g' => by
    unfold collectParams
    have ih := collectParams_iff (ps := ps) (g := (n, bs) :: g) (g' := g')
    cases at_ <;> cases c <;> cases d <;>
      simp [AcceptedParam, ih, paramBounds, List.flatMap_append]
  | .lifetime s :: ps, g, g' => by simp [collectParams, AcceptedParam]
  | .const s :: ps, g, g' => by simp [collectParams, AcceptedParam]

theorem collectPreds_iff : ∀ {ps : List Pred} {g : Generics} {g' : Generics},
    collectPreds g ps = some g' ↔ (∀ p ∈ ps, AcceptedPred p) ∧ g' = ps.reverse.flatMap predBounds ++ g
  | [], g, g' => by simp [collectPreds, eq_comm]
  | .lifetime s :: ps, g, g' => by simp [collectPreds, AcceptedPred]
  | .eq s :: ps, g, g' => by
    unfold collectPreds
    simp [collectPreds_iff (ps := ps), AcceptedPred, predBounds]
  | .type true b bs :: ps, g, g' => by simp [collectPreds, AcceptedPred]
  | .type false (.path l s) bs :: ps, g, g' => by
    unfold collectPreds
    have ih := fun g2 => collectPreds_iff (ps := ps) (g := g2) (g' := g')
    cases l
    · match s with
      | [] => simp [AcceptedPred]
      | [.mk i a] => simp [AcceptedPred]
      | .mk i a :: x :: ss =>
        have ha := args_isEmpty_iff (a := a)
        cases hx : a.isEmpty
        · rw [hx] at ha
          simp only [Bool.false_eq_true, false_iff, not_or] at ha
          simp [AcceptedPred, hx, ih, predBounds, ha]
        · rw [hx] at ha
          simp only [true_iff] at ha
          simp [AcceptedPred, hx]
          intro h1 h2
          rcases ha with h | h
          · exact absurd h h1
          · exact absurd h h2
    · simp [AcceptedPred]
  | .type false (.qpath q s) bs :: ps, g, g' => by simp [collectPreds, AcceptedPred]
  | .type false (.array _ _) bs :: ps, g, g'
  | .type false (.bareFn _ _) bs :: ps, g, g'
  | .type false (.group _) bs :: ps, g, g'
  | .type false (.implTrait _) bs :: ps, g, g'
  | .type false (.paren _) bs :: ps, g, g'
  | .type false (.ptr _ _) bs :: ps, g, g'
  | .type false (.reference _ _ _) bs :: ps, g, g'
  | .type false (.slice _) bs :: ps, g, g'
  | .type false (.traitObject _) bs :: ps, g, g'
  | .type false (.tuple _) bs :: ps, g, g'
  | .type false (.verbatim _) bs :: ps, g, g' => by
    unfold collectPreds
    simp [collectPreds_iff (ps := ps), AcceptedPred, predBounds]

theorem convertArg_iff {g : Generics} {a : Arg} : (convertArg g a).isSome = true ↔ AcceptedArg g a := by
  cases a with
  | receiver r m => cases r <;> cases m <;> simp [convertArg, AcceptedArg]
  | typed p t => simp only [convertArg, AcceptedArg, Option.isSome_map, translate_iff]

theorem mapOpt_iff {α β : Type} {f : α → Option β} : ∀ {xs : List α},
    (mapOpt f xs).isSome = true ↔ ∀ x ∈ xs, (f x).isSome = true
  | [] => by simp [mapOpt]
  | x :: xs => by
    unfold mapOpt
    cases hx : f x with
    | none => simp [hx]
    | some y => simp [hx, mapOpt_iff (xs := xs)]

/-- **C52**, exactly: `dync_trait_method` accepts a signature iff it has no qualifiers, its generic parameters are
plain bounded names, its where clause bounds nothing but applied multi-segment paths, its receiver is not `mut self`,
and every argument and return type is one of the accepted ones. -/
theorem C52_accepted_iff (sig : Signature) :
    (∃ out, dyncFnSig sig = some out) ↔
      (sig.isConst = false ∧ sig.isAsync = false ∧ sig.abi = false ∧ sig.variadic = false) ∧
      (∀ p ∈ sig.params, AcceptedParam p) ∧ (∀ p ∈ sig.preds, AcceptedPred p) ∧
      (∀ a ∈ sig.inputs, AcceptedArg sig.declared a) ∧ (∀ t, sig.output = some t → AcceptedTy sig.declared t) := by
  rw [← Option.isSome_iff_exists]
  unfold dyncFnSig
  have hq : (sig.isConst || sig.isAsync || sig.abi || sig.variadic) = false ↔
      (sig.isConst = false ∧ sig.isAsync = false ∧ sig.abi = false ∧ sig.variadic = false) := by
    simp [and_assoc]
  cases hb : (sig.isConst || sig.isAsync || sig.abi || sig.variadic)
  · simp only [hq.1 hb, Bool.or_self, Bool.false_eq_true, if_false, true_and, and_self]
    cases h1 : collectParams [] sig.params with
    | none =>
      simp only [Option.bind_none, Option.isSome_none, Bool.false_eq_true, false_iff, not_and]
      intro h
      have := (collectParams_iff (g := []) (ps := sig.params)).2 ⟨h, rfl⟩
      rw [h1] at this; cases this
    | some g =>
      obtain ⟨p1, rfl⟩ := collectParams_iff.1 h1
      rw [Option.bind_some]
      cases h2 : collectPreds (List.flatMap paramBounds sig.params.reverse ++ []) sig.preds with
      | none =>
        simp only [Option.bind_none, Option.isSome_none, Bool.false_eq_true, false_iff, not_and]
        intro _ h
        have := (collectPreds_iff (g := List.flatMap paramBounds sig.params.reverse ++ []) (ps := sig.preds)).2 ⟨h, rfl⟩
        rw [h2] at this; cases this
      | some g' =>
        obtain ⟨p2, rfl⟩ := collectPreds_iff.1 h2
        rw [Option.bind_some, List.append_nil]
        change _ ↔ _ ∧ _ ∧ _ ∧ _
        rw [and_iff_right p1, and_iff_right p2]
        change (Option.bind (mapOpt (convertArg sig.declared) sig.inputs) _).isSome = true ↔ _
        have hm := mapOpt_iff (f := convertArg sig.declared) (xs := sig.inputs)
        simp only [convertArg_iff] at hm
        rw [← hm]
        cases h3 : mapOpt (convertArg sig.declared) sig.inputs with
        | none => simp
        | some ins =>
          simp only [Option.bind_some, Option.isSome_map, Option.isSome_some, true_and]
          cases ho : sig.output with
          | none => simp
          | some t =>
            simp only [Option.some.injEq, forall_eq']
            exact translate_iff
  · simp only [if_true, Option.isSome_none, Bool.false_eq_true, false_iff]
    intro h
    rw [hq.2 h.1] at hb; cases hb

/-- Both checks of the macro look through every composite type down to its leaves. -/
theorem C52_check_iff (t : Ty) : check t = true ↔ ∀ x ∈ leavesT t, LeafOk x := check_iff t

/-! ### Examples -/
namespace Ex

/-- `fn f(&self, x: [u8; 4])` is rejected, `fn f(&self, x: [Self; 4])` is accepted. -/
theorem rejected_array : ¬ ∃ out, dyncFnSig (Sig.method (.array (.name "u8") "4")) = some out := by
  rw [C52_accepted_iff]
  rintro ⟨-, -, -, h, -⟩
  have := h (.typed "x" (.array (.name "u8") "4")) (by simp [Sig.method])
  simp [AcceptedArg, AcceptedTy, leavesT, Ty.name, LeafOk, PlainName] at this

theorem accepted_array : ∃ out, dyncFnSig (Sig.method (.array (.name "Self") "4")) = some out := by
  rw [C52_accepted_iff]
  simp [Sig.method, AcceptedArg, AcceptedTy, leavesT, Ty.name, LeafOk, PlainName]

example := (C52_check_iff (.ptr false (.bareFn [.name "Self"] (some (.name "u8"))))).not.2 (by
  simp [leavesT, leavesL, leavesO, Ty.name, LeafOk, PlainName])

end Ex
end Dync
