import Verif.Props.Sig
/-!
# C73: the signatures generated by `dync_trait_method` are valid Rust, with exactly the listed exceptions
-/
namespace Dync
open Sig

/-! ### Specification: types that the compiler accepts -/
namespace Sig

/-- The bound is a trait that is not an auto trait. -/
def Bound.principal (auto : Bool → List Seg → Bool) : Bound → Bool
  | .trait l s => !auto l s
  | .lifetime _ => false

/-- The bound is a trait. -/
def Bound.isTrait : Bound → Bool
  | .trait _ _ => true
  | .lifetime _ => false

/-- `dyn #bs` is a type (E0224, E0225): at least one trait, and at most one that is not an auto trait. -/
def objectOk (auto : Bool → List Seg → Bool) (bs : List Bound) : Bool :=
  bs.any Bound.isTrait && (bs.filter (Bound.principal auto)).length ≤ 1

/-- Written down, the type ends with bounds joined by `+`. -/
def Ty.endsInPlus : Ty → Bool
  | .implTrait bs => 2 ≤ bs.length
  | .traitObject bs => 2 ≤ bs.length
  | .ptr _ e => e.endsInPlus
  | .reference _ _ e => e.endsInPlus
  | .bareFn _ (some o) => o.endsInPlus
  | _ => false

/-- The return type of a function type does not end in `+`. -/
def outPlus : Option Ty → Bool
  | none => false
  | some t => t.endsInPlus

mutual
/-- The type can be written down: `&dyn A + B` is not a type (the `+` is ambiguous), neither is `*const dyn A + B`
or `fn() -> dyn A + B`, and all trait objects are types. -/
def Ty.ok (auto : Bool → List Seg → Bool) : Ty → Bool
  | .array e _ => e.ok auto
  | .bareFn ins out => okL auto ins && okO auto out && !outPlus out
  | .group e => e.ok auto
  | .implTrait bs => okB auto bs
  | .paren e => e.ok auto
  | .path _ segs => okS auto segs
  | .qpath q segs => q.ok auto && okS auto segs
  | .ptr _ e => e.ok auto && !e.endsInPlus
  | .reference _ _ e => e.ok auto && !e.endsInPlus
  | .slice e => e.ok auto
  | .traitObject bs => okB auto bs && objectOk auto bs
  | .tuple es => okL auto es
  | .verbatim _ => true
def okL (auto : Bool → List Seg → Bool) : List Ty → Bool
  | [] => true
  | t :: ts => t.ok auto && okL auto ts
def okO (auto : Bool → List Seg → Bool) : Option Ty → Bool
  | none => true
  | some t => t.ok auto
def okS (auto : Bool → List Seg → Bool) : List Seg → Bool
  | [] => true
  | s :: ss => s.ok auto && okS auto ss
def Seg.ok (auto : Bool → List Seg → Bool) : Seg → Bool
  | .mk _ a => a.ok auto
def Args.ok (auto : Bool → List Seg → Bool) : Args → Bool
  | .none => true
  | .angle as => okG auto as
  | .parens ins out => okL auto ins && okO auto out && !outPlus out
def okG (auto : Bool → List Seg → Bool) : List GArg → Bool
  | [] => true
  | g :: gs => g.ok auto && okG auto gs
def GArg.ok (auto : Bool → List Seg → Bool) : GArg → Bool
  | .ty t => t.ok auto
  | .binding _ t => t.ok auto
  | .other _ => true
def okB (auto : Bool → List Seg → Bool) : List Bound → Bool
  | [] => true
  | b :: bs => b.ok auto && okB auto bs
def Bound.ok (auto : Bool → List Seg → Bool) : Bound → Bool
  | .trait _ segs => okS auto segs
  | .lifetime _ => true
end

/-- Values of the type have no size known to the compiler: no function can take or return them. -/
def Ty.isUnsized : Ty → Bool
  | .slice _ => true
  | .traitObject _ => true
  | .paren e => e.isUnsized
  | .group e => e.isUnsized
  | _ => false

/-- The type can be the type of an argument or of a result. -/
def Ty.Valid (auto : Bool → List Seg → Bool) (t : Ty) : Prop := t.ok auto = true ∧ t.isUnsized = false

/-- All argument types and the return type are valid. -/
def Signature.Valid (auto : Bool → List Seg → Bool) (sig : Signature) : Prop :=
  (∀ p t, Arg.typed p t ∈ sig.inputs → t.Valid auto) ∧ ∀ t, sig.output = some t → t.Valid auto

/-- The bounds of the type parameter `n`. -/
def boundsOf (n : String) : List Param → Option (List Bound)
  | [] => none
  | .type i _ _ _ bs :: ps => if n = i then some bs else boundsOf n ps
  | _ :: ps => boundsOf n ps

/-- The bounds of the type parameter that the type consists of, if it does. -/
def Ty.paramBounds (ps : List Param) : Ty → Option (List Bound)
  | .path false [.mk i .none] => boundsOf i ps
  | .path false [.mk i (.angle [])] => boundsOf i ps
  | _ => none

/-- The type is translated to a valid one: it is not `impl Trait`; if it is a type parameter or a reference or pointer
to one, then its bounds name at most one trait that is not an auto trait, and behind a reference or pointer only one
bound. -/
def Ty.Translatable (auto : Bool → List Seg → Bool) (ps : List Param) : Ty → Prop
  | .paren e => e.Translatable auto ps
  | .implTrait _ => False
  | .ptr _ e => ∀ bs, e.paramBounds ps = some bs → objectOk auto bs = true ∧ bs.length < 2
  | .reference _ _ e => ∀ bs, e.paramBounds ps = some bs → objectOk auto bs = true ∧ bs.length < 2
  | t => ∀ bs, t.paramBounds ps = some bs → objectOk auto bs = true

/-! ### Lemmas -/

variable {auto : Bool → List Seg → Bool} {ps : List Param} {g : Generics}

theorem byteSlice_ok : byteSlice.ok auto = true := by
  simp [byteSlice, Ty.name, Ty.ok, okS, Seg.ok, Args.ok, okG, GArg.ok]

theorem boxed_ok {t : Ty} : (Ty.app "Box" [t]).ok auto = t.ok auto := by
  simp [Ty.app, Ty.ok, okS, Seg.ok, Args.ok, okG, GArg.ok]

theorem paramBounds_some {t : Ty} {bs : List Bound} (h : t.paramBounds ps = some bs) :
    ∃ i a, t = .path false [.mk i a] ∧ Args.isEmpty a = true ∧ boundsOf i ps = some bs := by
  unfold Ty.paramBounds at h
  split at h
  · exact ⟨_, _, rfl, rfl, h⟩
  · exact ⟨_, _, rfl, rfl, h⟩
  · cases h

theorem paramBounds_bare {i : String} {a : Args} (ha : a.isEmpty = true) :
    (Ty.path false [.mk i a]).paramBounds ps = boundsOf i ps := by
  match a, ha with
  | .none, _ => rfl
  | .angle [], _ => rfl

/-- A path is translated to itself, to bytes or to a trait object. -/
theorem path_valid {l : Bool} {s : List Seg} {owned : Bool} {into t t' : Ty}
    (hg : ∀ i, g.get i = boundsOf i ps) (hb : ∀ i bs, boundsOf i ps = some bs → okB auto bs = true)
    (hok : (Ty.path l s).ok auto = true) (hi : into.ok auto = true ∧ into.endsInPlus = false)
    (h1 : processPath l s g owned = some t) (h2 : second into t = some t') :
    (t'.ok auto = true ↔ ∀ bs, (Ty.path l s).paramBounds ps = some bs → objectOk auto bs = true) ∧
    (t'.endsInPlus = true ↔ owned = false ∧ ∃ bs, (Ty.path l s).paramBounds ps = some bs ∧ 2 ≤ bs.length) := by
  rcases hp : (Ty.path l s).paramBounds ps with _ | bs
  · have ht : t = .path l s := by
      rcases path_cases h1 with ⟨rfl, -⟩ | ⟨i, a, bs, rfl, rfl, ha, hm, rfl⟩
      · rfl
      · exfalso
        rw [paramBounds_bare ha, ← hg, get_none] at hp
        exact hp (List.mem_map_of_mem (f := Prod.fst) hm)
    subst ht
    have : t' = .path l s ∨ t' = into := by
      rcases self_cases (show selfPathInto l s into = some t' from h2) with ⟨e, -⟩ | ⟨_, _, _, _, e⟩
      · exact .inl e
      · exact .inr e
    rcases this with rfl | rfl
    · simp [hok, Ty.endsInPlus]
    · simp [hi]
  · obtain ⟨i, a, e, ha, hbs⟩ := paramBounds_some hp
    cases e
    have ht : t = if owned then .app "Box" [.traitObject bs] else .traitObject bs := by
      unfold processPath at h1
      simp only [List.length_singleton, bne_self_eq_false, Bool.or_false, Bool.false_eq_true, if_false, ha, Bool.not_true, hg, hbs,
        Option.map_eq_some_iff] at h1
      obtain ⟨d, hd, rfl⟩ := h1
      rw [dynBounds_eq hd]
    have ht' : t' = t := by
      subst ht
      cases owned with
      | true => simpa [second, selfPathInto, Ty.app] using h2.symm
      | false => simpa [second] using h2.symm
    subst ht'; subst ht
    cases owned with
    | true => simp [boxed_ok, Ty.ok, hb i bs hbs, Ty.app, Ty.endsInPlus, okS, Seg.ok, Args.ok, okG, GArg.ok]
    | false => simp [Ty.ok, hb i bs hbs, Ty.endsInPlus]

theorem path_sized {l : Bool} {s : List Seg} {t t' : Ty} (h1 : processPath l s g true = some t) (h2 : second boxBytes t = some t') :
    t'.isUnsized = false := by
  rcases path_cases h1 with ⟨rfl, -⟩ | ⟨i, a, bs, rfl, rfl, ha, hm, rfl⟩
  · rcases self_cases (show selfPathInto l s boxBytes = some t' from h2) with ⟨rfl, -⟩ | ⟨_, _, _, _, rfl⟩
    · rfl
    · rfl
  · have : t' = .app "Box" [.traitObject bs] := by simpa [second, selfPathInto, Ty.app] using h2.symm
    subst this
    rfl

/-- What is behind a reference or pointer. -/
theorem behind_valid {e e1 e2 : Ty} (hg : ∀ i, g.get i = boundsOf i ps) (hb : ∀ i bs, boundsOf i ps = some bs → okB auto bs = true)
    (hok : e.ok auto = true) (hpl : e.endsInPlus = false) (h1 : refToTraitObject g e = some e1) (h2 : selfToByteSlice e1 = some e2) :
    (e2.ok auto = true ∧ e2.endsInPlus = false) ↔ ∀ bs, e.paramBounds ps = some bs → objectOk auto bs = true ∧ bs.length < 2 := by
  by_cases hp : ∃ l s, e = .path l s
  · obtain ⟨l, s, rfl⟩ := hp
    obtain ⟨a1, a2⟩ := path_valid hg hb hok ⟨byteSlice_ok, rfl⟩ h1 (second_eq h2)
    rw [a1, ← Bool.not_eq_true, a2]
    constructor
    · rintro ⟨p, q⟩ bs hbs
      refine ⟨p bs hbs, ?_⟩
      by_contra hc
      exact q ⟨rfl, bs, hbs, by omega⟩
    · intro p
      refine ⟨fun bs hbs => (p bs hbs).1, ?_⟩
      rintro ⟨-, bs, hbs, hl⟩
      have := (p bs hbs).2
      omega
  · have he1 : e1 = e := by
      unfold refToTraitObject at h1
      split at h1
      · exact absurd ⟨_, _, rfl⟩ hp
      · exact (Option.some.inj h1).symm
    subst he1
    have he2 : e2 = e1 := by
      unfold selfToByteSlice at h2
      split at h2
      · exact absurd ⟨_, _, rfl⟩ hp
      · cases h2
      · exact (Option.some.inj h2).symm
    subst he2
    refine ⟨fun _ bs hbs => ?_, fun _ => ⟨hok, hpl⟩⟩
    obtain ⟨i, a, rfl, -, -⟩ := paramBounds_some hbs
    exact absurd ⟨_, _, rfl⟩ hp

theorem translate_valid (hg : ∀ i, g.get i = boundsOf i ps) (hb : ∀ i bs, boundsOf i ps = some bs → okB auto bs = true) :
    ∀ {t t' : Ty}, t.Valid auto → translate g t = some t' → (t'.Valid auto ↔ t.Translatable auto ps)
  | .paren e, t', hv, h => by
    unfold translate processGenerics at h
    simp only [Option.bind_map, Option.bind_eq_some_iff, Function.comp_apply, typeToBytes, Option.map_eq_some_iff] at h
    obtain ⟨e1, h1, e2, h2, rfl⟩ := h
    have := translate_valid hg hb (t := e) (t' := e2) (by simpa only [Ty.Valid, Ty.ok, Ty.isUnsized] using hv)
      (by unfold translate; rw [h1]; exact h2)
    simpa only [Ty.Valid, Ty.ok, Ty.isUnsized, Ty.Translatable] using this
  | .path l s, t', hv, h => by
    unfold translate processGenerics at h
    simp only [Option.bind_eq_some_iff] at h
    obtain ⟨t1, h1, h2⟩ := h
    have h2' : second boxBytes t1 = some t' := by
      rcases path_cases h1 with ⟨rfl, -⟩ | ⟨i, a, bs, -, -, -, -, rfl⟩
      · exact h2
      · exact h2
    have := (path_valid hg hb hv.1 ⟨boxed_ok.trans byteSlice_ok, rfl⟩ h1 h2').1
    simp only [Ty.Valid, this, path_sized h1 h2', and_true, Ty.Translatable]
  | .ptr m e, t', hv, h => by
    unfold translate processGenerics at h
    simp only [Option.bind_map, Option.bind_eq_some_iff, Function.comp_apply, typeToBytes, Option.map_eq_some_iff] at h
    obtain ⟨e1, h1, e2, h2, rfl⟩ := h
    have hv1 := hv.1
    simp only [Ty.ok, Bool.and_eq_true, Bool.not_eq_true'] at hv1
    have := behind_valid hg hb hv1.1 hv1.2 h1 h2
    simpa only [Ty.Valid, Ty.ok, Ty.isUnsized, and_true, Bool.and_eq_true, Bool.not_eq_true', Ty.Translatable] using this
  | .reference lt m e, t', hv, h => by
    unfold translate processGenerics at h
    simp only [Option.bind_map, Option.bind_eq_some_iff, Function.comp_apply, typeToBytes, Option.map_eq_some_iff] at h
    obtain ⟨e1, h1, e2, h2, rfl⟩ := h
    have hv1 := hv.1
    simp only [Ty.ok, Bool.and_eq_true, Bool.not_eq_true'] at hv1
    have := behind_valid hg hb hv1.1 hv1.2 h1 h2
    simpa only [Ty.Valid, Ty.ok, Ty.isUnsized, and_true, Bool.and_eq_true, Bool.not_eq_true', Ty.Translatable] using this
  | .qpath q s, t', hv, h => by simp [translate, processGenerics, typeToBytes] at h
  | .implTrait bs, t', hv, h => by
    simp only [translate, processGenerics, check, if_true, Option.bind_some, typeToBytes, Option.some.injEq] at h
    subst h
    simp [Ty.Valid, Ty.isUnsized, Ty.Translatable]
  | .array e n, t', hv, h => by
    obtain rfl := passThrough (by simp only [processGenerics]) (by simp only [typeToBytes]) h
    simp [hv, Ty.Translatable, Ty.paramBounds]
  | .bareFn a b, t', hv, h => by
    obtain rfl := passThrough (by simp only [processGenerics]) (by simp only [typeToBytes]) h
    simp [hv, Ty.Translatable, Ty.paramBounds]
  | .group e, t', hv, h => by
    obtain rfl := passThrough (by simp only [processGenerics]) (by simp only [typeToBytes]) h
    simp [hv, Ty.Translatable, Ty.paramBounds]
  | .slice e, t', hv, h => by cases hv.2
  | .traitObject bs, t', hv, h => by cases hv.2
  | .tuple es, t', hv, h => by
    obtain rfl := passThrough (by simp only [processGenerics]) (by simp only [typeToBytes]) h
    simp [hv, Ty.Translatable, Ty.paramBounds]
  | .verbatim s, t', hv, h => by
    obtain rfl := passThrough (by simp only [processGenerics]) (by simp only [typeToBytes]) h
    simp [hv, Ty.Translatable, Ty.paramBounds]

theorem boundsOf_none {n : String} : ∀ {ps : List Param}, n ∉ paramNames ps → boundsOf n ps = none
  | [], _ => rfl
  | .type i a c d bs :: ps, h => by
    simp only [paramNames, List.mem_cons, not_or] at h
    rw [boundsOf, if_neg h.1]
    exact boundsOf_none h.2
  | .lifetime _ :: ps, h => boundsOf_none (ps := ps) h
  | .const _ :: ps, h => boundsOf_none (ps := ps) h

/-- With distinct names the map of the macro gives the bounds of a parameter. -/
theorem collect_get : ∀ {ps : List Param} {g g' : Generics}, collectParams g ps = some g' → (paramNames ps).Nodup →
    ∀ n, g'.get n = (boundsOf n ps).or (g.get n)
  | [], g, g', h, _, n => by cases h; rfl
  | .lifetime _ :: _, g, g', h, _, n => by cases h
  | .const _ :: _, g, g', h, _, n => by cases h
  | .type i a c d bs :: ps, g, g', h, hn, n => by
    unfold collectParams at h
    split_ifs at h
    simp only [paramNames, List.nodup_cons] at hn
    rw [collect_get h hn.2 n, boundsOf]
    by_cases e : n = i
    · subst e
      rw [if_pos rfl, boundsOf_none hn.1]
      simp [Generics.get, List.lookup]
    · rw [if_neg e]
      have : (n == i) = false := by simpa using e
      simp only [Generics.get, List.lookup, this]

end Sig

/-! ### C73 -/

/-- **C73**: if the argument and return types of an accepted signature without where clause are valid, then those of the
generated signature are valid exactly if each of them is `Translatable`. -/
theorem C73_valid {auto : Bool → List Seg → Bool} {sig out : Signature} (h : dyncFnSig sig = some out) (hp : sig.preds = [])
    (hn : (paramNames sig.params).Nodup) (hb : ∀ n bs, boundsOf n sig.params = some bs → okB auto bs = true) (hv : sig.Valid auto) :
    out.Valid auto ↔ (∀ p t, Arg.typed p t ∈ sig.inputs → t.Translatable auto sig.params) ∧
      ∀ t, sig.output = some t → t.Translatable auto sig.params := by
  obtain ⟨g, g', ins, ot, h1, h2, h3, h4, rfl, -⟩ := dyncFnSig_some h
  rw [hp] at h2
  cases h2
  have hg : ∀ i, g.get i = boundsOf i sig.params := by
    intro i
    rw [collect_get h1 hn i]
    cases boundsOf i sig.params <;> rfl
  have hf := mapOpt_forall₂ h3
  obtain ⟨hv1, hv2⟩ := hv
  unfold Signature.Valid
  refine and_congr ?_ ?_
  · clear h h3
    generalize sig.inputs = xs at hf hv1
    induction hf with
    | nil => simp
    | @cons x y xs ys hxy _ ih =>
      have ih := ih fun p t ht => hv1 p t (.tail _ ht)
      constructor
      · intro hy p t ht
        rcases List.mem_cons.1 ht with rfl | ht
        · simp only [convertArg, Option.map_eq_some_iff] at hxy
          obtain ⟨t', ht', rfl⟩ := hxy
          exact (translate_valid hg hb (hv1 p t (.head _)) ht').1 (hy p t' (.head _))
        · exact ih.1 (fun p t ht => hy p t (.tail _ ht)) p t ht
      · intro hall p t ht
        rcases List.mem_cons.1 ht with rfl | ht
        · match x, hxy with
          | .typed p' t1, hxy =>
            simp only [convertArg, Option.map_eq_some_iff] at hxy
            obtain ⟨t', ht', e⟩ := hxy
            cases e
            exact (translate_valid hg hb (hv1 _ _ (.head _)) ht').2 (hall _ _ (.head _))
          | .receiver (some l) m, hxy =>
            cases hxy
            refine ⟨?_, rfl⟩
            simp [Ty.ok, byteSlice_ok, byteSlice, Ty.endsInPlus]
            exact byteSlice_ok
          | .receiver none false, hxy =>
            cases hxy
            exact ⟨boxed_ok.trans byteSlice_ok, rfl⟩
        · exact ih.2 (fun p t ht => hall p t (.tail _ ht)) p t ht
  · cases ho : sig.output with
    | none =>
      rw [ho] at h4; cases h4
      simp [Ty.Valid, Ty.ok, okL, Ty.isUnsized]
    | some t =>
      rw [ho] at h4
      simp only [Option.some.injEq, forall_eq']
      exact translate_valid hg hb (hv2 t ho) h4

/-! ### The exceptions occur, and so do valid cases -/
namespace Ex

/-- `Send` and `Sync`. -/
def autoTraits (lead : Bool) : List Seg → Bool
  | [.mk i .none] => !lead && (i == "Send" || i == "Sync")
  | _ => false

/-- A trait without parameters as a bound. -/
def bnd (n : String) : Bound := .trait false [.mk n .none]

/-- `fn f<H: Hasher, T: Clone + Send>(&self, h: &mut H, x: T, other: &Self) -> Self`. -/
def goodSig : Signature :=
  { ident := "f", params := [.type "H" false true false [bnd "Hasher"], .type "T" false true false [bnd "Clone", bnd "Send"]],
    inputs := [.receiver (some none) false, .typed "h" (.reference none true (.name "H")), .typed "x" (.name "T"),
      .typed "other" (.reference none false (.name "Self"))],
    output := some (.name "Self") }

/-- Not covered: `fn f<T: Hasher + Send>(x: &T)`, where one `+` too many is behind a reference. -/
def refSig : Signature :=
  { ident := "f", params := [.type "T" false true false [bnd "Hasher", bnd "Send"]],
    inputs := [.receiver (some none) false, .typed "x" (.reference none false (.name "T"))] }

/-- Not covered: `fn f<T: Clone + Hasher>(x: T)`, two traits that are not auto traits. -/
def twoSig : Signature :=
  { ident := "f", params := [.type "T" false true false [bnd "Clone", bnd "Hasher"]],
    inputs := [.receiver (some none) false, .typed "x" (.name "T")] }

/-- Not covered: `fn f(x: impl Hasher)`. -/
def implSig : Signature := { ident := "f", inputs := [.receiver (some none) false, .typed "x" (.implTrait [bnd "Hasher"])] }

/-- What the four signatures become. -/
theorem goodSig_out : dyncFnSig goodSig = some
    { isUnsafe := true, ident := "f_bytes",
      inputs := [.typed "_self_" (.reference none false byteSlice),
        .typed "h" (.reference none true (.traitObject [bnd "Hasher"])), .typed "x" (.app "Box" [.traitObject [bnd "Clone", bnd "Send"]]),
        .typed "other" (.reference none false byteSlice)],
      output := some boxBytes } := rfl
theorem refSig_out : dyncFnSig refSig = some
    { isUnsafe := true, ident := "f_bytes",
      inputs := [.typed "_self_" (.reference none false byteSlice),
        .typed "x" (.reference none false (.traitObject [bnd "Hasher", bnd "Send"]))],
      output := some (.tuple []) } := rfl
theorem twoSig_out : dyncFnSig twoSig = some
    { isUnsafe := true, ident := "f_bytes",
      inputs := [.typed "_self_" (.reference none false byteSlice),
        .typed "x" (.app "Box" [.traitObject [bnd "Clone", bnd "Hasher"]])],
      output := some (.tuple []) } := rfl
theorem implSig_out : dyncFnSig implSig = some
    { isUnsafe := true, ident := "f_bytes",
      inputs := [.typed "_self_" (.reference none false byteSlice), .typed "x" (.traitObject [bnd "Hasher"])],
      output := some (.tuple []) } := rfl

/-- `Signature.Valid` as a test. -/
def validB (auto : Bool → List Seg → Bool) (sig : Signature) : Bool :=
  sig.inputs.all (fun a => match a with | .typed _ t => t.ok auto && !t.isUnsized | .receiver _ _ => true) &&
    (match sig.output with | some t => t.ok auto && !t.isUnsized | none => true)

theorem validB_iff {auto : Bool → List Seg → Bool} {sig : Signature} : sig.Valid auto ↔ validB auto sig = true := by
  simp only [Signature.Valid, validB, Bool.and_eq_true, List.all_eq_true]
  refine and_congr ⟨?_, ?_⟩ ?_
  · intro h a ha
    match a, ha with
    | .receiver _ _, _ => rfl
    | .typed p t, ha =>
      obtain ⟨h1, h2⟩ := h p t ha
      show (t.ok auto && !t.isUnsized) = true
      rw [h1, h2]; rfl
  · intro h p t ht
    simpa [Ty.Valid] using h _ ht
  · cases sig.output with
    | none => simp
    | some t => simp [Ty.Valid]

/-- The bounds in the examples have no arguments. -/
theorem bounds_ok {sig : Signature} (h : sig = goodSig ∨ sig = refSig ∨ sig = twoSig ∨ sig = implSig) :
    ∀ n bs, boundsOf n sig.params = some bs → okB autoTraits bs = true := by
  intro n bs hbs
  rcases h with rfl | rfl | rfl | rfl
  all_goals
    simp only [goodSig, refSig, twoSig, implSig, boundsOf] at hbs
    repeat' split at hbs
    all_goals (cases hbs; try rfl)

example := C73_valid (auto := autoTraits) goodSig_out rfl (by decide) (bounds_ok (.inl rfl)) (validB_iff.2 (by decide +kernel))

end Ex

open Ex in
/-- **C73**, the exceptions: each of these signatures is valid and accepted, and the generated signature is not valid:
`&dyn Hasher + Send`, `Box<dyn Clone + Hasher>` and an argument of type `dyn Hasher`. -/
theorem C73_exceptions : ∀ sig ∈ [refSig, twoSig, implSig], sig.Valid autoTraits ∧
    ∃ out, dyncFnSig sig = some out ∧ ¬ out.Valid autoTraits := by
  intro sig hsig
  simp only [List.mem_cons, List.not_mem_nil, or_false] at hsig
  rcases hsig with rfl | rfl | rfl
  · exact ⟨validB_iff.2 (by decide +kernel), _, refSig_out, fun h => absurd (validB_iff.1 h) (by decide +kernel)⟩
  · exact ⟨validB_iff.2 (by decide +kernel), _, twoSig_out, fun h => absurd (validB_iff.1 h) (by decide +kernel)⟩
  · exact ⟨validB_iff.2 (by decide +kernel), _, implSig_out, fun h => absurd (validB_iff.1 h) (by decide +kernel)⟩
end Dync
