import Verif.SendSync
import Verif.Props.Derive
/-!
# C43: sending containers to other threads
-/
namespace Dync
open SendSync Derive Relation

/-! ### Specification -/

/-- What is known of the element type. -/
structure ElemAuto where
  send : Bool
  sync : Bool

/-- The table can be the table of such elements: `HasSend`/`HasSync` are unsafe traits whose contract is
that the elements are `Send`/`Sync` (src/traits.rs:142-150). -/
def TableFor (V : Table) (e : ElemAuto) : Prop := (V.hasSend = true → e.send = true) ∧ (V.hasSync = true → e.sync = true)

/-- The corresponding type with a statically known element type: `Vec<T>`, `Box<T>`, `&[T]`, `&mut [T]`,
`&T` or `&mut T`; whether it is `Send`. -/
def native (e : ElemAuto) : Kind → Bool
  | .vecCopy | .vecDyn | .value => e.send
  | .sliceCopyMut | .sliceMut | .copyValueMut | .valueMut => e.send
  | .sliceCopy | .slice | .copyValueRef | .valueRef => e.sync

/-- **C43** as stated: a type of dync is `Send`/`Sync` only if its statically typed counterpart is. -/
def C43_full : Prop := ∀ (k : Kind) (V : Table) (e : ElemAuto), TableFor V e →
  (send V (k.ty V) = true → native e k = true) ∧ (sync V (k.ty V) = true → e.sync = true)

/-- A slice or reference with a table that has `HasSend` but not `HasSync` (say of a trait `T: Send`, for
elements of type `Cell<u8>`) can be sent to another thread, although it is a shared reference to
elements that are not `Sync`. -/
theorem C43_refuted_shared : ¬ C43_full := by
  intro h
  have := (h .slice ⟨true, true, false, true, true⟩ ⟨true, false⟩ ⟨fun _ => rfl, fun h => h⟩).1 rfl
  exact absurd this (by decide)

/-- The same for `ValueRef`, which moreover is `Clone`. -/
theorem C43_refuted_value_ref : ¬ C43_full := by
  intro h
  have := (h .valueRef ⟨true, true, false, true, true⟩ ⟨true, false⟩ ⟨fun _ => rfl, fun h => h⟩).1 rfl
  exact absurd this (by decide)

/-- `SliceCopy` and `SliceCopyMut` are `Send` and `Sync` by inference whatever the (`Copy`) elements, e.g.
raw pointers. -/
theorem C43_refuted_slice_copy : ¬ C43_full := by
  intro h
  have := (h .sliceCopyMut ⟨false, false, false, true, true⟩ ⟨false, false⟩ ⟨fun h => h, fun h => h⟩).1 rfl
  exact absurd this (by decide)

/-- **C43**, the part that holds: owners and exclusive references with explicit impls are `Send` and `Sync`
only if `Vec<T>`/`&mut T` would be, shared ones are `Sync` only if the elements are; `VecCopy` is never
either. Missing: `Send` for shared references and everything for `SliceCopy`/`SliceCopyMut` (refuted above). -/
theorem C43_send_sync_partial {k : Kind} {V : Table} {e : ElemAuto} (ht : TableFor V e) (h1 : k ≠ .sliceCopy) (h2 : k ≠ .sliceCopyMut) :
    (sync V (k.ty V) = true → e.sync = true) ∧
    (k ≠ .slice → k ≠ .valueRef → k ≠ .copyValueRef → send V (k.ty V) = true → native e k = true) := by
  obtain ⟨hs, hy⟩ := ht
  constructor
  · cases k <;> simp_all [Kind.ty, sync, syncAll, vecCopy, vecVoid]
  · cases k <;> simp_all [Kind.ty, send, sendAll, vecCopy, vecVoid, native]

/-- **C43**: exactly when each type is `Send`/`Sync`, for every table type. `SliceCopy` and `SliceCopyMut` may
hold the table by reference or by value, so they are `Send` only if the table is both. -/
theorem C43_exact (V : Table) (k : Kind) :
    (send V (k.ty V) = true ↔ match k with
      | .vecCopy => False
      | .sliceCopy | .sliceCopyMut => V.send = true ∧ V.sync = true
      | .copyValueRef | .copyValueMut => V.hasSend = true
      | _ => V.hasDrop = true ∧ V.hasSend = true) ∧
    (sync V (k.ty V) = true ↔ match k with
      | .vecCopy => False
      | .sliceCopy | .sliceCopyMut => V.sync = true
      | .copyValueRef | .copyValueMut => V.hasSync = true
      | _ => V.hasDrop = true ∧ V.hasSync = true) := by
  cases k <;> simp [Kind.ty, send, sendAll, sync, syncAll, vecCopy, vecVoid, sliceCopy, sliceCopyMut, vtableRef, elemInfo, bytes]
  all_goals exact And.comm

/-! ### Generated tables -/

theorem hasImpls_mem {m : TraitMap} {n : Name} : ∀ (ks : List Trait) (idx : Nat),
    (∃ i ∈ hasImplsOf m idx ks, i.trt = n) ↔ ∃ k ∈ ks, ∃ d, m k = some d ∧ n = ⟨k.isBuiltin, d.hasTrait⟩ := by
  intro ks
  induction ks with
  | nil => intro idx; simp [hasImplsOf]
  | cons k ks ih =>
    intro idx
    simp only [hasImplsOf]
    rcases hd : m k with _ | d
    · simp only [ih idx, List.mem_cons, exists_eq_or_imp, hd]
      simp
    · simp only [List.mem_cons, exists_eq_or_imp, ih, hd]
      simp [eq_comm]

theorem hasName_std {m : TraitMap} (h : Sane m) {k k' : Trait} {d : TraitData} {s : String} (hd : m k = some d)
    (hk' : k' = .send ∧ s = "HasSend" ∨ k' = .sync ∧ s = "HasSync") :
    (⟨true, s⟩ : Name) = ⟨k.isBuiltin, d.hasTrait⟩ ↔ k = k' := by
  cases hb : builtins k with
  | none =>
    constructor
    · intro e
      simp [Trait.isBuiltin, hb] at e
    · rintro rfl
      rcases hk' with ⟨rfl, -⟩ | ⟨rfl, -⟩ <;> cases hb
  | some b =>
    obtain ⟨d', hd', hp, -⟩ := h.builtin k b hb
    rw [hd] at hd'; cases hd'
    cases k <;> simp [builtins] at hb <;> subst hb <;> rcases hk' with ⟨rfl, rfl⟩ | ⟨rfl, rfl⟩ <;>
      simp [Trait.isBuiltin, builtins, TraitData.hasTrait, TraitData.name, hp]

/-- **C43** for tables generated by `dync_mod`: the table of a trait implements `HasSend` (`HasSync`) if and
only if the trait inherits, directly or not, from `Send` (`Sync`), so that the contract of the unsafe
trait is met by every type implementing the trait. -/
theorem C43_generated {items : List ItemTrait} (hg : GoodMod items) :
    ∃ N F, (∀ n ≥ N, dyncMod n items = some (items.map F)) ∧ ∀ it ∈ items,
      ((∃ i ∈ (F it).hasImpls, i.trt = ⟨true, "HasSend"⟩) ↔ TransGen (Sup items) (.custom it.ident) .send) ∧
      ((∃ i ∈ (F it).hasImpls, i.trt = ⟨true, "HasSync"⟩) ↔ TransGen (Sup items) (.custom it.ident) .sync) := by
  obtain ⟨N, m, hm, hsane, hdom, hex⟩ := module_map (good_noShadow hg.names) (good_keys hg) (good_acyclic hg)
  have hsome : ∀ it ∈ items, (fillDrop m (key it)).isSome = true := by
    intro it hit
    rw [fillDrop_isSome, hdom]
    exact .inr (List.mem_map.2 ⟨it, hit, rfl⟩)
  obtain ⟨F, hF, hc⟩ := mapM_construct hsome
  refine ⟨N, F, fun n hn => ?_, fun it hit => ?_⟩
  · unfold dyncMod
    rw [hm n hn]
    exact hF
  obtain ⟨d, hd⟩ := Option.isSome_iff_exists.1 (hsome it hit)
  have ho := hc it hit
  have hi : (F it).hasImpls = hasImplsOf (fillDrop m) 0 d.superTraits := by
    unfold construct at ho
    have hd' : fillDrop m (Trait.ofIdent it.ident) = some d := hd
    simp only [hd'] at ho
    rw [← Option.some.inj ho]
  have hs := final_supers hex hd
  have hb : ∀ k', (k' = .send ∨ k' = .sync) → ∃ dk, fillDrop m k' = some dk := by
    intro k' hk'
    refine Option.isSome_iff_exists.1 ?_
    rw [fillDrop_isSome, hdom]
    rcases hk' with rfl | rfl <;> exact .inl rfl
  have key : ∀ k' s, (k' = .send ∧ s = "HasSend" ∨ k' = .sync ∧ s = "HasSync") →
      ((∃ i ∈ (F it).hasImpls, i.trt = ⟨true, s⟩) ↔ TransGen (Sup items) (.custom it.ident) k') := by
    intro k' s hk'
    have hkn : Known items k' := by
      rintro x rfl
      rcases hk' with ⟨h, -⟩ | ⟨h, -⟩ <;> cases h
    rw [hi, hasImpls_mem, ← trans_iff hg.names hkn, ← key_good (hg.names it hit)]
    constructor
    · rintro ⟨k, hk, dk, hdk, e⟩
      obtain rfl := (hasName_std (sane_fillDrop hsane) hdk hk').1 e
      rcases (hs k).1 hk with ⟨rfl, -⟩ | h
      · rcases hk' with ⟨h, -⟩ | ⟨h, -⟩ <;> cases h
      · exact h
    · intro h
      obtain ⟨dk, hdk⟩ := hb k' (by rcases hk' with ⟨h, -⟩ | ⟨h, -⟩ <;> simp [h])
      exact ⟨k', (hs k').2 (.inr h), dk, hdk, (hasName_std (sane_fillDrop hsane) hdk hk').2 rfl⟩
  exact ⟨key _ _ (.inl ⟨rfl, rfl⟩), key _ _ (.inr ⟨rfl, rfl⟩)⟩

/-- Without the assumption that no trait of the module is called like a std trait this is unsound: a
user trait named `Send` makes the table of a trait inheriting from it claim `HasSend`. -/
theorem C43_refuted_shadow : ∃ (items : List ItemTrait) (os : List Output) (o : Output), dyncMod 10 items = some os ∧ o ∈ os ∧
    items = [⟨"Send", [], false, false⟩, ⟨"T", [.trait false false (plain ["Send"])], false, false⟩] ∧
    o.vtable = "TVTable" ∧ ∃ i ∈ o.hasImpls, i.trt = ⟨true, "HasSend"⟩ := by
  obtain ⟨os, h⟩ : ∃ os, dyncMod 10 [⟨"Send", [], false, false⟩, ⟨"T", [.trait false false (plain ["Send"])], false, false⟩] = some os := ⟨_, rfl⟩
  have h' := h
  cases h'
  exact ⟨_, _, _, h, List.mem_cons_of_mem _ (List.mem_singleton.2 rfl), rfl, by decide, by decide⟩

example := C43_send_sync_partial (k := .vecDyn) (V := ⟨true, true, false, true, true⟩) (e := ⟨true, false⟩)
  ⟨fun _ => rfl, fun h => h⟩ (by decide) (by decide)
example := C43_exact ⟨true, true, false, true, false⟩ .sliceCopy
example := C43_exact ⟨true, true, false, true, true⟩ .slice
example := C43_generated Ex.goodMod

end Dync
