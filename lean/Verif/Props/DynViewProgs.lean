import Verif.ViewDynLemmas4
import Verif.Props.VecDyn
import Verif.Props.DynMachine
/-!
# C75 Programs on mutable views of non-`Copy` elements do what the same programs do on plain slices
-/
namespace Dync
variable {U V : Type} [HasDrop U V] [HasClone U V] [TableLaw V] {Γ : TyEnv U} {cfg : Cfg} {t : TyId} {es : List Bytes} {s : SliceCopy V}
  {w : World U} {vt : TyId → V}

/-- A program on a `SliceMut` does what it does on the plain slice of the elements: it returns the same reads or it
panics like it, it leaves the same elements behind, also if it panics half way, and it runs the same destructors and
clones in the same order. Its boxes are freed, except for those that the program on the plain slice counts as leaked:
at most one, and none if it returns. -/
theorem C75_view (hd : ∀ t, LawfulDrop Γ t (vt t)) (R : SRepr Γ t es s) (hc : LawfulClone Γ t s.vtable) (wf : w.heap.WF)
    (n : Nat) (p : VProg U) (hs : p.Sized Γ) (hr : p.InRange cfg (Γ.size t)) :
    ∃ r s' h', p.exec Γ cfg vt (s, w) = (r, (s', ⟨h', (p.plain Γ t (es, ⟨n, w.user⟩)).2.2.user⟩)) ∧
      r.Alike (p.plain Γ t (es, ⟨n, w.user⟩)).1 ∧ SRepr Γ t (p.plain Γ t (es, ⟨n, w.user⟩)).2.1 s' ∧
      (p.plain Γ t (es, ⟨n, w.user⟩)).2.1.length = es.length ∧ s'.vtable = s.vtable ∧
      ∃ lost, Realloc w.heap none h' lost ∧ (∀ i, lost = some i → h'.live i ≠ none) ∧
        (p.plain Γ t (es, ⟨n, w.user⟩)).2.2.leaked = n + lost.toList.length ∧ ∀ a, r = .ok a → lost = none := by
  have H := p.sim (cfg := cfg) (t := t) hd hs hr es s w n R wf hc
  refine ⟨_, _, (p.exec Γ cfg vt (s, w)).2.2.heap, ?_, H.res, H.repr, H.len, H.table, H.heap⟩
  rw [← H.user]

/-- The same through `as_mut_slice` of a container: its buffer and its capacity stay. -/
theorem C75_container (hd : ∀ t, LawfulDrop Γ t (vt t)) {c : VecDyn V} (R : Repr Γ w.heap t es c.data)
    (hc : LawfulClone Γ t c.vtable) (wf : w.heap.WF) (n : Nat) (p : VProg U) (hs : p.Sized Γ) (hr : p.InRange cfg (Γ.size t)) :
    ∃ r d h', VecDyn.onView (p.exec Γ cfg vt) (c, w) =
        (r, ({ c with data := d }, ⟨h', (p.plain Γ t (es, ⟨n, w.user⟩)).2.2.user⟩)) ∧
      r.Alike (p.plain Γ t (es, ⟨n, w.user⟩)).1 ∧ Repr Γ h' t (p.plain Γ t (es, ⟨n, w.user⟩)).2.1 d ∧
      d.ptr = c.data.ptr ∧ d.cap = c.data.cap ∧
      ∃ lost, Realloc w.heap none h' lost ∧ (∀ i, lost = some i → h'.live i ≠ none) ∧
        (p.plain Γ t (es, ⟨n, w.user⟩)).2.2.leaked = n + lost.toList.length ∧ ∀ a, r = .ok a → lost = none := by
  let m : M (SliceCopy V) (Res (List Read) × World U) :=
    ⟨fun v => (.ok ((p.exec Γ cfg vt (v, w)).1, (p.exec Γ cfg vt (v, w)).2.2), (p.exec Γ cfg vt (v, w)).2.1)⟩
  obtain ⟨s, hS, hvt, hrun⟩ := VecCopy.asMutSlice_run R m
  obtain ⟨r, s', h', e, h1, h2, h3, h4, lost, hl, hlo⟩ := C75_view (cfg := cfg) hd hS (by rw [hvt]; exact hc) wf n p hs hr
  obtain ⟨d, hd', E⟩ := VecCopy.asMutSlice_ok R wf (m := m) (r := (m s).1) h2.each h3 (by
    intro s' hS' hvt'
    have : s' = s := by rw [hS'.eq_mk, hS.eq_mk, hvt, hvt']
    rw [this]
    refine ⟨rfl, ?_⟩
    simp only [m, e]
    exact h2.data)
  refine ⟨r, d, h', ?_, h1, ?_, (E.stay (Nat.zero_le _)).1, (E.stay (Nat.zero_le _)).2.1, lost, hl, hlo⟩
  · have hn : (m s).1 = .ok (r, ⟨h', (p.plain Γ t (es, ⟨n, w.user⟩)).2.2.user⟩) := by simp only [m, e]
    rw [hn] at hd'
    simp only [VecDyn.onView]
    rw [show VecCopy.asMutSlice (⟨fun v => (.ok ((p.exec Γ cfg vt (v, w)).1, (p.exec Γ cfg vt (v, w)).2.2), (p.exec Γ cfg vt (v, w)).2.1)⟩ :
      M (SliceCopy V) (Res (List Read) × World U)) (c, w) = _ from hd']
  · obtain ⟨i, hi, -⟩ := E.repr.block
    exact E.repr.frame_realloc wf hl (by rw [hi]; simp)

/-- In a program with any number of variables (C71): after a program on a view of the container in variable `k`, that
variable has the elements of the plain slice, all other variables are as before, and exactly the blocks counted on the plain
slice are lost: at most one, and none if the program returns. -/
theorem C75_step (hd : ∀ t, LawfulDrop Γ t (vt t)) {slots : DSlots V} {vars : YVars} {o : Outside U} {k : Nat} {c : VecDyn V}
    {cap : Nat} (H : YHolds Γ slots w vars o) (hs : slots k = some (.vec c)) (hv : vars k = some (.vec t (.vec t es cap)))
    (p : VProg U) (hz : p.Sized Γ) (hr : p.InRange cfg (Γ.size t)) :
    ∃ r c' w', VecDyn.onView (p.exec Γ cfg vt) (c, w) = (r, (c', w')) ∧ r.Alike (p.plain Γ t (es, o)).1 ∧
      YHolds Γ (Slots.put slots k (some (.vec c'))) w'
        (Slots.put vars k (some (.vec t (.vec t (p.plain Γ t (es, o)).2.1 cap)))) (p.plain Γ t (es, o)).2.2 ∧
      (p.plain Γ t (es, o)).2.2.leaked ≤ o.leaked + 1 ∧ ∀ a, r = .ok a → (p.plain Γ t (es, o)).2.2.leaked = o.leaked := by
  obtain ⟨⟨R, hcap⟩, T, hpos, -⟩ : YItem.Is Γ w.heap (.vec c) (.vec t (.vec t es cap)) := H.is k _ _ hs hv
  obtain ⟨r, d, h', e, h1, h2, h3, h4, q, hq, hql, hn, hqo⟩ :=
    C75_container (cfg := cfg) hd R (lawfulClone_of T.clone T.cloneFrom T.cloneIntoRaw) H.wf o.leaked p hz hr
  rw [H.user] at e h1 h2 hn
  replace h1 : r.Alike (p.plain Γ t (es, o)).1 := h1
  replace h2 : Repr Γ h' t (p.plain Γ t (es, o)).2.1 d := h2
  replace hn : (p.plain Γ t (es, o)).2.2.leaked = o.leaked + q.toList.length := hn
  obtain ⟨F, W, -, fill⟩ := H.hole k
  rw [hs] at W
  replace W : Worlds F (c.data.ptr.toList) w o := W
  have W1 := (Worlds.move (p := none) (O := c.data.ptr.toList) W hq hql).leak
  refine ⟨r, _, _, e, h1, fill (some (.vec { c with data := d })) _ _ _ ⟨rfl, ?_⟩
    ⟨⟨h2, by rw [h4, hcap]⟩, T, hpos, fun _ _ _ h => by cases h; rfl⟩, by rw [hn]; cases q <;> simp, fun a ha => by rw [hn, hqo a ha]; rfl⟩
  have := W1.blocks
  show Blocks F d.ptr.toList h' _
  rw [h3, hn]
  exact this

theorem put_found {β : Type} {s : Nat → Option β} {k : Nat} {x : Option β} (h : s k = x) : Slots.put s k x = s := by
  funext j
  simp only [Slots.put]
  split
  · rename_i e; rw [e, h]
  · rfl

/-- The same for a container whose content was lost: it stays as it is. -/
theorem C75_units (hd : ∀ t, LawfulDrop Γ t (vt t)) {slots : DSlots V} {vars : YVars} {o : Outside U} {k n : Nat} {c : VecDyn V}
    (H : YHolds Γ slots w vars o) (hs : slots k = some (.vec c)) (hv : vars k = some (.vec t (.unit n)))
    (p : VProg U) (hz : p.Sized Γ) :
    ∃ r w', VecDyn.onView (p.exec Γ cfg vt) (c, w) = (r, (c, w')) ∧ r.Alike (p.onUnits Γ cfg o).1 ∧
      YHolds Γ slots w' vars (p.onUnits Γ cfg o).2 ∧
      (p.onUnits Γ cfg o).2.leaked ≤ o.leaked + 1 ∧ ∀ a, r = .ok a → (p.onUnits Γ cfg o).2.leaked = o.leaked := by
  obtain ⟨I, T, hpos, -⟩ : YItem.Is Γ w.heap (.vec c) (.vec t (.unit n)) := H.is k _ _ hs hv
  replace I : IsUnits Γ n c.data := I
  obtain ⟨h1, h2, h3, q, hq, hql, hn, hqo⟩ := p.unit_sim (cfg := cfg) (b := t) hd hz (SliceCopy.fromRawParts [] c.data.elem c.vtable) w o.leaked
    ⟨rfl, I.elem, T.cloneFrom, hpos⟩ H.wf
  rw [H.user] at h1 h3 hn
  replace h1 : Res.Alike _ (p.onUnits Γ cfg o).1 := h1
  replace h3 : _ = (p.onUnits Γ cfg o).2.user := h3
  replace hn : (p.onUnits Γ cfg o).2.leaked = o.leaked + q.toList.length := hn
  rcases e : p.exec Γ cfg vt (SliceCopy.fromRawParts [] c.data.elem c.vtable, w) with ⟨r, s', w'⟩
  rw [e] at h1 h2 h3 hq hql hqo
  have e' := unit_asMutSlice (w := w) I (m := ⟨fun v => (.ok ((p.exec Γ cfg vt (v, w)).1, (p.exec Γ cfg vt (v, w)).2.2), (p.exec Γ cfg vt (v, w)).2.1)⟩)
    (r := .ok (r, w')) (by simp only [e]; rw [show s' = _ from h2])
  obtain ⟨F, W, -, fill⟩ := H.hole k
  rw [hs] at W
  replace W : Worlds F (c.data.ptr.toList) w o := W
  have W1 := (Worlds.move (p := none) (O := c.data.ptr.toList) W hq hql).leak
  have K := fill (some (.vec c)) (some (.vec t (.unit n))) w' (p.onUnits Γ cfg o).2 ⟨h3, (by
    have := W1.blocks
    rw [hn]
    exact this)⟩ ⟨I, T, hpos, nofun⟩
  rw [put_found hs, put_found hv] at K
  exact ⟨r, w', by simp only [VecDyn.onView, e'], h1, K, by rw [hn]; cases q <;> simp, fun a ha => by rw [hn, hqo a ha]; rfl⟩

namespace Ex

/-- Exchange the two elements; read the left one and clone into the right one; offer a value of another type; replace
every element, where the destructor of the first panics. -/
def dynView : VProg Log :=
  .seq (.look (.swap 0 1)) (.seq (.split 1 (.look (.get 0)) (.cloneFrom 0 7 g2))
    (.seq (.setAs 10 1 s1) (.chunks 1 (.sub (.rangeFrom 0) (.assign 0 7 g1)))))

theorem dynView_plain : (dynView.plain env 7 ([g1, badDrop], ⟨0, []⟩)).1 = .panic .user ∧
    (dynView.plain env 7 ([g1, badDrop], ⟨0, []⟩)).2 = ([g1, g2], ⟨1, [.cloned 7 g2, .dropped 7 g1, .dropped 10 s1]⟩) := by
  rw [Prod.ext_iff, Outside.ext_iff]
  decide +kernel
theorem dynView_sized : dynView.Sized env := by simp only [dynView, VProg.Sized]; decide
theorem dynView_inRange : dynView.InRange ⟨false⟩ (env.size 7) := by
  simp only [dynView, VProg.InRange, Look.prog, SProg.InRange, NoWrap, Rng.halfOpen]; decide

/-- A program that returns. -/
def dynView2 : VProg Log :=
  .seq (.look (.rotateLeft 1)) (.seq (.cloneFromSlice 7 [g2, g1]) (.seq (.edit 7 ⟨fun s => (.ok (), (s.1.reverse, s.2))⟩) (.look .iter)))

theorem dynView2_plain : (dynView2.plain env 7 ([g1, badDrop], ⟨0, []⟩)).1 = .ok [(7, g1), (7, g2)] ∧
    (dynView2.plain env 7 ([g1, badDrop], ⟨0, []⟩)).2 =
      ([g1, g2], ⟨0, [.cloned 7 g2, .dropped 7 badDrop, .cloned 7 g1, .dropped 7 g1]⟩) := by
  rw [Prod.ext_iff, Outside.ext_iff]
  decide +kernel
theorem dynView2_sized : dynView2.Sized env := by
  simp only [dynView2, VProg.Sized, true_and, and_true]
  exact fun s hs => ⟨by simp, fun e he => hs e (by simpa using he)⟩
theorem dynView2_inRange : dynView2.InRange ⟨true⟩ (env.size 7) := by
  simp only [dynView2, VProg.InRange, Look.prog, SProg.InRange, NoWrap]; decide

/-- A container for values of type 7 whose content was lost, in variable 3. -/
def lostVars : YVars := fun k => if k = 3 then some (.vec 7 (.unit 0)) else none
def lostSlots : DSlots (CloneVTable Log) := fun k => if k = 3 then some (.vec ⟨VecVoid.default env, cloneVT 7⟩) else none

theorem lostVars_holds : YHolds env lostSlots ⟨emptyHeap, []⟩ lostVars ⟨0, []⟩ where
  user := rfl
  wf _ _ := rfl
  none_iff k := by unfold lostSlots lostVars; split <;> simp [*]
  is k c x h1 h2 := by
    simp only [lostSlots, lostVars] at h1 h2
    split at h1
    · rename_i hk
      rw [if_pos hk] at h2
      cases h1; cases h2
      exact ⟨IsUnits.default env, tab 7, by decide, nofun⟩
    · cases h1
  inj k k' c c' i h1 h2 _ _ := by
    simp only [lostSlots] at h1 h2
    split at h1
    · split at h2
      · omega
      · cases h2
    · cases h1
  leaks := ⟨[], List.nodup_nil, rfl, (fun _ h => by cases h), (fun _ h => by cases h), fun _ _ h => by cases h⟩

/-- Read an element of a part of the empty container, then assign a value whose destructor panics. -/
def lostView : VProg Log := .seq (.sub (.range 3 5) (.look (.get 4))) (.assign 1 7 badDrop)

theorem lostView_units : (lostView.onUnits env ⟨false⟩ ⟨0, []⟩).1 = .panic .user ∧ (lostView.onUnits env ⟨false⟩ ⟨0, []⟩).2 = ⟨1, []⟩ ∧
    (lostView.onUnits env ⟨true⟩ ⟨0, []⟩).1 = .panic .divZero := by
  rw [Outside.ext_iff]
  decide +kernel

end Ex

open Ex in
example := C75_view (cfg := ⟨false⟩) (vt := cloneVT) (w := world 7 4) cloneVT_drop
  (s := ⟨[g1, badDrop].flatten, ElemInfo.new env 7, cloneVT 7⟩) ⟨rfl, by decide, rfl, by decide, by decide⟩ (cloneVT_clone 7) (oneHeap_wf _) 0
  dynView dynView_sized dynView_inRange

open Ex in
example := C75_container (cfg := ⟨true⟩) (vt := cloneVT) (w := world 7 4) cloneVT_drop
  (c := ⟨vec 7 [g1, badDrop] 4, cloneVT 7⟩) (vars3_holds.is 3 _ _ rfl rfl).1.1 (cloneVT_clone 7) (oneHeap_wf _) 0
  dynView2 dynView2_sized dynView2_inRange

open Ex in
/-- The first program panics: the container has the new elements, and the box with the old element is lost. -/
example : ∃ y c' w', VecDyn.onView (dynView.exec env ⟨false⟩ cloneVT) (⟨vec 7 [g1, badDrop] 4, cloneVT 7⟩, world 7 4) = (.panic y, (c', w')) ∧
    YHolds env (Slots.put slots3 3 (some (.vec c'))) w' (Slots.put vars3 3 (some (.vec 7 (.vec 7 [g1, g2] 4))))
      ⟨1, [.cloned 7 g2, .dropped 7 g1, .dropped 10 s1]⟩ := by
  obtain ⟨r, c', w', h1, h2, h3, -⟩ := C75_step (cfg := ⟨false⟩) (vt := cloneVT) (k := 3) cloneVT_drop vars3_holds rfl rfl
    dynView dynView_sized dynView_inRange
  rw [dynView_plain.1] at h2
  rw [dynView_plain.2] at h3
  cases r with
  | panic y => exact ⟨y, c', w', h1, h3⟩
  | ok _ => cases h2
  | ub => cases h2
  | abort => cases h2

open Ex in
example := C75_units (cfg := ⟨false⟩) (vt := cloneVT) (k := 3) cloneVT_drop lostVars_holds rfl rfl lostView
  (by simp only [lostView, VProg.Sized]; decide)

end Dync
