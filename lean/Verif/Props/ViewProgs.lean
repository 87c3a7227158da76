import Verif.ViewLemmas
import Verif.Props.Machine
/-!
# C74 Programs on mutable views do what the same programs do on plain slices
-/
namespace Dync
variable {U V : Type} {Γ : TyEnv U} {cfg : Cfg} {t : TyId} {es : List Bytes} {s : SliceCopy V}

/-- A program on an untyped mutable view does what it does on the plain slice of the elements: it returns the same
reads or it panics like it, and it leaves the same elements behind, also if it panics half way. -/
theorem C74_view (R : SRepr Γ t es s) (p : SProg) (hs : p.Sized Γ t) (hr : p.InRange cfg (Γ.size t)) :
    ((p.exec Γ cfg s).1).Agrees (p.plain t es).1 ∧ SRepr Γ t (p.plain t es).2 (p.exec Γ cfg s).2 ∧
      (p.plain t es).2.length = es.length ∧ (p.exec Γ cfg s).2.vtable = s.vtable := p.sim hs hr es s R

/-- The same through `as_mut_slice` of a container: its buffer and its capacity stay, no memory is allocated or freed. -/
theorem C74_container {c : VecCopy V} {w : World U} (R : Repr Γ w.heap t es c.data) (wf : w.heap.WF) (p : SProg)
    (hs : p.Sized Γ t) (hr : p.InRange cfg (Γ.size t)) :
    ∃ r d, VecCopy.asMutSlice (p.exec Γ cfg) (c, w) = (r, ({ c with data := d }, w)) ∧ r.Agrees (p.plain t es).1 ∧
      Repr Γ w.heap t (p.plain t es).2 d ∧ d.ptr = c.data.ptr ∧ d.cap = c.data.cap := by
  obtain ⟨s, hS, hvt, hrun⟩ := VecCopy.asMutSlice_run R (p.exec Γ cfg)
  obtain ⟨h1, h2, h3, h4⟩ := C74_view hS p hs hr
  obtain ⟨d, hd, E⟩ := VecCopy.asMutSlice_ok R wf (m := p.exec Γ cfg) (r := (p.exec Γ cfg s).1) h2.each h3 (by
    intro s' hS' hvt'
    have : s' = s := by rw [hS'.eq_mk, hS.eq_mk, hvt, hvt']
    rw [this]
    exact ⟨rfl, h2.data⟩)
  exact ⟨_, d, hd, h1, E.repr, (E.stay (Nat.zero_le _)).1, (E.stay (Nat.zero_le _)).2.1⟩

/-- Interleaved with any other operations: after a program on a view of a variable, the variables are again as the
machine of C70 says, with the new elements in that variable and nothing else changed. -/
theorem C74_step {x : XState} {slots : Slots V} {w : World U} {vt : V} {k cap : Nat} (H : x.Holds Γ slots w.heap)
    (hk : x.var k = some (.vec t es cap)) (p : SProg) (hs : p.Sized Γ t) (hr : p.InRange cfg (Γ.size t)) :
    ∃ r slots', (POp.view k p).exec Γ cfg vt (slots, w) = (r, (slots', w)) ∧ r.Agrees (p.plain t es).1 ∧
      XState.Holds Γ slots' w.heap ⟨Slots.put x.var k (some (.vec t (p.plain t es).2 cap)), x.leaked⟩ := by
  obtain ⟨L, hL, O⟩ := H.owned
  obtain ⟨c, hc, I⟩ := O.lookup' hk
  obtain ⟨r, d, h1, h2, h3, h4, h5⟩ := C74_container I.1 H.wf p hs hr
  have hm : Moves w.heap c.data.ptr w.heap d.ptr false := by rw [h4]; exact Realloc.refl H.wf _
  obtain ⟨L', hL', O'⟩ := O.update (y := .vec t (p.plain t es).2 cap) hc ⟨h3, h5.trans I.2⟩ hm c.vtable
  have := O'.holds
  rw [hL', hL] at this
  refine ⟨r, _, ?_, h2, this⟩
  simp only [POp.exec, hc, h1]

/-! ### Examples -/

namespace Ex

/-- Exchange the ends; exchange and read the elements of every whole pair; write one element on the left and read one
on the right of a cut; then read out of range. -/
def viewProg : SProg :=
  .seq (.swap 0 2) (.seq (.chunks 2 (.seq (.rotateLeft 1) .iter))
    (.seq (.split 1 (.setAs 2 0 a1) (.sub (.rangeFrom 1) (.getAs 2 0))) (.get 7)))

theorem viewProg_plain : viewProg.plain 2 [a1, a2, a3] = (.panic .index, [a1, a3, a1]) := by decide +kernel
theorem viewProg_sized : viewProg.Sized env 2 := by simp [viewProg, SProg.Sized, env, size, a1]
theorem viewProg_inRange : viewProg.InRange ⟨false⟩ (env.size 2) := by
  simp only [viewProg, SProg.InRange, NoWrap, Rng.halfOpen]; decide

end Ex

open Ex in
example := C74_view (cfg := ⟨false⟩) s123_repr viewProg viewProg_sized viewProg_inRange

open Ex in
example := C74_container (cfg := ⟨false⟩) (w := world 2 4) c123_repr (oneHeap_wf _) viewProg viewProg_sized viewProg_inRange

open Ex in
/-- The program panics, and leaves the container in variable 7 with the elements it had then. -/
example : ∃ y slots', (POp.view 7 viewProg).exec env ⟨false⟩ () (slots123, world 2 4) = (.panic y, (slots', world 2 4)) ∧
    XState.Holds env slots' (world 2 4).heap ⟨Slots.put m123.var 7 (some (.vec 2 [a1, a3, a1] 4)), 0⟩ := by
  obtain ⟨r, slots', h1, h2, h3⟩ := C74_step (cfg := ⟨false⟩) (vt := ()) (k := 7) m123_holds rfl viewProg viewProg_sized viewProg_inRange
  rw [viewProg_plain] at h2 h3
  cases r with
  | panic y => exact ⟨y, slots', h1, h3⟩
  | ok _ => cases h2
  | ub => cases h2
  | abort => cases h2

end Dync
