import Verif.PointersLemmas7
import Verif.Props.ViewProgs
/-!
# C76 Every access through a mutable view stays inside the view and is aligned
-/
namespace Dync
variable {U V : Type} {Γ : TyEnv U} {cfg : Cfg} {t : TyId} {es : List Bytes} {v : PtrView V} {m : Mem}

/-- A program on a view, run on addresses: it has the same outcome as on the bytes of the view, it leaves the same bytes
in the view and all other memory as it was. Everything it reads or writes lies in the view, at an address that is
aligned for the type of the access. This holds for all indices and ranges, in both build modes, also if offsets wrap
around. -/
theorem C76_view (O : v.Ok Γ t) (p : SProg) (hs : p.Sized Γ t) :
    (p.runAt Γ cfg v m).1 = (p.exec Γ cfg (v.contents m)).1 ∧
    v.contents (p.runAt Γ cfg v m).2 = (p.exec Γ cfg (v.contents m)).2 ∧
    (∀ a, ¬ (v.addr ≤ a ∧ a < v.addr + v.len) → (p.runAt Γ cfg v m).2.byte a = m.byte a) ∧
    ∃ l, (p.runAt Γ cfg v m).2.log = m.log ++ l ∧ ∀ x ∈ l, x.Within v.addr v.len :=
  have H := p.ptr_sim (cfg := cfg) hs v O m
  ⟨H.res.symm, H.view.symm, H.frame, H.log⟩

/-- In terms of elements: the memory of the view holds what the program leaves in a plain slice of the elements. -/
theorem C76_elements (O : v.Ok Γ t) (p : SProg) (hs : p.Sized Γ t) (hr : p.InRange cfg (Γ.size t)) (R : SRepr Γ t es (v.contents m)) :
    (p.runAt Γ cfg v m).1.Agrees (p.plain t es).1 ∧
    (p.runAt Γ cfg v m).2.read v.addr v.len = (p.plain t es).2.flatten := by
  obtain ⟨h1, h2, -, -⟩ := C76_view (cfg := cfg) (m := m) O p hs
  obtain ⟨k1, k2, -, -⟩ := C74_view R p hs hr
  rw [h1]
  refine ⟨k1, ?_⟩
  rw [← k2.data, ← h2]
  rfl

/-- Through `as_mut_slice` of a container, for every allocator: the program on addresses has the outcome of the program
on the container, the block of the container then holds its new elements, all other blocks are as before, and every
access is aligned and lies in the elements of the container, so in its block. -/
theorem C76_container {c : VecCopy V} {w : World U} {base : Nat → Nat} {i : Nat} (R : Repr Γ w.heap t es c.data) (P : Placed w.heap base)
    (hi : c.data.ptr = some i) (hm : m.read (base i) c.data.mem.length = c.data.mem) (p : SProg) (hs : p.Sized Γ t) :
    (p.runAt Γ cfg (c.ptrView (base i)) m).1 = (VecCopy.asMutSlice (p.exec Γ cfg) (c, w)).1 ∧
    (p.runAt Γ cfg (c.ptrView (base i)) m).2.read (base i) c.data.mem.length = (VecCopy.asMutSlice (p.exec Γ cfg) (c, w)).2.1.data.mem ∧
    (∀ j l, j ≠ i → w.heap.live j = some l → (p.runAt Γ cfg (c.ptrView (base i)) m).2.read (base j) l.size = m.read (base j) l.size) ∧
    ∃ l, (p.runAt Γ cfg (c.ptrView (base i)) m).2.log = m.log ++ l ∧
      ∀ x ∈ l, x.Within (base i) (es.length * Γ.size t) ∧ ∃ b, w.heap.live i = some b ∧ x.Within (base i) b.size := by
  obtain ⟨i', hi', hb⟩ := R.block
  rw [hi] at hi'
  cases hi'
  have hml : c.data.mem.length = es.length * Γ.size t := by rw [R.mem, length_flatten_eq R.each]
  have hvl : (c.ptrView (base i)).len = es.length * Γ.size t := by
    show c.data.len * c.data.elem.numBytes = _
    rw [R.len, R.elem_eq, numBytes_new]
  have O : (c.ptrView (base i)).Ok Γ t := ⟨R.elem_eq, P.aligned i _ hb⟩
  have hcont : (c.ptrView (base i)).contents m = ⟨es.flatten, c.data.elem, c.vtable⟩ := by
    simp only [PtrView.contents, hvl]
    rw [← hml, ← R.mem, ← hm]
    simp only [VecCopy.ptrView, Mem.read_length]
  have hrun : VecCopy.asMutSlice (p.exec Γ cfg) (c, w) = ((p.exec Γ cfg ⟨es.flatten, c.data.elem, c.vtable⟩).1,
      ({ c with data := { c.data with mem := splice c.data.mem 0 (p.exec Γ cfg ⟨es.flatten, c.data.elem, c.vtable⟩).2.data } }, w)) := by
    simp only [VecCopy.asMutSlice, M.bind_run, getSelf_run, M.lift_run, R.bytes, SliceCopy.fromRawParts]
  have hcap : es.length * Γ.size t ≤ c.data.cap * Γ.size t := Nat.mul_le_mul_right _ (R.len ▸ R.len_le)
  obtain ⟨h1, h2, h3, l, h4, h5⟩ := C76_view (cfg := cfg) (m := m) O p hs
  rw [hcont] at h1 h2
  rw [hrun]
  refine ⟨h1, ?_, ?_, l, h4, fun x hx => ?_⟩
  · have e : (p.exec Γ cfg ⟨es.flatten, c.data.elem, c.vtable⟩).2.data = (p.runAt Γ cfg (c.ptrView (base i)) m).2.read (base i) c.data.mem.length := by
      rw [← h2]
      simp only [PtrView.contents, hvl, hml]
      rfl
    rw [e, splice_whole (by rw [Mem.read_length])]
  · intro j l hj hl
    refine Mem.read_congr fun a ha hb' => h3 a ?_
    rw [hvl]
    rcases P.apart i j _ _ (fun h => hj h.symm) hb hl with h | h
    · simp only at h
      show ¬ (base i ≤ a ∧ _)
      have : (c.ptrView (base i)).addr = base i := rfl
      omega
    · have : (c.ptrView (base i)).addr = base i := rfl
      omega
  · have W := h5 x hx
    rw [hvl] at W
    exact ⟨W, _, hb, W.mono (Nat.le_refl _) (by simp only; exact Nat.add_le_add_left hcap _)⟩

/-! ### Examples -/

namespace Ex

/-- Three elements of 4 bytes at address 64, other data around them. -/
def mem64 : Mem := ⟨fun a => if 64 ≤ a ∧ a < 76 then ([a1, a2, a3].flatten)[a - 64]?.getD none else some 9, []⟩
/-- The view of these elements. -/
def view64 : PtrView Unit := ⟨64, 12, ElemInfo.new env 2, ()⟩
theorem view64_ok : view64.Ok env 2 := ⟨rfl, by decide⟩
theorem view64_contents : view64.contents mem64 = ⟨[a1, a2, a3].flatten, ElemInfo.new env 2, ()⟩ := by
  simp only [PtrView.contents, view64, SliceCopy.mk.injEq, and_true]
  decide +kernel

/-- In release builds the offset of element `2^62` wraps to 0. -/
def wrapViewProg : SProg := .seq (.get (2 ^ 62)) (.sub (.inclusive 1 1) (.chunks 1 .iter))

theorem wrapViewProg_log : (wrapViewProg.runAt env ⟨false⟩ view64 mem64).2.log = [⟨64, 4, 4, false⟩] := by decide +kernel

end Ex

open Ex in
example := C76_view (cfg := ⟨false⟩) (m := mem64) view64_ok wrapViewProg (by simp [wrapViewProg, SProg.Sized])

open Ex in
example := C76_elements (cfg := ⟨false⟩) (m := mem64) (es := [a1, a2, a3]) view64_ok viewProg viewProg_sized viewProg_inRange
  (by rw [view64_contents]; exact ⟨rfl, by decide, rfl, by decide, by decide⟩)

open Ex in
/-- The program of C74 on the container in block 0, at address 64. -/
example := C76_container (cfg := ⟨false⟩) (m := mem64) (base := fun _ => 64) (i := 0) (w := world 2 4) c123_repr
  ⟨by intro i l h; simp only [world, oneHeap] at h; split at h <;> cases h; decide,
   by
    intro i j k l hij h1 h2
    simp only [world, oneHeap] at h1 h2
    split at h1
    · split at h2
      · omega
      · cases h2
    · cases h1⟩ rfl (by decide +kernel) viewProg viewProg_sized

end Dync
