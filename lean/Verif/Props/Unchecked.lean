import Verif.UncheckedLemmas
import Verif.Props.Pointers
import Verif.Props.HeldViews
/-!
# C88: unchecked access and raw bytes

Used as documented, the `unsafe` accessors and the bytes of the raw parts behave like safe access to a list; outside of it, what
`get_unchecked_ref` reads is known exactly.
-/
namespace Dync
variable {U V : Type} {Γ : TyEnv U} {cfg : Cfg} {t s : TyId} {es : List Bytes} {m : Mem} {c : VecCopy V} {w : World U} {base : Nat → Nat} {i : Nat}

theorem container_view (R : Repr Γ w.heap t es c.data) (hm : m.read (base i) c.data.mem.length = c.data.mem) :
    SRepr Γ t es ((c.ptrView (base i)).contents m) := by
  have hml : c.data.mem.length = es.length * Γ.size t := by rw [R.mem, length_flatten_eq R.each]
  have hvl : (c.ptrView (base i)).len = es.length * Γ.size t := by
    show c.data.len * c.data.elem.numBytes = _
    rw [R.len, R.elem_eq, numBytes_new]
  refine ⟨?_, R.each, R.elem_eq, R.pos, ?_⟩
  · simp only [PtrView.contents, hvl]
    rw [← hml, ← R.mem, ← hm]
    simp only [VecCopy.ptrView, Mem.read_length]
  · have h := R.room
    unfold Room at h
    exact Nat.le_trans (Nat.mul_le_mul_right _ (R.len ▸ R.len_le)) (by omega)

/-- A program that keeps to the documented contract does what it does with a plain list of the elements, for every allocator. The
container then has the elements of this list, all other blocks are as before, and every access is aligned and lies in the elements
of the container, so in its block. -/
theorem C88_contract (R : Repr Γ w.heap t es c.data) (P : Placed w.heap base) (hi : c.data.ptr = some i)
    (hm : m.read (base i) c.data.mem.length = c.data.mem) (p : RawProg) (hp : p.Allowed Γ cfg t es.length) :
    (p.runAt Γ cfg c (base i) m).1.Agrees (p.plain t es).1 ∧
    Repr Γ w.heap t (p.plain t es).2 { c.data with mem := (p.runAt Γ cfg c (base i) m).2.read (base i) c.data.mem.length } ∧
    (∀ j l, j ≠ i → w.heap.live j = some l → (p.runAt Γ cfg c (base i) m).2.read (base j) l.size = m.read (base j) l.size) ∧
    ∃ l, (p.runAt Γ cfg c (base i) m).2.log = m.log ++ l ∧
      ∀ x ∈ l, x.Within (base i) (es.length * Γ.size t) ∧ ∃ b, w.heap.live i = some b ∧ x.Within (base i) b.size := by
  obtain ⟨i', hi', hb⟩ := R.block
  rw [hi] at hi'
  cases hi'
  have hml : c.data.mem.length = es.length * Γ.size t := by rw [R.mem, length_flatten_eq R.each]
  have hvl : (c.ptrView (base i)).len = es.length * Γ.size t := by
    show c.data.len * c.data.elem.numBytes = _
    rw [R.len, R.elem_eq, numBytes_new]
  have hcap : es.length * Γ.size t ≤ c.data.cap * Γ.size t := Nat.mul_le_mul_right _ (R.len ▸ R.len_le)
  have K := RawProg.sim (cfg := cfg) (c := c) R.pos R.elem_eq (P.aligned i _ hb) p m es (by rw [R.len]; exact hp) R.len.symm (container_view R hm)
  refine ⟨K.res, ⟨R.type_id, R.chunks, R.align, R.pos, ?_, K.view.each, by rw [K.length]; exact R.len, R.len_le, R.cap_pos, R.room, i, hi, hb⟩, ?_, ?_⟩
  · rw [hml, ← hvl]
    exact K.view.data
  · intro j l hj hl
    refine Mem.read_congr fun a ha hb' => K.frame a ?_
    rcases P.apart i j _ _ (fun h => hj h.symm) hb hl with h | h
    · simp only at h
      rintro ⟨h1, h2⟩
      rw [hvl] at h2
      have : (c.ptrView (base i)).addr = base i := rfl
      omega
    · rintro ⟨h1, h2⟩
      have : (c.ptrView (base i)).addr = base i := rfl
      omega
  · obtain ⟨l, e, hl⟩ := K.log
    refine ⟨l, e, fun x hx => ?_⟩
    have W := hl x hx
    rw [hvl] at W
    exact ⟨W, _, hb, W.mono (Nat.le_refl _) (by simp only; exact Nat.add_le_add_left hcap _)⟩

/-- `get_unchecked_ref::<S>(i)` reads a single chunk of the size of `S`, with whatever type. The access lies in the elements and is
aligned exactly if the `i + 1` first chunks of this size fit into them and the buffer is aligned for `S`. Then what it reads
is chunk `i` of the bytes of all elements. -/
theorem C88_unchecked_iff {k : Nat} (R : Repr Γ w.heap t es c.data) (hm : m.read (base i) c.data.mem.length = c.data.mem) :
    ∃ bs a, (RawProg.getUnchecked s k).runAt Γ cfg c (base i) m = (.ok [(s, bs)], { m with log := m.log ++ [a] }) ∧
      (a.Within (base i) (es.length * Γ.size t) ↔ (k + 1) * Γ.size s ≤ es.length * Γ.size t ∧ Γ.align s ∣ base i) ∧
      ((k + 1) * Γ.size s ≤ es.length * Γ.size t → bs = (es.flatten.drop (k * Γ.size s)).take (Γ.size s)) := by
  have hs : (k + 1) * Γ.size s = k * Γ.size s + Γ.size s := Nat.succ_mul _ _
  refine ⟨_, _, rfl, ⟨fun h => ⟨?_, ?_⟩, fun h => ⟨by simp, by have := h.1; simp only; omega, ?_⟩⟩, fun h => ?_⟩
  · have := h.upper
    simp only at this
    omega
  · exact (Nat.dvd_add_left (Nat.dvd_mul_left_of_dvd (Γ.align_dvd s) k)).1 h.aligned
  · exact (Nat.dvd_add_left (Nat.dvd_mul_left_of_dvd (Γ.align_dvd s) k)).2 h.2
  · rw [← R.mem, ← hm, Mem.read_drop_take]
    rw [R.mem, length_flatten_eq R.each]
    omega

/-- The allocator promises the alignment of the elements only, so reading as an `S` within the elements is aligned wherever the buffer
is exactly if the alignment of `S` divides that of the elements. -/
theorem C88_unchecked_any_allocator {k : Nat} :
    (∀ b, Γ.align t ∣ b → Γ.align s ∣ b + k * Γ.size s) ↔ Γ.align s ∣ Γ.align t := by
  have hd : Γ.align s ∣ k * Γ.size s := Nat.dvd_mul_left_of_dvd (Γ.align_dvd s) k
  exact ⟨fun h => (Nat.dvd_add_left hd).1 (h _ (Nat.dvd_refl _)), fun h b hb => Nat.dvd_add (Nat.dvd_trans h hb) hd⟩

namespace Ex

/-- On `[1, 2, 3]`: read the second element unchecked, write the first one, change the bytes of the third one, exchange the first two
through a view, and read all bytes. -/
def rawProg : RawProg :=
  .seq (.getUnchecked 2 1) (.seq (.changeUnchecked 2 0 fun _ => a3) (.seq (.changeBytes 2 fun _ => a1) (.seq (.view (.swap 0 1)) (.seq .byteChunks
    (.seq (.changeChunks fun b => if b = a3 then a2 else b) (.getBytes 7))))))

theorem rawProg_allowed : rawProg.Allowed env ⟨false⟩ 2 3 := by
  refine ⟨⟨rfl, by decide⟩, ⟨rfl, by decide, fun _ _ => rfl⟩, ⟨.inr (by decide), fun _ _ => rfl⟩, ?_, trivial, fun b hb => ?_, .inr (by decide)⟩
  · simp [RawProg.Allowed, SProg.Sized, SProg.InRange, NoWrap, env, size, usizeMax]
  · simp only
    split
    · rfl
    · exact hb

/-- It ends with the panic of `get_bytes(7)`. -/
theorem rawProg_plain : rawProg.plain 2 [a1, a2, a3] = (.panic .index, [a2, a2, a1]) := by decide +kernel

theorem heldVecs_read : heldMem.read 64 12 = (heldVecs 0).data.mem := by decide +kernel

end Ex

open Ex in
example : Repr env heldWorld.heap 2 [a2, a2, a1] { (heldVecs 0).data with mem := (rawProg.runAt env ⟨false⟩ (heldVecs 0) 64 heldMem).2.read 64 12 } := by
  obtain ⟨t, es, h, R, -, -⟩ := heldVecs_ok 0 (by decide)
  cases h
  have h := (C88_contract (i := 0) (w := heldWorld) (cfg := ⟨false⟩) R heldPlaced rfl heldVecs_read rawProg rawProg_allowed).2.1
  rw [rawProg_plain] at h
  exact h

open Ex in
/-- Three `u32` read as a `[u8; 3]`: chunk 1 are the bytes 3 to 5, and this is aligned. -/
example : ∃ bs a, (RawProg.getUnchecked 3 1).runAt env ⟨false⟩ (heldVecs 0) 64 heldMem = (.ok [(3, bs)], { heldMem with log := heldMem.log ++ [a] }) ∧
    (a.Within 64 12 ↔ 2 * size 3 ≤ 12 ∧ env.align 3 ∣ 64) ∧ (2 * size 3 ≤ 12 → bs = ([a1, a2, a3].flatten.drop (1 * size 3)).take (size 3)) := by
  obtain ⟨t, es, h, R, -, -⟩ := heldVecs_ok 0 (by decide)
  cases h
  exact C88_unchecked_iff (i := 0) (w := heldWorld) (base := heldBase) (s := 3) (k := 1) R heldVecs_read

open Ex in
/-- `u64` in a buffer of `u32` is not aligned for every allocator, the other way round it is. -/
example : ¬ (∀ b, env.align 2 ∣ b → env.align 7 ∣ b + 0 * env.size 7) ∧ (∀ b, env.align 7 ∣ b → env.align 2 ∣ b + 1 * env.size 2) :=
  ⟨fun h => absurd (C88_unchecked_any_allocator.1 h) (by decide), C88_unchecked_any_allocator.2 (by decide)⟩

end Dync
