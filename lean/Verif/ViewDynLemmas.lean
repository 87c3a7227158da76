import Verif.ViewDynSpec
import Verif.ViewLemmas
import Verif.VecDynLemmas3
/-!
# Programs on `SliceMut`: simulation by programs on plain slices
-/
namespace Dync
variable {U V α β σ τ ρ : Type} {Γ : TyEnv U} {cfg : Cfg} {t : TyId} {es : List Bytes} {s : SliceCopy V} {w : World U} {n : Nat}

theorem Res.Alike.cases {a b : Res α} (h : a.Alike b) :
    (∃ x, a = .ok x ∧ b = .ok x) ∨ (∃ y z, a = .panic y ∧ b = .panic z) ∨ (a = .ub ∧ b = .ub) ∨ (a = .abort ∧ b = .abort) := by
  cases a <;> cases b <;> simp only [Res.Alike] at h
  · exact .inl ⟨_, rfl, by rw [h]⟩
  · exact .inr (.inl ⟨_, _, rfl, rfl⟩)
  · exact .inr (.inr (.inl ⟨rfl, rfl⟩))
  · exact .inr (.inr (.inr ⟨rfl, rfl⟩))

theorem Res.Alike.refl (a : Res α) : a.Alike a := by cases a <;> simp [Res.Alike]

theorem Res.Agrees.alike {a b : Res α} (h : a.Agrees b) : a.Alike b := by
  rcases h.cases with ⟨x, rfl, rfl⟩ | ⟨y, z, rfl, rfl⟩ <;> simp [Res.Alike]

/-- The heap got at most one more block, and none if the computation returned; the number of leaked blocks goes from `n`
to `n'`. -/
def Spills (h h' : Heap) (r : Res α) (n n' : Nat) : Prop :=
  ∃ p, Realloc h none h' p ∧ (∀ i, p = some i → h'.live i ≠ none) ∧ n' = n + p.toList.length ∧ ∀ x, r = .ok x → p = none

theorem Spills.refl {h : Heap} (wf : h.WF) (r : Res α) (n : Nat) : Spills h h r n n :=
  ⟨none, Realloc.refl wf none, nofun, rfl, fun _ _ => rfl⟩

theorem Spills.wf {h h' : Heap} {r : Res α} {n n' : Nat} (a : Spills h h' r n n') : h'.WF := by obtain ⟨p, a, -⟩ := a; exact a.wf

theorem Spills.map {h h' : Heap} {r : Res α} {r' : Res β} {n n' : Nat} (a : Spills h h' r n n')
    (hr : ∀ x, r' = .ok x → ∃ y, r = .ok y) : Spills h h' r' n n' := by
  obtain ⟨p, a, hl, hn, hp⟩ := a
  exact ⟨p, a, hl, hn, fun x hx => by obtain ⟨y, hy⟩ := hr x hx; exact hp y hy⟩

theorem Spills.trans {h h1 h2 : Heap} {r : Res α} {r' : Res β} {x : α} {n n1 n2 : Nat} (wf : h.WF) (a : Spills h h1 r n n1)
    (hr : r = .ok x) (b : Spills h1 h2 r' n1 n2) : Spills h h2 r' n n2 := by
  obtain ⟨p, a, -, hn, hp⟩ := a
  obtain ⟨q, b, hl, hm, hq⟩ := b
  cases hp x hr
  exact ⟨q, Realloc.trans wf (by simp) a b, hl, by rw [hm, hn]; rfl, hq⟩

/-- Outcome `A` on a view, outcome `B` on a plain slice. -/
structure Mirrors (Γ : TyEnv U) (t : TyId) (es : List Bytes) (s : SliceCopy V) (w : World U) (n : Nat)
    (A : Res α × (SliceCopy V × World U)) (B : Res α × (List Bytes × Outside U)) : Prop where
  res : A.1.Alike B.1
  repr : SRepr Γ t B.2.1 A.2.1
  len : B.2.1.length = es.length
  table : A.2.1.vtable = s.vtable
  user : A.2.2.user = B.2.2.user
  heap : Spills w.heap A.2.2.heap A.1 n B.2.2.leaked

/-- `a` on an untyped view does what `b` does on a plain slice. -/
def DViewSim [HasClone U V] (Γ : TyEnv U) (t : TyId) (a : M (SliceCopy V × World U) α) (b : M (List Bytes × Outside U) α) : Prop :=
  ∀ es s w n, SRepr Γ t es s → w.heap.WF → LawfulClone Γ t s.vtable → Mirrors Γ t es s w n (a (s, w)) (b (es, ⟨n, w.user⟩))

variable [HasClone U V]

theorem Mirrors.panic {y : Why} (R : SRepr Γ t es s) (wf : w.heap.WF) :
    Mirrors (α := α) Γ t es s w n (.panic y, (s, w)) (.panic .index, (es, ⟨n, w.user⟩)) :=
  ⟨trivial, R, rfl, rfl, rfl, Spills.refl wf _ _⟩

theorem Mirrors.same {x : α} (R : SRepr Γ t es s) (wf : w.heap.WF) :
    Mirrors Γ t es s w n (.ok x, (s, w)) (.ok x, (es, ⟨n, w.user⟩)) :=
  ⟨rfl, R, rfl, rfl, rfl, Spills.refl wf _ _⟩

theorem DViewSim.pure (x : α) : DViewSim (V := V) Γ t (pure x) (pure x) := fun _ _ _ _ R wf _ => Mirrors.same R wf

theorem DViewSim.bind {a : M (SliceCopy V × World U) α} {b : M (List Bytes × Outside U) α} {f : α → M (SliceCopy V × World U) β}
    {g : α → M (List Bytes × Outside U) β} (h : DViewSim Γ t a b) (hf : ∀ x, DViewSim Γ t (f x) (g x)) :
    DViewSim Γ t (a >>= f) (b >>= g) := by
  intro es s w n R wf hc
  have H := h es s w n R wf hc
  rcases hA : a (s, w) with ⟨r, s1, w1⟩
  rcases hB : b (es, ⟨n, w.user⟩) with ⟨r', es1, n1, u1⟩
  rw [hA, hB] at H
  simp only [M.bind_run, hA, hB]
  rcases H.res.cases with ⟨x, e1, e2⟩ | ⟨y, z, e1, e2⟩ | ⟨e1, e2⟩ | ⟨e1, e2⟩
  · simp only at e1 e2
    subst e1 e2
    have hu : w1.user = u1 := H.user
    have ht : s1.vtable = s.vtable := H.table
    have K := hf x es1 s1 w1 n1 H.repr H.heap.wf (by rw [ht]; exact hc)
    rw [hu] at K
    exact ⟨K.res, K.repr, K.len.trans H.len, K.table.trans H.table, K.user, Spills.trans wf H.heap rfl K.heap⟩
  all_goals
    simp only at e1 e2
    subst e1 e2
    exact ⟨trivial, H.repr, H.len, H.table, H.user, H.heap.map (by simp)⟩

theorem DViewSim.look {a : M (SliceCopy V) α} {b : M (List Bytes) α} (h : ViewSim Γ t a b) :
    DViewSim (V := V) Γ t (SProg.onFst a) (SProg.onFst b) := by
  intro es s w n R wf _
  obtain ⟨h1, h2, h3, h4⟩ := h es s R
  exact ⟨h1.alike, h2, h3, h4, rfl, Spills.refl wf _ _⟩

/-! ### Handing out parts together with the world -/

theorem M.share_run {f : M τ (Res α × ρ) → M σ (Res α × ρ)} {put : τ → σ} {v : τ} {x : σ} {r : ρ} {m : M (τ × ρ) α}
    (h : ∀ n, f n x = ((n v).1, put (n v).2)) :
    M.share f m (x, r) = ((m (v, r)).1, (put (m (v, r)).2.1, (m (v, r)).2.2)) := by
  simp only [M.share, h]

theorem M.share_panic {f : M τ (Res α × ρ) → M σ (Res α × ρ)} {x : σ} {r : ρ} {m : M (τ × ρ) α}
    (h : ∀ n, ∃ y, f n x = (.panic y, x)) : ∃ y, M.share f m (x, r) = (.panic y, (x, r)) := by
  obtain ⟨y, hy⟩ := h ⟨fun v => (.ok ((m (v, r)).1, (m (v, r)).2.2), (m (v, r)).2.1)⟩
  exact ⟨y, by simp only [M.share, hy]⟩

theorem DViewSim.sub {r : Rng} {a : M (SliceCopy V × World U) α} {b : M (List Bytes × Outside U) α} (h : DViewSim Γ t a b)
    (hr : r.halfOpen ∨ Γ.size t = 1) (hw : NoWrap cfg (r.lo * Γ.size t)) (hw' : NoWrap cfg (r.hi 0 * Γ.size t)) :
    DViewSim Γ t (M.share (SliceCopy.subsliceMut cfg r) a) ⟨fun s => Plain.part r.lo (r.hi s.1.length) b s⟩ := by
  intro es s w n R wf hc
  by_cases hin : r.lo ≤ r.hi es.length ∧ r.hi es.length ≤ es.length
  · have hR : SRepr Γ t ((es.take (r.hi es.length)).drop r.lo)
        (⟨((es.take (r.hi es.length)).drop r.lo).flatten, s.elem, s.vtable⟩ : SliceCopy V) :=
      R.mk' (sized_drop (sized_take R.each)) (by simp; omega)
    have H := h _ _ w n hR wf hc
    have hrun := M.share_run (r := w) (m := a) (fun m => R.subsliceMut_run (cfg := cfg) hr hin.1 hin.2 m)
      (put := fun v => { s with data := splice s.data (r.lo * Γ.size t) v.data })
    rw [hrun]
    simp only [Plain.part, if_pos hin]
    have hlen : (b ((es.take (r.hi es.length)).drop r.lo, ⟨n, w.user⟩)).2.1.length = r.hi es.length - r.lo := by
      rw [H.len]; simp; omega
    refine ⟨H.res, ?_, by simp only [List.length_append, hlen, List.length_take, List.length_drop]; omega, rfl, H.user, H.heap⟩
    simp only
    rw [H.repr.data, R.data, SRepr.splice_range R.each H.repr.each hlen hin.1]
    exact R.set_ok (sized_append (sized_append (sized_take R.each) H.repr.each) (sized_drop R.each)) (by simp [hlen]; omega)
  · obtain ⟨y, hy⟩ := M.share_panic (r := w) (m := a) (fun m =>
      R.subsliceMut_out (cfg := cfg) hr (by omega) hw (Rng.hi_nowrap R hw') m)
    rw [hy]
    simp only [Plain.part, if_neg hin]
    exact Mirrors.panic R wf

theorem DViewSim.split {mid : Nat} {p q : M (SliceCopy V × World U) (List β)} {p' q' : M (List Bytes × Outside U) (List β)}
    (hp : DViewSim Γ t p p') (hq : DViewSim Γ t q q') (hw : NoWrap cfg (mid * Γ.size t)) :
    DViewSim Γ t (M.share (SliceCopy.splitAtMut cfg mid) (do
        let a ← VProg.onLeft p
        let b ← VProg.onRight q
        Pure.pure (a ++ b))) (Plain.split mid p' q') := by
  intro es s w n R wf hc
  by_cases hin : mid ≤ es.length
  · have H := hp (es.take mid) ⟨(es.take mid).flatten, s.elem, s.vtable⟩ w n (R.mk' (sized_take R.each) (by simp; omega)) wf hc
    rw [M.share_run (fun m => R.splitAtMut hin m) (put := fun v => { s with data := v.1.data ++ v.2.data })]
    simp only [Plain.split, if_pos hin]
    rcases hA : p (⟨(es.take mid).flatten, s.elem, s.vtable⟩, w) with ⟨r, s1, w1⟩
    rcases hB : p' (es.take mid, ⟨n, w.user⟩) with ⟨r', es1, n1, u1⟩
    rw [hA, hB] at H
    simp only [M.bind_run, VProg.onLeft, VProg.onRight, M.zoom_run, hA]
    have hd : s1.data = es1.flatten := H.repr.data
    have hl1 : es1.length = mid := by have := H.len; simp at this; omega
    rcases H.res.cases with ⟨x, e1, e2⟩ | ⟨y, z, e1, e2⟩ | ⟨e1, e2⟩ | ⟨e1, e2⟩
    · simp only at e1 e2
      subst e1 e2
      have hu : w1.user = u1 := H.user
      have K := hq (es.drop mid) ⟨(es.drop mid).flatten, s.elem, s.vtable⟩ w1 n1 (R.mk' (sized_drop R.each) (by simp)) H.heap.wf hc
      rw [hu] at K
      simp only
      rcases hA' : q (⟨(es.drop mid).flatten, s.elem, s.vtable⟩, w1) with ⟨r2, s2, w2⟩
      rcases hB' : q' (es.drop mid, ⟨n1, u1⟩) with ⟨r2', es2, n2, u2⟩
      rw [hA', hB'] at K
      have hd2 : s2.data = es2.flatten := K.repr.data
      have hl2 : es2.length = es.length - mid := by have := K.len; simpa using this
      have hrep : SRepr Γ t (es1 ++ es2) ({ s with data := s1.data ++ s2.data } : SliceCopy V) := by
        rw [hd, hd2, ← List.flatten_append]
        exact R.set_ok (sized_append H.repr.each K.repr.each) (by simp; omega)
      rcases K.res.cases with ⟨x', f1, f2⟩ | ⟨y, z, f1, f2⟩ | ⟨f1, f2⟩ | ⟨f1, f2⟩
      · simp only at f1 f2
        subst f1 f2
        exact ⟨rfl, hrep, by simp; omega, rfl, K.user, (Spills.trans wf H.heap rfl K.heap).map (by simp)⟩
      all_goals
        simp only at f1 f2
        subst f1 f2
        exact ⟨trivial, hrep, by simp; omega, rfl, K.user, (Spills.trans wf H.heap rfl K.heap).map (by simp)⟩
    all_goals
      simp only at e1 e2
      subst e1 e2
      refine ⟨trivial, ?_, by simp; omega, rfl, H.user, H.heap.map (by simp)⟩
      simp only
      rw [hd, ← List.flatten_append]
      exact R.set_ok (sized_append H.repr.each (sized_drop R.each)) (by simp; omega)
  · obtain ⟨y, hy⟩ := M.share_panic (σ := SliceCopy V) (f := SliceCopy.splitAtMut cfg mid) (x := s) (r := w) (m := (do
        let a ← VProg.onLeft p
        let b ← VProg.onRight q
        Pure.pure (a ++ b) : M ((SliceCopy V × SliceCopy V) × World U) (List β))) (fun m => by
      have hle : ¬ mid * Γ.size t ≤ es.flatten.length := by
        rw [length_flatten_eq R.each]
        have := Nat.mul_lt_mul_of_pos_right (Nat.lt_of_not_le hin) R.pos; omega
      simp only [SliceCopy.splitAtMut, M.bind_run, M.get_run, R.numBytes]
      rcases umul_nowrap hw s with e | e
      · exact ⟨.assertion, by simp only [e, M.lift_run, R.data, sliceSplitAt, if_neg hle]⟩
      · exact ⟨.overflow, by simp only [e]⟩)
    rw [hy]
    simp only [Plain.split, if_neg hin]
    exact Mirrors.panic R wf

end Dync
