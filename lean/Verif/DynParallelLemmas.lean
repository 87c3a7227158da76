import Verif.DynParallelSpec
import Verif.HeldDynLemmas2
import Verif.ParallelLemmas3
/-!
# Threads on views of non-`Copy` elements, alone
-/
namespace Dync
variable {U V α β : Type} {Γ : TyEnv U} {cfg : Cfg} {n i : Nat} {m : Mem} {ρ sh : Nat → Option (PtrView V)} {σ σs : Lists} {t : TyId}
  {v : PtrView V} {es : List Bytes} {w : World U} {l : Nat} {vt : TyId → V}

theorem LeaksBlocks.refl {h : Heap} (wf : h.WF) (l : Nat) : LeaksBlocks h h l l := ⟨wf, Nat.le_refl _, [], List.nodup_nil, rfl, nofun, fun _ _ => rfl⟩

theorem LeaksBlocks.trans {h h1 h2 : Heap} {l l1 l2 : Nat} (a : LeaksBlocks h h1 l l1) (b : LeaksBlocks h1 h2 l1 l2) : LeaksBlocks h h2 l l2 := by
  obtain ⟨wf1, n1, p, d1, e1, f1, g1⟩ := a
  obtain ⟨wf2, n2, q, d2, e2, f2, g2⟩ := b
  have hd : ∀ x ∈ p, x ∉ q := fun x hx hq => (f1 x hx).2 (wf1 x (f2 x hq).1)
  refine ⟨wf2, Nat.le_trans n1 n2, p ++ q, ?_, by rw [e2, e1, List.length_append, Nat.add_assoc], fun i hi => ?_, fun i hi => ?_⟩
  · exact List.nodup_append.2 ⟨d1, d2, fun x hx y hy e => hd x hx (e ▸ hy)⟩
  · rcases List.mem_append.1 hi with hi | hi
    · exact ⟨(f1 i hi).1, by rw [g2 i (hd i hi)]; exact (f1 i hi).2⟩
    · exact ⟨Nat.le_trans n1 (f2 i hi).1, (f2 i hi).2⟩
  · rw [List.mem_append, not_or] at hi
    rw [g2 i hi.2, g1 i hi.1]

theorem Spills.leaksBlocks {h h' : Heap} {r : Res α} {l l' : Nat} (a : Spills h h' r l l') : LeaksBlocks h h' l l' := by
  obtain ⟨p, R, h1, h2, -⟩ := a
  refine ⟨R.wf, R.next_le, p.toList, ?_, h2, fun i hi => ?_, fun i hi => ?_⟩
  · cases p <;> simp
  · have e : p = some i := by cases p <;> simp at hi ⊢; exact hi.symm
    exact ⟨R.new_fresh (by rw [e]; simp) i e, h1 i e⟩
  · exact R.other i (by simp) fun e => hi (by rw [← e]; simp)

/-- What a thread does alone, compared with lists. -/
structure DTSim (Γ : TyEnv U) (n : Nat) (m : Mem) (w : World U) (l : Nat) (ρ sh : Nat → Option (PtrView V)) (σ : Lists)
    (R : Res α × (Mem × World U)) (P : Res α × (Lists × Outside U)) : Prop where
  res : R.1.Alike P.1
  mem : ThreadSim Γ n m ρ sh σ ((.ok (), R.2.1) : Res Unit × Mem) (.ok (), P.2.1)
  user : R.2.2.user = P.2.2.user
  heap : LeaksBlocks w.heap R.2.2.heap l P.2.2.leaked

theorem KSim.thread {R : Res α × (Mem × World U)} {P : Res α × (Lists × Outside U)} (h : KSim Γ n m w l ρ σ R P) :
    DTSim Γ n m w l ρ sh σ R P := ⟨h.res, h.mem.thread, h.user, h.heap.leaksBlocks⟩

theorem ThreadSim.then {R R' : Res Unit × Mem} {P P' : Res Unit × Lists} (h : ThreadSim Γ n m ρ sh σ R P)
    (h' : ThreadSim Γ n R.2 ρ sh P.2 R' P') : ThreadSim Γ n m ρ sh σ R' P' := by
  obtain ⟨l, el, hl⟩ := h.log
  obtain ⟨l', el', hl'⟩ := h'.log
  refine ⟨h'.res, h'.held, h'.shape.trans h.shape, fun x hx => (h'.frame x hx).trans (h.frame x hx), l ++ l', ?_, fun a ha => ?_⟩
  · rw [el', el, List.append_assoc]
  · exact (List.mem_append.1 ha).elim (hl a) (hl' a)

theorem DTSim.bind {a : M (Mem × World U) α} {b : M (Lists × Outside U) α} {f : α → M (Mem × World U) β}
    {g : α → M (Lists × Outside U) β} (h : DTSim Γ n m w l ρ sh σ (a (m, w)) (b (σ, ⟨l, w.user⟩)))
    (hf : ∀ x m1 w1 l1 σ1, (a (m, w)).2.1 = m1 → HeldAt Γ n m1 ρ σ1 → w1.heap.WF → Dync.shape σ1 = Dync.shape σ →
      DTSim Γ n m1 w1 l1 ρ sh σ1 (f x (m1, w1)) (g x (σ1, ⟨l1, w1.user⟩))) :
    DTSim Γ n m w l ρ sh σ ((a >>= f) (m, w)) ((b >>= g) (σ, ⟨l, w.user⟩)) := by
  rcases ha : a (m, w) with ⟨r, m1, w1⟩
  rcases hb : b (σ, ⟨l, w.user⟩) with ⟨s, σ1, o1⟩
  rw [ha, hb] at h
  have hr := h.res
  cases r with
  | ok x =>
    cases s with
    | ok y =>
      cases (show x = y from hr)
      rw [M.bind_ok ha, M.bind_ok hb]
      have hu : w1.user = o1.user := h.user
      have := hf x m1 w1 o1.leaked σ1 (by rw [ha]) h.mem.held h.heap.1 h.mem.shape
      rw [hu] at this
      exact ⟨this.res, h.mem.then this.mem, this.user, h.heap.trans this.heap⟩
    | _ => exact hr.elim
  | panic y =>
    cases s with
    | panic z => rw [M.bind_panic ha, M.bind_panic hb]; exact ⟨trivial, h.mem, h.user, h.heap⟩
    | _ => exact hr.elim
  | ub =>
    cases s with
    | ub => rw [M.bind_ub ha, M.bind_ub hb]; exact ⟨trivial, h.mem, h.user, h.heap⟩
    | _ => exact hr.elim
  | abort =>
    cases s with
    | abort => rw [M.bind_abort ha, M.bind_abort hb]; exact ⟨trivial, h.mem, h.user, h.heap⟩
    | _ => exact hr.elim

theorem DTSim.caught {a : M (Mem × World U) α} {b : M (Lists × Outside U) α} (h : DTSim Γ n m w l ρ sh σ (a (m, w)) (b (σ, ⟨l, w.user⟩))) :
    DTSim Γ n m w l ρ sh σ (a.caught (m, w)) (b.caught (σ, ⟨l, w.user⟩)) := by
  unfold M.caught
  rcases ha : a (m, w) with ⟨r, m1, w1⟩
  rcases hb : b (σ, ⟨l, w.user⟩) with ⟨s, σ1, o1⟩
  rw [ha, hb] at h
  have hr := h.res
  cases r with
  | ok x =>
    cases s with
    | ok y => simp only [ha, hb]; exact ⟨congrArg some hr, h.mem, h.user, h.heap⟩
    | _ => exact hr.elim
  | panic x =>
    cases s with
    | panic y => simp only [ha, hb]; exact ⟨rfl, h.mem, h.user, h.heap⟩
    | _ => exact hr.elim
  | ub =>
    cases s with
    | ub => simp only [ha, hb]; exact ⟨trivial, h.mem, h.user, h.heap⟩
    | _ => exact hr.elim
  | abort =>
    cases s with
    | abort => simp only [ha, hb]; exact ⟨trivial, h.mem, h.user, h.heap⟩
    | _ => exact hr.elim

theorem DTSim.stay (H : HeldAt Γ n m ρ σ) (wf : w.heap.WF) {r s : Res α} (h : r.Alike s) :
    DTSim Γ n m w l ρ sh σ (r, (m, w)) (s, (σ, ⟨l, w.user⟩)) := (KSim.stay H wf h).thread

/-- A read of a shared view, then `f`. -/
theorem DTSim.load (H : HeldAt Γ n m ρ σ) {k : Nat} {v' : PtrView V} (hk : sh k = some v') {a c al : Nat}
    (hw : Access.Within v'.addr v'.len ⟨a, c, al, false⟩) {f : Bytes → M (Mem × World U) β} {P : Res β × (Lists × Outside U)}
    (hf : ∀ m1 : Mem, m1.byte = m.byte → HeldAt Γ n m1 ρ σ → DTSim Γ n m1 w l ρ sh σ (f (m.read a c) (m1, w)) P) :
    DTSim Γ n m w l ρ sh σ ((SProg.onFst (Mem.load a c al) >>= f) (m, w)) P := by
  rw [M.bind_ok (show SProg.onFst (Mem.load a c al) (m, w) = (.ok (m.read a c), ({ m with log := m.log ++ [⟨a, c, al, false⟩] }, w)) from rfl)]
  have H1 : HeldAt Γ n { m with log := m.log ++ [⟨a, c, al, false⟩] } ρ σ := H.congr fun _ _ _ _ _ => rfl
  have K := hf { m with log := m.log ++ [⟨a, c, al, false⟩] } rfl H1
  have X : ThreadSim Γ n m ρ sh σ ((.ok (), { m with log := m.log ++ [⟨a, c, al, false⟩] }) : Res Unit × Mem) (.ok (), σ) :=
    ⟨rfl, H1, rfl, fun _ _ => rfl, [⟨a, c, al, false⟩], rfl, fun x hx => by
      rw [List.mem_singleton.1 hx]
      exact .inr ⟨rfl, k, v', hk, hw⟩⟩
  exact ⟨K.res, X.then K.mem, K.user, K.heap⟩

/-- Reading a shared view. -/
theorem lookAt_sim (H : HeldAt Γ n m ρ σ) (S : HeldAt Γ n m sh σs) (wf : w.heap.WF) {k : Nat} {p : SProg} (hp : p.Reads)
    (hr : ∀ t j, shape σs k = some (t, j) → p.InRange cfg (Γ.size t)) :
    DTSim Γ n m w l ρ sh σ (lookAt Γ cfg p (sh k) (m, w)) (lookPlain p (σs k) (σ, ⟨l, w.user⟩)) := by
  rcases S.cases k with ⟨h1, h2⟩ | ⟨v, t, es, h1, h2, -, -⟩
  · rw [h1, h2]; exact .stay H wf rfl
  · obtain ⟨K, -⟩ := look_sim (cfg := cfg) H S hp hr
    rw [h1, h2] at K
    rw [h1, h2]
    exact ⟨K.res.alike, ⟨rfl, K.held, K.shape, K.frame, K.log⟩, rfl, LeaksBlocks.refl wf l⟩

section
variable [HasDrop U V] [HasClone U V]

theorem cloneValueAt_sim (H : HeldAt Γ n m ρ σ) (T : Tabled (U := U) Γ ρ σ) (S : HeldAt Γ n m sh σs) (wf : w.heap.WF) {a k b : Nat}
    (h1 : ∀ t j, shape σ i = some (t, j) → NoWrap cfg ((a + 1) * Γ.size t)) (h2 : ∀ t j, shape σs k = some (t, j) → NoWrap cfg ((b + 1) * Γ.size t)) :
    DTSim Γ n m w l ρ sh σ (cloneAt (fun v w => v.cloneValue cfg a w b) (ρ i) (sh k) (m, w))
      (clonePlain i (fun t t' fs => if h : b < fs.length then (VProg.cloneFrom a t' fs[b]).plain Γ t else M.panic .index) (σs k)
        (σ, ⟨l, w.user⟩)) := by
  simp only [clonePlain]
  rcases H.cases i with ⟨e1, e2⟩ | ⟨v, t, es, e1, e2, -, -⟩
  · rw [e1, e2]; exact .stay H wf rfl
  rcases S.cases k with ⟨g1, g2⟩ | ⟨v', t', fs, g1, g2, O', S'⟩
  · rw [e1, e2, g1, g2]; exact .stay H wf rfl
  rw [e1, e2, g1, g2]
  simp only [cloneAt, PtrView.cloneValue]
  by_cases hb : b < fs.length
  · rw [dif_pos hb]
    have e := elemAt_in (cfg := cfg) S' hb
    rw [M.bind_ok (show SProg.onFst (v'.elemAt cfg b) (m, w) = (.ok (v'.at (v'.addr + b * Γ.size t') (Γ.size t')), (m, w)) by
      simp only [SProg.onFst, M.zoom_run, e])]
    have hal : (v'.at (v'.addr + b * Γ.size t') (Γ.size t')).elem.alignment ∣ v'.addr + b * Γ.size t' := by
      rw [show (v'.at (v'.addr + b * Γ.size t') (Γ.size t')).elem = ElemInfo.new Γ t' from O'.elem]
      exact (Nat.dvd_add_right O'.aligned).2 (Nat.dvd_mul_left_of_dvd (Γ.align_dvd t') b)
    have hwi := within_at S' hb
    refine DTSim.load (al := (v'.at (v'.addr + b * Γ.size t') (Γ.size t')).elem.alignment) H g1 ⟨?_, ?_, hal⟩ fun m1 _ H1 => ?_
    · exact hwi.lower
    · exact hwi.upper
    have ev : (v'.at (v'.addr + b * Γ.size t') (Γ.size t')).value (m.read (v'.at (v'.addr + b * Γ.size t') (Γ.size t')).addr
        (v'.at (v'.addr + b * Γ.size t') (Γ.size t')).len) = ⟨fs[b], t', Γ.align t', v'.vtable⟩ := by
      simp only [PtrView.value, read_elem S' hb, O'.elem]
      rfl
    rw [ev, lend_nil]
    exact (KSim.lend (l := l) H1 T wf e1 e2 (sim_cloneFrom (V := V) (vt := fun _ => v'.vtable) (cfg := cfg) (i := a)
      (S'.each _ (List.getElem_mem hb)) (h1 t _ (shape_some e2)))).thread
  · obtain ⟨y, e⟩ := elemAt_out S' (Nat.le_of_not_lt hb) (h2 t' _ (shape_some g2))
    rw [dif_neg hb, M.bind_panic (show SProg.onFst (v'.elemAt cfg b) (m, w) = (.panic y, (m, w)) by
      simp only [SProg.onFst, M.zoom_run, e])]
    have K : KSim Γ n m w l ρ σ ((.panic y, (m, w)) : Res (List Read) × _) (.panic .index, (σ, ⟨l, w.user⟩)) := KSim.stay H wf trivial
    have e : atList i t es (M.panic .index : M (List Bytes × Outside U) (List Read)) (σ, ⟨l, w.user⟩) = (.panic .index, (σ, ⟨l, w.user⟩)) := by
      simp only [atList, M.panic_run]
      congr 2
      funext j
      simp only [Slots.put]
      split
      · rename_i h; rw [h, e2]
      · rfl
    rw [e]
    exact K.thread

theorem cloneSliceAt_sim (H : HeldAt Γ n m ρ σ) (T : Tabled (U := U) Γ ρ σ) (S : HeldAt Γ n m sh σs) (wf : w.heap.WF) {k : Nat} {t1 : TyId} :
    DTSim Γ n m w l ρ sh σ (cloneAt (fun v w => v.cloneSlice Γ cfg t1 w) (ρ i) (sh k) (m, w))
      (clonePlain i (fun t t' fs => if t1 = t' then (VProg.cloneFromSlice t1 fs).plain Γ t else pure []) (σs k) (σ, ⟨l, w.user⟩)) := by
  simp only [clonePlain]
  rcases H.cases i with ⟨e1, e2⟩ | ⟨v, t, es, e1, e2, -, -⟩
  · rw [e1, e2]; exact .stay H wf rfl
  rcases S.cases k with ⟨g1, g2⟩ | ⟨v', t', fs, g1, g2, O', S'⟩
  · rw [e1, e2, g1, g2]; exact .stay H wf rfl
  rw [e1, e2, g1, g2]
  simp only [cloneAt, PtrView.cloneSlice]
  have hal : v'.elem.alignment ∣ v'.addr := by rw [O'.elem]; exact O'.aligned
  refine DTSim.load H g1 ⟨Nat.le_refl _, Nat.le_refl _, hal⟩ fun m1 _ H1 => ?_
  by_cases ht : t1 = t'
  · subst ht
    rw [if_pos rfl, M.bind_ok (show (⟨m.read v'.addr v'.len, v'.elem, v'.vtable⟩ : SliceCopy V).asSlice Γ cfg t1 (m1, w) =
      (.ok (some fs), (m1, w)) from S'.asSlice (cfg := cfg) (m1, w))]
    simp only
    rw [lend_nil]
    exact (KSim.lend (l := l) H1 T wf e1 e2 (sim_cloneFromSlice (V := V) (vt := fun _ => v.vtable) (cfg := cfg))).thread
  · rw [if_neg ht]
    have e : SliceCopy.asSlice Γ cfg t1 (v'.contents m) (m1, w) = (.ok none, (m1, w)) := by
      simp only [SliceCopy.asSlice, S'.check, if_neg ht, M.pure_run]
    rw [M.bind_ok (show (⟨m.read v'.addr v'.len, v'.elem, v'.vtable⟩ : SliceCopy V).asSlice Γ cfg t1 (m1, w) = _ from e)]
    have e' : atList i t es (pure [] : M (List Bytes × Outside U) (List Read)) (σ, ⟨l, w.user⟩) = (.ok [], (σ, ⟨l, w.user⟩)) := by
      simp only [atList, M.pure_run]
      congr 2
      funext j
      simp only [Slots.put]
      split
      · rename_i h; rw [h, e2]
      · rfl
    rw [e']
    exact .stay H1 wf rfl

/-- A thread alone does what it does with lists. -/
theorem DTProg.sim (hd : ∀ t, LawfulDrop Γ t (vt t)) (p : DTProg U) : ∀ {m : Mem} {w : World U} {l : Nat} {σ : Lists}, HeldAt Γ n m ρ σ →
    Tabled (U := U) Γ ρ σ → HeldAt Γ n m sh σs → w.heap.WF →
    (∀ i j v w, ρ i = some v → sh j = some w → ∀ x, ¬ (v.Covers x ∧ w.Covers x)) → p.Fits Γ cfg n (shape σ) (shape σs) →
    DTSim Γ n m w l ρ sh σ (p.runAt Γ cfg vt n ρ sh (m, w)) (p.plain Γ n σs (σ, ⟨l, w.user⟩)) := by
  have key : ∀ {c : M (Mem × World U) (List Read)} {d : M (Lists × Outside U) (List Read)} {next : Option (List Read) → DTProg U}
      (_ : ∀ o {m : Mem} {w : World U} {l : Nat} {σ : Lists}, HeldAt Γ n m ρ σ → Tabled (U := U) Γ ρ σ → HeldAt Γ n m sh σs → w.heap.WF →
        (∀ i j v w, ρ i = some v → sh j = some w → ∀ x, ¬ (v.Covers x ∧ w.Covers x)) → (next o).Fits Γ cfg n (shape σ) (shape σs) →
        DTSim Γ n m w l ρ sh σ ((next o).runAt Γ cfg vt n ρ sh (m, w)) ((next o).plain Γ n σs (σ, ⟨l, w.user⟩)))
      {m : Mem} {w : World U} {l : Nat} {σ : Lists} (_ : DTSim Γ n m w l ρ sh σ (c (m, w)) (d (σ, ⟨l, w.user⟩)))
      (_ : Tabled (U := U) Γ ρ σ) (_ : HeldAt Γ n m sh σs)
      (_ : ∀ i j v w, ρ i = some v → sh j = some w → ∀ x, ¬ (v.Covers x ∧ w.Covers x)) (_ : ∀ o, (next o).Fits Γ cfg n (shape σ) (shape σs)),
      DTSim Γ n m w l ρ sh σ ((do
        let o ← c.caught
        let os ← (next o).runAt Γ cfg vt n ρ sh
        pure (o :: os) : M (Mem × World U) (List (Option (List Read)))) (m, w)) ((do
        let o ← d.caught
        let os ← (next o).plain Γ n σs
        pure (o :: os) : M (Lists × Outside U) (List (Option (List Read)))) (σ, ⟨l, w.user⟩)) := by
    intro c d next ih m w l σ K T S A F
    refine DTSim.bind K.caught fun o m1 w1 l1 σ1 e1 H1 wf1 hs => ?_
    have S1 : HeldAt Γ n m1 sh σs := by
      refine S.congr fun k v hk x hx => ?_
      rw [← e1]
      exact K.caught.mem.frame x fun i w hi hw => A i k w v hi hk x ⟨hw, hx⟩
    refine DTSim.bind (ih o H1 (T.shape hs) S1 wf1 A (hs ▸ F o)) fun os m2 w2 l2 σ2 _ H2 wf2 _ => ?_
    exact .stay H2 wf2 rfl
  induction p with
  | stop => exact fun H _ _ wf _ _ => .stay H wf rfl
  | own p next ih =>
    intro m w l σ H T S wf A F
    exact key ih (p.sim (cfg := cfg) hd F.1 n m w l ρ σ H T wf F.2.1).thread T S A F.2.2
  | look k p next ih =>
    intro m w l σ H T S wf A F
    exact key ih (lookAt_sim (cfg := cfg) H S wf F.1 F.2.1) T S A F.2.2
  | cloneValue i a k b next ih =>
    intro m w l σ H T S wf A F
    exact key ih (cloneValueAt_sim (cfg := cfg) H T S wf F.1 F.2.1) T S A F.2.2
  | cloneSlice i k t next ih =>
    intro m w l σ H T S wf A F
    exact key ih (cloneSliceAt_sim (cfg := cfg) H T S wf) T S A F

end
end Dync
