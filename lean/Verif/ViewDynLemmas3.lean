import Verif.ViewDynLemmas2
/-!
# Programs on `SliceMut`: chunks, and whole programs
-/
namespace Dync
variable {U V β : Type} {Γ : TyEnv U} {cfg : Cfg} {t : TyId} {es : List Bytes} {s : SliceCopy V} {w : World U} [HasClone U V]

/-- The body of the loop over chunks. -/
def logChunk (p : M (SliceCopy V × World U) (List β)) : M (SliceCopy V × (World U × List β)) Unit := do
  let a ← VProg.besideLog p
  M.modify fun s => (s.1, (s.2.1, s.2.2 ++ a))

theorem logChunk_run (p : M (SliceCopy V × World U) (List β)) (s : SliceCopy V) (w : World U) (log : List β) :
    logChunk p (s, (w, log)) = ((p (s, w)).1.map fun _ => (), ((p (s, w)).2.1, ((p (s, w)).2.2,
      match (p (s, w)).1 with
      | .ok a => log ++ a
      | _ => log))) := by
  simp only [logChunk, M.bind_run, VProg.besideLog, M.zoom_run, M.modify_run]
  rcases p (s, w) with ⟨r, s', w'⟩
  cases r <;> rfl

/-- One piece after the other. -/
theorem visit_each {p : M (SliceCopy V × World U) (List β)} {b : M (List Bytes × Outside U) (List β)} (h : DViewSim Γ t p b)
    {e : ElemInfo} {vt : V} (hc : LawfulClone Γ t vt) {k : Nat} (cs : List (List Bytes))
    (hs : ∀ c : List Bytes, (∀ x ∈ c, x.length = Γ.size t) → c.length = k → SRepr Γ t c (⟨c.flatten, e, vt⟩ : SliceCopy V))
    (hcs : ∀ c ∈ cs, (∀ x ∈ c, x.length = Γ.size t) ∧ c.length = k) (w : World U) (wf : w.heap.WF) (n : Nat) (log : List β) :
    let A := visitMut (logChunk p) (cs.map fun c : List Bytes => (⟨c.flatten, e, vt⟩ : SliceCopy V)) (w, log)
    let B := Plain.each b cs ⟨n, w.user⟩
    A.2.1 = B.2.1.map (fun c : List Bytes => (⟨c.flatten, e, vt⟩ : SliceCopy V)) ∧
    (A.1.map fun _ => A.2.2.2).Alike (B.1.map fun as => log ++ as) ∧
    (∀ c ∈ B.2.1, (∀ x ∈ c, x.length = Γ.size t) ∧ c.length = k) ∧ B.2.1.length = cs.length ∧
    A.2.2.1.user = B.2.2.user ∧ Spills w.heap A.2.2.1.heap A.1 n B.2.2.leaked := by
  induction cs generalizing w n log with
  | nil => exact ⟨rfl, by simp [visitMut, Plain.each, Res.map, Res.Alike], by simp [Plain.each], rfl, rfl, Spills.refl wf _ _⟩
  | cons c cs ih =>
    have hc0 := hcs c (by simp)
    have R := hs c hc0.1 hc0.2
    have H := h c _ w n R wf hc
    rcases hA : p (⟨c.flatten, e, vt⟩, w) with ⟨r, s1, w1⟩
    rcases hB : b (c, ⟨n, w.user⟩) with ⟨r', c1, n1, u1⟩
    rw [hA, hB] at H
    have hel : e = ElemInfo.new Γ t := R.elem
    have hs1 : s1 = ⟨c1.flatten, e, vt⟩ := by
      have := H.repr.eq_mk
      have ht : s1.vtable = vt := H.table
      rw [show (r, s1, w1).2.1 = s1 from rfl, ht, ← hel] at this
      exact this
    have hc1 : (∀ x ∈ c1, x.length = Γ.size t) ∧ c1.length = k := ⟨H.repr.each, H.len.trans hc0.2⟩
    have hrest : ∀ c ∈ cs, (∀ x ∈ c, x.length = Γ.size t) ∧ c.length = k := fun c hc => hcs c (by simp [hc])
    have hstop : ∀ d ∈ c1 :: cs, (∀ x ∈ d, x.length = Γ.size t) ∧ d.length = k := by
      intro d hd
      rcases List.mem_cons.1 hd with rfl | hd
      · exact hc1
      · exact hrest d hd
    simp only [List.map_cons, visitMut, logChunk_run, hA, Plain.each, hB]
    rcases H.res.cases with ⟨x, e1, e2⟩ | ⟨y, z, e1, e2⟩ | ⟨e1, e2⟩ | ⟨e1, e2⟩
    · simp only at e1 e2
      subst e1 e2
      have hu : w1.user = u1 := H.user
      obtain ⟨k1, k2, k3, k4, k5, k6⟩ := ih hrest w1 H.heap.wf n1 (log ++ x)
      rw [hu] at k1 k2 k3 k4 k5 k6
      simp only [Res.map] at k2 ⊢
      refine ⟨by rw [k1, hs1]; rfl, ?_, ?_, by simp [k4], k5, Spills.trans wf H.heap rfl k6⟩
      · revert k2
        cases (Plain.each b cs ⟨n1, u1⟩).1 <;> simp only [Res.map, List.append_assoc] <;> exact id
      · intro d hd
        rcases List.mem_cons.1 hd with rfl | hd
        · exact hc1
        · exact k3 d hd
    all_goals
      simp only at e1 e2
      subst e1 e2
      simp only [Res.map]
      exact ⟨by rw [hs1]; rfl, trivial, hstop, by simp, H.user, H.heap.map (by simp)⟩

theorem DViewSim.chunks {k : Nat} {p : M (SliceCopy V × World U) (List β)} {b : M (List Bytes × Outside U) (List β)}
    (h : DViewSim Γ t p b) (hk : Γ.size t * k ≤ usizeMax) :
    DViewSim Γ t (M.zoom (fun s => (s.1, (s.2, []))) (fun a _ => (a.1, a.2.1)) (do
      SliceCopy.chunksExactMut cfg k (logChunk p)
      return (← M.get).2.2)) (Plain.chunks k b) := by
  intro es s w n R wf hc
  by_cases h0 : k = 0
  · subst h0
    simp only [M.zoom_run, M.bind_run, SliceCopy.chunksExactMut, M.get_run, R.numBytes, umul_ok hk, M.lift_run,
      Dync.chunksExact, Nat.mul_zero, if_true, Plain.chunks]
    exact Mirrors.panic R wf
  · have hk0 : 0 < k := by omega
    have hne : ¬ Γ.size t * k = 0 := by have := Nat.mul_pos R.pos hk0; omega
    have hcc : Dync.chunksExact (Γ.size t * k) s.data = .ok ((Dync.chunks k es).map List.flatten) := by
      rw [R.data, Dync.chunksExact, if_neg hne, chunks_flatten_group R.pos R.each]
    have hmap : ((Dync.chunks k es).map List.flatten).map (fun d => SliceCopy.fromRawParts d s.elem s.vtable) =
        (Dync.chunks k es).map (fun c : List Bytes => (⟨c.flatten, s.elem, s.vtable⟩ : SliceCopy V)) := by
      simp [SliceCopy.fromRawParts, Function.comp_def]
    have hcs : ∀ c ∈ Dync.chunks k es, (∀ x ∈ c, x.length = Γ.size t) ∧ c.length = k :=
      fun c hc => ⟨fun e he => R.each e (chunks_subset hc e he), chunks_each es c hc⟩
    have hpieces : (Dync.chunks k es) = pieces k es := chunks_eq_pieces hk0 es
    by_cases hle : k ≤ es.length
    · obtain ⟨k1, k2, k3, k4, k5, k6⟩ := visit_each h hc (e := s.elem) (k := k) (Dync.chunks k es)
        (fun c h1 h2 => R.mk' h1 (by omega)) hcs w wf n []
      rcases hV : visitMut (logChunk p) ((Dync.chunks k es).map (fun c : List Bytes => (⟨c.flatten, s.elem, s.vtable⟩ : SliceCopy V)))
        (w, []) with ⟨r, ss, w', log⟩
      rcases hE : Plain.each b (Dync.chunks k es) ⟨n, w.user⟩ with ⟨r', cs', n', u'⟩
      rw [hV, hE] at k1 k2
      rw [hE] at k3 k4
      rw [hV, hE] at k5
      rw [hV, hE] at k6
      simp only at k1 k2 k3 k4 k5 k6
      have hlen : cs'.flatten.length = es.length / k * k := by
        rw [length_flatten_eq (fun c hc => (k3 c hc).2), k4, chunks_length hk0]
      have heach : ∀ e ∈ cs'.flatten, e.length = Γ.size t := by
        intro e he
        obtain ⟨c, hc, he⟩ := List.mem_flatten.1 he
        exact (k3 c hc).1 e he
      have hdle := Nat.div_mul_le_self es.length k
      have hmm : (ss.map (·.data)).flatten = cs'.flatten.flatten := by
        rw [k1, List.map_map, List.flatten_flatten]; rfl
      have hsp : splice s.data 0 cs'.flatten.flatten = (cs'.flatten ++ es.drop (es.length / k * k)).flatten := by
        have := SRepr.splice_range (a := 0) (b := es.length / k * k) R.each heach (by rw [hlen]; simp) (Nat.zero_le _)
        rw [Nat.zero_mul] at this
        rw [R.data, this]; simp
      have hrep : SRepr Γ t (cs'.flatten ++ es.drop (es.length / k * k))
          ({ s with data := (cs'.flatten ++ es.drop (es.length / k * k)).flatten } : SliceCopy V) :=
        R.set_ok (sized_append heach (sized_drop R.each)) (by simp only [List.length_append, hlen, List.length_drop]; omega)
      have hl2 : (cs'.flatten ++ es.drop (es.length / k * k)).length = es.length := by
        simp only [List.length_append, hlen, List.length_drop]; omega
      simp only [M.zoom_run, M.bind_run, SliceCopy.chunksExactMut, M.get_run, R.numBytes, umul_ok hk, M.lift_run, hcc, hmap,
        Plain.chunks, if_neg h0, ← hpieces, hV, hE, hmm, hsp]
      rcases k2.cases with ⟨x, e1, e2⟩ | ⟨y, z, e1, e2⟩ | ⟨e1, e2⟩ | ⟨e1, e2⟩ <;> cases r <;> simp only [Res.map] at e1 <;>
        cases e1 <;> cases r' <;> simp only [Res.map, List.nil_append] at e2 <;> cases e2
      · exact ⟨rfl, hrep, hl2, rfl, k5, k6.map (by simp)⟩
      all_goals exact ⟨trivial, hrep, hl2, rfl, k5, k6.map (by simp)⟩
    · have hch : Dync.chunks k es = [] := by rw [Dync.chunks, dif_neg (by omega)]
      have hd0 : es.length / k = 0 := Nat.div_eq_of_lt (by omega)
      simp only [M.zoom_run, M.bind_run, SliceCopy.chunksExactMut, M.get_run, R.numBytes, umul_ok hk, M.lift_run, hcc, hmap,
        Plain.chunks, if_neg h0, ← hpieces, hch, List.map_nil, visitMut, Plain.each, List.flatten_nil, M.pure_run]
      have hsp : splice s.data 0 [] = s.data := by simp [splice]
      rw [hsp, hd0]
      simp only [Nat.zero_mul, List.drop_zero, List.nil_append]
      exact Mirrors.same R wf

theorem VProg.sim [HasDrop U V] {vt : TyId → V} (hd : ∀ t, LawfulDrop Γ t (vt t)) (p : VProg U) (hs : p.Sized Γ)
    (hr : p.InRange cfg (Γ.size t)) : DViewSim (V := V) Γ t (p.exec Γ cfg vt) (p.plain Γ t) := by
  induction p with
  | skip => exact DViewSim.pure _
  | seq p q ihp ihq => exact (ihp hs.1 hr.1).bind fun a => (ihq hs.2 hr.2).bind fun b => DViewSim.pure _
  | look l =>
    have : l.prog.Sized Γ t := by cases l <;> trivial
    exact DViewSim.look (l.prog.sim this hr)
  | setAs t' i x => exact sim_setAs hs
  | edit t' m => exact sim_edit hs
  | assign i t' x => exact sim_assign hs (hd t') hr
  | cloneFrom i t' x => exact sim_cloneFrom hs hr
  | cloneFromAll t' x => exact sim_cloneFromAll hs
  | cloneFromSlice t' xs => exact sim_cloneFromSlice
  | sub r p ih => exact (ih hs hr.2.2.2).sub hr.1 hr.2.1 hr.2.2.1
  | split mid p q ihp ihq => exact (ihp hs.1 hr.2.1).split (ihq hs.2 hr.2.2) hr.1
  | chunks k p ih => exact (ih hs hr.2).chunks hr.1

end Dync
