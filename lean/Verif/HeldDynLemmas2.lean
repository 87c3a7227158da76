import Verif.HeldDynLemmas
/-!
# Programs that hold several views of non-`Copy` elements are programs on separate lists, continued
-/
namespace Dync
variable {U V α β : Type} [HasDrop U V] [HasClone U V] {Γ : TyEnv U} {cfg : Cfg} {n i : Nat} {m : Mem} {ρ : Nat → Option (PtrView V)}
  {σ : Lists} {t : TyId} {v : PtrView V} {es : List Bytes} {w : World U} {l : Nat} {vt : TyId → V}

omit [HasDrop U V] [HasClone U V] in
theorem keeps_swapRefs (H : HeldAt Γ n m ρ σ) {j a b : Nat} {v' : PtrView V} {t' : TyId} {fs : List Bytes} (hij : i ≠ j)
    (hv : ρ i = some v) (hw : ρ j = some v') (hs : σ i = some (t, es)) (hs' : σ j = some (t', fs)) (h1 : a < es.length) (h2 : b < fs.length) :
    HeldSim Γ n m ρ σ ((PtrView.swapRefs (v.at (v.addr + a * Γ.size t) (Γ.size t)) (v'.at (v'.addr + b * Γ.size t') (Γ.size t'))) m)
      (.ok (), if t = t' then Slots.put (Slots.put σ i (some (t, es.set a fs[b]))) j (some (t', fs.set b es[a])) else σ) := by
  obtain ⟨O, S⟩ := H.view _ _ _ _ hv hs
  obtain ⟨O', S'⟩ := H.view _ _ _ _ hw hs'
  have e1 : (v.at (v.addr + a * Γ.size t) (Γ.size t)).elem = ElemInfo.new Γ t := O.elem
  have e2 : (v'.at (v'.addr + b * Γ.size t') (Γ.size t')).elem = ElemInfo.new Γ t' := O'.elem
  unfold PtrView.swapRefs
  rw [e1, e2]
  by_cases ht : t = t'
  · subst ht
    rw [if_pos rfl, if_pos rfl]
    unfold PtrView.exchange
    rw [if_pos (show (v.at (v.addr + a * Γ.size t) (Γ.size t)).len = (v'.at (v'.addr + b * Γ.size t) (Γ.size t)).len from rfl)]
    refine HeldSim.next (keeps_load H hv (within_at S h1)) fun m1 H1 => ?_
    refine HeldSim.next (keeps_load H1 hw (within_at (H1.view _ _ _ _ hw hs').2 h2)) fun m2 H2 => ?_
    rw [read_elem S h1, read_elem (H1.view _ _ _ _ hw hs').2 h2]
    refine HeldSim.next (keeps_store H2 hv hs h1 (S'.each _ (List.getElem_mem h2))) fun m3 H3 => ?_
    exact keeps_store H3 hw (by simp only [Slots.put, if_neg (Ne.symm hij)]; exact hs') h2 (S.each _ (List.getElem_mem h1))
  · rw [if_neg (show ¬ (ElemInfo.new Γ t).type_id = (ElemInfo.new Γ t').type_id from ht), if_neg ht]
    exact HeldSim.stay H rfl

omit [HasDrop U V] in
theorem Tabled.shape {σ' : Lists} (T : Tabled (U := U) Γ ρ σ) (h : Dync.shape σ' = Dync.shape σ) : Tabled (U := U) Γ ρ σ' := by
  intro k v t es hv hs
  have e := congrFun h k
  simp only [Dync.shape, hs, Option.map_some] at e
  obtain ⟨⟨t', fs⟩, e1, e2⟩ := Option.map_eq_some_iff.1 e.symm
  simp only [Prod.mk.injEq] at e2
  obtain ⟨rfl, -⟩ := e2
  exact T k v t' fs hv e1

omit [HasDrop U V] in
theorem Tabled.opened {cs : List (PtrView V)} {parts : List (List Bytes)} (T : Tabled (U := U) Γ ρ σ) (hi : i < n) (hv : ρ i = some v)
    (hs : σ i = some (t, es)) (h : ∀ (c : Nat) (w : PtrView V) (fs : List Bytes), cs[c]? = some w → parts[c]? = some fs → w.vtable = v.vtable) :
    Tabled (U := U) Γ (Dync.opened ρ n i cs) (Dync.opened σ n i (parts.map fun es => (t, es))) := by
  intro k w t' fs h1 h2
  by_cases k1 : k = i
  · subst k1; rw [opened_self] at h1; cases h1
  · by_cases k2 : k < n
    · rw [opened_old k1 k2] at h1 h2; exact T k w t' fs h1 h2
    · obtain ⟨c, rfl⟩ : ∃ c, k = n + c := ⟨k - n, by omega⟩
      rw [opened_new hi] at h1 h2
      rw [List.getElem?_map] at h2
      obtain ⟨gs, hgs, e⟩ := Option.map_eq_some_iff.1 h2
      obtain ⟨rfl, rfl⟩ := Prod.mk.inj e
      rw [h c w gs h1 hgs]
      exact T i v t es hv hs

omit [HasDrop U V] [HasClone U V] in
theorem lend_nil {a : M (SliceCopy V × World U) α} {s : Mem × World U} : (do
    let _ ← v.lend a
    pure [] : M (Mem × World U) (List Read)) s = v.lend (do
      let _ ← a
      pure [] : M (SliceCopy V × World U) (List Read)) s := by
  rw [M.bind_nil]
  simp only [PtrView.lend]
  rw [M.bind_nil]

theorem KProg.sim (hd : ∀ t, LawfulDrop Γ t (vt t)) (p : KProg U) (hp : p.Sized Γ) : ∀ n m w l (ρ : Nat → Option (PtrView V)) σ,
    HeldAt Γ n m ρ σ → Tabled (U := U) Γ ρ σ → w.heap.WF → p.InRange Γ cfg n (Dync.shape σ) →
    KSim Γ n m w l ρ σ (p.runAt Γ cfg vt n ρ (m, w)) (p.plain Γ n (σ, ⟨l, w.user⟩)) := by
  induction p with
  | skip => intro n m w l ρ σ H _ wf _; exact KSim.stay H wf rfl
  | seq p q ihp ihq =>
    intro n m w l ρ σ H T wf hr
    refine KSim.bind wf (ihp hp.1 n m w l ρ σ H T wf hr.1) fun x m1 w1 l1 σ1 H1 wf1 hs => ?_
    refine KSim.bind wf1 (ihq hp.2 n m1 w1 l1 ρ σ1 H1 (T.shape hs) wf1 (by rw [hs]; exact hr.2)) fun y m2 w2 l2 σ2 H2 wf2 _ => ?_
    exact KSim.stay H2 wf2 rfl
  | on i p =>
    intro n m w l ρ σ H T wf hr
    simp only [KProg.runAt, KProg.plain]
    rcases H.cases i with ⟨h1, h2⟩ | ⟨v, t, es, h1, h2, O, S⟩
    · rw [h1, h2]; exact KSim.stay H wf rfl
    · rw [h1, h2]
      exact KSim.lend H T wf h1 h2 (p.sim hd hp (hr t es.length (shape_some h2)))
  | swapValues i a j b =>
    intro n m w l ρ σ H T wf hr
    simp only [KProg.runAt, KProg.plain]
    by_cases hij : i = j
    · rw [if_pos hij, if_pos hij]; exact KSim.stay H wf rfl
    · rw [if_neg hij, if_neg hij]
      rcases H.cases i with ⟨h1, h2⟩ | ⟨v, t, es, h1, h2, O, S⟩
      · rw [h1, h2]; exact KSim.stay H wf rfl
      · rcases H.cases j with ⟨g1, g2⟩ | ⟨v', t', fs, g1, g2, O', S'⟩
        · rw [h1, h2, g1, g2]; exact KSim.stay H wf rfl
        · rw [h1, h2, g1, g2]
          have X := keeps_elems (cfg := cfg) H h1 g1 h2 g2 (hr.1 t _ (shape_some h2)) (hr.2 t' _ (shape_some g2))
            (k := fun e f => do e.swapRefs f; pure ([] : List Read)) fun h =>
            HeldSim.next (keeps_swapRefs H hij h1 g1 h2 g2 h.1 h.2) fun m1 H1 => HeldSim.stay H1 (show Res.Agrees (.ok []) (.ok []) from rfl)
          have Y := KSim.onFst (l := l) wf X
          simp only
          split
          · rename_i h
            rw [dif_pos h] at Y
            exact Y
          · rename_i h
            rw [dif_neg h] at Y
            exact Y
  | cloneValue i a j b =>
    intro n m w l ρ σ H T wf hr
    simp only [KProg.runAt, KProg.plain, PtrView.cloneValue]
    by_cases hij : i = j
    · rw [if_pos hij, if_pos hij]; exact KSim.stay H wf rfl
    · rw [if_neg hij, if_neg hij]
      rcases H.cases i with ⟨h1, h2⟩ | ⟨v, t, es, h1, h2, O, S⟩
      · rw [h1, h2]; exact KSim.stay H wf rfl
      · rcases H.cases j with ⟨g1, g2⟩ | ⟨v', t', fs, g1, g2, O', S'⟩
        · rw [h1, h2, g1, g2]; exact KSim.stay H wf rfl
        · rw [h1, h2, g1, g2]
          simp only
          by_cases hb : b < fs.length
          · rw [dif_pos hb]
            have e := elemAt_in (cfg := cfg) S' hb
            rw [M.bind_ok (show SProg.onFst (v'.elemAt cfg b) (m, w) = (.ok (v'.at (v'.addr + b * Γ.size t') (Γ.size t')), (m, w)) by
              simp only [SProg.onFst, M.zoom_run, e])]
            have ev : (v'.at (v'.addr + b * Γ.size t') (Γ.size t')).value fs[b] = ⟨fs[b], t', Γ.align t', v'.vtable⟩ := by
              simp only [PtrView.value, O'.elem]
              rfl
            have hal : (v'.at (v'.addr + b * Γ.size t') (Γ.size t')).elem.alignment ∣ v'.addr + b * Γ.size t' := by
              rw [show (v'.at (v'.addr + b * Γ.size t') (Γ.size t')).elem = ElemInfo.new Γ t' from O'.elem]
              exact (Nat.dvd_add_right O'.aligned).2 (Nat.dvd_mul_left_of_dvd (Γ.align_dvd t') b)
            have hwi := within_at S' hb
            refine KSim.after wf (x := fs[b]) (by rw [← read_elem S' hb]; exact keeps_load H g1 ⟨hwi.lower, hwi.upper, hal⟩) fun m1 H1 => ?_
            rw [ev]
            have K := KSim.lend (l := l) H1 T wf h1 h2 (sim_cloneFrom (V := V) (vt := fun _ => v'.vtable) (cfg := cfg) (i := a)
              (S'.each _ (List.getElem_mem hb)) (hr.1 t _ (shape_some h2)))
            rw [lend_nil]
            exact K
          · obtain ⟨y, e⟩ := elemAt_out S' (Nat.le_of_not_lt hb) (hr.2 t' _ (shape_some g2))
            rw [dif_neg hb, M.bind_panic (show SProg.onFst (v'.elemAt cfg b) (m, w) = (.panic y, (m, w)) by
              simp only [SProg.onFst, M.zoom_run, e])]
            exact KSim.stay H wf trivial
  | cloneSlice i j t1 =>
    intro n m w l ρ σ H T wf hr
    simp only [KProg.runAt, KProg.plain, PtrView.cloneSlice]
    by_cases hij : i = j
    · rw [if_pos hij, if_pos hij]; exact KSim.stay H wf rfl
    · rw [if_neg hij, if_neg hij]
      rcases H.cases i with ⟨h1, h2⟩ | ⟨v, t, es, h1, h2, O, S⟩
      · rw [h1, h2]; exact KSim.stay H wf rfl
      · rcases H.cases j with ⟨g1, g2⟩ | ⟨v', t', fs, g1, g2, O', S'⟩
        · rw [h1, h2, g1, g2]; exact KSim.stay H wf rfl
        · rw [h1, h2, g1, g2]
          have hal : v'.elem.alignment ∣ v'.addr := by rw [O'.elem]; exact O'.aligned
          refine KSim.after wf (x := m.read v'.addr v'.len) (keeps_load H g1 ⟨Nat.le_refl _, Nat.le_refl _, hal⟩) fun m1 H1 => ?_
          simp only
          by_cases ht : t1 = t'
          · subst ht
            rw [if_pos rfl, M.bind_ok (show (⟨m.read v'.addr v'.len, v'.elem, v'.vtable⟩ : SliceCopy V).asSlice Γ cfg t1 (m1, w) =
              (.ok (some fs), (m1, w)) from S'.asSlice (cfg := cfg) (m1, w))]
            simp only
            rw [lend_nil]
            exact KSim.lend (l := l) H1 T wf h1 h2 (sim_cloneFromSlice (V := V) (vt := vt) (cfg := cfg))
          · rw [if_neg ht]
            have e : SliceCopy.asSlice Γ cfg t1 (v'.contents m) (m1, w) = (.ok none, (m1, w)) := by
              simp only [SliceCopy.asSlice, S'.check, if_neg ht, M.pure_run]
            rw [M.bind_ok (show (⟨m.read v'.addr v'.len, v'.elem, v'.vtable⟩ : SliceCopy V).asSlice Γ cfg t1 (m1, w) = _ from e)]
            exact KSim.stay H1 wf rfl
  | cut i c q ih =>
    intro n m w l ρ σ H T wf hr
    simp only [KProg.runAt, KProg.plain]
    rcases H.cases i with ⟨h1, h2⟩ | ⟨v, t, es, h1, h2, O, S⟩
    · rw [h1, h2]; exact KSim.stay H wf rfl
    · rw [h1, h2]
      simp only
      obtain ⟨hr1, hr2⟩ := hr t es.length (shape_some h2)
      rcases c.parts_sim O S hr1 with ⟨e, y, e'⟩ | ⟨pre, parts, post, cs, e, e', hl, L, hw⟩
      · rw [e, M.bind_panic (show SProg.onFst (c.parts cfg v) (m, w) = (.panic y, (m, w)) by simp only [SProg.onFst, M.zoom_run, e'])]
        exact KSim.stay H wf trivial
      · rw [e, M.bind_ok (show SProg.onFst (c.parts cfg v) (m, w) = (.ok cs, (m, w)) by simp only [SProg.onFst, M.zoom_run, e'])]
        simp only
        have hi : i < n := Nat.lt_of_not_le fun h => by rw [H.fresh i h] at h1; cases h1
        have hj := c.plain_join e
        have hz := hr2 _ (c.sizes_plain e)
        rw [hl]
        subst hj
        refine KSim.parts H h1 h2 hl L (fun c w es a b => ⟨(hw c w es a b).1, (hw c w es a b).2.1⟩) fun H' => ?_
        refine ih hp _ _ _ _ _ _ H' (T.opened hi h1 h2 fun c w es a b => (hw c w es a b).2.2) wf ?_
        rw [shape_opened]
        simpa [List.map_map, Function.comp_def] using hz

end Dync
