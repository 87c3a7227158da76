import Verif.DynMachineLemmas7

/-! Operations of programs: the variables of the implementation and of the machine in step. -/

namespace Dync

section
variable {U V : Type} {Γ : TyEnv U} {t tb : TyId} {es : List Bytes} {w : World U} {o : Outside U} {cfg : Cfg}
  {F : Nat → Option Layout} {O : List Nat} {h : Heap} {n i k j : Nat} [HasDrop U V] [HasClone U V] [TableLaw V] {slots : DSlots V} {vars : YVars}

/-- A leaked block that is known is not leaked. -/
theorem Blocks.claim (B : Blocks F O h (n + 1)) (hi : h.live i ≠ none) (hF : F i = none) (hO : i ∉ O) : Blocks F (i :: O) h n := by
  obtain ⟨L, h1, h2, h3, h4⟩ := B.rest
  have hL : i ∈ L := by
    rcases h4 i hi with h5 | h5
    · exact absurd hF h5
    · rcases List.mem_append.1 h5 with h6 | h6
      · exact absurd h6 hO
      · exact h6
  have hp : (O ++ L).Perm (i :: O ++ L.erase i) := by
    refine (List.Perm.append_left O (List.perm_cons_erase hL)).trans ?_
    rw [List.cons_append]
    exact List.perm_middle
  refine ⟨B.wf, B.frame, L.erase i, by rw [List.length_erase_of_mem hL]; omega, hp.nodup_iff.1 h2, ?_, ?_⟩
  · exact fun j hj => h3 j (hp.mem_iff.2 hj)
  · exact fun j hj => (h4 j hj).imp_right hp.mem_iff.1

theorem Worlds.claim {p : Ptr} (W : Worlds F O w { o with leaked := o.leaked + p.toList.length })
    (hp : ∀ i, p = some i → w.heap.live i ≠ none ∧ F i = none ∧ i ∉ O) : Worlds F (p.toList ++ O) w o := by
  cases p with
  | none => exact W
  | some i =>
    obtain ⟨h1, h2, h3⟩ := hp i rfl
    exact ⟨W.user, W.blocks.claim h1 h2 h3⟩

/-- Take two variables out of the program, and put something back. -/
theorem YHolds.hole2 (H : YHolds Γ slots w vars o) (hkj : k ≠ j) :
    ∃ F, Worlds F ((varPtr (slots k)).toList ++ ((varPtr (slots j)).toList ++ [])) w o ∧
      ∀ (a a' : Option (Item V)) b b' w' o', Worlds F ((varPtr a).toList ++ ((varPtr a').toList ++ [])) w' o' → VarIs Γ w'.heap a b →
        VarIs Γ w'.heap a' b' →
        YHolds Γ (Slots.put (Slots.put slots k a) j a') w' (Slots.put (Slots.put vars k b) j b') o' := by
  obtain ⟨F1, W1, c1, f1⟩ := H.hole j
  have W1' : Worlds F1 ((varPtr (slots j)).toList ++ []) w o := by simpa using W1
  have H1 := f1 none none w _ W1'.leak trivial
  obtain ⟨F2, W2, c2, f2⟩ := H1.hole k
  rw [Slots.put_other _ _ hkj] at W2
  have hown : ∀ i, varPtr (slots j) = some i → ∃ a, slots j = some a ∧ a.ptr = some i := by
    intro i hi
    cases hj : slots j with
    | none => rw [hj] at hi; cases hi
    | some a => rw [hj] at hi; exact ⟨a, rfl, hi⟩
  have hown' : ∀ i, varPtr (slots k) = some i → ∃ a, slots k = some a ∧ a.ptr = some i := by
    intro i hi
    cases hj : slots k with
    | none => rw [hj] at hi; cases hi
    | some a => rw [hj] at hi; exact ⟨a, rfl, hi⟩
  refine ⟨F2, ?_, ?_⟩
  · have W3 : Worlds F2 ((varPtr (slots j)).toList ++ (varPtr (slots k)).toList) w o := by
      refine W2.claim fun i hi => ⟨(H.var j).live i hi, ?_, ?_⟩
      · refine Classical.byContradiction fun e => ?_
        obtain ⟨k', a, g1, g2, g3⟩ := (c2 i).1 e
        by_cases hk' : k' = j
        · subst hk'; rw [Slots.put_same] at g2; cases g2
        · rw [Slots.put_other _ _ hk'] at g2
          obtain ⟨a', g4, g5⟩ := hown i hi
          exact hk' (H.inj k' j a a' i g2 g4 g3 g5)
      · intro hm
        have hm : varPtr (slots k) = some i := by simpa using hm
        obtain ⟨a, g1, g2⟩ := hown' i hm
        obtain ⟨a', g3, g4⟩ := hown i hi
        exact hkj (H.inj k j a a' i g1 g3 g2 g4)
    simpa using W3.swap
  · intro a a' b b' w' o' W I I'
    have hdis : ∀ i, varPtr a' = some i → F2 i = none ∧ w'.heap.live i ≠ none ∧ varPtr a ≠ some i := by
      intro i hi
      obtain ⟨L, g1, g2, g3, g4⟩ := W.blocks.rest
      obtain ⟨g5, g6⟩ := g3 i (by simp [hi])
      refine ⟨g5, g6, fun e => ?_⟩
      rw [hi, e] at g2
      simp at g2
    have W4 : Worlds F2 (varPtr a).toList w' { o' with leaked := o'.leaked + (varPtr a').toList.length } := by
      have := W.rotate.leak
      simpa using this
    have H2 := f2 a b w' _ W4 I
    obtain ⟨F3, W5, c3, f3⟩ := H2.hole j
    rw [Slots.put_other _ _ hkj.symm, Slots.put_same] at W5
    have W6 : Worlds F3 ((varPtr a').toList ++ []) w' o' := by
      refine W5.claim fun i hi => ⟨(hdis i hi).2.1, ?_, by simp [varPtr]⟩
      refine Classical.byContradiction fun e => ?_
      obtain ⟨k', d, g1, g2, g3⟩ := (c3 i).1 e
      by_cases hk' : k' = k
      · subst hk'
        rw [Slots.put_same] at g2
        subst g2
        exact (hdis i hi).2.2 g3
      · rw [Slots.put_other _ _ hk'] at g2
        exact ((c2 i).2 ⟨k', d, hk', g2, g3⟩) (hdis i hi).1
    have := f3 a' b' w' o' (by simpa using W6) I'
    rw [Slots.put_comm _ _ _ hkj.symm, Slots.put_put, Slots.put_comm _ _ _ hkj.symm, Slots.put_put] at this
    exact this

/-- An operation in step. -/
abbrev InStepY (Γ : TyEnv U) (r : Res Obs × (DSlots V × World U)) (q : Res Obs × (YVars × Outside U)) : Prop :=
  InStep (fun a s b q => a = b ∧ YHolds Γ s.1 s.2 q.1 q.2) (fun s q => YHolds Γ s.1 s.2 q.1 q.2) r q

/-- Something that leaves the variables alone. -/
theorem YHolds.same (H : YHolds Γ slots w vars o) (a : Obs) : InStepY Γ (.ok a, (slots, w)) (.ok a, (vars, o)) := .ok ⟨rfl, H⟩

/-- Make something and assign it to a variable. -/
theorem ycreate_step {m : M (World U) (Item V)} {q : M (Outside U) YItem} (H : YHolds Γ slots w vars o)
    (hm : ∀ F O, Worlds F O w o → InStep (Makes Γ F O) (Worlds F O) (m w) (q o)) :
    InStepY Γ (DOp.create cfg k m (slots, w)) (YOp.create Γ k q (vars, o)) := by
  obtain ⟨F, W, -, fill⟩ := H.hole k
  have W' : Worlds F ((varPtr (slots k)).toList ++ []) w o := by simpa using W
  have hfree := W'.blocks.free_of
  refine InStep.bind (Q := fun a s b q => s.1 = slots ∧ q.1 = vars ∧
    Makes Γ (withBlock F (varPtr (slots k)) w.heap) [] a s.2 b q.2) (E := fun s q => YHolds Γ s.1 s.2 q.1 q.2) ?_ ?_ (fun _ _ h => h)
  · have hq := hm _ _ W'.toFrame
    simp only [onWorld_run, aside, M.zoom_run]
    have hpan : ∀ w' o', Worlds (withBlock F (varPtr (slots k)) w.heap) [] w' o' → YHolds Γ slots w' vars o' := by
      intro w' o' W2
      obtain ⟨W3, h3⟩ := W2.ofFrame hfree
      have := fill (slots k) (vars k) w' o' (by simpa using W3) ((H.var k).frame h3)
      rwa [Slots.put_self, Slots.put_self] at this
    rcases hr : q o with ⟨r, o'⟩
    rw [hr] at hq
    cases r with
    | ok b => obtain ⟨a, w', h1, h2⟩ := hq; rw [h1]; exact .ok ⟨rfl, rfl, h2⟩
    | panic y => obtain ⟨a, w', h1, h2⟩ := hq; rw [h1]; exact .panic (hpan _ _ h2)
    | ub => rcases h3 : m w with ⟨r', w'⟩; rw [h3] at hq; cases hq; exact .ub
    | abort => rcases h3 : m w with ⟨r', w'⟩; rw [h3] at hq; cases hq; exact .abort
  · rintro a ⟨s', w'⟩ b ⟨v', o'⟩ ⟨hs, hv, W2, I⟩
    simp only at hs hv W2 I
    subst s' v'
    obtain ⟨W3, h3⟩ := W2.ofFrame hfree
    have J := (H.var k).frame h3
    simp only [M.bind_run, DOp.putItem, YOp.assign]
    cases hk : slots k with
    | none =>
      rw [hk] at W3
      rw [(H.none_iff k).1 hk]
      exact .ok ⟨rfl, fill (some a) (some b) w' o' (by simpa [varPtr] using W3) I⟩
    | some old =>
      cases hv : vars k with
      | none => rw [(H.none_iff k).2 hv] at hk; cases hk
      | some old' =>
        rw [hk, hv] at J
        rw [hk] at W3
        have W4 := W3.rotate
        have hf4 := W4.blocks.free_of
        have hd := item_drop (cfg := cfg) W4.toFrame J
        have hend : ∀ w2 o', Worlds (withBlock F a.ptr w'.heap) [] w2 o' → YHolds Γ (Slots.put slots k (some a)) w2 (Slots.put vars k (some b)) o' := by
          intro w'' o'' W5
          obtain ⟨W6, h6⟩ := Worlds.ofFrame W5 hf4
          exact fill (some a) (some b) w'' o'' (by simpa [varPtr] using W6) (YItem.Is.frame I h6)
        simp only
        rcases hr : old'.drop Γ o' with ⟨r, o''⟩
        rw [hr] at hd
        cases r with
        | ok b => obtain ⟨a, w', h1, h2⟩ := hd; rw [h1]; exact .ok ⟨rfl, hend _ _ h2⟩
        | panic y => obtain ⟨a, w', h1, h2⟩ := hd; rw [h1]; exact .panic (hend _ _ h2)
        | ub => rcases h3 : old.drop cfg w' with ⟨r', w'⟩; rw [h3] at hd; cases hd; exact .ub
        | abort => rcases h3 : old.drop cfg w' with ⟨r', w'⟩; rw [h3] at hd; cases hd; exact .abort

/-- A method of the container in a variable. -/
theorem yonVec_step {m : M (VecDyn V × World U) Obs} {q : M (XVec × Outside U) Obs} (H : YHolds Γ slots w vars o)
    (hm : ∀ F O tb c x, slots k = some (.vec c) → Tab Γ tb c.vtable → 0 < Γ.size tb → ContIs Γ F O tb c.vtable (c, w) (x, o) →
      Method Γ F O tb c.vtable (m (c, w)) (q (x, o))) :
    InStepY Γ (DOp.onVec k m (slots, w)) (YOp.onVec k q (vars, o)) := by
  obtain ⟨F, W, -, fill⟩ := H.hole k
  have J := H.var k
  simp only [DOp.onVec, YOp.onVec]
  rcases hk : slots k with _ | a <;> rcases hv : vars k with _ | y <;> rw [hk, hv] at J
  · exact H.same _
  · exact J.elim
  · exact J.elim
  cases a with
  | box => cases y <;> try exact J.elim
           exact H.same _
  | small => cases y <;> try exact J.elim
             exact H.same _
  | vec c =>
    cases y with
    | box => exact J.elim
    | small => exact J.elim
    | vec tb x =>
      obtain ⟨h1, h2, h3, h4⟩ := J
      rw [hk] at W
      have hq := hm F [] tb c x hk h2 h3 ⟨rfl, by simpa [varPtr, Item.ptr] using W, h1, h4⟩
      have hend : ∀ c' w' x' o', ContIs Γ F [] tb c.vtable (c', w') (x', o') →
          YHolds Γ (Slots.put slots k (some (.vec c'))) w' (Slots.put vars k (some (.vec tb x'))) o' := by
        intro c' w' x' o' C
        refine fill (some (.vec c')) (some (.vec tb x')) w' o' (by simpa [varPtr, Item.ptr] using C.worlds) ⟨C.is, ?_, h3, C.ty⟩
        have := C.vtable
        simp only at this
        rw [this]; exact h2
      simp only
      rcases hr : q (x, o) with ⟨r, x', o'⟩
      rw [hr] at hq
      cases r with
      | ok b => obtain ⟨a, w', h1, rfl, h2⟩ := hq; rw [h1]; exact .ok ⟨rfl, hend _ _ _ _ h2⟩
      | panic y => obtain ⟨a, w', h1, h2⟩ := hq; rw [h1]; exact .panic (hend _ _ _ _ h2)
      | ub => rcases h3 : m (c, w) with ⟨r', w'⟩; rw [h3] at hq; cases hq; exact .ub
      | abort => rcases h3 : m (c, w) with ⟨r', w'⟩; rw [h3] at hq; cases hq; exact .abort

/-- What is in a variable is used up. -/
theorem useUp_step {a : Item V} {m : M (World U) Obs} {q : M (Outside U) Obs} (H : YHolds Γ slots w vars o)
    (hk : slots k = some a)
    (hm : ∀ F O, Worlds F (a.ptr.toList ++ O) w o → InStep (fun a w' b o' => a = b ∧ Worlds F O w' o') (Worlds F O) (m w) (q o)) :
    InStepY Γ ((do DOp.clearVar k; onWorld m : M (DSlots V × World U) Obs) (slots, w))
      ((do YOp.moveOut k; aside q : M (YVars × Outside U) Obs) (vars, o)) := by
  obtain ⟨F, W, -, fill⟩ := H.hole k
  rw [hk] at W
  have hd := hm F [] (by simpa [varPtr] using W)
  simp only [DOp.clearVar, YOp.moveOut, M.bind_run, M.modify_run, onWorld_run, aside, M.zoom_run]
  rcases hr : q o with ⟨r, o'⟩
  rw [hr] at hd
  cases r with
  | ok b => obtain ⟨a, w', h1, rfl, h2⟩ := hd; rw [h1]; exact .ok ⟨rfl, fill none none _ _ h2 trivial⟩
  | panic y => obtain ⟨a, w', h1, h2⟩ := hd; rw [h1]; exact .panic (fill none none _ _ h2 trivial)
  | ub => rcases h3 : m w with ⟨r', w'⟩; rw [h3] at hd; cases hd; exact .ub
  | abort => rcases h3 : m w with ⟨r', w'⟩; rw [h3] at hd; cases hd; exact .abort

theorem roundTrip_step {vt : TyId → V} (H : YHolds Γ slots w vars o) (ht : Tab Γ t (vt t)) :
    InStepY Γ ((DOp.roundTrip k t).exec Γ cfg vt (slots, w)) ((DOp.roundTrip k t).step Γ cfg (vars, o)) := by
  obtain ⟨F, W, -, fill⟩ := H.hole k
  have J := H.var k
  simp only [DOp.exec, DOp.step]
  rcases hk : slots k with _ | a <;> rcases hv : vars k with _ | y <;> rw [hk, hv] at J
  · exact H.same _
  · exact J.elim
  · exact J.elim
  cases a with
  | box => cases y <;> try exact J.elim
           exact H.same _
  | small => cases y <;> try exact J.elim
             exact H.same _
  | vec c =>
    cases y with
    | box => exact J.elim
    | small => exact J.elim
    | vec tb x =>
      obtain ⟨h1, h2, h3, h4⟩ := J
      rw [hk] at W
      have W' : Worlds F (c.data.ptr.toList ++ []) w o := by simpa [varPtr, Item.ptr] using W
      have hno : t ≠ c.data.elem.type_id → InStepY Γ ((do DOp.clearVar k; DOp.roundTripVec Γ cfg vt k t c : M (DSlots V × World U) Obs) (slots, w))
          (.ok .refused, (Slots.put vars k none, o)) := by
        intro hne
        obtain ⟨h', h1, h2⟩ := intoVec_refused (cfg := cfg) h1 hne W'
        simp only [DOp.clearVar, DOp.roundTripVec, M.bind_run, M.modify_run, onWorld_run, h1]
        exact .ok ⟨rfl, fill none none _ _ h2 trivial⟩
      have hyes : ∀ {rv : RVec} {es n}, VecCopy.intoVec Γ cfg t c w = (.ok (some rv), w) → rv.ptr = c.data.ptr →
          TypedVec Γ w.heap t es n rv → (Γ.size t = 0 ∨ es.length ≤ n) → HasRoom Γ t n →
          InStepY Γ ((do DOp.clearVar k; DOp.roundTripVec Γ cfg vt k t c : M (DSlots V × World U) Obs) (slots, w))
            ((do YOp.moveOut k; YOp.assign Γ k (← aside (wrapVec Γ t es n)) : M (YVars × Outside U) Obs) (vars, o)) := by
        intro rv es n h1 hp T hn hr
        have hq := T.wrap (vt := vt t) (O := []) (by rw [hp]; exact W') hn hr ht
        simp only [DOp.clearVar, DOp.roundTripVec, M.bind_run, M.modify_run, onWorld_run, h1, DOp.create, YOp.moveOut, aside, M.zoom_run]
        rcases hr : wrapVec Γ t es n o with ⟨r, o'⟩
        rw [hr] at hq
        cases r with
        | ok b =>
          obtain ⟨a, w', h1, W2, I⟩ := hq
          simp only [h1, M.pure_run, DOp.putItem, YOp.assign, Slots.put_same, Slots.put_put]
          exact .ok ⟨rfl, fill (some (.vec a)) (some b) w' o' (by simpa [varPtr] using W2) I⟩
        | panic y => obtain ⟨a, w', h1, h2⟩ := hq; rw [h1]; exact .panic (fill none none _ _ h2 trivial)
        | ub => rcases h3 : VecCopy.fromVec Γ t (vt t) rv w with ⟨r', w'⟩; rw [h3] at hq; cases hq; exact .ub
        | abort => rcases h3 : VecCopy.fromVec Γ t (vt t) rv w with ⟨r', w'⟩; rw [h3] at hq; cases hq; exact .abort
      cases x with
      | vec t' es cap =>
        cases h4 t' es cap rfl
        obtain ⟨R, rfl⟩ := h1
        simp only
        by_cases hp : t = tb
        · subst hp
          rw [if_pos rfl]
          have hq := hyes (intoVec_vec R) rfl (.ofIsVec R.isVec R.pos) (.inr R.len_cap) (.inr R.room)
          have he : ((do YOp.moveOut k; YOp.assign Γ k (← aside (wrapVec Γ t es c.data.typedView.cap)) : M (YVars × Outside U) Obs) (vars, o)) =
              (.ok .done, (vars, o)) := by
            have h0 : Γ.size t ≠ 0 := by omega
            have h9 : c.data.typedView.cap ≠ 0 := by have := R.cap_pos; simp only [VecVoid.typedView]; omega
            simp only [YOp.moveOut, aside, wrapVec, if_neg h0, if_neg h9, M.bind_run, M.modify_run, M.zoom_run, M.pure_run, YOp.assign, Slots.put_same, Slots.put_put]
            rw [show some (YItem.vec t (.vec t es c.data.typedView.cap)) = vars k from hv.symm, Slots.put_self]
          rw [he] at hq
          exact hq
        · rw [if_neg hp]
          exact hno (by rw [R.type_id]; exact hp)
      | unit n =>
        have u : IsUnits Γ n c.data := h1
        simp only
        by_cases hp : t = Γ.unitTy
        · subst hp
          rw [if_pos rfl]
          have hq := hyes (intoVec_unit u) u.ptr.symm (typed_unit u) (.inl Γ.unit_size) (.inl Γ.unit_size)
          have he : ((do YOp.moveOut k; YOp.assign Γ k (← aside (wrapVec Γ Γ.unitTy (List.replicate n []) 0)) : M (YVars × Outside U) Obs) (vars, o)) =
              ((do YOp.moveOut k; aside (M.unwindDrop (dropAll Γ Γ.unitTy (List.replicate n []))); M.panic .assertion : M (YVars × Outside U) Obs) (vars, o)) := by
            simp only [YOp.moveOut, aside, wrapVec, if_pos Γ.unit_size, M.bind_run, M.modify_run, M.zoom_run, M.panic_run]
            rcases M.unwindDrop (dropAll Γ Γ.unitTy (List.replicate n [])) o with ⟨r, o'⟩
            cases r <;> rfl
          rw [he] at hq
          exact hq
        · rw [if_neg hp]
          exact hno (by rw [u.type_id]; exact hp)

end
end Dync
