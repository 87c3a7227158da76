import Verif.DynMachineLemmas4
/-!
# Methods of a container, continued
-/
namespace Dync
variable {U V α β γ δ σ τ : Type} {Γ : TyEnv U} {t t' tb : TyId} {n : Nat} {w : World U} {o : Outside U} {cfg : Cfg}
  {F : Nat → Option Layout} {O : List Nat} {vt : V} {es es' : List Bytes} {rv : RVec} {b : Bytes} {c : VecDyn V} {x x' : XVec}

variable [HasDrop U V] [HasClone U V] [TableLaw V]

/-! ### Methods that run no user code -/

/-- The element type is `tb`, if there are elements. -/
def XVec.OfTy (tb : TyId) (x : XVec) : Prop := ∀ t es cap, x = .vec t es cap → t = tb

theorem XVec.OfTy.unit : XVec.OfTy tb (.unit n) := fun _ _ _ e => by cases e
theorem XVec.OfTy.vec {cap : Nat} (h : t = tb) : XVec.OfTy tb (.vec t es cap) := fun _ _ _ e => by cases e; exact h
theorem XVec.OfTy.eq {cap : Nat} (h : XVec.OfTy tb (.vec t es cap)) : t = tb := h _ _ _ rfl

theorem room_ofTy {len cap : Nat} {k : Option Nat} {next : Nat → After} (h : ∀ c, (next c).now.OfTy tb) :
    (XVec.room Γ t len cap k next).now.OfTy tb := by
  unfold XVec.room
  cases k with
  | none => exact .unit
  | some k =>
    simp only
    cases growth (Γ.align t) (Γ.align t) (perElem Γ t) cap len k with
    | keep => exact h _
    | grown c => exact h _
    | full => exact .unit
    | torn => exact .unit

theorem reserve_ofTy (h : x.OfTy tb) (n : Nat) : (XVec.reserve Γ cfg n x).now.OfTy tb := by
  cases x with
  | vec t es cap => exact room_ofTy fun c => .vec h.eq
  | unit m => exact .unit

theorem push_ofTy (h : x.OfTy tb) (b : Bytes) : (XVec.push Γ t b x).now.OfTy tb := by
  cases x with
  | vec t' es cap =>
    simp only [XVec.push]
    split
    · exact h
    split
    · exact h
    · rename_i ht
      have ht : t = t' := Decidable.not_not.1 ht
      have : t = tb := ht.trans h.eq
      split
      · exact .unit
      · exact .unit
      · split
        · exact .vec this
        · exact .unit
      · split
        · exact .vec this
        · exact .unit
  | unit m => simp only [XVec.push]; split; exact h; split; exact h; exact h

theorem rotateLeft_ofTy (h : x.OfTy tb) (n : Nat) : (XVec.rotateLeft Γ cfg n x).now.OfTy tb := by
  cases x with
  | vec t' es cap =>
    simp only [XVec.rotateLeft]
    split
    · exact h
    split
    · exact .unit
    split
    · exact .vec h.eq
    · exact .unit
  | unit m => exact .unit

theorem rotateRight_ofTy (h : x.OfTy tb) (n : Nat) : (XVec.rotateRight Γ cfg n x).now.OfTy tb := by
  cases x with
  | vec t' es cap =>
    simp only [XVec.rotateRight]
    split
    · exact h
    split
    · exact .unit
    split
    · exact .vec h.eq
    · exact .unit
  | unit m => exact .unit

theorem swap_ofTy (h : x.OfTy tb) (i j : Nat) : (XVec.swap Γ cfg i j x).now.OfTy tb := by
  cases x with
  | vec t' es cap =>
    simp only [XVec.swap]
    split
    · exact h
    split
    · split
      · exact .vec h.eq
      · exact h
    · split
      · exact .vec h.eq
      · exact h
  | unit m => exact .unit

theorem look_ofTy (h : x.OfTy tb) {f : TyId → List Bytes → Out} {g : Nat → Out} : (x.look Γ f g).now.OfTy tb := by
  cases x with
  | vec t' es cap => exact h
  | unit m => exact h

theorem rotateLeft_method (C : ContIs Γ F O tb vt (c, w) (x, o)) (n : Nat) :
    Method Γ F O tb vt ((do VecCopy.rotateLeft Γ cfg n; return .done : M (VecDyn V × World U) Obs) (c, w))
      (XVec.plain (XVec.rotateLeft Γ cfg n) (x, o)) := by
  refine C.plain ?_ (rotateLeft_ofTy C.ty n)
  cases x with
  | vec t es cap => obtain ⟨R, rfl, -⟩ := C.vec; exact rotateLeft_agrees R C.wf n
  | unit m => exact unit_rotateLeft C.unit C.wf n

theorem rotateRight_method (C : ContIs Γ F O tb vt (c, w) (x, o)) (n : Nat) :
    Method Γ F O tb vt ((do VecCopy.rotateRight Γ cfg n; return .done : M (VecDyn V × World U) Obs) (c, w))
      (XVec.plain (XVec.rotateRight Γ cfg n) (x, o)) := by
  refine C.plain ?_ (rotateRight_ofTy C.ty n)
  cases x with
  | vec t es cap => obtain ⟨R, rfl, -⟩ := C.vec; exact rotateRight_agrees R C.wf n
  | unit m => exact unit_rotateRight C.unit C.wf n

theorem swap_method (C : ContIs Γ F O tb vt (c, w) (x, o)) (i j : Nat) :
    Method Γ F O tb vt ((do VecCopy.swap cfg i j; return .done : M (VecDyn V × World U) Obs) (c, w))
      (XVec.plain (XVec.swap Γ cfg i j) (x, o)) := by
  refine C.plain ?_ (swap_ofTy C.ty i j)
  cases x with
  | vec t es cap => obtain ⟨R, rfl, -⟩ := C.vec; exact swap_agrees R C.wf i j
  | unit m => exact unit_swap C.unit C.wf i j

theorem look_method {f : TyId → List Bytes → Out} {g : Nat → Out} {m : M (VecDyn V × World U) Obs}
    (C : ContIs Γ F O tb vt (c, w) (x, o)) (h : (x.look Γ f g).Agrees Γ m c w) :
    Method Γ F O tb vt (m (c, w)) (XVec.plain (fun x => x.look Γ f g) (x, o)) :=
  C.plain (f := fun x => x.look Γ f g) h (look_ofTy C.ty)

theorem reserve_step (C : ContIs Γ F O tb vt (c, w) (x, o)) (n : Nat) :
    InStep (fun _ s _ q => ContIs Γ F O tb vt s q) (ContIs Γ F O tb vt)
      ((VecCopy.onData (VecVoid.reserve Γ cfg n) : M (VecDyn V × World U) Unit) (c, w)) (XVec.plain (XVec.reserve Γ cfg n) (x, o)) := by
  have : Method Γ F O tb vt ((do VecCopy.reserve Γ cfg n; return .done : M (VecDyn V × World U) Obs) (c, w))
      (XVec.plain (XVec.reserve Γ cfg n) (x, o)) := by
    refine C.plain ?_ (reserve_ofTy C.ty n)
    cases x with
    | vec t es cap => obtain ⟨R, rfl, -⟩ := C.vec; exact reserve_agrees R C.wf n
    | unit m => exact unit_reserve C.unit C.wf n
  exact this.unmap.mono (fun _ _ _ _ h => h.2) (fun _ _ h => h)

/-! ### Dropping elements -/

theorem cont_dropLoop (C : ContIs Γ F O tb vt (c, w) (x, o)) (ht : Tab Γ t c.vtable) {xs : List Bytes}
    (hx : ∀ e ∈ xs, e.length = Γ.size t) :
    InStep (fun _ s _ q => ∃ u, s = (c, { w with user := u }) ∧ q = (x, { o with user := u })) (ContIs Γ F O tb vt)
      ((M.forEach xs fun b => onWorld (worldUser (HasDrop.dropFn c.vtable b)) : M (VecDyn V × World U) Unit) (c, w))
      ((M.forEach xs fun e => aside (call (Γ.drop t e)) : M (XVec × Outside U) Unit) (x, o)) := by
  refine InStep.mono (E := fun s q => ∃ u, s = (c, { w with user := u }) ∧ q = (x, { o with user := u }))
    (InStep.forEach xs ?_ _ _ ⟨w.user, rfl, by rw [C.user]⟩) (fun _ _ _ _ h => h) ?_
  · rintro e he s q ⟨u, rfl, rfl⟩
    rw [ht.drop, dropBytes_eq (hx e he)]
    refine ((C.setUser u).call (Γ.drop t e)).mono ?_ ?_
    · rintro a s b q ⟨-, u', rfl, rfl, -⟩; exact ⟨u', rfl, rfl⟩
    · rintro s q ⟨u', rfl, rfl⟩; exact ⟨u', rfl, rfl⟩
  · rintro s q ⟨u, rfl, rfl⟩; exact C.setUser u

theorem clear_method (C : ContIs Γ F O tb vt (c, w) (x, o)) (ht : Tab Γ tb vt) :
    Method Γ F O tb vt ((do VecDyn.clear Γ cfg; return .done : M (VecDyn V × World U) Obs) (c, w)) (XVec.dynClear Γ (x, o)) := by
  have ht' : Tab Γ tb c.vtable := C.vtable ▸ ht
  cases x with
  | vec t es cap =>
    obtain ⟨R, rfl, rfl⟩ := C.vec
    have h1 : (do VecDyn.clear Γ cfg; return .done : M (VecDyn V × World U) Obs) (c, w) =
        ((M.forEach es fun b => onWorld (worldUser (HasDrop.dropFn c.vtable b))) >>= fun _ => do
          VecCopy.onData (VecVoid.clear Γ cfg)
          return Obs.done : M (VecDyn V × World U) Obs) (c, w) := by
      simp only [VecDyn.clear, M.bind_run, getSelf_run, VecCopy.byteChunks_ok R]
      rcases (M.forEach es fun b => onWorld (worldUser (HasDrop.dropFn c.vtable b)) : M (VecDyn V × World U) Unit) (c, w) with ⟨r, s⟩
      cases r <;> rfl
    rw [h1]
    simp only [XVec.dynClear]
    rw [M.bind_ok (M.get_run _)]
    refine (cont_dropLoop C ht' R.each).bind ?_ (fun _ _ h => h)
    rintro _ s _ q ⟨u, rfl, rfl⟩
    have R' : Repr Γ ({ w with user := u } : World U).heap t es c.data := R
    have h1 := VecVoid.clear_spec (cfg := cfg) R'
    rw [onData_done h1]
    exact .ok ⟨rfl, (C.setUser u).evolves (Evolves.setContent (es' := []) R' (C.setUser u).wf (fun e he => by cases he) (Nat.zero_le _) rfl rfl rfl)⟩
  | unit n =>
    simp only [VecDyn.clear, XVec.dynClear, M.bind_run, getSelf_run, unit_chunks C.unit, M.get_run, M.panic_run]
    exact .panic C

/-! ### Methods that end by dropping their argument -/

/-- The outcome of the implementation read as an observation. -/
theorem InStep.lmap {Q : β → σ → γ → τ → Prop} {E : σ → τ → Prop} {m : M σ α} {f : α → β} {s : σ} {q : Res γ × τ}
    (h : InStep (fun a s b t => Q (f a) s b t) E (m s) q) : InStep Q E ((m >>= fun a => pure (f a)) s) q := by
  simp only [M.bind_run]
  rcases q with ⟨q, t⟩
  cases q with
  | ok b => obtain ⟨a, s', h1, h2⟩ := h; rw [h1]; exact .ok h2
  | panic y => obtain ⟨y, s', h1, h2⟩ := h; rw [h1]; exact .panic h2
  | ub => have h : (m s).1 = .ub := h; rcases hm : m s with ⟨r, s'⟩; rw [hm] at h; cases h; exact .ub
  | abort => have h : (m s).1 = .abort := h; rcases hm : m s with ⟨r, s'⟩; rw [hm] at h; cases h; exact .abort

/-- A method before its result is read as an observation. -/
abbrev MethodO (Γ : TyEnv U) (F : Nat → Option Layout) (O : List Nat) (tb : TyId) (vt : V) (r : Res (Option Unit) × (VecDyn V × World U))
    (q : Res Obs × (XVec × Outside U)) : Prop :=
  InStep (fun a s b q => Obs.ofUnit a = b ∧ ContIs Γ F O tb vt s q) (ContIs Γ F O tb vt) r q

theorem dropArg_method {m : M (VecDyn V × World U) (Option Unit)} {k : M (XVec × Outside U) Obs} {s : VecDyn V × World U}
    {q : XVec × Outside U} (h : MethodO Γ F O tb vt (m s) (k q)) (d : M U Unit) :
    Method Γ F O tb vt ((do return Obs.ofUnit (← M.thenDrop m (onWorld (worldUser d))) : M (VecDyn V × World U) Obs) s)
      (M.thenDrop k (aside (call d)) q) := by
  refine InStep.lmap (InStep.thenDrop h ?_ ?_)
  · rintro a s b q ⟨h1, C⟩
    exact (C.call' d).mono (fun _ _ _ _ h => ⟨h1, h.2⟩) (fun _ _ h => h)
  · intro s q C
    exact (C.call' d).mono (fun _ _ _ _ h => h.2) (fun _ _ _ => trivial)

theorem resize_method (C : ContIs Γ F O tb vt (c, w) (x, o)) (ht : Tab Γ tb vt) {n : Nat} {b : Bytes} (hb : b.length = Γ.size t) :
    Method Γ F O tb vt ((do return Obs.ofUnit (← VecDyn.resize Γ cfg t n b) : M (VecDyn V × World U) Obs) (c, w))
      (XVec.dynResize Γ cfg t n b (x, o)) := by
  refine dropArg_method ?_ (Γ.drop t b)
  have ht' : Tab Γ tb c.vtable := C.vtable ▸ ht
  cases x with
  | vec t' es cap =>
    obtain ⟨R, rfl, rfl⟩ := C.vec
    simp only [XVec.dynResizeBody]
    rw [M.bind_ok (M.get_run _)]
    by_cases hty : t = t'
    · subst hty
      simp only [VecDyn.resizeBody]
      rw [M.bind_ok (getSelf_run _)]
      have hlen : c.len = es.length := R.len
      simp only [VecCopy.checkRef_some R, if_true, hlen]
      by_cases hn : es.length ≤ n
      · rw [if_pos hn, if_pos hn]
        refine (reserve_step C (n - es.length)).bind ?_ (fun _ _ h => h)
        intro _ s _ q C1
        refine (InStep.repeatN ?_ _ _ _ C1).bind (fun _ _ _ _ C2 => .ok ⟨rfl, C2⟩) (fun _ _ h => h)
        rintro ⟨c1, w1⟩ ⟨x1, o1⟩ C1
        refine (C1.call (Γ.clone t b)).bind ?_ ?_
        · rintro a s _ q ⟨rfl, u, rfl, rfl, hc⟩
          refine InStep.bind (pushAs_method (cfg := cfg) (C1.setUser u) (Γ.clone_len hc)).unmap ?_ (fun _ _ h => h)
          rintro _ _ _ _ ⟨-, C2⟩
          exact .ok C2
        · rintro s q ⟨u, rfl, rfl⟩; exact C1.setUser u
      · rw [if_neg hn, if_neg hn]
        have hn' : n ≤ es.length := by omega
        rw [M.bind_ok (VecCopy.byteChunks_ok R _)]
        refine (cont_dropLoop C ht' (fun e he => R.each e (List.mem_of_mem_drop he))).bind ?_ (fun _ _ h => h)
        rintro _ s _ q ⟨u, rfl, rfl⟩
        have R' : Repr Γ ({ w with user := u } : World U).heap t es c.data := R
        have h1 := VecVoid.truncate_spec (cfg := cfg) (n := n) R' (by rw [R.len]; exact hn')
        rw [onData_some h1]
        exact .ok ⟨rfl, (C.setUser u).evolves (Evolves.setContent (es' := es.take n) R' (C.setUser u).wf
          (fun e he => R.each e (List.mem_of_mem_take he)) (by have := R.len_cap; simp; omega) (by simp [hn']) rfl rfl)⟩
    · rw [VecDyn.resizeBody_mismatch R hty]
      simp only [if_neg hty]
      exact .ok ⟨rfl, C⟩
  | unit m =>
    have I := C.unit
    simp only [XVec.dynResizeBody]
    rw [M.bind_ok (M.get_run _)]
    simp only [VecDyn.resizeBody]
    rw [M.bind_ok (getSelf_run _), unit_checkRef I]
    by_cases hty : t = Γ.unitTy
    · have hlen : c.len = m := I.len
      simp only [if_pos hty, hlen]
      by_cases hn : m ≤ n
      · rw [if_pos hn, if_pos hn]
        obtain ⟨y, hy⟩ := unit_reserve_run (cfg := cfg) (w := w) I (n - m)
        have h1 : (VecCopy.onData (VecVoid.reserve Γ cfg (n - m)) : M (VecDyn V × World U) Unit) (c, w) =
            (.panic y, ({ c with data := VecVoid.default Γ }, w)) := by
          simp only [VecCopy.onData_run, hy]
        rw [M.bind_panic h1]
        refine .panic ⟨C.vtable, ?_, IsUnits.default Γ, fun _ _ _ e => by cases e⟩
        have W := C.worlds
        simpa [VecVoid.default, I.ptr] using W
      · rw [if_neg hn, if_neg hn]
        rw [M.bind_panic (unit_chunks I _)]
        exact .panic C
    · simp only [if_neg hty]
      exact .ok ⟨rfl, C⟩

theorem fill_method (C : ContIs Γ F O tb vt (c, w) (x, o)) {b : Bytes} :
    Method Γ F O tb vt ((do return Obs.ofUnit (← VecDyn.fill Γ t b) : M (VecDyn V × World U) Obs) (c, w))
      (XVec.dynFill Γ t b (x, o)) := by
  refine dropArg_method ?_ (Γ.drop t b)
  rw [M.bind_ok (M.get_run _)]
  cases x with
  | vec t' es cap =>
    obtain ⟨R, rfl, rfl⟩ := C.vec
    by_cases hty : t = t'
    · subst hty
      simp only [if_true]
      rcases hf : TVec.fill Γ t b es w.user with ⟨r, es', u'⟩
      obtain ⟨d, h1, hev⟩ := VecDyn.fillLoop R C.wf hf
      rw [h1]
      have C' := C.evolves (u := u') hev
      simp only [M.bind_run, fillAll, ← C.user, hf]
      cases r with
      | ok a => exact .ok ⟨rfl, C'⟩
      | panic y => exact .panic C'
      | ub => exact .ub
      | abort => exact .abort
    · simp only [if_neg hty, VecCopy.asMutSliceAs, M.bind_run, getSelf_run, VecCopy.checkRef_none R hty]
      exact .ok ⟨rfl, C⟩
  | unit m =>
    have I := C.unit
    simp only [VecCopy.asMutSliceAs]
    rw [M.bind_ok (getSelf_run _), unit_checkRef I]
    by_cases hty : t = Γ.unitTy
    · subst hty
      simp only [if_true]
      rcases hf : TVec.fill Γ Γ.unitTy b (List.replicate m []) w.user with ⟨r, es', u'⟩
      have hv := VecDyn.visit_fill hf
      have hE := (TVec.fill_each hf (fun e he => by rw [List.eq_of_mem_replicate he, Γ.unit_size]; rfl)).2
      have hfl : es'.flatten = [] := by
        rw [List.flatten_eq_nil_iff]
        intro e he
        exact List.eq_nil_of_length_eq_zero (by rw [hE e he, Γ.unit_size])
      have hs := VecCopy.unit_same I.good
      simp only [M.bind_run, unit_slice I, M.lift_run, forEachMut, hv, fillAll, ← C.user, hf]
      simp only [hfl, I.mem, splice]
      simp only [List.take_zero, List.length_nil, Nat.add_zero, List.drop_nil, List.append_nil]
      have hc : ({ data := { ptr := c.data.ptr, len := c.data.len, cap := c.data.cap, elem := c.data.elem, mem := [] }, vtable := c.vtable } : VecDyn V) = c := hs
      rw [hc]
      have C' := C.setUser u'
      cases r with
      | ok a => exact .ok ⟨rfl, C'⟩
      | panic y => exact .panic C'
      | ub => exact .ub
      | abort => exact .abort
    · simp only [if_neg hty]
      exact .ok ⟨rfl, C⟩

theorem setAs_method (C : ContIs Γ F O tb vt (c, w) (x, o)) {i : Nat} {b : Bytes} (hb : b.length = Γ.size t) :
    Method Γ F O tb vt ((do
        match ← VecCopy.getMutAs Γ t i (VecDyn.assignTyped Γ t b) with
        | some _ => return .done
        | none => do onWorld (worldUser (Γ.drop t b)); return .refused : M (VecDyn V × World U) Obs) (c, w))
      (XVec.dynSetAs Γ t i b (x, o)) := by
  simp only [XVec.dynSetAs]
  rw [M.bind_ok (M.get_run _)]
  cases x with
  | vec t' es cap =>
    obtain ⟨R, rfl, rfl⟩ := C.vec
    by_cases hi : i < es.length
    · simp only [dif_pos hi]
      by_cases hty : t = t'
      · subst hty
        simp only [if_true]
        rcases hd : Γ.drop t es[i] w.user with ⟨r, u'⟩
        obtain ⟨d, hrun, hev⟩ := VecCopy.getMutAs_ok (r := r) (w' := { w with user := u' }) (m := VecDyn.assignTyped Γ t b) R C.wf hi
          (by simp only [VecDyn.assignTyped, worldUser_run, hd]) hb
        have C' := C.evolves (u := u') hev
        simp only [M.bind_run, hrun, M.modify_run, aside, M.zoom_run, call, ← C.user, hd]
        cases r with
        | ok a => exact .ok ⟨rfl, C'⟩
        | panic y => exact .panic C'
        | ub => exact .ub
        | abort => exact .abort
      · simp only [if_neg hty]
        have hdec : (decide (i < c.len)) = true := by simp only [VecCopy.len, R.len]; exact decide_eq_true hi
        have h1 : VecCopy.getMutAs Γ t i (VecDyn.assignTyped Γ t b) (c, w) = (.ok none, (c, w)) := by
          simp only [VecCopy.getMutAs, M.bind_run, getSelf_run, hdec, M.assert_true_run, VecCopy.checkRef_none R hty, M.pure_run]
        rw [M.bind_ok h1]
        exact C.refused b
    · simp only [dif_neg hi]
      have hdec : (decide (i < c.len)) = false := by simp only [VecCopy.len, R.len]; exact decide_eq_false hi
      rw [M.bind_panic (s' := (c, w)) (w := .assertion) (by simp only [VecCopy.getMutAs, M.bind_run, getSelf_run, hdec, M.assert_false_run])]
      exact .panic C
  | unit m =>
    have I := C.unit
    by_cases hi : i < m
    · simp only [if_pos hi]
      have hdec : (decide (i < c.len)) = true := by simp only [VecCopy.len, I.len]; exact decide_eq_true hi
      by_cases hty : t = Γ.unitTy
      · subst hty
        have hb0 := unit_nil hb
        subst hb0
        have hs := VecCopy.unit_same I.good
        rcases hd : Γ.drop Γ.unitTy [] w.user with ⟨r, u'⟩
        have h1 : VecCopy.getMutAs Γ Γ.unitTy i (VecDyn.assignTyped Γ Γ.unitTy []) (c, w) = (r.map some, (c, { w with user := u' })) := by
          simp only [M.bind_run, VecCopy.getMutAs, getSelf_run, hdec, M.assert_true_run, unit_checkRef I, if_true, Γ.unit_size, Nat.mul_zero, Nat.zero_le]
          simp only [VecDyn.assignTyped, worldUser_run, List.take_zero, hd, splice, I.mem]
          simp only [List.take_zero, List.length_nil, Nat.add_zero, List.drop_nil, List.append_nil, List.take_nil]
          have hc : ({ data := { ptr := c.data.ptr, len := c.data.len, cap := c.data.cap, elem := c.data.elem, mem := [] }, vtable := c.vtable } : VecDyn V) = c := hs
          rw [hc]
          cases r <;> rfl
        have C' := C.setUser u'
        simp only [M.bind_run, h1, if_true, aside, M.zoom_run, call, ← C.user, hd]
        cases r with
        | ok a => exact .ok ⟨rfl, C'⟩
        | panic y => exact .panic C'
        | ub => exact .ub
        | abort => exact .abort
      · simp only [if_neg hty]
        have h1 : VecCopy.getMutAs Γ t i (VecDyn.assignTyped Γ t b) (c, w) = (.ok none, (c, w)) := by
          simp only [VecCopy.getMutAs, M.bind_run, getSelf_run, hdec, M.assert_true_run, unit_checkRef I, if_neg hty, M.pure_run]
        rw [M.bind_ok h1]
        exact C.refused b
    · simp only [if_neg hi]
      have hdec : (decide (i < c.len)) = false := by simp only [VecCopy.len, I.len]; exact decide_eq_false hi
      rw [M.bind_panic (s' := (c, w)) (w := .assertion) (by simp only [VecCopy.getMutAs, M.bind_run, getSelf_run, hdec, M.assert_false_run])]
      exact .panic C

/-! ### `clone_into_vec` -/

theorem cloneIntoVec_eq (hs : ∀ s : List Bytes × World U, VecCopy.asSliceAs Γ t c s = (.ok (some es), s)) :
    VecDyn.cloneIntoVec Γ t c w = (worldUser (do return some (← DSpec.clones Γ t es)) : M (World U) (Option (List Bytes))) w := by
  rcases hx : TVec.extendClones Γ t es [] w.user with ⟨r, es', u'⟩
  have h1 : VecDyn.appendClonedToVec Γ t c ([], w) = (r.map some, (es', { w with user := u' })) := by
    unfold VecDyn.appendClonedToVec
    rw [M.bind_ok (hs _)]
    exact VecDyn.map_some_bind (VecDyn.extendList_run hx)
  simp only [VecDyn.cloneIntoVec, dropEach_worldUser, worldUser_run, M.bind_run, withLocal, h1, DSpec.clones, hx]
  cases r with
  | ok a => rfl
  | panic y =>
    simp only [Res.map, M.bind_run, M.unwindDrop]
    rcases M.dropEach es' (Γ.drop t) u' with ⟨r2, u2⟩
    cases r2 <;> rfl
  | ub => rfl
  | abort => rfl

theorem cloneInto_run (C : ContIs Γ F O tb vt (c, w) (x, o)) (hs : ∀ s : List Bytes × World U, VecCopy.asSliceAs Γ t c s = (.ok (some es), s)) :
    Method Γ F O tb vt ((do
        match ← onWorld (VecDyn.cloneIntoVec Γ t (← getSelf)) with
        | none => return .refused
        | some es => do onWorld (worldUser (M.dropEach es (Γ.drop t))); return .elems es : M (VecDyn V × World U) Obs) (c, w))
      ((do
        let cs ← aside (call (DSpec.clones Γ t es))
        aside (dropAll Γ t cs)
        return .elems cs : M (XVec × Outside U) Obs) (x, o)) := by
  rw [M.bind_ok (getSelf_run _)]
  have h1 : InStep (fun a s b q => a = some b ∧ ContIs Γ F O tb vt s q) (ContIs Γ F O tb vt)
      ((onWorld (VecDyn.cloneIntoVec Γ t c) : M (VecDyn V × World U) (Option (List Bytes))) (c, w))
      ((aside (call (DSpec.clones Γ t es)) : M (XVec × Outside U) (List Bytes)) (x, o)) := by
    simp only [onWorld_run, cloneIntoVec_eq hs, worldUser_run, M.bind_run, aside, M.zoom_run, call, ← C.user]
    rcases DSpec.clones Γ t es w.user with ⟨r, u'⟩
    have C' := C.setUser u'
    cases r with
    | ok a => exact .ok ⟨rfl, C'⟩
    | panic y => exact .panic C'
    | ub => exact .ub
    | abort => exact .abort
  refine h1.bind ?_ (fun _ _ h => h)
  rintro a s b q ⟨rfl, C'⟩
  refine (C'.call' (M.dropEach b (Γ.drop t))).bind ?_ (fun _ _ h => h)
  rintro _ _ _ _ ⟨-, C2⟩
  exact .ok ⟨rfl, C2⟩

theorem cloneIntoVec_method (C : ContIs Γ F O tb vt (c, w) (x, o)) :
    Method Γ F O tb vt ((do
        match ← onWorld (VecDyn.cloneIntoVec Γ t (← getSelf)) with
        | none => return .refused
        | some es => do onWorld (worldUser (M.dropEach es (Γ.drop t))); return .elems es : M (VecDyn V × World U) Obs) (c, w))
      (XVec.dynCloneIntoVec Γ t (x, o)) := by
  have hno : c.checkRef t = none → Method Γ F O tb vt ((do
        match ← onWorld (VecDyn.cloneIntoVec Γ t (← getSelf)) with
        | none => return .refused
        | some es => do onWorld (worldUser (M.dropEach es (Γ.drop t))); return .elems es : M (VecDyn V × World U) Obs) (c, w))
      (.ok .refused, (x, o)) := fun h => by
    have h1 : VecDyn.cloneIntoVec Γ t c w = (.ok none, w) := by
      simp only [VecDyn.cloneIntoVec, VecDyn.appendClonedToVec, VecCopy.asSliceAs, h, M.bind_run, M.pure_run, withLocal]
    rw [M.bind_ok (getSelf_run _)]
    simp only [M.bind_run, onWorld_run, h1]
    exact .ok ⟨rfl, C⟩
  simp only [XVec.dynCloneIntoVec]
  rw [M.bind_ok (M.get_run _)]
  cases x with
  | vec t' es cap =>
    obtain ⟨R, rfl, rfl⟩ := C.vec
    by_cases hty : t = t'
    · subst hty
      simp only [if_true]
      exact cloneInto_run C (VecCopy.asSliceAs_ok R)
    · simp only [if_neg hty]
      exact hno (VecCopy.checkRef_none R hty)
  | unit m =>
    have I := C.unit
    by_cases hty : t = Γ.unitTy
    · subst hty
      simp only [if_true]
      refine cloneInto_run C fun s => ?_
      simp only [VecCopy.asSliceAs, unit_checkRef I, if_true, M.bind_run, unit_slice I, M.lift_run, M.pure_run]
    · simp only [if_neg hty]
      exact hno (by rw [unit_checkRef I, if_neg hty])

end Dync
