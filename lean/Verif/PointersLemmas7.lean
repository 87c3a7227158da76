import Verif.PointersLemmas6
/-!
# Views as pointers: parts and programs
-/
namespace Dync
variable {U V α β : Type} {Γ : TyEnv U} {cfg : Cfg} {t : TyId} {v : PtrView V} {m : Mem}

/-- The start of a scaled range is aligned. -/
theorem scaleRes_start {n a b d l : Nat} {r r' : Rng} (h : scaleRes cfg n r = .ok r') (hb : r'.bounds l = .ok (a, b)) (hd : d ∣ n) (hw : d ∣ usizeMax + 1) : d ∣ a := by
  cases r with
  | range x y =>
    obtain ⟨x', hx, h⟩ := Res.bind_ok h
    obtain ⟨y', hy, h⟩ := Res.bind_ok h
    cases h; cases hb
    exact umulRes_dvd hx (.inr hd) hw
  | rangeTo y =>
    obtain ⟨y', hy, h⟩ := Res.bind_ok h
    cases h; cases hb
    exact Nat.dvd_zero _
  | rangeFrom x =>
    obtain ⟨x', hx, h⟩ := Res.bind_ok h
    cases h; cases hb
    exact umulRes_dvd hx (.inr hd) hw
  | full => cases h; cases hb; exact Nat.dvd_zero _
  | inclusive x y =>
    obtain ⟨x', hx, h⟩ := Res.bind_ok h
    obtain ⟨y', hy, h⟩ := Res.bind_ok h
    cases h
    simp only [Rng.bounds] at hb
    split at hb <;> cases hb
    exact umulRes_dvd hx (.inr hd) hw
  | toInclusive y =>
    obtain ⟨y', hy, h⟩ := Res.bind_ok h
    cases h
    simp only [Rng.bounds] at hb
    split at hb <;> cases hb
    exact Nat.dvd_zero _

theorem ptr_sub (O : v.Ok Γ t) (r : Rng) (p : SProg) (ih : ∀ w : PtrView V, w.Ok Γ t → PtrSim w (p.exec Γ cfg) (p.runAt Γ cfg w)) :
    PtrSim v ((SProg.sub r p).exec Γ cfg) ((SProg.sub r p).runAt Γ cfg v) := by
  intro m
  simp only [SProg.exec, SProg.runAt, SliceCopy.subsliceMut, scale_eq, M.bind_run, M.get_run, M.lift_run]
  rw [show (v.contents m).elem = v.elem from rfl]
  cases hs : scaleRes cfg v.elem.numBytes r with
  | ok r' =>
    simp only [contents_len]
    cases hb : r'.bounds v.len with
    | ok ab =>
      obtain ⟨a, b⟩ := ab
      simp only [sliceIndex, PtrView.range, contents_len]
      by_cases hr : a ≤ b ∧ b ≤ v.len
      · simp only [hr, and_self, if_true]
        have hd : Γ.align t ∣ a := scaleRes_start hs hb (by rw [O.bytes]; exact Γ.align_dvd t) (align_dvd_wrap Γ t)
        have e : ((v.contents m).data.take b).drop a = m.read (v.addr + a) (b - a) := by
          show ((m.read v.addr v.len).take b).drop a = _
          rw [Mem.read_take hr.2, Mem.read_drop hr.1]
        rw [e]
        have H := ih (v.at (v.addr + a) (b - a)) (O.move hd) m
        exact Traces.part (v := v) (a := a) (n := b - a) H (by omega)
      · simp only [hr, if_false]
        exact Traces.stay _
    | panic => exact Traces.stay _
    | ub => exact Traces.stay _
    | abort => exact Traces.stay _
  | panic => exact Traces.stay _
  | ub => exact Traces.stay _
  | abort => exact Traces.stay _

theorem ptr_split (O : v.Ok Γ t) (mid : Nat) (p q : SProg) (ihp : ∀ w : PtrView V, w.Ok Γ t → PtrSim w (p.exec Γ cfg) (p.runAt Γ cfg w))
    (ihq : ∀ w : PtrView V, w.Ok Γ t → PtrSim w (q.exec Γ cfg) (q.runAt Γ cfg w)) :
    PtrSim v ((SProg.split mid p q).exec Γ cfg) ((SProg.split mid p q).runAt Γ cfg v) := by
  intro m
  simp only [SProg.exec, SProg.runAt, SliceCopy.splitAtMut, umul_eq, M.bind_run, M.get_run, M.lift_run]
  rw [show (v.contents m).elem = v.elem from rfl]
  cases hu : umulRes cfg mid v.elem.numBytes with
  | ok k =>
    simp only [sliceSplitAt, PtrView.cut, contents_len]
    by_cases hk : k ≤ v.len
    · simp only [hk, if_true]
      have hd : Γ.align t ∣ k := umulRes_dvd hu (.inr (by rw [O.bytes]; exact Γ.align_dvd t)) (align_dvd_wrap Γ t)
      have e1 : (v.contents m).data.take k = m.read v.addr k := Mem.read_take hk
      have e2 : (v.contents m).data.drop k = m.read (v.addr + k) (v.len - k) := Mem.read_drop hk
      rw [e1, e2]
      have H := ihp (v.at (v.addr + 0) k) (O.move (Nat.dvd_zero _)) m
      rw [Nat.add_zero] at H
      simp only [SProg.onFst, SProg.onSnd, M.zoom_run, SliceCopy.fromRawParts, M.pure_run]
      rcases hA : p.exec Γ cfg ((v.at v.addr k).contents m) with ⟨r, s1⟩
      rcases hB : p.runAt Γ cfg (v.at v.addr k) m with ⟨r', m1⟩
      rw [hA, hB] at H
      have er : r = r' := H.res
      subst er
      rw [show p.exec Γ cfg ⟨m.read v.addr k, (v.contents m).elem, (v.contents m).vtable⟩ = _ from hA]
      have T1 : Traces v m (r, { v.contents m with data := splice (m.read v.addr v.len) 0 s1.data }) (r, m1) :=
        Traces.part (v := v) (a := 0) (n := k) (by rw [Nat.add_zero]; exact H) (by omega)
      have hs1 : s1.data = m1.read v.addr k := by rw [show s1 = _ from H.view]; rfl
      have hfr : m1.read (v.addr + k) (v.len - k) = m.read (v.addr + k) (v.len - k) := Mem.read_congr fun i _ _ => H.frame i (by simp only; omega)
      have join : ∀ x : Bytes, splice (m.read v.addr v.len) 0 s1.data = s1.data ++ m.read (v.addr + k) (v.len - k) := by
        intro _
        unfold splice
        rw [List.take_zero, List.nil_append, Nat.zero_add, hs1, Mem.read_length, Mem.read_drop hk]
      rw [join []] at T1
      cases r with
      | ok a =>
        simp only
        have H2 := ihq (v.at (v.addr + k) (v.len - k)) (O.move hd) m1
        rcases hC : q.exec Γ cfg ((v.at (v.addr + k) (v.len - k)).contents m1) with ⟨rc, s2⟩
        rcases hD : q.runAt Γ cfg (v.at (v.addr + k) (v.len - k)) m1 with ⟨rd, m2⟩
        rw [hC, hD] at H2
        have er : rc = rd := H2.res
        subst er
        rw [show q.exec Γ cfg ⟨m.read (v.addr + k) (v.len - k), (v.contents m).elem, (v.contents m).vtable⟩ = (rc, s2) by rw [← hfr]; exact hC]
        have T2 := T1.trans (Traces.part (v := v) (a := k) (n := v.len - k) H2 (by omega))
        have hs2 : s2.data = m2.read (v.addr + k) (v.len - k) := by rw [show s2 = _ from H2.view]; rfl
        have hj : splice (m1.read v.addr v.len) k s2.data = s1.data ++ s2.data := by
          unfold splice
          rw [Mem.read_take hk, hs2, Mem.read_length, List.drop_eq_nil_of_le (by rw [Mem.read_length]; omega), List.append_nil, hs1]
        have hv := T2.view
        rw [hj] at hv
        cases rc <;> exact ⟨rfl, hv, T2.frame, T2.log⟩
      | panic => exact T1
      | ub => exact T1
      | abort => exact T1
    · simp only [hk, if_false]
      exact Traces.stay _
  | panic => exact Traces.stay _
  | ub => exact Traces.stay _
  | abort => exact Traces.stay _

/-- A loop that records what its bodies return. -/
theorem visitMut_each (p : M (SliceCopy V) (List β)) (ss : List (SliceCopy V)) (log : List β) :
    (visitMut (do
      let a ← SProg.onFst p
      SProg.onSnd (M.modify fun log => log ++ a)) ss log).1 = (eachSlice p ss).1.map (fun _ => ()) ∧
    (visitMut (do
      let a ← SProg.onFst p
      SProg.onSnd (M.modify fun log => log ++ a)) ss log).2.1 = (eachSlice p ss).2 ∧
    (∀ a, (eachSlice p ss).1 = .ok a → (visitMut (do
      let a ← SProg.onFst p
      SProg.onSnd (M.modify fun log => log ++ a)) ss log).2.2 = log ++ a) := by
  induction ss generalizing log with
  | nil => exact ⟨rfl, rfl, fun a ha => by cases ha; exact (List.append_nil _).symm⟩
  | cons s ss ih =>
    rcases hp : p s with ⟨r, s'⟩
    cases r with
    | ok a =>
      obtain ⟨i1, i2, i3⟩ := ih (log ++ a)
      simp only [visitMut, eachSlice, M.bind_run, SProg.onFst, SProg.onSnd, M.zoom_run, M.modify_run, hp] at i1 i2 i3 ⊢
      refine ⟨?_, by rw [i2], ?_⟩
      · rw [i1]; cases (eachSlice p ss).1 <;> rfl
      · intro b hb
        cases h : (eachSlice p ss).1 with
        | ok c =>
          rw [h] at hb
          cases hb
          rw [i3 c h, List.append_assoc]
        | panic => rw [h] at hb; cases hb
        | ub => rw [h] at hb; cases hb
        | abort => rw [h] at hb; cases hb
    | panic => simp [visitMut, eachSlice, M.bind_run, SProg.onFst, SProg.onSnd, M.zoom_run, hp, Res.map]
    | ub => simp [visitMut, eachSlice, M.bind_run, SProg.onFst, SProg.onSnd, M.zoom_run, hp, Res.map]
    | abort => simp [visitMut, eachSlice, M.bind_run, SProg.onFst, SProg.onSnd, M.zoom_run, hp, Res.map]

theorem ptr_chunks (O : v.Ok Γ t) (k : Nat) (p : SProg) (ih : ∀ w : PtrView V, w.Ok Γ t → PtrSim w (p.exec Γ cfg) (p.runAt Γ cfg w)) :
    PtrSim v ((SProg.chunks k p).exec Γ cfg) ((SProg.chunks k p).runAt Γ cfg v) := by
  intro m
  simp only [SProg.exec, SProg.runAt, SliceCopy.chunksExactMut, umul_eq, M.zoom_run, M.bind_run, M.get_run, M.lift_run]
  rw [show (v.contents m).elem = v.elem from rfl]
  cases hu : umulRes cfg v.elem.numBytes k with
  | ok n =>
    simp only [Dync.chunksExact, PtrView.chunks]
    by_cases h0 : n = 0
    · simp only [h0, if_true]
      exact Traces.stay _
    · simp only [h0, if_false]
      have hd : Γ.align t ∣ n := umulRes_dvd hu (.inl (by rw [O.bytes]; exact Γ.align_dvd t)) (align_dvd_wrap Γ t)
      have H := each_chunks (v := v) (p := p.exec Γ cfg) (q := fun c => p.runAt Γ cfg c) (Nat.pos_of_ne_zero h0)
        (fun c _ => ih _ (row_ok O hd c)) m
      obtain ⟨v1, v2, v3⟩ := visitMut_each (p.exec Γ cfg) ((Dync.chunks n (v.contents m).data).map fun d => (⟨d, v.elem, v.vtable⟩ : SliceCopy V)) []
      simp only [SliceCopy.fromRawParts]
      rw [show (v.contents m).vtable = v.vtable from rfl]
      rcases hE : eachSlice (p.exec Γ cfg) ((Dync.chunks n (v.contents m).data).map fun d => (⟨d, v.elem, v.vtable⟩ : SliceCopy V)) with ⟨r, ss⟩
      rw [hE] at H v1 v2 v3
      rcases hV : visitMut (do
        let a ← SProg.onFst (p.exec Γ cfg)
        SProg.onSnd (M.modify fun log => log ++ a)) ((Dync.chunks n (v.contents m).data).map fun d => (⟨d, v.elem, v.vtable⟩ : SliceCopy V)) [] with ⟨r', ss', log'⟩
      rw [hV] at v1 v2 v3
      simp only at v1 v2 v3
      subst v1 v2
      cases r with
      | ok a =>
        have := v3 a rfl
        rw [List.nil_append] at this
        subst this
        exact H
      | panic => exact H
      | ub => exact H
      | abort => exact H
  | panic => exact Traces.stay _
  | ub => exact Traces.stay _
  | abort => exact Traces.stay _

/-- Programs on pointers do what programs on bytes do, access only the view, and only where it is aligned. -/
theorem SProg.ptr_sim (p : SProg) (hp : p.Sized Γ t) (v : PtrView V) (O : v.Ok Γ t) : PtrSim v (p.exec Γ cfg) (p.runAt Γ cfg v) := by
  induction p generalizing v with
  | skip => exact PtrSim.lift _
  | seq p q ihp ihq =>
    exact PtrSim.bind (ihp hp.1 v O) fun a => PtrSim.bind (ihq hp.2 v O) fun b => PtrSim.lift _
  | get i => exact ptr_get O i
  | getAs t' i => exact ptr_getAs O t' i
  | iter => exact ptr_iter O
  | asSlice t' => exact ptr_asSlice O t'
  | setAs t' i x => exact ptr_setAs O t' i x hp
  | setValue i t' x => exact ptr_setValue O i t' x hp
  | mapAll f => exact ptr_mapAll O f hp
  | mapAs t' f => exact ptr_mapAs O t' f hp
  | swap i j => exact ptr_swap O i j
  | rotateLeft n => exact ptr_rotateLeft n
  | rotateRight n => exact ptr_rotateRight n
  | copyFromSlice t' xs => exact ptr_copyFromSlice O t' xs hp
  | sub r p ih => exact ptr_sub O r p fun w Ow => ih hp w Ow
  | split mid p q ihp ihq => exact ptr_split O mid p q (fun w Ow => ihp hp.1 w Ow) fun w Ow => ihq hp.2 w Ow
  | chunks k p ih => exact ptr_chunks O k p fun w Ow => ih hp w Ow

end Dync
