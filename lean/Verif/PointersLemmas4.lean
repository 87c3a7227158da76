import Verif.PointersLemmas3
/-!
# Views as pointers: parts of views, and loops over chunks
-/
namespace Dync
variable {U V α β : Type} {Γ : TyEnv U} {cfg : Cfg} {t : TyId} {v : PtrView V} {m : Mem}

/-- Part of a view. -/
abbrev PtrView.at (v : PtrView V) (a n : Nat) : PtrView V := { v with addr := a, len := n }

theorem Access.Within.mono {lo n lo' n' : Nat} {a : Access} (h : a.Within lo n) (h1 : lo' ≤ lo) (h2 : lo + n ≤ lo' + n') : a.Within lo' n' :=
  ⟨Nat.le_trans h1 h.lower, Nat.le_trans h.upper h2, h.aligned⟩

/-- What happens on a part, seen from the whole. -/
theorem Traces.part {a n : Nat} {r : Res α} {s : SliceCopy V} {B : Res α × Mem} (h : Traces (v.at (v.addr + a) n) m (r, s) B)
    (hle : a + n ≤ v.len) :
    Traces v m (r, { v.contents m with data := splice (m.read v.addr v.len) a s.data }) B := by
  obtain ⟨l, e, hl⟩ := h.log
  have hs : s.data = B.2.read (v.addr + a) n := by rw [show s = _ from h.view]; rfl
  refine ⟨h.res, ?_, fun i hi => h.frame i (by simp only; omega), l, e,
    fun x hx => (hl x hx).mono (Nat.le_add_right _ _) (by simp only; omega)⟩
  show _ = PtrView.contents _ _
  simp only [PtrView.contents, hs, SliceCopy.mk.injEq, and_true]
  unfold splice
  rw [Mem.read_length, Mem.read_take (by omega), Mem.read_drop (by omega)]
  have e1 : v.len = a + (n + (v.len - (a + n))) := by omega
  conv => rhs; rw [e1, Mem.read_append, Mem.read_append]
  have k1 : B.2.read v.addr a = m.read v.addr a := Mem.read_congr fun i h1 h2 => h.frame i (by simp only; omega)
  have k2 : B.2.read (v.addr + a + n) (v.len - (a + n)) = m.read (v.addr + a + n) (v.len - (a + n)) :=
    Mem.read_congr fun i h1 h2 => h.frame i (by simp only; omega)
  rw [k1, k2, List.append_assoc, Nat.add_assoc]

/-- The loop over views, on bytes. -/
def eachSlice (p : M (SliceCopy V) (List β)) : List (SliceCopy V) → Res (List β) × List (SliceCopy V)
  | [] => (.ok [], [])
  | s :: ss =>
    match p s with
    | (.ok a, s') => ((eachSlice p ss).1.map (a ++ ·), s' :: (eachSlice p ss).2)
    | (.panic y, s') => (.panic y, s' :: ss)
    | (.ub, s') => (.ub, s' :: ss)
    | (.abort, s') => (.abort, s' :: ss)

/-- `k` parts of `n` bytes from address `a` on. -/
def PtrView.row (v : PtrView V) (n a k : Nat) : List (PtrView V) := (List.range k).map fun c => v.at (a + c * n) n

theorem row_succ (n a k : Nat) : v.row n a (k + 1) = v.at a n :: v.row n (a + n) k := by
  simp only [PtrView.row, List.range_succ_eq_map, List.map_cons, List.map_map, Nat.zero_mul, Nat.add_zero]
  congr 1
  refine List.map_congr_left fun c _ => ?_
  simp only [Function.comp, PtrView.at, Nat.succ_mul]
  congr 1
  omega

theorem row_contents (n a k : Nat) (m : Mem) : (((v.row n a k).map (·.contents m)).map (·.data)).flatten = m.read a (k * n) := by
  induction k generalizing a with
  | zero => simp [PtrView.row, Mem.read]
  | succ k ih =>
    rw [row_succ, List.map_cons, List.map_cons, List.flatten_cons, ih, Nat.succ_mul, Nat.add_comm (k * n) n, Mem.read_append]
    rfl

/-- The parts, from left to right. -/
theorem each_row {p : M (SliceCopy V) (List β)} {q : PtrView V → M Mem (List β)} {n a k : Nat}
    (h : ∀ c, c < k → PtrSim (v.at (a + c * n) n) p (q (v.at (a + c * n) n))) (m : Mem) :
    Traces (v.at a (k * n)) m ((eachSlice p ((v.row n a k).map (·.contents m))).1,
      { v.contents m with data := ((eachSlice p ((v.row n a k).map (·.contents m))).2.map (·.data)).flatten })
      (PtrView.inTurn q (v.row n a k) m) := by
  induction k generalizing a m with
  | zero => exact ⟨rfl, by simp [PtrView.row, eachSlice, PtrView.contents, Mem.read, PtrView.inTurn], fun _ _ => rfl, [], by simp [PtrView.row, PtrView.inTurn], by simp⟩
  | succ k ih =>
    have H0 := h 0 (by omega) m
    rw [Nat.zero_mul, Nat.add_zero] at H0
    rw [row_succ, List.map_cons]
    rcases hA : p ((v.at a n).contents m) with ⟨r, s1⟩
    rcases hB : q (v.at a n) m with ⟨r', m1⟩
    rw [hA, hB] at H0
    have er : r = r' := H0.res
    subst er
    have hs1 : s1.data = m1.read a n := by rw [show s1 = _ from H0.view]; rfl
    -- the rest of the row is untouched by the first step
    have hfr : (v.row n (a + n) k).map (·.contents m) = (v.row n (a + n) k).map (·.contents m1) := by
      refine List.map_congr_left fun w hw => ?_
      obtain ⟨c, -, rfl⟩ := List.mem_map.1 hw
      simp only [PtrView.contents, SliceCopy.mk.injEq, and_true]
      exact (Mem.read_congr fun i h1 h2 => H0.frame i (by simp only; omega)).symm
    have hsz : (k + 1) * n = n + k * n := by rw [Nat.succ_mul, Nat.add_comm]
    obtain ⟨l, el, hl⟩ := H0.log
    -- stopping after the first part
    have stop : ∀ r : Res (List β), Traces (v.at a ((k + 1) * n)) m (r, { v.contents m with data :=
        ((s1 :: (v.row n (a + n) k).map (·.contents m)).map (·.data)).flatten }) (r, m1) := by
      intro r
      refine ⟨rfl, ?_, fun i hi => H0.frame i (by simp only at hi ⊢; rw [hsz] at hi; omega), l, el,
        fun x hx => (hl x hx).mono (Nat.le_refl _) (by simp only; rw [hsz]; omega)⟩
      rw [hfr, List.map_cons, List.flatten_cons, row_contents, hs1, ← Mem.read_append, ← hsz]
      rfl
    cases r with
    | ok x =>
      have ih' := ih (a := a + n) (fun c hc => by
        have := h (c + 1) (by omega)
        rw [show a + (c + 1) * n = a + n + c * n by rw [Nat.succ_mul]; omega] at this
        exact this) m1
      rcases hC : PtrView.inTurn q (v.row n (a + n) k) m1 with ⟨rc, m2⟩
      rw [hC] at ih'
      simp only [eachSlice, hA, PtrView.inTurn, M.bind_run, hB, hC]
      rw [hfr]
      obtain ⟨l', el', hl'⟩ := ih'.log
      have hres : (eachSlice p ((v.row n (a + n) k).map (·.contents m1))).1 = rc := ih'.res
      have hdat : ((eachSlice p ((v.row n (a + n) k).map (·.contents m1))).2.map (·.data)).flatten = m2.read (a + n) (k * n) := by
        have := congrArg SliceCopy.data ih'.view
        exact this
      have hm2 : m2.read a n = m1.read a n := Mem.read_congr fun i h1 h2 => ih'.frame i (by simp only; omega)
      have fin : ∀ r : Res (List β), Traces (v.at a ((k + 1) * n)) m (r, { v.contents m with data :=
          ((s1 :: (eachSlice p ((v.row n (a + n) k).map (·.contents m1))).2).map (·.data)).flatten }) (r, m2) := by
        intro r
        refine ⟨rfl, ?_, ?_, l ++ l', by rw [show m2.log = _ from el', show m1.log = _ from el, List.append_assoc], ?_⟩
        · rw [List.map_cons, List.flatten_cons, hdat, hs1, ← hm2, ← Mem.read_append, ← hsz]
          rfl
        · intro i hi
          simp only at hi
          rw [hsz] at hi
          exact (ih'.frame i (by simp only; omega)).trans (H0.frame i (by simp only; omega))
        · intro x hx
          rcases List.mem_append.1 hx with hx | hx
          · exact (hl x hx).mono (Nat.le_refl _) (by simp only; rw [hsz]; omega)
          · exact (hl' x hx).mono (Nat.le_add_right _ _) (by simp only; rw [hsz]; omega)
      rw [hres]
      cases rc <;> exact fin _
    | panic y =>
      simp only [eachSlice, hA, PtrView.inTurn, M.bind_run, hB]
      exact stop _
    | ub =>
      simp only [eachSlice, hA, PtrView.inTurn, M.bind_run, hB]
      exact stop _
    | abort =>
      simp only [eachSlice, hA, PtrView.inTurn, M.bind_run, hB]
      exact stop _

/-- The chunks of a piece of memory. -/
theorem chunks_read {n : Nat} (hn : 0 < n) (a k : Nat) (m : Mem) :
    Dync.chunks n (m.read a k) = (List.range (k / n)).map fun c => m.read (a + c * n) n := by
  induction k using Nat.strongRecOn generalizing a with
  | ind k ih =>
    rw [Dync.chunks]
    by_cases hk : n ≤ k
    · rw [dif_pos ⟨hn, by rw [Mem.read_length]; exact hk⟩, Mem.read_take hk, Mem.read_drop hk, ih (k - n) (by omega)]
      have e : k / n = (k - n) / n + 1 := by rw [Nat.div_eq_sub_div hn hk]
      rw [e, List.range_succ_eq_map, List.map_cons, List.map_map, Nat.zero_mul, Nat.add_zero]
      congr 1
      refine List.map_congr_left fun c _ => ?_
      simp only [Function.comp, Nat.succ_mul]
      congr 1
      omega
    · rw [dif_neg (by rw [Mem.read_length]; omega), Nat.div_eq_of_lt (by omega)]
      rfl

/-- The chunks of a view are those of its bytes. -/
theorem chunks_contents {n : Nat} (hn : 0 < n) (m : Mem) :
    (Dync.chunks n (v.contents m).data).map (fun d => (⟨d, v.elem, v.vtable⟩ : SliceCopy V)) = (v.row n v.addr (v.len / n)).map (·.contents m) := by
  rw [show (v.contents m).data = m.read v.addr v.len from rfl, chunks_read hn, PtrView.row, List.map_map, List.map_map]
  rfl

/-- A loop over all chunks of a view. -/
theorem each_chunks {p : M (SliceCopy V) (List β)} {q : PtrView V → M Mem (List β)} {n : Nat} (hn : 0 < n)
    (h : ∀ c, c < v.len / n → PtrSim (v.at (v.addr + c * n) n) p (q (v.at (v.addr + c * n) n))) (m : Mem) :
    Traces v m ((eachSlice p ((Dync.chunks n (v.contents m).data).map fun d => ⟨d, v.elem, v.vtable⟩)).1,
      { v.contents m with data := splice (m.read v.addr v.len) 0 ((eachSlice p ((Dync.chunks n (v.contents m).data).map fun d => ⟨d, v.elem, v.vtable⟩)).2.map (·.data)).flatten })
      (PtrView.inTurn q ((List.range (v.len / n)).map fun c => v.at (v.addr + c * n) n) m) := by
  rw [chunks_contents hn]
  have H := each_row h m
  have H' := Traces.part (v := v) (a := 0) (n := v.len / n * n) H (by rw [Nat.zero_add]; exact Nat.div_mul_le_self _ _)
  exact H'

end Dync
