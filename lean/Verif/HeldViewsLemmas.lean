import Verif.HeldViewsSpec
import Verif.PointersLemmas7
import Verif.ViewLemmas
/-!
# Lemmas for programs that hold several views
-/
namespace Dync
variable {U V α β : Type} {Γ : TyEnv U} {cfg : Cfg} {n i : Nat} {m : Mem} {ρ : Nat → Option (PtrView V)} {σ : Lists} {t : TyId}

/-- What a run with the views `ρ` does, compared with separate lists. -/
structure HeldSim (Γ : TyEnv U) (n : Nat) (m : Mem) (ρ : Nat → Option (PtrView V)) (σ : Lists) (R : Res α × Mem) (P : Res α × Lists) :
    Prop where
  res : R.1.Agrees P.1
  held : HeldAt Γ n R.2 ρ P.2
  shape : shape P.2 = shape σ
  frame : ∀ x, (∀ k v, ρ k = some v → ¬ v.Covers x) → R.2.byte x = m.byte x
  log : ∃ l, R.2.log = m.log ++ l ∧ ∀ a ∈ l, ∃ k v, ρ k = some v ∧ a.Within v.addr v.len

theorem HeldSim.stay (H : HeldAt Γ n m ρ σ) {r s : Res α} (h : r.Agrees s) : HeldSim Γ n m ρ σ (r, m) (s, σ) :=
  ⟨h, H, rfl, fun _ _ => rfl, [], by simp, fun _ h => by cases h⟩

theorem HeldSim.step {m1 : Mem} {σ1 : Lists} {a b : α} {R : Res β × Mem} {P : Res β × Lists}
    (h : HeldSim Γ n m ρ σ (.ok a, m1) (.ok b, σ1)) (h' : HeldSim Γ n m1 ρ σ1 R P) : HeldSim Γ n m ρ σ R P := by
  obtain ⟨l, e, hl⟩ := h.log
  obtain ⟨l', e', hl'⟩ := h'.log
  refine ⟨h'.res, h'.held, h'.shape.trans h.shape, fun x hx => (h'.frame x hx).trans (h.frame x hx), l ++ l', ?_, ?_⟩
  · rw [e', show m1.log = m.log ++ l from e, List.append_assoc]
  · intro a ha
    rcases List.mem_append.1 ha with ha | ha
    · exact hl a ha
    · exact hl' a ha

theorem HeldSim.bind {a : M Mem α} {b : M Lists α} {f : α → M Mem β} {g : α → M Lists β} (h : HeldSim Γ n m ρ σ (a m) (b σ))
    (hf : ∀ x m1 σ1, HeldAt Γ n m1 ρ σ1 → Dync.shape σ1 = Dync.shape σ → HeldSim Γ n m1 ρ σ1 (f x m1) (g x σ1)) :
    HeldSim Γ n m ρ σ ((a >>= f) m) ((b >>= g) σ) := by
  rcases ha : a m with ⟨r, m1⟩
  rcases hb : b σ with ⟨s, σ1⟩
  rw [ha, hb] at h
  rcases h.res.cases with ⟨x, e1, e2⟩ | ⟨y, z, e1, e2⟩
  · cases (show r = .ok x from e1)
    cases (show s = .ok x from e2)
    rw [M.bind_ok ha, M.bind_ok hb]
    exact h.step (hf x m1 σ1 h.held h.shape)
  · cases (show r = .panic y from e1)
    cases (show s = .panic z from e2)
    rw [M.bind_panic ha, M.bind_panic hb]
    exact ⟨trivial, h.held, h.shape, h.frame, h.log⟩

/-- The view in `i` changes, and nothing else. -/
theorem HeldSim.one (H : HeldAt Γ n m ρ σ) {v : PtrView V} {es es' : List Bytes} (hv : ρ i = some v) (hs : σ i = some (t, es))
    {R : Res α × Mem} {s : Res α} (hr : R.1.Agrees s) (hR : SRepr Γ t es' (v.contents R.2)) (hl : es'.length = es.length)
    (hf : ∀ x, ¬ v.Covers x → R.2.byte x = m.byte x) (hlog : ∃ l, R.2.log = m.log ++ l ∧ ∀ a ∈ l, a.Within v.addr v.len) :
    HeldSim Γ n m ρ σ R (s, Slots.put σ i (some (t, es'))) := by
  refine ⟨hr, ⟨H.fresh, fun k => ?_, fun k w t' fs hk hw => ?_, H.apart⟩, ?_, fun x hx => hf x (hx i v hv), ?_⟩
  · simp only [Slots.put]
    split
    · rename_i e; simp [e, hv]
    · exact H.none_iff k
  · simp only [Slots.put] at hw
    split at hw
    · rename_i e
      subst e
      rw [hv] at hk
      cases hk
      cases hw
      exact ⟨(H.view _ _ _ _ hv hs).1, hR⟩
    · rename_i e
      obtain ⟨h1, h2⟩ := H.view k w t' fs hk hw
      refine ⟨h1, ?_⟩
      have : w.contents R.2 = w.contents m := by
        simp only [PtrView.contents]
        rw [Mem.read_congr fun x h1 h2 => hf x fun hc => H.apart i k v w (fun h => e h.symm) hv hk x ⟨hc, h1, h2⟩]
      rw [this]
      exact h2
  · funext k
    simp only [Dync.shape, Slots.put]
    split
    · rename_i e; simp [e, hs, hl]
    · rfl
  · obtain ⟨l, e, h⟩ := hlog
    exact ⟨l, e, fun a ha => ⟨i, v, hv, h a ha⟩⟩

theorem keeps_on (H : HeldAt Γ n m ρ σ) {v : PtrView V} {es : List Bytes} (hv : ρ i = some v) (hs : σ i = some (t, es)) {p : SProg}
    (hp : p.Sized Γ t) (hr : p.InRange cfg (Γ.size t)) :
    HeldSim Γ n m ρ σ (p.runAt Γ cfg v m) ((p.plain t es).1, Slots.put σ i (some (t, (p.plain t es).2))) := by
  obtain ⟨O, R⟩ := H.view _ _ _ _ hv hs
  have T := p.ptr_sim (cfg := cfg) hp v O m
  obtain ⟨k1, k2, k3, -⟩ := p.sim (cfg := cfg) hp hr es _ R
  refine HeldSim.one H hv hs (by rw [← T.res]; exact k1) (by rw [← T.view]; exact k2) k3 T.frame T.log

theorem keeps_load (H : HeldAt Γ n m ρ σ) {v : PtrView V} (hv : ρ i = some v) {a k al : Nat} (hw : Access.Within v.addr v.len ⟨a, k, al, false⟩) :
    HeldSim Γ n m ρ σ (Mem.load a k al m) (.ok (m.read a k), σ) := by
  refine ⟨rfl, ⟨H.fresh, H.none_iff, fun k v t es h1 h2 => H.view k v t es h1 h2, H.apart⟩, rfl, fun _ _ => rfl, [⟨a, k, al, false⟩], rfl, ?_⟩
  intro x hx
  rw [List.mem_singleton] at hx
  subst hx
  exact ⟨i, v, hv, hw⟩

theorem keeps_store (H : HeldAt Γ n m ρ σ) {v : PtrView V} {es : List Bytes} (hv : ρ i = some v) (hs : σ i = some (t, es)) {k : Nat}
    (hk : k < es.length) {x : Bytes} (hx : x.length = Γ.size t) :
    HeldSim Γ n m ρ σ (Mem.store (v.addr + k * Γ.size t) x 1 m) (.ok (), Slots.put σ i (some (t, es.set k x))) := by
  obtain ⟨O, R⟩ := H.view _ _ _ _ hv hs
  have hlen : v.len = es.length * Γ.size t := by rw [← R.length, contents_len]
  have hle : (k + 1) * Γ.size t ≤ es.length * Γ.size t := Nat.mul_le_mul_right _ hk
  have hk1 : (k + 1) * Γ.size t = k * Γ.size t + Γ.size t := Nat.succ_mul _ _
  have W : Access.Within v.addr v.len ⟨v.addr + k * Γ.size t, x.length, 1, true⟩ := ⟨by simp, by simp only; omega, Nat.one_dvd _⟩
  have T := Traces.store (m := m) W
  refine HeldSim.one H hv hs rfl ?_ (by simp) T.frame T.log
  rw [← T.view]
  simp only [Nat.add_sub_cancel_left]
  have e := R.splice_elem hk hx
  rw [show m.read v.addr v.len = (v.contents m).data from rfl, e]
  exact R.set_ok (sized_set R.each hx) (by simp)

/-! ### Parts of a view -/

/-- The views lie one behind the other, from address `a` on. -/
def Laid : Nat → List (PtrView V) → Prop
  | _, [] => True
  | a, v :: vs => v.addr = a ∧ Laid (a + v.len) vs

/-- The number of bytes of views. -/
def bytesOf : List (PtrView V) → Nat
  | [] => 0
  | v :: vs => v.len + bytesOf vs

theorem Laid.get {a c : Nat} {cs : List (PtrView V)} (L : Laid a cs) {w : PtrView V} (h : cs[c]? = some w) :
    a ≤ w.addr ∧ w.addr + w.len ≤ a + bytesOf cs := by
  induction cs generalizing a c with
  | nil => simp at h
  | cons v vs ih =>
    obtain ⟨h1, h2⟩ := L
    simp only [bytesOf]
    cases c with
    | zero => simp only [List.getElem?_cons_zero, Option.some.injEq] at h; subst h; omega
    | succ c =>
      simp only [List.getElem?_cons_succ] at h
      obtain ⟨k1, k2⟩ := ih h2 h
      omega

theorem Laid.apart {a c d : Nat} {cs : List (PtrView V)} (L : Laid a cs) {w w' : PtrView V} (h : cs[c]? = some w) (h' : cs[d]? = some w')
    (hcd : c < d) : w.addr + w.len ≤ w'.addr := by
  induction cs generalizing a c d with
  | nil => simp at h
  | cons v vs ih =>
    obtain ⟨h1, h2⟩ := L
    cases d with
    | zero => omega
    | succ d =>
      simp only [List.getElem?_cons_succ] at h'
      cases c with
      | zero =>
        simp only [List.getElem?_cons_zero, Option.some.injEq] at h
        subst h
        have := (h2.get h').1
        omega
      | succ c =>
        simp only [List.getElem?_cons_succ] at h
        exact ih h2 h h' (by omega)

theorem Laid.read {a : Nat} {cs : List (PtrView V)} (L : Laid a cs) (m : Mem) :
    m.read a (bytesOf cs) = (cs.map fun w => m.read w.addr w.len).flatten := by
  induction cs generalizing a with
  | nil => simp [bytesOf, Mem.read]
  | cons v vs ih =>
    obtain ⟨h1, h2⟩ := L
    simp only [bytesOf, List.map_cons, List.flatten_cons]
    rw [Mem.read_append, ih h2, h1]

theorem Laid.contents {a : Nat} {cs : List (PtrView V)} {parts : List (List Bytes)} (L : Laid a cs) (hl : cs.length = parts.length)
    (hw : ∀ (c : Nat) (w : PtrView V) (es : List Bytes), cs[c]? = some w → parts[c]? = some es → w.len = es.flatten.length)
    (h : m.read a (bytesOf cs) = parts.flatten.flatten) {c : Nat} {w : PtrView V} {es : List Bytes} (h1 : cs[c]? = some w)
    (h2 : parts[c]? = some es) : m.read w.addr w.len = es.flatten := by
  induction cs generalizing a c parts with
  | nil => simp at h1
  | cons v vs ih =>
    cases parts with
    | nil => simp at h2
    | cons p ps =>
      obtain ⟨l1, l2⟩ := L
      have e := hw 0 v p rfl rfl
      simp only [bytesOf, List.flatten_cons, List.flatten_append] at h
      rw [Mem.read_append] at h
      obtain ⟨h3, h4⟩ := List.append_inj h (by rw [Mem.read_length, e])
      cases c with
      | zero =>
        simp only [List.getElem?_cons_zero, Option.some.injEq] at h1 h2
        subst h1 h2
        rw [l1]
        exact h3
      | succ c =>
        simp only [List.getElem?_cons_succ] at h1 h2
        exact ih l2 (by simpa using hl) (fun c w es => hw (c + 1) w es) h4 h1 h2

theorem gather_succ (k : Nat) : gather σ n (k + 1) = (σ n).elim [] Prod.snd ++ gather σ (n + 1) k := by
  simp only [gather, List.range_succ_eq_map, List.map_cons, List.map_map, List.flatten_cons, Nat.add_zero]
  congr 3
  funext c
  simp only [Function.comp]
  congr 2
  omega

theorem gather_parts {cs : List (PtrView V)} {parts : List (List Bytes)} (hl : cs.length = parts.length)
    (h : ∀ (c : Nat) (w : PtrView V) (es : List Bytes), cs[c]? = some w → parts[c]? = some es → ∃ fs, σ (n + c) = some (t, fs) ∧ fs.length = es.length ∧
      m.read w.addr w.len = fs.flatten ∧ ∀ e ∈ fs, e.length = Γ.size t) :
    (gather σ n parts.length).flatten = (cs.map fun w => m.read w.addr w.len).flatten ∧
      (gather σ n parts.length).length = parts.flatten.length ∧ ∀ e ∈ gather σ n parts.length, e.length = Γ.size t := by
  induction cs generalizing n parts with
  | nil =>
    cases parts with
    | nil => simp [gather]
    | cons p ps => simp at hl
  | cons v vs ih =>
    cases parts with
    | nil => simp at hl
    | cons p ps =>
      obtain ⟨fs, k1, k2, k3, k4⟩ := h 0 v p rfl rfl
      obtain ⟨i1, i2, i3⟩ := ih (n := n + 1) (parts := ps) (by simpa using hl) (fun c w es h1 h2 => by
        obtain ⟨fs, j1, j2⟩ := h (c + 1) w es h1 h2
        exact ⟨fs, by rw [← j1]; congr 1; omega, j2⟩)
      rw [List.length_cons, gather_succ, show σ n = some (t, fs) from k1]
      simp only [Option.elim]
      refine ⟨?_, ?_, ?_⟩
      · rw [List.flatten_append, i1, List.map_cons, List.flatten_cons, k3]
      · simp only [List.length_append, List.flatten_cons, i2, k2]
      · intro e he
        rcases List.mem_append.1 he with he | he
        · exact k4 e he
        · exact i3 e he

theorem opened_old {γ : Type} {τ : Nat → Option γ} {cs : List γ} {k : Nat} (h1 : k ≠ i) (h2 : k < n) : opened τ n i cs k = τ k := by
  simp only [opened, if_neg h1, if_pos h2]

theorem opened_new {γ : Type} {τ : Nat → Option γ} {cs : List γ} {c : Nat} (hi : i < n) : opened τ n i cs (n + c) = cs[c]? := by
  simp only [opened, if_neg (show ¬ n + c = i by omega), if_neg (show ¬ n + c < n by omega), Nat.add_sub_cancel_left]

theorem opened_self {γ : Type} {τ : Nat → Option γ} {cs : List γ} : opened τ n i cs i = none := by simp only [opened, if_true]

theorem shape_opened {cs : List (TyId × List Bytes)} :
    Dync.shape (opened σ n i cs) = opened (Dync.shape σ) n i (cs.map fun x => (x.1, x.2.length)) := by
  funext k
  simp only [Dync.shape, opened]
  split
  · rfl
  · split
    · rfl
    · rw [List.getElem?_map]

theorem keeps_parts (H : HeldAt Γ n m ρ σ) {v : PtrView V} {pre post : List Bytes} {parts : List (List Bytes)} {cs : List (PtrView V)}
    (hv : ρ i = some v) (hs : σ i = some (t, pre ++ parts.flatten ++ post)) (hl : cs.length = parts.length)
    (L : Laid (v.addr + pre.length * Γ.size t) cs)
    (hw : ∀ (c : Nat) (w : PtrView V) (es : List Bytes), cs[c]? = some w → parts[c]? = some es → w.Ok Γ t ∧ w.len = es.length * Γ.size t)
    {R : Res α × Mem} {q : M Lists α}
    (ih : HeldAt Γ (n + parts.length) m (opened ρ n i cs) (opened σ n i (parts.map fun es => (t, es))) →
      HeldSim Γ (n + parts.length) m (opened ρ n i cs) (opened σ n i (parts.map fun es => (t, es))) R
        (q (opened σ n i (parts.map fun es => (t, es))))) :
    HeldSim Γ n m ρ σ R (inParts n i t pre parts post q σ) := by
  obtain ⟨O, S⟩ := H.view _ _ _ _ hv hs
  have hi : i < n := Nat.lt_of_not_le fun h => by rw [H.fresh i h] at hv; cases hv
  have hlen : v.len = (pre ++ parts.flatten ++ post).length * Γ.size t := by rw [← S.length, contents_len]
  have each1 : ∀ e ∈ pre, e.length = Γ.size t := fun e he => S.each e (by simp [he])
  have each2 : ∀ e ∈ parts.flatten, e.length = Γ.size t := fun e he => S.each e (List.mem_append_left _ (List.mem_append_right _ he))
  have each3 : ∀ e ∈ post, e.length = Γ.size t := fun e he => S.each e (by simp [he])
  have epart : ∀ {c : Nat} {es : List Bytes}, parts[c]? = some es → ∀ e ∈ es, e.length = Γ.size t := fun h e he =>
    each2 e (List.mem_flatten.2 ⟨_, List.mem_of_getElem? h, he⟩)
  have hlen' : v.len = pre.length * Γ.size t + (parts.flatten.length * Γ.size t + post.length * Γ.size t) := by
    rw [hlen]; simp only [List.length_append, Nat.add_mul]; omega
  have htot : bytesOf cs = parts.flatten.length * Γ.size t := by
    clear ih L hlen hlen' each1 each2 each3 epart hs S
    induction cs generalizing parts with
    | nil => cases parts with
      | nil => simp [bytesOf]
      | cons p ps => simp at hl
    | cons w ws ihc => cases parts with
      | nil => simp at hl
      | cons p ps =>
        have e := ihc (parts := ps) (by simpa using hl) (fun c w es => hw (c + 1) w es)
        simp only [bytesOf, List.flatten_cons, List.length_append, Nat.add_mul, e, (hw 0 w p rfl rfl).2]
  have hread : ∀ m' : Mem, m'.read v.addr v.len = m'.read v.addr (pre.length * Γ.size t) ++
      (m'.read (v.addr + pre.length * Γ.size t) (bytesOf cs) ++
        m'.read (v.addr + pre.length * Γ.size t + bytesOf cs) (post.length * Γ.size t)) := by
    intro m'
    rw [hlen', Mem.read_append, Mem.read_append, htot]
  have hdata : m.read v.addr v.len = pre.flatten ++ (parts.flatten.flatten ++ post.flatten) := by
    have := S.data
    rw [show (v.contents m).data = m.read v.addr v.len from rfl] at this
    rw [this]; simp
  rw [hread m] at hdata
  obtain ⟨d1, d2⟩ := List.append_inj hdata (by rw [Mem.read_length, length_flatten_eq each1])
  obtain ⟨d2, d3⟩ := List.append_inj d2 (by rw [Mem.read_length, length_flatten_eq each2, htot])
  have hin : ∀ {c : Nat} {w : PtrView V}, cs[c]? = some w → v.addr + pre.length * Γ.size t ≤ w.addr ∧
      w.addr + w.len ≤ v.addr + pre.length * Γ.size t + parts.flatten.length * Γ.size t := fun h => by
    have := L.get h; rw [htot] at this; exact this
  have hcov : ∀ {c : Nat} {w : PtrView V} {x : Nat}, cs[c]? = some w → w.Covers x → v.Covers x := by
    intro c w x h hx
    have := hin h
    exact ⟨by have := hx.1; omega, by have := hx.2; omega⟩
  have newOf : ∀ {k : Nat} {w : PtrView V}, opened ρ n i cs k = some w → (k ≠ i ∧ k < n ∧ ρ k = some w) ∨ (∃ c, k = n + c ∧ cs[c]? = some w) := by
    intro k w h
    by_cases h1 : k = i
    · subst h1; rw [opened_self] at h; cases h
    · by_cases h2 : k < n
      · rw [opened_old h1 h2] at h; exact .inl ⟨h1, h2, h⟩
      · obtain ⟨c, rfl⟩ : ∃ c, k = n + c := ⟨k - n, by omega⟩
        rw [opened_new hi] at h
        exact .inr ⟨c, rfl, h⟩
  have H' : HeldAt Γ (n + parts.length) m (opened ρ n i cs) (opened σ n i (parts.map fun es => (t, es))) := by
    refine ⟨?_, ?_, ?_, ?_⟩
    · intro k hk
      obtain ⟨c, rfl⟩ : ∃ c, k = n + c := ⟨k - n, by omega⟩
      rw [opened_new hi]
      exact List.getElem?_eq_none (by omega)
    · intro k
      by_cases h1 : k = i
      · subst h1; rw [opened_self, opened_self]; simp
      · by_cases h2 : k < n
        · rw [opened_old h1 h2, opened_old h1 h2]; exact H.none_iff k
        · obtain ⟨c, rfl⟩ : ∃ c, k = n + c := ⟨k - n, by omega⟩
          rw [opened_new hi, opened_new hi, List.getElem?_eq_none_iff, List.getElem?_eq_none_iff, List.length_map, hl]
    · intro k w t' es h1 h2
      rcases newOf h1 with ⟨k1, k2, k3⟩ | ⟨c, rfl, k3⟩
      · rw [opened_old k1 k2] at h2
        exact H.view k w t' es k3 h2
      · rw [opened_new hi, List.getElem?_map] at h2
        obtain ⟨fs, hfs, e⟩ := Option.map_eq_some_iff.1 h2
        obtain ⟨rfl, rfl⟩ := Prod.mk.inj e
        obtain ⟨o1, o2⟩ := hw c w fs k3 hfs
        refine ⟨o1, ?_, epart hfs, o1.elem, S.pos, ?_⟩
        · exact L.contents hl (fun c w es h1 h2 => by rw [(hw c w es h1 h2).2, length_flatten_eq (epart h2)]) d2 k3 hfs
        · rw [← o2]
          have := hin k3
          have := S.bound
          omega
    · intro j k w w' hjk h1 h2 x hx
      rcases newOf h1 with ⟨a1, a2, a3⟩ | ⟨c, rfl, a3⟩ <;> rcases newOf h2 with ⟨b1, b2, b3⟩ | ⟨d, rfl, b3⟩
      · exact H.apart j k w w' hjk a3 b3 x hx
      · exact H.apart j i w v a1 a3 hv x ⟨hx.1, hcov b3 hx.2⟩
      · exact H.apart k i w' v b1 b3 hv x ⟨hx.2, hcov a3 hx.1⟩
      · rcases Nat.lt_or_gt_of_ne (show c ≠ d from fun e => hjk (by rw [e])) with h | h
        · have := L.apart a3 b3 h; have := hx.1.2; have := hx.2.1; omega
        · have := L.apart b3 a3 h; have := hx.2.2; have := hx.1.1; omega
  have K := ih H'
  generalize hq : q (opened σ n i (parts.map fun es => (t, es))) = P at K
  have eP : inParts n i t pre parts post q σ = (P.1, fun k => if k = i then some (t, pre ++ gather P.2 n parts.length ++ post) else if k < n then P.2 k else none) := by
    simp only [inParts, hq]
  rw [eP]
  have hsh : ∀ k, (P.2 k).map (fun x => (x.1, x.2.length)) = (opened σ n i (parts.map fun es => (t, es)) k).map fun x => (x.1, x.2.length) :=
    fun k => congrFun K.shape k
  obtain ⟨g1, g2, g3⟩ := gather_parts (Γ := Γ) (σ := P.2) (n := n) (t := t) (m := R.2) hl (fun c w es h1 h2 => by
    have e := hsh (n + c)
    rw [opened_new hi, List.getElem?_map, h2] at e
    simp only [Option.map_some] at e
    obtain ⟨⟨t', fs⟩, e1, e2⟩ := Option.map_eq_some_iff.1 e
    simp only [Prod.mk.injEq] at e2
    obtain ⟨rfl, e2⟩ := e2
    obtain ⟨-, S'⟩ := K.held.view (n + c) w t' fs (by rw [opened_new hi]; exact h1) e1
    exact ⟨fs, e1, e2, S'.data, S'.each⟩)
  have hout : ∀ x, v.Covers x → (x < v.addr + pre.length * Γ.size t ∨ v.addr + pre.length * Γ.size t + bytesOf cs ≤ x) → R.2.byte x = m.byte x := by
    intro x hx hx'
    refine K.frame x fun k w h hc => ?_
    rcases newOf h with ⟨k1, k2, k3⟩ | ⟨c, rfl, k3⟩
    · exact H.apart k i w v k1 k3 hv x ⟨hc, hx⟩
    · have := L.get k3
      have := hc.1
      have := hc.2
      omega
  refine ⟨K.res, ⟨H.fresh, ?_, ?_, H.apart⟩, ?_, ?_, ?_⟩
  · intro k
    simp only
    by_cases h1 : k = i
    · simp [h1, hv]
    · rw [if_neg h1]
      by_cases h2 : k < n
      · rw [if_pos h2]
        have := K.held.none_iff k
        rw [opened_old h1 h2] at this
        exact this
      · rw [if_neg h2]
        simp [H.fresh k (by omega)]
  · intro k w t' es h1 h2
    simp only at h2
    by_cases h3 : k = i
    · subst h3
      rw [hv] at h1
      cases h1
      rw [if_pos rfl] at h2
      cases h2
      refine ⟨O, ?_, ?_, O.elem, S.pos, ?_⟩
      · show R.2.read v.addr v.len = _
        rw [hread R.2, L.read R.2, ← g1]
        rw [Mem.read_congr (m := m) (m' := R.2) (a := v.addr) (fun x h1 h2 => hout x ⟨h1, by omega⟩ (.inl h2)), d1]
        rw [Mem.read_congr (m := m) (m' := R.2) (a := v.addr + pre.length * Γ.size t + bytesOf cs)
          (fun x h1 h2 => hout x ⟨by omega, by omega⟩ (.inr h1)), d3]
        simp
      · intro e he
        simp only [List.mem_append] at he
        rcases he with (he | he) | he
        · exact each1 e he
        · exact g3 e he
        · exact each3 e he
      · have := S.bound
        simp only [List.length_append, g2] at this ⊢
        exact this
    · rw [if_neg h3] at h2
      by_cases h4 : k < n
      · rw [if_pos h4] at h2
        exact K.held.view k w t' es (by rw [opened_old h3 h4]; exact h1) h2
      · rw [if_neg h4] at h2; cases h2
  · funext k
    simp only [Dync.shape]
    by_cases h1 : k = i
    · subst h1
      rw [if_pos rfl, hs]
      simp [g2]
    · rw [if_neg h1]
      by_cases h2 : k < n
      · rw [if_pos h2]
        have := hsh k
        rw [opened_old h1 h2] at this
        exact this
      · rw [if_neg h2]
        rw [(H.none_iff k).1 (H.fresh k (by omega))]
  · intro x hx
    refine K.frame x fun k w h hc => ?_
    rcases newOf h with ⟨k1, k2, k3⟩ | ⟨c, rfl, k3⟩
    · exact hx k w k3 hc
    · exact hx i v hv (hcov k3 hc)
  · obtain ⟨l, e, hl⟩ := K.log
    refine ⟨l, e, fun a ha => ?_⟩
    obtain ⟨k, w, h, W⟩ := hl a ha
    rcases newOf h with ⟨k1, k2, k3⟩ | ⟨c, rfl, k3⟩
    · exact ⟨k, w, k3, W⟩
    · have := hin k3
      exact ⟨i, v, hv, W.mono (by omega) (by omega)⟩

end Dync
