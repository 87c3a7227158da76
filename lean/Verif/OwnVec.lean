import Verif.VecVoidExact
import Verif.VecDynLemmas3
import Verif.Ownership
/-!
# Helper lemmas: who owns the elements of typed vectors and containers
-/
namespace Dync
variable {U V α : Type} {Γ : TyEnv (Ledger U)} {S : Values Γ} {t : TyId} {es : List Bytes} {x : Bytes}
  {w : World (Ledger U)} {cfg : Cfg}

/-- What a computation of the owner of the block `p` and of the values `I` does: afterwards it owns the block `p'`
and the values `O`. -/
def Eff (w : World (Ledger U)) (p : Ptr) (I : List Obj) (w' : World (Ledger U)) (p' : Ptr) (O : List Obj) : Prop :=
  Moved w.heap p w'.heap p' ∧ Own w.user w'.user I O

namespace Eff
variable {w1 w2 : World (Ledger U)} {p p1 p2 : Ptr} {I O I' O' : List Obj}

theorem refl (wf : w.heap.WF) (p : Ptr) (I : List Obj) : Eff w p I w p I := ⟨Moved.refl wf _, Own.refl _ _⟩
theorem forget (wf : w.heap.WF) (p : Ptr) (I : List Obj) : Eff w p I w none [] := ⟨(Moved.refl wf _).drop, Own.forget _ _⟩
theorem trans (h : Eff w p I w1 p1 O) (h' : Eff w1 p1 O w2 p2 O') : Eff w p I w2 p2 O' :=
  ⟨h.1.trans h'.1, h.2.trans h'.2⟩
theorem frame (h : Eff w p I w1 p1 O) (F : List Obj) : Eff w p (I ++ F) w1 p1 (O ++ F) := ⟨h.1, h.2.frame F⟩
theorem mono (h : Eff w p I w1 p1 O) (hi : ∀ a, I.count a ≤ I'.count a) (ho : ∀ a, O'.count a ≤ O.count a) :
    Eff w p I' w1 p1 O' := ⟨h.1, h.2.mono hi ho⟩
theorem lose (h : Eff w p I w1 p1 O) : Eff w p I w1 none [] := ⟨h.1.drop, h.2.lose⟩
theorem wf (h : Eff w p I w1 p1 O) : w1.heap.WF := h.1.wf
theorem ofUsr (wf : w.heap.WF) (p : Ptr) (h : Usr w w1 I O) : Eff w p I w1 p O :=
  ⟨by rw [h.1]; exact Moved.refl wf _, h.2⟩
/-- Afterwards user code runs that does not touch what was received. -/
theorem andThen (h : Eff w p I w1 p1 O) (h' : Usr w1 w2 I' O') : Eff w p (I ++ I') w2 p1 (O ++ O') :=
  ⟨by rw [h'.1]; exact h.1, h.2.seq h'.2⟩
/-- Afterwards memory is moved around. -/
theorem thenMoved (h : Eff w p I w1 p1 O) (m : Moved w1.heap p1 w2.heap p2) (hu : w2.user = w1.user) : Eff w p I w2 p2 O :=
  ⟨h.1.trans m, by rw [hu]; exact h.2⟩
theorem ofMoved (m : Moved w.heap p w1.heap p1) (hu : w1.user = w.user) (I : List Obj) : Eff w p I w1 p1 I :=
  ⟨m, by rw [hu]; exact Own.refl _ _⟩

end Eff

/-! ### Typed vectors, also of zero-sized elements -/

/-- A `Vec<T>` holding the elements `es`. -/
structure TV (Γ : TyEnv (Ledger U)) (t : TyId) (h : Heap) (es : List Bytes) (r : RVec) : Prop where
  bytes : r.bytes = es.flatten
  each : ∀ e ∈ es, e.length = Γ.size t
  len : r.len = es.length
  block : Γ.size t = 0 ∨ VGood (Γ.layout t) h r

namespace TV
variable {r : RVec}

theorem elems {h : Heap} (g : TV Γ t h es r) : r.elems (Γ.size t) = es := by
  have h1 := typedSlice_flatten (k := r.len) g.each g.len
  rw [← g.bytes] at h1
  unfold typedSlice at h1
  split at h1
  · exact Res.ok.inj h1
  · cases h1

theorem frame {h h' : Heap} (g : TV Γ t h es r) (hf : ∀ i, r.ptr = some i → h'.live i = h.live i) : TV Γ t h' es r :=
  ⟨g.bytes, g.each, g.len, g.block.imp id fun b => b.frame hf⟩

theorem heap {w w1 : World (Ledger U)} {I O : List Obj} (g : TV Γ t w.heap es r) (h : Usr w w1 I O) : TV Γ t w1.heap es r := by
  rw [h.1]; exact g

/-- Dropping a typed vector destroys its elements and frees its block, also when a destructor panics. -/
theorem dropTyped (A : Acct Γ S) (g : TV Γ t w.heap es r) (hv : ∀ e ∈ es, S.valid t e) (wf : w.heap.WF) :
    NoUb (RVec.dropTyped Γ t r) w (fun _ w' => Eff w r.ptr (objs t es) w' none [])
      (fun w' => Eff w r.ptr (objs t es) w' none []) := by
  have hb : ∀ w1, Usr w w1 (objs t es) [] → NoUb (r.dropBuf (Γ.layout t)) w1 (fun _ w' => Eff w r.ptr (objs t es) w' none [])
      (fun _ => False) := by
    intro w1 h1
    have h2 := Eff.ofUsr wf r.ptr h1
    rcases Nat.eq_zero_or_pos (Γ.size t) with h0 | hpos
    · exact NoUb.of_ok (a := ()) (s' := w1) (by simp [RVec.dropBuf, worldHeap, dealloc, h0]) h2.lose
    · have g1 := (g.heap h1).block.resolve_left (by omega)
      exact (RVec.dropBuf_runs (T := Γ.layout t) hpos g1 h2.wf).noUb.mono (fun _ w2 h => h2.thenMoved h.1 h.2) fun _ h => h
  unfold RVec.dropTyped
  rw [g.elems]
  refine NoUb.thenDrop (A.dropEach hv w) (fun _ w1 h1 => ?_) fun w1 h1 => ?_
  · exact (hb w1 h1).mono (fun _ _ h => h) fun _ h => h.elim
  · exact (hb w1 h1).mono (fun _ _ h => h) fun _ h => trivial

theorem push (g : TV Γ t w.heap es r) (wf : w.heap.WF) (hx : x.length = Γ.size t) :
    NoUb (RVec.push (Γ.layout t) x) (r, w)
      (fun _ s => TV Γ t s.2.heap (es ++ [x]) s.1 ∧ Moved w.heap r.ptr s.2.heap s.1.ptr ∧ s.2.user = w.user)
      (fun s => s = (r, w)) := by
  rcases Nat.eq_zero_or_pos (Γ.size t) with h0 | hpos
  · unfold RVec.push
    refine NoUb.bind_ok rfl ?_
    simp only
    have hb : r.bytes ++ x = (es ++ [x]).flatten := by simp [g.bytes]
    split
    · refine NoUb.of_panic (y := .capacity) (s' := (r, w)) ?_ rfl
      exact M.bind_panic (by simp [RVec.grow, h0])
    · refine ⟨⟨hb, ?_, by simp [g.len], .inl h0⟩, Moved.refl wf _, rfl⟩
      exact each_snoc g.each hx
  · have g1 := g.block.resolve_left (by omega)
    refine (RVec.push_runs (T := Γ.layout t) hpos g1 wf hx).noUb.mono ?_ fun _ h => h
    rintro _ s ⟨h1, h2, h3, h4, h5⟩
    exact ⟨⟨by rw [h4, g.bytes]; simp, each_snoc g.each hx, by rw [h3, g.len]; simp, .inr h1⟩, h2, h5⟩

theorem ofNew (wf : w.heap.WF) : TV Γ t w.heap [] (RVec.new (Γ.layout t)) := by
  refine ⟨rfl, by simp, rfl, ?_⟩
  rcases Nat.eq_zero_or_pos (Γ.size t) with h0 | hpos
  · exact .inl h0
  · refine .inr ⟨by simp [RVec.new], Nat.zero_le _, ?_, .inl ⟨by simp [RVec.new]; omega, rfl⟩⟩
    have h1 : Γ.align t ≤ Γ.size t := Nat.le_of_dvd hpos (Γ.align_dvd t)
    have := Γ.size_le t
    have hcap : (RVec.new (Γ.layout t)).cap = 0 := by simp [RVec.new]; omega
    rw [hcap]
    simp only [Nat.zero_mul]
    omega

theorem withCapacity (wf : w.heap.WF) (n : Nat) :
    NoUb (RVec.withCapacity (Γ.layout t) n) w
      (fun r w' => TV Γ t w'.heap [] r ∧ (Γ.size t = 0 ∨ VGood (Γ.layout t) w'.heap r ∧ r.cap = n) ∧
        Moved w.heap none w'.heap r.ptr ∧ w'.user = w.user) (fun w' => w' = w) := by
  refine (RVec.withCapacity_runs wf n).noUb.mono ?_ fun _ h => h
  rintro r w' ⟨h1, h2, h3, h4, h5⟩
  exact ⟨⟨h3, by simp, h2, h1.imp id And.left⟩, h1, h4, h5⟩

end TV

/-- What holds of a typed vector that elements are added to. -/
def TVal (Γ : TyEnv (Ledger U)) (S : Values Γ) (t : TyId) (w : World (Ledger U)) (p : Ptr) (I : List Obj)
    (s : RVec × World (Ledger U)) : Prop :=
  ∃ es, TV Γ t s.2.heap es s.1 ∧ (∀ e ∈ es, S.valid t e) ∧ Eff w p I s.2 s.1.ptr (objs t es)

theorem objs_append (t : TyId) (a b : List Bytes) : objs t (a ++ b) = objs t a ++ objs t b := List.map_append

theorem TVal.clonePush (A : Acct Γ S) {p : Ptr} {I : List Obj} (hx : S.valid t x) {s : RVec × World (Ledger U)}
    (h : TVal Γ S t w p I s) :
    NoUb (do let c ← onWorld (worldUser (Γ.clone t x)); RVec.push (Γ.layout t) c) s (fun _ => TVal Γ S t w p I) (TVal Γ S t w p I) := by
  obtain ⟨r, w1⟩ := s
  obtain ⟨es, g, hv, e⟩ := h
  simp only at g e
  refine NoUb.bind (R := fun c s => S.valid t c ∧ s.1 = r ∧ Usr w1 s.2 [] [(t, c)]) (NoUb.onWorld ((A.cloneW w1 hx).mono
    (fun c w2 h => ⟨h.1, rfl, h.2⟩) fun w2 h => ?_)) ?_
  · refine ⟨es, g.heap h, hv, ?_⟩
    have := e.andThen h
    simpa using this
  · rintro c ⟨r1, w2⟩ ⟨hc, rfl, h⟩
    simp only at h
    have e2 := e.andThen h
    refine (TV.push (g.heap h) e2.wf (S.len t c hc)).mono ?_ ?_
    · rintro _ ⟨r2, w3⟩ ⟨g3, m, hu⟩
      refine ⟨es ++ [c], g3, ?_, ?_⟩
      · intro y hy
        rcases List.mem_append.1 hy with hy | hy
        · exact hv y hy
        · rw [List.mem_singleton.1 hy]; exact hc
      · refine (e2.thenMoved m hu).mono (fun a => by simp) fun a => ?_
        rw [objs_append]; exact Nat.le_refl _
    · rintro _ rfl
      exact ⟨es, g.heap h, hv, e2.mono (fun a => by simp) fun a => by simp⟩

theorem RVec.extendClone_own (A : Acct Γ S) {xs : List Bytes} (hx : ∀ x ∈ xs, S.valid t x) {r : RVec} {w1 : World (Ledger U)} {p : Ptr}
    {I : List Obj} (h : TVal Γ S t w p I (r, w1)) :
    NoUb (RVec.extendClone Γ t xs) (r, w1) (fun _ => TVal Γ S t w p I) (TVal Γ S t w p I) := by
  refine (NoUb.forEach (P := fun rest s => (∀ x ∈ rest, S.valid t x) ∧ TVal Γ S t w p I s) ?_ ⟨hx, h⟩).mono
    (fun _ _ h => h.2) fun _ h => h
  rintro y rest s ⟨h1, h2⟩
  exact (h2.clonePush A (h1 y (by simp))).mono (fun _ _ h => ⟨fun z hz => h1 z (by simp [hz]), h⟩) fun _ h => h

/-- What was received can be handed on. -/
theorem TVal.trans {p : Ptr} {I : List Obj} {s s' : RVec × World (Ledger U)} {G : List Obj}
    (e : Eff w p I s.2 s.1.ptr G) (h : TVal Γ S t s.2 s.1.ptr G s') : TVal Γ S t w p I s' := by
  obtain ⟨es, h1, h2, h3⟩ := h
  exact ⟨es, h1, h2, e.trans h3⟩

theorem RVec.extendWith_own (A : Acct Γ S) (n : Nat) (hx : S.valid t x) {r : RVec} {w1 : World (Ledger U)} {p : Ptr}
    {I : List Obj} (h : TVal Γ S t w p I (r, w1)) :
    NoUb (RVec.extendWith Γ t n x) (r, w1) (fun _ => TVal Γ S t w p (I ++ [(t, x)])) (TVal Γ S t w p (I ++ [(t, x)])) := by
  have hd : ∀ s, TVal Γ S t w p I s → NoUb (onWorld (worldUser (Γ.drop t x))) s (fun _ => TVal Γ S t w p (I ++ [(t, x)]))
      (TVal Γ S t w p (I ++ [(t, x)])) := by
    rintro ⟨r, w2⟩ ⟨es, g, hv, e⟩
    refine NoUb.onWorld ((A.dropW w2 hx).mono ?_ ?_)
    · rintro _ w3 h
      exact ⟨es, g.heap h, hv, (e.andThen h).mono (fun a => Nat.le_refl _) fun a => by simp⟩
    · rintro w3 h
      exact ⟨es, g.heap h, hv, (e.andThen h).mono (fun a => Nat.le_refl _) fun a => by simp⟩
  cases n with
  | zero => exact hd _ h
  | succ n =>
    have h1 := NoUb.repeatN (P := TVal Γ S t w p I) (E := TVal Γ S t w p I)
      (n := do let c ← onWorld (worldUser (Γ.clone t x)); RVec.push (Γ.layout t) c) (fun s hs => hs.clonePush A hx) n h
    unfold RVec.extendWith
    rcases h1.cases_on with ⟨_, ⟨r2, w2⟩, e2, h2⟩ | ⟨y, s2, e2, h2⟩ | ⟨s2, e2⟩
    · obtain ⟨es, g, hv, e⟩ := h2
      have h3 := TV.push g e.wf (S.len t x hx)
      unfold NoUb
      simp only [e2]
      refine (NoUb.mono h3 (Q' := fun _ => TVal Γ S t w p (I ++ [(t, x)])) (E' := TVal Γ S t w p (I ++ [(t, x)])) ?_ ?_)
      · rintro _ ⟨r3, w3⟩ ⟨g3, m, hu⟩
        refine ⟨es ++ [x], g3, ?_, ?_⟩
        · intro y hy
          rcases List.mem_append.1 hy with hy | hy
          · exact hv y hy
          · rw [List.mem_singleton.1 hy]; exact hx
        · rw [objs_append]
          exact (e.frame _).thenMoved m hu
      · rintro _ rfl
        exact ⟨es, g, hv, (e.frame [(t, x)]).mono (fun a => Nat.le_refl _) fun a => by simp⟩
    · have h3 := hd s2 h2
      rcases h3.cases_on with ⟨_, s3, e3, h3⟩ | ⟨y3, s3, e3, h3⟩ | ⟨s3, e3⟩
      · exact NoUb.of_panic (y := y) (s' := s3) (by simp only [e2, e3]) h3
      · exact NoUb.of_abort (s' := s3) (by simp only [e2, e3])
      · exact NoUb.of_abort (s' := s3) (by simp only [e2, e3])
    · exact NoUb.of_abort (s' := s2) (by simp [e2])

/-! ### From typed vectors to containers and back -/

theorem VecVoid.fromVec_own (hpos : 0 < Γ.size t) {r : RVec} (g : TV Γ t w.heap es r) (wf : w.heap.WF) (I : List Obj) :
    NoUb (VecVoid.fromVec Γ t r) w (fun d w' => Repr Γ w'.heap t es d ∧ Eff w r.ptr I w' d.ptr I) (fun w' => Eff w r.ptr I w' none []) := by
  refine (VecVoid.fromVec_list hpos (g.block.resolve_left (by omega)) wf g.bytes g.each).noUb.mono ?_ ?_
  · rintro v' w2 ⟨h1, h2, h3⟩
    exact ⟨h3, Eff.ofMoved h1 h2 _⟩
  · rintro _ rfl
    exact Eff.forget wf _ _

theorem VecCopy.fromVec_own (A : Acct Γ S) {vt : V} {r : RVec} (g : TV Γ t w.heap es r) (hv : ∀ e ∈ es, S.valid t e) (wf : w.heap.WF) :
    NoUb (VecCopy.fromVec Γ t vt r) w
      (fun c w' => c.vtable = vt ∧ Repr Γ w'.heap t es c.data ∧ Eff w r.ptr (objs t es) w' c.data.ptr (objs t es))
      (fun w' => Eff w r.ptr (objs t es) w' none []) := by
  unfold VecCopy.fromVec
  refine NoUb.bind (R := fun _ w' => w' = w ∧ Γ.size t ≠ 0) (NoUb.withLocal ?_) ?_
  · refine NoUb.assert (fun e => ⟨rfl, by simpa using e⟩) fun _ => ?_
    exact (g.dropTyped A hv wf).mono (fun _ _ h => h) fun _ _ => trivial
  · rintro _ w1 ⟨rfl, hne⟩
    refine NoUb.bind (VecVoid.fromVec_own (by omega) g wf _) ?_
    rintro d w2 ⟨h1, h2⟩
    exact ⟨rfl, h1, h2⟩

/-- Turning a container into a typed vector. -/
theorem Repr.tv {v : VecVoid} {h : Heap} (R : Repr Γ h t es v) : TV Γ t h es v.typedView :=
  ⟨R.mem, R.each, R.len, .inr R.typedGood⟩

/-- A container and its content: `B` bounds the elements. -/
def VStep (Γ : TyEnv (Ledger U)) (S : Values Γ) (t : TyId) (v : VecVoid) (w : World (Ledger U)) (I : List Obj)
    (s : VecVoid × World (Ledger U)) : Prop :=
  ∃ es', Cont Γ s.2.heap t es' s.1 ∧ (∀ e ∈ es', S.valid t e) ∧ Eff w v.ptr I s.2 s.1.ptr (objs t es')

theorem VStep.lost {v : VecVoid} {I : List Obj} {w' : World (Ledger U)} {p : Ptr} {O : List Obj} (e : Eff w v.ptr I w' p O) :
    VStep Γ S t v w I (VecVoid.default Γ, w') := ⟨[], Cont.lost _ _, by simp, e.lose⟩

theorem XStep.own {v : VecVoid} {B : List Bytes} {s : VecVoid × World (Ledger U)} (h : XStep Γ t B (v, w) s)
    (hB : ∀ e ∈ B, S.valid t e) : VStep Γ S t v w (objs t B) s := by
  obtain ⟨h1, h2, es', h3, h4⟩ := h
  exact ⟨es', h3, fun e he => hB e (h4.mem he), (Eff.ofMoved h1 h2 _).mono (fun _ => Nat.le_refl _) fun a => h4.objs a⟩

/-- `Vec::push` of an owned value: on a panic the value is destroyed. -/
theorem TV.pushOwned (A : Acct Γ S) {r : RVec} (g : TV Γ t w.heap es r) (wf : w.heap.WF) (hx : S.valid t x) :
    NoUb (RVec.pushOwned Γ t x) (r, w)
      (fun _ s => TV Γ t s.2.heap (es ++ [x]) s.1 ∧ Moved w.heap r.ptr s.2.heap s.1.ptr ∧ s.2.user = w.user)
      (fun s => s.1 = r ∧ Usr w s.2 [(t, x)] []) := by
  refine NoUb.onUnwind (g.push wf (S.len t x hx)) ?_
  rintro _ rfl
  exact NoUb.onWorld ((A.dropW w hx).mono (fun _ _ h => ⟨rfl, h⟩) fun _ _ => trivial)

/-- A typed push into a container of that type. On a panic (capacity) the element and the elements of the container
are destroyed. -/
theorem VecVoid.pushTyped_own (A : Acct Γ S) {v : VecVoid} (R : Repr Γ w.heap t es v) (hv : ∀ e ∈ es, S.valid t e) (wf : w.heap.WF)
    (hx : S.valid t x) :
    NoUb (VecVoid.applyUnchecked Γ cfg t (RVec.pushOwned Γ t x)) (v, w)
      (fun _ s => (∃ es', Repr Γ s.2.heap t es' s.1) ∧ VStep Γ S t v w (objs t es ++ [(t, x)]) s)
      (fun s => VStep Γ S t v w (objs t es ++ [(t, x)]) s) := by
  have hv' : ∀ e ∈ es ++ [x], S.valid t e := by
    intro y hy
    rcases List.mem_append.1 hy with hy | hy
    · exact hv y hy
    · rw [List.mem_singleton.1 hy]; exact hx
  unfold VecVoid.applyUnchecked
  refine NoUb.bind_ok (b := v) (s' := (v, w)) rfl ?_
  refine NoUb.bind_ok (b := ()) (s' := (VecVoid.default Γ, w)) rfl ?_
  refine NoUb.bind_ok (R.intoVec cfg _) ?_
  refine NoUb.bind (R := fun p s => s.1 = VecVoid.default Γ ∧ TV Γ t s.2.heap (es ++ [x]) p.2 ∧
    Moved w.heap v.ptr s.2.heap p.2.ptr ∧ s.2.user = w.user) (NoUb.onWorld (NoUb.withLocal ?_)) ?_
  · refine (TV.pushOwned A R.tv wf hx).mono ?_ ?_
    · rintro _ s ⟨h1, h2, h3⟩
      exact ⟨rfl, h1, h2, h3⟩
    · rintro ⟨r1, w1⟩ ⟨h0, h1⟩
      simp only at h0 h1
      subst h0
      have wf1 : w1.heap.WF := by rw [h1.1]; exact wf
      refine ((R.tv.heap h1).dropTyped A hv wf1).mono ?_ fun _ _ => trivial
      rintro _ w2 h
      have e1 := (Eff.ofUsr wf v.ptr h1).frame (objs t es)
      have e2 : Eff w v.ptr ([(t, x)] ++ objs t es) w2 none [] := e1.trans h
      exact VStep.lost (e2.mono (fun a => by simp only [List.count_append]; omega) fun _ => Nat.le_refl _)
  · rintro ⟨_, r⟩ ⟨v0, w1⟩ ⟨rfl, h1, h2, h3⟩
    simp only at h1 h2 h3
    have e1 := Eff.ofMoved h2 h3 (objs t es ++ [(t, x)])
    refine NoUb.bind (R := fun v' s => s.1 = VecVoid.default Γ ∧ Repr Γ s.2.heap t (es ++ [x]) v' ∧
      Eff w v.ptr (objs t es ++ [(t, x)]) s.2 v'.ptr (objs t es ++ [(t, x)])) (NoUb.onWorld ?_) ?_
    · refine (VecVoid.fromVec_own R.pos h1 h2.wf (objs t es ++ [(t, x)])).mono ?_ ?_
      · rintro v' w2 ⟨k1, k2⟩
        exact ⟨rfl, k1, e1.trans k2⟩
      · rintro w2 k
        exact VStep.lost (e1.trans k)
    · rintro v' ⟨v1, w2⟩ ⟨k0, k1, k2⟩
      exact ⟨⟨_, k1⟩, es ++ [x], .inl k1, hv', by rw [objs_append]; exact k2⟩

/-! ### The functions of a table -/

/-- Bytes that are passed to a table function of type `t`: a value, or nothing (the element read from a container
that was left behind). -/
def Usable (S : Values Γ) (t : TyId) (x : Bytes) : Prop := S.valid t x ∨ (x = [] ∧ 0 < Γ.size t)

theorem Usable.len {S : Values Γ} (h : Usable S t x) (hl : x.length = Γ.size t) : S.valid t x := by
  rcases h with h | ⟨rfl, h⟩
  · exact h
  · simp at hl; omega

theorem dropBytes_own (A : Acct Γ S) (w : World (Ledger U)) (hx : Usable S t x) :
    NoUb (worldUser (dropBytes Γ t x)) w (fun _ w' => Usr w w' [(t, x)] []) (fun w' => Usr w w' [(t, x)] []) := by
  refine NoUb.worldUser ?_
  unfold dropBytes
  refine NoUb.bind (R := fun _ l => l = w.user ∧ x.length = Γ.size t)
    (NoUb.assert (fun e => ⟨rfl, by simpa using e⟩) fun _ => ⟨rfl, Own.forget _ _⟩) ?_
  rintro _ _ ⟨rfl, h⟩
  exact (A.drop w.user (hx.len h)).mono (fun _ _ h => ⟨rfl, h⟩) fun _ h => ⟨rfl, h⟩

theorem cloneIntoRaw_own (A : Acct Γ S) (l : Ledger U) (hx : Usable S t x) (d : Bytes) :
    NoUb (cloneIntoRawBytes Γ t x) (d, l)
      (fun _ s => S.valid t s.1 ∧ s.1.length = d.length ∧ Own l s.2 [] [(t, s.1)])
      (fun s => s.1 = d ∧ Own l s.2 [] []) := by
  unfold cloneIntoRawBytes
  refine NoUb.bind (R := fun _ s => s = (d, l) ∧ x.length = Γ.size t)
    (NoUb.assert (fun e => ⟨rfl, by simpa using e⟩) fun _ => ⟨rfl, Own.refl _ _⟩) ?_
  rintro _ _ ⟨rfl, h⟩
  refine NoUb.bind (R := fun c s => s.1 = d ∧ S.valid t c ∧ Own l s.2 [] [(t, c)])
    (NoUb.zoom ((A.clone l (hx.len h)).mono (fun _ _ h => ⟨rfl, h⟩) fun _ h => ⟨rfl, h⟩)) ?_
  rintro c ⟨d', l'⟩ ⟨rfl, hc, ho⟩
  refine NoUb.bind_ok rfl ?_
  simp only
  split
  · rename_i hl
    exact ⟨hc, hl.symm, ho⟩
  · refine NoUb.bind (R := fun _ s => s.1 = d' ∧ Own l s.2 [] []) (NoUb.unwindDrop (NoUb.zoom ((A.drop l' hc).mono ?_ fun _ _ => trivial))) ?_
    · intro _ l2 h2
      exact ⟨rfl, ho.trans h2⟩
    · intro _ s h
      exact h

theorem cloneBytes_own (A : Acct Γ S) (w : World (Ledger U)) (hx : Usable S t x) (wf : w.heap.WF) :
    NoUb (cloneBytes Γ t x) w
      (fun b w' => S.valid t b.bytes ∧ b.bytes.length = Γ.size t ∧ (Γ.size t = 0 ∧ b.ptr = none ∨ 0 < Γ.size t ∧
          ∃ i, b.ptr = some i ∧ w'.heap.live i = some (Γ.layout t)) ∧
        Eff w none [] w' b.ptr [(t, b.bytes)])
      (fun w' => Eff w none [] w' none []) := by
  unfold cloneBytes
  refine NoUb.bind (R := fun _ s => s = w ∧ x.length = Γ.size t)
    (NoUb.assert (fun e => ⟨rfl, by simpa using e⟩) fun _ => Eff.forget wf _ _) ?_
  rintro _ _ ⟨rfl, h⟩
  refine NoUb.bind ((A.cloneW _ (hx.len h)).mono (fun _ _ h => h) fun _ h => Eff.ofUsr wf none h) ?_
  rintro c w2 ⟨hc, hu⟩
  have e := Eff.ofUsr wf none hu
  refine NoUb.of_ok (a := ⟨(w2.heap.alloc (Γ.layout t)).1, c⟩) (s' := { w2 with heap := (w2.heap.alloc (Γ.layout t)).2 }) rfl ?_
  refine ⟨hc, S.len t c hc, ?_, e.thenMoved (Moved.ofRealloc ?_ (Realloc.ofAlloc e.wf _)) rfl⟩
  · rcases Nat.eq_zero_or_pos (Γ.size t) with h0 | hpos
    · exact .inl ⟨h0, by simp [Heap.alloc, h0]⟩
    · have hal := Heap.alloc_live (h := w2.heap) (l := Γ.layout t) (by simp only; omega)
      exact .inr ⟨hpos, _, hal.1, hal.2⟩
  · intro i hi _
    rcases Nat.eq_zero_or_pos (Γ.size t) with h0 | hpos
    · simp [Heap.alloc, h0] at hi
    · have hal := Heap.alloc_live (h := w2.heap) (l := Γ.layout t) (by simp only; omega)
      rw [hal.1] at hi; cases hi; exact Nat.le_refl _

end Dync
