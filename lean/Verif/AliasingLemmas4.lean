import Verif.AliasingLemmas3
/-!
# Lemmas: making references and giving them up
-/
namespace Dync
variable {U α β : Type} {Γ : TyEnv U} {cfg : Cfg} {cells : TyId → Nat → Bool} {C : Nat → Bool} {R R0 : Rules}
variable {env : List (Option Handle)} {fl : Nat → Borrows} {E : AMem → Prop}

/-- It is enough to hold some of the references. -/
theorem AInv.sub {env' : List (Option Handle)} {m : AMem} (I : AInv C env fl m) (f : Nat → Nat) (hf : ∀ i j, f i = f j → i = j)
    (he : ∀ (i : Nat) (g : Handle), env'[i]? = some (some g) → env[f i]? = some (some g)) : AInv C env' fl m := by
  have hm : ∀ g, some g ∈ env' → some g ∈ env := by
    intro g hg
    obtain ⟨i, hi⟩ := List.getElem?_of_mem hg
    exact List.mem_of_getElem? (he i g hi)
  refine ⟨fun b => (I.shape b).mono ?_, fun h hh => I.own h (hm h hh), I.nodup, I.old, ?_⟩
  · rintro t ⟨h, h1, h2⟩
    exact ⟨h, hm h h1, h2⟩
  · intro i j g h hi hj hij
    exact I.apart (f i) (f j) g h (he i g hi) (he j h hj) fun e => hij (hf i j e)

/-- Forget one reference. -/
theorem AInv.forget {m : AMem} {w : Handle} {hs : List (Option Handle)} (I : AInv C (env ++ some w :: hs) fl m) :
    AInv C (env ++ hs) fl m := by
  refine I.sub (fun i => if i < env.length then i else i + 1) ?_ ?_
  · intro i j h
    split at h <;> split at h <;> omega
  · intro i g hi
    split
    · rename_i h
      rwa [List.getElem?_append_left h] at hi ⊢
    · rename_i h
      rw [List.getElem?_append_right (by omega)] at hi ⊢
      rw [show i + 1 - env.length = (i - env.length) + 1 by omega]
      simpa using hi

theorem getElem?_set_some {i j : Nat} {x : Option Handle} {g : Handle} (h : (env.set i x)[j]? = some (some g)) :
    (j = i ∧ x = some g ∧ i < env.length) ∨ (j ≠ i ∧ env[j]? = some (some g)) := by
  rw [List.getElem?_set] at h
  by_cases hij : i = j
  · rw [if_pos hij] at h
    split at h
    · exact .inl ⟨hij.symm, by simpa using h, by assumption⟩
    · cases h
  · rw [if_neg hij] at h
    exact .inr ⟨fun e => hij e.symm, h⟩

/-- Do not use a reference for writing. -/
theorem AInv.freeze {m : AMem} {i : Nat} {h : Handle} (I : AInv C env fl m) (hi : env[i]? = some (some h)) :
    AInv C (env.set i (some { h with mode := if h.mode = .excl then .frozen else h.mode })) fl m := by
  refine ⟨fun b => (I.shape b).mono ?_, ?_, I.nodup, I.old, ?_⟩
  · rintro t ⟨g, h1, h2, h3, h4⟩
    obtain ⟨j, hj⟩ := List.getElem?_of_mem h1
    rcases getElem?_set_some hj with ⟨rfl, e, -⟩ | ⟨-, e⟩
    · cases e
      by_cases hm : h.mode = .excl
      · simp [hm] at h2
      · simp only [hm, if_false] at h2
        exact ⟨h, List.mem_of_getElem? hi, h2, h3, h4⟩
    · exact ⟨g, List.mem_of_getElem? e, h2, h3, h4⟩
  · intro g hg hm b hb
    obtain ⟨j, hj⟩ := List.getElem?_of_mem hg
    rcases getElem?_set_some hj with ⟨rfl, e, -⟩ | ⟨-, e⟩
    · cases e
      refine I.own h (List.mem_of_getElem? hi) ?_ b hb
      intro hs
      simp [hs] at hm
    · exact I.own g (List.mem_of_getElem? e) hm b hb
  · intro a b g k ha hb hab hm x hx
    rcases getElem?_set_some ha with ⟨rfl, e, -⟩ | ⟨ha', e⟩
    · cases e
      simp only at hm
      split at hm <;> simp_all
    · rcases getElem?_set_some hb with ⟨rfl, e', -⟩ | ⟨hb', e'⟩
      · cases e'
        exact I.apart a b g h e hi hab hm x hx
      · exact I.apart a b g k e e' hab hm x hx

/-- Give up references made for reading. -/
theorem AInv.restore {m m' : AMem} {i : Nat} {h : Handle} {hs : List Handle} (I : AInv C env fl m) (hi : env[i]? = some (some h))
    (I' : AInv C (holding env i (some { h with mode := if h.mode = .excl then .frozen else h.mode }) hs) fl m') : AInv C env fl m' := by
  refine ⟨fun b => (I'.shape b).mono ?_, I.own, I'.nodup, I'.old, I.apart⟩
  rintro t ⟨g, h1, h2, h3, h4⟩
  obtain ⟨j, hj⟩ := List.getElem?_of_mem h1
  have hlt : i < env.length := (List.getElem?_eq_some_iff.1 hi).1
  refine ⟨g, List.mem_append_left _ ?_, h2, h3, h4⟩
  by_cases hij : i = j
  · subst hij
    rw [hi] at hj
    cases hj
    have : some h ∈ env.set i (some h) := List.mem_set hlt _
    rwa [if_neg (by simp [h2])]
  · have : (env.set i (some { h with mode := if h.mode = .excl then .frozen else h.mode }))[j]? = some (some g) := by
      rw [List.getElem?_set_ne hij]; exact hj
    exact List.mem_of_getElem? this

/-- Give up references made for writing. -/
theorem AInv.restoreExcl {m m' : AMem} {i : Nat} {h : Handle} {hs : List Handle} {fl' : Nat → Borrows} (I : AInv C env fl m)
    (hi : env[i]? = some (some h)) (hm : h.mode = .excl) (hfl : ∀ b, fl b <:+ fl' b ∧ (¬ h.Covers b → fl' b = fl b))
    (I' : AInv C (holding env i none hs) fl' m') : AInv C env fl m' := by
  refine ⟨fun b => ?_, I.own, I'.nodup, I'.old, I.apart⟩
  by_cases hb : h.Covers b
  · obtain ⟨top, blk, e, -, -⟩ := I'.shape b
    obtain ⟨x, hx⟩ := (hfl b).1
    refine ⟨top ++ (blk ++ x), [], by rw [e, ← hx]; simp, by simp, fun t ht => absurd ht (I.alone hi hm hb t)⟩
  · have hs := I'.shape b
    rw [(hfl b).2 hb] at hs
    refine hs.mono ?_
    rintro t ⟨g, h1, h2, h3, h4⟩
    obtain ⟨j, hj⟩ := List.getElem?_of_mem h1
    refine ⟨g, List.mem_append_left _ ?_, h2, h3, h4⟩
    by_cases hij : i = j
    · subst hij
      rw [hi] at hj
      cases hj
      exact absurd h3 hb
    · have : (env.set i none)[j]? = some (some g) := by
        rw [List.getElem?_set_ne hij]; exact hj
      exact List.mem_of_getElem? this

/-! ### References for reading -/

theorem Agree.exists {ι : Type} {P : ι → AMem → Prop} {x y : M AMem α} {Q : α → AMem → Prop} (h : ∀ i, Agree (P i) x y Q E) :
    Agree (fun m => ∃ i, P i m) x y Q E := fun m m0 hb hn ⟨i, hP⟩ => h i m m0 hb hn hP

theorem Agree.assume {p : Prop} {P : AMem → Prop} {x y : M AMem α} {Q : α → AMem → Prop} (h : p → Agree P x y Q E) :
    Agree (fun m => P m ∧ p) x y Q E := fun m m0 hb hn hP => h hP.2 m m0 hb hn hP.1

/-- The parts that a method makes of a reference for reading. -/
theorem parts_shr (hR : R.on = true) (h0 : R0.on = false) {i : Nat} {w : Handle} (hm : w.mode ≠ .excl) {k : Referent} :
    ∀ (parts : List (Nat × Nat)) (env : List (Option Handle)), env[i]? = some (some w) → (∀ x ∈ parts, x.1 + x.2 ≤ w.len) →
    (∀ x ∈ parts, ∀ off < x.2, refPerm Γ cells k false w.elem.type_id off = if C (w.addr + x.1 + off) = true then .sharedRW else .sharedRO) →
    Agree (AInv C env fl)
      (M.mapEach parts (w.part Γ cells R false k w.tag))
      (M.mapEach parts (w.part Γ cells R0 false k w.tag))
      (fun hs m => AInv C (env ++ hs.map some) fl m ∧
        ∀ h ∈ hs, ∃ x ∈ parts, ∃ t, h = { w with tag := t, addr := w.addr + x.1, len := x.2, kind := k, mode := .shr }) E := by
  intro parts
  induction parts with
  | nil =>
    intro env _ _ _
    exact Agree.pure fun m I => ⟨by simpa using I, by simp⟩
  | cons x parts ih =>
    intro env hi hin hp
    simp only [M.mapEach_cons]
    have hx := hin x List.mem_cons_self
    refine Agree.bind (Q := fun c m => AInv C (env ++ [some c]) fl m ∧
      ∃ t, c = { w with tag := t, addr := w.addr + x.1, len := x.2, kind := k, mode := .shr }) ?_ fun c => Agree.assume ?_
    · refine Agree.bind (retag_shr hR h0 hi hm hx (hp x List.mem_cons_self) k) fun t => Agree.pure fun m I => ⟨I, t, rfl⟩
    · rintro ⟨t, hc⟩
      have := ih (env ++ [some c]) (by rw [List.getElem?_append_left (List.getElem?_eq_some_iff.1 hi).1]; exact hi)
        (fun y hy => hin y (List.mem_cons_of_mem _ hy)) (fun y hy => hp y (List.mem_cons_of_mem _ hy))
      refine Agree.bind this fun hs => Agree.pure fun m I => ⟨?_, ?_⟩
      · simpa using I.1
      · intro h hh
        rcases List.mem_cons.1 hh with rfl | hh
        · exact ⟨x, List.mem_cons_self, t, hc⟩
        · obtain ⟨y, hy, r⟩ := I.2 h hh
          exact ⟨y, List.mem_cons_of_mem _ hy, r⟩

/-- What a method makes of a reference for reading. -/
theorem make_shr (hR : R.on = true) (h0 : R0.on = false) {i : Nat} {h : Handle} (hi : env[i]? = some (some h)) {p : Plan}
    (H : p.Ok Γ cells C h) :
    Agree (AInv C env fl) (h.make Γ cells R false p) (h.make Γ cells R0 false p)
      (fun hs m => AInv C (holding env i (some { h with mode := if h.mode = .excl then .frozen else h.mode }) hs) fl m ∧
        ∀ g ∈ hs, g.Ok Γ cells C ∧ g.kind = p.kind) E := by
  have hlt : i < env.length := (List.getElem?_eq_some_iff.1 hi).1
  refine Agree.weaken (P := AInv C (env.set i (some { h with mode := if h.mode = .excl then .frozen else h.mode })) fl) ?_
    (fun m I => I.freeze hi) (fun a m h => h) (fun m h => h)
  have hi' : (env.set i (some { h with mode := if h.mode = .excl then .frozen else h.mode }))[i]? =
      some (some { h with mode := if h.mode = .excl then .frozen else h.mode }) := by
    rw [List.getElem?_set_self hlt]
  have hm' : ({ h with mode := if h.mode = .excl then .frozen else h.mode } : Handle).mode ≠ .excl := by
    simp only
    split <;> simp_all
  unfold holding
  generalize env.set i (some { h with mode := if h.mode = .excl then .frozen else h.mode }) = env' at hi' ⊢
  have fin : ∀ (hs : List Handle) m, (∀ g ∈ hs, ∃ x ∈ p.parts, ∃ t,
      g = { h with tag := t, addr := h.addr + x.1, len := x.2, kind := p.kind, mode := .shr }) →
      AInv C (env' ++ hs.map some) fl m → AInv C (env' ++ hs.map some) fl m ∧ ∀ g ∈ hs, g.Ok Γ cells C ∧ g.kind = p.kind := by
    intro hs m hall I
    refine ⟨I, fun g hg => ?_⟩
    obtain ⟨x, hx, t, rfl⟩ := hall g hg
    exact ⟨H.child x hx t .shr, rfl⟩
  unfold Handle.make
  cases hv : p.via with
  | none =>
    refine Agree.bind (Q := fun t m => AInv C env' fl m ∧ t = h.tag) (Agree.pure fun m I => ⟨I, rfl⟩) fun t => Agree.assume ?_
    rintro rfl
    exact Agree.weaken (parts_shr (Γ := Γ) (cells := cells) (k := p.kind) hR h0 hm' p.parts env' hi' H.inside H.perm) (fun m I => I) (fun hs m I => fin hs m I.2 I.1) (fun m h => h)
  | some k =>
    have first := retag_shr (C := C) (fl := fl) (E := E) hR h0 hi' hm' (a := 0) (n := h.len) (by simp) (H.via k hv) k
    simp only [Nat.add_zero] at first
    refine Agree.bind first fun t => ?_
    have hi2 : (env' ++ [some { h with tag := t, kind := k, mode := .shr }])[env'.length]? =
      some (some { h with tag := t, kind := k, mode := .shr }) := by simp
    have rest := parts_shr (Γ := Γ) (cells := cells) (C := C) (fl := fl) (E := E) (k := p.kind) hR h0 (by simp) p.parts _ hi2 H.inside H.perm
    refine rest.weaken (fun m I => I) (fun hs m I => fin hs m I.2 ?_) (fun m h => h)
    have I1 := I.1
    rw [List.append_assoc] at I1
    exact I1.forget

/-! ### References for writing -/

/-- Use a reference for parts only. -/
theorem AInv.cut {m : AMem} {i : Nat} {w : Handle} (I : AInv C env fl m) (hi : env[i]? = some (some w)) (hm : w.mode = .excl)
    {parts : List (Nat × Nat)} (inside : ∀ x ∈ parts, x.1 + x.2 ≤ w.len) (order : parts.Pairwise fun x y => x.1 + x.2 ≤ y.1) :
    AInv C (env.set i none ++ parts.map fun x => some { w with addr := w.addr + x.1, len := x.2 }) fl m := by
  have hmem : some w ∈ env := List.mem_of_getElem? hi
  have elim : ∀ (j : Nat) (g : Handle),
      (env.set i none ++ parts.map fun x => some { w with addr := w.addr + x.1, len := x.2 })[j]? = some (some g) →
      (j < env.length ∧ j ≠ i ∧ env[j]? = some (some g)) ∨
      (env.length ≤ j ∧ ∃ x, parts[j - env.length]? = some x ∧ g = { w with addr := w.addr + x.1, len := x.2 }) := by
    intro j g hj
    by_cases hlt : j < env.length
    · rw [List.getElem?_append_left (by simpa using hlt)] at hj
      rcases getElem?_set_some hj with ⟨-, e, -⟩ | ⟨hne, e⟩
      · cases e
      · exact .inl ⟨hlt, hne, e⟩
    · rw [List.getElem?_append_right (by simp; omega), List.length_set, List.getElem?_map] at hj
      obtain ⟨x, hx, e⟩ := Option.map_eq_some_iff.1 hj
      exact .inr ⟨by omega, x, hx, by simpa using e.symm⟩
  have cov : ∀ (x : Nat × Nat), x ∈ parts → ∀ b, ({ w with addr := w.addr + x.1, len := x.2 } : Handle).Covers b → w.Covers b := by
    rintro x hx b ⟨h1, h2⟩
    have := inside x hx
    simp only at h1 h2
    exact ⟨by omega, by omega⟩
  refine ⟨fun b => (I.shape b).mono ?_, ?_, I.nodup, I.old, ?_⟩
  · rintro t ⟨g, h1, h2, h3, h4⟩
    obtain ⟨j, hj⟩ := List.getElem?_of_mem h1
    rcases elim j g hj with ⟨-, -, e⟩ | ⟨-, x, -, rfl⟩
    · exact ⟨g, List.mem_of_getElem? e, h2, h3, h4⟩
    · simp [hm] at h2
  · intro g hg hgm b hb
    obtain ⟨j, hj⟩ := List.getElem?_of_mem hg
    rcases elim j g hj with ⟨-, -, e⟩ | ⟨-, x, hx, rfl⟩
    · exact I.own g (List.mem_of_getElem? e) hgm b hb
    · exact I.own w hmem (by simp [hm]) b (cov x (List.mem_of_getElem? hx) b hb)
  · intro a c g k ha hc hac hgm b hb hkb
    rcases elim a g ha with ⟨-, hai, e⟩ | ⟨hla, x, hx, rfl⟩
    · rcases elim c k hc with ⟨-, -, e'⟩ | ⟨-, y, hy, rfl⟩
      · exact I.apart a c g k e e' hac hgm b hb hkb
      · exact I.apart a i g w e hi hai hgm b hb (cov y (List.mem_of_getElem? hy) b hkb)
    · rcases elim c k hc with ⟨-, hci, e'⟩ | ⟨hlc, y, hy, rfl⟩
      · exact I.apart i c w k hi e' (fun e => hci e.symm) hm b (cov x (List.mem_of_getElem? hx) b hb) hkb
      · obtain ⟨hx1, hx2⟩ := List.getElem?_eq_some_iff.1 hx
        obtain ⟨hy1, hy2⟩ := List.getElem?_eq_some_iff.1 hy
        obtain ⟨b1, b2⟩ := hb
        obtain ⟨c1, c2⟩ := hkb
        simp only at b1 b2 c1 c2
        rcases Nat.lt_or_gt_of_ne hac with h | h
        · have := List.pairwise_iff_getElem.1 order _ _ hx1 hy1 (by omega)
          rw [hx2, hy2] at this
          omega
        · have := List.pairwise_iff_getElem.1 order _ _ hy1 hx1 (by omega)
          rw [hx2, hy2] at this
          omega

/-- The parts that a method makes of a reference for writing. -/
theorem parts_excl (hR : R.on = true) (h0 : R0.on = false) {w : Handle} (hm : w.mode = .excl) {k : Referent} :
    ∀ (parts : List (Nat × Nat)) (pre : List (Option Handle)) (fl : Nat → Borrows), (∀ x ∈ parts, x.1 + x.2 ≤ w.len) →
    Agree (AInv C (pre ++ parts.map fun x => some { w with addr := w.addr + x.1, len := x.2 }) fl)
      (M.mapEach parts (w.part Γ cells R true k w.tag))
      (M.mapEach parts (w.part Γ cells R0 true k w.tag))
      (fun hs m => (∃ fl', AInv C (pre ++ hs.map some) fl' m ∧ ∀ b, fl b <:+ fl' b ∧ (¬ w.Covers b → fl' b = fl b)) ∧
        ∀ h ∈ hs, ∃ x ∈ parts, ∃ t, h = { w with tag := t, addr := w.addr + x.1, len := x.2, kind := k, mode := .excl }) E := by
  intro parts
  induction parts with
  | nil =>
    intro pre fl _
    exact Agree.pure fun m I => ⟨⟨fl, by simpa using I, fun b => ⟨List.suffix_refl _, fun _ => rfl⟩⟩, by simp⟩
  | cons x parts ih =>
    intro pre fl hin
    simp only [M.mapEach_cons]
    have hx := hin x List.mem_cons_self
    refine Agree.bind (Q := fun c m => (∃ fl', AInv C ((pre ++ [some c]) ++ parts.map fun x => some { w with addr := w.addr + x.1, len := x.2 }) fl' m ∧
        ∀ b, fl b <:+ fl' b ∧ (¬ w.Covers b → fl' b = fl b)) ∧
      ∃ t, c = { w with tag := t, addr := w.addr + x.1, len := x.2, kind := k, mode := .excl }) ?_ fun c => Agree.assume ?_
    · have hi : (pre ++ (x :: parts).map fun x => some { w with addr := w.addr + x.1, len := x.2 })[pre.length]? =
          some (some { w with addr := w.addr + x.1, len := x.2 }) := by simp
      refine Agree.bind (retag_excl hR h0 hi hm (fun _ _ => by simp [refPerm]) k) fun t => Agree.pure ?_
      rintro m ⟨fl', I, hfl⟩
      refine ⟨⟨fl', ?_, fun b => ⟨(hfl b).1, fun hb => (hfl b).2 ?_⟩⟩, t, rfl⟩
      · rw [List.set_append_right _ _ (Nat.le_refl _)] at I
        simpa [hm] using I
      · rintro ⟨h1, h2⟩
        simp only at h1 h2
        exact hb ⟨by omega, by omega⟩
    · rintro ⟨t, hc⟩
      refine Agree.exists fun fl1 => Agree.assume fun hfl => ?_
      refine Agree.bind (ih (pre ++ [some c]) fl1 (fun y hy => hin y (List.mem_cons_of_mem _ hy))) fun hs => Agree.pure ?_
      rintro m ⟨⟨fl', I, hfl'⟩, hall⟩
      refine ⟨⟨fl', by simpa using I, fun b => ⟨(hfl b).1.trans (hfl' b).1, fun hb => ((hfl' b).2 hb).trans ((hfl b).2 hb)⟩⟩, ?_⟩
      intro h hh
      rcases List.mem_cons.1 hh with rfl | hh
      · exact ⟨x, List.mem_cons_self, t, hc⟩
      · obtain ⟨y, hy, r⟩ := hall h hh
        exact ⟨y, List.mem_cons_of_mem _ hy, r⟩

/-- What a method makes of a reference for writing. -/
theorem make_excl (hR : R.on = true) (h0 : R0.on = false) {i : Nat} {h : Handle} (hi : env[i]? = some (some h)) (hm : h.mode = .excl)
    {p : Plan} (H : p.Ok Γ cells C h) :
    Agree (AInv C env fl) (h.make Γ cells R true p) (h.make Γ cells R0 true p)
      (fun hs m => (∃ fl', AInv C (holding env i none hs) fl' m ∧ ∀ b, fl b <:+ fl' b ∧ (¬ h.Covers b → fl' b = fl b)) ∧
        ∀ g ∈ hs, g.Ok Γ cells C ∧ g.kind = p.kind) E := by
  have hlt : i < env.length := (List.getElem?_eq_some_iff.1 hi).1
  have hP : ∀ k off, refPerm Γ cells k true h.elem.type_id off = .unique := fun k off => by simp [refPerm]
  unfold Handle.make
  refine Agree.bind (Q := fun t m => ∃ fl1, AInv C (env.set i none ++ p.parts.map fun x => some { h with tag := t, addr := h.addr + x.1, len := x.2 }) fl1 m ∧
      ∀ b, fl b <:+ fl1 b ∧ (¬ h.Covers b → fl1 b = fl b)) ?_ fun t => Agree.exists fun fl1 => Agree.assume fun hfl => ?_
  · cases hv : p.via with
    | none => exact Agree.pure fun m I => ⟨fl, I.cut hi hm H.inside H.order, fun b => ⟨List.suffix_refl _, fun _ => rfl⟩⟩
    | some k =>
      refine Agree.weaken (retag_excl hR h0 hi hm (fun _ _ => hP k _) h.kind) (fun m I => I) ?_ (fun m h => h)
      rintro t m ⟨fl', I, hfl⟩
      refine ⟨fl', ?_, hfl⟩
      have := I.cut (i := i) (w := { h with tag := t }) (by rw [List.getElem?_set_self hlt]) hm H.inside H.order
      rwa [List.set_set] at this
  · refine Agree.weaken (parts_excl hR h0 (w := { h with tag := t }) hm p.parts (env.set i none) fl1 H.inside) (fun m I => I) ?_
      (fun m h => h)
    rintro hs m ⟨⟨fl', I, hfl'⟩, hall⟩
    refine ⟨⟨fl', I, fun b => ⟨(hfl b).1.trans (hfl' b).1, fun hb => ((hfl' b).2 hb).trans ((hfl b).2 hb)⟩⟩, fun g hg => ?_⟩
    obtain ⟨x, hx, u, rfl⟩ := hall g hg
    exact ⟨H.child x hx u .excl, rfl⟩

end Dync
