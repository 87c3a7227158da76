import Verif.AliasingLemmas6
import Verif.Props.Example
/-!
# C89: the references made by the library obey the aliasing rules of Rust

The rules are those of Stacked Borrows, in the strict form and in a lenient one. Elements with interior mutability (`Cell`, `RefCell`,
atomics, ...) break them: the library makes the references to them from references to plain bytes.
-/
namespace Dync
variable {U : Type} {Γ : TyEnv U} {cfg : Cfg} {cells : TyId → Nat → Bool} {env : List (Option Handle)} {m : AMem}

/-- Full claim: a program that the borrow checker accepts never breaks the aliasing rules. -/
def C89_full : Prop :=
  ∀ (U : Type) (Γ : TyEnv U) (cfg : Cfg) (cells : TyId → Nat → Bool) (strict : Bool) (env : List (Option Handle)) (m : AMem) (p : AProg),
    OwnedOnly Γ env m → ((p.run Γ cfg cells ⟨true, strict⟩ env).run m).1 ≠ .ub

/-- Without interior mutability, it never does: any program, with any number of references held, does what it does when memory is just
bytes. -/
theorem C89_plain_partial (O : OwnedOnly Γ env m) (hc : ∀ t k, cells t k = false) (p : AProg) (strict : Bool) :
    ∃ r m1 m2, (p.run Γ cfg cells ⟨true, strict⟩ env).run m = (r, m1) ∧ (p.run Γ cfg cells ⟨false, strict⟩ env).run m = (r, m2) ∧
      m1.byte = m2.byte ∧ r ≠ .ub ∧ r ≠ .abort :=
  O.run p strict (.inl hc)

/-- With interior mutability, it never does if the program takes typed references directly from containers. -/
theorem C89_typed_partial (O : OwnedOnly Γ env m) (p : AProg) (hp : p.TypedOnly) (strict : Bool) :
    ∃ r m1 m2, (p.run Γ cfg cells ⟨true, strict⟩ env).run m = (r, m1) ∧ (p.run Γ cfg cells ⟨false, strict⟩ env).run m = (r, m2) ∧
      m1.byte = m2.byte ∧ r ≠ .ub ∧ r ≠ .abort :=
  O.run p strict (.inr hp)

/-- What all of the following is about: element `i` of the container in variable `v` has a cell at its byte `k`. -/
structure HasCell (Γ : TyEnv U) (cells : TyId → Nat → Bool) (env : List (Option Handle)) (v : Nat) (h : Handle) (i k : Nat) : Prop where
  var : env[v]? = some (some h)
  elem : i < h.len / Γ.size h.elem.type_id
  byte : k < Γ.size h.elem.type_id
  cell : cells h.elem.type_id k = true
  fits : h.len ≤ isizeMax
  whole : h.len % Γ.size h.elem.type_id = 0

section
variable {v i k : Nat} {h : Handle}

theorem HasCell.range (H : HasCell Γ cells env v h i k) : (i + 1) * Γ.size h.elem.type_id ≤ h.len := by
  calc (i + 1) * Γ.size h.elem.type_id ≤ h.len / Γ.size h.elem.type_id * Γ.size h.elem.type_id := Nat.mul_le_mul_right _ H.elem
    _ ≤ h.len := Nat.div_mul_le_self _ _

theorem HasCell.range' (H : HasCell Γ cells env v h i k) :
    i * Γ.size h.elem.type_id + Γ.size h.elem.type_id ≤ h.len := by
  have := H.range
  rwa [Nat.add_mul, Nat.one_mul] at this

theorem OwnedOnly.numBytes (O : OwnedOnly Γ env m) (hi : env[v]? = some (some h)) : h.elem.numBytes = Γ.size h.elem.type_id :=
  (O.ok (cells := fun _ _ => false) (List.mem_of_getElem? hi)).numBytes

theorem OwnedOnly.stack (O : OwnedOnly Γ env m) (H : HasCell Γ cells env v h i k) :
    m.stack (h.addr + i * Γ.size h.elem.type_id + k) = [⟨h.tag, .unique⟩] := by
  rw [Nat.add_assoc]
  have := H.range'; have := H.byte
  exact O.mine h (List.mem_of_getElem? H.var) _ (by omega)

/-- `get` of a container, in range. -/
theorem plan_get (O : OwnedOnly Γ env m) (H : HasCell Γ cells env v h i k) (x : AMem) :
    ((RefMethod.get i).plan Γ cfg h).run x =
      (.ok (some ⟨some .bytes, [(i * Γ.size h.elem.type_id, Γ.size h.elem.type_id)], .bytes⟩), x) := by
  have nb := O.numBytes H.var
  have ho := (O.owner h (List.mem_of_getElem? H.var)).1
  have hr := H.range
  have hl := H.fits
  have hpos := H.byte
  have hi : i < h.len := Nat.lt_of_lt_of_le H.elem (Nat.div_le_self _ _)
  have hmax : isizeMax < usizeMax := by decide
  simp only [RefMethod.plan, ho]
  rw [if_neg (by simp), M.bind_ok (Handle.count_run (by omega) (.inl ho) x), nb, show decide (i < h.len / Γ.size h.elem.type_id) = true by simp [H.elem],
    M.bind_ok (debugAssert_true x), M.bind_ok (indexByteRange_run (by omega) (by omega) x)]
  have : h.index (i * Γ.size h.elem.type_id) ((i + 1) * Γ.size h.elem.type_id) =
      .ok ⟨some .bytes, [(i * Γ.size h.elem.type_id, Γ.size h.elem.type_id)], .bytes⟩ := by
    unfold Handle.index
    rw [if_pos ⟨Nat.mul_le_mul_right _ (Nat.le_succ _), hr⟩, Nat.add_mul, Nat.one_mul, Nat.add_sub_cancel_left]
  simp only [this]
  rfl

/-- A program that takes element `i` of variable `v` by `get`, then a typed reference to it by `downcast`, and does `q` with that. The
functions of virtual tables do the same with the elements they are called for. -/
def viaDowncast (env : List (Option Handle)) (v i : Nat) (t : TyId) (q : AProg) : AProg :=
  .shared v (.get i) (.shared env.length (.downcast t) q)

/-- A shared typed reference to element `i`. -/
def typedElem (Γ : TyEnv U) (h : Handle) (i t : Nat) : Handle :=
  { h with tag := t, addr := h.addr + i * Γ.size h.elem.type_id, len := Γ.size h.elem.type_id, kind := .typed, mode := .shr }

theorem bad_downcast (O : OwnedOnly Γ env m) (H : HasCell Γ cells env v h i k) (strict : Bool) (q : AProg)
    (hq : strict = false → ∀ env' : List (Option Handle), env'.length = env.length + 1 →
      Bad (h.addr + i * Γ.size h.elem.type_id + k) (q.run Γ cfg cells ⟨true, strict⟩ (env' ++ [some (typedElem Γ h i (m.next + 3))]))
        [⟨m.next + 3, .sharedRO⟩, ⟨m.next + 2, .sharedRO⟩, ⟨m.next + 1, .sharedRO⟩, ⟨m.next, .sharedRO⟩, ⟨h.tag, .unique⟩] (m.next + 4)) :
    (((viaDowncast env v i h.elem.type_id q).run Γ cfg cells ⟨true, strict⟩ env).run m).1 = .ub := by
  have hlt := (List.getElem?_eq_some_iff.1 H.var).1
  have hb := H.byte
  have hfr := O.fresh h (List.mem_of_getElem? H.var)
  refine (?_ : Bad (h.addr + i * Γ.size h.elem.type_id + k) _ [⟨h.tag, .unique⟩] m.next) m (O.stack H) rfl
  simp only [viaDowncast, AProg.run, H.var]
  refine Bad.quiet (plan_get O H) ?_
  refine Bad.make rfl rfl H.range' (by simp) (by simp; omega) (fun e => by simp at e) fun _ e s1 h1 s2 h2 => ?_
  cases e
  have hk : (holding env v (some { h with mode := if h.mode = .excl then .frozen else h.mode })
      [{ h with tag := m.next + 1, addr := h.addr + i * Γ.size h.elem.type_id, len := Γ.size h.elem.type_id, kind := .bytes, mode := .shr }])[env.length]? =
      some (some { h with tag := m.next + 1, addr := h.addr + i * Γ.size h.elem.type_id, len := Γ.size h.elem.type_id, kind := .bytes, mode := .shr }) := by
    simp [holding]
  simp only [hk]
  refine Bad.quiet (c := some ⟨some .bytes, [(0, Γ.size h.elem.type_id)], .typed⟩) (fun x => ?_) ?_
  · simp [RefMethod.plan, M.assert]
  · refine Bad.make rfl rfl (by simp) (by simp) (by simp; omega) (fun e => by simp at e) fun _ e s3 h3 s4 h4 => ?_
    cases e
    have hmod : (h.addr + i * Γ.size h.elem.type_id + k - (h.addr + i * Γ.size h.elem.type_id + 0)) % Γ.size h.elem.type_id = k := by
      rw [Nat.add_zero, Nat.add_sub_cancel_left, Nat.mod_eq_of_lt hb]
    simp only [refPerm, Bool.false_eq_true, if_false, true_and, hmod, H.cell, if_true, reduceCtorEq, false_and] at h1 h2 h3 h4
    simp only [Borrows.retag, Borrows.read, if_true, Option.map_some, Option.some.injEq] at h1
    subst h1
    simp only [Borrows.retag, Borrows.read, if_true, Option.map_some, Option.some.injEq] at h2
    subst h2
    simp only [Borrows.retag, Borrows.read, if_true, Option.map_some, Option.some.injEq] at h3
    subst h3
    have hins : Borrows.insert (m.next + 2) (m.next + 3) [⟨m.next + 2, .sharedRO⟩, ⟨m.next + 1, .sharedRO⟩, ⟨m.next, .sharedRO⟩, ⟨h.tag, .unique⟩] = none := by
      have : h.tag ≠ m.next + 2 := by omega
      simp [Borrows.insert, Borrows.insertAux, this]
    simp only [Borrows.retag, hins] at h4
    cases strict with
    | true => cases h4
    | false =>
      simp only [Bool.false_eq_true, if_false, Borrows.read, if_true, Option.map_some, Option.some.injEq] at h4
      subst h4
      have := hq rfl (holding env v (some { h with mode := if h.mode = .excl then .frozen else h.mode }) [{ h with tag := m.next + 1, addr := h.addr + i * Γ.size h.elem.type_id, len := Γ.size h.elem.type_id, kind := .bytes, mode := .shr }] |>.set env.length (some { h with tag := m.next + 1, addr := h.addr + i * Γ.size h.elem.type_id, len := Γ.size h.elem.type_id, kind := .bytes, mode := .shr }))
        (by simp [holding])
      exact this

/-- By the strict rules, taking a reference to an element that has a cell with `get` and `downcast` is undefined, whatever is done with
it. So is any comparison, `Debug` output, hash or clone of the element through a virtual table. -/
theorem C89_refuted_downcast (O : OwnedOnly Γ env m) (H : HasCell Γ cells env v h i k) (q : AProg) :
    (((viaDowncast env v i h.elem.type_id q).run Γ cfg cells ⟨true, true⟩ env).run m).1 = .ub :=
  bad_downcast O H true q (by simp)

/-- By both rules, writing to the cell of an element through a reference taken with `get` and `downcast` is undefined. -/
theorem C89_refuted_cell_write (O : OwnedOnly Γ env m) (H : HasCell Γ cells env v h i k) (x : Byte) (strict : Bool) :
    (((viaDowncast env v i h.elem.type_id (.cell (env.length + 1) k [x])).run Γ cfg cells ⟨true, strict⟩ env).run m).1 = .ub := by
  have hb := H.byte
  have hfr := O.fresh h (List.mem_of_getElem? H.var)
  refine bad_downcast O H strict _ fun _ env' he => ?_
  have hv : (env' ++ [some (typedElem Γ h i (m.next + 3))])[env.length + 1]? = some (some (typedElem Γ h i (m.next + 3))) := by
    simp [← he]
  have hin : (typedElem Γ h i (m.next + 3)).inCells Γ cells k 1 = true := by
    simp [Handle.inCells, typedElem, Nat.mod_eq_of_lt hb, H.cell, Nat.succ_le_of_lt hb]
  simp only [AProg.run, hv, List.length_singleton, hin]
  rw [if_pos (by simp [typedElem])]
  refine Bad.store rfl (by simp [typedElem]) (by simp [typedElem]) fun s' e => ?_
  have : h.tag ≠ m.next + 3 := by omega
  simp [typedElem, Borrows.write, Borrows.writeAux, this] at e

/-- `get_as` of views and `get_ref_as` of containers, in range. -/
theorem plan_typedAt (O : OwnedOnly Γ env m) (H : HasCell Γ cells env v h i k) {g : Handle} (he : g.elem = h.elem) (hl : g.len = h.len)
    (hk : g.kind ≠ .typed) (x : AMem) :
    ((RefMethod.typedAt h.elem.type_id i).plan Γ cfg g).run x =
      (.ok (some ⟨if g.kind = .owner then none else some .bytes, [(i * Γ.size h.elem.type_id, Γ.size h.elem.type_id)], .typed⟩), x) := by
  have nb := O.numBytes H.var
  have hpos := H.byte
  have hw := H.whole
  simp only [RefMethod.plan]
  rw [if_neg hk, M.bind_ok (Handle.count_run (by rw [he]; omega) (.inr (by rw [he, hl, nb]; exact hw)) x)]
  simp only [he, hl, nb, H.elem, decide_true, M.assert, if_true, pure_bind, ne_eq, not_true_eq_false, if_false]
  rfl

theorem bad_view (O : OwnedOnly Γ env m) (H : HasCell Γ cells env v h i k) (strict : Bool) (q : AProg)
    (hq : strict = false → ∀ env' : List (Option Handle), env'.length = env.length + 1 →
      Bad (h.addr + i * Γ.size h.elem.type_id + k) (q.run Γ cfg cells ⟨true, strict⟩ (env' ++ [some (typedElem Γ h i (m.next + 2))]))
        [⟨m.next + 2, .sharedRO⟩, ⟨m.next + 1, .sharedRO⟩, ⟨m.next, .sharedRO⟩, ⟨h.tag, .unique⟩] (m.next + 3)) :
    (((AProg.shared v .view (.shared env.length (.typedAt h.elem.type_id i) q)).run Γ cfg cells ⟨true, strict⟩ env).run m).1 = .ub := by
  have hlt := (List.getElem?_eq_some_iff.1 H.var).1
  have hb := H.byte
  have hr := H.range'
  have hfr := O.fresh h (List.mem_of_getElem? H.var)
  have ho := (O.owner h (List.mem_of_getElem? H.var)).1
  refine (?_ : Bad (h.addr + i * Γ.size h.elem.type_id + k) _ [⟨h.tag, .unique⟩] m.next) m (O.stack H) rfl
  simp only [AProg.run, H.var]
  refine Bad.quiet (c := some ⟨none, [(0, h.len)], .bytes⟩) (fun x => by simp [RefMethod.plan, ho]) ?_
  refine Bad.make rfl rfl (by simp) (by simp; omega) (by simp; omega) (fun _ s1 h1 => ?_) fun k e => by simp at e
  have hk : (holding env v (some { h with mode := if h.mode = .excl then .frozen else h.mode })
      [{ h with tag := m.next, addr := h.addr + 0, len := h.len, kind := .bytes, mode := .shr }])[env.length]? =
      some (some { h with tag := m.next, addr := h.addr + 0, len := h.len, kind := .bytes, mode := .shr }) := by
    simp [holding]
  simp only [hk]
  refine Bad.quiet (plan_typedAt O H rfl rfl (by simp)) ?_
  refine Bad.make rfl rfl hr (by simp) (by simp; omega) (fun e => by simp at e) fun _ e s3 h3 s4 h4 => ?_
  simp at e
  subst e
  have hmod : (h.addr + i * Γ.size h.elem.type_id + k - (h.addr + 0 + i * Γ.size h.elem.type_id)) % Γ.size h.elem.type_id = k := by
    rw [Nat.add_zero, Nat.add_sub_cancel_left, Nat.mod_eq_of_lt hb]
  simp only [refPerm, Bool.false_eq_true, if_false, true_and, hmod, H.cell, if_true, reduceCtorEq, false_and] at h1 h3 h4
  simp only [Borrows.retag, Borrows.read, if_true, Option.map_some, Option.some.injEq] at h1
  subst h1
  simp only [Borrows.retag, Borrows.read, if_true, Option.map_some, Option.some.injEq] at h3
  subst h3
  have hins : Borrows.insert (m.next + 1) (m.next + 2) [⟨m.next + 1, .sharedRO⟩, ⟨m.next, .sharedRO⟩, ⟨h.tag, .unique⟩] = none := by
    have : h.tag ≠ m.next + 1 := by omega
    simp [Borrows.insert, Borrows.insertAux, this]
  simp only [Borrows.retag, hins] at h4
  cases strict with
  | true => cases h4
  | false =>
    simp only [Bool.false_eq_true, if_false, Borrows.read, if_true, Option.map_some, Option.some.injEq] at h4
    subst h4
    have := hq rfl (holding env v (some { h with mode := if h.mode = .excl then .frozen else h.mode }) [{ h with tag := m.next, addr := h.addr + 0, len := h.len, kind := .bytes, mode := .shr }] |>.set env.length (some { h with tag := m.next, addr := h.addr + 0, len := h.len, kind := .bytes, mode := .shr }))
      (by simp [holding])
    exact this

/-- By the strict rules, so is a typed reference to elements that have a cell, taken from a view of the container. -/
theorem C89_refuted_view (O : OwnedOnly Γ env m) (H : HasCell Γ cells env v h i k) (q : AProg) :
    (((AProg.shared v .view (.shared env.length (.typedAt h.elem.type_id i) q)).run Γ cfg cells ⟨true, true⟩ env).run m).1 = .ub :=
  bad_view O H true q (by simp)

theorem AProg.run_shared {R : Rules} {i : Nat} {h : Handle} {mth : RefMethod} {q : AProg} (hi : env[i]? = some (some h)) :
    (AProg.shared i mth q).run Γ cfg cells R env = (mth.plan Γ cfg h >>= fun o => match o with
      | none => pure []
      | some p => h.make Γ cells R false p >>= fun hs =>
        q.run Γ cfg cells R (holding env i (some { h with mode := if h.mode = .excl then .frozen else h.mode }) hs)) := by
  simp only [AProg.run, hi]
  rfl

theorem AProg.run_cell {R : Rules} {i a : Nat} {h : Handle} {x : Bytes} (hi : env[i]? = some (some h)) (hm : h.mode = .shr) (hk : h.kind = .typed)
    (hx : h.inCells Γ cells a x.length = true) :
    (AProg.cell i a x).run Γ cfg cells R env = (AMem.store R h.tag (h.addr + a) x.length x >>= fun _ => pure []) := by
  simp only [AProg.run, hi]
  rw [if_pos ⟨hm, hk, hx⟩]

theorem AProg.run_look {R : Rules} {i : Nat} {h : Handle} (hi : env[i]? = some (some h)) :
    (AProg.look i).run Γ cfg cells R env = (AMem.load R h.tag h.addr h.len >>= fun b => pure [b]) := by
  simp only [AProg.run, hi]

/-- By both rules, writing to a cell through a reference taken from the container ends the views of it that are held: to read one
afterwards is undefined. -/
theorem C89_refuted_held_view (O : OwnedOnly Γ env m) (H : HasCell Γ cells env v h i k) (x : Byte) (strict : Bool) :
    (((AProg.shared v .view (.seq (.shared v (.typedAt h.elem.type_id i) (.cell (env.length + 1) k [x])) (.look env.length))).run Γ cfg cells
      ⟨true, strict⟩ env).run m).1 = .ub := by
  have hlt := (List.getElem?_eq_some_iff.1 H.var).1
  have hb := H.byte
  have hr := H.range'
  have hfr := O.fresh h (List.mem_of_getElem? H.var)
  obtain ⟨ho, hex⟩ := O.owner h (List.mem_of_getElem? H.var)
  refine (?_ : Bad (h.addr + i * Γ.size h.elem.type_id + k) _ [⟨h.tag, .unique⟩] m.next) m (O.stack H) rfl
  rw [AProg.run_shared H.var]
  refine Bad.quiet (c := some ⟨none, [(0, h.len)], .bytes⟩) (fun x => by simp [RefMethod.plan, ho]) ?_
  refine Bad.make rfl rfl (by simp) (by simp; omega) (by simp; omega) (fun _ s1 h1 => ?_) fun k e => by simp at e
  simp only [hex, if_true]
  have hv : (holding env v (some { h with mode := .frozen })
      [{ h with tag := m.next, addr := h.addr + 0, len := h.len, kind := .bytes, mode := .shr }])[v]? = some (some { h with mode := .frozen }) := by
    rw [holding, List.getElem?_append_left (by simpa using hlt), List.getElem?_set_self hlt]
  have hk : (holding env v (some { h with mode := .frozen })
      [{ h with tag := m.next, addr := h.addr + 0, len := h.len, kind := .bytes, mode := .shr }])[env.length]? =
      some (some { h with tag := m.next, addr := h.addr + 0, len := h.len, kind := .bytes, mode := .shr }) := by
    simp [holding]
  unfold AProg.run
  rw [AProg.run_shared hv, AProg.run_look hk, bind_assoc]
  refine Bad.quiet (plan_typedAt O H rfl rfl (by simp [ho])) ?_
  simp only [bind_assoc]
  refine Bad.make rfl rfl hr (by simp) (by simp; omega) (fun _ s3 h3 => ?_) fun _ e => by simp [ho] at e
  have hmod : (h.addr + i * Γ.size h.elem.type_id + k - (h.addr + i * Γ.size h.elem.type_id)) % Γ.size h.elem.type_id = k := by
    rw [Nat.add_sub_cancel_left, Nat.mod_eq_of_lt hb]
  simp only [refPerm, Bool.false_eq_true, if_false, true_and, hmod, H.cell, if_true, reduceCtorEq, false_and] at h1 h3
  simp only [Borrows.retag, Borrows.read, if_true, Option.map_some, Option.some.injEq] at h1
  subst h1
  have hne : m.next ≠ h.tag := by omega
  simp [Borrows.retag, Borrows.insert, Borrows.insertAux, hne] at h3
  subst h3
  rw [AProg.run_cell (h := typedElem Γ h i (m.next + 1)) (by simp [holding, typedElem]) rfl rfl
    (by simp [Handle.inCells, typedElem, Nat.mod_eq_of_lt hb, H.cell, Nat.succ_le_of_lt hb]), bind_assoc]
  refine Bad.store rfl (by simp [typedElem]) (by simp [typedElem]) fun s4 h4 => ?_
  simp [Borrows.write, Borrows.writeAux, typedElem] at h4
  subst h4
  simp only [pure_bind, bind_assoc]
  refine Bad.load rfl (by simp; omega) (by simp; omega) fun s5 h5 => ?_
  simp [Borrows.read, hne.symm] at h5

end

/-! ### Examples -/

namespace Ex

/-- A container of three `u32` at address 100, and one of two elements of a type with a cell at address 200. -/
def aenv : List (Option Handle) :=
  [some ⟨0, 100, 12, ElemInfo.new Ex.env 2, .owner, .excl⟩, some ⟨1, 200, 16, ElemInfo.new Ex.env 7, .owner, .excl⟩]

/-- Memory with only these in it. -/
def amem : AMem where
  byte := fun b => some (UInt8.ofNat b)
  stack := fun b => if 100 ≤ b ∧ b < 112 then [⟨0, .unique⟩] else if 200 ≤ b ∧ b < 216 then [⟨1, .unique⟩] else []
  next := 2

theorem aenv_owned : OwnedOnly Ex.env aenv amem := by
  have two : ∀ h, some h ∈ aenv → h = ⟨0, 100, 12, ElemInfo.new Ex.env 2, .owner, .excl⟩ ∨ h = ⟨1, 200, 16, ElemInfo.new Ex.env 7, .owner, .excl⟩ := by
    intro h hh
    simpa [aenv] using hh
  refine ⟨?_, ?_, ?_, ?_, ?_, ?_⟩
  · intro h hh
    rcases two h hh with rfl | rfl <;> exact ⟨rfl, rfl⟩
  · intro h hh
    rcases two h hh with rfl | rfl <;> exact ⟨rfl, by decide⟩
  · intro i j g h hi hj hij
    match i, j, hij, hi, hj with
    | 0, 1, _, hi, hj => cases hi; cases hj; exact .inl (by decide)
    | 1, 0, _, hi, hj => cases hi; cases hj; exact .inr (by decide)
    | 0, 0, h, _, _ => exact absurd rfl h
    | 1, 1, h, _, _ => exact absurd rfl h
    | n + 2, _, _, hi, _ => simp [aenv] at hi
    | _, n + 2, _, _, hj => simp [aenv] at hj
  · intro h hh k hk
    rcases two h hh with rfl | rfl
    · simp only at hk
      simp [amem]; omega
    · simp only at hk
      simp only [amem]
      rw [if_neg (by omega), if_pos (by omega)]
  · intro b hb
    have h1 := hb _ (by simp [aenv] : some ⟨0, 100, 12, ElemInfo.new Ex.env 2, .owner, .excl⟩ ∈ aenv)
    have h2 := hb _ (by simp [aenv] : some ⟨1, 200, 16, ElemInfo.new Ex.env 7, .owner, .excl⟩ ∈ aenv)
    simp only at h1 h2
    simp only [amem]
    rw [if_neg h1, if_neg h2]
  · intro h hh
    rcases two h hh with rfl | rfl <;> decide

/-- Type 7 is all cells. -/
def acells : TyId → Nat → Bool := fun t _ => t == 7

theorem aenv_cell : HasCell Ex.env acells aenv 1 ⟨1, 200, 16, ElemInfo.new Ex.env 7, .owner, .excl⟩ 1 5 :=
  ⟨rfl, by decide, by decide, by decide, by decide, by decide⟩

/-- Split a view, hold the elements of both halves, exchange two of them, and look at the container. -/
def aprog : AProg :=
  .seq (.exclusive 0 .view (.exclusive 2 (.split 1) (.exclusive 3 .iter (.exclusive 4 .iter (.seq (.exchange 5 7) (.shared 6 (.downcast 2) (.look 8)))))))
    (.seq (.put 0 List.reverse) (.look 0))

example := C89_plain_partial (cfg := ⟨true⟩) (cells := fun _ _ => false) aenv_owned (fun _ _ => rfl) aprog true

example : (((aprog.run Ex.env ⟨true⟩ (fun _ _ => false) ⟨true, true⟩ aenv).run amem).1 matches .ok [_, _]) = true := by decide +kernel

/-- Two shared typed references at once; through both, the cell is written. -/
def aprogCell : AProg :=
  .seq (.shared 1 (.typedAt 7 1) (.shared 1 (.typed 7) (.seq (.cell 2 0 [some 9]) (.seq (.cell 3 8 [some 8]) (.look 2))))) (.put 1 List.reverse)

example := C89_typed_partial (cfg := ⟨true⟩) (cells := acells) aenv_owned aprogCell ⟨⟨trivial, trivial, trivial, trivial, trivial⟩, trivial⟩ false

example : (((aprogCell.run Ex.env ⟨true⟩ acells ⟨true, true⟩ aenv).run amem).1 matches .ok [some 8 :: _]) = true := by decide +kernel

end Ex

theorem C89_refuted : ¬ C89_full := fun h =>
  h _ Ex.env ⟨true⟩ Ex.acells false Ex.aenv Ex.amem _ Ex.aenv_owned
    (C89_refuted_cell_write (cfg := ⟨true⟩) Ex.aenv_owned Ex.aenv_cell (some 1) false)

example := C89_refuted_downcast (cfg := ⟨true⟩) Ex.aenv_owned Ex.aenv_cell .skip
example := C89_refuted_view (cfg := ⟨true⟩) Ex.aenv_owned Ex.aenv_cell .skip
example := C89_refuted_held_view (cfg := ⟨true⟩) Ex.aenv_owned Ex.aenv_cell (some 1) true

end Dync
