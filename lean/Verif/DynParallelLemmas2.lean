import Verif.DynParallelLemmas
/-!
# What a thread does with views of non-`Copy` elements can be carried out byte by byte
-/
namespace Dync
variable {U V α β : Type} {Γ : TyEnv U} {cfg : Cfg} {vt : TyId → V}

namespace Steps

/-- Change how a computation ends. -/
def finish (f : Res α → Res β) : Steps α → Steps β
  | done r => done (f r)
  | load a k => load a fun b => (k b).finish f
  | store a b k => store a b (k.finish f)

theorem alone_finish (f : Res α → Res β) (s : Steps α) : ∀ m, (s.finish f).alone m = (f (s.alone m).1, (s.alone m).2) := by
  induction s with
  | done r => intro m; rfl
  | load a k ih => intro m; exact ih _ m
  | store a b k ih => intro m; exact ih _

theorem touches_finish (f : Res α → Res β) (s : Steps α) : ∀ m, (s.finish f).touches m = s.touches m := by
  induction s with
  | done r => intro m; rfl
  | load a k ih => intro m; simp only [finish, touches]; rw [ih]
  | store a b k ih => intro m; simp only [finish, touches]; rw [ih]

/-- The computation can be carried out, in whatever state the thread is. -/
def Doable2 (c : M (Mem × World U) α) : Prop := ∀ w, Doable (c.inWorld w)

theorem Doable2.lift (r : Res α) : Doable2 (M.lift r : M (Mem × World U) α) := fun w => Doable.pure (r, w)
theorem Doable2.pure (a : α) : Doable2 (Pure.pure a : M (Mem × World U) α) := Doable2.lift (.ok a)

theorem Doable2.bind {c : M (Mem × World U) α} {g : α → M (Mem × World U) β} (hc : Doable2 c) (hg : ∀ a, Doable2 (g a)) :
    Doable2 (c >>= g) := by
  intro w
  let next : Res α × World U → M Mem (Res β × World U) := fun x =>
    match x.1 with
    | .ok a => (g a).inWorld x.2
    | .panic y => Pure.pure (.panic y, x.2)
    | .ub => Pure.pure (.ub, x.2)
    | .abort => Pure.pure (.abort, x.2)
  have e : (c >>= g).inWorld w = c.inWorld w >>= next := by
    refine M.ext' fun m => ?_
    rcases h : c (m, w) with ⟨r, m1, w1⟩
    have e1 : c.inWorld w m = (.ok (r, w1), m1) := by simp only [M.inWorld, h]
    rw [M.bind_ok e1]
    simp only [M.inWorld]
    cases r with
    | ok a => rw [M.bind_ok h]; rfl
    | panic y => rw [M.bind_panic h]; rfl
    | ub => rw [M.bind_ub h]; rfl
    | abort => rw [M.bind_abort h]; rfl
  rw [e]
  refine Doable.bind (hc w) fun x => ?_
  simp only [next]
  split
  · exact hg _ _
  · exact .pure _
  · exact .pure _
  · exact .pure _

theorem Doable2.caught {c : M (Mem × World U) α} (hc : Doable2 c) : Doable2 c.caught := by
  intro w
  let res : Res α → Res (Option α) := fun r =>
    match r with
    | .ok a => .ok (some a)
    | .panic _ => .ok none
    | .ub => .ub
    | .abort => .abort
  have e : c.caught.inWorld w = c.inWorld w >>= fun x => Pure.pure (res x.1, x.2) := by
    refine M.ext' fun m => ?_
    rcases h : c (m, w) with ⟨r, m1, w1⟩
    have e1 : c.inWorld w m = (.ok (r, w1), m1) := by simp only [M.inWorld, h]
    rw [M.bind_ok e1]
    simp only [M.inWorld, M.caught]
    cases r <;> simp only [h] <;> rfl
  rw [e]
  exact Doable.bind (hc w) fun x => .pure _

theorem Doable.onFst {c : M Mem α} (hc : Doable c) : Doable2 (SProg.onFst c : M (Mem × World U) α) := by
  intro w
  obtain ⟨s, hs⟩ := hc
  refine ⟨s.finish fun r => .ok (r, w), fun m => ?_⟩
  obtain ⟨e, l, el, hl⟩ := hs m
  rw [alone_finish, touches_finish, e]
  exact ⟨rfl, l, el, hl⟩

theorem Doable2.lend (v : PtrView V) (c : M (SliceCopy V × World U) α) : Doable2 (v.lend c) := by
  intro w
  let out : Bytes → Res α × (SliceCopy V × World U) := fun bs => c (⟨bs, v.elem, v.vtable⟩, w)
  refine ⟨loads v.addr v.len fun bs => (stores v.addr (out bs).2.1.data).andThen fun _ => done (.ok ((out bs).1, (out bs).2.2)), fun m => ?_⟩
  refine ⟨?_, _, rfl, fun x hx => ?_⟩
  · rw [alone_loads, alone_andThen, alone_stores]
    rfl
  · rw [touches_loads, touches_andThen, touches_stores, alone_stores] at hx
    simp only [touches, List.append_nil, List.mem_append, List.mem_map, List.mem_range] at hx
    rcases hx with ⟨i, hi, rfl⟩ | ⟨i, hi, rfl⟩
    · exact ⟨_, List.mem_cons_self .., Nat.le_add_right .., by simp only; omega, fun h => by cases h⟩
    · exact ⟨_, List.mem_cons_of_mem _ (List.mem_singleton.2 rfl), Nat.le_add_right .., Nat.add_lt_add_left hi _, fun _ => rfl⟩

end Steps

open Steps

section
variable [HasDrop U V] [HasClone U V]

omit [HasDrop U V] [HasClone U V] in
theorem Cut.made (c : Cut) (v : PtrView V) : Accessing true (c.parts cfg v) := by
  cases c with
  | split mid => exact .bind (.umul ..) fun _ => .bind (.lift _) fun _ => .pure _
  | chunks k => exact .bind (.umul ..) fun _ => .lift _
  | values => exact .lift _
  | sub r => exact .bind (.scale ..) fun _ => .bind (.lift _) fun _ => .bind (.lift _) fun _ => .pure _

theorem cloneValue_doable (v : PtrView V) (a : Nat) (w : PtrView V) (b : Nat) : Doable2 (v.cloneValue cfg a w b : M (Mem × World U) _) :=
  .bind (Accessing.elemAt (w := true) ..).doable.onFst fun _ => .bind (Doable.load ..).onFst fun _ => .bind (.lend _ _) fun _ => .pure _

omit [HasDrop U V] [HasClone U V] in
theorem asSlice_doable (t : TyId) (s : SliceCopy V) : Doable2 (s.asSlice Γ cfg t : M (Mem × World U) _) := by
  unfold SliceCopy.asSlice
  cases s.check t with
  | none => exact .pure _
  | some s =>
    refine .bind ?_ fun _ => .bind (.lift _) fun _ => .pure _
    rw [len_eq]
    exact .lift _

theorem cloneSlice_doable (t : TyId) (v w : PtrView V) : Doable2 (v.cloneSlice Γ cfg t w : M (Mem × World U) _) := by
  refine .bind (Doable.load ..).onFst fun x => .bind ?_ fun o => ?_
  · exact asSlice_doable _ _
  · cases o with
    | none => exact .pure _
    | some xs => exact .bind (.lend _ _) fun _ => .pure _

theorem KProg.doable (p : KProg U) : ∀ (n : Nat) (ρ : Nat → Option (PtrView V)), Doable2 (p.runAt Γ cfg vt n ρ) := by
  induction p with
  | skip => exact fun _ _ => .pure _
  | seq p q ihp ihq => exact fun n ρ => .bind (ihp n ρ) fun _ => .bind (ihq n ρ) fun _ => .pure _
  | on i p =>
    intro n ρ; simp only [KProg.runAt]
    cases ρ i with
    | none => exact .pure _
    | some v => exact .lend _ _
  | swapValues i a j b =>
    intro n ρ; simp only [KProg.runAt]
    split
    · exact .pure _
    · cases ρ i with
      | none => exact .pure _
      | some v =>
        cases ρ j with
        | none => exact .pure _
        | some w =>
          refine (Accessing.bind (w := true) (.elemAt ..) fun e => .bind (.elemAt ..) fun f => .bind ?_ fun _ => .pure _).doable.onFst
          exact .ite (.exchange _ _ rfl) (.pure _)
  | cloneValue i a j b =>
    intro n ρ; simp only [KProg.runAt]
    split
    · exact .pure _
    · cases ρ i with
      | none => exact .pure _
      | some v =>
        cases ρ j with
        | none => exact .pure _
        | some w => exact cloneValue_doable _ _ _ _
  | cloneSlice i j t =>
    intro n ρ; simp only [KProg.runAt]
    split
    · exact .pure _
    · cases ρ i with
      | none => exact .pure _
      | some v =>
        cases ρ j with
        | none => exact .pure _
        | some w => exact cloneSlice_doable _ _ _
  | cut i c q ih =>
    intro n ρ; simp only [KProg.runAt]
    cases ρ i with
    | none => exact .pure _
    | some v => exact .bind (c.made v).doable.onFst fun _ => ih _ _

/-- What a thread does can be carried out byte by byte. -/
theorem DTProg.doable (p : DTProg U) {n : Nat} {ρ sh : Nat → Option (PtrView V)} : Doable2 (p.runAt Γ cfg vt n ρ sh) := by
  induction p with
  | stop => exact .pure _
  | own p next ih => exact .bind (p.doable n ρ).caught fun o => .bind (ih o) fun _ => .pure _
  | look k p next ih =>
    refine .bind (.caught ?_) fun o => .bind (ih o) fun _ => .pure _
    cases sh k with
    | none => exact .pure _
    | some v => exact (p.made (w := true) v (.inl rfl)).doable.onFst
  | cloneValue i a k b next ih =>
    refine .bind (.caught ?_) fun o => .bind (ih o) fun _ => .pure _
    cases ρ i with
    | none => exact .pure _
    | some v =>
      cases sh k with
      | none => exact .pure _
      | some w => exact cloneValue_doable _ _ _ _
  | cloneSlice i k t next ih =>
    refine .bind (.caught ?_) fun o => .bind (ih o) fun _ => .pure _
    cases ρ i with
    | none => exact .pure _
    | some v =>
      cases sh k with
      | none => exact .pure _
      | some w => exact cloneSlice_doable _ _ _

end
end Dync
