import Verif.Balance2
import Verif.Props.Machine
/-!
# The balance of values: rotations, swaps and places
-/
namespace Dync
variable {U V σ α β : Type} {Γ : TyEnv U} {cfg : Cfg} {t : TyId} {a : Obj} {es : List Bytes}
open Meter

/-- Like `Tidy`, for containers of whole elements. -/
def TidyOn (Γ : TyEnv U) (a : Obj) (i : Int) (m : M (XVec × Outside (Ledger U)) Obs) : Prop :=
  ∀ t es cap o r s', (∀ e ∈ es, e.length = Γ.size t) → 0 < Γ.size t → m (.vec t es cap, o) = (.ok r, s') →
    ∃ es' cap', s'.1 = .vec t es' cap' ∧
      s'.2.leaked = o.leaked ∧ s'.2.user.net a + cnt a t es' = o.user.net a + cnt a t es + i

theorem Tidy.on {i : Int} {m : M (XVec × Outside (Ledger U)) Obs} (h : Tidy a i m) : TidyOn Γ a i m :=
  fun t es cap o r s' _ _ e => h t es cap o r s' e

theorem TidyOn.plain {i : Int} {f : XVec → After}
    (h : ∀ t es cap r, (∀ e ∈ es, e.length = Γ.size t) → 0 < Γ.size t → (f (.vec t es cap)).out = .ok r →
      ∃ es' cap', (f (.vec t es cap)).now = .vec t es' cap' ∧
      (f (.vec t es cap)).leak = false ∧ cnt a t es' = cnt a t es + i) :
    TidyOn Γ a i (XVec.plain f : M (XVec × Outside (Ledger U)) Obs) := by
  intro t es cap o r s' he hp e
  simp only [XVec.plain] at e
  cases ho : (f (.vec t es cap)).out with
  | ok r1 =>
    rw [ho] at e
    cases e
    obtain ⟨es', cap', h1, h2, h3⟩ := h _ _ _ _ he hp ho
    exact ⟨es', cap', h1, by simp [h2], by simp only; omega⟩
  | panic => rw [ho] at e; cases e
  | ub => rw [ho] at e; cases e

theorem size_lt_of_fits {n : Nat} (h : ∀ t, (n + 1) * Γ.size t ≤ usizeMax) (t : TyId) : n * Γ.size t < 2 ^ 64 := by
  have := h t
  have h2 : n * Γ.size t ≤ (n + 1) * Γ.size t := Nat.mul_le_mul_right _ (by omega)
  unfold usizeMax at this
  omega

theorem times_fits {n m : Nat} (h : Fits Γ cfg n) (e : times cfg n (perElem Γ t) = some m) : m = n * perElem Γ t := by
  rcases h with h | h
  · exact times_debug h e
  · have h1 : n * perElem Γ t ≤ n * Γ.size t := by
      rw [← perElem_mul Γ t]
      exact Nat.mul_le_mul_left _ (Nat.le_mul_of_pos_right _ (align_pos Γ t))
    have h2 := size_lt_of_fits h t
    rw [times_small (by omega)] at e
    cases e
    rfl

theorem cut_rotate {n : Nat} (he : ∀ e ∈ es, e.length = Γ.size t) (hn : n ≤ es.length) :
    cut (Γ.size t) es.length (es.flatten.drop (n * Γ.size t) ++ es.flatten.take (n * Γ.size t)) = es.drop n ++ es.take n := by
  have hl : es.length = (es.drop n ++ es.take n).length := by simp; omega
  rw [drop_flatten he, take_flatten he, ← List.flatten_append, hl, cut_of_flatten]
  intro e hm
  rcases List.mem_append.1 hm with h | h
  · exact he e (List.mem_of_mem_drop h)
  · exact he e (List.mem_of_mem_take h)

theorem cnt_rotate (n : Nat) : cnt a t (es.drop n ++ es.take n) = cnt a t es := by
  rw [cnt_append]
  have := cnt_take_drop (a := a) (t := t) (es := es) n
  omega

theorem tidy_rotateLeft {n : Nat} (h : Fits Γ cfg n) :
    TidyOn Γ a 0 (XVec.plain (XVec.rotateLeft Γ cfg n) : M (XVec × Outside (Ledger U)) Obs) := by
  refine TidyOn.plain fun t es cap r he hp ho => ?_
  simp only [XVec.rotateLeft] at ho ⊢
  split at ho
  · cases ho
  · rename_i ha
    rw [if_neg ha]
    cases hk : times cfg n (perElem Γ t) with
    | none => rw [hk] at ho; cases ho
    | some k =>
      rw [hk] at ho
      have := times_fits h hk
      subst this
      simp only at ho ⊢
      split at ho
      · rename_i hle
        rw [if_pos hle]
        have hn := Nat.le_of_mul_le_mul_right hle (perElem_pos hp)
        refine ⟨_, _, rfl, rfl, ?_⟩
        rw [Nat.mul_assoc, perElem_mul, cut_rotate he hn, cnt_rotate]
        omega
      · cases ho

theorem tidy_rotateRight {n : Nat} (h : Fits Γ cfg n) :
    TidyOn Γ a 0 (XVec.plain (XVec.rotateRight Γ cfg n) : M (XVec × Outside (Ledger U)) Obs) := by
  refine TidyOn.plain fun t es cap r he hp ho => ?_
  simp only [XVec.rotateRight] at ho ⊢
  split at ho
  · cases ho
  · rename_i ha
    rw [if_neg ha]
    cases hk : times cfg n (perElem Γ t) with
    | none => rw [hk] at ho; cases ho
    | some k =>
      rw [hk] at ho
      have := times_fits h hk
      subst this
      simp only at ho ⊢
      split at ho
      · rename_i hle
        rw [if_pos hle]
        have hn := Nat.le_of_mul_le_mul_right hle (perElem_pos hp)
        refine ⟨_, _, rfl, rfl, ?_⟩
        rw [← Nat.sub_mul, Nat.mul_assoc, perElem_mul, cut_rotate he (Nat.sub_le _ _), cnt_rotate]
        omega
      · cases ho

theorem split_two {p q : Nat} (hpq : p < q) (hq : q < es.length) :
    es = es.take p ++ [es[p]] ++ (es.take q).drop (p + 1) ++ [es[q]] ++ es.drop (q + 1) := by
  have h1 : es = es.take q ++ es[q] :: es.drop (q + 1) := by
    rw [← List.drop_eq_getElem_cons hq, List.take_append_drop]
  have h2 : es.take q = es.take p ++ es[p] :: (es.take q).drop (p + 1) := by
    have h3 : p < (es.take q).length := by simp; omega
    conv => lhs; rw [← List.take_append_drop p (es.take q)]
    rw [List.drop_eq_getElem_cons h3, List.take_take, Nat.min_eq_left (by omega), List.getElem_take]
  conv => lhs; rw [h1]
  conv => lhs; rw [h2]
  simp only [List.append_assoc, List.singleton_append, List.cons_append, List.nil_append]

theorem exchange_flatten {n p q : Nat} (he : ∀ e ∈ es, e.length = n) (hpq : p < q) (hq : q < es.length) :
    exchange n (p * n) (q * n) es.flatten =
      (es.take p ++ [es[q]] ++ (es.take q).drop (p + 1) ++ [es[p]] ++ es.drop (q + 1)).flatten := by
  simp only [exchange]
  have e1 : (es.flatten.take (q * n)).drop (p * n + n) = ((es.take q).drop (p + 1)).flatten := by
    rw [take_flatten he, ← Nat.succ_mul, drop_flatten]
    intro e hm
    exact he e (List.mem_of_mem_take hm)
  have e2 : es.flatten.drop (q * n + n) = (es.drop (q + 1)).flatten := by
    rw [← Nat.succ_mul, drop_flatten he]
  rw [e1, e2, drop_take_flatten he (i := q) hq, drop_take_flatten he (i := p) (by omega), take_flatten he]
  simp

theorem cnt_exchange {n p q : Nat} (he : ∀ e ∈ es, e.length = n) (hpq : p < q) (hq : q < es.length) :
    cnt a t (cut n es.length (exchange n (p * n) (q * n) es.flatten)) = cnt a t es := by
  rw [exchange_flatten he hpq hq]
  have hs := split_two (es := es) hpq hq
  have hl : es.length = (es.take p ++ [es[q]] ++ (es.take q).drop (p + 1) ++ [es[p]] ++ es.drop (q + 1)).length := by
    simp only [List.length_append, List.length_take, List.length_drop, List.length_singleton]
    omega
  have hc := cut_of_flatten (n := n)
    (l := es.take p ++ [es[q]] ++ (es.take q).drop (p + 1) ++ [es[p]] ++ es.drop (q + 1)) (by
    intro e hm
    simp only [List.mem_append, List.mem_singleton] at hm
    rcases hm with (((h | h) | h) | h) | h
    · exact he e (List.mem_of_mem_take h)
    · exact h ▸ he _ (List.getElem_mem _)
    · exact he e (List.mem_of_mem_take (List.mem_of_mem_drop h))
    · exact h ▸ he _ (List.getElem_mem _)
    · exact he e (List.mem_of_mem_drop h))
  have hx := congrArg (cnt a t) hs
  simp only [cnt_append] at hx
  rw [← hl] at hc
  rw [hc]
  simp only [cnt_append]
  omega

theorem tidy_swap {i j : Nat} (hi : Fits Γ cfg i) (hj : Fits Γ cfg j) :
    TidyOn Γ a 0 (XVec.plain (XVec.swap Γ cfg i j) : M (XVec × Outside (Ledger U)) Obs) := by
  refine TidyOn.plain fun t es cap r he hp ho => ?_
  simp only [XVec.swap] at ho ⊢
  by_cases hij : i = j
  · rw [if_pos hij]
    exact ⟨es, cap, rfl, rfl, by omega⟩
  rw [if_neg hij] at ho ⊢
  by_cases hd : cfg.debug = true
  · rw [if_pos hd] at ho ⊢
    by_cases hb : i < es.length ∧ j < es.length
    · rw [dif_pos hb]
      refine ⟨_, _, rfl, rfl, ?_⟩
      have h1 := cnt_set (a := a) (t := t) (x := es[j]) hb.1
      have h2 := cnt_set (a := a) (t := t) (x := es[i]) (es := es.set i es[j]) (i := j) (by simpa using hb.2)
      rw [List.getElem_set_ne hij] at h2
      omega
    · rw [dif_neg hb] at ho; cases ho
  · rw [if_neg hd] at ho ⊢
    have fi : ∀ t, (i + 1) * Γ.size t ≤ usizeMax := hi.resolve_left hd
    have fj : ∀ t, (j + 1) * Γ.size t ≤ usizeMax := hj.resolve_left hd
    have e1 : min i j * Γ.size t % 2 ^ 64 = min i j * Γ.size t := Nat.mod_eq_of_lt (by
      rcases Nat.le_total i j with h | h
      · rw [Nat.min_eq_left h]; exact size_lt_of_fits fi t
      · rw [Nat.min_eq_right h]; exact size_lt_of_fits fj t)
    have e2 : max i j * Γ.size t % 2 ^ 64 = max i j * Γ.size t := Nat.mod_eq_of_lt (by
      rcases Nat.le_total i j with h | h
      · rw [Nat.max_eq_right h]; exact size_lt_of_fits fj t
      · rw [Nat.max_eq_left h]; exact size_lt_of_fits fi t)
    rw [e1, e2] at ho ⊢
    split at ho
    · rename_i hc
      rw [if_pos hc]
      refine ⟨_, _, rfl, rfl, ?_⟩
      rw [cnt_exchange he (by omega)]
      · omega
      · have := hc.2
        rw [← Nat.succ_mul] at this
        exact Nat.le_of_mul_le_mul_right this hp
    · cases ho

/-! ### Places -/

theorem offset_exact {i c n : Nat} (h : Fits Γ cfg i) (hp : 0 < Γ.size t) (e : offset cfg (Γ.size t) n i = some c) :
    c = i * Γ.size t ∧ i < n := by
  unfold offset at e
  by_cases hd : cfg.debug = true
  · rw [if_pos hd] at e
    split at e
    · cases e; exact ⟨rfl, by assumption⟩
    · cases e
  · rw [if_neg hd, Nat.mod_eq_of_lt (size_lt_of_fits (h.resolve_left hd) t)] at e
    split at e
    · rename_i hle
      cases e
      rw [← Nat.succ_mul] at hle
      exact ⟨rfl, Nat.le_of_mul_le_mul_right hle hp⟩
    · cases e

/-- The content is whole elements. -/
def YItem.Shaped (Γ : TyEnv U) : YItem → Prop
  | .vec b (.vec t es _) => b = t ∧ (∀ e ∈ es, e.length = Γ.size t) ∧ 0 < Γ.size t
  | .vec _ (.unit _) => False
  | .box t x | .small t x => x.length = Γ.size t

/-- What is at a place: a value of its type, and its table. Storing there exchanges one value for the other. -/
theorem place_weigh {b : YItem} {i : Nat} {p : Place} (h : Fits Γ cfg i) (hs : b.Shaped Γ) (hp : b.at Γ cfg i = some p) :
    p.table = p.ty ∧ p.bytes.length = Γ.size p.ty ∧
      ∀ x, x.length = Γ.size p.ty → (b.store Γ cfg i x).Whole ∧
        (b.store Γ cfg i x).weigh a + cnt a p.ty [p.bytes] = b.weigh a + cnt a p.ty [x] := by
  cases b with
  | vec d x =>
    cases x with
    | vec t es cap =>
      obtain ⟨rfl, he, hpos⟩ := hs
      simp only [YItem.at] at hp
      cases ho : offset cfg (Γ.size d) es.length i with
      | none => rw [ho] at hp; cases hp
      | some c =>
        rw [ho] at hp
        obtain ⟨rfl, hi⟩ := offset_exact h hpos ho
        cases hp
        refine ⟨rfl, ?_, fun x hx => ?_⟩
        · simp only [drop_take_flatten he hi]
          exact he _ (List.getElem_mem _)
        · have hsp := splice_flatten he hi hx
          unfold splice at hsp
          rw [hx] at hsp
          have hc := cut_of_flatten (n := Γ.size d) (l := es.set i x) (by
            intro e hm
            rcases List.mem_or_eq_of_mem_set hm with h | rfl
            · exact he e h
            · exact hx)
          rw [List.length_set] at hc
          simp only [YItem.store, ho, hsp, hc, YItem.weigh, XVec.weigh, drop_take_flatten he hi]
          exact ⟨trivial, cnt_set hi⟩
    | unit n => exact hs.elim
  | box t x =>
    cases hp
    exact ⟨rfl, hs, fun y _ => ⟨trivial, by simp only [YItem.store, YItem.weigh]; omega⟩⟩
  | small t x =>
    cases hp
    exact ⟨rfl, hs, fun y _ => ⟨trivial, by simp only [YItem.store, YItem.weigh]; omega⟩⟩

end Dync
