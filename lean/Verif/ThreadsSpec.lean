import Verif.Threads
import Verif.WholeSpec
/-!
# Specification: threads that do not interfere
-/
namespace Dync
variable {S U V H F σ α X : Type}

/-- Run from states related by `R`, `m` returns the same and ends in states related by `R`. -/
def Respects (R : σ → σ → Prop) (m : M σ α) : Prop := ∀ s s', R s s' → (m s).1 = (m s').1 ∧ R (m s).2 (m s').2

/-- Next to something that is the same. -/
def Beside (R : σ → σ → Prop) (s s' : X × σ) : Prop := s.1 = s'.1 ∧ R s.2 s'.2

/-- Two states that thread `i`, which runs in both, cannot tell apart; in the first, the stores of the other
threads are as in `L`. -/
def LooksSame (i : Nat) (L : Nat → S) (x y : TLS S) : Prop :=
  x.current = i ∧ y.current = i ∧ x.store i = y.store i ∧ ∀ j, j ≠ i → x.store j = L j

/-- User code respects a relation between its states. -/
structure UserRespects (R : U → U → Prop) (Γ : TyEnv U) (Φ : UserFns U H F) : Prop where
  drop : ∀ t b, Respects R (Γ.drop t b)
  clone : ∀ t b, Respects R (Γ.clone t b)
  cloneFrom : ∀ t b, Respects (Beside R) (Γ.cloneFrom t b)
  eq : ∀ t a b, Respects R (Φ.eq t a b)
  hash : ∀ t a, Respects (Beside R) (Φ.hash t a)
  fmt : ∀ t a, Respects (Beside R) (Φ.fmt t a)

/-- The user's own code in a program on a view. -/
def VProg.Respects (R : U → U → Prop) : VProg U → Prop
  | .seq p q => p.Respects R ∧ q.Respects R
  | .edit _ m => Dync.Respects (Beside R) m
  | .sub _ p => p.Respects R
  | .split _ p q => p.Respects R ∧ q.Respects R
  | .chunks _ p => p.Respects R
  | _ => True

/-- The user's own code in a step. -/
def WOp.Respects (R : U → U → Prop) : WOp U V H F → Prop
  | .view _ p => p.Respects R
  | _ => True

/-- User code reads and changes nothing but the store of the thread that runs it. -/
def ThreadLocal (Γ : TyEnv (TLS S)) (Φ : UserFns (TLS S) H F) : Prop := ∀ i L, UserRespects (LooksSame i L) Γ Φ

/-- Code next to something else, on the store of the thread that runs it. -/
def besideThread (m : M (X × S) α) : M (X × TLS S) α :=
  M.zoom (fun x => (x.1, x.2.store x.2.current))
    (fun s x => (s.1, { x.2 with store := fun j => if j = x.2.current then s.2 else x.2.store j })) m

/-- Every thread has its own copy of the state of user code. -/
def TyEnv.perThread (Γ : TyEnv S) : TyEnv (TLS S) where
  size := Γ.size
  align := Γ.align
  align_pow := Γ.align_pow
  align_dvd := Γ.align_dvd
  size_le := Γ.size_le
  unitTy := Γ.unitTy
  unit_size := Γ.unit_size
  unit_align := Γ.unit_align
  drop t b := inThread (Γ.drop t b)
  clone t b := inThread (Γ.clone t b)
  clone_len := fun {t b u b' u'} h => by
    rcases hc : Γ.clone t b (u.store u.current) with ⟨r, v⟩
    simp only [inThread, M.zoom_run, hc, Prod.mk.injEq] at h
    rw [h.1] at hc
    exact Γ.clone_len hc
  cloneFrom t b := besideThread (Γ.cloneFrom t b)
  cloneFrom_len := fun {t src d u r d' u'} h hd => by
    rcases hc : Γ.cloneFrom t src (d, u.store u.current) with ⟨r, d1, v⟩
    simp only [besideThread, M.zoom_run, hc, Prod.mk.injEq] at h
    rw [← h.2.1]
    exact Γ.cloneFrom_len hc hd
  eq := Γ.eq
  hash := Γ.hash
  fmt := Γ.fmt

/-- The same for comparison, hashing and formatting. -/
def UserFns.perThread (Φ : UserFns S H F) : UserFns (TLS S) H F where
  eq t a b := inThread (Φ.eq t a b)
  hash t a := besideThread (Φ.hash t a)
  fmt t a := besideThread (Φ.fmt t a)

/-- Which variables threads may use: thread `i` may write those in `own i` and read those in `sees i`; what one
thread writes no other one sees. -/
structure Apart (own sees : Nat → Nat → Prop) : Prop where
  own_sees : ∀ i k, own i k → sees i k
  apart : ∀ i j k, i ≠ j → own i k → ¬ sees j k

/-- The schedule keeps to these rules, and the user's own code in it is thread-local. -/
def Keeping (own sees : Nat → Nat → Prop) (sched : List (Nat × WOp (TLS S) V H F)) : Prop :=
  ∀ x ∈ sched, (∀ k ∈ x.2.writes, own x.1 k) ∧ (∀ k ∈ x.2.reads, sees x.1 k) ∧ ∀ L, x.2.Respects (LooksSame x.1 L)

end Dync
