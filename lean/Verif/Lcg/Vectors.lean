import Verif.Lcg.Protocol
import Verif.Lcg.Krylov
/-!
# The conjugate gradients routines in terms of vectors

In exact arithmetic, with arrays which do not overlap (`z` may be the same as `q`).
-/
set_option linter.unusedSectionVars false
set_option linter.unusedSimpArgs false
namespace Opk.Lcg
open Linalg (Mem put forUp slot)

variable {K : Type} [Field K] [LinearOrder K] [IsStrictOrderedRing K] {n : ℕ}

/-- The `n` numbers stored from address `a`. -/
def vec (n : ℕ) (m : Mem K) (a : Int) : Fin n → K := fun i => m (a + i)

/-- The two arrays of `n` numbers do not overlap. -/
def Apart (n : ℕ) (a b : Int) : Prop := a + n ≤ b ∨ b + n ≤ a

/-- What the documentation asks for: distinct arrays, except that `z` may be the same as `q` (or overlap
it in any way). -/
structure Layout (n : ℕ) (A : Arrays) : Prop where
  size : A.n = n
  px : Apart n A.p A.x
  pr : Apart n A.p A.r
  pq : Apart n A.p A.q
  xr : Apart n A.x A.r
  xq : Apart n A.x A.q
  rq : Apart n A.r A.q
  zp : ∀ z, A.z = some z → Apart n z A.p
  zx : ∀ z, A.z = some z → Apart n z A.x
  zr : ∀ z, A.z = some z → Apart n z A.r

theorem Apart.symm {a b : Int} (h : Apart n a b) : Apart n b a := Or.symm h

theorem vec_frame {m m' : Mem K} {a c : Int} (hac : Apart n c a) (h : ∀ p, ¬Within n a p → m' p = m p) :
    vec n m' c = vec n m c := by
  funext i
  refine h _ ?_
  unfold Within Apart at *
  have := i.2
  omega

theorem vec_zero (x : Int) (m : Mem K) : vec n (Linalg.zero n x 1 m) x = 0 := by
  funext i
  have := (Linalg.zero_spec (n := n) (x := x) le_rfl m).1 i (by have := i.2; omega)
  rw [Linalg.slot_one] at this
  exact this

theorem zero_frame {x p : Int} (h : ¬Within n x p) (m : Mem K) : Linalg.zero n x 1 m p = m p :=
  (Linalg.zero_spec le_rfl m).2 p fun k hk => not_slot h k hk

theorem axpy_out {a : K} {x y p : Int} (h : ¬Within n y p) (m : Mem K) : Linalg.axpy n a x 1 y 1 m p = m p :=
  Linalg.axpy_frame n a x 1 y 1 m p fun k hk => not_slot h k hk

theorem slot_apart {x y : Int} (h : Apart n x y) {N : Int} (i k : Nat) (hi : (i : Int) < n) (hk : (k : Int) < n) : slot y N 1 i ≠ slot x N 1 k := by
  rw [Linalg.slot_one, Linalg.slot_one]
  unfold Apart at h
  omega

theorem vec_copy {x y : Int} (h : Apart n x y) (m : Mem K) : vec n (Linalg.copy n x 1 y 1 m) y = vec n m x := by
  funext i
  have := (Linalg.copy_spec (n := n) (x := x) (incx := 1) (y := y) (incy := 1) (by omega) (by omega)
    (fun i k hik hk => slot_apart h i k (by omega) hk) m).1 i (by have := i.2; omega)
  rw [Linalg.slot_one, Linalg.slot_one] at this
  exact this

theorem vec_axpy {a : K} {x y : Int} (h : Apart n x y) (m : Mem K) : vec n (Linalg.axpy n a x 1 y 1 m) y = vec n m y + a • vec n m x := by
  funext i
  have := (Linalg.axpy_spec (n := n) (a := a) (x := x) (incx := 1) (y := y) (incy := 1) (by omega)
    (fun i k hik hk => slot_apart h i k (by omega) hk) m).1 i (by have := i.2; omega)
  rw [Linalg.slot_one, Linalg.slot_one] at this
  refine this.trans ?_
  simp only [vec, Pi.add_apply, Pi.smul_apply, smul_eq_mul]
  ring

theorem dot_vec (x y : Int) (m : Mem K) : Linalg.dot n x 1 y 1 m = vec n m x ⬝ᵥ vec n m y := by
  rw [Linalg.dot_spec]
  simp only [Linalg.slot_one, Int.toNat_natCast]
  rw [Finset.sum_range]
  rfl

theorem vec_scal {a : K} {x : Int} (m : Mem K) : vec n (Linalg.scal n a x 1 m) x = a • vec n m x := by
  funext i
  have := (Linalg.scal_spec (n := n) (a := a) (x := x) le_rfl m).1 i (by have := i.2; omega)
  rw [Linalg.slot_one] at this
  exact this

theorem scal_out {a : K} {x p : Int} (h : ¬Within n x p) (m : Mem K) : Linalg.scal n a x 1 m p = m p :=
  (Linalg.scal_spec le_rfl m).2 p fun k hk => not_slot h k hk

/-- A loop which stores at each element of `y` an expression of it and of the elements at the same position of `x`. -/
theorem vec_loop {x y : Int} (h : x = y ∨ Apart n x y) (e : K → K → K) (m : Mem K) :
    (∀ i : Fin n, vec n (forUp 0 n 1 (fun i m => put m (y + i) (e (m (x + i)) (m (y + i)))) m) y i = e (vec n m x i) (vec n m y i)) ∧
    ∀ p, ¬Within n y p → forUp 0 n 1 (fun i m => put m (y + i) (e (m (x + i)) (m (y + i)))) m p = m p := by
  rw [Linalg.forUp_one]
  constructor
  · intro i
    have := (Linalg.loop_store (fun k => y + (k : Int)) (fun k (m : Mem K) => e (m (x + k)) (m (y + k)))
      (fun k => e (m (x + k)) (m (y + k))) n m (fun i k hik _ => by omega) ?_).1 i i.2
    · simpa [vec] using this
    · intro k hk m' hl
      have h1 : m' (y + k) = m (y + k) := hl _ fun i hi => by omega
      have h2 : m' (x + k) = m (x + k) := hl _ fun i hi => by unfold Apart at h; omega
      rw [h1, h2]
  · intro p hp
    refine Linalg.loop_frame (fun k => y + (k : Int)) (fun k m => e (m (x + k)) (m (y + k))) _ _ _ fun k hk => ?_
    unfold Within at hp
    simp at hk
    omega

/-- `direction` in terms of vectors. -/
theorem direction_view {A : Arrays} (L : Layout n A) {z : Int} (hz : Apart n z A.p) (s : Cg K) :
    let t := direction A z s
    let d := vec n s.mem A.r ⬝ᵥ vec n s.mem z
    vec n t.mem A.x = vec n s.mem A.x ∧ vec n t.mem A.r = vec n s.mem A.r ∧
    t.rho.r1 = d ∧ t.rho.r0 = s.rho.r0 ∧ t.rho.r2 = s.rho.r2 ∧ t.rho.r4 = s.rho.r4 ∧
    (t.state = .nonConvex ↔ d < 0) ∧ (t.state = .finish ↔ d = 0) ∧ (t.state = .ap ↔ 0 < d) ∧
    (0 < d → vec n t.mem A.p = (if s.rho.r0 > 0 then vec n s.mem z + (d / s.rho.r0) • vec n s.mem A.p else vec n s.mem z) ∧
      t.rho.r3 = if s.rho.r0 > 0 then d / s.rho.r0 else 0) ∧
    (¬0 < d → t.mem = s.mem ∧ t.rho.r3 = s.rho.r3) := by
  have hd : Linalg.dot A.n A.r 1 z 1 s.mem = vec n s.mem A.r ⬝ᵥ vec n s.mem z := by rw [L.size, dot_vec]
  obtain ⟨h1, h2, h3, h4, h5⟩ := direction_state A z s
  rw [hd] at h1 h2 h3 h4 h5
  intro t d
  have fr : ∀ p, ¬Within n A.p p → t.mem p = s.mem p := fun p hp => direction_frame A z s p (by rw [L.size]; exact hp)
  refine ⟨vec_frame L.px.symm fr, vec_frame L.pr.symm fr, h4, ?_, ?_, ?_, h1, h2, h3, ?_, ?_⟩
  · simp only [t, direction]; split_ifs <;> rfl
  · simp only [t, direction]; split_ifs <;> rfl
  · simp only [t, direction]; split_ifs <;> rfl
  · intro hpos
    have e : t = direction A z s := rfl
    clear_value t
    unfold direction at e
    rw [hd] at e
    dsimp only at e
    rw [if_neg (not_le.2 hpos)] at e
    by_cases h0 : s.rho.r0 > 0
    · rw [if_pos h0] at e
      rw [if_pos h0, if_pos h0, e]
      refine ⟨?_, rfl⟩
      funext i
      dsimp only
      rw [L.size]
      exact (vec_loop (Or.inr hz) (fun a b => a + d / s.rho.r0 * b) s.mem).1 i
    · rw [if_neg h0] at e
      rw [if_neg h0, if_neg h0, e]
      refine ⟨?_, rfl⟩
      dsimp only
      rw [L.size]
      exact vec_copy hz s.mem
  · intro hpos
    refine ⟨h5 hpos, ?_⟩
    simp only [t, direction]
    rw [hd, if_pos (not_lt.1 hpos)]

/-! ### Sessions -/

/-- What the caller does before calling the routine again: it leaves the state, `rho` and the vectors `p`, `r`
and `x` as they are; it stores `A.p` in `q` or `Q.r` in `z` when asked to.  Nothing is assumed about the
other elements of the memory. -/
structure Serve (n : ℕ) (arr : Arrays) (A Q : (Fin n → K) →ₗ[K] (Fin n → K)) (s s' : Cg K) : Prop where
  state : s'.state = s.state
  rho : s'.rho = s.rho
  p : vec n s'.mem arr.p = vec n s.mem arr.p
  r : vec n s'.mem arr.r = vec n s.mem arr.r
  x : vec n s'.mem arr.x = vec n s.mem arr.x
  ap : s.state = .ap → vec n s'.mem arr.q = A (vec n s.mem arr.p)
  precond : s.state = .precond → ∀ z, arr.z = some z → vec n s'.mem z = Q (vec n s.mem arr.r)

/-- The successive results `log` (most recent first) and `s` of `call`, starting with `r = b` and either
state `OPK_CG_START` (then `x0 = 0`) or state `OPK_CG_RESTART` and `x = x0`; all numbers in `rho` are arbitrary. -/
inductive Session (n : ℕ) (arr : Arrays) (A Q : (Fin n → K) →ₗ[K] (Fin n → K)) (b x0 : Fin n → K)
    (call : Cg K → Option (Cg K)) : List (Cg K) → Cg K → Prop where
  | start (s : Cg K) : s.state = .start → vec n s.mem arr.r = b → x0 = 0 → Session n arr A Q b x0 call [] s
  | restart (s : Cg K) : s.state = .restart → vec n s.mem arr.r = b → vec n s.mem arr.x = x0 → Session n arr A Q b x0 call [] s
  | next (log : List (Cg K)) (s s' t : Cg K) : Session n arr A Q b x0 call log s → Serve n arr A Q s s' → call s' = some t →
      Session n arr A Q b x0 call (s :: log) t

/-- A step along `p` is being computed (not the initial residuals). -/
def Stepping (s : Cg K) : Prop := s.state = .ap ∧ 0 < s.rho.r1

instance (s : Cg K) : Decidable (Stepping s) := by unfold Stepping; infer_instance

/-- The number of steps taken. -/
def steps (log : List (Cg K)) : ℕ := log.countP fun s => decide (Stepping s)

/-- The directions followed so far. -/
def directions (n : ℕ) (arr : Arrays) (log : List (Cg K)) : Set (Fin n → K) := {d | ∃ e ∈ log, Stepping e ∧ d = vec n e.mem arr.p}

/-- The residuals at the start of each step so far. -/
def residuals (n : ℕ) (arr : Arrays) (log : List (Cg K)) : Set (Fin n → K) := {d | ∃ e ∈ log, Stepping e ∧ d = vec n e.mem arr.r}

theorem log_step {arr : Arrays} {log : List (Cg K)} {s : Cg K} (h : Stepping s) :
    steps (s :: log) = steps log + 1 ∧ directions n arr (s :: log) = insert (vec n s.mem arr.p) (directions n arr log) ∧
    residuals n arr (s :: log) = insert (vec n s.mem arr.r) (residuals n arr log) := by
  refine ⟨?_, ?_, ?_⟩
  · unfold steps; rw [List.countP_cons_of_pos]; simpa using h
  · ext d
    simp [directions, h]
  · ext d
    simp [residuals, h]

theorem log_other {arr : Arrays} {log : List (Cg K)} {s : Cg K} (h : ¬Stepping s) :
    steps (s :: log) = steps log ∧ directions n arr (s :: log) = directions n arr log ∧
    residuals n arr (s :: log) = residuals n arr log := by
  refine ⟨?_, ?_, ?_⟩
  · unfold steps; rw [List.countP_cons_of_neg]; simpa using h
  · ext d
    simp [directions, h]
  · ext d
    simp [residuals, h]

/-- What is known in each state, as long as no step has been truncated. -/
def Good (n : ℕ) (arr : Arrays) (A Q : (Fin n → K) →ₗ[K] (Fin n → K)) (b x0 : Fin n → K) (log : List (Cg K)) (s : Cg K) : Prop :=
  match s.state with
  | .start => log = [] ∧ vec n s.mem arr.r = b ∧ x0 = 0
  | .restart => log = [] ∧ vec n s.mem arr.r = b ∧ vec n s.mem arr.x = x0
  | .newx => log.length ≤ 3 * steps log + 2 ∧ ∃ S, AtNew A Q b x0 (steps log) (directions n arr log) (residuals n arr log) S
      (vec n s.mem arr.x) (vec n s.mem arr.r) (vec n s.mem arr.p) s.rho.r0
  | .precond => log.length ≤ 3 * steps log + 3 ∧ arr.z ≠ none ∧ ∃ S, AtNew A Q b x0 (steps log) (directions n arr log) (residuals n arr log) S
      (vec n s.mem arr.x) (vec n s.mem arr.r) (vec n s.mem arr.p) s.rho.r0
  | .ap => (log.length = 1 ∧ steps log = 0 ∧ directions n arr log = ∅ ∧ residuals n arr log = ∅ ∧ s.rho.r0 = 0 ∧ s.rho.r1 = 0 ∧
        vec n s.mem arr.p = x0 ∧ vec n s.mem arr.x = x0 ∧ vec n s.mem arr.r = b) ∨
      (log.length ≤ 3 * steps log + 4 ∧ ∃ S, AtStep A Q b x0 (steps log) (directions n arr log) (residuals n arr log) S
        (vec n s.mem arr.x) (vec n s.mem arr.r) (vec n s.mem arr.p) s.rho.r1)
  | .finish => s.rho.r1 = vec n s.mem arr.r ⬝ᵥ Q (vec n s.mem arr.r) ∧ s.rho.r1 = 0 ∧
      ∃ S, AtNew A Q b x0 (steps log) (directions n arr log) (residuals n arr log) S
        (vec n s.mem arr.x) (vec n s.mem arr.r) (vec n s.mem arr.p) s.rho.r0
  | .nonConvex => s.rho.r1 = vec n s.mem arr.r ⬝ᵥ Q (vec n s.mem arr.r) ∧ vec n s.mem arr.r = b - A (vec n s.mem arr.x) ∧
      (s.rho.r1 < 0 ∨ (0 < s.rho.r1 ∧ vec n s.mem arr.p ≠ 0 ∧ vec n s.mem arr.p ⬝ᵥ A (vec n s.mem arr.p) ≤ 0))
  | .truncated => False
  | .error => False
  | .other _ => False

end Opk.Lcg
