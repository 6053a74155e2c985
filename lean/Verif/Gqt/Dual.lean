import Verif.Gqt.Estsv
/-!
# Quadratic functions on a ball

The mathematics of the trust region problem, independently of the code: duality, bounds on the eigenvalues.
-/
set_option linter.unusedSectionVars false
namespace Opk.Gqt
open Linalg Finset

section
variable {K : Type} [Field K] [LinearOrder K] [IsStrictOrderedRing K]

/-- The inner product. -/
def dots (n : Nat) (u v : Nat → K) : K := ∑ k ∈ range n, u k * v k

/-- The bilinear form of a symmetric matrix (given by its upper triangle). -/
def bil (A : Nat → Nat → K) (n : Nat) (u v : Nat → K) : K := ∑ i ∈ range n, ∑ j ∈ range n, sym A i j * u i * v j

/-- The quadratic function `f(v) = (1/2) v'.A.v + b'.v`. -/
def objective (A : Nat → Nat → K) (b : Nat → K) (n : Nat) (v : Nat → K) : K := quad A n v / 2 + dots n b v

theorem sym_comm (A : Nat → Nat → K) (i j : Nat) : sym A i j = sym A j i := by
  unfold sym
  rcases Nat.lt_trichotomy i j with h | h | h
  · rw [if_pos h.le, if_neg (by omega)]
  · subst h; rfl
  · rw [if_neg (by omega), if_pos h.le]

theorem bil_comm (A : Nat → Nat → K) (n : Nat) (u v : Nat → K) : bil A n u v = bil A n v u := by
  unfold bil
  rw [sum_comm]
  refine sum_congr rfl fun i _ => sum_congr rfl fun j _ => ?_
  rw [sym_comm]
  ring

theorem quad_add (A : Nat → Nat → K) (n : Nat) (x z : Nat → K) (s : K) :
    quad A n (fun k => x k + s * z k) = quad A n x + 2 * s * bil A n z x + s * s * quad A n z := by
  have h : quad A n (fun k => x k + s * z k) = bil A n x x + s * bil A n z x + s * bil A n x z + s * s * bil A n z z := by
    unfold quad bil
    simp only [mul_sum, ← sum_add_distrib]
    exact sum_congr rfl fun i _ => sum_congr rfl fun j _ => by ring
  rw [h, bil_comm A n x z]
  show bil A n x x + _ + _ + _ * bil A n z z = bil A n x x + _ + _ * bil A n z z
  ring

theorem sq_add (n : Nat) (x z : Nat → K) (s : K) : sq n (fun k => x k + s * z k) = sq n x + 2 * s * dots n z x + s * s * sq n z := by
  unfold sq dots
  simp only [mul_sum, ← sum_add_distrib]
  exact sum_congr rfl fun i _ => by ring

theorem dots_add (n : Nat) (b x z : Nat → K) (s : K) : dots n b (fun k => x k + s * z k) = dots n b x + s * dots n b z := by
  unfold dots
  simp only [mul_sum, ← sum_add_distrib]
  exact sum_congr rfl fun i _ => by ring

theorem dots_comm (n : Nat) (u v : Nat → K) : dots n u v = dots n v u := sum_congr rfl fun i _ => mul_comm _ _

/-- Cauchy-Schwarz inequality. -/
theorem dots_sq (n : Nat) (u v : Nat → K) : dots n u v * dots n u v ≤ sq n u * sq n v := by
  have h := sum_mul_sq_le_sq_mul_sq (range n) u v
  unfold dots sq
  rw [← pow_two]
  simp only [← pow_two]
  exact h

/-- The equation `(A + par*I)*x = -b`. -/
def Solves (A : Nat → Nat → K) (b : Nat → K) (n : Nat) (par : K) (x : Nat → K) : Prop :=
  ∀ i < n, ∑ j ∈ range n, sym A i j * x j + par * x i = -b i

theorem Solves.bil {A : Nat → Nat → K} {b : Nat → K} {n : Nat} {par : K} {x : Nat → K} (h : Solves A b n par x) (v : Nat → K) :
    Gqt.bil A n v x = -dots n b v - par * dots n v x := by
  have e : Gqt.bil A n v x = ∑ i ∈ range n, v i * (-b i - par * x i) := by
    unfold Gqt.bil
    apply sum_congr rfl
    intro i hi
    rw [← h i (mem_range.1 hi)]
    rw [add_sub_cancel_right, mul_sum]
    exact sum_congr rfl fun j _ => by ring
  rw [e]
  unfold dots
  rw [mul_sum, ← sum_neg_distrib, ← sum_sub_distrib]
  exact sum_congr rfl fun i _ => by ring

/-- `f(x)` when `(A + par*I)*x = -b`. -/
theorem Solves.value {A : Nat → Nat → K} {b : Nat → K} {n : Nat} {par : K} {x : Nat → K} (h : Solves A b n par x) :
    objective A b n x = (dots n b x - par * sq n x) / 2 := by
  have := h.bil x
  unfold objective
  have e : quad A n x = Gqt.bil A n x x := rfl
  have e2 : dots n x x = sq n x := rfl
  rw [e, this, e2]
  ring

/-- `f(x + s*z)` when `(A + par*I)*x = -b`. -/
theorem Solves.value_add {A : Nat → Nat → K} {b : Nat → K} {n : Nat} {par : K} {x : Nat → K} (h : Solves A b n par x) (z : Nat → K) (s : K) :
    objective A b n (fun k => x k + s * z k) = (dots n b x - par * sq n (fun k => x k + s * z k) + s * s * (quad A n z + par * sq n z)) / 2 := by
  have h1 := h.bil z
  have h2 := h.bil x
  unfold objective
  rw [quad_add, dots_add, sq_add, h1]
  have e : quad A n x = Gqt.bil A n x x := rfl
  have e2 : dots n x x = sq n x := rfl
  rw [e, h2, e2]
  ring

/-- Lower bound: if `A + par*I` is positive and `(A + par*I)*x = -b`, then `f(v) >= (b'.x - par*|v|^2)/2` for all `v`. -/
theorem Solves.bound {A : Nat → Nat → K} {b : Nat → K} {n : Nat} {par : K} {x : Nat → K} (h : Solves A b n par x)
    (hp : ∀ v, 0 ≤ quad A n v + par * sq n v) (v : Nat → K) : (dots n b x - par * sq n v) / 2 ≤ objective A b n v := by
  have h1 := h.value_add (fun k => v k - x k) 1
  have e : (fun k => x k + 1 * (v k - x k)) = v := by funext k; ring
  rw [e] at h1
  rw [h1]
  have := hp fun k => v k - x k
  linarith

/-- Gershgorin: a lower bound of the quadratic form. -/
theorem gershgorin {A : Nat → Nat → K} {n : Nat} {c : K} (h : ∀ j < n, c + (∑ i ∈ range n, |sym A i j| - |A j j|) ≤ A j j) (v : Nat → K) :
    c * sq n v ≤ quad A n v := by
  have hd : ∀ j, sym A j j = A j j := fun j => by unfold sym; rw [if_pos le_rfl]
  -- each term
  have h1 : ∀ i j, (if i = j then A i i * (v i * v i) + |A i i| * (v i * v i) else 0) - |sym A i j| * ((v i * v i + v j * v j) / 2) ≤ sym A i j * v i * v j := by
    intro i j
    split
    · rename_i hij
      subst hij
      rw [hd]
      have : A i i * v i * v i = A i i * (v i * v i) := by ring
      rw [this]
      linarith
    · rw [zero_sub]
      have hab : |sym A i j * (v i * v j)| = |sym A i j| * |v i * v j| := abs_mul _ _
      have h2 : |v i * v j| ≤ (v i * v i + v j * v j) / 2 := by
        rw [abs_le]
        constructor
        · nlinarith [mul_self_nonneg (v i + v j)]
        · nlinarith [mul_self_nonneg (v i - v j)]
      have h3 : |sym A i j| * |v i * v j| ≤ |sym A i j| * ((v i * v i + v j * v j) / 2) := mul_le_mul_of_nonneg_left h2 (abs_nonneg _)
      have h4 := neg_abs_le (sym A i j * (v i * v j))
      have h5 : sym A i j * v i * v j = sym A i j * (v i * v j) := by ring
      rw [h5]
      linarith
  have h2 : ∑ i ∈ range n, ∑ j ∈ range n, ((if i = j then A i i * (v i * v i) + |A i i| * (v i * v i) else 0) - |sym A i j| * ((v i * v i + v j * v j) / 2)) ≤ quad A n v :=
    sum_le_sum fun i _ => sum_le_sum fun j _ => h1 i j
  refine le_trans ?_ h2
  simp only [sum_sub_distrib]
  have h3 : ∑ i ∈ range n, ∑ j ∈ range n, |sym A i j| * ((v i * v i + v j * v j) / 2) = ∑ j ∈ range n, (∑ i ∈ range n, |sym A i j|) * (v j * v j) := by
    have e1 : ∑ i ∈ range n, ∑ j ∈ range n, |sym A i j| * (v j * v j / 2) = ∑ j ∈ range n, (∑ i ∈ range n, |sym A i j|) * (v j * v j / 2) := by
      rw [sum_comm]
      exact sum_congr rfl fun j _ => (sum_mul _ _ _).symm
    have e2 : ∑ i ∈ range n, ∑ j ∈ range n, |sym A i j| * (v i * v i / 2) = ∑ j ∈ range n, (∑ i ∈ range n, |sym A i j|) * (v j * v j / 2) := by
      refine sum_congr rfl fun i _ => ?_
      rw [sum_mul]
      exact sum_congr rfl fun j _ => by rw [sym_comm]
    have e3 : ∑ i ∈ range n, ∑ j ∈ range n, |sym A i j| * ((v i * v i + v j * v j) / 2) =
        ∑ i ∈ range n, ∑ j ∈ range n, |sym A i j| * (v i * v i / 2) + ∑ i ∈ range n, ∑ j ∈ range n, |sym A i j| * (v j * v j / 2) := by
      rw [← sum_add_distrib]
      refine sum_congr rfl fun i _ => ?_
      rw [← sum_add_distrib]
      exact sum_congr rfl fun j _ => by ring
    rw [e3, e1, e2, ← sum_add_distrib]
    exact sum_congr rfl fun j _ => by ring
  have h4 : ∑ i ∈ range n, ∑ j ∈ range n, (if i = j then A i i * (v i * v i) + |A i i| * (v i * v i) else 0) = ∑ j ∈ range n, (A j j * (v j * v j) + |A j j| * (v j * v j)) := by
    refine sum_congr rfl fun i hi => ?_
    rw [sum_ite_eq, if_pos hi]
  rw [h3, h4, ← sum_sub_distrib]
  unfold sq
  rw [mul_sum]
  refine sum_le_sum fun j hj => ?_
  have := mul_le_mul_of_nonneg_right (h j (mem_range.1 hj)) (mul_self_nonneg (v j))
  nlinarith

end
end Opk.Gqt
