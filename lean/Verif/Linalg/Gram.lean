import Mathlib.Algebra.BigOperators.Fin
import Mathlib.Algebra.Order.BigOperators.Ring.Finset
import Mathlib.LinearAlgebra.Matrix.Block
import Mathlib.Tactic.Ring
import Mathlib.Tactic.FieldSimp
import Mathlib.Tactic.Linarith
/-!
# Positive definite matrices

The mathematics of the Cholesky factorization, independently of the code: symmetric matrices given by their upper triangle, quadratic forms, leading minors.
-/
set_option linter.unusedSectionVars false
namespace Opk.Linalg
open Finset

variable {K : Type} [Field K] [LinearOrder K] [IsStrictOrderedRing K]

/-- The symmetric matrix whose upper triangle is that of `A`. -/
def sym (A : Nat → Nat → K) (i j : Nat) : K := if i ≤ j then A i j else A j i

/-- The quadratic form of the leading block of order `c`. -/
def quad (A : Nat → Nat → K) (c : Nat) (v : Nat → K) : K := ∑ i ∈ range c, ∑ j ∈ range c, sym A i j * v i * v j

/-- The leading block of order `c` is positive definite. -/
def PosDef (A : Nat → Nat → K) (c : Nat) : Prop := ∀ v : Nat → K, (∃ i < c, v i ≠ 0) → 0 < quad A c v

/-- The leading minor of order `c`. -/
def minor (A : Nat → Nat → K) (c : Nat) : K := Matrix.det (Matrix.of fun i j : Fin c => sym A i j)

/-- The first `c` rows of `U` are those of the Cholesky factor of `A` (of order `n`). -/
def Factored (U A : Nat → Nat → K) (c n : Nat) : Prop :=
  (∀ i j, i < c → i ≤ j → j < n → ∑ l ∈ range (i + 1), U l i * U l j = A i j) ∧ ∀ i < c, 0 < U i i

/-- The upper triangle of `U`. -/
def above (U : Nat → Nat → K) (l i : Nat) : K := if l ≤ i then U l i else 0

theorem PosDef.mono {A : Nat → Nat → K} {c n : Nat} (hcn : c ≤ n) (h : PosDef A n) : PosDef A c := by
  intro v ⟨i, hi, hv⟩
  have := h (fun i => if i < c then v i else 0) ⟨i, by omega, by simp only [if_pos hi]; exact hv⟩
  have e : quad A n (fun i => if i < c then v i else 0) = quad A c v := by
    unfold quad
    rw [← sum_subset (range_mono hcn)]
    · apply sum_congr rfl
      intro i hi
      rw [mem_range] at hi
      rw [← sum_subset (range_mono hcn)]
      · apply sum_congr rfl
        intro j hj
        rw [mem_range] at hj
        simp only [if_pos hi, if_pos hj]
      · intro j _ hj
        rw [mem_range] at hj
        simp only [if_neg hj, mul_zero]
    · intro i _ hi
      rw [mem_range] at hi
      simp only [if_neg hi, mul_zero, zero_mul, sum_const_zero]
  rwa [e] at this

/-- The symmetric matrix is the Gram matrix of the columns of the factor. -/
theorem gram {U A : Nat → Nat → K} {c n : Nat} (h : Factored U A c n) {i j : Nat} (hi : i < c) (hj : j < n) (hcn : c ≤ n) (hij : i ≤ j) :
    ∑ l ∈ range c, above U l i * above U l j = A i j := by
  rw [← h.1 i j hi hij hj, ← sum_subset (range_mono (show i + 1 ≤ c by omega))]
  · apply sum_congr rfl
    intro l hl
    rw [mem_range] at hl
    unfold above
    rw [if_pos (by omega), if_pos (by omega)]
  · intro l _ hl
    rw [mem_range] at hl
    unfold above
    rw [if_neg (by omega), zero_mul]

theorem gram_sym {U A : Nat → Nat → K} {c n : Nat} (h : Factored U A c n) (hcn : c ≤ n) {i j : Nat} (hi : i < c) (hj : j < c) :
    ∑ l ∈ range c, above U l i * above U l j = sym A i j := by
  unfold sym
  split
  · exact gram h hi (by omega) hcn (by assumption)
  · rw [← gram h hj (by omega) hcn (by omega)]
    exact sum_congr rfl fun l _ => mul_comm _ _

/-- The quadratic form is a sum of squares. -/
theorem quad_squares {U A : Nat → Nat → K} {c n : Nat} (h : Factored U A c n) (hcn : c ≤ n) (v : Nat → K) :
    quad A c v = ∑ l ∈ range c, (∑ i ∈ range c, above U l i * v i) ^ 2 := by
  unfold quad
  have : ∀ i ∈ range c, ∀ j ∈ range c, sym A i j * v i * v j = ∑ l ∈ range c, (above U l i * v i) * (above U l j * v j) := by
    intro i hi j hj
    rw [mem_range] at hi hj
    rw [← gram_sym h hcn hi hj, sum_mul, sum_mul]
    exact sum_congr rfl fun l _ => by ring
  rw [sum_congr rfl fun i hi => sum_congr rfl fun j hj => this i hi j hj]
  rw [sum_congr rfl fun i _ => sum_comm, sum_comm]
  apply sum_congr rfl
  intro l _
  rw [pow_two, sum_mul_sum]

/-- An upper triangular system has a solution. -/
theorem solvable {U : Nat → Nat → K} : ∀ {c : Nat}, (∀ i < c, 0 < U i i) → ∀ b : Nat → K, ∃ v : Nat → K, ∀ l < c, ∑ i ∈ range c, above U l i * v i = b l
  | 0, _, _ => ⟨fun _ => 0, fun l hl => absurd hl (by omega)⟩
  | c + 1, h, b => by
    obtain ⟨v, hv⟩ := solvable (c := c) (fun i hi => h i (by omega)) fun l => b l - above U l c * (b c / U c c)
    refine ⟨fun i => if i = c then b c / U c c else v i, fun l hl => ?_⟩
    rw [sum_range_succ]
    beta_reduce
    have e : ∑ i ∈ range c, above U l i * (if i = c then b c / U c c else v i) = ∑ i ∈ range c, above U l i * v i := by
      apply sum_congr rfl
      intro i hi
      rw [mem_range] at hi
      rw [if_neg (by omega)]
    rw [e, if_pos rfl]
    rcases Nat.lt_or_ge l c with hlc | hlc
    · rw [hv l hlc]; ring
    · obtain rfl : l = c := by omega
      rw [sum_eq_zero]
      · unfold above
        rw [if_pos le_rfl, zero_add]
        have := (h l hl).ne'
        field_simp
      · intro i hi
        rw [mem_range] at hi
        unfold above
        rw [if_neg (by omega), zero_mul]

/-- The columns of the factor are independent. -/
theorem independent {U : Nat → Nat → K} : ∀ {c : Nat}, (∀ i < c, 0 < U i i) → ∀ v : Nat → K, (∀ l < c, ∑ i ∈ range c, above U l i * v i = 0) → ∀ i < c, v i = 0
  | 0, _, _, _ => fun i hi => absurd hi (by omega)
  | c + 1, h, v, hv => by
    have hc : v c = 0 := by
      have := hv c (by omega)
      rw [sum_range_succ, sum_eq_zero, zero_add] at this
      · unfold above at this
        rw [if_pos le_rfl] at this
        exact (mul_eq_zero.1 this).resolve_left (h c (by omega)).ne'
      · intro i hi
        rw [mem_range] at hi
        unfold above
        rw [if_neg (by omega), zero_mul]
    have ih := independent (c := c) (fun i hi => h i (by omega)) v (by
      intro l hl
      have := hv l (by omega)
      rwa [sum_range_succ, hc, mul_zero, add_zero] at this)
    intro i hi
    rcases Nat.lt_or_ge i c with h' | h'
    · exact ih i h'
    · obtain rfl : i = c := by omega
      exact hc

/-- A matrix which has a factor is positive definite. -/
theorem Factored.posDef {U A : Nat → Nat → K} {c n : Nat} (h : Factored U A c n) (hcn : c ≤ n) : PosDef A c := by
  intro v ⟨i, hi, hv⟩
  rw [quad_squares h hcn]
  by_contra hneg
  have hz : ∑ l ∈ range c, (∑ i ∈ range c, above U l i * v i) ^ 2 = 0 := le_antisymm (not_lt.1 hneg) (sum_nonneg fun l _ => sq_nonneg _)
  rw [sum_eq_zero_iff_of_nonneg fun l _ => sq_nonneg _] at hz
  exact hv (independent h.2 v (fun l hl => pow_eq_zero_iff (two_ne_zero) |>.1 (hz l (mem_range.2 hl))) i hi)

/-- The next pivot is a value of the quadratic form. -/
theorem Factored.pivot {U A : Nat → Nat → K} {c n : Nat} (h : Factored U A c n) (hc : c < n) :
    ∃ v : Nat → K, v c = 1 ∧ quad A (c + 1) v = A c c - ∑ l ∈ range c, U l c * U l c := by
  obtain ⟨w, hw⟩ := solvable h.2 fun l => -U l c
  let v : Nat → K := fun i => if i = c then 1 else w i
  have hv : ∀ i ∈ range c, v i = w i := fun i hi => by
    rw [mem_range] at hi
    show (if i = c then (1 : K) else w i) = w i
    rw [if_neg (by omega)]
  have hvc : v c = 1 := if_pos rfl
  refine ⟨v, hvc, ?_⟩
  have hq : quad A (c + 1) v = quad A c v + 2 * ∑ i ∈ range c, A i c * v i + A c c := by
    unfold quad
    rw [sum_range_succ, sum_range_succ, sum_congr rfl fun i _ => sum_range_succ _ _, sum_add_distrib, hvc]
    have e1 : ∑ i ∈ range c, sym A i c * v i * 1 = ∑ i ∈ range c, A i c * v i := by
      apply sum_congr rfl
      intro i hi
      rw [mem_range] at hi
      unfold sym
      rw [if_pos (by omega), mul_one]
    have e2 : ∑ i ∈ range c, sym A c i * 1 * v i = ∑ i ∈ range c, A i c * v i := by
      apply sum_congr rfl
      intro i hi
      rw [mem_range] at hi
      unfold sym
      rw [if_neg (by omega), mul_one]
    have e3 : sym A c c = A c c := if_pos le_rfl
    rw [e1, e2, e3]
    ring
  have hs : ∀ l < c, ∑ i ∈ range c, above U l i * v i = -U l c := fun l hl => by
    rw [← hw l hl]
    exact sum_congr rfl fun i hi => by rw [hv i hi]
  have hx : ∑ i ∈ range c, A i c * v i = ∑ l ∈ range c, -(U l c * U l c) := by
    have : ∀ i ∈ range c, A i c * v i = ∑ l ∈ range c, U l c * (above U l i * v i) := by
      intro i hi
      rw [mem_range] at hi
      rw [← gram h hi hc hc.le hi.le, sum_mul]
      apply sum_congr rfl
      intro l hl
      rw [mem_range] at hl
      have : above U l c = U l c := if_pos hl.le
      rw [this]
      ring
    rw [sum_congr rfl this, sum_comm]
    apply sum_congr rfl
    intro l hl
    rw [mem_range] at hl
    rw [← mul_sum, hs l hl]
    ring
  rw [hq, quad_squares h hc.le, hx, sum_congr rfl fun l hl => by rw [hs l (mem_range.1 hl)], sum_neg_distrib,
    sum_congr rfl fun l _ => show (-U l c) ^ 2 = U l c * U l c by ring]
  ring

/-- The minors are products of pivots. -/
theorem Factored.minor_succ {U A : Nat → Nat → K} {c n : Nat} (h : Factored U A c n) (hc : c < n) :
    minor A (c + 1) = (∏ i ∈ range c, U i i) ^ 2 * (A c c - ∑ l ∈ range c, U l c * U l c) := by
  -- A = T' D T with T the rows of the factor and a row of the identity
  let d : K := A c c - ∑ l ∈ range c, U l c * U l c
  let W : Nat → Nat → K := fun l i => if l < c then above U l i else if l = i then 1 else 0
  let D : Nat → K := fun l => if l < c then 1 else d
  have hW : ∀ i j, i ≤ c → j ≤ c → ∑ l ∈ range (c + 1), W l i * (D l * W l j) = sym A i j := by
    have main : ∀ i j, i ≤ j → j ≤ c → ∑ l ∈ range (c + 1), W l i * (D l * W l j) = A i j := by
      intro i j hij hj
      have hlast : W c i * (D c * W c j) = if i = c ∧ j = c then d else 0 := by
        show (if c < c then above U c i else if c = i then 1 else 0) * ((if c < c then 1 else d) * (if c < c then above U c j else if c = j then 1 else 0)) = _
        rw [if_neg (lt_irrefl c), if_neg (lt_irrefl c), if_neg (lt_irrefl c)]
        by_cases h1 : c = i
        · by_cases h2 : c = j
          · rw [if_pos h1, if_pos h2, if_pos ⟨h1.symm, h2.symm⟩]; ring
          · rw [if_neg h2, if_neg (show ¬(i = c ∧ j = c) from fun h => h2 h.2.symm)]; ring
        · rw [if_neg h1, if_neg (show ¬(i = c ∧ j = c) from fun h => h1 h.1.symm)]; ring
      have hfirst : ∑ l ∈ range c, W l i * (D l * W l j) = ∑ l ∈ range c, above U l i * above U l j := by
        apply sum_congr rfl
        intro l hl
        rw [mem_range] at hl
        show (if l < c then above U l i else if l = i then 1 else 0) * ((if l < c then 1 else d) * (if l < c then above U l j else if l = j then 1 else 0)) = _
        rw [if_pos hl, if_pos hl, if_pos hl, one_mul]
      rw [sum_range_succ, hlast, hfirst]
      rcases Nat.lt_or_ge i c with hi | hi
      · rw [gram h hi (by omega) hc.le hij, if_neg (by omega), add_zero]
      · obtain rfl : i = c := by omega
        obtain rfl : j = i := by omega
        rw [if_pos ⟨rfl, rfl⟩]
        have : ∑ l ∈ range j, above U l j * above U l j = ∑ l ∈ range j, U l j * U l j := by
          apply sum_congr rfl
          intro l hl
          rw [mem_range] at hl
          have : above U l j = U l j := if_pos hl.le
          rw [this]
        rw [this]
        show _ + (A j j - _) = _
        ring
    intro i j hi hj
    unfold sym
    split
    · exact main i j (by assumption) hj
    · rw [← main j i (by omega) hi]
      exact sum_congr rfl fun l _ => by ring
  have hM : (Matrix.of fun i j : Fin (c + 1) => sym A i j) =
      (Matrix.of fun l i : Fin (c + 1) => W l i).transpose * (Matrix.diagonal (fun l : Fin (c + 1) => D l) * Matrix.of fun l i : Fin (c + 1) => W l i) := by
    ext i j
    rw [Matrix.mul_apply]
    simp only [Matrix.transpose_apply, Matrix.diagonal_mul, Matrix.of_apply]
    rw [← hW i j (by omega) (by omega), ← Fin.sum_univ_eq_sum_range (fun l => W l i * (D l * W l j))]
  have hdet : Matrix.det (Matrix.of fun l i : Fin (c + 1) => W l i) = ∏ i ∈ range c, U i i := by
    rw [Matrix.det_of_isUpperTriangular]
    · simp only [Matrix.of_apply]
      rw [Fin.prod_univ_eq_prod_range (fun i => W i i), prod_range_succ]
      have : W c c = 1 := by
        show (if c < c then above U c c else if c = c then 1 else 0) = _
        rw [if_neg (lt_irrefl c), if_pos rfl]
      rw [this, mul_one]
      apply prod_congr rfl
      intro i hi
      rw [mem_range] at hi
      show (if i < c then above U i i else if i = i then 1 else 0) = _
      rw [if_pos hi]
      exact if_pos le_rfl
    · intro l i hil
      have hil' : (i : Nat) < l := hil
      show (if (l : Nat) < c then above U l i else if (l : Nat) = i then 1 else 0) = 0
      have : above U l i = 0 := if_neg (by omega)
      rw [this, if_neg (show ¬(l : Nat) = i by omega), ite_self]
  unfold minor
  rw [hM, Matrix.det_mul, Matrix.det_mul, Matrix.det_transpose, hdet, Matrix.det_diagonal, Fin.prod_univ_eq_prod_range (fun l => D l), prod_range_succ]
  have h1 : ∏ l ∈ range c, D l = 1 := prod_eq_one fun l hl => if_pos (mem_range.1 hl)
  have h2 : D c = d := if_neg (lt_irrefl c)
  rw [h1, h2]
  ring

theorem Factored.mono {U A : Nat → Nat → K} {c n k : Nat} (h : Factored U A c n) (hk : k ≤ c) : Factored U A k n :=
  ⟨fun i j hi => h.1 i j (by omega), fun i hi => h.2 i (by omega)⟩

/-- The leading minors of a matrix which has a factor are positive. -/
theorem Factored.minor_pos {U A : Nat → Nat → K} {c n : Nat} (h : Factored U A c n) (hcn : c ≤ n) : ∀ k ≤ c, 0 < minor A k
  | 0, _ => by unfold minor; rw [Matrix.det_fin_zero]; exact one_pos
  | k + 1, hk => by
    rw [(h.mono (show k ≤ c by omega)).minor_succ (by omega)]
    have e := h.1 k k (by omega) le_rfl (by omega)
    rw [sum_range_succ] at e
    have hp := h.2 k (by omega)
    rw [← e, add_sub_cancel_left]
    have : 0 < ∏ i ∈ range k, U i i := prod_pos fun i hi => h.2 i (by have := mem_range.1 hi; omega)
    positivity

/-- The factor is unique: a positive diagonal determines it. -/
theorem Factored.unique {U V A : Nat → Nat → K} {n : Nat} (hU : Factored U A n n) (hV : Factored V A n n) : ∀ i, i < n → ∀ j, i ≤ j → j < n → U i j = V i j := by
  intro i
  induction i using Nat.strong_induction_on with
  | _ i ih =>
    intro hi j hij hj
    have hs : ∀ j, i ≤ j → j < n → U i i * U i j = V i i * V i j := by
      intro j hij hj
      have e := (hU.1 i j hi hij hj).trans (hV.1 i j hi hij hj).symm
      rw [sum_range_succ, sum_range_succ] at e
      have : ∑ l ∈ range i, U l i * U l j = ∑ l ∈ range i, V l i * V l j := by
        apply sum_congr rfl
        intro l hl
        rw [mem_range] at hl
        rw [ih l hl (by omega) i (by omega) hi, ih l hl (by omega) j (by omega) hj]
      rw [this] at e
      exact add_left_cancel e
    have hd : U i i = V i i := by
      have e := hs i le_rfl hi
      exact (mul_self_inj (hU.2 i hi).le (hV.2 i hi).le).1 e
    have e := hs j hij hj
    rw [hd] at e
    exact mul_left_cancel₀ (hV.2 i hi).ne' e

end Opk.Linalg
