import Verif.Cobyla.Model
import Mathlib.RingTheory.RootsOfUnity.Complex
import Mathlib.Analysis.Real.Pi.Bounds
import Mathlib.Analysis.SpecialFunctions.Trigonometric.Bounds
import Mathlib.Tactic.Linarith
import Mathlib.Tactic.FieldSimp

/-!
# The search of an angle among 50 ones, over the real numbers
-/
namespace Opk.Newuoa

/-- The trigonometric polynomials of the searches of an angle. -/
noncomputable def wave (c1 c2 c3 c4 c5 : ℝ) (t : ℝ) : ℝ := c1 + (c2 + c4 * Real.cos t) * Real.cos t + (c3 + c5 * Real.cos t) * Real.sin t

/-- The sum of the powers of a root of unity. -/
theorem roots_sum (k : Nat) (k1 : 1 ≤ k) (k2 : k < 50) :
    ∑ i ∈ Finset.range 50, Real.cos (k * (i * (2 * Real.pi / 50))) = 0 ∧ ∑ i ∈ Finset.range 50, Real.sin (k * (i * (2 * Real.pi / 50))) = 0 := by
  have hp := Complex.isPrimitiveRoot_exp 50 (by norm_num)
  have h1 : (Complex.exp (2 * Real.pi * Complex.I / (50 : ℕ)) ^ k) ≠ 1 := fun q => by
    have := (hp.pow_eq_one_iff_dvd k).mp q
    exact absurd (Nat.le_of_dvd (by omega) this) (by omega)
  have h2 : (Complex.exp (2 * Real.pi * Complex.I / (50 : ℕ)) ^ k) ^ 50 = 1 := by
    rw [← pow_mul, mul_comm k 50, pow_mul, hp.pow_eq_one, one_pow]
  have h3 : ∑ i ∈ Finset.range 50, (Complex.exp (2 * Real.pi * Complex.I / (50 : ℕ)) ^ k) ^ i = 0 := by
    have := geom_sum_mul (Complex.exp (2 * Real.pi * Complex.I / (50 : ℕ)) ^ k) 50
    rw [h2, sub_self] at this
    exact (mul_eq_zero.mp this).resolve_right (sub_ne_zero.mpr h1)
  have h4 : ∀ i : Nat, (Complex.exp (2 * Real.pi * Complex.I / (50 : ℕ)) ^ k) ^ i = Complex.exp (((k * (i * (2 * Real.pi / 50)) : ℝ) : ℂ) * Complex.I) := by
    intro i
    rw [← Complex.exp_nat_mul, ← Complex.exp_nat_mul]
    congr 1
    push_cast
    ring
  simp only [h4] at h3
  constructor
  · have := congrArg Complex.re h3
    rw [Complex.re_sum] at this
    simpa only [Complex.exp_ofReal_mul_I_re, Complex.zero_re] using this
  · have := congrArg Complex.im h3
    rw [Complex.im_sum] at this
    simpa only [Complex.exp_ofReal_mul_I_im, Complex.zero_im] using this

/-- The mean of the squares of the values on the grid. -/
theorem wave_mean (c1 c2 c3 c4 c5 : ℝ) :
    ∑ i ∈ Finset.range 50, wave c1 c2 c3 c4 c5 (i * (2 * Real.pi / 50)) ^ 2 = 50 * ((c1 + c4 / 2) ^ 2 + (c2 ^ 2 + c3 ^ 2 + (c4 / 2) ^ 2 + (c5 / 2) ^ 2) / 2) := by
  have e : ∀ t, wave c1 c2 c3 c4 c5 t ^ 2 = ((c1 + c4 / 2) ^ 2 + (c2 ^ 2 + c3 ^ 2 + (c4 / 2) ^ 2 + (c5 / 2) ^ 2) / 2)
      + ((2 * (c1 + c4 / 2) * c2 + c2 * (c4 / 2) + c3 * (c5 / 2)) * Real.cos ((1 : ℕ) * t) + (2 * (c1 + c4 / 2) * c3 + c2 * (c5 / 2) - c3 * (c4 / 2)) * Real.sin ((1 : ℕ) * t)
      + (2 * (c1 + c4 / 2) * (c4 / 2) + (c2 ^ 2 - c3 ^ 2) / 2) * Real.cos ((2 : ℕ) * t) + (2 * (c1 + c4 / 2) * (c5 / 2) + c2 * c3) * Real.sin ((2 : ℕ) * t)
      + (c2 * (c4 / 2) - c3 * (c5 / 2)) * Real.cos ((3 : ℕ) * t) + (c2 * (c5 / 2) + c3 * (c4 / 2)) * Real.sin ((3 : ℕ) * t)
      + (((c4 / 2) ^ 2 - (c5 / 2) ^ 2) / 2) * Real.cos ((4 : ℕ) * t) + (c4 / 2) * (c5 / 2) * Real.sin ((4 : ℕ) * t)) := by
    intro t
    unfold wave
    have s1 := Real.sin_sq_add_cos_sq t
    rw [show ((4 : ℕ) : ℝ) * t = 2 * (2 * t) by push_cast; ring, Real.cos_two_mul (2 * t), Real.sin_two_mul (2 * t)]
    push_cast
    rw [one_mul, Real.cos_two_mul, Real.sin_two_mul, Real.cos_three_mul, Real.sin_three_mul]
    generalize Real.cos t = c at *
    generalize Real.sin t = s at *
    have s2 : s ^ 2 = 1 - c ^ 2 := by linarith
    have s3 : s ^ 3 = (1 - c ^ 2) * s := by rw [← s2]; ring
    rw [s3]
    ring_nf
    rw [s2]
    ring
  simp only [e, Finset.sum_add_distrib, ← Finset.mul_sum, Finset.sum_const, Finset.card_range]
  obtain ⟨a1, b1⟩ := roots_sum 1 (by omega) (by omega)
  obtain ⟨a2, b2⟩ := roots_sum 2 (by omega) (by omega)
  obtain ⟨a3, b3⟩ := roots_sum 3 (by omega) (by omega)
  obtain ⟨a4, b4⟩ := roots_sum 4 (by omega) (by omega)
  rw [a1, b1, a2, b2, a3, b3, a4, b4]
  rw [nsmul_eq_mul]
  push_cast
  ring

/-- The chord is shorter than the arc. -/
theorem chord (a b : ℝ) : (Real.cos a - Real.cos b) ^ 2 + (Real.sin a - Real.sin b) ^ 2 ≤ (a - b) ^ 2 := by
  have h := Real.one_sub_sq_div_two_le_cos (x := a - b)
  rw [Real.cos_sub] at h
  have h1 := Real.sin_sq_add_cos_sq a
  have h2 := Real.sin_sq_add_cos_sq b
  nlinarith

/-- The square of the difference of two values. -/
theorem wave_diff (c1 c2 c3 c4 c5 a b : ℝ) :
    (wave c1 c2 c3 c4 c5 a - wave c1 c2 c3 c4 c5 b) ^ 2 ≤ (c2 ^ 2 + c3 ^ 2 + (c4 / 2) ^ 2 + (c5 / 2) ^ 2) * (5 * (a - b) ^ 2) := by
  have e : ∀ t, wave c1 c2 c3 c4 c5 t = c1 + c4 / 2 + c2 * Real.cos t + c3 * Real.sin t + c4 / 2 * Real.cos (2 * t) + c5 / 2 * Real.sin (2 * t) := by
    intro t
    unfold wave
    rw [Real.cos_two_mul, Real.sin_two_mul]
    ring
  have k1 := chord a b
  have k2 := chord (2 * a) (2 * b)
  rw [e, e]
  have cs : ∀ A B C D x y z w : ℝ, (A * x + B * y + C * z + D * w) ^ 2 ≤ (A ^ 2 + B ^ 2 + C ^ 2 + D ^ 2) * (x ^ 2 + y ^ 2 + (z ^ 2 + w ^ 2)) := by
    intro A B C D x y z w
    nlinarith [sq_nonneg (A * y - B * x), sq_nonneg (A * z - C * x), sq_nonneg (A * w - D * x), sq_nonneg (B * z - C * y), sq_nonneg (B * w - D * y), sq_nonneg (C * w - D * z)]
  have h := cs c2 c3 (c4 / 2) (c5 / 2) (Real.cos a - Real.cos b) (Real.sin a - Real.sin b) (Real.cos (2 * a) - Real.cos (2 * b)) (Real.sin (2 * a) - Real.sin (2 * b))
  have h2 : (Real.cos a - Real.cos b) ^ 2 + (Real.sin a - Real.sin b) ^ 2 + ((Real.cos (2 * a) - Real.cos (2 * b)) ^ 2 + (Real.sin (2 * a) - Real.sin (2 * b)) ^ 2) ≤ 5 * (a - b) ^ 2 := by
    nlinarith
  refine le_trans (le_of_eq ?_) (le_trans h (mul_le_mul_of_nonneg_left h2 (by positivity)))
  ring

/-- A value at less than half a step from the largest one of the grid is not zero. -/
theorem wave_near {c1 c2 c3 c4 c5 : ℝ} {j : Nat} (hm : ∀ i : Nat, i < 50 → |wave c1 c2 c3 c4 c5 (i * (2 * Real.pi / 50))| ≤ |wave c1 c2 c3 c4 c5 (j * (2 * Real.pi / 50))|)
    (h0 : wave c1 c2 c3 c4 c5 (j * (2 * Real.pi / 50)) ≠ 0) {r : ℝ} (hr : |r| ≤ 1 / 2) : wave c1 c2 c3 c4 c5 (2 * Real.pi / 50 * (j + r)) ≠ 0 := by
  intro q
  have h1 := wave_mean c1 c2 c3 c4 c5
  have h2 : ∑ i ∈ Finset.range 50, wave c1 c2 c3 c4 c5 (i * (2 * Real.pi / 50)) ^ 2 ≤ ∑ _i ∈ Finset.range 50, wave c1 c2 c3 c4 c5 (j * (2 * Real.pi / 50)) ^ 2 := by
    refine Finset.sum_le_sum fun i hi => ?_
    exact sq_le_sq.mpr (hm i (Finset.mem_range.mp hi))
  rw [Finset.sum_const, Finset.card_range, nsmul_eq_mul, h1] at h2
  push_cast at h2
  have h3 := wave_diff c1 c2 c3 c4 c5 (2 * Real.pi / 50 * (j + r)) (j * (2 * Real.pi / 50))
  rw [q] at h3
  have hp : Real.pi < 3.15 := Real.pi_lt_d2
  have hp0 := Real.pi_pos
  have hr2 : r ^ 2 ≤ 1 / 4 := by
    have := sq_le_sq.mpr (show |r| ≤ |(1 / 2 : ℝ)| by rw [abs_of_pos (by norm_num : (0 : ℝ) < 1 / 2)]; exact hr)
    linarith
  have hd : 5 * (2 * Real.pi / 50 * (j + r) - j * (2 * Real.pi / 50)) ^ 2 ≤ 1 / 20 := by
    have e : 5 * (2 * Real.pi / 50 * (j + r) - j * (2 * Real.pi / 50)) ^ 2 = Real.pi ^ 2 * r ^ 2 / 125 := by ring
    rw [e]
    have : Real.pi ^ 2 ≤ 10 := by nlinarith
    nlinarith [sq_nonneg r, sq_nonneg Real.pi]
  generalize wave c1 c2 c3 c4 c5 (j * (2 * Real.pi / 50)) = v at *
  have hv : 0 < v ^ 2 := by positivity
  have hA : c2 ^ 2 + c3 ^ 2 + (c4 / 2) ^ 2 + (c5 / 2) ^ 2 ≤ 2 * v ^ 2 := by nlinarith [sq_nonneg (c1 + c4 / 2)]
  have h4 : (c2 ^ 2 + c3 ^ 2 + (c4 / 2) ^ 2 + (c5 / 2) ^ 2) * (5 * (2 * Real.pi / 50 * (j + r) - j * (2 * Real.pi / 50)) ^ 2) ≤ 2 * v ^ 2 * (1 / 20) :=
    mul_le_mul hA hd (by positivity) (by positivity)
  nlinarith

end Opk.Newuoa
