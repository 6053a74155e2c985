import Verif.Nlcg.Global
import Mathlib.Analysis.PSeries
import Mathlib.Algebra.BigOperators.Field
/-! # C90: the methods for which the conjugate gradient optimizer converges -/
set_option linter.unusedSectionVars false
set_option linter.unusedSimpArgs false
namespace Opk.Nlcg
open Opk.Optim Matrix
open Opk.Vmlmb (exactVs Smooth Strong Tol gnormAt dot_nonneg cauchy bfgs_mulVec)

variable {ι : Type} [Fintype ι] [DecidableEq ι]

/-! ## Divergent series -/

theorem diverge_const (c : ℝ) (hc : 0 < c) : ∀ C, ∃ n, C < ∑ j ∈ Finset.range n, 1 / (fun _ : ℕ => c) j := by
  intro C
  obtain ⟨n, hn⟩ := exists_nat_gt (C * c)
  refine ⟨n, ?_⟩
  simp only [Finset.sum_const, Finset.card_range, nsmul_eq_mul]
  rw [mul_one_div, lt_div_iff₀ hc]
  exact hn

theorem diverge_linear (c : ℝ) (hc : 0 < c) : ∀ C, ∃ n, C < ∑ j ∈ Finset.range n, 1 / (fun j : ℕ => ((j : ℝ) + 1) * c) j := by
  intro C
  have h := Filter.tendsto_atTop.mp Real.tendsto_sum_range_one_div_nat_succ_atTop (C * c + 1)
  obtain ⟨n, hn⟩ := h.exists
  refine ⟨n, ?_⟩
  have e : ∑ j ∈ Finset.range n, 1 / (fun j : ℕ => ((j : ℝ) + 1) * c) j = (∑ j ∈ Finset.range n, 1 / ((j : ℝ) + 1)) / c := by
    rw [Finset.sum_div]
    exact Finset.sum_congr rfl fun j _ => by rw [div_div]
  rw [e, lt_div_iff₀ hc]
  linarith

/-! ## Bounded angles -/

/-- The angle is bounded at all iterations. -/
theorem angle_dirs (par : Par ℝ (ι → ℝ)) (G : (ι → ℝ) → ι → ℝ) (gtol τ C : ℝ) (hτ : 0 < τ) (hC : 1 ≤ C)
    (next : ∀ (d x : ι → ℝ) (a : ℝ) (d' : ι → ℝ), 0 < d ⬝ᵥ G x → 0 < a → τ ^ 2 < G (x - a • d) ⬝ᵥ G (x - a • d) → |d ⬝ᵥ G (x - a • d)| ≤ gtol * (d ⬝ᵥ G x) →
      ¬ Restarts par.rule (hasBit par.flags POWELL) par.epsilon (-d) (G x) (G (x - a • d)) →
      -d' = published_direction par.rule (hasBit par.flags POWELL) (-d) (G x) (G (x - a • d)) → 0 < d' ⬝ᵥ G (x - a • d) →
      (d' ⬝ᵥ d') * (G (x - a • d) ⬝ᵥ G (x - a • d)) ≤ C * (d' ⬝ᵥ G (x - a • d)) ^ 2) :
    ∃ Dir bound, Dirs par G gtol τ Dir bound ∧ ∀ C, ∃ n, C < ∑ j ∈ Finset.range n, 1 / bound j := by
  have hc : 0 < C / τ ^ 2 := by positivity
  refine ⟨fun _ d g => (d ⬝ᵥ d) * (g ⬝ᵥ g) ≤ C * (d ⬝ᵥ g) ^ 2, fun _ => C / τ ^ 2, ⟨fun _ => hc, ?_, ?_, ?_⟩, diverge_const _ hc⟩
  · intro _ g hg
    have := sq_nonneg (g ⬝ᵥ g)
    nlinarith
  · intro n d x a d' _ h1 h2 _ h4 h5 h6 h7 h8
    exact next d x a d' h1 h2 h4 h5 h6 h7 h8
  · intro n d g h hg _
    rw [div_mul_eq_mul_div, le_div_iff₀ (by positivity)]
    have := dot_nonneg d
    nlinarith

/-- The angle test. -/
theorem eps_dirs (par : Par ℝ (ι → ℝ)) (G : (ι → ℝ) → ι → ℝ) (gtol τ : ℝ) (hτ : 0 < τ) (e0 : 0 < par.epsilon) (e1 : par.epsilon < 1) :
    ∃ Dir bound, Dirs par G gtol τ Dir bound ∧ ∀ C, ∃ n, C < ∑ j ∈ Finset.range n, 1 / bound j := by
  refine angle_dirs par G gtol τ (1 / par.epsilon ^ 2) hτ ?_ ?_
  · rw [le_div_iff₀ (by positivity), one_mul]
    exact pow_le_one₀ e0.le e1.le
  intro d x a d' _ _ _ _ hr hd _
  unfold Restarts at hr
  push Not at hr
  have h := hr.2.2.2 e0
  rw [← hd] at h
  simp only [neg_dotProduct, dotProduct_neg, neg_neg] at h
  generalize G (x - a • d) = g at *
  have h' : par.epsilon * Real.sqrt (d' ⬝ᵥ d') * Real.sqrt (g ⬝ᵥ g) ≤ d' ⬝ᵥ g := by
    have e : (CMath.sqrt (d' ⬝ᵥ d') : ℝ) = Real.sqrt (d' ⬝ᵥ d') := rfl
    have e' : (CMath.sqrt (g ⬝ᵥ g) : ℝ) = Real.sqrt (g ⬝ᵥ g) := rfl
    rw [e, e'] at h
    linarith
  have h2 := pow_le_pow_left₀ (mul_nonneg (mul_nonneg e0.le (Real.sqrt_nonneg _)) (Real.sqrt_nonneg _)) h' 2
  rw [mul_pow, mul_pow, Real.sq_sqrt (dot_nonneg _), Real.sq_sqrt (dot_nonneg _)] at h2
  rw [div_mul_eq_mul_div, one_mul, le_div_iff₀ (by positivity)]
  linarith

/-! ## Dai and Yuan -/

/-- The recurrence when `β` is positive. -/
theorem plain_direction (rule : Rule) (hr : rule ≠ .perryShanno) (powell : Bool) (d d' g0 g : ι → ℝ) (hb : 0 ≤ published rule (-d) g0 g)
    (hd : -d' = published_direction rule powell (-d) g0 g) : d' = g + published rule (-d) g0 g • d := by
  have hc : clipped powell (published rule (-d) g0 g) = published rule (-d) g0 g := by
    unfold clipped; split_ifs
    · exact max_eq_left hb
    · rfl
  have e : published_direction rule powell (-d) g0 g = -g + clipped powell (published rule (-d) g0 g) • -d := by
    unfold published_direction
    rcases rule <;> first | rfl | exact absurd rfl hr
  rw [e, hc] at hd
  rw [← neg_neg d', hd, smul_neg, neg_add, neg_neg, neg_neg]

theorem daiYuan_dirs (par : Par ℝ (ι → ℝ)) (hr : par.rule = .daiYuan) (G : (ι → ℝ) → ι → ℝ) (gtol τ : ℝ) (hτ : 0 < τ) (g1 : gtol < 1) :
    ∃ Dir bound, Dirs par G gtol τ Dir bound ∧ ∀ C, ∃ n, C < ∑ j ∈ Finset.range n, 1 / bound j := by
  have hc : 0 < 1 / τ ^ 2 := by positivity
  refine ⟨fun n d g => d ⬝ᵥ d ≤ ((n : ℝ) + 1) * (1 / τ ^ 2) * (d ⬝ᵥ g) ^ 2, fun n => ((n : ℝ) + 1) * (1 / τ ^ 2), ⟨fun n => by positivity, ?_, ?_, ?_⟩, diverge_linear _ hc⟩
  · intro n g hg
    have h1 : 1 ≤ 1 / τ ^ 2 * (g ⬝ᵥ g) := by
      rw [div_mul_eq_mul_div, one_mul, le_div_iff₀ (by positivity)]; linarith
    have h2 : (0 : ℝ) ≤ n := Nat.cast_nonneg n
    have h3 := dot_nonneg g
    have h4 : g ⬝ᵥ g ≤ 1 / τ ^ 2 * (g ⬝ᵥ g) * (g ⬝ᵥ g) := by nlinarith
    have h5 : 0 ≤ (n : ℝ) * (1 / τ ^ 2 * (g ⬝ᵥ g) * (g ⬝ᵥ g)) := by positivity
    nlinarith
  · intro n d x a d' h hp _ _ hg' hw _ hd hp'
    rw [hr] at hd
    generalize G x = g at *
    generalize G (x - a • d) = g' at *
    have hgg : 0 < g' ⬝ᵥ g' := (sq_nonneg τ).trans_lt hg'
    have hy : 0 < d ⬝ᵥ g - d ⬝ᵥ g' := by
      have := (abs_le.mp hw).2
      nlinarith
    have hb : published .daiYuan (-d) g g' = (g' ⬝ᵥ g') / (d ⬝ᵥ g - d ⬝ᵥ g') := by
      unfold published
      dsimp only
      rw [neg_dotProduct, dotProduct_sub]
      congr 1; ring
    have e := plain_direction .daiYuan (by decide) _ d d' g g' (by rw [hb]; positivity) hd
    rw [hb] at e
    generalize hβ : (g' ⬝ᵥ g') / (d ⬝ᵥ g - d ⬝ᵥ g') = β at *
    have hβ' : β * (d ⬝ᵥ g - d ⬝ᵥ g') = g' ⬝ᵥ g' := by rw [← hβ]; field_simp
    have e1 : d' ⬝ᵥ g' = β * (d ⬝ᵥ g) := by
      rw [e, add_dotProduct, smul_dotProduct, smul_eq_mul]; linarith
    have e2 : d' ⬝ᵥ d' = 2 * (d' ⬝ᵥ g') - g' ⬝ᵥ g' + β ^ 2 * (d ⬝ᵥ d) := by
      rw [e]
      simp only [add_dotProduct, dotProduct_add, smul_dotProduct, dotProduct_smul, smul_eq_mul]
      rw [dotProduct_comm g' d]; ring
    generalize d' ⬝ᵥ g' = u at *
    generalize g' ⬝ᵥ g' = q at *
    have h1 : 2 * u - q ≤ 1 / τ ^ 2 * u ^ 2 := by
      rw [div_mul_eq_mul_div, one_mul, le_div_iff₀ (by positivity)]
      by_cases hneg : 2 * u - q ≤ 0
      · nlinarith [sq_nonneg u, sq_nonneg τ, mul_nonneg (sq_nonneg τ) (sub_nonneg.mpr hneg)]
      · have : (2 * u - q) * τ ^ 2 ≤ (2 * u - q) * q := mul_le_mul_of_nonneg_left hg'.le (by linarith)
        nlinarith [sq_nonneg (u - q)]
    have h2 : β ^ 2 * (d ⬝ᵥ d) ≤ β ^ 2 * (((n : ℝ) + 1) * (1 / τ ^ 2) * (d ⬝ᵥ g) ^ 2) := mul_le_mul_of_nonneg_left h (sq_nonneg _)
    rw [e2, e1]
    push_cast
    rw [e1] at h1
    nlinarith
  · intro n d g h _ _
    exact h

/-! ## Fletcher and Reeves -/

theorem fletcherReeves_dirs (par : Par ℝ (ι → ℝ)) (hr : par.rule = .fletcherReeves) (G : (ι → ℝ) → ι → ℝ) (gtol τ : ℝ) (hτ : 0 < τ) (g0 : 0 < gtol) (g1 : gtol < 1 / 2) :
    ∃ Dir bound, Dirs par G gtol τ Dir bound ∧ ∀ C, ∃ n, C < ∑ j ∈ Finset.range n, 1 / bound j := by
  set c : ℝ := (1 + gtol) / (1 - gtol) / τ ^ 2 with hcd
  set b : ℝ := c * ((1 - gtol) / (1 - 2 * gtol)) ^ 2 with hbd
  have h1g : 0 < 1 - gtol := by linarith
  have h2g : 0 < 1 - 2 * gtol := by linarith
  have hc : 0 < c := by rw [hcd]; positivity
  have hb : 0 < b := by rw [hbd]; positivity
  have hcτ : c * τ ^ 2 = (1 + gtol) / (1 - gtol) := by rw [hcd]; field_simp
  refine ⟨fun n d g => d ⬝ᵥ d ≤ ((n : ℝ) + 1) * c * (g ⬝ᵥ g) ^ 2 ∧ (1 - 2 * gtol) * (g ⬝ᵥ g) ≤ (1 - gtol) * (d ⬝ᵥ g) ∧ (1 - gtol) * (d ⬝ᵥ g) ≤ g ⬝ᵥ g,
    fun n => ((n : ℝ) + 1) * b, ⟨fun n => by positivity, ?_, ?_, ?_⟩, diverge_linear _ hb⟩
  · intro n g hg
    have h3 := dot_nonneg g
    refine ⟨?_, by nlinarith, by nlinarith⟩
    have h1 : 1 ≤ c * (g ⬝ᵥ g) := by
      have h5 : c * τ ^ 2 ≤ c * (g ⬝ᵥ g) := mul_le_mul_of_nonneg_left hg.le hc.le
      have h6 : 1 ≤ c * τ ^ 2 := by rw [hcτ, le_div_iff₀ h1g]; linarith
      linarith
    have h2 : (0 : ℝ) ≤ n := Nat.cast_nonneg n
    have h4 : g ⬝ᵥ g ≤ c * (g ⬝ᵥ g) * (g ⬝ᵥ g) := by nlinarith
    have h5 : 0 ≤ (n : ℝ) * (c * (g ⬝ᵥ g) * (g ⬝ᵥ g)) := by positivity
    nlinarith
  · intro n d x a d' h hp _ hg hg' hw _ hd hp'
    obtain ⟨k1, k2, k3⟩ := h
    rw [hr] at hd
    generalize G x = g at *
    generalize G (x - a • d) = g' at *
    have hgg : 0 < g ⬝ᵥ g := (sq_nonneg τ).trans_lt hg
    have hgg' : 0 < g' ⬝ᵥ g' := (sq_nonneg τ).trans_lt hg'
    have hb' : published .fletcherReeves (-d) g g' = (g' ⬝ᵥ g') / (g ⬝ᵥ g) := rfl
    have e := plain_direction .fletcherReeves (by decide) _ d d' g g' (by rw [hb']; positivity) hd
    rw [hb'] at e
    have e1 : d' ⬝ᵥ g' = g' ⬝ᵥ g' + (g' ⬝ᵥ g') / (g ⬝ᵥ g) * (d ⬝ᵥ g') := by
      rw [e, add_dotProduct, smul_dotProduct, smul_eq_mul]
    have e2 : d' ⬝ᵥ d' = g' ⬝ᵥ g' + 2 * ((g' ⬝ᵥ g') / (g ⬝ᵥ g) * (d ⬝ᵥ g')) + ((g' ⬝ᵥ g') / (g ⬝ᵥ g)) ^ 2 * (d ⬝ᵥ d) := by
      rw [e]
      simp only [add_dotProduct, dotProduct_add, smul_dotProduct, dotProduct_smul, smul_eq_mul]
      rw [dotProduct_comm g' d]; ring
    generalize d' ⬝ᵥ g' = u at *
    generalize hq' : g' ⬝ᵥ g' = q' at *
    generalize hq : g ⬝ᵥ g = q at *
    generalize d ⬝ᵥ g' = w at *
    generalize d ⬝ᵥ g = p at *
    -- the last derivative is small
    have a1 : (1 - gtol) * |w| ≤ gtol * q := by nlinarith
    have a2 : (1 - gtol) * (q' / q * |w|) ≤ gtol * q' := by
      have : q' / q * ((1 - gtol) * |w|) ≤ q' / q * (gtol * q) := mul_le_mul_of_nonneg_left a1 (by positivity)
      have e5 : q' / q * (gtol * q) = gtol * q' := by field_simp
      linarith
    have a3 : |q' / q * w| = q' / q * |w| := by rw [abs_mul, abs_of_pos (by positivity)]
    rw [← a3] at a2
    generalize hv : q' / q * w = v at *
    have a4 : (1 - gtol) * v ≤ gtol * q' := (mul_le_mul_of_nonneg_left (le_abs_self v) h1g.le).trans a2
    have a5 : -(gtol * q') ≤ (1 - gtol) * v := by
      have := mul_le_mul_of_nonneg_left (neg_abs_le v) h1g.le
      linarith
    refine ⟨?_, by rw [e1]; linarith, by rw [e1]; linarith⟩
    have b1 : (q' / q) ^ 2 * (d ⬝ᵥ d) ≤ ((n : ℝ) + 1) * c * q' ^ 2 := by
      have := mul_le_mul_of_nonneg_left k1 (sq_nonneg (q' / q))
      have e5 : (q' / q) ^ 2 * (((n : ℝ) + 1) * c * q ^ 2) = ((n : ℝ) + 1) * c * q' ^ 2 := by field_simp
      linarith
    have b2 : q' + 2 * v ≤ c * τ ^ 2 * q' := by
      rw [hcτ, div_mul_eq_mul_div, le_div_iff₀ h1g]
      linarith
    have b3 : c * τ ^ 2 * q' ≤ c * q' * q' := by
      have := mul_le_mul_of_nonneg_left hg'.le (mul_pos hc hgg').le
      linarith
    rw [e2]
    push_cast
    nlinarith
  · intro n d g h hg _
    obtain ⟨k1, k2, -⟩ := h
    have hgg := dot_nonneg g
    have h1 : g ⬝ᵥ g ≤ (1 - gtol) / (1 - 2 * gtol) * (d ⬝ᵥ g) := by
      rw [div_mul_eq_mul_div, le_div_iff₀ h2g]; linarith
    have h2 := pow_le_pow_left₀ hgg h1 2
    rw [mul_pow] at h2
    have h3 : ((n : ℝ) + 1) * c * (g ⬝ᵥ g) ^ 2 ≤ ((n : ℝ) + 1) * c * (((1 - gtol) / (1 - 2 * gtol)) ^ 2 * (d ⬝ᵥ g) ^ 2) := mul_le_mul_of_nonneg_left h2 (by positivity)
    rw [hbd]
    linarith

/-! ## Strongly convex functions -/

/-- Curvature along the step. -/
theorem curvature (F : (ι → ℝ) → ℝ) (G : (ι → ℝ) → ι → ℝ) (L fmin μ : ℝ) (hs : Smooth F G L fmin) (hμ : Strong G μ) (x d : ι → ℝ) (a : ℝ) (ha : 0 < a) :
    ((G (x - a • d) - G x) ⬝ᵥ (G (x - a • d) - G x)) * (-d ⬝ᵥ -d) ≤ (L / μ) ^ 2 * (-d ⬝ᵥ (G (x - a • d) - G x)) ^ 2 := by
  have h1 := hs.lip (x - a • d) x
  have h2 := hμ.2 (x - a • d) x
  have e : x - a • d - x = a • -d := by simp
  rw [e] at h1 h2
  simp only [smul_dotProduct, dotProduct_smul, smul_eq_mul] at h1 h2
  generalize -d = p at *
  generalize G (x - a • d) - G x = y at *
  have hm := hμ.1
  have hpp := dot_nonneg p
  have h3 : μ * (a * (p ⬝ᵥ p)) ≤ p ⬝ᵥ y := by
    refine le_of_mul_le_mul_left ?_ ha
    linarith
  have h4 : (μ * (a * (p ⬝ᵥ p))) ^ 2 ≤ (p ⬝ᵥ y) ^ 2 := pow_le_pow_left₀ (by positivity) h3 2
  rw [div_pow, div_mul_eq_mul_div, le_div_iff₀ (by positivity)]
  have h5 := mul_le_mul_of_nonneg_right h1 (mul_nonneg hpp (sq_nonneg μ))
  have h6 := mul_le_mul_of_nonneg_left h4 (sq_nonneg L)
  nlinarith

/-- Hager and Zhang: length of the direction. -/
theorem hagerZhang_angle (powell : Bool) (p g0 g : ι → ℝ) (t : ℝ) (ht : 0 ≤ t) (hy : 0 < p ⬝ᵥ (g - g0))
    (hc : ((g - g0) ⬝ᵥ (g - g0)) * (p ⬝ᵥ p) ≤ t * (p ⬝ᵥ (g - g0)) ^ 2) :
    (published_direction .hagerZhang powell p g0 g ⬝ᵥ published_direction .hagerZhang powell p g0 g) * (g ⬝ᵥ g) ≤
      (2 + 4 * t + 16 * t ^ 2) * (64 / 49) * (published_direction .hagerZhang powell p g0 g ⬝ᵥ g) ^ 2 := by
  have hdesc := hagerZhang_descent powell p g0 g hy.ne'
  have hgg := dot_nonneg g
  have key : published_direction .hagerZhang powell p g0 g ⬝ᵥ published_direction .hagerZhang powell p g0 g ≤ (2 + 4 * t + 16 * t ^ 2) * (g ⬝ᵥ g) := by
    have e : published_direction .hagerZhang powell p g0 g = -g + clipped powell (published .hagerZhang p g0 g) • p := rfl
    have hb : clipped powell (published .hagerZhang p g0 g) ^ 2 ≤ published .hagerZhang p g0 g ^ 2 := by
      unfold clipped
      split_ifs
      · rcases le_total (published .hagerZhang p g0 g) 0 with h | h
        · rw [max_eq_right h]; nlinarith [sq_nonneg (published .hagerZhang p g0 g)]
        · rw [max_eq_left h]
      · exact le_refl _
    have hβ : published .hagerZhang p g0 g ^ 2 * (p ⬝ᵥ p) ≤ (2 * t + 8 * t ^ 2) * (g ⬝ᵥ g) := by
      have eb : published .hagerZhang p g0 g = ((g - g0) ⬝ᵥ g) / (p ⬝ᵥ (g - g0)) - 2 * ((g - g0) ⬝ᵥ (g - g0)) * (p ⬝ᵥ g) / (p ⬝ᵥ (g - g0)) ^ 2 := by
        unfold published
        dsimp only
        rw [sub_dotProduct (g - g0) _ g, smul_dotProduct, smul_eq_mul]
        field_simp
      rw [eb]
      generalize g - g0 = y at *
      have c1 := cauchy y g
      have c2 := cauchy p g
      have hyy := dot_nonneg y
      have hpp := dot_nonneg p
      generalize y ⬝ᵥ g = yg at *
      generalize p ⬝ᵥ g = pg at *
      generalize p ⬝ᵥ y = py at *
      generalize y ⬝ᵥ y = yy at *
      generalize p ⬝ᵥ p = pp at *
      generalize g ⬝ᵥ g = gg at *
      have s1 : (yg / py) ^ 2 * pp ≤ t * gg := by
        rw [div_pow, div_mul_eq_mul_div, div_le_iff₀ (by positivity)]
        have := mul_le_mul_of_nonneg_right c1 hpp
        have := mul_le_mul_of_nonneg_right hc hgg
        linarith
      have s2 : (2 * yy * pg / py ^ 2) ^ 2 * pp ≤ 4 * t ^ 2 * gg := by
        rw [div_pow, div_mul_eq_mul_div, div_le_iff₀ (by positivity)]
        have q1 := mul_le_mul_of_nonneg_left c2 (mul_nonneg (mul_nonneg hyy hyy) hpp)
        have q2 : (yy * pp) ^ 2 ≤ (t * py ^ 2) ^ 2 := pow_le_pow_left₀ (by positivity) hc 2
        have q3 := mul_le_mul_of_nonneg_right q2 hgg
        nlinarith
      have s3 : (yg / py - 2 * yy * pg / py ^ 2) ^ 2 ≤ 2 * (yg / py) ^ 2 + 2 * (2 * yy * pg / py ^ 2) ^ 2 := by
        nlinarith [sq_nonneg (yg / py + 2 * yy * pg / py ^ 2)]
      have s4 := mul_le_mul_of_nonneg_right s3 hpp
      nlinarith
    have hpp := dot_nonneg p
    have h1 := mul_le_mul_of_nonneg_right hb hpp
    have h2 := dot_nonneg (-g - clipped powell (published .hagerZhang p g0 g) • p)
    rw [e]
    simp only [add_dotProduct, dotProduct_add, sub_dotProduct, dotProduct_sub, neg_dotProduct, dotProduct_neg, smul_dotProduct, dotProduct_smul, smul_eq_mul] at h2 ⊢
    nlinarith
  have h1 : (7 / 8 * (g ⬝ᵥ g)) ^ 2 ≤ (published_direction .hagerZhang powell p g0 g ⬝ᵥ g) ^ 2 := by
    nlinarith
  have h2 := mul_le_mul_of_nonneg_right key hgg
  have hT : 0 ≤ 2 + 4 * t + 16 * t ^ 2 := by positivity
  have h3 := mul_le_mul_of_nonneg_left h1 hT
  nlinarith

/-- Perry and Shanno: the angle. -/
theorem perryShanno_angle (powell : Bool) (p g0 g : ι → ℝ) (t : ℝ) (ht : 0 ≤ t) (hy : 0 < p ⬝ᵥ (g - g0))
    (hc : ((g - g0) ⬝ᵥ (g - g0)) * (p ⬝ᵥ p) ≤ t * (p ⬝ᵥ (g - g0)) ^ 2) :
    (published_direction .perryShanno powell p g0 g ⬝ᵥ published_direction .perryShanno powell p g0 g) * (g ⬝ᵥ g) ≤
      2 * (1 + 4 * t) * (published_direction .perryShanno powell p g0 g ⬝ᵥ g) ^ 2 := by
  have e : published_direction .perryShanno powell p g0 g =
      -(Vmlmb.bfgs (((p ⬝ᵥ (g - g0)) / ((g - g0) ⬝ᵥ (g - g0))) • 1) p (g - g0) *ᵥ g) := rfl
  rw [e, bfgs_mulVec]
  generalize g - g0 = y at *
  have hyy : 0 < y ⬝ᵥ y := by
    refine lt_of_le_of_ne (dot_nonneg y) fun q => ?_
    have h1 := cauchy p y
    rw [← q, mul_zero] at h1
    have : 0 < (p ⬝ᵥ y) ^ 2 := by positivity
    linarith
  have hpp := dot_nonneg p
  dsimp only
  rw [smul_mulVec, one_mulVec]
  generalize hγ : (p ⬝ᵥ y) / (y ⬝ᵥ y) = γ
  have hγ0 : 0 < γ := by rw [← hγ]; positivity
  have hγy : γ * (y ⬝ᵥ y) = p ⬝ᵥ y := by rw [← hγ]; field_simp
  generalize hα : 1 / (p ⬝ᵥ y) * (g ⬝ᵥ p) = α
  have hαp : g ⬝ᵥ p = α * (p ⬝ᵥ y) := by rw [← hα]; field_simp
  obtain ⟨w, hw⟩ : ∃ w, w = g - α • y := ⟨_, rfl⟩
  have hg : g = w + α • y := by rw [hw]; simp
  rw [← hw]
  have hwp : w ⬝ᵥ p = 0 := by rw [hw, sub_dotProduct, smul_dotProduct, smul_eq_mul, hαp, dotProduct_comm y p]; ring
  rw [smul_dotProduct, smul_eq_mul]
  generalize hv : α - 1 / (p ⬝ᵥ y) * (γ * (w ⬝ᵥ y)) = v
  have hv' : v * (p ⬝ᵥ y) = α * (p ⬝ᵥ y) - γ * (w ⬝ᵥ y) := by rw [← hv]; field_simp
  have d1 : -(γ • w + v • p) ⬝ᵥ -(γ • w + v • p) = γ ^ 2 * (w ⬝ᵥ w) + v ^ 2 * (p ⬝ᵥ p) := by
    simp only [add_dotProduct, dotProduct_add, neg_dotProduct, dotProduct_neg, smul_dotProduct, dotProduct_smul, smul_eq_mul]
    rw [dotProduct_comm p w, hwp]; ring
  have d2 : -(γ • w + v • p) ⬝ᵥ g = -(γ * (w ⬝ᵥ w) + α ^ 2 * (p ⬝ᵥ y)) := by
    rw [neg_dotProduct, add_dotProduct, smul_dotProduct, smul_dotProduct, dotProduct_comm p g, hαp]
    conv_lhs => rw [hg]
    simp only [dotProduct_add, dotProduct_smul, smul_eq_mul]
    linear_combination -α * hv'
  have d3 : g ⬝ᵥ g = w ⬝ᵥ w + 2 * α * (w ⬝ᵥ y) + α ^ 2 * (y ⬝ᵥ y) := by
    rw [hg]
    simp only [add_dotProduct, dotProduct_add, smul_dotProduct, dotProduct_smul, smul_eq_mul]
    rw [dotProduct_comm y w]; ring
  have hww := dot_nonneg w
  have c1 := cauchy w y
  have c2 := dot_nonneg (w - α • y)
  simp only [sub_dotProduct, dotProduct_sub, smul_dotProduct, dotProduct_smul, smul_eq_mul] at c2
  rw [dotProduct_comm y w] at c2
  rw [d1, d2, d3]
  generalize w ⬝ᵥ y = wy at *
  generalize p ⬝ᵥ y = py at *
  generalize y ⬝ᵥ y = yy at *
  generalize p ⬝ᵥ p = pp at *
  generalize w ⬝ᵥ w = ww at *
  obtain ⟨u, hu⟩ : ∃ u, u = γ * ww + α ^ 2 * py := ⟨_, rfl⟩
  rw [← hu]
  have u1 : γ * ww ≤ u := by rw [hu]; nlinarith [sq_nonneg α]
  have u2 : α ^ 2 * py ≤ u := by rw [hu]; nlinarith
  have u0 : 0 ≤ u := le_trans (by positivity) u1
  have b1 : γ * (ww + 2 * α * wy + α ^ 2 * yy) ≤ 2 * u := by
    have h1 : ww + 2 * α * wy + α ^ 2 * yy ≤ 2 * ww + 2 * (α ^ 2 * yy) := by linarith
    have h2 := mul_le_mul_of_nonneg_left h1 hγ0.le
    have h3 : γ * (2 * ww + 2 * (α ^ 2 * yy)) = 2 * u := by rw [hu, ← hγy]; ring
    linarith
  -- `γ² pp ≤ t py²`... in the form which is needed
  have b2 : pp ≤ t * (γ * py) := by
    rw [← hγ]
    have : t * (py / yy * py) = t * py ^ 2 / yy := by field_simp
    rw [this, le_div_iff₀ hyy]
    linarith
  have b3 : v ^ 2 * pp ≤ 4 * t * γ * u := by
    have h1 : (v * py) ^ 2 ≤ 2 * (α * py) ^ 2 + 2 * (γ * wy) ^ 2 := by
      rw [hv']; nlinarith [sq_nonneg (α * py + γ * wy)]
    have h2 : (γ * wy) ^ 2 ≤ u * py := by
      have h3 : (γ * wy) ^ 2 ≤ γ ^ 2 * (ww * yy) := by
        rw [mul_pow]; exact mul_le_mul_of_nonneg_left c1 (sq_nonneg γ)
      have h4 : γ ^ 2 * (ww * yy) = γ * ww * py := by rw [← hγy]; ring
      have h5 := mul_le_mul_of_nonneg_right u1 hy.le
      linarith
    have h3 : (α * py) ^ 2 ≤ u * py := by
      have h5 := mul_le_mul_of_nonneg_right u2 hy.le
      linarith
    have h4 : v ^ 2 * py ≤ 4 * u := by
      refine le_of_mul_le_mul_right ?_ hy
      linarith
    have h5 := mul_le_mul_of_nonneg_left b2 (sq_nonneg v)
    have h6 := mul_le_mul_of_nonneg_left h4 (mul_nonneg ht hγ0.le)
    linarith
  have b4 : γ ^ 2 * ww + v ^ 2 * pp ≤ (1 + 4 * t) * u * γ := by
    have h1 := mul_le_mul_of_nonneg_left u1 hγ0.le
    linarith
  have gg0 : 0 ≤ ww + 2 * α * wy + α ^ 2 * yy := by rw [← d3]; exact dot_nonneg g
  have h1 := mul_le_mul_of_nonneg_right b4 gg0
  have h2 := mul_le_mul_of_nonneg_left b1 (mul_nonneg (show 0 ≤ 1 + 4 * t by linarith) u0)
  linarith

theorem convex_dirs (par : Par ℝ (ι → ℝ)) (hr : par.rule = .hagerZhang ∨ par.rule = .perryShanno) (F : (ι → ℝ) → ℝ) (G : (ι → ℝ) → ι → ℝ) (L fmin μ : ℝ)
    (hs : Smooth F G L fmin) (hμ : Strong G μ) (gtol τ : ℝ) (hτ : 0 < τ) (g1 : gtol < 1) :
    ∃ Dir bound, Dirs par G gtol τ Dir bound ∧ ∀ C, ∃ n, C < ∑ j ∈ Finset.range n, 1 / bound j := by
  have hcurv : ∀ (d x : ι → ℝ) (a : ℝ), 0 < d ⬝ᵥ G x → |d ⬝ᵥ G (x - a • d)| ≤ gtol * (d ⬝ᵥ G x) → 0 < -d ⬝ᵥ (G (x - a • d) - G x) := by
    intro d x a hp hw
    rw [neg_dotProduct, dotProduct_sub]
    have := (abs_le.mp hw).2
    nlinarith
  have ht : 0 ≤ (L / μ) ^ 2 := sq_nonneg _
  rcases hr with hr | hr
  · refine angle_dirs par G gtol τ ((2 + 4 * (L / μ) ^ 2 + 16 * ((L / μ) ^ 2) ^ 2) * (64 / 49)) hτ (by nlinarith [sq_nonneg ((L / μ) ^ 2)]) ?_
    intro d x a d' hp ha _ hw _ hd _
    have := hagerZhang_angle (hasBit par.flags POWELL) (-d) (G x) (G (x - a • d)) _ ht (hcurv d x a hp hw) (curvature F G L fmin μ hs hμ x d a ha)
    rw [hr] at hd
    rw [← hd] at this
    simpa only [neg_dotProduct, dotProduct_neg, neg_neg, neg_sq] using this
  · refine angle_dirs par G gtol τ (2 * (1 + 4 * (L / μ) ^ 2)) hτ (by linarith) ?_
    intro d x a d' hp ha _ hw _ hd _
    have := perryShanno_angle (hasBit par.flags POWELL) (-d) (G x) (G (x - a • d)) _ ht (hcurv d x a hp hw) (curvature F G L fmin μ hs hμ x d a ha)
    rw [hr] at hd
    rw [← hd] at this
    simpa only [neg_dotProduct, dotProduct_neg, neg_neg, neg_sq] using this

/-! ## C90 -/

/-- The methods: the angle test is done, or the method is that of Dai and Yuan, or that of Fletcher and Reeves with an accurate line
search, or the function is strongly convex and the method is that of Hager and Zhang or that of Perry and Shanno. -/
def Convergent (par : Par ℝ (ι → ℝ)) (G : (ι → ℝ) → ι → ℝ) (gtol : ℝ) : Prop :=
  0 < par.epsilon ∨ par.rule = .daiYuan ∨ (par.rule = .fletcherReeves ∧ gtol < 1 / 2) ∨
  ((par.rule = .hagerZhang ∨ par.rule = .perryShanno) ∧ ∃ μ, Strong G μ)

/-- The session which begins. -/
def Sess.begin (opt : Opt ℝ (LineSearch.Csrch ℝ) (ι → ℝ)) (x : ι → ℝ) (f : ℝ) (g gp : ι → ℝ) : St ι :=
  ⟨start opt, x, f, g, gp⟩

theorem begin_first (par : Par ℝ (ι → ℝ)) (opt : Opt ℝ (LineSearch.Csrch ℝ) (ι → ℝ)) (hv : Vecs par opt) (ftol gtol : ℝ) (ht : Tol opt.ls ftol gtol)
    (x : ι → ℝ) (f : ℝ) (g gp : ι → ℝ) : First par x ftol gtol (Sess.begin opt x f g gp) :=
  ⟨⟨hv, le_refl _, fun h => by simp [Sess.begin, start, success] at h, fun _ h => by simp [Sess.begin, start, success] at h⟩, rfl, rfl, rfl, rfl, ht⟩

theorem usual_new (finite : ℝ → Bool) (opts : Options ℝ) (ls : LineSearch.Ls ℝ (LineSearch.Csrch ℝ)) (raw : ι → ℝ) (par : Par ℝ (ι → ℝ)) (opt : Opt ℝ (LineSearch.Csrch ℝ) (ι → ℝ))
    (hnew : new finite exactVs opts ls raw = some (par, opt)) (hlo : 0 < opts.stpmin) (hmid : opts.stpmin ≤ 1 ∧ 1 ≤ opts.stpmax) :
    Usual par ∧ Vecs par opt ∧ opt.ls = ls ∧ par.gatol = opts.gatol ∧ par.grtol = opts.grtol := by
  obtain ⟨k1, -, -, -, k2, -, k3, k4, k5, k6, -⟩ := new_spec finite exactVs opts ls raw par opt hnew
  exact ⟨⟨new_setting finite opts ls raw par opt hnew, by rw [k5]; exact hlo, by rw [k5, k6]; exact hmid⟩, k1, k2, k3, k4⟩

/-- **C90.** Exact arithmetic, Moré and Thuente line search.  Let the function be bounded below and its gradient be Lipschitz continuous.
For the methods above, if `gatol` or `grtol` is positive, then no call has an undefined behaviour and the session ends: after a finite number of calls
either the optimizer tells that the gradient is small enough, which is then true, and the function value is not greater than the first one, or the line search has
failed for one of the three documented reasons. -/
theorem nlcg_ends (finite : ℝ → Bool) (opts : Options ℝ) (ls : LineSearch.Ls ℝ (LineSearch.Csrch ℝ)) (raw : ι → ℝ) (par : Par ℝ (ι → ℝ)) (opt : Opt ℝ (LineSearch.Csrch ℝ) (ι → ℝ))
    (hnew : new finite exactVs opts ls raw = some (par, opt))
    (F : (ι → ℝ) → ℝ) (G : (ι → ℝ) → ι → ℝ) (L fmin : ℝ) (hs : Smooth F G L fmin)
    (f0 : 0 < ls.m.ftol) (f4 : 4 * ls.m.ftol ≤ ls.m.gtol) (g1 : ls.m.gtol < 1) (hx : 0 < ls.m.xtol)
    (hlo : 0 < opts.stpmin) (hmid : opts.stpmin ≤ 1 ∧ 1 ≤ opts.stpmax) (hpos : 0 < opts.gatol ∨ 0 < opts.grtol) (hm : Convergent par G ls.m.gtol)
    (x1 : ι → ℝ) (f : ℝ) (g gp : ι → ℝ) :
    ∃ r : ℕ → St ι, (∀ k, run par F G (Sess.begin opt x1 f g gp) k = some (r k)) ∧
      ∃ n, (∀ k, n ≤ k → r k = r n) ∧ Ends F G x1 (max (max 0 opts.gatol) (opts.grtol * Real.sqrt (G x1 ⬝ᵥ G x1))) (r n) := by
  obtain ⟨hu, hv, e1, e2, e3⟩ := usual_new finite opts ls raw par opt hnew hlo hmid
  rw [← e2, ← e3] at hpos ⊢
  refine run_ends par hu F G L fmin hs ls.m.ftol ls.m.gtol f0 f4 g1 hpos x1 _ rfl (fun hτ => ?_) _
    (begin_first par opt hv _ _ (by rw [e1]; exact ⟨rfl, rfl, hx⟩) x1 f g gp)
  rcases hm with hm | hm | ⟨hm, hm'⟩ | ⟨hm, μ, hμ⟩
  · exact eps_dirs par G _ _ hτ hm hu.set.epsilon.2
  · exact daiYuan_dirs par hm G _ _ hτ g1
  · exact fletcherReeves_dirs par hm G _ _ hτ (by linarith) hm'
  · exact convex_dirs par hm F G L fmin μ hs hμ _ _ hτ g1

/-- Options for the examples. -/
noncomputable def demoOpts (flags : Nat) (ε : ℝ) : Options ℝ :=
  { delta := 1 / 1000, epsilon := ε, grtol := 1 / 1000000, gatol := 0, stpmin := 1 / 100000, stpmax := 100000, fmin := 0, flags := flags, fminGiven := false }

/-- A line search for the examples, with the default parameters. -/
noncomputable def demoLs (m : LineSearch.Csrch ℝ) : LineSearch.Ls ℝ (LineSearch.Csrch ℝ) :=
  ⟨0, 0, 0, 0, 0, .notStarted, .error, { m with ftol := 1 / 10000, gtol := 1 / 10, xtol := 1 / 100000 }⟩

/-- The hypotheses hold for a quadratic function of one variable, with the default parameters of the line search, for each of the methods; there is at least one
iteration. -/
example (raw : Fin 1 → ℝ) (m : LineSearch.Csrch ℝ) (flags : Nat) (ε : ℝ)
    (hf : (flags = 6 ∨ flags = 1 ∨ flags = 7 ∨ flags = 8) ∧ ε = 0 ∨ (flags = 0 ∨ flags = 3) ∧ ε = 1 / 100) : ∃ par opt,
    new (fun _ => true) exactVs (demoOpts flags ε) (demoLs m) raw = some (par, opt) ∧
    Convergent par (fun x : Fin 1 → ℝ => x) (demoLs m).m.gtol ∧
    Smooth (fun x : Fin 1 → ℝ => x ⬝ᵥ x / 2) (fun x => x) 1 0 ∧
    (∃ s, run par (fun x : Fin 1 → ℝ => x ⬝ᵥ x / 2) (fun x => x) (Sess.begin opt (fun _ => 1) 0 0 0) 1 = some s ∧ s.opt.task = .newX) ∧
    ∃ n s, run par (fun x : Fin 1 → ℝ => x ⬝ᵥ x / 2) (fun x => x) (Sess.begin opt (fun _ => 1) 0 0 0) n = some s ∧ (s.opt.task = .finalX ∨ s.opt.task = .error) := by
  have hsm : Smooth (fun x : Fin 1 → ℝ => x ⬝ᵥ x / 2) (fun x => x) 1 0 :=
    ⟨one_pos, fun x y => by rw [one_pow, one_mul], fun x => div_nonneg (dot_nonneg x) (by norm_num)⟩
  have hst : Strong (fun x : Fin 1 → ℝ => x) 1 := ⟨one_pos, fun x y => by rw [one_mul]⟩
  have hε : 0 ≤ ε ∧ ε < 1 := by rcases hf with ⟨-, rfl⟩ | ⟨-, rfl⟩ <;> norm_num
  have hc : checkOptions (fun _ => true) (demoOpts flags ε) = true := by
    unfold checkOptions demoOpts
    simp only [Bool.not_eq_true', decide_eq_false_iff_not]
    norm_num
    exact hε
  have hfl : flags = 6 ∨ flags = 1 ∨ flags = 7 ∨ flags = 8 ∨ flags = 0 ∨ flags = 3 := by tauto
  have hn : ∃ q, new (fun _ => true) exactVs (demoOpts flags ε) (demoLs m) raw = some q := by
    have hsel : ∃ p, select (if (demoOpts flags ε).flags = 0 then DEFAULT else (demoOpts flags ε).flags) = some p := by
      show ∃ p, select (if flags = 0 then DEFAULT else flags) = some p
      rcases hfl with rfl | rfl | rfl | rfl | rfl | rfl <;> exact ⟨_, rfl⟩
    obtain ⟨⟨rule, needed⟩, hp⟩ := hsel
    unfold new
    rw [hc, if_neg (by simp)]
    dsimp only
    rw [hp]
    exact ⟨_, rfl⟩
  obtain ⟨⟨par, opt⟩, hn⟩ := hn
  obtain ⟨hu, hv, e1, e2, e3⟩ := usual_new _ _ _ _ _ _ hn (by unfold demoOpts; norm_num) (by unfold demoOpts; norm_num)
  have hcv : Convergent par (fun x : Fin 1 → ℝ => x) (demoLs m).m.gtol := by
    obtain ⟨-, -, -, -, -, -, -, -, -, -, -, eε, ef, er, -⟩ := new_spec _ _ _ _ _ _ _ hn
    rcases hf with ⟨rfl | rfl | rfl | rfl, rfl⟩ | ⟨-, rfl⟩
    · rw [ef] at er; exact Or.inr (Or.inl (Option.some.inj er).symm)
    · rw [ef] at er; exact Or.inr (Or.inr (Or.inl ⟨(Option.some.inj er).symm, by unfold demoLs; norm_num⟩))
    · rw [ef] at er; exact Or.inr (Or.inr (Or.inr ⟨Or.inr (Option.some.inj er).symm, 1, hst⟩))
    · rw [ef] at er; exact Or.inr (Or.inr (Or.inr ⟨Or.inl (Option.some.inj er).symm, 1, hst⟩))
    · left; rw [eε]; unfold demoOpts; norm_num
  have hF := begin_first par opt hv (1 / 10000) (1 / 10) (by rw [e1]; exact ⟨rfl, rfl, by unfold demoLs; norm_num⟩) (fun _ => 1) 0 0 0
  refine ⟨par, opt, hn, hcv, hsm, ?_, ?_⟩
  · obtain ⟨s, e, h, h'⟩ := first_step par (fun x : Fin 1 → ℝ => x ⬝ᵥ x / 2) (fun x => x) (fun _ => 1) _ _ _ (fun _ _ _ => True) (fun _ => 0) hu rfl _ hF
    refine ⟨s, e, ?_⟩
    have hg : gnormAt (fun x : Fin 1 → ℝ => x) (fun _ => 1) = 1 := by
      unfold gnormAt
      simp [dotProduct]
    have ht := h.task
    rw [h', if_neg (by rw [hg, e2, e3]; unfold demoOpts; norm_num)] at ht
    exact ht
  · obtain ⟨r, hr, n, -, h⟩ := nlcg_ends _ _ _ _ _ _ hn _ _ 1 0 hsm (by unfold demoLs; norm_num) (by unfold demoLs; norm_num) (by unfold demoLs; norm_num)
      (by unfold demoLs; norm_num) (by unfold demoOpts; norm_num) (by unfold demoOpts; norm_num) (Or.inr (by unfold demoOpts; norm_num)) hcv (fun _ => 1) 0 0 0
    exact ⟨n, r n, hr n, h.imp (·.1) (·.1)⟩

end Opk.Nlcg
