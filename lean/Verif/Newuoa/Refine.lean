import Verif.Newuoa.Trsapp

/-!
# The angle chosen by `trsapp` among 50 ones, and its refinement by a parabola

A function `P cos t + S sin t - X cos 2t - Y sin 2t` is minimized on the grid of the multiples of `h = 2π/50`; a parabola
is then drawn through the best point and its neighbours.  The minimum of the parabola may be a little worse than the best
point of the grid, by at most 0.0004 times the amplitude of the terms in `t`, whatever the terms in `2t`.
-/
namespace Opk.Newuoa
open Linalg CMath Cobyla Powell

set_option linter.unusedSectionVars false

/-- The functions on the circle. -/
noncomputable def trig (k P S X Y t : ℝ) : ℝ := k + P * Real.cos t + S * Real.sin t - X * Real.cos (2 * t) - Y * Real.sin (2 * t)

theorem trig_wave (A B C E c : ℝ) : ∃ k P S X Y : ℝ, P ^ 2 + S ^ 2 = A ^ 2 + B ^ 2 ∧ ∀ t, wave 0 A B C E (c + t) = trig k P S X Y t := by
  refine ⟨C / 2, A * Real.cos c + B * Real.sin c, -A * Real.sin c + B * Real.cos c, -(C / 2 * Real.cos (2 * c) + E / 2 * Real.sin (2 * c)),
    -(-(C / 2) * Real.sin (2 * c) + E / 2 * Real.cos (2 * c)), ?_, fun t => ?_⟩
  · have := Real.sin_sq_add_cos_sq c
    linear_combination (A ^ 2 + B ^ 2) * this
  · have e : ∀ t, wave 0 A B C E t = C / 2 + A * Real.cos t + B * Real.sin t + C / 2 * Real.cos (2 * t) + E / 2 * Real.sin (2 * t) := by
      intro t
      unfold wave
      rw [Real.cos_two_mul, Real.sin_two_mul]
      ring
    rw [e, show 2 * (c + t) = 2 * c + 2 * t by ring, Real.cos_add, Real.sin_add, Real.cos_add, Real.sin_add]
    unfold trig
    ring

/-- The value at the minimum of the parabola. -/
theorem trig_parabola {P S X Y sh ch st ct r D : ℝ} (h1 : sh ^ 2 + ch ^ 2 = 1) (h2 : st ^ 2 + ct ^ 2 = 1) (e1 : -2 * S * sh + 4 * Y * sh * ch = 2 * r * D)
    (e2 : D = -2 * P * (1 - ch) + 4 * X * sh ^ 2) :
    2 * sh ^ 2 * ch * (S * st - P * (1 - ct) + 2 * X * st ^ 2 - 2 * Y * st * ct) =
      2 * sh ^ 2 * S * st * (ch - ct) + 2 * P * ch * (1 - ct) * (ct - ch) * (1 - ch) + D * (st * (st * ch - 2 * r * ct * sh)) := by
  linear_combination (-st * ct * sh) * e1 - st ^ 2 * ch * e2 + 2 * P * ch * (1 - ch) * h2 - 2 * P * ch * (1 - ct) * h1

/-- The step of the grid is between 0.125 and 0.126. -/
theorem grid_step : 1 / 8 < 2 * Real.pi / 50 ∧ 2 * Real.pi / 50 < 126 / 1000 := by
  have h1 := Real.pi_gt_d2
  have h2 := Real.pi_lt_d2
  constructor <;> linarith

/-- Sines and cosines of small angles. -/
theorem small_angles {h r t : ℝ} (hl : 1 / 8 < h) (hu : h < 126 / 1000) (hr : |r| ≤ 1 / 2) (ht : t = h * r) :
    992 / 1000 ≤ Real.cos h ∧ 99 / 100 * h ≤ Real.sin h ∧ 998 / 1000 ≤ Real.cos t ∧ 1 - Real.cos t ≤ h ^ 2 / 8 ∧ |t| ≤ h / 2 := by
  have tx : |t| ≤ h / 2 := by
    rw [ht, abs_mul, abs_of_pos (show (0 : ℝ) < h by linarith)]
    nlinarith
  have h2 : t ^ 2 ≤ (h / 2) ^ 2 := by rw [← sq_abs t]; exact pow_le_pow_left₀ (abs_nonneg t) tx 2
  have h3 := Real.one_sub_sq_div_two_le_cos (x := t)
  refine ⟨?_, ?_, ?_, ?_, tx⟩
  · have := Real.one_sub_sq_div_two_le_cos (x := h)
    nlinarith
  · have s1 : h - h ^ 3 / 6 < Real.sin h := Real.sin_gt_sub_cube (by linarith)
    nlinarith [sq_nonneg h]
  · nlinarith
  · nlinarith

theorem cos_diff {h t : ℝ} (hl : 1 / 8 < h) (hu : h < 126 / 1000) (tx : |t| ≤ h / 2) :
    0 ≤ Real.cos t - Real.cos h ∧ Real.cos t - Real.cos h ≤ (h ^ 2 - t ^ 2) / 2 := by
  have hp := Real.pi_gt_three
  have h0 := abs_nonneg t
  constructor
  · rw [← Real.cos_abs t]
    have := Real.cos_le_cos_of_nonneg_of_le_pi (abs_nonneg t) (show h ≤ Real.pi by linarith) (by linarith)
    linarith
  · rw [← Real.cos_abs t, Real.cos_sub_cos]
    have a1 : Real.sin ((|t| + h) / 2) ≤ (|t| + h) / 2 := Real.sin_le (by linarith)
    have a2 : Real.sin ((h - |t|) / 2) ≤ (h - |t|) / 2 := Real.sin_le (by linarith)
    have a3 : 0 ≤ Real.sin ((h - |t|) / 2) := Real.sin_nonneg_of_nonneg_of_le_pi (by linarith) (by linarith)
    rw [show (|t| - h) / 2 = -((h - |t|) / 2) by ring, Real.sin_neg, ← sq_abs t]
    have a4 : Real.sin ((|t| + h) / 2) * Real.sin ((h - |t|) / 2) ≤ (|t| + h) / 2 * ((h - |t|) / 2) := mul_le_mul a1 a2 a3 (by linarith)
    linarith

theorem sin_mul {t : ℝ} (h : |t| ≤ 1) : Real.sin t * Real.sin t ≤ Real.sin t * t ∧ 0 ≤ Real.sin t * t := by
  have hp := Real.pi_gt_three
  rcases le_total 0 t with q | q
  · have q1 := Real.sin_nonneg_of_nonneg_of_le_pi q (by have := le_abs_self t; linarith)
    exact ⟨mul_le_mul_of_nonneg_left (Real.sin_le q) q1, mul_nonneg q1 q⟩
  · have q1 := Real.sin_nonneg_of_nonneg_of_le_pi (x := -t) (by linarith) (by have := neg_abs_le t; linarith)
    have q2 := Real.sin_le (x := -t) (by linarith)
    rw [Real.sin_neg] at q1 q2
    constructor <;> nlinarith

/-- The term of the second differences is not positive. -/
theorem second_diff {h r t : ℝ} (hl : 1 / 8 < h) (hu : h < 126 / 1000) (hr : |r| ≤ 1 / 2) (ht : t = h * r) :
    Real.sin t * (Real.sin t * Real.cos h - 2 * r * Real.cos t * Real.sin h) ≤ 0 := by
  obtain ⟨c1, s2, ct1, -, tx⟩ := small_angles hl hu hr ht
  obtain ⟨b1, b2⟩ := sin_mul (t := t) (by linarith)
  have b3 : 0 ≤ Real.sin t * r := by
    have : Real.sin t * t = h * (Real.sin t * r) := by nth_rewrite 2 [ht]; ring
    rw [this] at b2
    exact nonneg_of_mul_nonneg_right b2 (by linarith)
  have b4 : h ≤ 2 * Real.cos t * Real.sin h := by nlinarith
  have b5 : Real.sin t * r * h ≤ Real.sin t * r * (2 * Real.cos t * Real.sin h) := mul_le_mul_of_nonneg_left b4 b3
  have b6 : Real.sin t * t = Real.sin t * r * h := by nth_rewrite 2 [ht]; ring
  have b7 : Real.sin t * Real.sin t * Real.cos h ≤ Real.sin t * Real.sin t := by
    have := mul_le_mul_of_nonneg_left (Real.cos_le_one h) (mul_self_nonneg (Real.sin t))
    linarith
  linarith

theorem cubic {x h : ℝ} (h0 : 0 ≤ x) (h1 : x ≤ h / 2) : x * ((h ^ 2 - x ^ 2) / 2) ≤ 3 * h ^ 3 / 16 := by
  have e : 3 * h ^ 3 / 16 - x * ((h ^ 2 - x ^ 2) / 2) = (h / 2 - x) * (3 * h ^ 2 / 4 - x * h / 2 - x ^ 2) / 2 := by ring
  have : 0 ≤ (h / 2 - x) * (3 * h ^ 2 / 4 - x * h / 2 - x ^ 2) := mul_nonneg (by linarith) (by nlinarith)
  linarith

theorem first_terms {h r t S P R : ℝ} (hl : 1 / 8 < h) (hu : h < 126 / 1000) (hr : |r| ≤ 1 / 2) (ht : t = h * r) (hR : 0 ≤ R) (R1 : |S| ≤ R) (R2 : |P| ≤ R) :
    S * Real.sin t * (Real.cos h - Real.cos t) ≤ R * (3757 / 10000000) ∧ P * (1 - Real.cos t) * (Real.cos t - Real.cos h) ≤ R * (16 / 1000000) := by
  obtain ⟨c1, s2, ct1, ct3, tx⟩ := small_angles hl hu hr ht
  obtain ⟨cc0, cc1⟩ := cos_diff hl hu tx
  constructor
  · have w1 : |Real.sin t| * (Real.cos t - Real.cos h) ≤ 3757 / 10000000 := by
      have a1 : |Real.sin t| * (Real.cos t - Real.cos h) ≤ |t| * ((h ^ 2 - t ^ 2) / 2) := mul_le_mul Real.abs_sin_le_abs cc1 cc0 (abs_nonneg t)
      have a2 := cubic (abs_nonneg t) tx
      rw [sq_abs] at a2
      have a3 : h ^ 3 ≤ (126 / 1000) ^ 3 := pow_le_pow_left₀ (by linarith) hu.le 3
      norm_num at a3
      linarith
    have a1 : S * Real.sin t * (Real.cos h - Real.cos t) ≤ |S| * (|Real.sin t| * (Real.cos t - Real.cos h)) := by
      rw [← mul_assoc, ← abs_mul]
      have := mul_le_mul_of_nonneg_right (neg_le.mp (neg_abs_le (S * Real.sin t))) cc0
      linarith
    exact le_trans a1 (mul_le_mul R1 w1 (mul_nonneg (abs_nonneg _) cc0) hR)
  · have a0 : (1 - Real.cos t) * (Real.cos t - Real.cos h) ≤ h ^ 2 / 8 * (h ^ 2 / 2) :=
      mul_le_mul ct3 (by have := sq_nonneg t; linarith) cc0 (by positivity)
    have a2 : h ^ 4 ≤ (126 / 1000) ^ 4 := pow_le_pow_left₀ (by linarith) hu.le 4
    have a3 : (1 - Real.cos t) * (Real.cos t - Real.cos h) ≤ 16 / 1000000 := by
      norm_num at a2
      have : h ^ 2 / 8 * (h ^ 2 / 2) = h ^ 4 / 16 := by ring
      linarith
    have a4 : 0 ≤ (1 - Real.cos t) * (Real.cos t - Real.cos h) := mul_nonneg (by have := Real.cos_le_one t; linarith) cc0
    calc P * (1 - Real.cos t) * (Real.cos t - Real.cos h) = P * ((1 - Real.cos t) * (Real.cos t - Real.cos h)) := by ring
      _ ≤ |P| * ((1 - Real.cos t) * (Real.cos t - Real.cos h)) := mul_le_mul_of_nonneg_right (le_abs_self P) a4
      _ ≤ R * (16 / 1000000) := mul_le_mul R2 a3 a4 hR

/-- The bound of the value at the minimum of the parabola. -/
theorem refined_bound {k P S X Y R h D r t va vb v0 : ℝ} (hh : 1 / 8 < h ∧ h < 126 / 1000) (hR : 0 ≤ R) (hP : P ^ 2 + S ^ 2 ≤ R ^ 2) (hD : 0 < D)
    (hrD : 2 * r * D = va - vb) (hr : |r| ≤ 1 / 2) (ht : t = h * r) (f0 : v0 = k + P - X)
    (fa : va = k + P * Real.cos h - S * Real.sin h - X * (1 - 2 * Real.sin h ^ 2) + Y * (2 * Real.sin h * Real.cos h))
    (fb : vb = k + P * Real.cos h + S * Real.sin h - X * (1 - 2 * Real.sin h ^ 2) - Y * (2 * Real.sin h * Real.cos h)) (hDe : D = va - v0 + (vb - v0)) :
    k + P * Real.cos t + S * Real.sin t - X * (1 - 2 * Real.sin t ^ 2) - Y * (2 * Real.sin t * Real.cos t) ≤ v0 + R * (4 / 10000) := by
  obtain ⟨hl, hu⟩ := hh
  have sa := Real.sin_sq_add_cos_sq h
  have key := trig_parabola (P := P) (S := S) (X := X) (Y := Y) (r := r) (D := D) sa (Real.sin_sq_add_cos_sq t) (by rw [hrD, fa, fb]; ring) (by rw [hDe, fa, fb, f0]; ring)
  rw [f0]
  clear hDe fa fb f0 hrD
  have R1 : |S| ≤ R := by
    rw [← abs_of_nonneg hR]
    exact sq_le_sq.mp (by have := sq_nonneg P; linarith)
  have R2 : |P| ≤ R := by
    rw [← abs_of_nonneg hR]
    exact sq_le_sq.mp (by have := sq_nonneg S; linarith)
  obtain ⟨w2, w3⟩ := first_terms hl hu hr ht hR R1 R2
  have neg := second_diff hl hu hr ht
  obtain ⟨c1, s2, -, -, -⟩ := small_angles hl hu hr ht
  have c2 := Real.cos_le_one h
  have s0 : 0 < Real.sin h := by linarith
  clear R1 R2 hP ht hr
  generalize Real.cos t = ct at *
  generalize Real.sin t = st at *
  generalize Real.cos h = ch at *
  generalize Real.sin h = sh at *
  have u1 : 1 - ch ≤ sh ^ 2 := by nlinarith
  have u2 : 2 * P * ch * (1 - ct) * (ct - ch) * (1 - ch) ≤ 2 * ch * (R * (16 / 1000000)) * sh ^ 2 := by
    have a2 : 0 ≤ 2 * ch * (1 - ch) := mul_nonneg (by linarith) (by linarith)
    have a3 : 2 * ch * (1 - ch) * (P * (1 - ct) * (ct - ch)) ≤ 2 * ch * (1 - ch) * (R * (16 / 1000000)) := mul_le_mul_of_nonneg_left w3 a2
    have a4 : 2 * ch * (R * (16 / 1000000)) * (1 - ch) ≤ 2 * ch * (R * (16 / 1000000)) * sh ^ 2 :=
      mul_le_mul_of_nonneg_left u1 (mul_nonneg (by linarith) (by positivity))
    linarith
  have u3 : 2 * sh ^ 2 * S * st * (ch - ct) ≤ 2 * sh ^ 2 * (R * (3757 / 10000000)) := by
    have := mul_le_mul_of_nonneg_left w2 (show 0 ≤ 2 * sh ^ 2 by positivity)
    linarith
  have u4 : D * (st * (st * ch - 2 * r * ct * sh)) ≤ 0 := mul_nonpos_of_nonneg_of_nonpos hD.le neg
  have ch0 : 0 < ch := by linarith
  have u5 : 2 * sh ^ 2 * ch * (S * st - P * (1 - ct) + 2 * X * st ^ 2 - 2 * Y * st * ct) ≤ 2 * sh ^ 2 * ch * (R * (4 / 10000)) := by
    rw [key]
    have z : 2 * sh ^ 2 * (R * (3757 / 10000000)) ≤ 2 * sh ^ 2 * (ch * (R * (379 / 1000000))) := by
      refine mul_le_mul_of_nonneg_left ?_ (by positivity)
      nlinarith
    have z' : 0 ≤ 2 * sh ^ 2 * ch * R := by positivity
    linarith
  have u6 := le_of_mul_le_mul_left u5 (by positivity)
  linarith

theorem trig_refined {k P S X Y R h : ℝ} (hh : 1 / 8 < h ∧ h < 126 / 1000) (hR : 0 ≤ R) (hP : P ^ 2 + S ^ 2 ≤ R ^ 2)
    (ha : trig k P S X Y 0 ≤ trig k P S X Y (-h)) (hb : trig k P S X Y 0 ≤ trig k P S X Y h) :
    trig k P S X Y (h * refinement (trig k P S X Y (-h)) (trig k P S X Y 0) (trig k P S X Y h)) ≤ trig k P S X Y 0 + R * (4 / 10000) := by
  unfold refinement
  by_cases c : trig k P S X Y (-h) ≠ trig k P S X Y h
  · rw [if_pos c]
    dsimp only
    rw [ExactMath.lit_eq]
    have hD : 0 < trig k P S X Y (-h) - trig k P S X Y 0 + (trig k P S X Y h - trig k P S X Y 0) := by
      rcases lt_or_eq_of_le ha with q | q
      · linarith
      · rcases lt_or_eq_of_le hb with q' | q'
        · linarith
        · exact absurd (q.symm.trans q') c
    rw [show ((2 : Nat) : ℝ) / ((1 : Nat) : ℝ) = 2 by norm_num]
    have sa := Real.sin_sq_add_cos_sq h
    have fa : trig k P S X Y (-h) = k + P * Real.cos h - S * Real.sin h - X * (1 - 2 * Real.sin h ^ 2) + Y * (2 * Real.sin h * Real.cos h) := by
      unfold trig
      rw [show 2 * -h = -(2 * h) by ring, Real.cos_neg, Real.sin_neg, Real.cos_neg, Real.sin_neg, Real.cos_two_mul, Real.sin_two_mul]
      linear_combination -2 * X * sa
    have fb : trig k P S X Y h = k + P * Real.cos h + S * Real.sin h - X * (1 - 2 * Real.sin h ^ 2) - Y * (2 * Real.sin h * Real.cos h) := by
      unfold trig
      rw [Real.cos_two_mul, Real.sin_two_mul]
      linear_combination -2 * X * sa
    have f0 : trig k P S X Y 0 = k + P - X := by
      unfold trig
      rw [mul_zero, Real.cos_zero, Real.sin_zero]; ring
    have ft : ∀ t, trig k P S X Y t = k + P * Real.cos t + S * Real.sin t - X * (1 - 2 * Real.sin t ^ 2) - Y * (2 * Real.sin t * Real.cos t) := by
      intro t
      have := Real.sin_sq_add_cos_sq t
      unfold trig
      rw [Real.cos_two_mul, Real.sin_two_mul]
      linear_combination -2 * X * this
    rw [ft (h * _)]
    generalize trig k P S X Y (-h) = va at *
    generalize trig k P S X Y h = vb at *
    generalize trig k P S X Y 0 = v0 at *
    obtain ⟨D, hDe⟩ : ∃ D, D = va - v0 + (vb - v0) := ⟨_, rfl⟩
    rw [← hDe] at hD ⊢
    obtain ⟨r, hr⟩ : ∃ r, r = (va - v0 - (vb - v0)) / (2 * D) := ⟨_, rfl⟩
    rw [← hr]
    have hrD : 2 * r * D = va - vb := by
      rw [hr]
      field_simp
      ring
    have hr1 : |r| ≤ 1 / 2 := by
      rw [abs_le]
      constructor <;> nlinarith
    obtain ⟨t, ht⟩ : ∃ t, t = h * r := ⟨_, rfl⟩
    rw [← ht]
    exact refined_bound hh hR hP hD hrD hr1 ht f0 fa fb hDe
  · rw [if_neg c, mul_zero]
    have : 0 ≤ R * (4 / 10000) := by positivity
    linarith

/-! ### The search -/

/-- The search finds the least value of the grid and its neighbours. -/
theorem valley_spec (g : Nat → ℝ) (ta tb : ℝ) :
    (valley g ta tb).isave < 50 ∧ (valley g ta tb).taumax = g (valley g ta tb).isave ∧ (∀ i, i < 50 → (valley g ta tb).taumax ≤ g i) ∧
    (valley g ta tb).tempa = g (((valley g ta tb).isave + 49) % 50) ∧ (valley g ta tb).tempb = g (((valley g ta tb).isave + 1) % 50) := by
  unfold valley
  dsimp only
  have key := up_inv (fun m (t : Peak ℝ) => t.isave ≤ m ∧ t.taumax = g t.isave ∧ (∀ i, i ≤ m → t.taumax ≤ g i) ∧ t.tauold = g m ∧
      (1 ≤ t.isave → t.tempa = g (t.isave - 1)) ∧ (t.isave + 1 ≤ m → t.tempb = g (t.isave + 1))) 49
    (body := fun i (t : Peak ℝ) => ({ (if g i < t.taumax then { t with taumax := g i, isave := i, tempa := t.tauold }
      else if i = t.isave + 1 then { t with tempb := g i } else t) with tauold := g i } : Peak ℝ)) (s := ⟨g 0, 0, ta, tb, g 0⟩)
    ⟨le_refl _, rfl, fun i hi => by rw [Nat.le_zero.mp hi], rfl, fun h => by simp at h, fun h => by simp at h⟩ (by
      intro m hm t ⟨h1, h2, h3, h4, h5, h6⟩
      split_ifs with c1 c2
      · refine ⟨le_refl _, rfl, fun i hi => ?_, rfl, fun _ => h4, fun w => absurd w (by show ¬ m + 1 + 1 ≤ m + 1; omega)⟩
        by_cases e : i = m + 1
        · rw [e]
        · exact le_trans c1.le (h3 i (by omega))
      all_goals
        have hn : ∀ i, i ≤ m + 1 → t.taumax ≤ g i := by
          intro i hi
          by_cases e : i = m + 1
          · rw [e]; exact not_lt.mp c1
          · exact h3 i (by omega)
      · exact ⟨by show t.isave ≤ m + 1; omega, h2, hn, rfl, h5, fun _ => by show g (m + 1) = g (t.isave + 1); rw [c2]⟩
      · exact ⟨by show t.isave ≤ m + 1; omega, h2, hn, rfl, h5, fun w => h6 (by have w : t.isave + 1 ≤ m + 1 := w; omega)⟩)
  generalize up 49 _ _ = t at key ⊢
  obtain ⟨h1, h2, h3, h4, h5, h6⟩ := key
  have h3' : ∀ i, i < 50 → t.taumax ≤ g i := fun i hi => h3 i (by omega)
  by_cases c1 : t.isave = 0
  · rw [if_pos c1, if_neg (show ¬ t.isave = 49 by omega)]
    refine ⟨by show t.isave < 50; omega, h2, h3', ?_, ?_⟩
    · show t.tauold = g ((t.isave + 49) % 50)
      rw [h4, c1]
    · show t.tempb = g ((t.isave + 1) % 50)
      rw [h6 (by omega), c1]
  · rw [if_neg c1]
    have ea : t.tempa = g ((t.isave + 49) % 50) := by
      rw [h5 (by omega)]
      congr 1
      omega
    by_cases c2 : t.isave = 49
    · rw [if_pos c2]
      refine ⟨by show t.isave < 50; omega, h2, h3', ea, ?_⟩
      show g 0 = g ((t.isave + 1) % 50)
      rw [c2]
    · rw [if_neg c2]
      refine ⟨by omega, h2, h3', ea, ?_⟩
      rw [h6 (by omega)]
      congr 1
      omega

theorem wave_period (c1 c2 c3 c4 c5 t : ℝ) (m : ℕ) : wave c1 c2 c3 c4 c5 (t + m * (2 * Real.pi)) = wave c1 c2 c3 c4 c5 t := by
  unfold wave
  rw [Real.cos_add_nat_mul_two_pi, Real.sin_add_nat_mul_two_pi]

/-- The values of the grid, `src/newuoa.c:2599-2603`. -/
noncomputable def grid (A B C E : ℝ) (i : Nat) : ℝ :=
  if i = 0 then A + C else (A + C * realTrig.tcos i) * realTrig.tcos i + (B + E * realTrig.tcos i) * realTrig.tsin i

theorem grid_eq (A B C E : ℝ) (i : Nat) : grid A B C E i = wave 0 A B C E (i * (2 * Real.pi / 50)) := by
  unfold grid wave
  by_cases c : i = 0
  · rw [if_pos c, c]
    simp
  · rw [if_neg c]
    show (A + C * Real.cos _) * Real.cos _ + (B + E * Real.cos _) * Real.sin _ = _
    ring

/-- The angle that is chosen: the function is not larger than at the angle zero, but for a small multiple of the amplitude
of the terms of the gradient. -/
theorem chosen_angle (A B C E : ℝ) {R : ℝ} (hR : 0 ≤ R) (h : A ^ 2 + B ^ 2 ≤ R ^ 2) (ta tb : ℝ) :
    ∃ r, refined (valley (grid A B C E) ta tb).tempa (valley (grid A B C E) ta tb).taumax (valley (grid A B C E) ta tb).tempb = some r ∧
      wave 0 A B C E (realTrig.step * (realTrig.ofNat (valley (grid A B C E) ta tb).isave + r)) ≤ A + C + R * (4 / 10000) := by
  obtain ⟨i1, i2, i3, i4, i5⟩ := valley_spec (grid A B C E) ta tb
  have k0 : (valley (grid A B C E) ta tb).taumax ≤ A + C := i3 0 (by omega)
  have ka : (valley (grid A B C E) ta tb).taumax ≤ (valley (grid A B C E) ta tb).tempa := by rw [i4]; exact i3 _ (Nat.mod_lt _ (by omega))
  have kb : (valley (grid A B C E) ta tb).taumax ≤ (valley (grid A B C E) ta tb).tempb := by rw [i5]; exact i3 _ (Nat.mod_lt _ (by omega))
  generalize valley (grid A B C E) ta tb = v at *
  refine ⟨refinement v.tempa v.taumax v.tempb, ?_, ?_⟩
  · unfold refined
    rw [if_neg]
    rintro ⟨q1, q2⟩
    rw [ExactMath.lit_eq] at q2
    have q3 : v.tempa - v.taumax + (v.tempb - v.taumax) = 0 := by
      rcases mul_eq_zero.mp q2 with q | q
      · norm_num at q
      · exact q
    exact q1 (by linarith)
  · obtain ⟨k, P, S, X, Y, e1, e2⟩ := trig_wave A B C E (v.isave * (2 * Real.pi / 50))
    have f0 : v.taumax = trig k P S X Y 0 := by rw [i2, grid_eq, ← e2, add_zero]
    have fb : v.tempb = trig k P S X Y (2 * Real.pi / 50) := by
      rw [i5, grid_eq, ← e2]
      by_cases c : v.isave = 49
      · rw [c]
        have := wave_period 0 A B C E 0 1
        norm_num at this ⊢
        rw [← this]
        congr 1
        ring
      · rw [Nat.mod_eq_of_lt (by omega)]
        congr 1
        push_cast
        ring
    have fa : v.tempa = trig k P S X Y (-(2 * Real.pi / 50)) := by
      rw [i4, grid_eq, ← e2]
      by_cases c : v.isave = 0
      · rw [c]
        have := wave_period 0 A B C E (-(2 * Real.pi / 50)) 1
        norm_num at this ⊢
        rw [← this]
        congr 1
        ring
      · rw [show (v.isave + 49) % 50 = v.isave - 1 by omega]
        congr 1
        rw [Nat.cast_sub (by omega)]
        push_cast
        ring
    have main := trig_refined (k := k) (X := X) (Y := Y) grid_step hR (by rw [e1]; exact h) (by rw [← f0, ← fa]; exact ka) (by rw [← f0, ← fb]; exact kb)
    rw [← f0, ← fa, ← fb, ← e2] at main
    refine le_trans (le_of_eq ?_) (le_trans main (by linarith))
    congr 1
    show 2 * Real.pi / 50 * ((v.isave : ℝ) + _) = _
    ring

end Opk.Newuoa
