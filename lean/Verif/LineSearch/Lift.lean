import Verif.LineSearch.Ends
/-! # The Moré and Thuente line search with real numbers

The numbers computed by the search are all defined when `4 ftol ≤ gtol`, hence the results about real numbers with an undefined value also hold for real
numbers (where a division by zero or the square root of a negative number would be zero). -/
set_option linter.unusedSectionVars false
namespace Opk.LineSearch
open Num

theorem ite_lt_val (a b x y : ℝ) {i : Decidable (Num.val a < Num.val b)} :
    (@ite _ (Num.val a < Num.val b) i (Num.val x) (Num.val y)) = Num.val (if a < b then x else y) := by
  by_cases c : a < b
  · rw [if_pos c]
    exact if_pos c
  · rw [if_neg c]
    exact if_neg c

theorem max3_real (x y z : ℝ) : max3 x y z = max (max x y) z := by
  unfold max3
  dsimp only
  have key : ∀ a b : ℝ, (if b > a then b else a) = max a b := by
    intro a b
    by_cases h : b > a
    · rw [if_pos h, max_eq_right h.le]
    · rw [if_neg h, max_eq_left (not_lt.mp h)]
  rw [key, key]

theorem cubicGamma_real {theta d1 d2 : ℝ} (h : d1 ≠ 0 ∨ d2 ≠ 0) (hr : 0 ≤ theta * theta - d1 * d2) :
    cubicGamma theta d1 d2 = Real.sqrt (theta * theta - d1 * d2) := by
  unfold cubicGamma
  dsimp only
  rw [max3_real]
  have hs := scale_pos (theta := theta) h
  show max (max |theta| |d1|) |d2| * Real.sqrt _ = _
  change _ * Real.sqrt (theta / max (max |theta| |d1|) |d2| * (theta / max (max |theta| |d1|) |d2|) - d1 / max (max |theta| |d1|) |d2| * (d2 / max (max |theta| |d1|) |d2|)) = _
  generalize max (max |theta| |d1|) |d2| = s at *
  rw [scale_radicand hs, scaled_sqrt hs hr]

theorem cubicGamma_lift {theta d1 d2 : ℝ} (h : d1 ≠ 0 ∨ d2 ≠ 0) (hr : 0 ≤ theta * theta - d1 * d2) :
    cubicGamma (Num.val theta) (.val d1) (.val d2) = .val (cubicGamma theta d1 d2) := by
  rw [cubicGamma_val h hr, cubicGamma_real h hr]

theorem cstep1_lift {stx fx dx stp fp dp : ℝ} (hd : dx * (stp - stx) < 0) (hf : fx < fp) :
    cstep1 (Num.val stx) (.val fx) (.val dx) (.val stp) (.val fp) (.val dp) = .val (cstep1 stx fx dx stp fp dp) := by
  have hh : stp - stx ≠ 0 := by intro e; rw [e] at hd; simp at hd
  have hD : (4 * (3 * (fx - fp) / (stp - stx)) + 3 * dx) * (stp - stx) ≤ 0 := by
    rw [add_mul, mul_assoc, div_mul_cancel₀ _ hh]; linarith
  have hD' : (fx - fp) / (stp - stx) * (stp - stx) < 0 := by
    rw [div_mul_cancel₀ _ hh]; linarith
  obtain ⟨w, hg⟩ := cubic_ratio (dp := dp) hd hD
  have hdx : dx ≠ 0 := by rintro rfl; simp at hd
  have hq2 : (fx - fp) / (stp - stx) + dx ≠ 0 := by
    intro e
    have : ((fx - fp) / (stp - stx) + dx) * (stp - stx) < 0 := by rw [add_mul]; linarith
    rw [e] at this; simp at this
  have hc := cubicGamma_real (Or.inl hdx) w
  obtain ⟨g, hge⟩ : ∃ g, g = (if stp < stx then -cubicGamma (3 * (fx - fp) / (stp - stx) + dx + dp) dx dp
    else cubicGamma (3 * (fx - fp) / (stp - stx) + dx + dp) dx dp) := ⟨_, rfl⟩
  obtain ⟨q0, -, -⟩ := hg g (by rw [hge, hc]; simp only [sub_neg])
  have h3 : (lit 3 1 : ℝ) = 3 := by show ((3 : ℕ) : ℝ) / ((1 : ℕ) : ℝ) = 3; norm_num
  have h2 : (lit 2 1 : ℝ) = 2 := by show ((2 : ℕ) : ℝ) / ((1 : ℕ) : ℝ) = 2; norm_num
  unfold cstep1
  dsimp only
  rw [h3, h2, ← hge]
  simp only [lit_val, Num.val_sub, Num.val_mul, Num.val_add, Nat.cast_one, div_one, Nat.cast_ofNat,
    Num.val_div hh, cubicGamma_lift (Or.inl hdx) w, Num.val_neg]
  have hgv : (if Num.val stp < Num.val stx then Num.val (-cubicGamma (3 * (fx - fp) / (stp - stx) + dx + dp) dx dp)
    else Num.val (cubicGamma (3 * (fx - fp) / (stp - stx) + dx + dp) dx dp)) = Num.val g := by
    rw [hge]
    exact ite_val _ _ _
  simp only [hgv, Num.val_sub, Num.val_add, Num.val_div q0, Num.val_mul, Num.val_div hq2,
    Num.val_div (two_ne_zero' ℝ), fabs_val]
  exact ite_val _ _ _

theorem cstep2_lift {stx fx dx stp fp dp : ℝ} (hd : dx * (stp - stx) < 0) (hf : fp ≤ fx)
    (ho : 0 < dp * (stp - stx)) :
    cstep2 (Num.val stx) (.val fx) (.val dx) (.val stp) (.val fp) (.val dp) = .val (cstep2 stx fx dx stp fp dp) := by
  have hh : stp - stx ≠ 0 := by intro e; rw [e] at hd; simp at hd
  have hD : 0 ≤ 3 * (fx - fp) / (stp - stx) * (stp - stx) := by
    rw [div_mul_cancel₀ _ hh]; linarith
  obtain ⟨w, hg⟩ := cubic_ratio2 hd ho hD
  have hdx : dx ≠ 0 := by rintro rfl; simp at hd
  have hsub : dp - dx ≠ 0 := by
    intro e
    have : dp = dx := by linarith
    rw [this] at ho; linarith
  have hc := cubicGamma_real (Or.inl hdx) w
  obtain ⟨g, hge⟩ : ∃ g, g = (if stp > stx then -cubicGamma (3 * (fx - fp) / (stp - stx) + dx + dp) dx dp
    else cubicGamma (3 * (fx - fp) / (stp - stx) + dx + dp) dx dp) := ⟨_, rfl⟩
  obtain ⟨q0, -, -⟩ := hg g (by rw [hge, hc]; simp only [sub_pos, gt_iff_lt])
  have h3 : (lit 3 1 : ℝ) = 3 := by show ((3 : ℕ) : ℝ) / ((1 : ℕ) : ℝ) = 3; norm_num
  unfold cstep2
  dsimp only
  rw [h3, ← hge]
  simp only [lit_val, Num.val_sub, Num.val_mul, Num.val_add, Nat.cast_one, div_one, Nat.cast_ofNat,
    Num.val_div hh, cubicGamma_lift (Or.inl hdx) w, Num.val_neg]
  have hgv : (if Num.val stp > Num.val stx then Num.val (-cubicGamma (3 * (fx - fp) / (stp - stx) + dx + dp) dx dp)
    else Num.val (cubicGamma (3 * (fx - fp) / (stp - stx) + dx + dp) dx dp)) = Num.val g := by
    rw [hge]
    exact ite_val _ _ _
  simp only [hgv, Num.val_sub, Num.val_add, Num.val_div q0, Num.val_mul, Num.val_div hsub, fabs_val]
  exact ite_val _ _ _

theorem cstep4_lift {stx sty fy dy stp fp dp stpmin stpmax : ℝ} (hd : dp * (sty - stp) < 0)
    (hf : 4 * (fp - fy) + dp * (sty - stp) ≤ 0) :
    cstep4 true (Num.val stx) (.val sty) (.val fy) (.val dy) (.val stp) (.val fp) (.val dp) (.val stpmin) (.val stpmax) =
      .val (cstep4 true stx sty fy dy stp fp dp stpmin stpmax) := by
  have hh : sty - stp ≠ 0 := by intro e; rw [e] at hd; simp at hd
  have hD : (4 * (3 * (fp - fy) / (sty - stp)) + 3 * dp) * (sty - stp) ≤ 0 := by
    rw [add_mul, mul_assoc, div_mul_cancel₀ _ hh]; linarith
  obtain ⟨w, hg⟩ := cubic_ratio (dp := dy) hd hD
  have hdp : dp ≠ 0 := by rintro rfl; simp at hd
  have e1 : 3 * (fp - fy) / (sty - stp) + dp + dy = 3 * (fp - fy) / (sty - stp) + dy + dp := by ring
  have e2 : dp * dy = dy * dp := by ring
  rw [e1, e2] at w hg
  have hc := cubicGamma_real (Or.inr hdp) w
  obtain ⟨g, hge⟩ : ∃ g, g = (if stp > sty then -cubicGamma (3 * (fp - fy) / (sty - stp) + dy + dp) dy dp
    else cubicGamma (3 * (fp - fy) / (sty - stp) + dy + dp) dy dp) := ⟨_, rfl⟩
  obtain ⟨q0, -, -⟩ := hg g (by rw [hge, hc]; simp only [sub_neg, gt_iff_lt])
  have h3 : (lit 3 1 : ℝ) = 3 := by show ((3 : ℕ) : ℝ) / ((1 : ℕ) : ℝ) = 3; norm_num
  unfold cstep4
  rw [if_pos rfl, if_pos rfl]
  dsimp only
  rw [h3, ← hge]
  simp only [lit_val, Num.val_sub, Num.val_mul, Num.val_add, Nat.cast_one, div_one, Nat.cast_ofNat,
    Num.val_div hh, cubicGamma_lift (Or.inr hdp) w, Num.val_neg]
  have hgv : (if Num.val stp > Num.val sty then Num.val (-cubicGamma (3 * (fp - fy) / (sty - stp) + dy + dp) dy dp)
    else Num.val (cubicGamma (3 * (fp - fy) / (sty - stp) + dy + dp) dy dp)) = Num.val g := by
    rw [hge]
    exact ite_val _ _ _
  simp only [hgv, Num.val_sub, Num.val_add, Num.val_div q0, Num.val_mul]

theorem cstep4_free_lift {stx sty fy dy stp fp dp stpmin stpmax : ℝ} :
    cstep4 false (Num.val stx) (.val sty) (.val fy) (.val dy) (.val stp) (.val fp) (.val dp) (.val stpmin) (.val stpmax) =
      .val (cstep4 false stx sty fy dy stp fp dp stpmin stpmax) := by
  unfold cstep4
  rw [if_neg Bool.false_ne_true, if_neg Bool.false_ne_true]
  exact ite_lt_val _ _ _ _

theorem cubicGamma3_lift {stx stp theta dx dp : ℝ} (hdx : dx ≠ 0) :
    cubicGamma3 (Num.val stx) (.val stp) (.val theta) (.val dx) (.val dp) = .val (cubicGamma3 stx stp theta dx dp) := by
  have hspos := scale_pos (theta := theta) (d2 := dp) (Or.inl hdx)
  unfold cubicGamma3
  simp only [fabs_val, max3_val, max3_real]
  show _ = Num.val (if theta / max (max |theta| |dx|) |dp| * (theta / max (max |theta| |dx|) |dp|) - dx / max (max |theta| |dx|) |dp| * (dp / max (max |theta| |dx|) |dp|) > 0 then
    (if stp > stx then -(max (max |theta| |dx|) |dp| * Real.sqrt (theta / max (max |theta| |dx|) |dp| * (theta / max (max |theta| |dx|) |dp|) - dx / max (max |theta| |dx|) |dp| * (dp / max (max |theta| |dx|) |dp|)))
      else max (max |theta| |dx|) |dp| * Real.sqrt (theta / max (max |theta| |dx|) |dp| * (theta / max (max |theta| |dx|) |dp|) - dx / max (max |theta| |dx|) |dp| * (dp / max (max |theta| |dx|) |dp|))) else 0)
  generalize max (max |theta| |dx|) |dp| = s at *
  have hs' : s ≠ 0 := hspos.ne'
  rw [Num.val_div hs', Num.val_div hs', Num.val_div hs', Num.val_mul, Num.val_mul, Num.val_sub]
  by_cases ht : (theta / s * (theta / s) - dx / s * (dp / s)) > 0
  · rw [if_pos (show Num.val (theta / s * (theta / s) - dx / s * (dp / s)) > (0 : Num ℝ) from ht), if_pos ht,
      sqrt_val ht.le, Num.val_mul, Num.val_neg]
    exact ite_val _ _ _
  · rw [if_neg (show ¬ Num.val (theta / s * (theta / s) - dx / s * (dp / s)) > (0 : Num ℝ) from ht), if_neg ht]
    rfl

theorem cubicGamma3_sign (stx stp theta dx dp : ℝ) : cubicGamma3 stx stp theta dx dp * (stp - stx) ≤ 0 := by
  unfold cubicGamma3
  dsimp only
  have h0 : 0 ≤ max3 (fabs theta) (fabs dx) (fabs dp) * sqrt (theta / max3 (fabs theta) (fabs dx) (fabs dp) * (theta / max3 (fabs theta) (fabs dx) (fabs dp)) -
      dx / max3 (fabs theta) (fabs dx) (fabs dp) * (dp / max3 (fabs theta) (fabs dx) (fabs dp))) := by
    refine mul_nonneg ?_ (Real.sqrt_nonneg _)
    rw [max3_real]
    exact (abs_nonneg theta).trans ((le_max_left _ _).trans (le_max_left _ _))
  generalize max3 (fabs theta) (fabs dx) (fabs dp) * sqrt _ = q at *
  split_ifs with c1 c2
  · nlinarith
  · nlinarith
  · simp

theorem cstep3_lift (brackt : Bool) {stx fx dx sty stp fp dp stpmin stpmax : ℝ}
    (hd : dx * (stp - stx) < 0) (ho : dp * (stp - stx) ≤ 0) (ha : |dp| < |dx|) :
    cstep3 brackt (Num.val stx) (.val fx) (.val dx) (.val sty) (.val stp) (.val fp) (.val dp) (.val stpmin) (.val stpmax) =
      .val (cstep3 brackt stx fx dx sty stp fp dp stpmin stpmax) := by
  have hh : stp - stx ≠ 0 := by intro e; rw [e] at hd; simp at hd
  have hdx : dx ≠ 0 := by rintro rfl; simp at hd
  have hgap : (dx - dp) * (stp - stx) < 0 := by
    rcases lt_or_gt_of_ne hh with h | h
    · have h1 : 0 < dx := by by_contra hn; nlinarith
      have h2 : 0 ≤ dp := by by_contra hn; nlinarith
      rw [abs_of_nonneg h2, abs_of_pos h1] at ha
      nlinarith
    · have h1 : dx < 0 := by by_contra hn; nlinarith
      have h2 : dp ≤ 0 := by by_contra hn; nlinarith
      rw [abs_of_nonpos h2, abs_of_neg h1] at ha
      nlinarith
  have hsub : dp - dx ≠ 0 := by
    intro e
    have : dx - dp = 0 := by linarith
    rw [this] at hgap; simp at hgap
  have h3 : (lit 3 1 : ℝ) = 3 := by show ((3 : ℕ) : ℝ) / ((1 : ℕ) : ℝ) = 3; norm_num
  have h66 : (lit 66 100 : ℝ) = 66 / 100 := by show ((66 : ℕ) : ℝ) / ((100 : ℕ) : ℝ) = _; norm_num
  unfold cstep3
  dsimp only
  rw [h3, h66]
  have hgs := cubicGamma3_sign stx stp (3 * (fx - fp) / (stp - stx) + dx + dp) dx dp
  simp only [lit_val, Num.val_sub, Num.val_mul, Num.val_add, Nat.cast_one, div_one, Nat.cast_ofNat,
    Num.val_div hh, cubicGamma3_lift hdx]
  generalize cubicGamma3 stx stp (3 * (fx - fp) / (stp - stx) + dx + dp) dx dp = g at *
  have hq0 : g + (dx - dp) + g ≠ 0 := by
    intro e
    have : (g + (dx - dp) + g) * (stp - stx) < 0 := by
      have : (g + (dx - dp) + g) * (stp - stx) = 2 * (g * (stp - stx)) + (dx - dp) * (stp - stx) := by ring
      linarith
    rw [e] at this; simp at this
  simp only [Num.val_sub, Num.val_add, Num.val_div hq0, Num.val_mul, Num.val_div hsub, fabs_val]
  generalize (g - dp + (3 * (fx - fp) / (stp - stx) + dx + dp)) / (g + (dx - dp) + g) = r
  have hstpc : (if Num.val r < 0 ∧ (!Num.val g == 0) = true then Num.val (stp + r * (stx - stp)) else if Num.val stp > Num.val stx then Num.val stpmax else Num.val stpmin) =
      Num.val (if r < 0 ∧ (!g == 0) = true then stp + r * (stx - stp) else if stp > stx then stpmax else stpmin) := by
    have hbe : (Num.val g == 0) = (g == 0) := rfl
    by_cases c : r < 0 ∧ (!g == 0) = true
    · rw [if_pos (show Num.val r < 0 ∧ (!Num.val g == 0) = true from c), if_pos c]
    · rw [if_neg (show ¬ (Num.val r < 0 ∧ (!Num.val g == 0) = true) from c), if_neg c]
      exact ite_val _ _ _
  rw [hstpc]
  generalize (if r < 0 ∧ (!g == 0) = true then stp + r * (stx - stp) else if stp > stx then stpmax else stpmin) = stpc
  generalize dp / (dp - dx) * (stx - stp) = u
  have f1 : ∀ x : ℝ, fabs x = |x| := fun _ => rfl
  simp only [f1, fabs_val, Num.val_sub]
  cases brackt with
  | true =>
    generalize stp + 66 / 100 * (sty - stp) = v
    have key : ∀ T : Num ℝ, T = (if Num.val |stpc - stp| < Num.val |stp + u - stp| then Num.val stpc else Num.val (stp + u)) →
        (if (if Num.val stx < Num.val stp then Num.val v < T else T < Num.val v) then Num.val v else T) =
        Num.val (if (if stx < stp then v < (if |stpc - stp| < |stp + u - stp| then stpc else stp + u) else
          (if |stpc - stp| < |stp + u - stp| then stpc else stp + u) < v) then v else (if |stpc - stp| < |stp + u - stp| then stpc else stp + u)) := by
      rintro T rfl
      rw [ite_lt_val]
      generalize (if |stpc - stp| < |stp + u - stp| then stpc else stp + u) = t
      by_cases c : (if stx < stp then v < t else t < v)
      · rw [if_pos c]
        refine if_pos ?_
        by_cases c2 : stx < stp
        · rw [if_pos c2] at c
          exact (if_pos (show Num.val stx < Num.val stp from c2)).mpr c
        · rw [if_neg c2] at c
          exact (if_neg (show ¬ Num.val stx < Num.val stp from c2)).mpr c
      · rw [if_neg c]
        refine if_neg ?_
        by_cases c2 : stx < stp
        · rw [if_pos c2] at c
          exact fun q => c ((if_pos (show Num.val stx < Num.val stp from c2)).mp q)
        · rw [if_neg c2] at c
          exact fun q => c ((if_neg (show ¬ Num.val stx < Num.val stp from c2)).mp q)
    exact key _ rfl
  | false =>
    simp only [Bool.false_eq_true, if_false, gt_iff_lt, ite_lt_val]

/-- The cases of `opk_cstep` for real numbers. -/
theorem cstep_real (b : Bracket ℝ) (stp fp dp stpmin stpmax : ℝ) (h1 : stpmin ≤ stpmax) (h2 : b.dx * (stp - b.stx) < 0)
    (h3 : b.brackt = true → min b.stx b.sty < stp ∧ stp < max b.stx b.sty) :
    cstep b stp fp dp stpmin stpmax =
      (if fp > b.fx then
        (.success, { b with sty := stp, fy := fp, dy := dp, brackt := true }, cstep1 b.stx b.fx b.dx stp fp dp)
      else if dp * b.dx < 0 then
        (.success, { stx := stp, fx := fp, dx := dp, sty := b.stx, fy := b.fx, dy := b.dx, brackt := true },
          cstep2 b.stx b.fx b.dx stp fp dp)
      else
        (.success, { b with stx := stp, fx := fp, dx := dp },
          if |dp| < |b.dx| then cstep3 b.brackt b.stx b.fx b.dx b.sty stp fp dp stpmin stpmax
          else cstep4 b.brackt b.stx b.sty b.fy b.dy stp fp dp stpmin stpmax)) := by
  unfold cstep
  rw [if_neg, if_neg (not_le.mpr h2), if_neg (not_lt.mpr h1)]
  · have ho : ((dp < 0 ∧ 0 < b.dx) ∨ (0 < dp ∧ b.dx < 0)) ↔ dp * b.dx < 0 := by
      rw [mul_neg_iff]; tauto
    by_cases h5 : b.fx < fp
    · rw [if_pos h5, if_pos h5]
    · rw [if_neg h5, if_neg h5]
      by_cases h6 : dp * b.dx < 0
      · rw [if_pos h6]
        exact if_pos (by simpa using ho.mpr h6)
      · rw [if_neg h6]
        exact if_neg (by simpa using fun h => h6 (ho.mp h))
  · rintro ⟨hb, ho⟩
    obtain ⟨i1, i2⟩ := h3 hb
    split at ho
    · rename_i q
      rw [min_eq_left q.le] at i1
      rw [max_eq_right q.le] at i2
      rcases ho with w | w
      · exact absurd w (not_le.mpr i1)
      · exact absurd w (not_le.mpr i2)
    · rename_i q
      rw [min_eq_right (not_lt.mp q)] at i1
      rw [max_eq_left (not_lt.mp q)] at i2
      rcases ho with w | w
      · exact absurd w (not_le.mpr i1)
      · exact absurd w (not_le.mpr i2)

/-- The numbers of `opk_cstep` are defined. -/
theorem cstep_lift (b : Bracket ℝ) (stp fp dp stpmin stpmax : ℝ) (h1 : stpmin ≤ stpmax) (h2 : b.dx * (stp - b.stx) < 0)
    (h3 : b.brackt = true → min b.stx b.sty < stp ∧ stp < max b.stx b.sty)
    (h4 : b.brackt = true → fp ≤ b.fx → ¬ dp * b.dx < 0 → dp ≠ 0 → dp * (b.sty - stp) < 0 ∧ 4 * (fp - b.fy) + dp * (b.sty - stp) ≤ 0) :
    cstep b.val (.val stp) (.val fp) (.val dp) (.val stpmin) (.val stpmax) =
      ((cstep b stp fp dp stpmin stpmax).1, (cstep b stp fp dp stpmin stpmax).2.1.val, .val (cstep b stp fp dp stpmin stpmax).2.2) := by
  rw [cstep_cases b stp fp dp stpmin stpmax h1 h2 h3, cstep_real b stp fp dp stpmin stpmax h1 h2 h3]
  have hh : stp - b.stx ≠ 0 := by intro e; rw [e] at h2; simp at h2
  by_cases c1 : fp > b.fx
  · rw [if_pos c1, if_pos c1, cstep1_lift h2 c1]
  rw [if_neg c1, if_neg c1]
  have c1 := not_lt.mp c1
  by_cases c2 : dp * b.dx < 0
  · rw [if_pos c2, if_pos c2, cstep2_lift h2 c1]
    rcases lt_or_gt_of_ne hh with q | q
    · have w : 0 < b.dx := by by_contra hn; nlinarith
      have : dp < 0 := by by_contra hn; nlinarith
      exact mul_pos_of_neg_of_neg this q
    · have w : b.dx < 0 := by by_contra hn; nlinarith
      have : 0 < dp := by by_contra hn; nlinarith
      exact mul_pos this q
  rw [if_neg c2, if_neg c2]
  have ho : dp * (stp - b.stx) ≤ 0 := by
    rcases lt_or_gt_of_ne hh with q | q
    · have w : 0 < b.dx := by by_contra hn; nlinarith
      have : 0 ≤ dp := by by_contra hn; nlinarith
      nlinarith
    · have w : b.dx < 0 := by by_contra hn; nlinarith
      have : dp ≤ 0 := by by_contra hn; nlinarith
      nlinarith
  by_cases c3 : |dp| < |b.dx|
  · rw [if_pos c3, if_pos c3, cstep3_lift b.brackt h2 ho c3]
  rw [if_neg c3, if_neg c3]
  have hd0 : dp ≠ 0 := by
    rintro rfl
    rw [abs_zero] at c3
    have : b.dx = 0 := abs_eq_zero.mp (le_antisymm (not_lt.mp c3) (abs_nonneg _))
    rw [this] at h2
    simp at h2
  cases hb : b.brackt with
  | false => rw [cstep4_free_lift]
  | true =>
    obtain ⟨w1, w2⟩ := h4 hb c1 c2 hd0
    rw [cstep4_lift w1 w2]

/-- The end of an iteration. -/
theorem csrchNext_lift (a b : ℝ) (c : Csrch ℝ) (s : ℝ) :
    csrchNext (.val a) (.val b) c.val (.val s) = ((csrchNext a b c s).1.val, .val (csrchNext a b c s).2) := by
  have m1 : ∀ x y : ℝ, cmin x y = min x y := by
    intro x y
    unfold cmin
    by_cases h : x ≤ y
    · rw [if_pos h, min_eq_left h]
    · rw [if_neg h, min_eq_right (not_le.mp h).le]
  have m2 : ∀ x y : ℝ, cmax x y = max x y := by
    intro x y
    unfold cmax
    by_cases h : x ≥ y
    · rw [if_pos h, max_eq_left h]
    · rw [if_neg h, max_eq_right (not_le.mp h).le]
  cases hb : c.b.brackt with
  | false =>
    rw [next_free a b c s hb]
    unfold csrchNext
    rw [hb, if_neg Bool.false_ne_true, m1, m2]
    rfl
  | true =>
    obtain ⟨t, e, t1, t2⟩ := next_bracketed a b c (.val s) hb
    rw [e]
    unfold csrchNext
    rw [hb, if_pos rfl]
    dsimp only
    rw [m1, m2, m1, m2]
    refine Prod.ext rfl (congrArg Num.val ?_)
    have h66 : (lit 66 100 : ℝ) = 66 / 100 := by show ((66 : ℕ) : ℝ) / ((100 : ℕ) : ℝ) = _; norm_num
    have h12 : (lit 1 2 : ℝ) = 1 / 2 := by show ((1 : ℕ) : ℝ) / ((2 : ℕ) : ℝ) = _; norm_num
    rw [h66, h12]
    have ht : (if fabs (c.b.sty - c.b.stx) ≥ 66 / 100 * c.width1 then c.b.stx + 1 / 2 * (c.b.sty - c.b.stx) else s) = t := by
      by_cases q : |c.b.sty - c.b.stx| ≥ 66 / 100 * c.width1
      · exact (if_pos q).trans (t1 q).symm
      · exact (if_neg q).trans (t2 q s rfl).symm
    rw [ht]
    rfl

theorem finish_lift (bnd : Int) (ls : Ls ℝ (Csrch ℝ)) (s : ℝ) :
    finish bnd ls.val (.val s) = ((finish bnd ls s).1.val, .val (finish bnd ls s).2) := by
  unfold finish
  by_cases h1 : s ≤ ls.stpmin
  · rw [if_pos (show Num.val s ≤ ls.val.stpmin from h1), if_pos h1]
    by_cases h2 : bnd < 0
    · rw [if_pos h2, if_pos h2]; rfl
    · rw [if_neg h2, if_neg h2]; rfl
  · rw [if_neg (show ¬ Num.val s ≤ ls.val.stpmin from h1), if_neg h1]
    by_cases h2 : s ≥ ls.stpmax
    · rw [if_pos (show Num.val s ≥ ls.val.stpmax from h2), if_pos h2]
      by_cases h3 : bnd > 0
      · rw [if_pos h3, if_pos h3]; rfl
      · rw [if_neg h3, if_neg h3]; rfl
    · rw [if_neg (show ¬ Num.val s ≥ ls.val.stpmax from h2), if_neg h2]; rfl

theorem boundOf_lift (ls : Ls ℝ (Csrch ℝ)) : boundOf ls.val = boundOf ls := by
  unfold boundOf
  by_cases h1 : ls.stp ≤ ls.stpmin
  · exact (if_pos (show ls.val.stp ≤ ls.val.stpmin from h1)).trans (if_pos h1).symm
  · refine (if_neg (show ¬ ls.val.stp ≤ ls.val.stpmin from h1)).trans (Eq.trans ?_ (if_neg h1).symm)
    by_cases h2 : ls.stp ≥ ls.stpmax
    · exact (if_pos (show ls.val.stp ≥ ls.val.stpmax from h2)).trans (if_pos h2).symm
    · exact (if_neg (show ¬ ls.val.stp ≥ ls.val.stpmax from h2)).trans (if_neg h2).symm

/-- The call of `opk_cstep`. -/
theorem csrchCstep_lift (c : Csrch ℝ) (ft stp f g : ℝ)
    (h1 : c.stage = 1 ∧ f ≤ c.b.fx ∧ f > ft → cstep (Bracket.val { c.b with fx := c.b.fx - c.b.stx * c.gtest, fy := c.b.fy - c.b.sty * c.gtest, dx := c.b.dx - c.gtest, dy := c.b.dy - c.gtest })
      (.val stp) (.val (f - stp * c.gtest)) (.val (g - c.gtest)) (.val c.stmin) (.val c.stmax) =
      ((cstep { c.b with fx := c.b.fx - c.b.stx * c.gtest, fy := c.b.fy - c.b.sty * c.gtest, dx := c.b.dx - c.gtest, dy := c.b.dy - c.gtest } stp (f - stp * c.gtest) (g - c.gtest) c.stmin c.stmax).1,
        (cstep { c.b with fx := c.b.fx - c.b.stx * c.gtest, fy := c.b.fy - c.b.sty * c.gtest, dx := c.b.dx - c.gtest, dy := c.b.dy - c.gtest } stp (f - stp * c.gtest) (g - c.gtest) c.stmin c.stmax).2.1.val,
        .val (cstep { c.b with fx := c.b.fx - c.b.stx * c.gtest, fy := c.b.fy - c.b.sty * c.gtest, dx := c.b.dx - c.gtest, dy := c.b.dy - c.gtest } stp (f - stp * c.gtest) (g - c.gtest) c.stmin c.stmax).2.2))
    (h2 : ¬ (c.stage = 1 ∧ f ≤ c.b.fx ∧ f > ft) → cstep c.b.val (.val stp) (.val f) (.val g) (.val c.stmin) (.val c.stmax) =
      ((cstep c.b stp f g c.stmin c.stmax).1, (cstep c.b stp f g c.stmin c.stmax).2.1.val, .val (cstep c.b stp f g c.stmin c.stmax).2.2)) :
    csrchCstep c.val (.val ft) (.val stp) (.val f) (.val g) =
      ((csrchCstep c ft stp f g).1, (csrchCstep c ft stp f g).2.1.val, .val (csrchCstep c ft stp f g).2.2) := by
  by_cases cm : c.stage = 1 ∧ f ≤ c.b.fx ∧ f > ft
  · have e := h1 cm
    unfold csrchCstep
    rw [if_pos cm]
    refine (if_pos (show _ from cm)).trans ?_
    dsimp only
    generalize cstep { c.b with fx := c.b.fx - c.b.stx * c.gtest, fy := c.b.fy - c.b.sty * c.gtest, dx := c.b.dx - c.gtest, dy := c.b.dy - c.gtest } stp (f - stp * c.gtest) (g - c.gtest) c.stmin c.stmax = r at *
    change (fun r : Status × Bracket (Num ℝ) × Num ℝ => if r.1 ≠ .success then (r.1, c.val.b, Num.val stp) else
      (r.1, ({ r.2.1 with fx := r.2.1.fx + r.2.1.stx * .val c.gtest, fy := r.2.1.fy + r.2.1.sty * .val c.gtest, dx := r.2.1.dx + .val c.gtest, dy := r.2.1.dy + .val c.gtest } : Bracket (Num ℝ)), r.2.2))
      (cstep (Bracket.val { c.b with fx := c.b.fx - c.b.stx * c.gtest, fy := c.b.fy - c.b.sty * c.gtest, dx := c.b.dx - c.gtest, dy := c.b.dy - c.gtest })
        (.val stp) (.val (f - stp * c.gtest)) (.val (g - c.gtest)) (.val c.stmin) (.val c.stmax)) = _
    rw [e]
    dsimp only
    by_cases q : r.1 ≠ .success
    · rw [if_pos q, if_pos q]; rfl
    · rw [if_neg q, if_neg q]; rfl
  · unfold csrchCstep
    rw [if_neg cm]
    exact (if_neg (show _ from cm)).trans (h2 cm)

/-- The call of `opk_cstep` during a search: all the numbers are defined. -/
theorem core_lift (ls : Ls ℝ (Csrch ℝ)) (h : Inv ls) (h4 : 4 * ls.m.ftol ≤ ls.m.gtol) (f g : ℝ)
    (t0 : ¬ (f ≤ ls.finit + ls.stp * ls.m.gtest ∧ |g| ≤ -ls.m.gtol * ls.ginit))
    (t1 : ¬ (ls.stp = ls.stpmin ∧ (f > ls.finit + ls.stp * ls.m.gtest ∨ g ≥ ls.m.gtest)))
    (t4 : ¬ (ls.m.b.brackt = true ∧ (ls.stp ≤ ls.m.stmin ∨ ls.stp ≥ ls.m.stmax)))
    (k : ℕ) (hk : (if ls.m.stage = 1 ∧ f ≤ ls.finit + ls.stp * ls.m.gtest ∧ g ≥ 0 then 2 else ls.m.stage) = k) :
    csrchCstep (ls.m.atStage k).val (.val (ls.finit + ls.stp * ls.m.gtest)) (.val ls.stp) (.val f) (.val g) =
      ((csrchCstep (ls.m.atStage k) (ls.finit + ls.stp * ls.m.gtest) ls.stp f g).1, (csrchCstep (ls.m.atStage k) (ls.finit + ls.stp * ls.m.gtest) ls.stp f g).2.1.val,
        .val (csrchCstep (ls.m.atStage k) (ls.finit + ls.stp * ls.m.gtest) ls.stp f g).2.2) := by
  have gt0 : ls.m.gtest ≤ 0 := by rw [h.gt]; exact mul_nonpos_of_nonneg_of_nonpos h.f0 h.g0.le
  by_cases hx : ls.m.b.brackt = false → ls.m.b.stx < ls.stp
  swap
  · have hx := _root_.not_imp.mp hx
    have kf := h.kind
    cases kf with
    | first hb => rw [hx.1] at hb; cases hb
    | second hb => rw [hx.1] at hb; cases hb
    | free hb hs hx' hd hf hm hu =>
      have es : ls.stp = ls.stpmin := hx'.resolve_left hx.2
      have hge : 0 ≤ ls.m.b.dx * (ls.stp - ls.m.b.stx) :=
        mul_nonneg_of_nonpos_of_nonpos (by linarith) (by linarith [not_lt.mp hx.2])
      have c1 : csrchCstep (ls.m.atStage k).val (.val (ls.finit + ls.stp * ls.m.gtest)) (.val ls.stp) (.val f) (.val g) = (.notADescent, ls.m.b.val, .val ls.stp) := by
        refine (if_neg (fun q => t1 ⟨es, Or.inl q.2.2⟩)).trans ?_
        refine (if_neg (fun q => ?_)).trans (if_pos ?_)
        · have q : ls.m.b.brackt = true := q.1
          rw [hb] at q; cases q
        · exact hge
      have c2 : csrchCstep (ls.m.atStage k) (ls.finit + ls.stp * ls.m.gtest) ls.stp f g = (.notADescent, ls.m.b, ls.stp) := by
        refine (if_neg (fun q => t1 ⟨es, Or.inl q.2.2⟩)).trans ?_
        refine (if_neg (fun q => ?_)).trans (if_pos ?_)
        · have q : ls.m.b.brackt = true := q.1
          rw [hb] at q; cases q
        · exact hge
      rw [c1, c2]
  have t5 : ls.m.b.brackt = true → ls.m.stmin < ls.stp ∧ ls.stp < ls.m.stmax := by
    intro hb
    constructor
    · by_contra hn; exact t4 ⟨hb, Or.inl (not_lt.mp hn)⟩
    · by_contra hn; exact t4 ⟨hb, Or.inr (not_lt.mp hn)⟩
  have t6 : ls.m.b.brackt = true → min ls.m.b.stx ls.m.b.sty < ls.stp ∧ ls.stp < max ls.m.b.stx ls.m.b.sty := by
    intro hb
    have := t5 hb
    rw [(bracket_ends ls h hb).1, (bracket_ends ls h hb).2] at this
    exact this
  have kind := h.kind
  by_cases hs1 : ls.m.stage = 1
  · -- first stage
    obtain ⟨hm, hd, hf, hxx, hy⟩ : ls.m.stmin ≤ ls.m.stmax ∧ ls.m.b.dx < ls.m.gtest ∧ ls.m.b.fx ≤ ls.finit + ls.m.b.stx * ls.m.gtest ∧ ls.m.b.stx < ls.stp ∧
        (ls.m.b.brackt = true → ls.stp < ls.m.b.sty ∧ (ls.m.b.fx ≤ ls.m.b.fy ∨ ls.finit + ls.m.b.sty * ls.m.gtest ≤ ls.m.b.fy)) := by
      cases kind with
      | free hb hs hx' hd hf hm hu => exact ⟨hm, hd, hf, hx hb, fun q => by rw [hb] at q; cases q⟩
      | first hb hs hxy hd hf hy h1 h2 =>
        have t7 := t6 hb
        rw [min_eq_left hxy.le, max_eq_right hxy.le] at t7
        exact ⟨by have := t5 hb; linarith, hd, hf, t7.1, fun _ => ⟨t7.2, hy⟩⟩
      | second hb hs => exact absurd hs1 hs
    have hdn : ls.m.b.dx < 0 := by linarith
    refine csrchCstep_lift (ls.m.atStage k) _ _ _ _ (fun cm => ?_) (fun cm => ?_)
    · have hfm : ls.m.b.fx - ls.m.b.stx * ls.m.gtest < f - ls.stp * ls.m.gtest := by have := cm.2.2; linarith
      refine cstep_lift _ _ _ _ _ _ hm (mul_neg_of_neg_of_pos (show ls.m.b.dx - ls.m.gtest < 0 by linarith) (show 0 < ls.stp - ls.m.b.stx by linarith)) t6 fun _ q => ?_
      exact absurd hfm (not_lt.mpr q)
    · refine cstep_lift _ _ _ _ _ _ hm (mul_neg_of_neg_of_pos hdn (show 0 < ls.stp - ls.m.b.stx by linarith)) t6 fun hb q1 q2 q3 => ?_
      have hb : ls.m.b.brackt = true := hb
      have q1 : f ≤ ls.m.b.fx := q1
      have q2 : ¬ g * ls.m.b.dx < 0 := q2
      have gs : g < 0 := by
        refine lt_of_le_of_ne ?_ q3
        by_contra hn
        exact q2 (mul_neg_of_pos_of_neg (not_le.mp hn) hdn)
      have k1 : k = 1 := by rw [← hk, if_neg (fun q => absurd q.2.2 (not_le.mpr gs))]; exact hs1
      have hff : f ≤ ls.finit + ls.stp * ls.m.gtest := by
        by_contra hn
        exact cm ⟨k1, q1, not_le.mp hn⟩
      have big : -ls.m.gtol * ls.ginit < -g := by
        have : ¬ |g| ≤ -ls.m.gtol * ls.ginit := fun q => t0 ⟨hff, q⟩
        rw [abs_of_neg gs] at this
        exact not_le.mp this
      obtain ⟨y1, y2⟩ := hy hb
      refine ⟨mul_neg_of_neg_of_pos gs (show 0 < ls.m.b.sty - ls.stp by linarith), ?_⟩
      show 4 * (f - ls.m.b.fy) + g * (ls.m.b.sty - ls.stp) ≤ 0
      rcases y2 with q | q
      · have : g * (ls.m.b.sty - ls.stp) ≤ 0 := mul_nonpos_of_nonpos_of_nonneg gs.le (by linarith)
        linarith
      · have : g ≤ 4 * ls.m.gtest := by rw [h.gt]; have := h.g0; nlinarith
        have : g * (ls.m.b.sty - ls.stp) ≤ 4 * ls.m.gtest * (ls.m.b.sty - ls.stp) := mul_le_mul_of_nonneg_right this (by linarith)
        linarith
  · -- second stage
    cases kind with
    | free hb hs => exact absurd hs hs1
    | first hb hs => exact absurd hs hs1
    | second hb hs hd hf hr h1 h2 =>
      have k1 : k ≠ 1 := by rw [← hk, if_neg (fun q => hs q.1)]; exact hs
      have ins := t6 hb
      have sg : ls.m.b.dx < 0 ∧ ls.m.b.stx < ls.stp ∧ ls.stp < ls.m.b.sty ∨ 0 < ls.m.b.dx ∧ ls.stp < ls.m.b.stx ∧ ls.m.b.sty < ls.stp := by
        rcases le_total ls.m.b.stx ls.m.b.sty with q | q
        · rw [min_eq_left q, max_eq_right q] at ins
          have : ls.m.b.dx < 0 := by by_contra hn; nlinarith
          exact Or.inl ⟨this, ins.1, ins.2⟩
        · rw [min_eq_right q, max_eq_left q] at ins
          have : 0 < ls.m.b.dx := by by_contra hn; nlinarith
          exact Or.inr ⟨this, ins.2, ins.1⟩
      refine csrchCstep_lift (ls.m.atStage k) _ _ _ _ (fun cm => absurd cm.1 k1) (fun _ => ?_)
      refine cstep_lift _ _ _ _ _ _ (by have := t5 hb; show ls.m.stmin ≤ ls.m.stmax; linarith) ?_ t6 fun _ q1 q2 q3 => ?_
      · show ls.m.b.dx * (ls.stp - ls.m.b.stx) < 0
        rcases sg with ⟨a, b, -⟩ | ⟨a, b, -⟩
        · exact mul_neg_of_neg_of_pos a (by linarith)
        · exact mul_neg_of_pos_of_neg a (by linarith)
      · have q1 : f ≤ ls.m.b.fx := q1
        have q2 : ¬ g * ls.m.b.dx < 0 := q2
        have key : g * (ls.m.b.sty - ls.stp) < 0 := by
          rcases sg with ⟨a, -, b⟩ | ⟨a, -, b⟩
          · have : g < 0 := by
              refine lt_of_le_of_ne ?_ q3
              by_contra hn
              exact q2 (mul_neg_of_pos_of_neg (not_le.mp hn) a)
            exact mul_neg_of_neg_of_pos this (by linarith)
          · have : 0 < g := by
              refine lt_of_le_of_ne ?_ (Ne.symm q3)
              by_contra hn
              exact q2 (mul_neg_of_neg_of_pos (not_le.mp hn) a)
            exact mul_neg_of_pos_of_neg this (by linarith)
        refine ⟨key, ?_⟩
        show 4 * (f - ls.m.b.fy) + g * (ls.m.b.sty - ls.stp) ≤ 0
        linarith

/-- One iteration of the search: the real numbers and the numbers which are possibly undefined agree, provided `4 ftol ≤ gtol`. -/
theorem iterate_lift (ls : Ls ℝ (Csrch ℝ)) (h : Inv ls) (h4 : 4 * ls.m.ftol ≤ ls.m.gtol) (f g : ℝ) :
    (iterate csrchOps ls.val (.val ls.stp) (.val f) (.val g)).1 = (iterate csrchOps ls ls.stp f g).1.val := by
  have fin : ∀ (r : Ls (Num ℝ) (Csrch (Num ℝ)) × Num ℝ) (r' : Ls ℝ (Csrch ℝ) × ℝ), r = (r'.1.val, .val r'.2) →
      (finish (boundOf ls.val) r.1 r.2).1 = (finish (boundOf ls) r'.1 r'.2).1.val := by
    rintro r r' rfl
    rw [boundOf_lift, finish_lift]
  unfold iterate
  rw [if_neg (show ¬ ls.val.task ≠ .search from fun q => q h.task), if_neg (show ¬ (!(Num.val ls.stp == ls.val.stp)) = true by simp [Ls.val]),
    if_neg (show ¬ ls.task ≠ .search from fun q => q h.task), if_neg (show ¬ (!(ls.stp == ls.stp)) = true by simp)]
  dsimp only [csrchOps]
  apply fin
  by_cases t0 : f ≤ ls.finit + ls.stp * ls.m.gtest ∧ |g| ≤ -ls.m.gtol * ls.ginit
  · have e : csrchIterate ls ls.stp f g = (succeed ls .convergence, ls.stp) := if_pos (show _ from t0)
    rw [e]
    exact if_pos (show _ from t0)
  by_cases t1 : ls.stp = ls.stpmin ∧ (f > ls.finit + ls.stp * ls.m.gtest ∨ g ≥ ls.m.gtest)
  · have t1' : (ls.stp == ls.stpmin) = true := decide_eq_true t1.1
    have e : csrchIterate ls ls.stp f g = (warn ls .stepEqStpmin, ls.stp) :=
      (if_neg (show _ from t0)).trans (if_pos ⟨t1', t1.2⟩)
    rw [e]
    exact (if_neg (show _ from t0)).trans (if_pos ⟨t1', t1.2⟩)
  have n1 : ¬ ((ls.stp == ls.stpmin) = true ∧ (f > ls.finit + ls.stp * ls.m.gtest ∨ g ≥ ls.m.gtest)) := fun q => t1 ⟨of_decide_eq_true q.1, q.2⟩
  by_cases t2 : ls.stp = ls.stpmax ∧ f ≤ ls.finit + ls.stp * ls.m.gtest ∧ g ≤ ls.m.gtest
  · have t2' : (ls.stp == ls.stpmax) = true := decide_eq_true t2.1
    have e : csrchIterate ls ls.stp f g = (warn ls .stepEqStpmax, ls.stp) :=
      (if_neg (show _ from t0)).trans ((if_neg n1).trans (if_pos ⟨t2', t2.2⟩))
    rw [e]
    exact (if_neg (show _ from t0)).trans ((if_neg n1).trans (if_pos ⟨t2', t2.2⟩))
  have n2 : ¬ ((ls.stp == ls.stpmax) = true ∧ f ≤ ls.finit + ls.stp * ls.m.gtest ∧ g ≤ ls.m.gtest) := fun q => t2 ⟨of_decide_eq_true q.1, q.2⟩
  by_cases t3 : ls.m.b.brackt = true ∧ ls.m.stmax - ls.m.stmin ≤ ls.m.xtol * ls.m.stmax
  · have e : csrchIterate ls ls.stp f g = (warn ls .xtolTestSatisfied, ls.stp) :=
      (if_neg (show _ from t0)).trans ((if_neg n1).trans ((if_neg n2).trans (if_pos t3)))
    rw [e]
    exact (if_neg (show _ from t0)).trans ((if_neg n1).trans ((if_neg n2).trans (if_pos t3)))
  by_cases t4 : ls.m.b.brackt = true ∧ (ls.stp ≤ ls.m.stmin ∨ ls.stp ≥ ls.m.stmax)
  · have e : csrchIterate ls ls.stp f g = (warn ls .roundingErrorsPreventProgress, ls.stp) :=
      (if_neg (show _ from t0)).trans ((if_neg n1).trans ((if_neg n2).trans ((if_neg t3).trans (if_pos t4))))
    rw [e]
    exact (if_neg (show _ from t0)).trans ((if_neg n1).trans ((if_neg n2).trans ((if_neg t3).trans (if_pos t4))))
  have key := core_lift ls h h4 f g t0 t1 t4 _ rfl
  have e1 : csrchIterate ls.val (.val ls.stp) (.val f) (.val g) =
      after ls (if ls.m.stage = 1 ∧ f ≤ ls.finit + ls.stp * ls.m.gtest ∧ g ≥ 0 then 2 else ls.m.stage)
        (csrchCstep (ls.m.atStage (if ls.m.stage = 1 ∧ f ≤ ls.finit + ls.stp * ls.m.gtest ∧ g ≥ 0 then 2 else ls.m.stage)).val
          (.val (ls.finit + ls.stp * ls.m.gtest)) (.val ls.stp) (.val f) (.val g)) := by
    refine (if_neg (show _ from t0)).trans ((if_neg n1).trans ((if_neg n2).trans ((if_neg t3).trans ((if_neg t4).trans ?_))))
    have e : (if ls.val.m.stage = 1 ∧ Num.val f ≤ ls.val.finit + Num.val ls.stp * ls.val.m.gtest ∧ Num.val g ≥ 0 then { ls.val.m with stage := 2 } else ls.val.m) =
        (ls.m.atStage (if ls.m.stage = 1 ∧ f ≤ ls.finit + ls.stp * ls.m.gtest ∧ g ≥ 0 then 2 else ls.m.stage)).val := by
      by_cases c : ls.m.stage = 1 ∧ f ≤ ls.finit + ls.stp * ls.m.gtest ∧ g ≥ 0
      · rw [if_pos c]; exact if_pos (show _ from c)
      · rw [if_neg c]; exact if_neg (show _ from c)
    rw [e]
    rfl
  have e2 : csrchIterate ls ls.stp f g = (fun (c : Csrch ℝ) (r : Status × Bracket ℝ × ℝ) =>
      if r.1 ≠ .success then (failure { ls with m := { c with b := r.2.1 } } r.1, ls.stp)
      else (succeed { ls with m := (csrchNext ls.stpmin ls.stpmax { c with b := r.2.1 } r.2.2).1 } .search, (csrchNext ls.stpmin ls.stpmax { c with b := r.2.1 } r.2.2).2))
      (ls.m.atStage (if ls.m.stage = 1 ∧ f ≤ ls.finit + ls.stp * ls.m.gtest ∧ g ≥ 0 then 2 else ls.m.stage))
      (csrchCstep (ls.m.atStage (if ls.m.stage = 1 ∧ f ≤ ls.finit + ls.stp * ls.m.gtest ∧ g ≥ 0 then 2 else ls.m.stage)) (ls.finit + ls.stp * ls.m.gtest) ls.stp f g) := by
    refine (if_neg (show _ from t0)).trans ((if_neg n1).trans ((if_neg n2).trans ((if_neg t3).trans ((if_neg t4).trans ?_))))
    have e : (if ls.m.stage = 1 ∧ f ≤ ls.finit + ls.stp * ls.m.gtest ∧ g ≥ 0 then { ls.m with stage := 2 } else ls.m) =
        ls.m.atStage (if ls.m.stage = 1 ∧ f ≤ ls.finit + ls.stp * ls.m.gtest ∧ g ≥ 0 then 2 else ls.m.stage) := by
      by_cases c : ls.m.stage = 1 ∧ f ≤ ls.finit + ls.stp * ls.m.gtest ∧ g ≥ 0
      · rw [if_pos c, if_pos c]; rfl
      · rw [if_neg c, if_neg c]; rfl
    rw [e]
  rw [e1, e2, key]
  generalize (if ls.m.stage = 1 ∧ f ≤ ls.finit + ls.stp * ls.m.gtest ∧ g ≥ 0 then 2 else ls.m.stage) = k
  generalize csrchCstep (ls.m.atStage k) (ls.finit + ls.stp * ls.m.gtest) ls.stp f g = r
  unfold after
  dsimp only
  by_cases q : r.1 ≠ .success
  · rw [if_pos q, if_pos q]; rfl
  · rw [if_neg q, if_neg q]
    have := csrchNext_lift ls.stpmin ls.stpmax ((ls.m.atStage k).within r.2.1) r.2.2
    change (succeed { ls.val with m := (csrchNext (Num.val ls.stpmin) (Num.val ls.stpmax) ((ls.m.atStage k).within r.2.1).val (Num.val r.2.2)).1 } .search,
      (csrchNext (Num.val ls.stpmin) (Num.val ls.stpmax) ((ls.m.atStage k).within r.2.1).val (Num.val r.2.2)).2) = _
    rw [this]
    rfl

/-- One iteration with real numbers. -/
theorem iterate_real (ls : Ls ℝ (Csrch ℝ)) (h : Inv ls) (h4 : 4 * ls.m.ftol ≤ ls.m.gtol) (f g : ℝ) :
    (iterate csrchOps ls ls.stp f g).1.task ≠ .error ∧ Same ls (iterate csrchOps ls ls.stp f g).1 ∧
    ((iterate csrchOps ls ls.stp f g).1.task = .search → Inv (iterate csrchOps ls ls.stp f g).1 ∧ Move ls (iterate csrchOps ls ls.stp f g).1) ∧
    (Fresh ls → (iterate csrchOps ls ls.stp f g).1.status ≠ .roundingErrorsPreventProgress) := by
  obtain ⟨ls', e, h1, h2, -, h3, h5⟩ := iterate_safe ls h f g
  rw [iterate_lift ls h h4] at e
  rw [Ls.val_inj e]
  exact ⟨h1, h2, h3, h5⟩

theorem finish_stp {M : Type} (bnd : Int) (ls : Ls ℝ M) (s : ℝ) : (finish bnd ls s).1.stp = (finish bnd ls s).2 := by
  unfold finish
  split_ifs <;> rfl

/-- The step which is returned is the one which is stored. -/
theorem iterate_stp (ls : Ls ℝ (Csrch ℝ)) (h : ls.task = .search) (f g : ℝ) :
    (iterate csrchOps ls ls.stp f g).1.stp = (iterate csrchOps ls ls.stp f g).2 := by
  unfold iterate
  rw [if_neg (not_not.mpr h), if_neg (show ¬ (!(ls.stp == ls.stp)) = true by simp)]
  exact finish_stp _ _ _

/-- How a search ends. -/
theorem iterate_end (ls : Ls ℝ (Csrch ℝ)) (h : ls.task = .search) (f g : ℝ) :
    ((iterate csrchOps ls ls.stp f g).1.task = .convergence → f ≤ ls.finit + ls.stp * ls.m.gtest ∧ |g| ≤ -ls.m.gtol * ls.ginit) ∧
    ((iterate csrchOps ls ls.stp f g).1.task = .warning → (iterate csrchOps ls ls.stp f g).1.status = .stepEqStpmin ∨
      (iterate csrchOps ls ls.stp f g).1.status = .stepEqStpmax ∨ (iterate csrchOps ls ls.stp f g).1.status = .xtolTestSatisfied ∨
      (iterate csrchOps ls ls.stp f g).1.status = .roundingErrorsPreventProgress) := by
  unfold iterate
  rw [if_neg (not_not.mpr h), if_neg (show ¬ (!(ls.stp == ls.stp)) = true by simp)]
  dsimp only [csrchOps]
  have fin : ∀ (r : Ls ℝ (Csrch ℝ)) (s : ℝ), (r.task = .convergence → f ≤ ls.finit + ls.stp * ls.m.gtest ∧ |g| ≤ -ls.m.gtol * ls.ginit) →
      (r.task = .warning → r.status = .stepEqStpmin ∨ r.status = .stepEqStpmax ∨ r.status = .xtolTestSatisfied ∨ r.status = .roundingErrorsPreventProgress) →
      ((finish (boundOf ls) r s).1.task = .convergence → f ≤ ls.finit + ls.stp * ls.m.gtest ∧ |g| ≤ -ls.m.gtol * ls.ginit) ∧
      ((finish (boundOf ls) r s).1.task = .warning → (finish (boundOf ls) r s).1.status = .stepEqStpmin ∨
        (finish (boundOf ls) r s).1.status = .stepEqStpmax ∨ (finish (boundOf ls) r s).1.status = .xtolTestSatisfied ∨
        (finish (boundOf ls) r s).1.status = .roundingErrorsPreventProgress) := by
    intro r s h1 h2
    unfold finish
    split_ifs
    · exact ⟨fun q => (by cases q), fun _ => Or.inl rfl⟩
    · exact ⟨h1, h2⟩
    · exact ⟨fun q => (by cases q), fun _ => Or.inr (Or.inl rfl)⟩
    · exact ⟨h1, h2⟩
    · exact ⟨h1, h2⟩
  apply fin
  · unfold csrchIterate
    dsimp only
    split_ifs with c <;> intro q <;> first | exact c | cases q
  · unfold csrchIterate
    dsimp only
    split_ifs <;> intro q <;> first | exact Or.inl rfl | exact Or.inr (Or.inl rfl) | exact Or.inr (Or.inr (Or.inl rfl)) | exact Or.inr (Or.inr (Or.inr rfl)) | cases q

/-- A search which is started with valid arguments. -/
theorem start_real (ls : Ls ℝ (Csrch ℝ)) (h0 : 0 ≤ ls.m.ftol) (h1 : ls.m.ftol < 1) (h4 : ls.m.ftol ≤ ls.m.gtol) (a : Args ℝ) (ha : a.Ok) :
    Inv (start csrchOps ls a.f0 a.g0 a.stp a.stpmin a.stpmax) ∧ Fresh (start csrchOps ls a.f0 a.g0 a.stp a.stpmin a.stpmax) ∧
    (start csrchOps ls a.f0 a.g0 a.stp a.stpmin a.stpmax).finit = a.f0 ∧ (start csrchOps ls a.f0 a.g0 a.stp a.stpmin a.stpmax).ginit = a.g0 ∧
    (start csrchOps ls a.f0 a.g0 a.stp a.stpmin a.stpmax).stp = a.stp ∧ (start csrchOps ls a.f0 a.g0 a.stp a.stpmin a.stpmax).stpmin = a.stpmin ∧
    (start csrchOps ls a.f0 a.g0 a.stp a.stpmin a.stpmax).m.ftol = ls.m.ftol ∧ (start csrchOps ls a.f0 a.g0 a.stp a.stpmin a.stpmax).m.gtol = ls.m.gtol ∧
    (start csrchOps ls a.f0 a.g0 a.stp a.stpmin a.stpmax).m.xtol = ls.m.xtol := by
  obtain ⟨a1, a2, a3⟩ := ha
  have e : start csrchOps ls a.f0 a.g0 a.stp a.stpmin a.stpmax = csrchStart { ls with stp := a.stp, stpmin := a.stpmin, stpmax := a.stpmax, finit := a.f0, ginit := a.g0 } := by
    unfold start
    rw [if_neg (not_lt.mpr a1), if_neg (not_lt.mpr (a2.1.trans a2.2)), if_neg (not_lt.mpr a2.1), if_neg (not_lt.mpr a2.2), if_neg (not_le.mpr a3)]
    rfl
  rw [e]
  refine ⟨⟨rfl, a3, h0, h1, h4, rfl, a2.1, a2.2, Kind.free rfl rfl ?_ ?_ ?_ (a2.1.trans a2.2) ?_, ⟨Or.inl rfl, a1.trans (a2.1.trans a2.2)⟩, fun q => by cases q⟩,
    fun q => (by cases q), rfl, rfl, rfl, rfl, rfl, rfl, rfl⟩
  · show 0 < a.stp ∨ a.stp = a.stpmin
    rcases lt_or_eq_of_le (a1.trans a2.1) with q | q
    · exact Or.inl q
    · exact Or.inr (le_antisymm (by rw [← q]; exact a1) a2.1)
  · show a.g0 < ls.m.ftol * a.g0
    nlinarith
  · show a.f0 ≤ a.f0 + 0 * (ls.m.ftol * a.g0)
    linarith
  · show a.stp < a.stpmax ∨ a.stp = a.stpmax
    exact lt_or_eq_of_le a2.2

end Opk.LineSearch
