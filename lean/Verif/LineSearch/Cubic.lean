import Verif.LineSearch.Nonmono
import Mathlib.Topology.Order.Compact
import Mathlib.Analysis.Calculus.LocalExtr.Basic
/-! # C19, C20: Moré and Thuente line search -/
set_option linter.unusedSectionVars false
namespace Opk.LineSearch

/-! ## C19 -/

section any
variable {F : Type} [Add F] [Sub F] [Mul F] [Div F] [Neg F] [One F] [Zero F] [LinearOrder F] [CMath F]

/-- The constant members of a Moré and Thuente line search. -/
def CsrchData (ftol gtol xtol : F) (ls : Ls F (Csrch F)) : Prop :=
  ls.m.ftol = ftol ∧ ls.m.gtol = gtol ∧ ls.m.xtol = xtol ∧
    (ls.task = .search → ls.m.gtest = ftol * ls.ginit)

theorem csrchNext_data (stpmin stpmax : F) (c : Csrch F) (stp : F) :
    (csrchNext stpmin stpmax c stp).1.ftol = c.ftol ∧ (csrchNext stpmin stpmax c stp).1.gtol = c.gtol ∧
    (csrchNext stpmin stpmax c stp).1.xtol = c.xtol ∧ (csrchNext stpmin stpmax c stp).1.gtest = c.gtest := by
  unfold csrchNext
  split <;> exact ⟨rfl, rfl, rfl, rfl⟩

theorem csrchIterate_data (ls : Ls F (Csrch F)) (stp f g : F) :
    (csrchIterate ls stp f g).1.m.ftol = ls.m.ftol ∧ (csrchIterate ls stp f g).1.m.gtol = ls.m.gtol ∧
    (csrchIterate ls stp f g).1.m.xtol = ls.m.xtol ∧ (csrchIterate ls stp f g).1.m.gtest = ls.m.gtest := by
  unfold csrchIterate
  dsimp only
  split
  · exact ⟨rfl, rfl, rfl, rfl⟩
  split
  · exact ⟨rfl, rfl, rfl, rfl⟩
  split
  · exact ⟨rfl, rfl, rfl, rfl⟩
  split
  · exact ⟨rfl, rfl, rfl, rfl⟩
  split
  · exact ⟨rfl, rfl, rfl, rfl⟩
  split <;> split
  · exact ⟨rfl, rfl, rfl, rfl⟩
  · exact csrchNext_data _ _ _ _
  · exact ⟨rfl, rfl, rfl, rfl⟩
  · exact csrchNext_data _ _ _ _

theorem csrch_calls_data (ftol gtol xtol : F) (hist : List (Call F)) :
    ∀ ls : Ls F (Csrch F), CsrchData ftol gtol xtol ls →
      CsrchData ftol gtol xtol (calls csrchOps ls hist) := by
  induction hist with
  | nil => exact fun _ h => h
  | cons c cs ih =>
    intro ls h
    refine ih _ ?_
    obtain ⟨h1, h2, h3, h4⟩ := h
    have hfail : ∀ s, CsrchData ftol gtol xtol (failure ls s) :=
      fun s => ⟨h1, h2, h3, fun h => by simp [failure] at h⟩
    cases c with
    | start a =>
      simp only [call, start]
      split
      · exact hfail _
      split
      · exact hfail _
      split
      · exact hfail _
      split
      · exact hfail _
      split
      · exact hfail _
      · exact ⟨h1, h2, h3, fun _ => by simp only [csrchOps, csrchStart, succeed]; rw [h1]⟩
    | iterate stp f g =>
      simp only [call]
      unfold iterate
      split
      · exact hfail _
      split
      · exact hfail _
      · rename_i ht _
        simp only [ne_eq, Decidable.not_not] at ht
        obtain ⟨d1, d2, d3, d4⟩ := csrchIterate_data ls stp f g
        obtain ⟨_, _, _, e4, e5, _⟩ := finish_data (boundOf ls) (csrchOps.iterate ls stp f g).1
          (csrchOps.iterate ls stp f g).2
        have hg := (csrch_method.iterate ls stp f g).2.2.2
        dsimp only
        refine ⟨?_, ?_, ?_, fun _ => ?_⟩
        · rw [e5]; exact d1.trans h1
        · rw [e5]; exact d2.trans h2
        · rw [e5]; exact d3.trans h3
        · rw [e5, e4, hg]; exact d4.trans (h4 ht)

/-- **C19.** For every history of calls which left a Moré and Thuente line search searching, an
iteration reports convergence exactly if the values given satisfy the strong Wolfe conditions
relative to the last start (and the step is not at one of its bounds, the defect of C21).  For any
arithmetic. -/
theorem csrch_strong_wolfe (raw : Ls F (Csrch F)) (ftol gtol xtol : F) (ls0 : Ls F (Csrch F))
    (h0 : newCsrch raw ftol gtol xtol = some ls0) (hist : List (Call F)) (stp f g : F)
    (ht : (calls csrchOps ls0 hist).task = .search) (hs : stp = (calls csrchOps ls0 hist).stp) :
    ∃ a, lastStart none hist = some a ∧ a.Valid ∧ a.stpmin ≤ stp ∧ stp ≤ a.stpmax ∧
      ((calls csrchOps ls0 (hist ++ [.iterate stp f g])).task = .convergence ↔
        f ≤ a.f0 + stp * (ftol * a.g0) ∧ fabs g ≤ -gtol * a.g0 ∧ a.stpmin < stp ∧ stp < a.stpmax) := by
  obtain ⟨raw', e0, hd0⟩ : ∃ raw', ls0 = allocated raw' ∧ CsrchData ftol gtol xtol ls0 := by
    unfold newCsrch at h0
    split at h0
    · cases h0
    split at h0
    · cases h0
    split at h0
    · cases h0
    · cases h0
      exact ⟨_, rfl, rfl, rfl, rfl, fun h => by simp [allocated] at h⟩
  have hd := csrch_calls_data ftol gtol xtol hist ls0 hd0
  obtain ⟨a, e, hv, c1, c2, c3, c4, c5, c6⟩ := steps_in_bounds csrchOps csrch_method raw' hist
    (by rw [← e0, ht]; simp)
  rw [← e0] at c1 c2 c3 c4 c5 c6
  refine ⟨a, e, hv, by rw [hs]; exact c5, by rw [hs]; exact c6, ?_⟩
  rw [calls_append]
  simp only [calls, call]
  generalize calls csrchOps ls0 hist = ls at *
  subst hs
  obtain ⟨d1, d2, _, d4⟩ := hd
  have d4 := d4 ht
  rw [converged_iff _ csrch_method ls f g ht (csrch_keeps ls f g), c3, c4]
  have hiff : (csrchOps.iterate ls ls.stp f g).1.task = .convergence ↔
      (f ≤ ls.finit + ls.stp * ls.m.gtest ∧ fabs g ≤ -ls.m.gtol * ls.ginit) := by
    simp only [csrchOps, csrchIterate]
    constructor
    · intro h
      by_contra hn
      rw [if_neg hn] at h
      split at h
      · simp [warn] at h
      split at h
      · simp [warn] at h
      split at h
      · simp [warn] at h
      split at h
      · simp [warn] at h
      split at h <;> split at h <;> simp [failure, succeed] at h
    · intro h
      rw [if_pos h]; rfl
  rw [hiff, c1, c2, d2, d4, c2]
  exact ⟨fun h => ⟨h.1.1, h.1.2, h.2⟩, fun h => ⟨⟨h.1, h.2.1⟩, h.2.2⟩⟩

end any

/-! ## C20 -/

section cstep

@[simp] theorem fabs_val (x : ℝ) : (fabs (Num.val x) : Num ℝ) = .val |x| := rfl
theorem sqrt_val {x : ℝ} (h : 0 ≤ x) : (sqrt (Num.val x) : Num ℝ) = .val (Real.sqrt x) := by
  simp [CMath.sqrt, realNumMath, numMath, h]
@[simp] theorem lit_val (n d : Nat) : (lit n d : Num ℝ) = .val ((n : ℝ) / (d : ℝ)) := rfl

theorem ite_val (c : Prop) [Decidable c] (x y : ℝ) :
    (if c then Num.val x else Num.val y) = Num.val (if c then x else y) := by split <;> rfl

theorem max3_val (x y z : ℝ) : max3 (Num.val x) (Num.val y) (Num.val z) = .val (max (max x y) z) := by
  have key : ∀ a b : ℝ, (if Num.val b > Num.val a then Num.val b else Num.val a) = Num.val (max a b) := by
    intro a b
    by_cases h : b > a
    · rw [if_pos (show Num.val b > Num.val a from h), max_eq_right h.le]
    · rw [if_neg (show ¬ Num.val b > Num.val a from h), max_eq_left (not_lt.mp h)]
  unfold max3
  simp only [key]

theorem scale_radicand {s : ℝ} (hs : 0 < s) (theta d1 d2 : ℝ) :
    theta / s * (theta / s) - d1 / s * (d2 / s) = (theta * theta - d1 * d2) / (s * s) := by
  field_simp

theorem scaled_sqrt {s : ℝ} (hs : 0 < s) {w : ℝ} (hw : 0 ≤ w) :
    s * Real.sqrt (w / (s * s)) = Real.sqrt w := by
  rw [Real.sqrt_div hw, Real.sqrt_mul_self hs.le]
  field_simp

theorem scale_pos {theta d1 d2 : ℝ} (h : d1 ≠ 0 ∨ d2 ≠ 0) : 0 < max (max |theta| |d1|) |d2| := by
  rcases h with h | h
  · exact lt_max_of_lt_left (lt_max_of_lt_right (abs_pos.mpr h))
  · exact lt_max_of_lt_right (abs_pos.mpr h)

theorem cubicGamma_val {theta d1 d2 : ℝ} (h : d1 ≠ 0 ∨ d2 ≠ 0) (hr : 0 ≤ theta * theta - d1 * d2) :
    cubicGamma (Num.val theta) (Num.val d1) (Num.val d2) =
      .val (Real.sqrt (theta * theta - d1 * d2)) := by
  unfold cubicGamma
  simp only [fabs_val, max3_val]
  have hs := scale_pos (theta := theta) h
  generalize max (max |theta| |d1|) |d2| = s at *
  have hs' : s ≠ 0 := hs.ne'
  rw [Num.val_div hs', Num.val_div hs', Num.val_div hs', Num.val_mul, Num.val_mul, Num.val_sub,
    scale_radicand hs, sqrt_val (by positivity), Num.val_mul, scaled_sqrt hs hr]

/-- The heart of the cases 1 and 4, in one direction. -/
theorem core14 {a c e : ℝ} (ha : a < 0) (he : 4 * e + 3 * a ≤ 0) :
    0 ≤ (e + a + c) * (e + a + c) - a * c ∧
    0 < Real.sqrt ((e + a + c) * (e + a + c) - a * c) - a + (e + a + c) ∧
    Real.sqrt ((e + a + c) * (e + a + c) - a * c) - a + (e + a + c) <
      Real.sqrt ((e + a + c) * (e + a + c) - a * c) - a +
        Real.sqrt ((e + a + c) * (e + a + c) - a * c) + c := by
  have hr : 0 ≤ (e + a + c) * (e + a + c) - a * c := by
    rcases le_or_gt 0 c with h | h
    · nlinarith [mul_self_nonneg (e + a + c)]
    · have h1 : e + a + c ≤ a / 4 + c := by linarith
      have h2 : (a / 4 + c) * (a / 4 + c) ≤ (e + a + c) * (e + a + c) := by nlinarith
      nlinarith [mul_self_nonneg (a / 4 - c)]
  set w := (e + a + c) * (e + a + c) - a * c with hw
  have hs0 := Real.sqrt_nonneg w
  refine ⟨hr, ?_, ?_⟩
  · rcases lt_or_ge 0 (e + c) with h | h
    · linarith
    · have : -(e + c) < Real.sqrt w := by
        apply Real.lt_sqrt_of_sq_lt
        nlinarith
      linarith
  · linarith

/-- The heart of the case 2, in one direction. -/
theorem core2 {a c e : ℝ} (ha : a < 0) (hc : 0 < c) (he : 0 ≤ e) :
    0 ≤ (e + a + c) * (e + a + c) - a * c ∧
    -Real.sqrt ((e + a + c) * (e + a + c) - a * c) - c + (e + a + c) < 0 ∧
    -Real.sqrt ((e + a + c) * (e + a + c) - a * c) - c + -Real.sqrt ((e + a + c) * (e + a + c) - a * c) + a <
      -Real.sqrt ((e + a + c) * (e + a + c) - a * c) - c + (e + a + c) := by
  have hr : 0 < (e + a + c) * (e + a + c) - a * c := by
    nlinarith [mul_self_nonneg (e + a + c), mul_pos (neg_pos.mpr ha) hc]
  set w := (e + a + c) * (e + a + c) - a * c with hw
  have hs0 := Real.sqrt_pos.mpr hr
  refine ⟨hr.le, ?_, ?_⟩
  · rcases lt_or_ge 0 (e + a) with h | h
    · have : e + a < Real.sqrt w := by
        apply Real.lt_sqrt_of_sq_lt
        nlinarith
      linarith
    · linarith
  · linarith

/-- Convex combinations. -/
theorem between_of_ratio {r x y : ℝ} (h0 : 0 < r) (h1 : r < 1) (hne : x ≠ y) :
    min x y < x + r * (y - x) ∧ x + r * (y - x) < max x y := by
  rcases lt_or_gt_of_ne hne with h | h
  · rw [min_eq_left h.le, max_eq_right h.le]; constructor <;> nlinarith
  · rw [min_eq_right h.le, max_eq_left h.le]; constructor <;> nlinarith

/-- The ratio of the cubic interpolation in case 1 (with the arguments of `cstep1`), and in case 4
(with `x` replaced by `p` and `p` by `y`). -/
theorem cubic_ratio {h dx dp d3 : ℝ} (hdx : dx * h < 0) (hd : (4 * d3 + 3 * dx) * h ≤ 0) :
    0 ≤ (d3 + dx + dp) * (d3 + dx + dp) - dx * dp ∧
    ∀ g, g = (if h < 0 then -Real.sqrt ((d3 + dx + dp) * (d3 + dx + dp) - dx * dp)
        else Real.sqrt ((d3 + dx + dp) * (d3 + dx + dp) - dx * dp)) →
      g - dx + g + dp ≠ 0 ∧ 0 < (g - dx + (d3 + dx + dp)) / (g - dx + g + dp) ∧
      (g - dx + (d3 + dx + dp)) / (g - dx + g + dp) < 1 := by
  have hh : h ≠ 0 := by rintro rfl; simp at hdx
  rcases lt_or_gt_of_ne hh with h' | h'
  · have hdx' : 0 < dx := by by_contra hn; nlinarith
    have hd' : 0 ≤ 4 * d3 + 3 * dx := by by_contra hn; nlinarith
    obtain ⟨c1, c2, c3⟩ := core14 (a := -dx) (c := -dp) (e := -d3) (by linarith) (by linarith)
    have e : (-d3 + -dx + -dp) * (-d3 + -dx + -dp) - -dx * -dp =
        (d3 + dx + dp) * (d3 + dx + dp) - dx * dp := by ring
    rw [e] at c1 c2 c3
    refine ⟨c1, ?_⟩
    intro g hg
    rw [if_pos h'] at hg
    set w := Real.sqrt ((d3 + dx + dp) * (d3 + dx + dp) - dx * dp)
    have hq : g - dx + g + dp < 0 := by rw [hg]; linarith
    refine ⟨hq.ne, ?_, ?_⟩
    · apply div_pos_of_neg_of_neg _ hq; rw [hg]; linarith
    · rw [div_lt_one_of_neg hq]; rw [hg]; linarith
  · have hdx' : dx < 0 := by by_contra hn; nlinarith
    have hd' : 4 * d3 + 3 * dx ≤ 0 := by by_contra hn; nlinarith
    obtain ⟨c1, c2, c3⟩ := core14 (a := dx) (c := dp) (e := d3) hdx' hd'
    refine ⟨c1, ?_⟩
    intro g hg
    rw [if_neg (not_lt.mpr h'.le)] at hg
    set w := Real.sqrt ((d3 + dx + dp) * (d3 + dx + dp) - dx * dp)
    have hq : 0 < g - dx + g + dp := by rw [hg]; linarith
    refine ⟨hq.ne', ?_, ?_⟩
    · apply div_pos _ hq; rw [hg]; linarith
    · rw [div_lt_one hq]; rw [hg]; linarith

/-- The ratio of the cubic interpolation in case 2. -/
theorem cubic_ratio2 {h dx dp d3 : ℝ} (hdx : dx * h < 0) (hdp : 0 < dp * h) (hd : 0 ≤ d3 * h) :
    0 ≤ (d3 + dx + dp) * (d3 + dx + dp) - dx * dp ∧
    ∀ g, g = (if 0 < h then -Real.sqrt ((d3 + dx + dp) * (d3 + dx + dp) - dx * dp)
        else Real.sqrt ((d3 + dx + dp) * (d3 + dx + dp) - dx * dp)) →
      g - dp + g + dx ≠ 0 ∧ 0 < (g - dp + (d3 + dx + dp)) / (g - dp + g + dx) ∧
      (g - dp + (d3 + dx + dp)) / (g - dp + g + dx) < 1 := by
  have hh : h ≠ 0 := by rintro rfl; simp at hdx
  rcases lt_or_gt_of_ne hh with h' | h'
  · have hdx' : 0 < dx := by by_contra hn; nlinarith
    have hdp' : dp < 0 := by by_contra hn; nlinarith
    have hd' : d3 ≤ 0 := by by_contra hn; nlinarith
    obtain ⟨c1, c2, c3⟩ := core2 (a := -dx) (c := -dp) (e := -d3) (by linarith) (by linarith) (by linarith)
    have e : (-d3 + -dx + -dp) * (-d3 + -dx + -dp) - -dx * -dp =
        (d3 + dx + dp) * (d3 + dx + dp) - dx * dp := by ring
    rw [e] at c1 c2 c3
    refine ⟨c1, ?_⟩
    intro g hg
    rw [if_neg (not_lt.mpr h'.le)] at hg
    set w := Real.sqrt ((d3 + dx + dp) * (d3 + dx + dp) - dx * dp)
    have hq : 0 < g - dp + g + dx := by rw [hg]; linarith
    refine ⟨hq.ne', ?_, ?_⟩
    · apply div_pos _ hq; rw [hg]; linarith
    · rw [div_lt_one hq]; rw [hg]; linarith
  · have hdx' : dx < 0 := by by_contra hn; nlinarith
    have hdp' : 0 < dp := by by_contra hn; nlinarith
    have hd' : 0 ≤ d3 := by by_contra hn; nlinarith
    obtain ⟨c1, c2, c3⟩ := core2 (a := dx) (c := dp) (e := d3) hdx' hdp' hd'
    refine ⟨c1, ?_⟩
    intro g hg
    rw [if_pos h'] at hg
    set w := Real.sqrt ((d3 + dx + dp) * (d3 + dx + dp) - dx * dp)
    have hq : g - dp + g + dx < 0 := by rw [hg]; linarith
    refine ⟨hq.ne, ?_, ?_⟩
    · apply div_pos_of_neg_of_neg _ hq; rw [hg]; linarith
    · rw [div_lt_one_of_neg hq]; rw [hg]; linarith

theorem cstep1_val {stx fx dx stp fp dp : ℝ} (hd : dx * (stp - stx) < 0) (hf : fx < fp) :
    ∃ s, cstep1 (Num.val stx) (.val fx) (.val dx) (.val stp) (.val fp) (.val dp) = .val s ∧
      min stx stp < s ∧ s < max stx stp := by
  have hh : stp - stx ≠ 0 := by intro e; rw [e] at hd; simp at hd
  have hne : stx ≠ stp := by intro e; apply hh; rw [e]; ring
  have hD : (4 * (3 * (fx - fp) / (stp - stx)) + 3 * dx) * (stp - stx) ≤ 0 := by
    rw [add_mul, mul_assoc, div_mul_cancel₀ _ hh]; linarith
  have hD' : (fx - fp) / (stp - stx) * (stp - stx) < 0 := by
    rw [div_mul_cancel₀ _ hh]; linarith
  obtain ⟨w, hg⟩ := cubic_ratio (dp := dp) hd hD
  have hdx : dx ≠ 0 := by rintro rfl; simp at hd
  have hq2 : (fx - fp) / (stp - stx) + dx ≠ 0 := by
    intro e
    have : ((fx - fp) / (stp - stx) + dx) * (stp - stx) < 0 := by rw [add_mul]; linarith
    rw [e] at this; simp at this
  obtain ⟨g, hge⟩ : ∃ g, g = (if stp - stx < 0 then
      -Real.sqrt ((3 * (fx - fp) / (stp - stx) + dx + dp) * (3 * (fx - fp) / (stp - stx) + dx + dp) - dx * dp)
    else Real.sqrt ((3 * (fx - fp) / (stp - stx) + dx + dp) * (3 * (fx - fp) / (stp - stx) + dx + dp) - dx * dp)) :=
    ⟨_, rfl⟩
  obtain ⟨q0, r0, r1⟩ := hg g hge
  have hp0 : 0 < dx / ((fx - fp) / (stp - stx) + dx) / 2 ∧
      dx / ((fx - fp) / (stp - stx) + dx) / 2 < 1 := by
    have h1 : ((fx - fp) / (stp - stx) + dx) * (stp - stx) < dx * (stp - stx) := by
      rw [add_mul]; linarith
    have e : dx / ((fx - fp) / (stp - stx) + dx) =
        (dx * (stp - stx)) / (((fx - fp) / (stp - stx) + dx) * (stp - stx)) := by
      rw [mul_div_mul_right _ _ hh]
    have hn : ((fx - fp) / (stp - stx) + dx) * (stp - stx) < 0 := lt_trans h1 hd
    have h2 : 0 < dx / ((fx - fp) / (stp - stx) + dx) := by
      rw [e]; exact div_pos_of_neg_of_neg hd hn
    have h3 : dx / ((fx - fp) / (stp - stx) + dx) < 1 := by
      rw [e, div_lt_one_of_neg hn]; exact h1
    constructor <;> linarith
  have b1 := between_of_ratio r0 r1 hne
  have b2 := between_of_ratio hp0.1 hp0.2 hne
  unfold cstep1
  simp only [lit_val, Num.val_sub, Num.val_mul, Num.val_add, Nat.cast_one, div_one, Nat.cast_ofNat,
    Num.val_div hh, cubicGamma_val (Or.inl hdx) w, Num.val_neg]
  have hgv : (if Num.val stp < Num.val stx then
      Num.val (-Real.sqrt ((3 * (fx - fp) / (stp - stx) + dx + dp) * (3 * (fx - fp) / (stp - stx) + dx + dp) - dx * dp))
    else Num.val (Real.sqrt ((3 * (fx - fp) / (stp - stx) + dx + dp) * (3 * (fx - fp) / (stp - stx) + dx + dp) - dx * dp)))
      = Num.val g := by
    rw [hge]
    by_cases h : stp < stx
    · rw [if_pos (show Num.val stp < Num.val stx from h), if_pos (by linarith)]
    · rw [if_neg (show ¬ Num.val stp < Num.val stx from h), if_neg (by linarith)]
  simp only [hgv, Num.val_sub, Num.val_add, Num.val_div q0, Num.val_mul, Num.val_div hq2,
    Num.val_div (two_ne_zero' ℝ), fabs_val]
  split
  · exact ⟨_, rfl, b1⟩
  · refine ⟨_, rfl, ?_, ?_⟩ <;> linarith [b1.1, b1.2, b2.1, b2.2]

theorem cstep2_val {stx fx dx stp fp dp : ℝ} (hd : dx * (stp - stx) < 0) (hf : fp ≤ fx)
    (ho : 0 < dp * (stp - stx)) :
    ∃ s, cstep2 (Num.val stx) (.val fx) (.val dx) (.val stp) (.val fp) (.val dp) = .val s ∧
      min stx stp < s ∧ s < max stx stp := by
  have hh : stp - stx ≠ 0 := by intro e; rw [e] at hd; simp at hd
  have hne : stp ≠ stx := by intro e; apply hh; rw [e]; ring
  have hD : 0 ≤ 3 * (fx - fp) / (stp - stx) * (stp - stx) := by
    rw [div_mul_cancel₀ _ hh]; linarith
  obtain ⟨w, hg⟩ := cubic_ratio2 (dp := dp) hd ho hD
  have hdx : dx ≠ 0 := by rintro rfl; simp at hd
  have hsub : dp - dx ≠ 0 := by
    intro e
    have : (dp - dx) * (stp - stx) > 0 := by rw [sub_mul]; linarith
    rw [e] at this; simp at this
  obtain ⟨g, hge⟩ : ∃ g, g = (if 0 < stp - stx then
      -Real.sqrt ((3 * (fx - fp) / (stp - stx) + dx + dp) * (3 * (fx - fp) / (stp - stx) + dx + dp) - dx * dp)
    else Real.sqrt ((3 * (fx - fp) / (stp - stx) + dx + dp) * (3 * (fx - fp) / (stp - stx) + dx + dp) - dx * dp)) :=
    ⟨_, rfl⟩
  obtain ⟨q0, r0, r1⟩ := hg g hge
  have hp0 : 0 < dp / (dp - dx) ∧ dp / (dp - dx) < 1 := by
    have e : dp / (dp - dx) = (dp * (stp - stx)) / ((dp - dx) * (stp - stx)) := by
      rw [mul_div_mul_right _ _ hh]
    have hp : 0 < (dp - dx) * (stp - stx) := by rw [sub_mul]; linarith
    rw [e]
    refine ⟨div_pos ho hp, ?_⟩
    rw [div_lt_one hp, sub_mul]; linarith
  have b1 := between_of_ratio r0 r1 hne
  have b2 := between_of_ratio hp0.1 hp0.2 hne
  rw [min_comm, max_comm] at b1 b2
  unfold cstep2
  simp only [lit_val, Num.val_sub, Num.val_mul, Num.val_add, Nat.cast_one, div_one, Nat.cast_ofNat,
    Num.val_div hh, cubicGamma_val (Or.inl hdx) w, Num.val_neg]
  have hgv : (if Num.val stp > Num.val stx then
      Num.val (-Real.sqrt ((3 * (fx - fp) / (stp - stx) + dx + dp) * (3 * (fx - fp) / (stp - stx) + dx + dp) - dx * dp))
    else Num.val (Real.sqrt ((3 * (fx - fp) / (stp - stx) + dx + dp) * (3 * (fx - fp) / (stp - stx) + dx + dp) - dx * dp)))
      = Num.val g := by
    rw [hge]
    by_cases h : stp > stx
    · rw [if_pos (show Num.val stp > Num.val stx from h), if_pos (by linarith)]
    · rw [if_neg (show ¬ Num.val stp > Num.val stx from h), if_neg (by linarith)]
  simp only [hgv, Num.val_sub, Num.val_add, Num.val_div q0, Num.val_mul, Num.val_div hsub, fabs_val]
  split
  · exact ⟨_, rfl, b1⟩
  · exact ⟨_, rfl, b2⟩

theorem cstep4_val {stx sty fy dy stp fp dp stpmin stpmax : ℝ} (hd : dp * (sty - stp) < 0)
    (hf : 4 * (fp - fy) + dp * (sty - stp) ≤ 0) :
    ∃ s, cstep4 true (Num.val stx) (.val sty) (.val fy) (.val dy) (.val stp) (.val fp) (.val dp)
        (.val stpmin) (.val stpmax) = .val s ∧
      min stp sty < s ∧ s < max stp sty := by
  have hh : sty - stp ≠ 0 := by intro e; rw [e] at hd; simp at hd
  have hne : stp ≠ sty := by intro e; apply hh; rw [e]; ring
  have hD : (4 * (3 * (fp - fy) / (sty - stp)) + 3 * dp) * (sty - stp) ≤ 0 := by
    rw [add_mul, mul_assoc, div_mul_cancel₀ _ hh]; linarith
  obtain ⟨w, hg⟩ := cubic_ratio (dp := dy) hd hD
  have hdp : dp ≠ 0 := by rintro rfl; simp at hd
  have e1 : 3 * (fp - fy) / (sty - stp) + dp + dy = 3 * (fp - fy) / (sty - stp) + dy + dp := by ring
  have e2 : dp * dy = dy * dp := by ring
  rw [e1, e2] at w hg
  obtain ⟨g, hge⟩ : ∃ g, g = (if sty - stp < 0 then
      -Real.sqrt ((3 * (fp - fy) / (sty - stp) + dy + dp) * (3 * (fp - fy) / (sty - stp) + dy + dp) - dy * dp)
    else Real.sqrt ((3 * (fp - fy) / (sty - stp) + dy + dp) * (3 * (fp - fy) / (sty - stp) + dy + dp) - dy * dp)) :=
    ⟨_, rfl⟩
  obtain ⟨q0, r0, r1⟩ := hg g hge
  have b1 := between_of_ratio r0 r1 hne
  unfold cstep4
  rw [if_pos rfl]
  simp only [lit_val, Num.val_sub, Num.val_mul, Num.val_add, Nat.cast_one, div_one, Nat.cast_ofNat,
    Num.val_div hh, cubicGamma_val (Or.inr hdp) w, Num.val_neg]
  have hgv : (if Num.val stp > Num.val sty then
      Num.val (-Real.sqrt ((3 * (fp - fy) / (sty - stp) + dy + dp) * (3 * (fp - fy) / (sty - stp) + dy + dp) - dy * dp))
    else Num.val (Real.sqrt ((3 * (fp - fy) / (sty - stp) + dy + dp) * (3 * (fp - fy) / (sty - stp) + dy + dp) - dy * dp)))
      = Num.val g := by
    rw [hge]
    by_cases h : stp > sty
    · rw [if_pos (show Num.val stp > Num.val sty from h), if_pos (by linarith)]
    · rw [if_neg (show ¬ Num.val stp > Num.val sty from h), if_neg (by linarith)]
  simp only [hgv, Num.val_sub, Num.val_add, Num.val_div q0, Num.val_mul]
  exact ⟨_, rfl, b1⟩

/-- Third case: the value computed, and where it is.  `stpc` is the cubic step, or a bound. -/
theorem cstep3_val (brackt : Bool) {stx fx dx sty stp fp dp stpmin stpmax : ℝ}
    (hd : dx * (stp - stx) < 0) (ho : dp * (stp - stx) ≤ 0) (ha : |dp| < |dx|) :
    ∃ stpc stpq,
      (0 < (stpc - stp) * (stp - stx) ∨ (stx < stp ∧ stpc = stpmax) ∨ (stp < stx ∧ stpc = stpmin)) ∧
      (0 ≤ (stpq - stp) * (stp - stx) ∧ (dp ≠ 0 → stpq ≠ stp)) ∧
      cstep3 brackt (Num.val stx) (.val fx) (.val dx) (.val sty) (.val stp) (.val fp) (.val dp)
        (.val stpmin) (.val stpmax) = .val (if brackt then
          (let stpf := if |stpc - stp| < |stpq - stp| then stpc else stpq
           if (if stp > stx then stpf > stp + 66 / 100 * (sty - stp) else stpf < stp + 66 / 100 * (sty - stp))
           then stp + 66 / 100 * (sty - stp) else stpf)
        else (let stpf := if |stpc - stp| > |stpq - stp| then stpc else stpq
          let stpf := if stpf > stpmax then stpmax else stpf
          if stpf < stpmin then stpmin else stpf)) := by
  have hh : stp - stx ≠ 0 := by intro e; rw [e] at hd; simp at hd
  have hdx : dx ≠ 0 := by rintro rfl; simp at hd
  have hgap : (dx - dp) * (stp - stx) < 0 := by
    rcases lt_or_gt_of_ne hh with h | h
    · have h1 : 0 < dx := by by_contra hn; nlinarith
      have h2 : 0 ≤ dp := by by_contra hn; nlinarith
      rw [abs_of_nonneg h2, abs_of_pos h1] at ha
      nlinarith
    · have h1 : dx < 0 := by by_contra hn; nlinarith
      have h2 : dp ≤ 0 := by by_contra hn; nlinarith
      rw [abs_of_nonpos h2, abs_of_neg h1] at ha
      nlinarith
  have hsub : dp - dx ≠ 0 := by
    intro e
    have : dx - dp = 0 := by linarith
    rw [this] at hgap; simp at hgap
  set theta := 3 * (fx - fp) / (stp - stx) + dx + dp with htheta
  have hspos := scale_pos (theta := theta) (d2 := dp) (Or.inl hdx)
  -- the value of gamma
  obtain ⟨g, hgs, hg⟩ : ∃ g : ℝ, g * (stp - stx) ≤ 0 ∧
      cubicGamma3 (Num.val stx) (.val stp) (.val theta) (.val dx) (.val dp) = Num.val g := by
    unfold cubicGamma3
    simp only [fabs_val, max3_val]
    generalize max (max |theta| |dx|) |dp| = s at *
    have hs' : s ≠ 0 := hspos.ne'
    rw [Num.val_div hs', Num.val_div hs', Num.val_div hs', Num.val_mul, Num.val_mul, Num.val_sub]
    by_cases ht : (theta / s * (theta / s) - dx / s * (dp / s)) > 0
    · rw [if_pos (show Num.val (theta / s * (theta / s) - dx / s * (dp / s)) > (0 : Num ℝ) from ht),
        sqrt_val ht.le, Num.val_mul, Num.val_neg]
      have hq := mul_nonneg hspos.le (Real.sqrt_nonneg (theta / s * (theta / s) - dx / s * (dp / s)))
      by_cases h : stp > stx
      · rw [if_pos (show Num.val stp > Num.val stx from h)]
        exact ⟨_, by nlinarith, rfl⟩
      · rw [if_neg (show ¬ Num.val stp > Num.val stx from h)]
        exact ⟨_, by nlinarith, rfl⟩
    · rw [if_neg (show ¬ Num.val (theta / s * (theta / s) - dx / s * (dp / s)) > (0 : Num ℝ) from ht)]
      exact ⟨0, by simp, rfl⟩
  have hq0 : g + (dx - dp) + g ≠ 0 := by
    intro e
    have : (g + (dx - dp) + g) * (stp - stx) < 0 := by
      have : (g + (dx - dp) + g) * (stp - stx) = 2 * (g * (stp - stx)) + (dx - dp) * (stp - stx) := by ring
      linarith
    rw [e] at this; simp at this
  obtain ⟨r, hr⟩ : ∃ r, r = (g - dp + theta) / (g + (dx - dp) + g) := ⟨_, rfl⟩
  refine ⟨if r < 0 ∧ ¬ g = 0 then stp + r * (stx - stp) else if stp > stx then stpmax else stpmin,
    stp + dp / (dp - dx) * (stx - stp), ?_, ⟨?_, ?_⟩, ?_⟩
  · split
    · rename_i h
      left
      have : 0 < (stp - stx) * (stp - stx) := mul_self_pos.mpr hh
      nlinarith [h.1]
    · split
      · right; left; rename_i h; exact ⟨h, rfl⟩
      · right; right; rename_i h
        refine ⟨?_, rfl⟩
        rcases lt_or_gt_of_ne hh with h' | h' <;> linarith
  · have hsq : 0 < (stp - stx) * (stp - stx) := mul_self_pos.mpr hh
    have hle : dp / (dp - dx) ≤ 0 := by
      have e : dp / (dp - dx) = (dp * (stp - stx)) / ((dp - dx) * (stp - stx)) := by
        rw [mul_div_mul_right _ _ hh]
      rw [e]
      apply div_nonpos_of_nonpos_of_nonneg ho
      nlinarith
    nlinarith
  · intro h0 e
    have h1 : dp / (dp - dx) * (stx - stp) = 0 := by linarith
    rcases mul_eq_zero.mp h1 with h2 | h2
    · rcases div_eq_zero_iff.mp h2 with h3 | h3
      · exact h0 h3
      · exact hsub h3
    · apply hh; linarith
  · unfold cstep3
    simp only [lit_val, Num.val_sub, Num.val_mul, Num.val_add, Nat.cast_one, div_one, Nat.cast_ofNat,
      Num.val_div hh, ← htheta]
    simp only [hg, Num.val_sub, Num.val_add, Num.val_div hq0, Num.val_mul, Num.val_div hsub, fabs_val,
      ← hr, Num.val_zero, Num.val_lt, Num.val_beq, gt_iff_lt, Bool.not_eq_true', decide_eq_false_iff_not,
      ite_val]

/-- Real data seen as numbers which are possibly undefined. -/
def Bracket.val (b : Bracket ℝ) : Bracket (Num ℝ) :=
  ⟨.val b.stx, .val b.fx, .val b.dx, .val b.sty, .val b.fy, .val b.dy, b.brackt⟩

/-- The preconditions of `opk_cstep`, for an interval which is consistent: the best end point is
`stx` (the other end point has not a lower value) and the step is in the direction of the descent,
inside the interval once a minimum has been bracketed. -/
structure Consistent (b : Bracket ℝ) (stp stpmin stpmax : ℝ) : Prop where
  bounds : stpmin ≤ stpmax
  descent : b.dx * (stp - b.stx) < 0
  inside : b.brackt = true → min b.stx b.sty < stp ∧ stp < max b.stx b.sty
  best : b.brackt = true → b.fx ≤ b.fy
  within : b.brackt = true → stpmin ≤ stp ∧ stp ≤ stpmax

/-- Data at an end point. -/
def Bracket.x (b : Bracket ℝ) : ℝ × ℝ × ℝ := (b.stx, b.fx, b.dx)
def Bracket.y (b : Bracket ℝ) : ℝ × ℝ × ℝ := (b.sty, b.fy, b.dy)

/-- What is guaranteed after `opk_cstep`. -/
structure Improved (b : Bracket ℝ) (stp fp dp stpmin stpmax : ℝ) (b' : Bracket ℝ) (s : ℝ) : Prop where
  /-- The new end points are the current step and one of the former end points. -/
  ends : (b'.x = (stp, fp, dp) ∧ (b'.y = b.y ∨ b'.y = b.x)) ∨ (b'.x = b.x ∧ b'.y = (stp, fp, dp))
  /-- `stx` has the least function value. -/
  least : b'.fx ≤ b.fx ∧ b'.fx ≤ fp ∧ (b'.brackt = true → b'.fx ≤ b'.fy)
  /-- A minimum is bracketed as soon as the function increases or the derivative changes of sign. -/
  brackt : b'.brackt = true ↔ b.brackt = true ∨ b.fx < fp ∨ dp * b.dx < 0
  /-- The derivative at the best point is directed toward the other end point. -/
  direction : b'.brackt = true → b'.dx * (b'.sty - b'.stx) ≤ 0 ∧
    (dp ≠ 0 → b'.dx * (b'.sty - b'.stx) < 0)
  /-- The interval shrinks. -/
  shrink : b.brackt = true → min b.stx b.sty ≤ min b'.stx b'.sty ∧ max b'.stx b'.sty ≤ max b.stx b.sty
  nonempty : b'.brackt = true → b'.stx ≠ b'.sty
  /-- The new step is inside the bracketing interval. -/
  inside : b'.brackt = true → min b'.stx b'.sty ≤ s ∧ s ≤ max b'.stx b'.sty ∧ s ≠ b'.sty ∧
    (dp ≠ 0 → stpmin < stp → stp < stpmax → s ≠ b'.stx)
  /-- Otherwise it is within the bounds. -/
  within : b'.brackt = false → stpmin ≤ s ∧ s ≤ stpmax

theorem cstep_cases (b : Bracket ℝ) (stp fp dp stpmin stpmax : ℝ) (h1 : stpmin ≤ stpmax) (h2 : b.dx * (stp - b.stx) < 0)
    (h3 : b.brackt = true → min b.stx b.sty < stp ∧ stp < max b.stx b.sty) :
    cstep b.val (.val stp) (.val fp) (.val dp) (.val stpmin) (.val stpmax) =
      (if fp > b.fx then
        (.success, Bracket.val { b with sty := stp, fy := fp, dy := dp, brackt := true },
          cstep1 (.val b.stx) (.val b.fx) (.val b.dx) (.val stp) (.val fp) (.val dp))
      else if dp * b.dx < 0 then
        (.success, Bracket.val { stx := stp, fx := fp, dx := dp, sty := b.stx, fy := b.fx, dy := b.dx, brackt := true },
          cstep2 (.val b.stx) (.val b.fx) (.val b.dx) (.val stp) (.val fp) (.val dp))
      else
        (.success, Bracket.val { b with stx := stp, fx := fp, dx := dp },
          if |dp| < |b.dx| then
            cstep3 b.brackt (.val b.stx) (.val b.fx) (.val b.dx) (.val b.sty) (.val stp) (.val fp) (.val dp)
              (.val stpmin) (.val stpmax)
          else cstep4 b.brackt (.val b.stx) (.val b.sty) (.val b.fy) (.val b.dy) (.val stp) (.val fp)
              (.val dp) (.val stpmin) (.val stpmax))) := by
  unfold cstep
  simp only [Bracket.val, Num.val_sub, Num.val_mul, Num.val_zero, ge_iff_le, gt_iff_lt, Num.val_lt,
    Num.val_le, fabs_val]
  rw [if_neg, if_neg (not_le.mpr h2), if_neg (not_lt.mpr h1)]
  · have ho : ((dp < 0 ∧ 0 < b.dx) ∨ (0 < dp ∧ b.dx < 0)) ↔ dp * b.dx < 0 := by
      rw [mul_neg_iff]; tauto
    by_cases h5 : b.fx < fp
    · rw [if_pos h5, if_pos h5]
    · rw [if_neg h5, if_neg h5]
      by_cases h6 : dp * b.dx < 0
      · rw [if_pos h6, if_pos (by simpa using ho.mpr h6)]
      · rw [if_neg h6, if_neg (by simpa using fun h => h6 (ho.mp h))]
  · rintro ⟨hb, ho⟩
    obtain ⟨i1, i2⟩ := h3 hb
    split at ho
    · rename_i hlt
      rw [min_eq_left hlt.le] at i1
      rw [max_eq_right hlt.le] at i2
      rcases ho with ho | ho <;> linarith
    · rename_i hlt
      rw [min_eq_right (not_lt.mp hlt)] at i1
      rw [max_eq_left (not_lt.mp hlt)] at i2
      rcases ho with ho | ho <;> linarith

/-- **C20.** From a consistent interval, whatever the function value and the derivative at the
current step, `opk_cstep` succeeds, all numbers it computes are defined, and the updated interval and the
new step are as told by `Improved`; in exact arithmetic. -/
theorem cstep_interval (b : Bracket ℝ) (stp fp dp stpmin stpmax : ℝ)
    (h : Consistent b stp stpmin stpmax) :
    ∃ b' s, cstep b.val (.val stp) (.val fp) (.val dp) (.val stpmin) (.val stpmax) =
        (.success, b'.val, .val s) ∧ Improved b stp fp dp stpmin stpmax b' s := by
  rw [cstep_cases b stp fp dp stpmin stpmax h.bounds h.descent h.inside]
  obtain ⟨h1, h2, h3, h4, h6⟩ := h
  have hh : stp - b.stx ≠ 0 := by intro e; rw [e] at h2; simp at h2
  have hne : b.stx ≠ stp := by intro e; apply hh; rw [e]; ring
  have hdx : b.dx ≠ 0 := by intro e; rw [e] at h2; simp at h2
  by_cases c1 : fp > b.fx
  · rw [if_pos c1]
    obtain ⟨s, es, s1, s2⟩ := cstep1_val (dp := dp) h2 c1
    refine ⟨_, s, by rw [es], ?_⟩
    have hsh : b.brackt = true → min b.stx b.sty ≤ min b.stx stp ∧ max b.stx stp ≤ max b.stx b.sty := by
      intro hb
      obtain ⟨i1, i2⟩ := h3 hb
      exact ⟨le_min (min_le_left _ _) i1.le, max_le (le_max_left _ _) i2.le⟩
    refine ⟨Or.inr ⟨rfl, rfl⟩, ⟨le_refl _, c1.le, fun _ => c1.le⟩, ?_, fun _ => ⟨h2.le, fun _ => h2⟩,
      hsh, fun _ => hne, fun _ => ⟨s1.le, s2.le, ?_, fun _ _ _ => ?_⟩, fun hb => by cases hb⟩
    · simp [c1]
    · rintro rfl
      rcases lt_or_gt_of_ne hne with hl | hl
      · rw [max_eq_right hl.le] at s2; exact lt_irrefl _ s2
      · rw [min_eq_right hl.le] at s1; exact lt_irrefl _ s1
    · rintro rfl
      rcases lt_or_gt_of_ne hne with hl | hl
      · rw [min_eq_left hl.le] at s1; exact lt_irrefl _ s1
      · rw [max_eq_left hl.le] at s2; exact lt_irrefl _ s2
  rw [if_neg c1]
  have hfp : fp ≤ b.fx := not_lt.mp c1
  by_cases c2 : dp * b.dx < 0
  · rw [if_pos c2]
    have ho : 0 < dp * (stp - b.stx) := by
      have : 0 < (dp * b.dx) * (b.dx * (stp - b.stx)) := mul_pos_of_neg_of_neg c2 h2
      have e : (dp * b.dx) * (b.dx * (stp - b.stx)) = (b.dx * b.dx) * (dp * (stp - b.stx)) := by ring
      rw [e] at this
      exact (mul_pos_iff_of_pos_left (mul_self_pos.mpr hdx)).mp this
    obtain ⟨s, es, s1, s2⟩ := cstep2_val h2 hfp ho
    refine ⟨_, s, by rw [es], ?_⟩
    have hsh : b.brackt = true → min b.stx b.sty ≤ min stp b.stx ∧ max stp b.stx ≤ max b.stx b.sty := by
      intro hb
      obtain ⟨i1, i2⟩ := h3 hb
      exact ⟨le_min i1.le (min_le_left _ _), max_le i2.le (le_max_left _ _)⟩
    have hneg : dp * (b.stx - stp) < 0 := by nlinarith
    refine ⟨Or.inl ⟨rfl, Or.inr rfl⟩, ⟨hfp, le_refl _, fun _ => hfp⟩, ?_, fun _ => ⟨hneg.le, fun _ => hneg⟩,
      hsh, fun _ => hne.symm, fun _ => ⟨?_, ?_, ?_, fun _ _ _ => ?_⟩, fun hb => by cases hb⟩
    · simp [c2]
    · show min stp b.stx ≤ s; rw [min_comm]; exact s1.le
    · show s ≤ max stp b.stx; rw [max_comm]; exact s2.le
    · rintro rfl
      rcases lt_or_gt_of_ne hne with hl | hl
      · rw [min_eq_left hl.le] at s1; exact lt_irrefl _ s1
      · rw [max_eq_left hl.le] at s2; exact lt_irrefl _ s2
    · rintro rfl
      rcases lt_or_gt_of_ne hne with hl | hl
      · rw [max_eq_right hl.le] at s2; exact lt_irrefl _ s2
      · rw [min_eq_right hl.le] at s1; exact lt_irrefl _ s1
  rw [if_neg c2]
  have ho : dp * (stp - b.stx) ≤ 0 := by
    by_contra hn
    apply c2
    have : (dp * (stp - b.stx)) * (b.dx * (stp - b.stx)) < 0 := mul_neg_of_pos_of_neg (not_le.mp hn) h2
    have e : (dp * (stp - b.stx)) * (b.dx * (stp - b.stx)) =
      ((stp - b.stx) * (stp - b.stx)) * (dp * b.dx) := by ring
    rw [e] at this
    by_contra hn2
    exact absurd this (not_lt.mpr (mul_nonneg (mul_self_nonneg _) (not_lt.mp hn2)))
  -- the facts common to the two last cases
  have hbr : (b.brackt = true) ↔ (b.brackt = true ∨ b.fx < fp ∨ dp * b.dx < 0) := by
    constructor
    · exact Or.inl
    · rintro (h | h | h)
      · exact h
      · exact absurd h c1
      · exact absurd h c2
  have hside : b.brackt = true → 0 < (b.sty - stp) * (stp - b.stx) := by
    intro hb
    obtain ⟨i1, i2⟩ := h3 hb
    rcases lt_or_gt_of_ne hne with hl | hl
    · have : stp < b.sty := by
        rcases max_choice b.stx b.sty with e | e <;> rw [e] at i2 <;> linarith
      nlinarith
    · have : b.sty < stp := by
        rcases min_choice b.stx b.sty with e | e <;> rw [e] at i1 <;> linarith
      nlinarith
  have hdir : b.brackt = true → dp * (b.sty - stp) ≤ 0 ∧ (dp ≠ 0 → dp * (b.sty - stp) < 0) := by
    intro hb
    have hs := hside hb
    have hsq : 0 < (stp - b.stx) * (stp - b.stx) := mul_self_pos.mpr hh
    have e : (dp * (b.sty - stp)) * ((stp - b.stx) * (stp - b.stx)) =
        (dp * (stp - b.stx)) * ((b.sty - stp) * (stp - b.stx)) := by ring
    constructor
    · by_contra hn
      have := mul_pos (not_le.mp hn) hsq
      rw [e] at this
      exact absurd this (not_lt.mpr (mul_nonpos_of_nonpos_of_nonneg ho hs.le))
    · intro h0
      have ho' : dp * (stp - b.stx) < 0 := lt_of_le_of_ne ho (mul_ne_zero h0 hh)
      by_contra hn
      have := mul_nonneg (not_lt.mp hn) hsq.le
      rw [e] at this
      exact absurd this (not_le.mpr (mul_neg_of_neg_of_pos ho' hs))
  have hne' : b.brackt = true → stp ≠ b.sty := by
    intro hb e; have := hside hb; rw [e] at this; simp at this
  have hsh : b.brackt = true → min b.stx b.sty ≤ min stp b.sty ∧ max stp b.sty ≤ max b.stx b.sty := by
    intro hb
    obtain ⟨i1, i2⟩ := h3 hb
    exact ⟨le_min i1.le (min_le_right _ _), max_le i2.le (le_max_right _ _)⟩
  suffices hs : ∃ s, (if |dp| < |b.dx| then
            cstep3 b.brackt (.val b.stx) (.val b.fx) (.val b.dx) (.val b.sty) (.val stp) (.val fp) (.val dp)
              (.val stpmin) (.val stpmax)
          else cstep4 b.brackt (.val b.stx) (.val b.sty) (.val b.fy) (.val b.dy) (.val stp) (.val fp)
              (.val dp) (.val stpmin) (.val stpmax)) = Num.val s ∧
      (b.brackt = true → min stp b.sty ≤ s ∧ s ≤ max stp b.sty ∧ s ≠ b.sty ∧
        (dp ≠ 0 → stpmin < stp → stp < stpmax → s ≠ stp)) ∧
      (b.brackt = false → stpmin ≤ s ∧ s ≤ stpmax) by
    obtain ⟨s, es, i, w⟩ := hs
    exact ⟨{ b with stx := stp, fx := fp, dx := dp }, s, by rw [es], Or.inl ⟨rfl, Or.inl rfl⟩,
      ⟨hfp, le_refl _, fun hb => le_trans hfp (h4 hb)⟩, hbr, hdir, hsh, hne', i, w⟩
  split
  · rename_i hlt
    obtain ⟨stpc, stpq, hc, ⟨hq, hq'⟩, es⟩ := cstep3_val (fx := b.fx) (sty := b.sty) (fp := fp)
      (stpmin := stpmin) (stpmax := stpmax) b.brackt h2 ho hlt
    refine ⟨_, es, ?_, ?_⟩
    · intro hb
      rw [if_pos hb]
      have hs := hside hb
      obtain ⟨w1, w2⟩ := h6 hb
      have hc0 : 0 ≤ (stpc - stp) * (stp - b.stx) := by
        rcases hc with hc | ⟨hl, rfl⟩ | ⟨hl, rfl⟩
        · exact hc.le
        · nlinarith
        · nlinarith
      have hc1 : stpmin < stp → stp < stpmax → stpc ≠ stp := by
        intro a1 a2 e
        rcases hc with hc | ⟨hl, hc⟩ | ⟨hl, hc⟩
        · rw [e] at hc; simp at hc
        · linarith
        · linarith
      dsimp only
      obtain ⟨t, ht, ht0, ht1⟩ : ∃ t, (if |stpc - stp| < |stpq - stp| then stpc else stpq) = t ∧
          0 ≤ (t - stp) * (stp - b.stx) ∧ (dp ≠ 0 → stpmin < stp → stp < stpmax → t ≠ stp) := by
        split
        · exact ⟨_, rfl, hc0, fun _ => hc1⟩
        · exact ⟨_, rfl, hq, fun h _ _ => hq' h⟩
      rw [ht]
      rcases lt_or_gt_of_ne hne with hl | hl
      · have hy : stp < b.sty := by by_contra hn; nlinarith
        have ht2 : stp ≤ t := by by_contra hn; nlinarith
        simp only [gt_iff_lt, hl, if_true]
        rw [min_eq_left hy.le, max_eq_right hy.le]
        split
        · refine ⟨by linarith, by linarith, by linarith, fun _ _ _ => by linarith⟩
        · rename_i hle
          have hle := not_lt.mp hle
          exact ⟨ht2, by linarith, by linarith, ht1⟩
      · have hy : b.sty < stp := by by_contra hn; nlinarith
        have ht2 : t ≤ stp := by by_contra hn; nlinarith
        simp only [gt_iff_lt, not_lt.mpr hl.le, if_false]
        rw [min_eq_right hy.le, max_eq_left hy.le]
        split
        · refine ⟨by linarith, by linarith, by linarith, fun _ _ _ => by linarith⟩
        · rename_i hle
          have hle := not_lt.mp hle
          exact ⟨by linarith, ht2, by linarith, ht1⟩
    · intro hb
      rw [if_neg (by rw [hb]; simp)]
      dsimp only
      generalize (if |stpc - stp| > |stpq - stp| then stpc else stpq) = t
      split_ifs <;> constructor <;> linarith
  · rename_i hge
    have hdp : dp ≠ 0 := by
      rintro rfl
      apply hge
      rw [abs_zero]; exact abs_pos.mpr hdx
    by_cases hb : b.brackt = true
    · rw [hb]
      obtain ⟨s, es, s1, s2⟩ := cstep4_val (stx := b.stx) (dy := b.dy) (fp := fp) (fy := b.fy) (stpmin := stpmin) (stpmax := stpmax)
        ((hdir hb).2 hdp) (by have := le_trans hfp (h4 hb); have := (hdir hb).2 hdp; linarith)
      refine ⟨s, es, fun _ => ⟨s1.le, s2.le, ?_, fun _ _ _ => ?_⟩, fun h => by cases h⟩
      · rintro rfl
        rcases lt_or_gt_of_ne (hne' hb) with hl | hl
        · rw [max_eq_right hl.le] at s2; exact lt_irrefl _ s2
        · rw [min_eq_right hl.le] at s1; exact lt_irrefl _ s1
      · rintro rfl
        rcases lt_or_gt_of_ne (hne' hb) with hl | hl
        · rw [min_eq_left hl.le] at s1; exact lt_irrefl _ s1
        · rw [max_eq_left hl.le] at s2; exact lt_irrefl _ s2
    · have hb' : b.brackt = false := by simpa using hb
      rw [hb']
      unfold cstep4
      simp only [Bool.false_eq_true, if_false, gt_iff_lt, Num.val_lt, ite_val]
      refine ⟨_, rfl, fun h => h.elim, fun _ => ?_⟩
      split <;> constructor <;> linarith

/-- **C20 (errors).** Inconsistent arguments are rejected, in the documented order, and nothing is
modified; for any arithmetic. -/
theorem cstep_rejects {F : Type} [Add F] [Sub F] [Mul F] [Div F] [Neg F] [One F] [Zero F] [LinearOrder F]
    [CMath F] (b : Bracket F) (stp fp dp stpmin stpmax : F) :
    (b.brackt = true ∧ ¬ (min b.stx b.sty < stp ∧ stp < max b.stx b.sty) →
      cstep b stp fp dp stpmin stpmax = (.stepOutsideBracket, b, stp)) ∧
    (¬ (b.brackt = true ∧ ¬ (min b.stx b.sty < stp ∧ stp < max b.stx b.sty)) →
      (0 ≤ b.dx * (stp - b.stx) → cstep b stp fp dp stpmin stpmax = (.notADescent, b, stp)) ∧
      (b.dx * (stp - b.stx) < 0 → stpmax < stpmin →
        cstep b stp fp dp stpmin stpmax = (.stpminGtStpmax, b, stp)) ∧
      (b.dx * (stp - b.stx) < 0 → stpmin ≤ stpmax → (cstep b stp fp dp stpmin stpmax).1 = .success)) := by
  have hiff : (b.brackt = true ∧ (if b.stx < b.sty then stp ≤ b.stx ∨ stp ≥ b.sty
      else stp ≤ b.sty ∨ stp ≥ b.stx)) ↔
      (b.brackt = true ∧ ¬ (min b.stx b.sty < stp ∧ stp < max b.stx b.sty)) := by
    apply and_congr_right
    intro _
    split
    · rename_i h
      rw [min_eq_left h.le, max_eq_right h.le, not_and_or, not_lt, not_lt]
    · rename_i h
      rw [min_eq_right (not_lt.mp h), max_eq_left (not_lt.mp h), not_and_or, not_lt, not_lt]
  unfold cstep
  refine ⟨fun h => by rw [if_pos (hiff.mpr h)], fun h => ?_⟩
  rw [if_neg (hiff.not.mpr h)]
  refine ⟨fun h1 => by rw [if_pos h1], fun h1 h2 => by rw [if_neg (not_le.mpr h1), if_pos h2], fun h1 h2 => ?_⟩
  rw [if_neg (not_le.mpr h1), if_neg (not_lt.mpr h2)]
  dsimp only
  split
  · rfl
  split <;> rfl

/-- **C20 (meaning).** The bracketing interval does contain a minimum: for every function which is
continuous and has, at the end points, the values of the interval and, at the best one, the
derivative of the interval (these satisfy the conclusions of `Improved`), there is a local minimum strictly inside the interval, with a lower value than at the end points. -/
theorem bracket_contains_minimum (b : Bracket ℝ) (phi : ℝ → ℝ) (hc : Continuous phi)
    (hx : phi b.stx = b.fx) (hy : phi b.sty = b.fy) (hdx : HasDerivAt phi b.dx b.stx)
    (h1 : b.fx ≤ b.fy)
    (h3 : b.dx * (b.sty - b.stx) < 0) :
    ∃ t, min b.stx b.sty < t ∧ t < max b.stx b.sty ∧ IsLocalMin phi t ∧ phi t < b.fx := by
  -- lower values next to a point where the derivative is not zero
  have lower : ∀ (x d : ℝ), HasDerivAt phi d x → ∀ u, d * u < 0 → ∃ t, 0 < t ∧ t < 1 ∧
      phi (x + t * u) < phi x := by
    intro x d hd u hu
    have hlim := hd.tendsto_slope
    have hu0 : u ≠ 0 := by rintro rfl; simp at hu
    have hpos : 0 < |d| := by
      apply abs_pos.mpr; rintro rfl; simp at hu
    rcases lt_or_gt_of_ne hu0 with hn | hp
    · have hd0 : 0 < d := by by_contra h; nlinarith
      have ev : ∀ᶠ t in nhdsWithin x {x}ᶜ, 0 < slope phi x t := hlim.eventually_const_lt hd0
      rw [eventually_nhdsWithin_iff, Metric.eventually_nhds_iff] at ev
      obtain ⟨δ, hδ, h⟩ := ev
      refine ⟨min (1 / 2) (δ / (2 * |u|)), by positivity, lt_of_le_of_lt (min_le_left _ _) (by norm_num), ?_⟩
      set t := min (1 / 2) (δ / (2 * |u|))
      have ht : 0 < t := by positivity
      have ht2 : t * |u| < δ := by
        have : t ≤ δ / (2 * |u|) := min_le_right _ _
        have hu' : 0 < |u| := abs_pos.mpr hu0
        calc t * |u| ≤ δ / (2 * |u|) * |u| := mul_le_mul_of_nonneg_right this hu'.le
          _ = δ / 2 := by field_simp
          _ < δ := by linarith
      have hs := @h (x + t * u) (by simp [abs_of_pos ht, ht2])
        (by simp [ht.ne', hu0])
      rw [slope_def_field] at hs
      have e : x + t * u - x = t * u := by ring
      rw [e] at hs
      have hneg : t * u < 0 := mul_neg_of_pos_of_neg ht hn
      by_contra hge
      have : (phi (x + t * u) - phi x) / (t * u) ≤ 0 :=
        div_nonpos_of_nonneg_of_nonpos (by linarith [not_lt.mp hge]) hneg.le
      linarith
    · have hd0 : d < 0 := by by_contra h; nlinarith
      have ev : ∀ᶠ t in nhdsWithin x {x}ᶜ, slope phi x t < 0 := hlim.eventually_lt_const hd0
      rw [eventually_nhdsWithin_iff, Metric.eventually_nhds_iff] at ev
      obtain ⟨δ, hδ, h⟩ := ev
      refine ⟨min (1 / 2) (δ / (2 * |u|)), by positivity, lt_of_le_of_lt (min_le_left _ _) (by norm_num), ?_⟩
      set t := min (1 / 2) (δ / (2 * |u|))
      have ht : 0 < t := by positivity
      have ht2 : t * |u| < δ := by
        have : t ≤ δ / (2 * |u|) := min_le_right _ _
        have hu' : 0 < |u| := abs_pos.mpr hu0
        calc t * |u| ≤ δ / (2 * |u|) * |u| := mul_le_mul_of_nonneg_right this hu'.le
          _ = δ / 2 := by field_simp
          _ < δ := by linarith
      have hs := @h (x + t * u) (by simp [abs_of_pos ht, ht2])
        (by simp [ht.ne', hu0])
      rw [slope_def_field] at hs
      have e : x + t * u - x = t * u := by ring
      rw [e] at hs
      have hneg : 0 < t * u := mul_pos ht hp
      by_contra hge
      have : 0 ≤ (phi (x + t * u) - phi x) / (t * u) :=
        div_nonneg (by linarith [not_lt.mp hge]) hneg.le
      linarith
  have hne : b.stx ≠ b.sty := by intro e; rw [e] at h3; simp at h3
  have hlt : min b.stx b.sty < max b.stx b.sty := by
    rcases lt_or_gt_of_ne hne with h | h
    · rw [min_eq_left h.le, max_eq_right h.le]; exact h
    · rw [min_eq_right h.le, max_eq_left h.le]; exact h
  obtain ⟨m, hm, hmin⟩ := isCompact_Icc.exists_isMinOn (Set.nonempty_Icc.mpr hlt.le) hc.continuousOn
  have inI : ∀ t, 0 < t → t < 1 → b.stx + t * (b.sty - b.stx) ∈ Set.Icc (min b.stx b.sty) (max b.stx b.sty) := by
    intro t t0 t1
    have := between_of_ratio t0 t1 hne
    exact ⟨this.1.le, this.2.le⟩
  obtain ⟨t, t0, t1, ht⟩ := lower b.stx b.dx hdx (b.sty - b.stx) h3
  have hmx : phi m < b.fx := by
    have := hmin (inI t t0 t1)
    simp only [Set.mem_ofPred_eq] at this
    rw [hx] at ht; linarith
  have nx : m ≠ b.stx := by rintro rfl; rw [hx] at hmx; exact lt_irrefl _ hmx
  have ny : m ≠ b.sty := by rintro rfl; rw [hy] at hmx; linarith
  have i1 : min b.stx b.sty < m := by
    refine lt_of_le_of_ne hm.1 ?_
    rcases min_choice b.stx b.sty with e | e <;> rw [e]
    · exact nx.symm
    · exact ny.symm
  have i2 : m < max b.stx b.sty := by
    refine lt_of_le_of_ne hm.2 ?_
    rcases max_choice b.stx b.sty with e | e <;> rw [e]
    · exact nx
    · exact ny
  exact ⟨m, i1, i2, hmin.isLocalMin (Icc_mem_nhds i1 i2), hmx⟩

/-- A consistent bracketed interval (values of `(t - 1)²`) and a consistent interval at the start. -/
example : Consistent ⟨0, 1, -2, 3, 4, 4, true⟩ 2 0 3 ∧ Consistent ⟨0, 1, -2, 0, 1, -2, false⟩ (1 / 2) 0 4 := by
  constructor <;> constructor <;> norm_num

end cstep
end Opk.LineSearch
