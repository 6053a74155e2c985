import Verif.Fmin.Minimum
import Mathlib.Algebra.Order.Archimedean.Basic
import Mathlib.Algebra.Order.AbsoluteValue.Basic
import Mathlib.Tactic.Positivity
/-!
# Univariate minimization: accuracy and termination without budget for unimodal functions (C62)
-/
set_option linter.unusedSectionVars false
namespace Opk.Fmin

variable {K Y : Type} [Field K] [LinearOrder K] [IsStrictOrderedRing K] [CMath K] [ExactMath K] [Value Y]

/-! ## The ratio of the two parts of the interval -/

/-- The possible ratios: all are the inverse of the golden ratio up to the rounding of the constants. -/
def GoldenRatio (r : K) : Prop := r = ALPHA / (1 - ALPHA) ∨ r = 1 - ALPHA ∨ r = 1 / GAMMA ∨ r = ALPHA * GAMMA

theorem golden_bounds (r : K) (h : GoldenRatio r) : 6180 / 10000 < r ∧ r < 6181 / 10000 := by
  unfold GoldenRatio ALPHA GAMMA at h
  simp only [ExactMath.lit_eq] at h
  rcases h with rfl | rfl | rfl | rfl <;> norm_num

theorem golden_next (r : K) (h : GoldenRatio r) : GoldenRatio (ALPHA / r) := by
  have h1 : (0 : K) < ALPHA := alpha_bounds.1
  have h2 : (0 : K) < 1 - ALPHA := by have := alpha_bounds (K := K); linarith [this.2]
  have h3 : (0 : K) < GAMMA := gamma_bounds
  rcases h with rfl | rfl | rfl | rfl
  · right; left; field_simp
  · left; rfl
  · right; right; right; field_simp
  · right; right; left; field_simp

/-- The part of the interval near `u` is the smallest one. -/
def Balanced (s : Run K Y) : Prop := ∃ r, GoldenRatio r ∧ |s.v - s.u| = r * |s.w - s.v|

theorem balanced_enter (f : Nat → K → Y) (a b : K) (flags : Nat) : Balanced (enter f a b flags) := by
  obtain ⟨-, hv, -⟩ := enter_cases f a b flags _ rfl
  have h1 : (0 : K) < ALPHA := alpha_bounds.1
  have h2 : (0 : K) < 1 - ALPHA := by have := alpha_bounds (K := K); linarith [this.2]
  refine ⟨ALPHA / (1 - ALPHA), Or.inl rfl, ?_⟩
  rw [hv]
  set u := (enter f a b flags).u
  set w := (enter f a b flags).w
  have e1 : interp u w - u = ALPHA * (w - u) := by unfold interp; ring
  have e2 : w - interp u w = (1 - ALPHA) * (w - u) := by unfold interp; ring
  rw [e1, e2, abs_mul, abs_mul, abs_of_pos h1, abs_of_pos h2]
  field_simp

theorem balanced_step (f : Nat → K → Y) (maxeval : Int) (prec : K) (s : Run K Y) (h : Balanced s) : Balanced (step f maxeval prec s) := by
  have h1 : (0 : K) < ALPHA := alpha_bounds.1
  have h2 : (0 : K) < 1 - ALPHA := by have := alpha_bounds (K := K); linarith [this.2]
  have h3 : (0 : K) < GAMMA := gamma_bounds
  obtain ⟨r, hr, he⟩ := h
  have hr0 : 0 < r := by have := golden_bounds r hr; linarith [this.1]
  rcases step_cases f maxeval prec s _ rfl with ⟨p, e, hc⟩ | ⟨-, x, y, -, -, -, -, hc⟩
  · rw [e]; exact ⟨r, hr, he⟩
  · rcases hc with ⟨-, -, hx, k1, -, k3, -, k5, -⟩ | ⟨-, -, hx, hc⟩
    · refine ⟨1 / GAMMA, Or.inr (Or.inr (Or.inl rfl)), ?_⟩
      rw [k1, k3, k5, hx]
      have e1 : extrap s.v s.w - s.w = GAMMA * (s.w - s.v) := by unfold extrap; ring
      rw [e1, abs_mul, abs_of_pos h3]
      field_simp
    · rcases hc with ⟨-, k1, -, k3, -, k5, -⟩ | ⟨-, k1, -, k3, -, k5, -⟩
      · refine ⟨ALPHA / r, golden_next r hr, ?_⟩
        rw [k1, k3, k5, hx]
        have e1 : s.v - interp s.v s.w = -(ALPHA * (s.w - s.v)) := by unfold interp; ring
        rw [e1, abs_neg, abs_mul, abs_of_pos h1, abs_sub_comm s.u s.v, he]
        field_simp
      · refine ⟨ALPHA / (1 - ALPHA), Or.inl rfl, ?_⟩
        rw [k1, k3, k5, hx]
        have e1 : interp s.v s.w - s.v = ALPHA * (s.w - s.v) := by unfold interp; ring
        have e2 : s.w - interp s.v s.w = (1 - ALPHA) * (s.w - s.v) := by unfold interp; ring
        rw [e1, e2, abs_mul, abs_mul, abs_of_pos h1, abs_of_pos h2]
        field_simp

theorem balanced_after (f : Nat → K → Y) (a b : K) (flags : Nat) (maxeval : Int) (prec sqrtEps : K) (k : Nat) :
    Balanced (after f a b flags maxeval prec sqrtEps k) :=
  after_inv Balanced f a b flags maxeval prec sqrtEps (balanced_enter f a b flags) (fun s p hs => balanced_step f maxeval p s hs) k

/-- The width of the interval. -/
theorem width_eq (s : Run K Y) (ho : Ordered s) : |s.w - s.u| = |s.v - s.u| + |s.w - s.v| := by
  rcases ho with ⟨o1, o2⟩ | ⟨o1, o2⟩
  · rw [abs_of_pos (sub_pos.2 (o1.trans o2)), abs_of_pos (sub_pos.2 o1), abs_of_pos (sub_pos.2 o2)]; ring
  · rw [abs_of_neg (sub_neg.2 (o1.trans o2)), abs_of_neg (sub_neg.2 o2), abs_of_neg (sub_neg.2 o1)]; ring

theorem part_bounds (s : Run K Y) (ho : Ordered s) (hb : Balanced s) :
    |s.v - s.u| < |s.w - s.v| ∧ 6180 / 10000 * |s.w - s.u| < |s.w - s.v| ∧ |s.w - s.v| < 6181 / 10000 * |s.w - s.u| ∧ 0 < |s.w - s.u| := by
  obtain ⟨r, hr, he⟩ := hb
  obtain ⟨b1, b2⟩ := golden_bounds r hr
  have hpos : 0 < |s.w - s.v| := by
    rw [abs_pos]
    rcases ho with ⟨o1, o2⟩ | ⟨o1, o2⟩
    · exact (sub_pos.2 o2).ne'
    · exact (sub_neg.2 o1).ne
  have hw := width_eq s ho
  rw [he] at hw
  have c1 := mul_lt_mul_of_pos_right b1 hpos
  have c2 := mul_lt_mul_of_pos_right b2 hpos
  rw [he]
  refine ⟨by linarith, by linarith, by linarith, by linarith⟩

/-- **C62.** Each evaluation following the bracketing divides the width of the interval by at least 1.6178. -/
theorem shrinks (f : Nat → K → Y) (maxeval : Int) (prec : K) (s : Run K Y) (ho : Ordered s) (hb : Balanced s) (hp : s.phase = .reduce)
    (hp' : (step f maxeval prec s).phase = .reduce) :
    |(step f maxeval prec s).w - (step f maxeval prec s).u| < 6181 / 10000 * |s.w - s.u| ∧ (step f maxeval prec s).log.length = s.log.length + 1 := by
  obtain ⟨q1, q2, q3, q4⟩ := part_bounds s ho hb
  have hw := width_eq s ho
  rcases step_cases f maxeval prec s _ rfl with ⟨p, e, hc⟩ | ⟨-, x, y, -, hl, -, -, hc⟩
  · rw [e] at hp'
    simp only at hp'
    rw [hp] at hc
    rcases hc with ⟨k, -⟩ | ⟨k, -⟩ | ⟨-, -, k⟩ | ⟨-, -, -, -, k⟩ | ⟨st, k, -⟩
    · cases k
    · cases k
    · rw [hp'] at k; cases k
    · rw [hp'] at k; cases k
    · cases k
  · refine ⟨?_, by rw [hl]; simp⟩
    rw [hp] at hc
    rcases hc with ⟨k, -⟩ | ⟨-, -, hx, hc⟩
    · cases k
    · rcases hc with ⟨-, k1, -, k3, -, k5, -⟩ | ⟨-, k1, -, k3, -, k5, -⟩
      · rw [k1, k5, hx]
        have h1 : (0 : K) < ALPHA := alpha_bounds.1
        have h2 : (ALPHA : K) < 38197 / 100000 := by unfold ALPHA; rw [ExactMath.lit_eq]; norm_num
        have e1 : s.u - interp s.v s.w = -((s.v - s.u) + ALPHA * (s.w - s.v)) := by unfold interp; ring
        rw [e1, abs_neg]
        have t1 : |(s.v - s.u) + ALPHA * (s.w - s.v)| ≤ |s.v - s.u| + |ALPHA * (s.w - s.v)| := abs_add_le _ _
        rw [abs_mul, abs_of_pos h1] at t1
        have t2 : ALPHA * |s.w - s.v| ≤ 38197 / 100000 * |s.w - s.v| := mul_le_mul_of_nonneg_right h2.le (abs_nonneg _)
        linarith
      · rw [k1, k5]
        exact q3

/-- The test of convergence. -/
theorem converged_iff (prec u v w : K) : converged prec u v w = true ↔ |w - v| ≤ prec * max (max |u| |v|) |w| := by
  unfold converged
  simp only [ExactMath.fabs_eq, decide_eq_true_eq]
  have e : ∀ x y : K, (if x > y then x else y) = max y x := by
    intro x y
    by_cases h : x > y
    · rw [if_pos h, max_eq_right h.le]
    · rw [if_neg h, max_eq_left (not_lt.1 h)]
  rw [e, e]

/-- A run has converged only if the test succeeds. -/
theorem done_converged (f : Nat → K → Y) (a b : K) (flags : Nat) (maxeval : Int) (prec sqrtEps : K) (k : Nat) :
    (after f a b flags maxeval prec sqrtEps k).phase = .done 0 →
    converged (if prec < 0 then sqrtEps else prec) (after f a b flags maxeval prec sqrtEps k).u (after f a b flags maxeval prec sqrtEps k).v
      (after f a b flags maxeval prec sqrtEps k).w = true := by
  induction k with
  | zero =>
    intro h
    have : (after f a b flags maxeval prec sqrtEps 0).phase = .bracket := (enter_cases f a b flags _ rfl).1
    rw [this] at h; cases h
  | succ k ih =>
    intro h
    rcases step_cases f maxeval (if prec < 0 then sqrtEps else prec) _ _ (after_succ f a b flags maxeval prec sqrtEps k).symm with
      ⟨p, e, hc⟩ | ⟨-, x, y, -, -, -, hph, hc⟩
    · rw [e] at h ⊢
      simp only at h ⊢
      subst h
      rcases hc with ⟨-, -, -, -, k⟩ | ⟨-, -, k⟩ | ⟨-, hc, -⟩ | ⟨-, -, -, -, k⟩ | ⟨st, h, k⟩
      · cases k
      · cases k
      · exact hc
      · cases k
      · cases k; exact ih h
    · rw [h] at hph
      rw [← hph] at hc
      rcases hc with ⟨k, -⟩ | ⟨k, -⟩ <;> cases k

variable [LinearOrder Y] [OrderTop Y] [OrderedValue Y]

/-- **C62.** When `opk_fmin` returns 0 for a strictly unimodal function, the uncertainty is smaller than the requested precision times the magnitude
of the points of the final interval. -/
theorem accuracy (g : K → Y) (a b xs : K) (flags : Nat) (hu : Unimodal a b flags g xs) (maxeval : Int) (prec sqrtEps : K)
    (o : Out K Y) (log : List (K × Y)) (h : Returns (fun _ => g) a b flags maxeval prec sqrtEps 0 (some o) log) :
    |o.xmin - xs| < (if prec < 0 then sqrtEps else prec) * max (max |o.xlo| |o.xhi|) |o.xmin| := by
  unfold Returns at h
  by_cases hab : a = b
  · rw [if_pos hab] at h; cases h.2.1
  · rw [if_neg hab] at h
    obtain ⟨k, s, hs, h1, h2, rfl⟩ := h
    have ho := ordered_after (fun _ => g) a b hab flags maxeval prec sqrtEps k
    have hb := balanced_after (fun _ => g) a b flags maxeval prec sqrtEps k
    have hm := minimizer_bracketed g a b xs hab flags hu maxeval prec sqrtEps k (by rw [hs, h1]; simp)
    have hc := done_converged (fun _ => g) a b flags maxeval prec sqrtEps k (by rw [hs, h1])
    simp only at hm
    rw [hs] at ho hm hb hc
    rw [converged_iff] at hc
    obtain ⟨q1, -, -, -⟩ := part_bounds s ho hb
    rw [Option.some.injEq] at h2
    subst h2
    have hd : |s.v - xs| < |s.w - s.v| := by
      rcases ho with ⟨o1, o2⟩ | ⟨o1, o2⟩
      · rw [abs_of_pos (sub_pos.2 o1), abs_of_pos (sub_pos.2 o2)] at q1
        rw [abs_of_pos (sub_pos.2 o2), abs_lt]
        rcases hm with m | m
        · constructor <;> linarith [m.1, m.2]
        · exact absurd (m.1.trans m.2) (not_lt.2 (o1.trans o2).le)
      · rw [abs_of_neg (sub_neg.2 o2), abs_of_neg (sub_neg.2 o1)] at q1
        rw [abs_of_neg (sub_neg.2 o1), abs_lt]
        rcases hm with m | m
        · exact absurd (m.1.trans m.2) (not_lt.2 (o1.trans o2).le)
        · constructor <;> linarith [m.1, m.2]
    have e1 : max (max |s.u| |s.v|) |s.w| = max (max |s.u| |s.w|) |s.v| := max_right_comm _ _ _
    unfold output
    by_cases hgt : s.u > s.w
    · rw [if_pos hgt]
      show |s.v - xs| < _ * max (max |s.w| |s.u|) |s.v|
      rw [max_comm |s.w| |s.u|, ← e1]
      exact lt_of_lt_of_le hd hc
    · rw [if_neg hgt]
      show |s.v - xs| < _ * max (max |s.u| |s.w|) |s.v|
      rw [← e1]
      exact lt_of_lt_of_le hd hc

/-- **C62.** If the minimizer is zero, the relative precision is never reached (in exact arithmetic). -/
theorem no_convergence_at_zero (g : K → Y) (a b : K) (flags : Nat) (hu : Unimodal a b flags g 0) (maxeval : Int) (prec sqrtEps : K)
    (hprec : (if prec < 0 then sqrtEps else prec) ≤ 1 / 2) (out : Option (Out K Y)) (log : List (K × Y)) :
    ¬ Returns (fun _ => g) a b flags maxeval prec sqrtEps 0 out log := by
  intro h
  unfold Returns at h
  by_cases hab : a = b
  · rw [if_pos hab] at h; exact absurd h.1 (by decide)
  · rw [if_neg hab] at h
    obtain ⟨k, s, hs, h1, h2, rfl⟩ := h
    have ho := ordered_after (fun _ => g) a b hab flags maxeval prec sqrtEps k
    have hb := balanced_after (fun _ => g) a b flags maxeval prec sqrtEps k
    have hm := minimizer_bracketed g a b 0 hab flags hu maxeval prec sqrtEps k (by rw [hs, h1]; simp)
    have hc := done_converged (fun _ => g) a b flags maxeval prec sqrtEps k (by rw [hs, h1])
    simp only at hm
    rw [hs] at ho hm hb hc
    rw [converged_iff] at hc
    obtain ⟨-, q2, -, q4⟩ := part_bounds s ho hb
    have hmax : max (max |s.u| |s.v|) |s.w| ≤ |s.w - s.u| := by
      rcases ho with ⟨o1, o2⟩ | ⟨o1, o2⟩ <;> rcases hm with ⟨m1, m2⟩ | ⟨m1, m2⟩
      · rw [abs_of_pos (sub_pos.2 (o1.trans o2))]
        refine max_le (max_le ?_ ?_) ?_ <;> rw [abs_le] <;> constructor <;> linarith
      · exact absurd (m1.trans m2) (not_lt.2 (o1.trans o2).le)
      · exact absurd (m1.trans m2) (not_lt.2 (o1.trans o2).le)
      · rw [abs_of_neg (sub_neg.2 (o1.trans o2))]
        refine max_le (max_le ?_ ?_) ?_ <;> rw [abs_le] <;> constructor <;> linarith
    have hnn : 0 ≤ max (max |s.u| |s.v|) |s.w| := le_trans (abs_nonneg s.w) (le_max_right _ _)
    have t1 : (if prec < 0 then sqrtEps else prec) * max (max |s.u| |s.v|) |s.w| ≤ 1 / 2 * max (max |s.u| |s.v|) |s.w| :=
      mul_le_mul_of_nonneg_right hprec hnn
    linarith

/-! ## Termination without budget -/

/-- Bracketing ends. -/
theorem bracketing_ends [Archimedean K] (g : K → Y) (a b xs : K) (hab : a ≠ b) (flags : Nat) (hu : Unimodal a b flags g xs) (maxeval : Int) (hm : maxeval ≤ 0)
    (prec sqrtEps : K) : ∃ k, (after (fun _ => g) a b flags maxeval prec sqrtEps k).phase = .reduce := by
  by_contra hno
  rw [not_exists] at hno
  -- the run stays in the first loop
  have stay : ∀ k, (after (fun _ => g) a b flags maxeval prec sqrtEps k).phase = .bracket := by
    intro k
    induction k with
    | zero => exact (enter_cases (fun _ => g) a b flags _ rfl).1
    | succ k ih =>
      rcases step_cases (fun _ => g) maxeval (if prec < 0 then sqrtEps else prec) _ _ (after_succ (fun _ => g) a b flags maxeval prec sqrtEps k).symm with
        ⟨p, e, hc⟩ | ⟨-, x, y, -, -, -, hph, hc⟩
      · rw [ih] at hc
        rcases hc with ⟨-, -, k, -⟩ | ⟨-, -, k'⟩ | ⟨k, -⟩ | ⟨k, -⟩ | ⟨st, k, -⟩
        · omega
        · exact absurd (by rw [e, k']) (hno (k + 1))
        · cases k
        · cases k
        · cases k
      · rw [hph]; exact ih
  have ext : ∀ k, let s := after (fun _ => g) a b flags maxeval prec sqrtEps k
      let t := after (fun _ => g) a b flags maxeval prec sqrtEps (k + 1)
      s.fw < s.fv ∧ t.u = s.v ∧ t.v = s.w ∧ t.w = extrap s.v s.w := by
    intro k
    rcases step_cases (fun _ => g) maxeval (if prec < 0 then sqrtEps else prec) _ _ (after_succ (fun _ => g) a b flags maxeval prec sqrtEps k).symm with
      ⟨p, e, hc⟩ | ⟨-, x, y, -, -, -, hph, hc⟩
    · rw [stay k] at hc
      have := stay (k + 1)
      rw [e] at this
      simp only at this
      rw [this] at hc
      rcases hc with ⟨-, -, -, -, k⟩ | ⟨-, -, k⟩ | ⟨k, -⟩ | ⟨k, -⟩ | ⟨st, k, -⟩ <;> cases k
    · rcases hc with ⟨-, hg, hx, k1, -, k3, -, k5, -⟩ | ⟨kr, -⟩
      · rw [OrderedValue.gt_iff] at hg
        exact ⟨hg, k1, k3, by rw [k5, hx]⟩
      · rw [stay k] at kr; cases kr
  have h3 : (1 : K) < GAMMA := by unfold GAMMA; rw [ExactMath.lit_eq]; norm_num
  -- values at v and w
  have vals : ∀ k, let s := after (fun _ => g) a b flags maxeval prec sqrtEps k
      s.fv = g s.v ∧ Admissible a b flags s.v ∧ s.fw = g s.w ∧ Admissible a b flags s.w := by
    intro k
    have hb := best_after (fun _ => g) a b flags maxeval prec sqrtEps k
    have hlv := log_values g a b hab flags maxeval prec sqrtEps k
    have hgt := (ext k).1
    simp only at hgt ⊢
    have hw : ((after (fun _ => g) a b flags maxeval prec sqrtEps k).w, (after (fun _ => g) a b flags maxeval prec sqrtEps k).fw) ∈
        (after (fun _ => g) a b flags maxeval prec sqrtEps k).log := by
      rcases hb.w with k | ⟨k, -⟩
      · exact k
      · rw [k] at hgt; exact absurd hgt not_top_lt
    have hv := hlv _ hb.v
    have hw := hlv _ hw
    exact ⟨hv.1, hv.2, hw.1, hw.2⟩
  rcases ordered_enter (fun _ => g) a b hab flags with ⟨o1, o2⟩ | ⟨o1, o2⟩
  · have prog : ∀ k : Nat, let s := after (fun _ => g) a b flags maxeval prec sqrtEps k
        (enter (fun _ => g) a b flags).w - (enter (fun _ => g) a b flags).v ≤ s.w - s.v ∧
        (enter (fun _ => g) a b flags).v + k * ((enter (fun _ => g) a b flags).w - (enter (fun _ => g) a b flags).v) ≤ s.v := by
      intro k
      induction k with
      | zero => exact ⟨le_rfl, by show _ ≤ (enter (fun _ => g) a b flags).v; simp⟩
      | succ k ih =>
        obtain ⟨i1, i2⟩ := ih
        obtain ⟨-, -, e2, e3⟩ := ext k
        simp only at i1 i2 e2 e3 ⊢
        rw [e2, e3]
        set s := after (fun _ => g) a b flags maxeval prec sqrtEps k
        have hd : 0 < s.w - s.v := lt_of_lt_of_le (sub_pos.2 o2) i1
        have t1 : 1 * (s.w - s.v) ≤ GAMMA * (s.w - s.v) := mul_le_mul_of_nonneg_right h3.le hd.le
        constructor
        · unfold extrap; linarith
        · push_cast; linarith
    obtain ⟨n, hn⟩ := Archimedean.arch (xs - (enter (fun _ => g) a b flags).v) (sub_pos.2 o2)
    rw [nsmul_eq_mul] at hn
    obtain ⟨p1, p2⟩ := prog n
    obtain ⟨v1, v2, v3, v4⟩ := vals n
    have hgt := (ext n).1
    simp only at p1 p2 v1 v2 v3 v4 hgt
    have hlt : (after (fun _ => g) a b flags maxeval prec sqrtEps n).v < (after (fun _ => g) a b flags maxeval prec sqrtEps n).w :=
      sub_pos.1 (lt_of_lt_of_le (sub_pos.2 o2) p1)
    have := hu.increasing _ _ v4 (by linarith) hlt
    rw [← v1, ← v3] at this
    exact absurd hgt (not_lt.2 this.le)
  · have prog : ∀ k : Nat, let s := after (fun _ => g) a b flags maxeval prec sqrtEps k
        (enter (fun _ => g) a b flags).v - (enter (fun _ => g) a b flags).w ≤ s.v - s.w ∧
        s.v ≤ (enter (fun _ => g) a b flags).v - k * ((enter (fun _ => g) a b flags).v - (enter (fun _ => g) a b flags).w) := by
      intro k
      induction k with
      | zero => exact ⟨le_rfl, by show (enter (fun _ => g) a b flags).v ≤ _; simp⟩
      | succ k ih =>
        obtain ⟨i1, i2⟩ := ih
        obtain ⟨-, -, e2, e3⟩ := ext k
        simp only at i1 i2 e2 e3 ⊢
        rw [e2, e3]
        set s := after (fun _ => g) a b flags maxeval prec sqrtEps k
        have hd : 0 < s.v - s.w := lt_of_lt_of_le (sub_pos.2 o1) i1
        have t1 : 1 * (s.v - s.w) ≤ GAMMA * (s.v - s.w) := mul_le_mul_of_nonneg_right h3.le hd.le
        have t2 : GAMMA * (s.w - s.v) = -(GAMMA * (s.v - s.w)) := by ring
        constructor
        · unfold extrap; rw [t2]; linarith
        · push_cast; linarith
    obtain ⟨n, hn⟩ := Archimedean.arch ((enter (fun _ => g) a b flags).v - xs) (sub_pos.2 o1)
    rw [nsmul_eq_mul] at hn
    obtain ⟨p1, p2⟩ := prog n
    obtain ⟨v1, v2, v3, v4⟩ := vals n
    have hgt := (ext n).1
    simp only at p1 p2 v1 v2 v3 v4 hgt
    have hlt : (after (fun _ => g) a b flags maxeval prec sqrtEps n).w < (after (fun _ => g) a b flags maxeval prec sqrtEps n).v :=
      sub_pos.1 (lt_of_lt_of_le (sub_pos.2 o1) p1)
    have := hu.decreasing _ _ v4 hlt (by linarith)
    rw [← v1, ← v3] at this
    exact absurd hgt (not_lt.2 this.le)

/-- **C62.** Without any budget, `opk_fmin` returns 0 for any strictly unimodal function whose minimizer is not zero. -/
theorem unimodal_terminates [Archimedean K] (g : K → Y) (a b xs : K) (hab : a ≠ b) (flags : Nat) (hu : Unimodal a b flags g xs) (hxs : xs ≠ 0)
    (maxeval : Int) (hm : maxeval ≤ 0) (prec sqrtEps : K) (hprec : 0 < (if prec < 0 then sqrtEps else prec)) :
    ∃ o log, Returns (fun _ => g) a b flags maxeval prec sqrtEps 0 (some o) log ∧ o.xlo < xs ∧ xs < o.xhi ∧
      |o.xmin - xs| < (if prec < 0 then sqrtEps else prec) * max (max |o.xlo| |o.xhi|) |o.xmin| := by
  obtain ⟨k0, hk0⟩ := bracketing_ends g a b xs hab flags hu maxeval hm prec sqrtEps
  suffices h : ∃ k, (after (fun _ => g) a b flags maxeval prec sqrtEps k).phase = .done 0 by
    obtain ⟨k, hk⟩ := h
    have hret : Returns (fun _ => g) a b flags maxeval prec sqrtEps 0 (some (output (after (fun _ => g) a b flags maxeval prec sqrtEps k)))
        (after (fun _ => g) a b flags maxeval prec sqrtEps k).log := by
      unfold Returns
      rw [if_neg hab]
      exact ⟨k, _, rfl, hk, rfl, rfl⟩
    have h1 := minimizer_in_interval g a b xs flags hu maxeval prec sqrtEps 0 _ _ hret (Or.inl rfl)
    exact ⟨_, _, hret, h1.1, h1.2, accuracy g a b xs flags hu maxeval prec sqrtEps _ _ hret⟩
  by_contra hno
  rw [not_exists] at hno
  have stay : ∀ n, (after (fun _ => g) a b flags maxeval prec sqrtEps (k0 + n)).phase = .reduce ∧
      |(after (fun _ => g) a b flags maxeval prec sqrtEps (k0 + n)).w - (after (fun _ => g) a b flags maxeval prec sqrtEps (k0 + n)).u| ≤
        (6181 / 10000) ^ n * |(after (fun _ => g) a b flags maxeval prec sqrtEps k0).w - (after (fun _ => g) a b flags maxeval prec sqrtEps k0).u| := by
    intro n
    induction n with
    | zero => exact ⟨hk0, by simp⟩
    | succ n ih =>
      obtain ⟨i1, i2⟩ := ih
      have hph : (after (fun _ => g) a b flags maxeval prec sqrtEps (k0 + n + 1)).phase = .reduce := by
        rcases step_cases (fun _ => g) maxeval (if prec < 0 then sqrtEps else prec) _ _
            (after_succ (fun _ => g) a b flags maxeval prec sqrtEps (k0 + n)).symm with ⟨p, e, hc⟩ | ⟨-, x, y, -, -, -, hph, hc⟩
        · rw [i1] at hc
          rcases hc with ⟨k, -⟩ | ⟨k, -⟩ | ⟨-, -, k⟩ | ⟨-, -, k, -⟩ | ⟨st, k, -⟩
          · cases k
          · cases k
          · exact absurd (by rw [e, k]) (hno (k0 + n + 1))
          · omega
          · cases k
        · rw [hph]; exact i1
      refine ⟨hph, ?_⟩
      have hs := shrinks (fun _ => g) maxeval (if prec < 0 then sqrtEps else prec) _ (ordered_after (fun _ => g) a b hab flags maxeval prec sqrtEps (k0 + n))
        (balanced_after (fun _ => g) a b flags maxeval prec sqrtEps (k0 + n)) i1 (by rw [← after_succ]; exact hph)
      rw [← after_succ] at hs
      rw [← Nat.add_assoc, pow_succ]
      have := hs.1
      calc _ ≤ _ := this.le
        _ ≤ 6181 / 10000 * ((6181 / 10000) ^ n * |(after (fun _ => g) a b flags maxeval prec sqrtEps k0).w - (after (fun _ => g) a b flags maxeval prec sqrtEps k0).u|) :=
            mul_le_mul_of_nonneg_left i2 (by norm_num)
        _ = _ := by ring
  have hL : 0 < |(after (fun _ => g) a b flags maxeval prec sqrtEps k0).w - (after (fun _ => g) a b flags maxeval prec sqrtEps k0).u| :=
    (part_bounds _ (ordered_after (fun _ => g) a b hab flags maxeval prec sqrtEps k0) (balanced_after (fun _ => g) a b flags maxeval prec sqrtEps k0)).2.2.2
  have hx0 : 0 < |xs| := abs_pos.2 hxs
  obtain ⟨n, hn⟩ := exists_pow_lt_of_lt_one (div_pos (mul_pos hprec hx0) hL) (by norm_num : (6181 / 10000 : K) < 1)
  obtain ⟨s1, s2⟩ := stay n
  have hn' : (6181 / 10000) ^ n * |(after (fun _ => g) a b flags maxeval prec sqrtEps k0).w - (after (fun _ => g) a b flags maxeval prec sqrtEps k0).u| <
      (if prec < 0 then sqrtEps else prec) * |xs| := by
    rw [lt_div_iff₀ hL] at hn
    exact hn
  -- the next step converges
  have ho := ordered_after (fun _ => g) a b hab flags maxeval prec sqrtEps (k0 + n)
  have hb := balanced_after (fun _ => g) a b flags maxeval prec sqrtEps (k0 + n)
  have hmi := minimizer_bracketed g a b xs hab flags hu maxeval prec sqrtEps (k0 + n) (Or.inl s1)
  simp only at hmi
  obtain ⟨-, -, q3, q4⟩ := part_bounds _ ho hb
  have hcv : converged (if prec < 0 then sqrtEps else prec) (after (fun _ => g) a b flags maxeval prec sqrtEps (k0 + n)).u
      (after (fun _ => g) a b flags maxeval prec sqrtEps (k0 + n)).v (after (fun _ => g) a b flags maxeval prec sqrtEps (k0 + n)).w = true := by
    rw [converged_iff]
    set s := after (fun _ => g) a b flags maxeval prec sqrtEps (k0 + n)
    have hmag : |xs| ≤ max (max |s.u| |s.v|) |s.w| := by
      have b1 : |s.u| ≤ max (max |s.u| |s.v|) |s.w| := le_trans (le_max_left _ _) (le_max_left _ _)
      have b2 : |s.w| ≤ max (max |s.u| |s.v|) |s.w| := le_max_right _ _
      rw [abs_le] at b1 b2 ⊢
      rcases hmi with m | m <;> constructor <;> linarith [m.1, m.2, b1.1, b1.2, b2.1, b2.2]
    have t1 : (if prec < 0 then sqrtEps else prec) * |xs| ≤ (if prec < 0 then sqrtEps else prec) * max (max |s.u| |s.v|) |s.w| :=
      mul_le_mul_of_nonneg_left hmag hprec.le
    linarith
  refine hno (k0 + n + 1) ?_
  rw [after_succ]
  unfold step
  rw [s1]
  simp only
  rw [if_pos hcv]

end Opk.Fmin
