import Verif.Vmlmb.Global
/-! # C88: VMLMB without bounds for a strongly convex function -/
set_option linter.unusedSectionVars false
namespace Opk.Vmlmb
open Opk.Optim Matrix

variable {ι : Type} [Fintype ι] [DecidableEq ι]

/-- Specification: the gradient is strongly monotone (the function is strongly convex). -/
def Strong (G : (ι → ℝ) → ι → ℝ) (μ : ℝ) : Prop := 0 < μ ∧ ∀ x y, μ * ((x - y) ⬝ᵥ (x - y)) ≤ (x - y) ⬝ᵥ (G x - G y)

/-- What is known of a step `s` and of the change of gradient `y`. -/
def PairBound (μ L : ℝ) (p : (ι → ℝ) × (ι → ℝ)) : Prop :=
  μ * (p.1 ⬝ᵥ p.1) ≤ p.1 ⬝ᵥ p.2 ∧ p.2 ⬝ᵥ p.2 ≤ L ^ 2 * (p.1 ⬝ᵥ p.1)

/-- Lower bound of the metric after `n` updates. -/
noncomputable def lowest (μ L : ℝ) : ℕ → ℝ
  | 0 => min 1 (μ / L ^ 2)
  | n + 1 => min (lowest μ L n / 2) (μ / (2 * L ^ 2))

/-- Upper bound of the square of the norm of the metric after `n` updates. -/
noncomputable def largest (μ L : ℝ) : ℕ → ℝ
  | 0 => max 1 (1 / μ ^ 2)
  | n + 1 => 2 * (2 * (1 + L ^ 2 / μ ^ 2)) ^ 2 * largest μ L n + 2 / μ ^ 2

theorem lowest_pos (μ L : ℝ) (hμ : 0 < μ) (hL : 0 < L) (n : ℕ) : 0 < lowest μ L n := by
  induction n with
  | zero => exact lt_min one_pos (by positivity)
  | succ n ih => exact lt_min (by linarith) (by positivity)

theorem lowest_anti (μ L : ℝ) (hμ : 0 < μ) (hL : 0 < L) : Antitone (lowest μ L) := by
  refine antitone_nat_of_succ_le fun n => ?_
  have := lowest_pos μ L hμ hL n
  exact (min_le_left _ _).trans (by linarith)

theorem largest_ge (μ L : ℝ) (n : ℕ) : 1 ≤ largest μ L n := by
  induction n with
  | zero => exact le_max_left _ _
  | succ n ih =>
    unfold largest
    have h1 : 0 ≤ L ^ 2 / μ ^ 2 := by positivity
    have h2 : 0 ≤ 2 / μ ^ 2 := by positivity
    have h3 : 1 ≤ (2 * (1 + L ^ 2 / μ ^ 2)) ^ 2 := by nlinarith
    nlinarith

theorem largest_mono (μ L : ℝ) : Monotone (largest μ L) := by
  refine monotone_nat_of_le_succ fun n => ?_
  have h0 := largest_ge μ L n
  show largest μ L n ≤ 2 * (2 * (1 + L ^ 2 / μ ^ 2)) ^ 2 * largest μ L n + 2 / μ ^ 2
  have h1 : 0 ≤ L ^ 2 / μ ^ 2 := by positivity
  have h2 : 0 ≤ 2 / μ ^ 2 := by positivity
  have h3 : 1 ≤ (2 * (1 + L ^ 2 / μ ^ 2)) ^ 2 := by nlinarith
  nlinarith

/-- Square of the norm of a sum. -/
theorem add_sq_le (a b : ι → ℝ) : (a + b) ⬝ᵥ (a + b) ≤ 2 * (a ⬝ᵥ a) + 2 * (b ⬝ᵥ b) := by
  have h := dot_nonneg (a - b)
  have e1 : (a - b) ⬝ᵥ (a - b) = a ⬝ᵥ a - 2 * (a ⬝ᵥ b) + b ⬝ᵥ b := by
    rw [sub_dotProduct, dotProduct_sub, dotProduct_sub, dotProduct_comm b a]; ring
  have e2 : (a + b) ⬝ᵥ (a + b) = a ⬝ᵥ a + 2 * (a ⬝ᵥ b) + b ⬝ᵥ b := by
    rw [add_dotProduct, dotProduct_add, dotProduct_add, dotProduct_comm b a]; ring
  linarith

/-- Elementary bounds of the factors of an update. -/
theorem pair_facts (μ L : ℝ) (hμ : 0 < μ) (p : (ι → ℝ) × (ι → ℝ)) (hb : PairBound μ L p) (hp : 0 < p.1 ⬝ᵥ p.2) :
    0 < 1 / (p.1 ⬝ᵥ p.2) ∧ 1 / (p.1 ⬝ᵥ p.2) * (p.1 ⬝ᵥ p.1) ≤ 1 / μ ∧ 1 / (p.1 ⬝ᵥ p.2) * (p.2 ⬝ᵥ p.2) ≤ L ^ 2 / μ := by
  obtain ⟨h1, h2⟩ := hb
  have e1 : 1 / (p.1 ⬝ᵥ p.2) * (p.1 ⬝ᵥ p.1) ≤ 1 / μ := by
    rw [div_mul_eq_mul_div, one_mul, div_le_div_iff₀ hp hμ]; linarith
  refine ⟨by positivity, e1, ?_⟩
  have h3 : 0 < 1 / (p.1 ⬝ᵥ p.2) := by positivity
  calc 1 / (p.1 ⬝ᵥ p.2) * (p.2 ⬝ᵥ p.2) ≤ 1 / (p.1 ⬝ᵥ p.2) * (L ^ 2 * (p.1 ⬝ᵥ p.1)) := mul_le_mul_of_nonneg_left h2 h3.le
    _ = L ^ 2 * (1 / (p.1 ⬝ᵥ p.2) * (p.1 ⬝ᵥ p.1)) := by ring
    _ ≤ L ^ 2 * (1 / μ) := mul_le_mul_of_nonneg_left e1 (sq_nonneg _)
    _ = L ^ 2 / μ := by ring

/-- Bounds of a matrix. -/
def Bounded (H : Matrix ι ι ℝ) (lo hi : ℝ) : Prop :=
  ∀ v, lo * (v ⬝ᵥ v) ≤ v ⬝ᵥ (H *ᵥ v) ∧ (H *ᵥ v) ⬝ᵥ (H *ᵥ v) ≤ hi * (v ⬝ᵥ v)

theorem Bounded.mono {H : Matrix ι ι ℝ} {lo hi lo' hi' : ℝ} (h : Bounded H lo hi) (h1 : lo' ≤ lo) (h2 : hi ≤ hi') : Bounded H lo' hi' := by
  intro v
  have := dot_nonneg v
  exact ⟨(mul_le_mul_of_nonneg_right h1 this).trans (h v).1, (h v).2.trans (mul_le_mul_of_nonneg_right h2 this)⟩

theorem bfgs_bounded (μ L : ℝ) (hμ : 0 < μ) (hL : 0 < L) (H : Matrix ι ι ℝ) (lo hi : ℝ) (lo0 : 0 < lo) (hi0 : 0 ≤ hi) (h : Bounded H lo hi) (p : (ι → ℝ) × (ι → ℝ))
    (hb : PairBound μ L p) (hp : 0 < p.1 ⬝ᵥ p.2) :
    Bounded (bfgs H p.1 p.2) (min (lo / 2) (μ / (2 * L ^ 2))) (2 * (2 * (1 + L ^ 2 / μ ^ 2)) ^ 2 * hi + 2 / μ ^ 2) := by
  obtain ⟨k1, k2, k3⟩ := pair_facts μ L hμ p hb hp
  obtain ⟨s, y⟩ := p
  dsimp only at *
  intro v
  rw [bfgs_mulVec]
  dsimp only
  generalize hρ : 1 / (s ⬝ᵥ y) = ρ at *
  generalize hw : v - (ρ * (v ⬝ᵥ s)) • y = w
  generalize hr : H *ᵥ w = r
  have ss := dot_nonneg s
  have yy := dot_nonneg y
  have vv := dot_nonneg v
  have ww := dot_nonneg w
  have rr := dot_nonneg r
  obtain ⟨hw1, hw2⟩ := h w
  rw [hr] at hw1 hw2
  have cvs := cauchy v s
  have cry := cauchy r y
  have k4 : ρ * (s ⬝ᵥ s) * (ρ * (y ⬝ᵥ y)) ≤ 1 / μ * (L ^ 2 / μ) := mul_le_mul k2 k3 (by positivity) (by positivity)
  have k5 : 1 / μ * (L ^ 2 / μ) = L ^ 2 / μ ^ 2 := by field_simp
  rw [k5] at k4
  -- the square of the norm of `w`
  have bw : w ⬝ᵥ w ≤ 2 * (1 + L ^ 2 / μ ^ 2) * (v ⬝ᵥ v) := by
    have h1 := add_sq_le v (-((ρ * (v ⬝ᵥ s)) • y))
    rw [← sub_eq_add_neg, hw, neg_dotProduct_neg, smul_dotProduct, dotProduct_smul] at h1
    simp only [smul_eq_mul] at h1
    have h2 : ρ * (v ⬝ᵥ s) * (ρ * (v ⬝ᵥ s) * (y ⬝ᵥ y)) ≤ (L ^ 2 / μ ^ 2) * (v ⬝ᵥ v) := by
      calc ρ * (v ⬝ᵥ s) * (ρ * (v ⬝ᵥ s) * (y ⬝ᵥ y)) = (v ⬝ᵥ s) ^ 2 * (ρ * ρ * (y ⬝ᵥ y)) := by ring
        _ ≤ (v ⬝ᵥ v) * (s ⬝ᵥ s) * (ρ * ρ * (y ⬝ᵥ y)) := mul_le_mul_of_nonneg_right cvs (by positivity)
        _ = ρ * (s ⬝ᵥ s) * (ρ * (y ⬝ᵥ y)) * (v ⬝ᵥ v) := by ring
        _ ≤ _ := mul_le_mul_of_nonneg_right k4 vv
    linarith
  constructor
  · -- from below
    have e : v ⬝ᵥ (r + (ρ * (v ⬝ᵥ s) - ρ * (r ⬝ᵥ y)) • s) = w ⬝ᵥ r + ρ * (v ⬝ᵥ s) ^ 2 := by
      rw [← hw, dotProduct_add, dotProduct_smul, sub_dotProduct, smul_dotProduct, dotProduct_comm y r]
      simp only [smul_eq_mul]
      ring
    rw [e]
    have h1 := add_sq_le w ((ρ * (v ⬝ᵥ s)) • y)
    have h2 : w + (ρ * (v ⬝ᵥ s)) • y = v := by rw [← hw]; simp
    rw [h2, smul_dotProduct, dotProduct_smul] at h1
    simp only [smul_eq_mul] at h1
    have h3 : ρ * (v ⬝ᵥ s) * (ρ * (v ⬝ᵥ s) * (y ⬝ᵥ y)) ≤ (L ^ 2 / μ) * (ρ * (v ⬝ᵥ s) ^ 2) := by
      calc ρ * (v ⬝ᵥ s) * (ρ * (v ⬝ᵥ s) * (y ⬝ᵥ y)) = ρ * (y ⬝ᵥ y) * (ρ * (v ⬝ᵥ s) ^ 2) := by ring
        _ ≤ _ := mul_le_mul_of_nonneg_right k3 (by positivity)
    have h4 : v ⬝ᵥ v ≤ 2 * (w ⬝ᵥ w) + 2 * (L ^ 2 / μ) * (ρ * (v ⬝ᵥ s) ^ 2) := by linarith
    generalize hm : min (lo / 2) (μ / (2 * L ^ 2)) = m
    have m1 : m ≤ lo / 2 := hm ▸ min_le_left _ _
    have m2 : m ≤ μ / (2 * L ^ 2) := hm ▸ min_le_right _ _
    have q0 : 0 ≤ ρ * (v ⬝ᵥ s) ^ 2 := by positivity
    have hm0 : 0 < m := hm ▸ lt_min (by linarith) (by positivity)
    have h5 : m * (v ⬝ᵥ v) ≤ m * (2 * (w ⬝ᵥ w) + 2 * (L ^ 2 / μ) * (ρ * (v ⬝ᵥ s) ^ 2)) := mul_le_mul_of_nonneg_left h4 hm0.le
    have h6 : m * (2 * (w ⬝ᵥ w)) ≤ lo * (w ⬝ᵥ w) := by nlinarith
    have h7 : m * (2 * (L ^ 2 / μ)) ≤ 1 := by
      calc m * (2 * (L ^ 2 / μ)) ≤ μ / (2 * L ^ 2) * (2 * (L ^ 2 / μ)) := mul_le_mul_of_nonneg_right m2 (by positivity)
        _ = 1 := by field_simp
    have h8 := mul_le_mul_of_nonneg_right h7 q0
    linarith
  · -- from above
    have e : r + (ρ * (v ⬝ᵥ s) - ρ * (r ⬝ᵥ y)) • s = (r - (ρ * (r ⬝ᵥ y)) • s) + (ρ * (v ⬝ᵥ s)) • s := by
      rw [sub_smul]; abel
    rw [e]
    have h1 := add_sq_le (r - (ρ * (r ⬝ᵥ y)) • s) ((ρ * (v ⬝ᵥ s)) • s)
    have h2 := add_sq_le r (-((ρ * (r ⬝ᵥ y)) • s))
    rw [← sub_eq_add_neg, neg_dotProduct_neg] at h2
    rw [smul_dotProduct, dotProduct_smul] at h1 h2
    simp only [smul_eq_mul] at h1 h2
    have h3 : ρ * (r ⬝ᵥ y) * (ρ * (r ⬝ᵥ y) * (s ⬝ᵥ s)) ≤ (L ^ 2 / μ ^ 2) * (r ⬝ᵥ r) := by
      calc ρ * (r ⬝ᵥ y) * (ρ * (r ⬝ᵥ y) * (s ⬝ᵥ s)) = (r ⬝ᵥ y) ^ 2 * (ρ * ρ * (s ⬝ᵥ s)) := by ring
        _ ≤ (r ⬝ᵥ r) * (y ⬝ᵥ y) * (ρ * ρ * (s ⬝ᵥ s)) := mul_le_mul_of_nonneg_right cry (by positivity)
        _ = ρ * (s ⬝ᵥ s) * (ρ * (y ⬝ᵥ y)) * (r ⬝ᵥ r) := by ring
        _ ≤ _ := mul_le_mul_of_nonneg_right k4 rr
    have h4 : ρ * (v ⬝ᵥ s) * (ρ * (v ⬝ᵥ s) * (s ⬝ᵥ s)) ≤ 1 / μ ^ 2 * (v ⬝ᵥ v) := by
      calc ρ * (v ⬝ᵥ s) * (ρ * (v ⬝ᵥ s) * (s ⬝ᵥ s)) = (v ⬝ᵥ s) ^ 2 * (ρ * ρ * (s ⬝ᵥ s)) := by ring
        _ ≤ (v ⬝ᵥ v) * (s ⬝ᵥ s) * (ρ * ρ * (s ⬝ᵥ s)) := mul_le_mul_of_nonneg_right cvs (by positivity)
        _ = ρ * (s ⬝ᵥ s) * (ρ * (s ⬝ᵥ s)) * (v ⬝ᵥ v) := by ring
        _ ≤ 1 / μ * (1 / μ) * (v ⬝ᵥ v) := mul_le_mul_of_nonneg_right (mul_le_mul k2 k2 (by positivity) (by positivity)) vv
        _ = _ := by field_simp
    have h5 : (r - (ρ * (r ⬝ᵥ y)) • s) ⬝ᵥ (r - (ρ * (r ⬝ᵥ y)) • s) ≤ 2 * (1 + L ^ 2 / μ ^ 2) * (r ⬝ᵥ r) := by linarith
    have c0 : 0 ≤ 2 * (1 + L ^ 2 / μ ^ 2) := by positivity
    have h6 : 2 * (1 + L ^ 2 / μ ^ 2) * (r ⬝ᵥ r) ≤ 2 * (1 + L ^ 2 / μ ^ 2) * (hi * (2 * (1 + L ^ 2 / μ ^ 2) * (v ⬝ᵥ v))) :=
      mul_le_mul_of_nonneg_left (hw2.trans (mul_le_mul_of_nonneg_left bw hi0)) c0
    have h7 : 2 / μ ^ 2 * (v ⬝ᵥ v) = 2 * (1 / μ ^ 2 * (v ⬝ᵥ v)) := by ring
    nlinarith

theorem metricFrom_bounded (μ L : ℝ) (hμ : 0 < μ) (hL : 0 < L) (γ : ℝ) (h1 : min 1 (μ / L ^ 2) ≤ γ) (h2 : γ ^ 2 ≤ max 1 (1 / μ ^ 2))
    (l : List ((ι → ℝ) × (ι → ℝ))) (hl : ∀ p ∈ l, PairBound μ L p) : Bounded (metricFrom γ l) (lowest μ L l.length) (largest μ L l.length) := by
  induction l with
  | nil =>
    intro v
    have := dot_nonneg v
    simp only [metricFrom, smul_mulVec, one_mulVec, dotProduct_smul, smul_dotProduct, smul_eq_mul, List.length_nil, lowest, largest]
    refine ⟨mul_le_mul_of_nonneg_right h1 this, ?_⟩
    have := mul_le_mul_of_nonneg_right h2 this
    linarith
  | cons p l ih =>
    have ih' := ih fun q hq => hl q (List.mem_cons_of_mem _ hq)
    unfold metricFrom
    rw [List.length_cons]
    split_ifs with h
    · exact bfgs_bounded μ L hμ hL _ _ _ (lowest_pos μ L hμ hL _) (zero_le_one.trans (largest_ge μ L _)) ih' p (hl p List.mem_cons_self) h
    · exact ih'.mono (lowest_anti μ L hμ hL (Nat.le_succ _)) (largest_mono μ L (Nat.le_succ _))

theorem firstScale_bounded (μ L : ℝ) (hμ : 0 < μ) (hL : 0 < L) (l : List ((ι → ℝ) × (ι → ℝ))) (hl : ∀ p ∈ l, PairBound μ L p) :
    min 1 (μ / L ^ 2) ≤ firstScale l ∧ firstScale l ^ 2 ≤ max 1 (1 / μ ^ 2) := by
  induction l with
  | nil => exact ⟨min_le_left _ _, by simp [firstScale]⟩
  | cons p l ih =>
    unfold firstScale
    split_ifs with h
    · obtain ⟨b1, b2⟩ := hl p List.mem_cons_self
      have hyy : 0 < p.2 ⬝ᵥ p.2 := by
        refine lt_of_le_of_ne (dot_nonneg _) fun e => ?_
        have := cauchy p.1 p.2
        rw [← e, mul_zero] at this
        nlinarith
      have hss := dot_nonneg p.1
      constructor
      · refine (min_le_right _ _).trans ?_
        rw [div_le_div_iff₀ (by positivity) hyy]
        nlinarith
      · refine le_trans ?_ (le_max_right _ _)
        have h3 : (p.1 ⬝ᵥ p.2) / (p.2 ⬝ᵥ p.2) ≤ 1 / μ := by
          rw [div_le_div_iff₀ hyy hμ]
          have h4 := cauchy p.1 p.2
          have h5 : μ * (p.1 ⬝ᵥ p.2) ^ 2 ≤ (p.1 ⬝ᵥ p.2) * (p.2 ⬝ᵥ p.2) := by
            calc μ * (p.1 ⬝ᵥ p.2) ^ 2 ≤ μ * ((p.1 ⬝ᵥ p.1) * (p.2 ⬝ᵥ p.2)) := mul_le_mul_of_nonneg_left h4 hμ.le
              _ = μ * (p.1 ⬝ᵥ p.1) * (p.2 ⬝ᵥ p.2) := by ring
              _ ≤ _ := mul_le_mul_of_nonneg_right b1 hyy.le
          have h6 : (p.1 ⬝ᵥ p.2) * ((p.1 ⬝ᵥ p.2) * μ) ≤ (p.1 ⬝ᵥ p.2) * (1 * (p.2 ⬝ᵥ p.2)) := by linarith
          exact le_of_mul_le_mul_left h6 h
        have h7 : 0 ≤ (p.1 ⬝ᵥ p.2) / (p.2 ⬝ᵥ p.2) := by positivity
        calc ((p.1 ⬝ᵥ p.2) / (p.2 ⬝ᵥ p.2)) ^ 2 ≤ (1 / μ) ^ 2 := pow_le_pow_left₀ h7 h3 2
          _ = 1 / μ ^ 2 := by ring
    · exact ih fun q hq => hl q (List.mem_cons_of_mem _ hq)

/-- The metric is bounded above and below. -/
theorem metric_bounded (μ L : ℝ) (hμ : 0 < μ) (hL : 0 < L) (m : ℕ) (l : List ((ι → ℝ) × (ι → ℝ))) (hm : l.length ≤ m) (hl : ∀ p ∈ l, PairBound μ L p) :
    Bounded (metric l) (lowest μ L m) (largest μ L m) := by
  obtain ⟨h1, h2⟩ := firstScale_bounded μ L hμ hL l hl
  exact (metricFrom_bounded μ L hμ hL _ h1 h2 l hl).mono (lowest_anti μ L hμ hL hm) (largest_mono μ L hm)

/-- Specification: lower bound of the cosine of the angle between the direction and the gradient. -/
noncomputable def cosine (μ L : ℝ) (m : ℕ) : ℝ := lowest μ L m / Real.sqrt (largest μ L m)

theorem cosine_pos (μ L : ℝ) (hμ : 0 < μ) (hL : 0 < L) (m : ℕ) : 0 < cosine μ L m :=
  div_pos (lowest_pos μ L hμ hL m) (Real.sqrt_pos.mpr (zero_lt_one.trans_le (largest_ge μ L m)))

theorem cosine_sq (μ L : ℝ) (m : ℕ) : cosine μ L m ^ 2 = lowest μ L m ^ 2 / largest μ L m := by
  unfold cosine
  rw [div_pow, Real.sq_sqrt (zero_le_one.trans (largest_ge μ L m))]

theorem bounded_angle (μ L : ℝ) (hμ : 0 < μ) (hL : 0 < L) (m : ℕ) (H : Matrix ι ι ℝ) (h : Bounded H (lowest μ L m) (largest μ L m)) (g : ι → ℝ) :
    cosine μ L m ^ 2 * (((H *ᵥ g) ⬝ᵥ (H *ᵥ g)) * (g ⬝ᵥ g)) ≤ ((H *ᵥ g) ⬝ᵥ g) ^ 2 := by
  obtain ⟨h1, h2⟩ := h g
  have h0 := lowest_pos μ L hμ hL m
  have h3 := zero_lt_one.trans_le (largest_ge μ L m)
  have gg := dot_nonneg g
  rw [cosine_sq, div_mul_eq_mul_div, div_le_iff₀ h3, dotProduct_comm (H *ᵥ g) g]
  have h4 : (lowest μ L m * (g ⬝ᵥ g)) ^ 2 ≤ (g ⬝ᵥ (H *ᵥ g)) ^ 2 := pow_le_pow_left₀ (mul_nonneg h0.le gg) h1 2
  calc lowest μ L m ^ 2 * (((H *ᵥ g) ⬝ᵥ (H *ᵥ g)) * (g ⬝ᵥ g)) ≤ lowest μ L m ^ 2 * (largest μ L m * (g ⬝ᵥ g) * (g ⬝ᵥ g)) :=
        mul_le_mul_of_nonneg_left (mul_le_mul_of_nonneg_right h2 gg) (sq_nonneg _)
    _ = (lowest μ L m * (g ⬝ᵥ g)) ^ 2 * largest μ L m := by ring
    _ ≤ _ := mul_le_mul_of_nonneg_right h4 h3.le

theorem cosine_le_one (μ L : ℝ) (hμ : 0 < μ) (hL : 0 < L) (m : ℕ) : cosine μ L m ^ 2 ≤ 1 := by
  rw [cosine_sq, div_le_one (zero_lt_one.trans_le (largest_ge μ L m))]
  have h1 : lowest μ L m ≤ 1 := (lowest_anti μ L hμ hL (Nat.zero_le m)).trans (min_le_left _ _)
  have h2 := lowest_pos μ L hμ hL m
  have h3 := largest_ge μ L m
  nlinarith

/-! ## The history of the session -/

/-- The call made in a given state. -/
noncomputable def callOf (F : (ι → ℝ) → ℝ) (G : (ι → ℝ) → ι → ℝ) (s : St ι) : List (Call ℝ (ι → ℝ)) :=
  match s.opt.task with
  | .computeFG => [.iterate s.x (F s.x) (G s.x)]
  | .newX => [.iterate s.x s.f s.g]
  | _ => []

/-- The calls made so far. -/
noncomputable def history (par : Par ℝ (ι → ℝ)) (F : (ι → ℝ) → ℝ) (G : (ι → ℝ) → ι → ℝ) (x1 : ι → ℝ) (s : St ι) : ℕ → List (Call ℝ (ι → ℝ))
  | 0 => [.start x1]
  | k + 1 => history par F G x1 s k ++ callOf F G (run par F G s k)

theorem history_calls (par : Par ℝ (ι → ℝ)) (F : (ι → ℝ) → ℝ) (G : (ι → ℝ) → ι → ℝ) (opt : Opt ℝ (LineSearch.Csrch ℝ) (ι → ℝ)) (x1 g : ι → ℝ) (f : ℝ) (k : ℕ) :
    calls par LineSearch.csrchOps opt (history par F G x1 (Sess.begin par opt x1 f g) k) = (run par F G (Sess.begin par opt x1 f g) k).opt := by
  induction k with
  | zero => rfl
  | succ k ih =>
    show calls par LineSearch.csrchOps opt (history par F G x1 (Sess.begin par opt x1 f g) k ++ callOf F G (run par F G (Sess.begin par opt x1 f g) k)) =
      (turn par F G (run par F G (Sess.begin par opt x1 f g) k)).opt
    generalize run par F G (Sess.begin par opt x1 f g) k = s at *
    unfold callOf turn
    rcases ht : s.opt.task <;> dsimp only
    · rw [List.append_nil, ih]
    · rw [List.append_nil, ih]
    · rw [calls_snoc, ih]; rfl
    · rw [calls_snoc, ih]; rfl
    · rw [List.append_nil, ih]
    · rw [List.append_nil, ih]

theorem visited_snoc (par : Par ℝ (ι → ℝ)) (hm : par.method = .lbfgs) (ops : LineSearch.Ops ℝ (LineSearch.Csrch ℝ)) (o : Opt ℝ (LineSearch.Csrch ℝ) (ι → ℝ))
    (vis : List ((ι → ℝ) × (ι → ℝ))) (pg : ι → ℝ) (hist : List (Call ℝ (ι → ℝ))) (x g : ι → ℝ) (f : ℝ) :
    visited par ops o vis pg (hist ++ [.iterate x f g]) =
      (if (calls par ops o hist).task = .newX ∨ (calls par ops o hist).task = .finalX then (x, g) :: visited par ops o vis pg hist else visited par ops o vis pg hist) := by
  induction hist generalizing o vis pg with
  | nil =>
    show (if _ then _ else _) = _
    rw [if_neg (show ¬ par.method = .blmvm by rw [hm]; simp)]
    rfl
  | cons c l ih =>
    rcases c with y | ⟨y, f', g'⟩
    · exact ih _ _ _
    · exact ih _ _ _

/-- The gradient which is kept by the caller is the one of the current variables when a new iterate is announced. -/
theorem run_grad (par : Par ℝ (ι → ℝ)) (hp : Plain par) (F : (ι → ℝ) → ℝ) (G : (ι → ℝ) → ι → ℝ) (opt : Opt ℝ (LineSearch.Csrch ℝ) (ι → ℝ)) (x1 g : ι → ℝ) (f : ℝ) (k : ℕ) :
    (run par F G (Sess.begin par opt x1 f g) k).opt.task = .newX → (run par F G (Sess.begin par opt x1 f g) k).g = G (run par F G (Sess.begin par opt x1 f g) k).x := by
  induction k with
  | zero =>
    intro h
    exfalso
    revert h
    show (Sess.begin par opt x1 f g).opt.task = .newX → False
    unfold Sess.begin start
    rw [hp.box]
    intro h; cases h
  | succ k ih =>
    show (turn par F G (run par F G (Sess.begin par opt x1 f g) k)).opt.task = .newX →
      (turn par F G (run par F G (Sess.begin par opt x1 f g) k)).g = G (turn par F G (run par F G (Sess.begin par opt x1 f g) k)).x
    generalize run par F G (Sess.begin par opt x1 f g) k = s at *
    unfold turn
    have tr : ∀ o : Opt ℝ (LineSearch.Csrch ℝ) (ι → ℝ), (trial par o).1.task = .computeFG := by
      intro o; unfold trial; rw [hp.box]; rfl
    rcases ht : s.opt.task <;> dsimp only <;> intro h
    · rw [ht] at h; cases h
    · rw [ht] at h; cases h
    · revert h
      unfold Sess.reply iterate
      rw [ht]
      dsimp only
      rcases onFG par LineSearch.csrchOps s.opt s.x (F s.x) (G s.x) with o | o
      · intro _; rfl
      · intro h
        dsimp only at h
        rw [tr] at h; cases h
    · revert h
      unfold Sess.next
      dsimp only
      rcases iterate_newX par LineSearch.csrchOps s.opt s.x s.f s.g (Or.inl ht) with ⟨r, -, e⟩ | ⟨r, -, e2, e⟩
      · rw [e, tr]; intro h; cases h
      · rw [e]; dsimp only; rw [e2]; intro h; cases h
    · rw [ht] at h; cases h
    · rw [ht] at h; cases h

/-- All the iterates are recorded with their gradients. -/
theorem visited_grad (par : Par ℝ (ι → ℝ)) (hp : Plain par) (F : (ι → ℝ) → ℝ) (G : (ι → ℝ) → ι → ℝ) (opt : Opt ℝ (LineSearch.Csrch ℝ) (ι → ℝ)) (x1 g pg : ι → ℝ) (f : ℝ) (k : ℕ) :
    ∀ p ∈ visited par LineSearch.csrchOps opt [] pg (history par F G x1 (Sess.begin par opt x1 f g) k), p.2 = G p.1 := by
  induction k with
  | zero => intro p hp; cases hp
  | succ k ih =>
    unfold history
    have hg := run_grad par hp F G opt x1 g f k
    have hc := history_calls par F G opt x1 g f k
    generalize run par F G (Sess.begin par opt x1 f g) k = s at *
    generalize history par F G x1 (Sess.begin par opt x1 f g) k = hist at *
    unfold callOf
    rcases ht : s.opt.task <;> dsimp only
    · rw [List.append_nil]; exact ih
    · rw [List.append_nil]; exact ih
    · rw [visited_snoc par hp.method, hc, ht, if_neg (by simp)]; exact ih
    · rw [visited_snoc par hp.method, hc, ht, if_pos (by simp)]
      intro p hp'
      rcases List.mem_cons.mp hp' with rfl | h
      · exact hg ht
      · exact ih p h
    · rw [List.append_nil]; exact ih
    · rw [List.append_nil]; exact ih

theorem steps_bound (F : (ι → ℝ) → ℝ) (G : (ι → ℝ) → ι → ℝ) (L fmin μ : ℝ) (hs : Smooth F G L fmin) (hμ : Strong G μ) (vis : List ((ι → ℝ) × (ι → ℝ))) (n : ℕ)
    (hv : ∀ p ∈ vis, p.2 = G p.1) : ∀ p ∈ recent n vis, PairBound μ L p := by
  intro p hp
  have hp' := List.mem_of_mem_take hp
  unfold steps at hp'
  rw [List.mem_iff_getElem] at hp'
  obtain ⟨i, hi, e⟩ := hp'
  rw [List.getElem_zipWith] at e
  have e1 := hv _ (List.getElem_mem (l := vis) (n := i) (by simp at hi; omega))
  have e2 := hv _ (List.mem_of_mem_tail (List.getElem_mem (l := vis.tail) (n := i) (by simp at hi ⊢; omega)))
  generalize vis[i]'(by simp at hi; omega) = a at *
  generalize vis.tail[i]'(by simp at hi ⊢; omega) = b at *
  subst e
  have ed : ∀ u v : ι → ℝ, diff exactVs u v = u - v := by
    intro u v
    unfold diff exactVs
    simp [sub_eq_add_neg]
  unfold PairBound
  dsimp only
  rw [ed, ed, e1, e2]
  exact ⟨hμ.2 _ _, hs.lip _ _⟩

/-- **C88.** Exact arithmetic, no bounds, Moré and Thuente line search.  Let the function be bounded below, its gradient be Lipschitz
continuous and strongly monotone (strongly convex function).  Whatever `epsilon` (zero is the default), if `gatol` or `grtol` is positive,
then the session ends: after a finite number of calls
either the optimizer tells that the gradient is small enough, which is then true, or the line search has failed for one of the three documented reasons.
There are at most `(F x1 - fmin) / gain` iterations, where `gain` only depends on the parameters, on the norm of the first gradient, and on the constants of the function. -/
theorem vmlmb_ends_convex (finite : ℝ → Bool) (opts : Options ℝ) (size : Int) (same : Bool) (ls : LineSearch.Ls ℝ (LineSearch.Csrch ℝ))
    (raw opt : Opt ℝ (LineSearch.Csrch ℝ) (ι → ℝ)) (par : Par ℝ (ι → ℝ)) (hnew : new finite exactVs opts size none same ls raw = some (par, opt))
    (F : (ι → ℝ) → ℝ) (G : (ι → ℝ) → ι → ℝ) (L fmin μ : ℝ) (hs : Smooth F G L fmin) (hμ : Strong G μ)
    (f0 : 0 < ls.m.ftol) (f4 : 4 * ls.m.ftol ≤ ls.m.gtol) (g1 : ls.m.gtol < 1) (hx : 0 < ls.m.xtol)
    (hlo : 0 < opts.stpmin) (hmid : opts.stpmin ≤ 1 ∧ 1 ≤ opts.stpmax) (hpos : 0 < opts.gatol ∨ 0 < opts.grtol)
    (x1 g : ι → ℝ) (f : ℝ) :
    let r := run par F G (Sess.begin par opt x1 f g)
    let tol := max (max 0 opts.gatol) (opts.grtol * Real.sqrt (G x1 ⬝ᵥ G x1))
    (∀ k, (r k).opt.iterations * (ls.m.ftol * (1 - ls.m.gtol) * cosine μ L opts.mem.toNat ^ 2 / L * tol ^ 2) ≤ F x1 - fmin) ∧
    ∃ n, (∀ k, n ≤ k → r k = r n) ∧
      ((r n).opt.task = .finalX ∧ Real.sqrt (G (r n).x ⬝ᵥ G (r n).x) ≤ tol ∧ (r n).f = F (r n).x ∧ (r n).f ≤ F x1 ∨
       (r n).opt.task = .error ∧ ((r n).opt.status = .ls .stepEqStpmin ∨ (r n).opt.status = .ls .stepEqStpmax ∨
         (r n).opt.status = .ls .xtolTestSatisfied)) := by
  obtain ⟨hp, e1, e2, e3, e4, e5, e6⟩ := plain_new finite opts size same ls raw opt par hnew hlo hmid
  obtain ⟨hm1, -, hm2, -, -, hc0⟩ := new_counters finite exactVs opts size none same ls raw par opt hnew
  intro r tol
  have hL := hs.pos
  have key := run_ends par hp F G L fmin hs opt ls.m.ftol ls.m.gtol (by rw [e4]; exact ⟨rfl, rfl, hx⟩) f0 f4 g1 (by rw [e1, e2]; exact hpos)
    (cosine μ L opts.mem.toNat) (cosine_pos μ L hμ.1 hL _) x1 g f (fun k hk ht => by
      have hb := bfgs_direction finite opts size none same ls raw par opt hnew (fun b hb => by cases hb) LineSearch.csrchOps LineSearch.csrch_method
        (history par F G x1 (Sess.begin par opt x1 f g) k) 0 (run par F G (Sess.begin par opt x1 f g) k).x (run par F G (Sess.begin par opt x1 f g) k).g
        (run par F G (Sess.begin par opt x1 f g) k).f
      dsimp only at hb
      have hv := visited_grad par hp F G opt x1 g 0 f k
      obtain ⟨-, hC⟩ := calls_counters par hm1 LineSearch.csrchOps (history par F G x1 (Sess.begin par opt x1 f g) k) opt 0 0 hc0
      obtain ⟨-, hmp, -⟩ := hC.mp
      rw [history_calls] at hb hmp
      have hsearch := point_step' par F G x1 (cosine μ L opts.mem.toNat) _ _ L hp f0.le (by linarith) (by linarith) _ hk ht
      rw [if_neg (show ¬ par.method = .vmlmb by rw [hp.method]; simp), if_neg (show ¬ par.method = .vmlmb by rw [hp.method]; simp), if_neg (show ¬ par.method = .blmvm by rw [hp.method]; simp)] at hb
      have er : run par F G (Sess.begin par opt x1 f g) (k + 1) = turn par F G (run par F G (Sess.begin par opt x1 f g) k) := rfl
      rw [er]
      generalize run par F G (Sess.begin par opt x1 f g) k = s at *
      have et : (turn par F G s).opt = (iterate par LineSearch.csrchOps s.opt s.x s.f s.g).1 := by
        unfold turn Sess.next
        rw [ht]
      rw [et] at hsearch ⊢
      obtain ⟨hb, -⟩ := hb (Or.inl ht) hsearch
      rw [hk.g] at hb ⊢
      rcases hb with ⟨-, hd⟩ | ⟨hd, -⟩
      · have hd' : (iterate par LineSearch.csrchOps s.opt s.x s.f (G s.x)).1.d = _ := hd
        rw [hd']
        apply bounded_angle μ L hμ.1 hL
        apply metric_bounded μ L hμ.1 hL
        · have h1 : (recent (usable par s.opt) ((s.x, G s.x) :: visited par LineSearch.csrchOps opt [] 0 (history par F G x1 (Sess.begin par opt x1 f g) k))).length ≤ usable par s.opt :=
            List.length_take_le _ _
          refine h1.trans ?_
          unfold usable
          have hmp' : s.opt.mp ≤ par.m := hmp
          split_ifs
          · exact Int.toNat_le_toNat ((min_le_right _ _).trans hm2)
          · exact Int.toNat_le_toNat (hmp'.trans hm2)
        · apply steps_bound F G L fmin μ hs hμ
          intro p hp'
          rcases List.mem_cons.mp hp' with rfl | h
          · rfl
          · exact hv p h
      · rw [hp.method] at hd
        dsimp only at hd
        rw [hd]
        have := dot_nonneg (G s.x)
        have h2 := cosine_le_one μ L hμ.1 hL opts.mem.toNat
        nlinarith [mul_nonneg this this])
  have et : threshold par G x1 = tol := by
    unfold threshold
    rw [e1, e2]
    rfl
  unfold gain at key
  rw [et] at key
  exact key

/-- The hypotheses hold for a quadratic function of two variables with the default `epsilon`. -/
example (raw : Opt ℝ (LineSearch.Csrch ℝ) (Fin 2 → ℝ)) (m : LineSearch.Csrch ℝ) : ∃ par opt,
    new (fun _ => true) exactVs (demoOptions 0) 2 none true (demoSearch m) raw = some (par, opt) ∧
    Smooth (fun x : Fin 2 → ℝ => x 0 ^ 2 / 2 + x 1 ^ 2) (fun x => ![x 0, 2 * x 1]) 2 0 ∧ Strong (fun x : Fin 2 → ℝ => ![x 0, 2 * x 1]) 1 ∧
    ∃ n, (run par (fun x : Fin 2 → ℝ => x 0 ^ 2 / 2 + x 1 ^ 2) (fun x => ![x 0, 2 * x 1]) (Sess.begin par opt (fun _ => 1) 0 0) n).opt.task = .finalX ∨
      (run par (fun x : Fin 2 → ℝ => x 0 ^ 2 / 2 + x 1 ^ 2) (fun x => ![x 0, 2 * x 1]) (Sess.begin par opt (fun _ => 1) 0 0) n).opt.task = .error := by
  have hsm : Smooth (fun x : Fin 2 → ℝ => x 0 ^ 2 / 2 + x 1 ^ 2) (fun x => ![x 0, 2 * x 1]) 2 0 :=
    ⟨two_pos, fun x y => by simp [dotProduct, Fin.sum_univ_two]; nlinarith [sq_nonneg (x 0 - y 0), sq_nonneg (x 1 - y 1)], fun x => by positivity⟩
  have hst : Strong (fun x : Fin 2 → ℝ => ![x 0, 2 * x 1]) 1 :=
    ⟨one_pos, fun x y => by simp [dotProduct, Fin.sum_univ_two]; nlinarith [sq_nonneg (x 0 - y 0), sq_nonneg (x 1 - y 1)]⟩
  have hn : ∃ q, new (fun _ => true) exactVs (demoOptions 0) 2 none true (demoSearch m) raw = some q := by
    unfold new checkOptions demoOptions
    norm_num
  obtain ⟨⟨par, opt⟩, hn⟩ := hn
  refine ⟨par, opt, hn, hsm, hst, ?_⟩
  obtain ⟨-, n, -, h⟩ := vmlmb_ends_convex _ _ _ _ _ _ _ _ hn _ _ 2 0 1 hsm hst (by unfold demoSearch; norm_num) (by unfold demoSearch; norm_num) (by unfold demoSearch; norm_num)
    (by unfold demoSearch; norm_num) (by unfold demoOptions; norm_num) (by unfold demoOptions; norm_num) (Or.inr (by unfold demoOptions; norm_num)) (fun _ => 1) 0 0
  exact ⟨n, h.imp (·.1) (·.1)⟩

end Opk.Vmlmb
