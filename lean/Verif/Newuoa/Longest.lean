import Verif.Newuoa.Biglag

/-!
# The step of `biglag` over the real numbers: its length, and a Lagrange function that does not vanish
-/
namespace Opk.Newuoa
open Linalg CMath Cobyla Powell

set_option linter.unusedSectionVars false

/-- The sines and the cosines of the real numbers. -/
noncomputable def realTrig : Trig ℝ where
  sin := Real.sin
  cos := Real.cos
  step := 2 * Real.pi / 50
  tsin i := Real.sin (i * (2 * Real.pi / 50))
  tcos i := Real.cos (i * (2 * Real.pi / 50))
  ofNat i := i

/-! ### The refinement and the search -/

theorem refinement_le {a b c : ℝ} (ha : |a| ≤ |b|) (hc : |c| ≤ |b|) : |refinement a b c| ≤ 1 / 2 := by
  unfold refinement
  dsimp only
  split_ifs with q
  · rw [show (lit 2 1 : ℝ) = 2 by rw [ExactMath.lit_eq]; norm_num]
    have same : 0 ≤ (a - b) * (c - b) := by
      rcases le_total 0 b with hb | hb
      · rw [abs_of_nonneg hb] at ha hc
        have := (abs_le.mp ha).2
        have := (abs_le.mp hc).2
        exact mul_nonneg_of_nonpos_of_nonpos (by linarith) (by linarith)
      · rw [abs_of_nonpos hb] at ha hc
        have := (abs_le.mp ha).1
        have := (abs_le.mp hc).1
        exact mul_nonneg (by linarith) (by linarith)
    have hs : (a - b - (c - b)) ^ 2 ≤ (a - b + (c - b)) ^ 2 := by nlinarith
    have hne : a - b + (c - b) ≠ 0 := by
      intro w
      rw [w] at hs
      have : a - b - (c - b) = 0 := by
        have : (a - b - (c - b)) ^ 2 = 0 := le_antisymm (by linarith) (sq_nonneg _)
        exact pow_eq_zero_iff (two_ne_zero) |>.mp this
      exact q (by linarith)
    rw [abs_div, abs_mul, abs_of_pos (by norm_num : (0 : ℝ) < 2), div_le_iff₀ (by positivity)]
    have := sq_le_sq.mp hs
    linarith
  · simp

theorem peak_spec (g : Nat → ℝ) (ta tb : ℝ) :
    (peak g ta tb).isave < 50 ∧ (peak g ta tb).taumax = g (peak g ta tb).isave ∧ (∀ i, i < 50 → |g i| ≤ |(peak g ta tb).taumax|) ∧
    |(peak g ta tb).tempa| ≤ |(peak g ta tb).taumax| ∧ |(peak g ta tb).tempb| ≤ |(peak g ta tb).taumax| := by
  unfold peak
  dsimp only
  have key := up_inv (fun m (t : Peak ℝ) => t.isave ≤ m ∧ t.taumax = g t.isave ∧ (∀ i, i ≤ m → |g i| ≤ |t.taumax|) ∧ t.tauold = g m ∧
      (1 ≤ t.isave → |t.tempa| ≤ |t.taumax|) ∧ (t.isave + 1 ≤ m → |t.tempb| ≤ |t.taumax|)) 49
    (body := fun i (t : Peak ℝ) => ({ (if fabs (g i) > fabs t.taumax then { t with taumax := g i, isave := i, tempa := t.tauold }
      else if i = t.isave + 1 then { t with tempb := g i } else t) with tauold := g i } : Peak ℝ)) (s := ⟨g 0, 0, ta, tb, g 0⟩)
    ⟨le_refl _, rfl, fun i hi => by rw [Nat.le_zero.mp hi], rfl, fun h => by simp at h, fun h => by simp at h⟩ (by
      intro m hm t ⟨h1, h2, h3, h4, h5, h6⟩
      rw [ExactMath.fabs_eq, ExactMath.fabs_eq]
      split_ifs with c1 c2
      · refine ⟨le_refl _, rfl, fun i hi => ?_, rfl, fun _ => ?_, fun w => absurd w (by show ¬ m + 1 + 1 ≤ m + 1; omega)⟩
        · by_cases e : i = m + 1
          · rw [e]
          · exact le_trans (h3 i (by omega)) c1.le
        · show |t.tauold| ≤ |g (m + 1)|
          rw [h4]; exact le_trans (h3 m (le_refl _)) c1.le
      all_goals
        have hn : ∀ i, i ≤ m + 1 → |g i| ≤ |t.taumax| := by
          intro i hi
          by_cases e : i = m + 1
          · rw [e]; exact not_lt.mp c1
          · exact h3 i (by omega)
      · exact ⟨by show t.isave ≤ m + 1; omega, h2, hn, rfl, h5, fun _ => hn (m + 1) (le_refl _)⟩
      · exact ⟨by show t.isave ≤ m + 1; omega, h2, hn, rfl, h5, fun w => h6 (by have w : t.isave + 1 ≤ m + 1 := w; omega)⟩)
  generalize up 49 _ _ = t at key ⊢
  obtain ⟨h1, h2, h3, h4, h5, h6⟩ := key
  have h3' : ∀ i, i < 50 → |g i| ≤ |t.taumax| := fun i hi => h3 i (by omega)
  by_cases c1 : t.isave = 0
  · rw [if_pos c1, if_neg (show ¬ t.isave = 49 by omega)]
    exact ⟨by show t.isave < 50; omega, h2, h3', by show |t.tauold| ≤ |t.taumax|; rw [h4]; exact h3 _ (by omega), h6 (by omega)⟩
  · rw [if_neg c1]
    by_cases c2 : t.isave = 49
    · rw [if_pos c2]
      exact ⟨by show t.isave < 50; omega, h2, h3', h5 (by omega), h3 0 (by omega)⟩
    · rw [if_neg c2]
      exact ⟨by omega, h2, h3', h5 (by omega), h6 (by omega)⟩

/-! ### The function -/

variable {K : Type} [Field K] [LinearOrder K] [IsStrictOrderedRing K] [CMath K] [ExactMath K]

/-- The bilinear form of the second derivatives. -/
def bform (n npt : Nat) (xpt : Nat → Nat → K) (hcol u v : Nat → K) : K :=
  ∑ k ∈ Finset.Icc 1 npt, hcol k * (dot n (xpt k) u * dot n (xpt k) v)

/-- The function whose gradient is `gc`. -/
def curve (n npt : Nat) (xpt : Nat → Nat → K) (hcol gc y : Nat → K) : K := dot n gc y + bform n npt xpt hcol y y / 2

theorem hessian_eq (n npt : Nat) (xpt : Nat → Nat → K) (hcol v : Nat → K) (i : Nat) :
    hessian n npt xpt hcol v i = ∑ k ∈ Finset.Icc 1 npt, hcol k * dot n (xpt k) v * xpt k i := by
  unfold hessian
  rw [acc_zero]
  exact Finset.sum_congr rfl fun k _ => by rw [acc_dot]

theorem hessian_dot (n npt : Nat) (xpt : Nat → Nat → K) (hcol u v : Nat → K) :
    dot n u (hessian n npt xpt hcol v) = bform n npt xpt hcol v u := by
  unfold bform
  have e : dot n u (hessian n npt xpt hcol v) = ∑ i ∈ Finset.Icc 1 n, u i * ∑ k ∈ Finset.Icc 1 npt, hcol k * dot n (xpt k) v * xpt k i :=
    Finset.sum_congr rfl fun i _ => by rw [hessian_eq]
  rw [e]
  simp only [Finset.mul_sum]
  rw [Finset.sum_comm]
  refine Finset.sum_congr rfl fun k _ => ?_
  generalize dot n (xpt k) v = a
  unfold Powell.dot
  rw [Finset.mul_sum, Finset.mul_sum]
  exact Finset.sum_congr rfl fun i _ => by ring

theorem dot_comm' (n : Nat) (x y : Nat → K) : dot n x y = dot n y x := Finset.sum_congr rfl fun _ _ => mul_comm _ _

theorem dot_comb (n : Nat) (x u v : Nat → K) (a b : K) : dot n x (fun i => a * u i + b * v i) = a * dot n x u + b * dot n x v := by
  unfold Powell.dot
  rw [Finset.mul_sum, Finset.mul_sum, ← Finset.sum_add_distrib]
  exact Finset.sum_congr rfl fun i _ => by ring

theorem bform_comb (n npt : Nat) (xpt : Nat → Nat → K) (hcol u v : Nat → K) (a b : K) :
    bform n npt xpt hcol (fun i => a * u i + b * v i) (fun i => a * u i + b * v i) =
      a * a * bform n npt xpt hcol u u + 2 * (a * b) * bform n npt xpt hcol u v + b * b * bform n npt xpt hcol v v := by
  unfold bform
  simp only [dot_comb, Finset.mul_sum]
  rw [← Finset.sum_add_distrib, ← Finset.sum_add_distrib]
  exact Finset.sum_congr rfl fun k _ => by ring

/-- The values on the circle. -/
theorem curve_circle (n npt : Nat) (xpt : Nat → Nat → K) (hcol gc u v : Nat → K) {c s : K} (h : c * c + s * s = 1) :
    curve n npt xpt hcol gc (fun i => c * u i + s * v i) =
      onCircle (bform n npt xpt hcol v v / 2) (dot n u gc) (dot n v gc) (bform n npt xpt hcol u u / 2 - bform n npt xpt hcol v v / 2) (bform n npt xpt hcol u v) c s := by
  unfold curve onCircle
  rw [dot_comb, bform_comb, dot_comm' n u gc, dot_comm' n v gc]
  linear_combination (bform n npt xpt hcol v v / 2) * h

theorem hessian_comb (n npt : Nat) (xpt : Nat → Nat → K) (hcol u v : Nat → K) (a b : K) (i : Nat) :
    hessian n npt xpt hcol (fun i => a * u i + b * v i) i = a * hessian n npt xpt hcol u i + b * hessian n npt xpt hcol v i := by
  rw [hessian_eq, hessian_eq, hessian_eq, Finset.mul_sum, Finset.mul_sum, ← Finset.sum_add_distrib]
  exact Finset.sum_congr rfl fun k _ => by rw [dot_comb]; ring

/-! ### The iterations -/

/-- What the iterations keep. -/
def Held (n npt : Nat) (xpt : Nat → Nat → ℝ) (hcol gc : Nat → ℝ) (delta : ℝ) (t : Turn ℝ) : Prop :=
  dot n t.d t.d = delta * delta ∧ (∀ i, t.gd i = hessian n npt xpt hcol t.d i) ∧ curve n npt xpt hcol gc t.d ≠ 0

theorem across_spec {n : Nat} {d s v : Nat → ℝ} (h : across n d s = some v) : dot n d v = 0 ∧ dot n v v = dot n d d := by
  unfold across at h
  dsimp only at h
  rw [acc_dot, acc_dot, acc_dot] at h
  by_cases c0 : dot n d d * dot n s s - dot n d s * dot n d s ≤ dot n d d * lit 1 100000000 * dot n s s
  · rw [if_pos c0] at h; simp at h
  rw [if_neg c0] at h
  have nn : ∀ v : Nat → ℝ, 0 ≤ dot n v v := fun v => Finset.sum_nonneg fun i _ => mul_self_nonneg _
  have tp : 0 < dot n d d * dot n s s - dot n d s * dot n d s := by
    refine lt_of_le_of_lt ?_ (not_le.mp c0)
    rw [ExactMath.lit_eq]
    have := mul_nonneg (nn d) (nn s)
    push_cast
    nlinarith
  have sq : sqrt (dot n d d * dot n s s - dot n d s * dot n d s) * sqrt (dot n d d * dot n s s - dot n d s * dot n d s) =
      dot n d d * dot n s s - dot n d s * dot n d s := Real.mul_self_sqrt tp.le
  have s0 : sqrt (dot n d d * dot n s s - dot n d s * dot n d s) ≠ 0 := (Real.sqrt_pos.mpr tp).ne'
  generalize sqrt (dot n d d * dot n s s - dot n d s * dot n d s) = denom at sq s0 h
  have ev : v = fun i => (dot n d d / denom) * s i + (-(dot n d s) / denom) * d i := by
    rw [← Option.some.inj h]
    funext i; ring
  have o1 : dot n d v = 0 := by rw [ev, dot_comb]; ring
  refine ⟨o1, ?_⟩
  have e : dot n v s = denom := by
    rw [ev, dot_comm', dot_comb, dot_comm' n s d]
    have : dot n d d / denom * dot n s s + -dot n d s / denom * dot n d s = (dot n d d * dot n s s - dot n d s * dot n d s) / denom := by ring
    rw [this, ← sq]; field_simp
  have e2 : dot n v v = dot n v (fun i => (dot n d d / denom) * s i + (-(dot n d s) / denom) * d i) := by rw [← ev]
  rw [e2, dot_comb, e, dot_comm' n v d, o1]
  field_simp
  ring

theorem swing_held {n npt : Nat} {xpt : Nat → Nat → ℝ} {hcol gc : Nat → ℝ} {delta : ℝ} {t : Turn ℝ} {v : Nat → ℝ} (h : Held n npt xpt hcol gc delta t)
    (o1 : dot n t.d v = 0) (o2 : dot n v v = dot n t.d t.d) : Held n npt xpt hcol gc delta (swing realTrig n npt xpt hcol gc t v).1 := by
  obtain ⟨h1, h2, h3⟩ := h
  unfold swing
  dsimp only
  have eg : t.gd = hessian n npt xpt hcol t.d := funext h2
  simp only [acc_dot]
  rw [eg, hessian_dot, hessian_dot, hessian_dot, lit_half]
  have half : ∀ a : ℝ, 1 / 2 * a = a / 2 := fun a => by ring
  rw [half, half]
  have cc : ∀ a, curve n npt xpt hcol gc (fun i => Real.cos a * t.d i + Real.sin a * v i) = wave (bform n npt xpt hcol v v / 2) (dot n t.d gc) (dot n v gc)
      (bform n npt xpt hcol t.d t.d / 2 - bform n npt xpt hcol v v / 2) (bform n npt xpt hcol t.d v) a := by
    intro a
    rw [curve_circle]
    · rfl
    · have := Real.sin_sq_add_cos_sq a; linarith
  have c0' : curve n npt xpt hcol gc t.d = wave (bform n npt xpt hcol v v / 2) (dot n t.d gc) (dot n v gc)
      (bform n npt xpt hcol t.d t.d / 2 - bform n npt xpt hcol v v / 2) (bform n npt xpt hcol t.d v) 0 := by
    rw [← cc 0, Real.cos_zero, Real.sin_zero]
    congr 1
    funext i; ring
  rw [c0'] at h3
  clear c0'
  generalize bform n npt xpt hcol v v / 2 = c1 at cc h3 ⊢
  generalize dot n t.d gc = c2 at cc h3 ⊢
  generalize dot n v gc = c3 at cc h3 ⊢
  generalize bform n npt xpt hcol t.d t.d / 2 - c1 = c4 at cc h3 ⊢
  generalize bform n npt xpt hcol t.d v = c5 at cc h3 ⊢
  have gw : (fun i : Nat => if i = 0 then c1 + c2 + c4 else onCircle c1 c2 c3 c4 c5 (realTrig.tcos i) (realTrig.tsin i)) = fun i : Nat => wave c1 c2 c3 c4 c5 (i * (2 * Real.pi / 50)) := by
    funext i
    split_ifs with q
    · rw [q]; unfold wave
      rw [Nat.cast_zero, zero_mul, Real.cos_zero, Real.sin_zero]; ring
    · rfl
  rw [gw]
  obtain ⟨k1, k2, k3, k4, k5⟩ := peak_spec (fun i : Nat => wave c1 c2 c3 c4 c5 (i * (2 * Real.pi / 50))) t.tempa t.tempb
  generalize peak (fun i : Nat => wave c1 c2 c3 c4 c5 (i * (2 * Real.pi / 50))) t.tempa t.tempb = k at k1 k2 k3 k4 k5 ⊢
  have hr := refinement_le k4 k5
  have hne : wave c1 c2 c3 c4 c5 (k.isave * (2 * Real.pi / 50)) ≠ 0 := by
    intro q
    have := k3 0 (by omega)
    rw [k2, q, abs_zero, Nat.cast_zero, zero_mul] at this
    exact h3 (abs_nonpos_iff.mp this)
  have near := wave_near (j := k.isave) (fun i hi => by have := k3 i hi; rw [k2] at this; exact this) hne hr
  rw [← cc] at near
  refine ⟨?_, fun i => ?_, near⟩
  · dsimp only
    generalize realTrig.step * (realTrig.ofNat k.isave + refinement k.tempa k.taumax k.tempb) = a
    rw [dot_comb, dot_comm' n _ t.d, dot_comm' n _ v, dot_comb, dot_comb, o1, dot_comm' n v t.d, o1, o2, h1]
    have : realTrig.sin a ^ 2 + realTrig.cos a ^ 2 = 1 := Real.sin_sq_add_cos_sq a
    linear_combination (delta * delta) * this
  · exact (hessian_comb ..).symm

theorem turns_held (n npt : Nat) (xpt : Nat → Nat → ℝ) (hcol gc : Nat → ℝ) (delta : ℝ) (fuel : Nat) :
    ∀ t, Held n npt xpt hcol gc delta t → Held n npt xpt hcol gc delta (turns realTrig n npt xpt hcol gc fuel t) := by
  induction fuel with
  | zero => exact fun _ h => h
  | succ fuel ih =>
    intro t ht
    unfold turns
    cases e : across n t.d t.s with
    | none => exact ht
    | some v =>
      obtain ⟨o1, o2⟩ := across_spec e
      have := swing_held ht o1 o2
      dsimp only
      split_ifs
      · exact this
      · exact ih _ this

/-! ### The first direction and the result -/

theorem turn0_held {n npt : Nat} {xpt : Nat → Nat → ℝ} {hcol gc d : Nat → ℝ} {delta : ℝ} (hd : 0 < delta)
    (h : curve n npt xpt hcol gc d ≠ 0) : Held n npt xpt hcol gc delta (turn0 n npt xpt hcol gc delta d) := by
  unfold turn0
  dsimp only
  simp only [acc_dot]
  rw [hessian_dot]
  have dd : 0 < dot n d d := by
    have nn : 0 ≤ dot n d d := Finset.sum_nonneg fun i _ => mul_self_nonneg _
    refine lt_of_le_of_ne nn fun q => h ?_
    have z : ∀ i ∈ Finset.Icc 1 n, d i = 0 := fun i hi => mul_self_eq_zero.mp ((Finset.sum_eq_zero_iff_of_nonneg fun i _ => mul_self_nonneg _).mp q.symm i hi)
    have zd : ∀ x : Nat → ℝ, dot n x d = 0 := fun x => Finset.sum_eq_zero fun i hi => by rw [z i hi, mul_zero]
    unfold curve bform
    rw [zd, Finset.sum_eq_zero fun k _ => by rw [zd]; ring]
    ring
  have sc : ∀ a : ℝ, (a = delta / sqrt (dot n d d) ∨ a = -(delta / sqrt (dot n d d))) → a * a * dot n d d = delta * delta ∧ a ≠ 0 := by
    intro a ha
    have s0 : (sqrt (dot n d d) : ℝ) ≠ 0 := (Real.sqrt_pos.mpr dd).ne'
    have s1 : sqrt (dot n d d) * sqrt (dot n d d) = dot n d d := Real.mul_self_sqrt dd.le
    have e : a * a = delta / sqrt (dot n d d) * (delta / sqrt (dot n d d)) := by rcases ha with ha | ha <;> rw [ha] <;> ring
    constructor
    · rw [e]
      generalize sqrt (dot n d d) = w at s0 s1
      rw [← s1]; field_simp
    · rcases ha with ha | ha <;> rw [ha]
      · exact (div_pos hd (Real.sqrt_pos.mpr dd)).ne'
      · exact neg_ne_zero.mpr (div_pos hd (Real.sqrt_pos.mpr dd)).ne'
  obtain ⟨a, ha⟩ : ∃ a : ℝ, a = if dot n d gc * bform n npt xpt hcol d d < 0 then -(delta / sqrt (dot n d d)) else delta / sqrt (dot n d d) := ⟨_, rfl⟩
  have ha' : (a = delta / sqrt (dot n d d) ∨ a = -(delta / sqrt (dot n d d))) := by rw [ha]; split_ifs <;> simp
  have sgn : 0 ≤ a * (dot n d gc * bform n npt xpt hcol d d) := by
    have : (0 : ℝ) ≤ delta / sqrt (dot n d d) := (div_pos hd (Real.sqrt_pos.mpr dd)).le
    rw [ha]
    split_ifs with q
    · exact mul_nonneg_of_nonpos_of_nonpos (by linarith) q.le
    · exact mul_nonneg this (not_lt.mp q)
  rw [← ha]
  obtain ⟨e1, e2⟩ := sc a ha'
  have ef : ∀ u : Nat → ℝ, (fun i => a * u i) = fun i => a * u i + 0 * u i := fun u => funext fun i => by ring
  refine ⟨?_, fun i => ?_, ?_⟩
  · show dot n (fun i => a * d i) (fun i => a * d i) = _
    rw [← e1]
    unfold Powell.dot
    rw [Finset.mul_sum]
    exact Finset.sum_congr rfl fun i _ => by ring
  · show a * hessian n npt xpt hcol d i = hessian n npt xpt hcol (fun i => a * d i) i
    rw [ef d, hessian_comb]; ring
  · show curve n npt xpt hcol gc (fun i => a * d i) ≠ 0
    unfold curve at h ⊢
    rw [ef d, dot_comb, bform_comb, dot_comm' n gc d]
    rw [dot_comm' n gc d] at h
    generalize dot n d gc = sp at *
    generalize bform n npt xpt hcol d d = dhd at *
    intro w
    have w1 : a * (sp + a * dhd / 2) = 0 := by linear_combination w
    have w2 := (mul_eq_zero.mp w1).resolve_left e2
    have w3 : sp = -(a * dhd / 2) := by linarith
    rw [w3] at sgn
    have w4 : a * dhd = 0 := by
      have : (a * dhd) ^ 2 ≤ 0 := by nlinarith
      exact pow_eq_zero_iff (two_ne_zero) |>.mp (le_antisymm this (sq_nonneg _))
    have w5 : dhd = 0 := (mul_eq_zero.mp w4).resolve_left e2
    rw [w5] at h w3
    apply h
    rw [w3]; ring

theorem column_eq {p : Par K} {s : St K} (hid : s.idz = 1) (k : Nat) : column p s k = omega p.nptm s.zmat k s.knew.toNat := by
  unfold column omega
  rw [hid]
  refine up_inv (fun m (h : Nat → K) => h k = ∑ j ∈ Finset.Icc 1 m, s.zmat k j * s.zmat s.knew.toNat j) p.nptm (by simp) ?_
  intro m hm h e
  rw [Finset.sum_Icc_succ_top (by omega), ← e]
  show h k + signed 1 (m + 1) _ * _ = _
  unfold signed
  rw [if_neg (by omega)]; ring

/-- The function of `biglag` is the Lagrange function. -/
theorem curve_lagrange {p : Par K} {s : St K} (hid : s.idz = 1) (y : Nat → K) :
    curve p.n p.npt s.xpt (column p s) (slope p s) y = lfun p s s.knew.toNat (fun j => s.xopt j + y j) - lfun p s s.knew.toNat s.xopt := by
  have hc : column p s = fun k => omega p.nptm s.zmat k s.knew.toNat := funext (column_eq hid)
  have g : dot p.n (slope p s) y = dot p.n (s.bmat s.knew.toNat) y + dot p.n y (hessian p.n p.npt s.xpt (column p s) s.xopt) := by
    rw [dot_comm' p.n y]
    unfold slope hessian Powell.dot
    rw [← Finset.sum_add_distrib]
    exact Finset.sum_congr rfl fun i _ => by dsimp only; rw [acc_eq, acc_eq p.npt _ (0 : K)]; ring
  unfold curve
  rw [g, hessian_dot]
  unfold bform lfun
  rw [hc]
  simp only [dot_addr]
  rw [add_assoc, Finset.sum_div, ← Finset.sum_add_distrib]
  have e : ∀ a b c d : K, (a = b - c) → d + a = b + (dot p.n (s.bmat s.knew.toNat) s.xopt + d) - (c + dot p.n (s.bmat s.knew.toNat) s.xopt) := fun a b c d w => by rw [w]; ring
  apply e
  rw [← Finset.sum_sub_distrib]
  exact Finset.sum_congr rfl fun k _ => by ring

theorem biglag_ok {p : Par ℝ} {o : Subs ℝ} (h : o.biglag = biglag realTrig p) : BigOk p o := by
  intro s hid hc ht hd c hg
  rw [h]
  have t1 : 1 ≤ s.knew.toNat := by have := ht.1; omega
  have t2 : s.knew.toNat ≤ p.npt := by have := ht.2.1; omega
  have val : ∀ y, hcolumn p s c (fun j => s.xopt j + y j) s.knew.toNat = curve p.n p.npt s.xpt (column p s) (slope p s) y := by
    intro y
    rw [curve_lagrange hid, hcolumn_lfun p s c t1 t2, hc.x, lfun_pt hg t1 t2 hc.k1 hc.k2, if_neg (Ne.symm ht.2.2)]
    ring
  have first : curve p.n p.npt s.xpt (column p s) (slope p s) (fun i => s.xpt s.knew.toNat i - s.xopt i) ≠ 0 := by
    rw [← val, show (fun j => s.xopt j + (s.xpt s.knew.toNat j - s.xopt j)) = s.xpt s.knew.toNat from funext fun j => by ring]
    rw [hcolumn_lfun p s c t1 t2, lfun_pt hg t1 t2 t1 t2, if_pos rfl]
    intro q
    have : (1 : ℝ) = 0 := by linarith
    exact one_ne_zero this
  obtain ⟨a, -, b⟩ := turns_held p.n p.npt s.xpt (column p s) (slope p s) s.dstep p.n _ (turn0_held hd first)
  exact ⟨column_eq hid _, a, by rw [val]; exact b⟩

end Opk.Newuoa
