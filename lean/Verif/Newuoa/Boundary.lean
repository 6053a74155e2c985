import Verif.Newuoa.Refine

/-!
# The step of `trsapp` in exact arithmetic: its length, and the reduction of the model
-/
namespace Opk.Newuoa
open Linalg CMath Cobyla Powell

set_option linter.unusedSectionVars false

/-! ### Scalar products -/

theorem dot_axpy (n : Nat) (x u v : Nat → ℝ) (a : ℝ) : dot n x (fun i => u i + a * v i) = dot n x u + a * dot n x v := by
  unfold Powell.dot
  rw [Finset.mul_sum, ← Finset.sum_add_distrib]
  exact Finset.sum_congr rfl fun i _ => by ring

theorem axpy_dot (n : Nat) (x u v : Nat → ℝ) (a : ℝ) : dot n (fun i => u i + a * v i) x = dot n u x + a * dot n v x := by
  rw [dot_comm, dot_axpy, dot_comm n x u, dot_comm n x v]

theorem comb_dot (n : Nat) (x u v : Nat → ℝ) (a b : ℝ) : dot n (fun i => a * u i + b * v i) x = a * dot n u x + b * dot n v x := by
  rw [dot_comm, dot_comb, dot_comm n x u, dot_comm n x v]

theorem add_dot (n : Nat) (x u v : Nat → ℝ) : dot n (fun i => u i + v i) x = dot n u x + dot n v x := by
  rw [dot_comm, dot_add, dot_comm n x u, dot_comm n x v]

theorem dot_self_nonneg (n : Nat) (x : Nat → ℝ) : 0 ≤ dot n x x := Finset.sum_nonneg fun _ _ => mul_self_nonneg _

theorem dot_self_zero {n : Nat} {x : Nat → ℝ} (h : dot n x x = 0) : ∀ i, 1 ≤ i → i ≤ n → x i = 0 := by
  intro i i1 i2
  have := (Finset.sum_eq_zero_iff_of_nonneg (fun _ _ => mul_self_nonneg _)).mp h i (Finset.mem_Icc.mpr ⟨i1, i2⟩)
  exact mul_self_eq_zero.mp this

theorem cauchy_dot (n : Nat) (x y : Nat → ℝ) : dot n x y ^ 2 ≤ dot n x x * dot n y y := by
  have := Finset.sum_mul_sq_le_sq_mul_sq (Finset.Icc 1 n) x y
  unfold Powell.dot
  simpa only [sq] using this

/-- Bessel's inequality for two orthogonal vectors of the same length. -/
theorem bessel {n : Nat} {u v g : Nat → ℝ} {L : ℝ} (hL : 0 < L) (hu : dot n u u = L) (hv : dot n v v = L) (huv : dot n u v = 0) :
    dot n u g ^ 2 + dot n v g ^ 2 ≤ L * dot n g g := by
  have h := cauchy_dot n (fun i => dot n u g * u i + dot n v g * v i) g
  rw [comb_dot, comb_dot, dot_comb, dot_comb, dot_comm n v u, hu, hv, huv] at h
  have e : (dot n u g * dot n u g + dot n v g * dot n v g) ^ 2 ≤ (dot n u g ^ 2 + dot n v g ^ 2) * (L * dot n g g) := by
    refine le_trans h (le_of_eq ?_)
    ring
  rcases eq_or_lt_of_le (add_nonneg (sq_nonneg (dot n u g)) (sq_nonneg (dot n v g))) with q | q
  · rw [← q]
    exact mul_nonneg hL.le (dot_self_nonneg n g)
  · refine le_of_mul_le_mul_left ?_ q
    refine le_trans (le_of_eq ?_) e
    ring

/-! ### The model -/

/-- The products by the second derivatives are those of a symmetric matrix. -/
def Symm (n : Nat) (H : (Nat → ℝ) → Nat → ℝ) : Prop := ∀ u v, dot n (H u) v = dot n (H v) u

theorem Symm.axpy {n : Nat} {H : (Nat → ℝ) → Nat → ℝ} (h : Symm n H) (u v w : Nat → ℝ) (a : ℝ) :
    dot n (H fun i => u i + a * v i) w = dot n (H u) w + a * dot n (H v) w := by
  rw [h, dot_axpy, h w u, h w v]

theorem Symm.comb {n : Nat} {H : (Nat → ℝ) → Nat → ℝ} (h : Symm n H) (u v w : Nat → ℝ) (a b : ℝ) :
    dot n (H fun i => a * u i + b * v i) w = a * dot n (H u) w + b * dot n (H v) w := by
  rw [h, dot_comb, h w u, h w v]

/-- The change of the model for the step `y`. -/
noncomputable def change (n : Nat) (H : (Nat → ℝ) → Nat → ℝ) (g y : Nat → ℝ) : ℝ := dot n g y + dot n (H y) y / 2

theorem Symm.change_axpy {n : Nat} {H : (Nat → ℝ) → Nat → ℝ} (h : Symm n H) (g u v : Nat → ℝ) (a : ℝ) :
    change n H g (fun i => u i + a * v i) = change n H g u + a * (dot n g v + dot n (H u) v) + a * a / 2 * dot n (H v) v := by
  unfold change
  rw [dot_axpy, h.axpy, dot_axpy, dot_axpy, h v u]
  ring

theorem Symm.change_comb {n : Nat} {H : (Nat → ℝ) → Nat → ℝ} (h : Symm n H) (g u v : Nat → ℝ) (a b : ℝ) :
    change n H g (fun i => a * u i + b * v i) = a * dot n g u + b * dot n g v + (a * a * dot n (H u) u + 2 * a * b * dot n (H v) u + b * b * dot n (H v) v) / 2 := by
  unfold change
  rw [dot_comb, h.comb, dot_comb, dot_comb, h u v]
  ring

/-! ### The conjugate gradient iterations -/

/-- What is known of `STEP`, `HS`, `GG` and `QRED`. -/
structure At (n : Nat) (H : (Nat → ℝ) → Nat → ℝ) (g : Nat → ℝ) (t : Cg ℝ) : Prop where
  hs : ∀ v, dot n t.hs v = dot n (H t.step) v
  gg : t.gg = dot n (fun i => g i + t.hs i) (fun i => g i + t.hs i)
  qred : t.qred = -change n H g t.step

/-- The directions before `d`: they are orthogonal to the gradient and conjugate to `d`; the step is a combination of them, and
the gradient and the products of their second derivatives are combinations of them and of `d` (combinations are meant by what
is orthogonal to them). -/
def Conj (n : Nat) (H : (Nat → ℝ) → Nat → ℝ) (g step hs d : Nat → ℝ) : Prop :=
  ∃ V : Set (Nat → ℝ), (∀ v ∈ V, dot n v (fun i => g i + hs i) = 0) ∧ (∀ v ∈ V, dot n (H d) v = 0) ∧
    ∀ w, (∀ v ∈ V, dot n v w = 0) → dot n step w = 0 ∧ (dot n d w = 0 → dot n (fun i => g i + hs i) w = 0 ∧ ∀ v ∈ V, dot n (H v) w = 0)

/-- The gradient after a move. -/
theorem moved_gradient (n : Nat) (g hs hd w : Nat → ℝ) (a : ℝ) :
    dot n (fun i => g i + (hs i + a * hd i)) w = dot n (fun i => g i + hs i) w + a * dot n hd w := by
  rw [show (fun i => g i + (hs i + a * hd i)) = fun i => (g i + hs i) + a * hd i from funext fun i => by ring, axpy_dot]

theorem conj_next {n : Nat} {H : (Nat → ℝ) → Nat → ℝ} (hH : Symm n H) {g step hs d : Nat → ℝ} {gg gg' a c : ℝ} (h : Conj n H g step hs d) (ha : a ≠ 0)
    (h1 : dot n d (fun i => g i + hs i) = -gg) (h2 : a * dot n d (H d) = gg)
    (h3 : gg' = dot n (fun i => g i + (hs i + a * H d i)) (fun i => g i + (hs i + a * H d i))) (h4 : c * gg = gg') :
    Conj n H g (fun i => step i + a * d i) (fun i => hs i + a * H d i) (fun i => c * d i - g i - (hs i + a * H d i)) := by
  obtain ⟨V, v1, v2, v3⟩ := h
  have mg := moved_gradient n g hs (H d)
  have ed : (fun i => c * d i - g i - (hs i + a * H d i)) = fun i => c * d i + (-1) * (g i + (hs i + a * H d i)) := by funext i; ring
  have o1 : ∀ v ∈ V, dot n v (fun i => g i + (hs i + a * H d i)) = 0 := by
    intro v hv
    rw [dot_comm, mg, dot_comm, v1 v hv, v2 v hv]; ring
  have o2 : dot n d (fun i => g i + (hs i + a * H d i)) = 0 := by
    rw [dot_comm, mg, dot_comm, h1, dot_comm n (H d), h2]; ring
  have o3 := (v3 _ o1).2 o2
  have e1 : ∀ v, dot n (H fun i => c * d i + (-1) * (g i + (hs i + a * H d i))) v = c * dot n (H v) d + (-1) * dot n (H v) (fun i => g i + (hs i + a * H d i)) := by
    intro v
    rw [hH, dot_comb]
  refine ⟨insert d V, ?_, ?_, ?_⟩
  · intro v hv
    rcases Set.mem_insert_iff.mp hv with rfl | hv
    · exact o2
    · exact o1 v hv
  · rw [ed]
    intro v hv
    rw [e1]
    rcases Set.mem_insert_iff.mp hv with rfl | hv
    · have e2 : a * dot n (H v) (fun i => g i + (hs i + a * H v i)) = gg' := by
        have := mg (fun i => g i + (hs i + a * H v i)) a
        rw [o3.1, ← h3] at this
        linarith
      refine mul_left_cancel₀ ha ?_
      rw [dot_comm n (H v) v]
      linear_combination c * h2 - e2 + h4
    · rw [hH v d, v2 v hv, o3.2 v hv]; ring
  · intro w hw
    have w0 : ∀ v ∈ V, dot n v w = 0 := fun v hv => hw v (Set.mem_insert_of_mem _ hv)
    have wd : dot n d w = 0 := hw d (Set.mem_insert _ _)
    obtain ⟨q1, q2⟩ := v3 w w0
    obtain ⟨q3, q4⟩ := q2 wd
    refine ⟨by rw [axpy_dot, q1, wd]; ring, fun q => ?_⟩
    rw [ed, comb_dot, wd] at q
    have q' : dot n (fun i => g i + (hs i + a * H d i)) w = 0 := by linarith
    refine ⟨q', fun v hv => ?_⟩
    rcases Set.mem_insert_iff.mp hv with rfl | hv
    · rw [mg, q3, zero_add] at q'
      exact (mul_eq_zero.mp q').resolve_left ha
    · exact q4 v hv

/-- The slope of the model along the step. -/
theorem conj_slope {n : Nat} {H : (Nat → ℝ) → Nat → ℝ} {g step hs d : Nat → ℝ} {gg a : ℝ} (h : Conj n H g step hs d) (ha : 0 ≤ a)
    (h1 : dot n d (fun i => g i + hs i) = -gg) (h2 : a * dot n d (H d) ≤ gg) :
    dot n (fun i => step i + a * d i) (fun i => g i + (hs i + a * H d i)) ≤ 0 := by
  obtain ⟨V, v1, v2, v3⟩ := h
  have mg := moved_gradient n g hs (H d)
  have o1 : ∀ v ∈ V, dot n v (fun i => g i + (hs i + a * H d i)) = 0 := by
    intro v hv
    rw [dot_comm, mg, dot_comm, v1 v hv, v2 v hv]; ring
  have o2 : dot n d (fun i => g i + (hs i + a * H d i)) ≤ 0 := by
    rw [dot_comm, mg, dot_comm, h1, dot_comm n (H d)]; linarith
  rw [axpy_dot, (v3 _ o1).1, zero_add]
  exact mul_nonpos_of_nonneg_of_nonpos ha o2

/-- At the beginning of an iteration. -/
structure Inner (n : Nat) (H : (Nat → ℝ) → Nat → ℝ) (g : Nat → ℝ) (delsq gb : ℝ) (t : Cg ℝ) : Prop extends At n H g t where
  ss : t.ss = dot n t.step t.step
  lt : t.ss < delsq
  ds : t.ds = dot n t.d t.step
  ds0 : 0 ≤ t.ds
  dd : t.dd = dot n t.d t.d
  dd0 : 0 < t.dd
  gg0 : 0 < t.gg
  slope : dot n t.d (fun i => g i + t.hs i) = -t.gg
  low : gb ≤ 10000 * t.gg
  q0 : 0 ≤ t.qred
  len : t.ss * gb ≤ 40000 * n * t.qred ^ 2
  dir : t.dd * gb ≤ 10000 * (t.iterc + 1) * t.gg ^ 2
  it : t.iterc < n
  conj : Conj n H g t.step t.hs t.d

/-- The step to the boundary. -/
theorem to_boundary {ss ds dd delsq : ℝ} (h1 : ss < delsq) (h2 : 0 ≤ ds) (h3 : 0 < dd) :
    ∃ r b, root (ds * ds + dd * (delsq - ss)) = some r ∧ quot (delsq - ss) (ds + r) = some b ∧ 0 < b ∧ ss + 2 * b * ds + b * b * dd = delsq := by
  have p : 0 < ds * ds + dd * (delsq - ss) := by
    have := mul_pos h3 (sub_pos.mpr h1)
    have := mul_self_nonneg ds
    linarith
  have r0 : 0 < Real.sqrt (ds * ds + dd * (delsq - ss)) := Real.sqrt_pos.mpr p
  have rr := Real.mul_self_sqrt p.le
  refine ⟨Real.sqrt (ds * ds + dd * (delsq - ss)), (delsq - ss) / (ds + Real.sqrt (ds * ds + dd * (delsq - ss))), if_neg (not_lt.mpr p.le),
    if_neg (by positivity), div_pos (sub_pos.mpr h1) (by positivity), ?_⟩
  generalize Real.sqrt (ds * ds + dd * (delsq - ss)) = r at *
  have hne : ds + r ≠ 0 := by positivity
  have e : dd * ((delsq - ss) / (ds + r)) = r - ds := by
    rw [← mul_div_assoc, div_eq_iff hne]
    linear_combination -rr
  have e2 : (delsq - ss) / (ds + r) * (ds + r) = delsq - ss := div_mul_cancel₀ _ hne
  linear_combination (delsq - ss) / (ds + r) * e + e2

/-- The curvature and the length. -/
theorem lengths_spec {t : Cg ℝ} {b dhd : ℝ} (hdd : 0 < t.dd) (hgg : 0 < t.gg) (hb : 0 < b) :
    ∃ c a, lengths t b dhd = some (c, a) ∧ 0 < a ∧ a ≤ b ∧ a * dhd ≤ t.gg ∧ (a < b → a * dhd = t.gg) := by
  unfold lengths
  by_cases c : dhd > 0
  · rw [if_pos c]
    have e1 : quot dhd t.dd = some (dhd / t.dd) := if_neg hdd.ne'
    have e2 : quot t.gg dhd = some (t.gg / dhd) := if_neg c.ne'
    rw [e1, e2]
    refine ⟨_, _, rfl, ?_⟩
    have e3 : t.gg / dhd * dhd = t.gg := div_mul_cancel₀ _ c.ne'
    have e4 : 0 < t.gg / dhd := div_pos hgg c
    unfold cmin
    by_cases q : b ≤ t.gg / dhd
    · rw [if_pos q]
      refine ⟨hb, le_refl _, ?_, fun w => absurd w (lt_irrefl _)⟩
      exact le_trans (mul_le_mul_of_nonneg_right q c.le) (le_of_eq e3)
    · rw [if_neg q]
      exact ⟨e4, (not_le.mp q).le, e3.le, fun _ => e3⟩
  · rw [if_neg c]
    refine ⟨_, _, rfl, hb, le_refl _, ?_, fun w => absurd w (lt_irrefl _)⟩
    have := mul_nonpos_of_nonneg_of_nonpos hb.le (not_lt.mp c)
    linarith

/-- The length of the steps is bounded by a multiple of the reductions. -/
theorem long_path {ss ds dd gb N q gg a qadd : ℝ} (hgb : 0 ≤ gb) (hN : 0 ≤ N) (hss : 0 ≤ ss) (hq : 0 ≤ q) (hgg : 0 ≤ gg) (ha : 0 ≤ a) (hds : ds ^ 2 ≤ ss * dd) (h1 : ss * gb ≤ 40000 * N * q ^ 2)
    (h2 : dd * gb ≤ 10000 * N * gg ^ 2) (h3 : a * gg ≤ 2 * qadd) : (ss + 2 * a * ds + a * a * dd) * gb ≤ 40000 * N * (q + qadd) ^ 2 := by
  have h4 : ds * gb ≤ 20000 * N * q * gg := by
    refine abs_le_of_sq_le_sq' ?_ (by positivity) |>.2
    have e1 : (ds * gb) ^ 2 ≤ (ss * gb) * (dd * gb) := by
      have := mul_le_mul_of_nonneg_right hds (sq_nonneg gb)
      linarith
    have e2 : (ss * gb) * (dd * gb) ≤ (40000 * N * q ^ 2) * (10000 * N * gg ^ 2) := by
      rcases le_or_gt 0 (dd * gb) with c | c
      · exact mul_le_mul h1 h2 c (by positivity)
      · have : ss * gb * (dd * gb) ≤ 0 := mul_nonpos_of_nonneg_of_nonpos (by positivity) c.le
        have : 0 ≤ (40000 * N * q ^ 2) * (10000 * N * gg ^ 2) := by positivity
        linarith
    refine le_trans e1 (le_trans e2 (le_of_eq ?_))
    ring
  have h5 : 2 * a * (ds * gb) ≤ 2 * a * (20000 * N * q * gg) := mul_le_mul_of_nonneg_left h4 (by positivity)
  have h6 : a * a * (dd * gb) ≤ a * a * (10000 * N * gg ^ 2) := mul_le_mul_of_nonneg_left h2 (by positivity)
  have h7 : (a * gg) ^ 2 ≤ (2 * qadd) ^ 2 := pow_le_pow_left₀ (by positivity) h3 2
  have h8 : N * q * (a * gg) ≤ N * q * (2 * qadd) := mul_le_mul_of_nonneg_left h3 (by positivity)
  have h9 : N * (a * gg) ^ 2 ≤ N * (2 * qadd) ^ 2 := mul_le_mul_of_nonneg_left h7 hN
  nlinarith

/-- After an iteration. -/
structure Moved (n : Nat) (H : (Nat → ℝ) → Nat → ℝ) (g : Nat → ℝ) (delsq gb : ℝ) (k : Nat) (u : Cg ℝ) : Prop extends At n H g u where
  len : dot n u.step u.step ≤ delsq
  q0 : 0 < u.qred
  path : dot n u.step u.step * gb ≤ 40000 * n * u.qred ^ 2
  it : u.iterc = k + 1
  itn : k < n

/-- What holds after an iteration, according to what follows. -/
def Leads (n : Nat) (H : (Nat → ℝ) → Nat → ℝ) (g : Nat → ℝ) (delsq gb : ℝ) (k : Nat) : Then → Cg ℝ → Prop
  | .again, u => Inner n H g delsq gb u ∧ u.iterc = k + 1
  | .edge, u => Moved n H g delsq gb k u ∧ dot n u.step u.step = delsq ∧ dot n u.step (fun i => g i + u.hs i) ≤ 0
  | .stop, u => Moved n H g delsq gb k u

/-- The vector of the next direction, and its products. -/
theorem redirect_spec {n : Nat} {H : (Nat → ℝ) → Nat → ℝ} {g : Nat → ℝ} {delsq gb ggsav dd : ℝ} {k : Nat} {u : Cg ℝ} (hm : Moved n H g delsq gb k u)
    (hlt : dot n u.step u.step < delsq) (hs : 0 < ggsav) (hdd : dot n u.d u.d = dd) (hort : dot n u.d (fun i => g i + u.hs i) = 0) (hdir : dd * gb ≤ 10000 * (k + 1) * ggsav ^ 2)
    (hlow : gb < 10000 * u.gg) (hgb : 0 < gb) (hit : u.iterc < n)
    (hcon : ∀ c, c * ggsav = u.gg → Conj n H g u.step u.hs (fun i => c * u.d i - g i - u.hs i)) :
    ∃ x v, redirect n g delsq ggsav u = some (x, v) ∧ Leads n H g delsq gb k x v := by
  unfold redirect
  rw [show quot u.gg ggsav = some (u.gg / ggsav) from if_neg hs.ne']
  refine ⟨_, _, rfl, ?_⟩
  dsimp only
  rw [acc_dot, acc_dot, acc_dot]
  have gg0 : 0 < u.gg := by linarith
  obtain ⟨c, hc⟩ : ∃ c, u.gg / ggsav = c := ⟨_, rfl⟩
  have hcg : c * ggsav = u.gg := by rw [← hc]; exact div_mul_cancel₀ _ hs.ne'
  rw [hc]
  have ed : (fun i => c * u.d i - g i - u.hs i) = fun i => c * u.d i + (-1) * (g i + u.hs i) := by funext i; ring
  have e1 : dot n (fun i => c * u.d i - g i - u.hs i) (fun i => c * u.d i - g i - u.hs i) = c * c * dd + u.gg := by
    rw [ed, comb_dot, dot_comb, dot_comb, dot_comm n (fun i => g i + u.hs i) u.d, hort, hdd, ← hm.gg]; ring
  have e2 : dot n (fun i => c * u.d i - g i - u.hs i) (fun i => g i + u.hs i) = -u.gg := by
    rw [ed, comb_dot, hort, ← hm.gg]; ring
  have dd0 : 0 ≤ dd := by rw [← hdd]; exact dot_self_nonneg n _
  by_cases q : dot n (fun i => c * u.d i - g i - u.hs i) u.step ≤ 0
  · rw [if_pos q]
    exact ⟨⟨hm.hs, hm.gg, hm.qred⟩, hm.len, hm.q0, hm.path, hm.it, hm.itn⟩
  · rw [if_neg q, if_pos hlt]
    refine ⟨⟨⟨hm.hs, hm.gg, hm.qred⟩, rfl, hlt, rfl, (not_le.mp q).le, rfl, ?_, gg0, e2, hlow.le, hm.q0.le, hm.path, ?_, hit, hcon c hcg⟩, hm.it⟩
    · show 0 < dot n (fun i => c * u.d i - g i - u.hs i) (fun i => c * u.d i - g i - u.hs i)
      rw [e1]
      have := mul_nonneg (mul_self_nonneg c) dd0
      linarith
    · show dot n (fun i => c * u.d i - g i - u.hs i) (fun i => c * u.d i - g i - u.hs i) * gb ≤ 10000 * ((u.iterc : ℝ) + 1) * u.gg ^ 2
      rw [e1, hm.it]
      push_cast
      have a1 : c * c * (dd * gb) ≤ c * c * (10000 * (k + 1) * ggsav ^ 2) := mul_le_mul_of_nonneg_left hdir (mul_self_nonneg c)
      have a2 : c * c * (10000 * (k + 1) * ggsav ^ 2) = 10000 * (k + 1) * u.gg ^ 2 := by rw [← hcg]; ring
      have a3 : u.gg * gb ≤ u.gg * (10000 * u.gg) := mul_le_mul_of_nonneg_left hlow.le gg0.le
      linarith

/-- An iteration. -/
theorem cgStep_spec {n : Nat} {H : (Nat → ℝ) → Nat → ℝ} (hH : Symm n H) {g : Nat → ℝ} {delsq gb : ℝ} (hgb : 0 < gb) {t : Cg ℝ} (h : Inner n H g delsq gb t) :
    ∃ x u, cgStep n H g delsq gb t = some (x, u) ∧ Leads n H g delsq gb t.iterc x u := by
  obtain ⟨r, b, er, eb, b0, hb⟩ := to_boundary h.lt h.ds0 h.dd0
  obtain ⟨c, a, el, a0, ab, agg, aeq⟩ := lengths_spec (t := t) (dhd := dot n t.d (H t.d)) h.dd0 h.gg0 b0
  have hN : (0 : ℝ) ≤ n := Nat.cast_nonneg n
  have hk : (t.iterc : ℝ) + 1 ≤ n := by exact_mod_cast h.it
  have sl : dot n g t.d + dot n (H t.step) t.d = -t.gg := by
    rw [← h.hs, ← h.slope, dot_comm n t.d, add_dot]
  have hd : dot n t.d (H t.d) = dot n (H t.d) t.d := dot_comm _ _ _
  have qa : 0 < a * (t.gg - 1 / 2 * a * dot n t.d (H t.d)) := mul_pos a0 (by linarith [h.gg0])
  have qb : a * t.gg ≤ 2 * (a * (t.gg - 1 / 2 * a * dot n t.d (H t.d))) := by
    have := mul_le_mul_of_nonneg_left agg a0.le
    linarith
  have ch : t.qred + a * (t.gg - 1 / 2 * a * dot n t.d (H t.d)) = -change n H g (fun i => t.step i + a * t.d i) := by
    rw [hH.change_axpy, sl, h.qred, hd]; ring
  have sz : dot n (fun i => t.step i + a * t.d i) (fun i => t.step i + a * t.d i) = t.ss + 2 * a * t.ds + a * a * t.dd := by
    rw [axpy_dot, dot_axpy, dot_axpy, dot_comm n t.step t.d, h.ss, h.ds, h.dd]; ring
  have hs' : ∀ v, dot n (fun i => t.hs i + a * H t.d i) v = dot n (H fun i => t.step i + a * t.d i) v := by
    intro v
    rw [axpy_dot, hH.axpy, h.hs]
  have path := long_path (a := a) (ss := t.ss) (ds := t.ds) (dd := t.dd) hgb.le hN (by rw [h.ss]; exact dot_self_nonneg n _) h.q0 h.gg0.le a0.le (by rw [h.ss, h.ds, h.dd, dot_comm n t.d t.step]; exact cauchy_dot _ _ _) h.len
    (le_trans h.dir (by
      have := mul_le_mul_of_nonneg_right hk (sq_nonneg t.gg)
      linarith)) qb
  have mono : t.ss + 2 * a * t.ds + a * a * t.dd ≤ delsq ∧ (a < b → t.ss + 2 * a * t.ds + a * a * t.dd < delsq) := by
    have m1 : a * t.ds ≤ b * t.ds := mul_le_mul_of_nonneg_right ab h.ds0
    constructor
    · have m2 : a * a * t.dd ≤ b * b * t.dd := mul_le_mul_of_nonneg_right (mul_le_mul ab ab a0.le b0.le) h.dd0.le
      linarith
    · intro w
      have m2 : a * a * t.dd < b * b * t.dd := mul_lt_mul_of_pos_right (mul_lt_mul'' w w a0.le a0.le) h.dd0
      linarith
  unfold cgStep
  dsimp only
  simp only [acc_dot, lit_half]
  simp only [er, eb, el, Option.bind_eq_bind, Option.bind_some]
  have mv : ∀ dd ds ss cr, Moved n H g delsq gb t.iterc ⟨fun i => t.step i + a * t.d i, fun i => t.hs i + a * H t.d i, t.d, H t.d, dd, ds, ss,
      dot n (fun i => g i + (t.hs i + a * H t.d i)) (fun i => g i + (t.hs i + a * H t.d i)), t.qred + a * (t.gg - 1 / 2 * a * dot n t.d (H t.d)), cr, t.iterc + 1⟩ := by
    intro dd ds ss cr
    refine ⟨⟨hs', rfl, ch⟩, ?_, by have := h.q0; show 0 < t.qred + _; linarith, ?_, rfl, h.it⟩
    · show dot n (fun i => t.step i + a * t.d i) (fun i => t.step i + a * t.d i) ≤ delsq
      rw [sz]; exact mono.1
    · show dot n (fun i => t.step i + a * t.d i) (fun i => t.step i + a * t.d i) * gb ≤ _
      rw [sz]; exact path
  by_cases c1 : a < b
  · rw [if_pos c1]
    by_cases c2 : t.iterc + 1 ≥ n ∨ a * (t.gg - 1 / 2 * a * dot n t.d (H t.d)) ≤ (t.qred + a * (t.gg - 1 / 2 * a * dot n t.d (H t.d))) * lit 1 100 ∨
        dot n (fun i => g i + (t.hs i + a * H t.d i)) (fun i => g i + (t.hs i + a * H t.d i)) ≤ gb * lit 1 10000
    · rw [if_pos c2]
      exact ⟨_, _, rfl, mv _ _ _ _⟩
    · rw [if_neg c2]
      push Not at c2
      obtain ⟨k1, -, k3⟩ := c2
      refine redirect_spec (dd := t.dd) (mv _ _ _ _) ?_ h.gg0 h.dd.symm ?_ h.dir ?_ hgb k1 (fun c hc => conj_next hH h.conj a0.ne' h.slope (aeq c1) rfl hc)
      · show dot n (fun i => t.step i + a * t.d i) (fun i => t.step i + a * t.d i) < delsq
        rw [sz]; exact mono.2 c1
      · show dot n t.d (fun i => g i + (t.hs i + a * H t.d i)) = 0
        rw [show (fun i => g i + (t.hs i + a * H t.d i)) = fun i => (g i + t.hs i) + a * H t.d i from funext fun i => by ring, dot_axpy, h.slope, aeq c1]
        ring
      · rw [ExactMath.lit_eq] at k3
        push_cast at k3
        show gb < 10000 * dot n (fun i => g i + (t.hs i + a * H t.d i)) (fun i => g i + (t.hs i + a * H t.d i))
        linarith
  · rw [if_neg c1]
    refine ⟨_, _, rfl, mv _ _ _ _, ?_, conj_slope h.conj a0.le h.slope agg⟩
    show dot n (fun i => t.step i + a * t.d i) (fun i => t.step i + a * t.d i) = delsq
    rw [sz, le_antisymm ab (not_lt.mp c1)]
    exact hb

/-- The loop ends within the `n` iterations, without any division by zero. -/
theorem cgLoop_spec {n : Nat} {H : (Nat → ℝ) → Nat → ℝ} (hH : Symm n H) {g : Nat → ℝ} {delsq gb : ℝ} (hgb : 0 < gb) (fuel : Nat) :
    ∀ t : Cg ℝ, Inner n H g delsq gb t → n ≤ fuel + t.iterc →
      ∃ e u k, cgLoop n H g delsq gb fuel t = some (e, u) ∧ Moved n H g delsq gb k u ∧ (e = true → dot n u.step u.step = delsq ∧ dot n u.step (fun i => g i + u.hs i) ≤ 0) := by
  induction fuel with
  | zero =>
    intro t h hf
    have := h.it
    omega
  | succ m ih =>
    intro t h hf
    obtain ⟨x, u, e, l⟩ := cgStep_spec hH hgb h
    unfold cgLoop
    rw [e]
    cases x with
    | again => exact ih u l.1 (by rw [l.2]; omega)
    | edge => exact ⟨true, u, t.iterc, rfl, l.1, fun _ => l.2⟩
    | stop => exact ⟨false, u, t.iterc, rfl, l, fun w => by cases w⟩

/-- The first iteration. -/
theorem inner_zero {n : Nat} {H : (Nat → ℝ) → Nat → ℝ} (hH : Symm n H) {g hx : Nat → ℝ} {delsq : ℝ} (hd : 0 < delsq) (hn : 1 ≤ n) (hg : 0 < dot n g g) :
    Inner n H g delsq (dot n g g) ⟨fun _ => 0, fun _ => 0, fun i => -g i, hx, dot n g g, 0, 0, dot n g g, 0, 0, 0⟩ := by
  have z : ∀ v : Nat → ℝ, dot n (fun _ => 0) v = 0 := fun v => Finset.sum_eq_zero fun _ _ => zero_mul _
  have z' : ∀ v : Nat → ℝ, dot n v (fun _ => 0) = 0 := fun v => Finset.sum_eq_zero fun _ _ => mul_zero _
  have e0 : (fun i => g i + (0 : ℝ)) = g := funext fun i => add_zero _
  refine ⟨⟨fun v => ?_, ?_, ?_⟩, (z _).symm, hd, (z' _).symm, le_refl _, ?_, hg, hg, ?_, ?_, le_refl _, ?_, ?_, hn, ∅, fun v hv => hv.elim, fun v hv => hv.elim, fun w _ => ⟨z w, fun q => ⟨?_, fun v hv => hv.elim⟩⟩⟩
  · show dot n (fun _ => 0) v = dot n (H fun _ => 0) v
    rw [hH, z, z']
  · show dot n g g = dot n (fun i => g i + 0) (fun i => g i + 0)
    rw [e0]
  · show (0 : ℝ) = -change n H g (fun _ => 0)
    unfold change
    rw [z', z']; ring
  · show dot n g g = dot n (fun i => -g i) (fun i => -g i)
    exact Finset.sum_congr rfl fun i _ => by ring
  · show dot n (fun i => -g i) (fun i => g i + 0) = -dot n g g
    rw [e0]
    unfold Powell.dot
    rw [← Finset.sum_neg_distrib]
    exact Finset.sum_congr rfl fun i _ => by ring
  · show dot n g g ≤ 10000 * dot n g g
    linarith
  · show 0 * dot n g g ≤ _
    rw [zero_mul]
    positivity
  · show dot n g g * dot n g g ≤ 10000 * (((0 : Nat) : ℝ) + 1) * dot n g g ^ 2
    rw [Nat.cast_zero]
    nlinarith [sq_nonneg (dot n g g)]
  · have q : dot n (fun i => -g i) w = 0 := q
    show dot n (fun i => g i + (0 : ℝ)) w = 0
    rw [e0]
    have e : dot n (fun i => -g i) w = -dot n g w := by
      unfold Powell.dot
      rw [← Finset.sum_neg_distrib]
      exact Finset.sum_congr rfl fun i _ => by ring
    linarith

/-! ### The iterations on the boundary -/

/-- The bound on the number of variables for which the reduction is proved: the reduction of the conjugate gradient iterations
is at least the length of the step times the norm of the gradient, divided by `200 √n`. -/
def Few (n : Nat) : Prop := n ≤ 150

/-- On the boundary. -/
structure Outer (n : Nat) (H : (Nat → ℝ) → Nat → ℝ) (g : Nat → ℝ) (delsq gb : ℝ) (t : Cg ℝ) : Prop extends At n H g t where
  len : dot n t.step t.step = delsq
  q0 : Few n → 0 < t.qred ∧ delsq * gb ≤ 40000 * n * t.qred ^ 2

/-- The gradient of the model at the boundary is a positive multiple of the step. -/
def Outward (n : Nat) (H : (Nat → ℝ) → Nat → ℝ) (g : Nat → ℝ) (delsq : ℝ) : Prop :=
  ∃ y : Nat → ℝ, ∃ a : ℝ, 0 < a ∧ dot n y y = delsq ∧ ∀ v, dot n g v + dot n (H y) v = a * dot n y v

/-- The rotation. -/
theorem swerve_spec {n : Nat} {H : (Nat → ℝ) → Nat → ℝ} (hH : Symm n H) {g : Nat → ℝ} {delsq : ℝ} (hd : 0 < delsq) {t : Cg ℝ}
    (h : Outer n H g delsq (dot n g g) t) {d : Nat → ℝ} (h1 : dot n d d = delsq) (h2 : dot n d t.step = 0) (ta tb : ℝ) :
    (swerve realTrig n H g (dot n t.step g) (dot n t.step t.hs) ta tb d t = none → ¬ Few n) ∧
    ∀ e u, swerve realTrig n H g (dot n t.step g) (dot n t.step t.hs) ta tb d t = some (e, u) →
      At n H g u ∧ dot n u.step u.step = delsq ∧ u.iterc = t.iterc + 1 ∧ (Few n → 0 < u.qred) ∧ (e = false → t.iterc + 1 < n ∧ Outer n H g delsq (dot n g g) u) := by
  have sh : dot n t.step t.hs = dot n (H t.step) t.step := by rw [dot_comm, h.hs]
  obtain ⟨A, hA⟩ : ∃ A, dot n t.step g = A := ⟨_, rfl⟩
  obtain ⟨B, hB⟩ : ∃ B, dot n d g = B := ⟨_, rfl⟩
  obtain ⟨C, hC⟩ : ∃ C, 1 / 2 * (dot n t.step t.hs - dot n (H d) d) = C := ⟨_, rfl⟩
  obtain ⟨E, hE⟩ : ∃ E, dot n (H d) t.step = E := ⟨_, rfl⟩
  have bes : A ^ 2 + B ^ 2 ≤ delsq * dot n g g := by
    rw [← hA, ← hB]
    exact bessel hd h.len h1 (by rw [dot_comm]; exact h2)
  have gg0 := dot_self_nonneg n g
  obtain ⟨r, er, hw⟩ := chosen_angle A B C E (R := Real.sqrt (delsq * dot n g g)) (Real.sqrt_nonneg _) (by rw [Real.sq_sqrt (by positivity)]; exact bes) ta tb
  unfold swerve
  dsimp only
  simp only [acc_dot, lit_half]
  rw [hA, hB, hC, hE]
  have eg : (fun i => if i = 0 then A + C else (A + C * realTrig.tcos i) * realTrig.tcos i + (B + E * realTrig.tcos i) * realTrig.tsin i) = grid A B C E := rfl
  rw [eg, er]
  obtain ⟨θ, hθ⟩ : ∃ θ, realTrig.step * (realTrig.ofNat (valley (grid A B C E) ta tb).isave + r) = θ := ⟨_, rfl⟩
  rw [hθ] at hw
  rw [Option.bind_eq_bind, Option.bind_some, hθ]
  have cs := Real.sin_sq_add_cos_sq θ
  obtain ⟨c, hc⟩ : ∃ c, Real.cos θ = c := ⟨_, rfl⟩
  obtain ⟨s, hs⟩ : ∃ s, Real.sin θ = s := ⟨_, rfl⟩
  have ec : realTrig.cos θ = c := hc
  have es : realTrig.sin θ = s := hs
  rw [ec, es]
  rw [hc, hs] at cs
  obtain ⟨ρ, hρ⟩ : ∃ ρ, A + C - (A + C * c) * c - (B + E * c) * s = ρ := ⟨_, rfl⟩
  rw [hρ]
  have hρ' : -(Real.sqrt (delsq * dot n g g) * (4 / 10000)) ≤ ρ := by
    unfold wave at hw
    rw [hc, hs] at hw
    linarith
  -- the new step
  have st : dot n (fun i => c * t.step i + s * d i) (fun i => c * t.step i + s * d i) = delsq := by
    rw [comb_dot, dot_comb, dot_comb, dot_comm n t.step d, h1, h2, h.len]
    linear_combination delsq * cs
  have hsn : ∀ v, dot n (fun i => c * t.hs i + s * H d i) v = dot n (H fun i => c * t.step i + s * d i) v := by
    intro v
    rw [comb_dot, hH.comb, h.hs]
  have ch : t.qred + ρ = -change n H g (fun i => c * t.step i + s * d i) := by
    rw [hH.change_comb, h.qred, ← hρ, ← hC, sh, hE, dot_comm n g t.step, dot_comm n g d, hA, hB]
    unfold change
    rw [dot_comm n g t.step, hA]
    linear_combination (dot n (H d) d / 2) * cs
  have big : Few n → 0 < t.qred + ρ := by
    intro hn
    obtain ⟨q0, q1⟩ := h.q0 hn
    have k0 : (n : ℝ) ≤ 150 := by exact_mod_cast hn
    have k1 : delsq * dot n g g ≤ (2450 * t.qred) ^ 2 := by
      have := mul_le_mul_of_nonneg_right k0 (sq_nonneg t.qred)
      nlinarith
    have k2 : Real.sqrt (delsq * dot n g g) ≤ 2450 * t.qred := Real.sqrt_le_iff.mpr ⟨by linarith, k1⟩
    linarith
  have at' : ∀ gx, At n H g ⟨fun i => c * t.step i + s * d i, fun i => c * t.hs i + s * H d i, d, H d, t.dd, t.ds, t.ss,
      dot n (fun i => g i + (c * t.hs i + s * H d i)) (fun i => g i + (c * t.hs i + s * H d i)), t.qred + ρ, t.crvmin, gx⟩ := fun _ => ⟨hsn, rfl, ch⟩
  by_cases q : t.iterc + 1 < n
  · rw [if_pos q]
    by_cases z : t.qred + ρ = 0
    · rw [show quot ρ (t.qred + ρ) = none from if_pos z]
      refine ⟨fun _ hn => ?_, fun e u w => by cases w⟩
      have := big hn
      linarith
    · rw [show quot ρ (t.qred + ρ) = some (ρ / (t.qred + ρ)) from if_neg z]
      refine ⟨fun w => (by cases w), fun e u w => ?_⟩
      have w := Option.some.inj w
      rw [Prod.mk.injEq] at w
      obtain ⟨w1, rfl⟩ := w
      refine ⟨at' _, st, rfl, big, fun e0 => ⟨q, at' _, st, fun hn => ⟨big hn, ?_⟩⟩⟩
      rw [e0, decide_eq_false_iff_not, not_not, ExactMath.lit_eq] at w1
      have p1 := big hn
      have p2 : 0 < ρ := by
        have : (0 : ℝ) < ρ / (t.qred + ρ) := lt_trans (by norm_num) w1
        by_contra k
        have := div_nonpos_of_nonpos_of_nonneg (not_lt.mp k) p1.le
        linarith
      obtain ⟨q0, q1⟩ := h.q0 hn
      show delsq * dot n g g ≤ 40000 * n * (t.qred + ρ) ^ 2
      have : t.qred ^ 2 ≤ (t.qred + ρ) ^ 2 := pow_le_pow_left₀ q0.le (by linarith) 2
      have hN : (0 : ℝ) ≤ n := Nat.cast_nonneg n
      have := mul_le_mul_of_nonneg_left this hN
      linarith
  · rw [if_neg q]
    refine ⟨fun w => (by cases w), fun e u w => ?_⟩
    have w := Option.some.inj w
    rw [Prod.mk.injEq] at w
    obtain ⟨w1, rfl⟩ := w
    exact ⟨at' _, st, rfl, big, fun e0 => by rw [← w1] at e0; cases e0⟩

/-- An iteration on the boundary. -/
theorem edgeStep_spec {n : Nat} {H : (Nat → ℝ) → Nat → ℝ} (hH : Symm n H) {g : Nat → ℝ} {delsq : ℝ} (hd : 0 < delsq) (hg : 0 < dot n g g) {t : Cg ℝ}
    (h : Outer n H g delsq (dot n g g) t) :
    (edgeStep realTrig n H g delsq (dot n g g) t = none → ¬ Few n ∨ Outward n H g delsq ∧ 0 < dot n t.step (fun i => g i + t.hs i)) ∧
    ∀ e u, edgeStep realTrig n H g delsq (dot n g g) t = some (e, u) →
      At n H g u ∧ dot n u.step u.step = delsq ∧ (Few n → 0 < u.qred) ∧ (e = false → t.iterc + 1 < n ∧ u.iterc = t.iterc + 1 ∧ Outer n H g delsq (dot n g g) u) := by
  have here : ∀ e u, some (true, t) = some (e, u) →
      At n H g u ∧ dot n u.step u.step = delsq ∧ (Few n → 0 < u.qred) ∧ (e = false → t.iterc + 1 < n ∧ u.iterc = t.iterc + 1 ∧ Outer n H g delsq (dot n g g) u) := by
    intro e u w
    have w := Option.some.inj w
    rw [Prod.mk.injEq] at w
    obtain ⟨w1, rfl⟩ := w
    exact ⟨h.toAt, h.len, fun hn => (h.q0 hn).1, fun e0 => by rw [← w1] at e0; cases e0⟩
  unfold edgeStep
  by_cases c1 : t.gg ≤ dot n g g * lit 1 10000
  · rw [if_pos c1]
    exact ⟨fun w => (by cases w), here⟩
  · rw [if_neg c1]
    have gg0 : 0 < t.gg := by
      rw [ExactMath.lit_eq] at c1
      push_cast at c1
      have := not_le.mp c1
      linarith
    dsimp only
    simp only [acc_dot]
    obtain ⟨K, hK⟩ : ∃ K, dot n t.step g + dot n t.step t.hs = K := ⟨_, rfl⟩
    have hK' : dot n t.step (fun i => g i + t.hs i) = K := by rw [dot_add]; exact hK
    rw [hK]
    have p0 : 0 < t.gg * delsq := mul_pos gg0 hd
    have r0 : 0 < Real.sqrt (t.gg * delsq) := Real.sqrt_pos.mpr p0
    have rr := Real.mul_self_sqrt p0.le
    rw [show root (t.gg * delsq) = some (Real.sqrt (t.gg * delsq)) from if_neg (not_lt.mpr p0.le), Option.bind_eq_bind, Option.bind_some,
      show quot K (Real.sqrt (t.gg * delsq)) = some (K / Real.sqrt (t.gg * delsq)) from if_neg r0.ne', Option.bind_some]
    by_cases c2 : K / Real.sqrt (t.gg * delsq) ≤ -lit 99 100
    · rw [if_pos c2]
      exact ⟨fun w => (by cases w), here⟩
    · rw [if_neg c2]
      have ca : K * K ≤ delsq * t.gg := by
        have := cauchy_dot n t.step (fun i => g i + t.hs i)
        rw [hK', h.len, ← h.gg] at this
        linarith
      rw [show root (delsq * t.gg - K * K) = some (Real.sqrt (delsq * t.gg - K * K)) from if_neg (not_lt.mpr (by linarith)), Option.bind_some]
      by_cases z : Real.sqrt (delsq * t.gg - K * K) = 0
      · rw [show quot delsq (Real.sqrt (delsq * t.gg - K * K)) = none from if_pos z]
        refine ⟨fun _ => Or.inr ?_, fun e u w => by cases w⟩
        have z' : delsq * t.gg = K * K := le_antisymm (by have := Real.sqrt_eq_zero'.mp z; linarith) ca
        -- the square of `delsq*G - K*step` is zero
        have sq0 : dot n (fun i => delsq * (g i + t.hs i) + (-K) * t.step i) (fun i => delsq * (g i + t.hs i) + (-K) * t.step i) = 0 := by
          rw [comb_dot, dot_comb, dot_comb, dot_comm n (fun i => g i + t.hs i) t.step, hK', h.len, ← h.gg]
          linear_combination delsq * z'
        have par : ∀ v, dot n g v + dot n (H t.step) v = K / delsq * dot n t.step v := by
          intro v
          have e0 : dot n (fun i => delsq * (g i + t.hs i) + (-K) * t.step i) v = 0 :=
            Finset.sum_eq_zero fun i hi => by
              rw [Finset.mem_Icc] at hi
              exact mul_eq_zero_of_left (dot_self_zero sq0 i hi.1 hi.2) _
          rw [comb_dot, add_dot, h.hs] at e0
          rw [div_mul_eq_mul_div, eq_div_iff hd.ne']
          linear_combination e0
        have K0 : 0 < K := ?_
        · rw [hK']
          exact ⟨⟨t.step, K / delsq, div_pos K0 hd, h.len, par⟩, K0⟩
        by_contra k
        have k := not_lt.mp k
        refine c2 ?_
        rw [div_le_iff₀ r0, ExactMath.lit_eq]
        push_cast
        have e : Real.sqrt (t.gg * delsq) = -K := by
          rw [mul_comm, z', ← neg_mul_neg, Real.sqrt_mul_self (by linarith)]
        rw [e]
        linarith
      · have sp : 0 < Real.sqrt (delsq * t.gg - K * K) := lt_of_le_of_ne (Real.sqrt_nonneg _) (Ne.symm z)
        have sm := Real.mul_self_sqrt (show 0 ≤ delsq * t.gg - K * K by linarith)
        generalize Real.sqrt (delsq * t.gg - K * K) = σ at *
        rw [show quot delsq σ = some (delsq / σ) from if_neg z, show quot K σ = some (K / σ) from if_neg z, Option.bind_some, Option.bind_some]
        obtain ⟨a, ha⟩ : ∃ a, delsq / σ = a := ⟨_, rfl⟩
        obtain ⟨b, hb⟩ : ∃ b, K / σ = b := ⟨_, rfl⟩
        have ha' : a * σ = delsq := by rw [← ha]; exact div_mul_cancel₀ _ z
        have hb' : b * σ = K := by rw [← hb]; exact div_mul_cancel₀ _ z
        rw [ha, hb]
        have ed : (fun i => a * (g i + t.hs i) - b * t.step i) = fun i => a * (g i + t.hs i) + (-b) * t.step i := by funext i; ring
        have d1 : dot n (fun i => a * (g i + t.hs i) - b * t.step i) (fun i => a * (g i + t.hs i) - b * t.step i) = delsq := by
          rw [ed, comb_dot, dot_comb, dot_comb, dot_comm n (fun i => g i + t.hs i) t.step, hK', h.len, ← h.gg]
          have : σ * σ ≠ 0 := mul_ne_zero z z
          refine mul_left_cancel₀ this ?_
          have e1 : σ * σ * (a * (a * t.gg + -b * K) + -b * (a * K + -b * delsq)) = (a * σ) ^ 2 * t.gg - 2 * (a * σ) * (b * σ) * K + (b * σ) ^ 2 * delsq := by ring
          rw [e1, ha', hb', sm]
          ring
        have d2 : dot n (fun i => a * (g i + t.hs i) - b * t.step i) t.step = 0 := by
          rw [ed, comb_dot, dot_comm n (fun i => g i + t.hs i) t.step, hK', h.len]
          refine mul_left_cancel₀ z ?_
          linear_combination K * ha' - delsq * hb'
        obtain ⟨w1, w2⟩ := swerve_spec hH hd h d1 d2 a b
        refine ⟨fun w => Or.inl (w1 w), fun e u w => ?_⟩
        obtain ⟨k1, k2, k3, k4, k5⟩ := w2 e u w
        exact ⟨k1, k2, k4, fun e0 => ⟨(k5 e0).1, k3, (k5 e0).2⟩⟩

/-- The iterations on the boundary. -/
theorem edgeLoop_spec {n : Nat} {H : (Nat → ℝ) → Nat → ℝ} (hH : Symm n H) {g : Nat → ℝ} {delsq : ℝ} (hd : 0 < delsq) (hg : 0 < dot n g g) (fuel : Nat) :
    ∀ t : Cg ℝ, Outer n H g delsq (dot n g g) t → n < fuel + t.iterc + 1 → 0 < fuel →
      (edgeLoop realTrig n H g delsq (dot n g g) fuel t = none → ¬ Few n ∨ Outward n H g delsq ∧ (0 < dot n t.step (fun i => g i + t.hs i) ∨ t.iterc + 1 < n)) ∧
      ∀ u, edgeLoop realTrig n H g delsq (dot n g g) fuel t = some u → At n H g u ∧ dot n u.step u.step = delsq ∧ (Few n → 0 < u.qred) := by
  induction fuel with
  | zero => exact fun _ _ _ h => absurd h (lt_irrefl _)
  | succ m ih =>
    intro t h hf _
    obtain ⟨k1, k2⟩ := edgeStep_spec hH hd hg h
    unfold edgeLoop
    cases e : edgeStep realTrig n H g delsq (dot n g g) t with
    | none => exact ⟨fun _ => (k1 e).imp id fun q => ⟨q.1, Or.inl q.2⟩, fun u w => by cases w⟩
    | some v =>
      obtain ⟨x, u⟩ := v
      obtain ⟨a1, a2, a3, a4⟩ := k2 x u e
      cases x with
      | true => exact ⟨fun w => (by cases w), fun u' w => by rw [← Option.some.inj w]; exact ⟨a1, a2, a3⟩⟩
      | false =>
        obtain ⟨b1, b2, b3⟩ := a4 rfl
        obtain ⟨c1, c2⟩ := ih u b3 (by omega) (by omega)
        exact ⟨fun w => (c1 w).imp id fun q => ⟨q.1, Or.inr b1⟩, c2⟩

/-! ### The whole function -/

/-- The step of `trsapp`.  The step is not longer than the radius; if the gradient is zero, so is the step; otherwise, with at
most 150 variables, the model decreases strictly.  With
at most 150 variables, there is a division by zero only with at least three variables and if the gradient of the model at a
point of the boundary is a positive multiple of the step to that point. -/
theorem minimize_spec {n : Nat} (hn : 1 ≤ n) {H : (Nat → ℝ) → Nat → ℝ} (hH : Symm n H) {g hx : Nat → ℝ} {delta : ℝ} (hd : 0 < delta) :
    (minimize realTrig n H g hx delta = none → ¬ Few n ∨ 3 ≤ n ∧ Outward n H g (delta * delta)) ∧
    ∀ t, minimize realTrig n H g hx delta = some t →
      dot n t.step t.step ≤ delta * delta ∧ (dot n g g = 0 → t.step = fun _ => 0) ∧ (0 < dot n g g → Few n → change n H g t.step < 0) := by
  have hds : 0 < delta * delta := mul_pos hd hd
  unfold minimize
  dsimp only
  have e : acc n (fun i => -g i * -g i) 0 = dot n g g := by
    rw [acc_zero]
    exact Finset.sum_congr rfl fun i _ => by ring
  rw [e]
  rcases eq_or_lt_of_le (dot_self_nonneg n g) with q | q
  · rw [if_pos q.symm]
    refine ⟨fun w => (by cases w), fun t w => ?_⟩
    rw [← Option.some.inj w]
    refine ⟨?_, fun _ => rfl, fun w => absurd w (by rw [← q]; exact lt_irrefl _)⟩
    have : dot n (fun _ => (0 : ℝ)) (fun _ => 0) = 0 := Finset.sum_eq_zero fun _ _ => zero_mul _
    show dot n (fun _ => (0 : ℝ)) (fun _ => 0) ≤ _
    rw [this]; exact hds.le
  · rw [if_neg q.ne']
    obtain ⟨x, u, k, a1, a2, a3⟩ := cgLoop_spec hH q n _ (inner_zero hH hds hn q) (by show n ≤ n + 0; omega)
    rw [a1]
    cases x with
    | false =>
      refine ⟨fun w => (by cases w), fun t w => ?_⟩
      rw [← Option.some.inj w]
      refine ⟨a2.len, fun w => absurd w q.ne', fun _ _ => ?_⟩
      have := a2.q0
      rw [a2.qred] at this
      linarith
    | true =>
      have o : Outer n H g (delta * delta) (dot n g g) { u with crvmin := 0 } :=
        ⟨⟨a2.hs, a2.gg, a2.qred⟩, (a3 rfl).1, fun _ => ⟨a2.q0, by have := a2.path; rw [(a3 rfl).1] at this; exact this⟩⟩
      obtain ⟨b1, b2⟩ := edgeLoop_spec hH hds q n { u with crvmin := 0 } o (by show n < n + u.iterc + 1; omega) (by omega)
      refine ⟨fun w => (b1 w).imp id fun q => ⟨?_, q.1⟩, fun t w => ?_⟩
      · rcases q.2 with q | q
        · exact absurd q (not_lt.mpr (a3 rfl).2)
        · have q : u.iterc + 1 < n := q
          have := a2.it
          omega
      obtain ⟨c1, c2, c3⟩ := b2 t w
      refine ⟨c2.le, fun w => absurd w q.ne', fun _ hf => ?_⟩
      have := c3 hf
      rw [c1.qred] at this
      linarith

/-- Without second derivatives, the step goes to the boundary. -/
theorem minimize_linear {n : Nat} (hn : 1 ≤ n) {H : (Nat → ℝ) → Nat → ℝ} (hz : ∀ v w, dot n (H v) w = 0) {g hx : Nat → ℝ} {delta : ℝ} (hd : 0 < delta)
    (hg : 0 < dot n g g) {t : Cg ℝ} (ht : minimize realTrig n H g hx delta = some t) : dot n t.step t.step = delta * delta := by
  have hH : Symm n H := fun u v => by rw [hz, hz]
  have hds : 0 < delta * delta := mul_pos hd hd
  have e : acc n (fun i => -g i * -g i) 0 = dot n g g := by
    rw [acc_zero]
    exact Finset.sum_congr rfl fun i _ => by ring
  unfold minimize at ht
  dsimp only at ht
  rw [e, if_neg hg.ne'] at ht
  obtain ⟨m, rfl⟩ : ∃ m, n = m + 1 := ⟨n - 1, by omega⟩
  have inn := inner_zero (hx := hx) hH hds hn hg
  generalize (⟨fun _ => 0, fun _ => 0, fun i => -g i, hx, dot (m + 1) g g, 0, 0, dot (m + 1) g g, 0, 0, 0⟩ : Cg ℝ) = c at ht inn
  obtain ⟨x, u, e1, l⟩ := cgStep_spec hH hg inn
  have e2 : x = .edge := by
    obtain ⟨r, b, er, eb, -⟩ := to_boundary inn.lt inn.ds0 inn.dd0
    have e3 : lengths c b 0 = some (c.crvmin, b) := if_neg (lt_irrefl _)
    unfold cgStep at e1
    dsimp only at e1
    simp only [acc_dot, er, eb, Option.bind_eq_bind, Option.bind_some, dot_comm (m + 1) c.d (H c.d), hz, e3, lt_irrefl, if_false] at e1
    have e1 := Option.some.inj e1
    rw [Prod.mk.injEq] at e1
    exact e1.1.symm
  rw [e2] at e1 l
  have e4 : cgLoop (m + 1) H g (delta * delta) (dot (m + 1) g g) (m + 1) c = some (true, u) := by
    unfold cgLoop
    rw [e1]
  rw [e4] at ht
  have o : Outer (m + 1) H g (delta * delta) (dot (m + 1) g g) { u with crvmin := 0 } :=
    ⟨⟨l.1.hs, l.1.gg, l.1.qred⟩, l.2.1, fun _ => ⟨l.1.q0, by have := l.1.path; rw [l.2.1] at this; exact this⟩⟩
  exact ((edgeLoop_spec hH hds hg (m + 1) { u with crvmin := 0 } o (by show m + 1 < m + 1 + u.iterc + 1; omega) (by omega)).2 t ht).2.1

end Opk.Newuoa
