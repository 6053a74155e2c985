import Verif.LineSearch.Armijo
import Mathlib.Analysis.Calculus.Deriv.Slope
import Mathlib.Analysis.Calculus.Deriv.Mul
import Mathlib.Analysis.Calculus.Deriv.Add
/-! # C17: termination of the backtracking line search -/
set_option linter.unusedSectionVars false
namespace Opk.LineSearch

section exact
variable {K : Type} [Field K] [LinearOrder K] [IsStrictOrderedRing K] [CMath K] [ExactMath K]

/-- A backtracking line search in progress, `k` iterations after its start. -/
structure Running (ftol amin : K) (a : Args K) (k : Nat) (ls : Ls K (Backtrack K)) : Prop where
  task : ls.task = .search
  m : ls.m = ⟨ftol, amin⟩
  conf : Conforms ls a
  step : ls.stp = a.stpmin ∨ ls.stp ≤ a.stp * (1 / (2 * (1 - ftol))) ^ k

theorem running_step {ftol amin : K} {a : Args K} {k : Nat} {ls : Ls K (Backtrack K)}
    (h : Running ftol amin a k ls) (hv : a.Valid) (hf : 0 < ftol) (hf' : ftol ≤ 1 / 2)
    (ha : 0 < amin) (f g : K) :
    ((iterate backtrackOps ls ls.stp f g).1.task = .search →
      Running ftol amin a (k + 1) (iterate backtrackOps ls ls.stp f g).1 ∧ a.stpmin < ls.stp ∧
      0 < (iterate backtrackOps ls ls.stp f g).1.stp ∧
      ¬ f ≤ a.f0 + ftol * ls.stp * a.g0) ∧
    ((iterate backtrackOps ls ls.stp f g).1.task ≠ .search →
      (iterate backtrackOps ls ls.stp f g).1.stp = ls.stp ∧
      (f ≤ a.f0 + ftol * ls.stp * a.g0 ∨ ls.stp = a.stpmin)) := by
  obtain ⟨ht, hm, ⟨c1, c2, c3, c4, c5, c6⟩, hs⟩ := h
  have hmf : ls.m.ftol = ftol := by rw [hm]
  have hma : ls.m.amin = amin := by rw [hm]
  have hb : ls.stpmin ≤ ls.stp ∧ ls.stp ≤ ls.stpmax := ⟨by rw [c3]; exact c5, by rw [c4]; exact c6⟩
  have hsp : 0 ≤ ls.stpmin := by rw [c3]; exact hv.1
  have hg : ls.ginit < 0 := by rw [c2]; exact hv.2.2.2.2
  rw [← hmf] at hf hf'
  rw [← hma] at ha
  obtain ⟨q1, q2, q3⟩ := backtrack_step ls f g hf hf' ha hg hsp hb ht
  constructor
  · intro hc
    obtain ⟨n1, n2⟩ := q1.mp hc
    obtain ⟨t1, t2, t3, t4⟩ := backtrack_trial ls f hf hf' ha hg hsp n2 n1
    obtain ⟨d1, d2, d3, d4⟩ := iterate_data backtrackOps backtrack_method ls ls.stp f g
    have q2 := q2 hc
    have hmm : (iterate backtrackOps ls ls.stp f g).1.m = ls.m := by
      have := backtrack_member [.iterate ls.stp f g] ls
      exact this
    refine ⟨⟨hc, by rw [hmm, hm], ⟨by rw [d3, c1], by rw [d4, c2], by rw [d1, c3], by rw [d2, c4],
      ?_, ?_⟩, ?_⟩, ?_, ?_, ?_⟩
    · rw [q2, ← c3]; exact t1
    · rw [q2]; exact le_trans t3.le c6
    · rw [q2]
      rcases t4 with t4 | t4
      · left; rw [t4, c3]
      · right
        rw [hmf] at t4
        have hc0 : 0 ≤ 1 / (2 * (1 - ftol)) := by
          apply one_div_nonneg.mpr; rw [hmf] at hf'; linarith
        rcases hs with hs | hs
        · rw [c3] at n2; exact absurd hs (ne_of_gt n2)
        · calc _ ≤ ls.stp * (1 / (2 * (1 - ftol))) := t4
            _ ≤ (a.stp * (1 / (2 * (1 - ftol))) ^ k) * (1 / (2 * (1 - ftol))) :=
              mul_le_mul_of_nonneg_right hs hc0
            _ = _ := by ring
    · rw [← c3]; exact n2
    · rw [q2]; exact t2
    · rw [c1, c2, hmf] at n1; exact n1
  · intro hc
    refine ⟨q3 hc, ?_⟩
    by_contra hn
    rw [not_or] at hn
    refine hc (q1.mpr ⟨?_, ?_⟩)
    · rw [c1, c2, hmf]; exact hn.1
    · rw [c3]; exact lt_of_le_of_ne c5 (Ne.symm hn.2)

theorem running_start {raw : Ls K Unit} {ftol amin : K} {ls0 : Ls K (Backtrack K)}
    (h0 : newBacktrack raw ftol amin = some ls0) (hist : List (Call K)) (a : Args K) (hv : a.Valid) :
    Running ftol amin a 0 (calls backtrackOps ls0 (hist ++ [.start a])) := by
  rw [calls_append]
  simp only [calls, call]
  obtain ⟨s1, s2, _⟩ := start_checks backtrackOps backtrack_method (calls backtrackOps ls0 hist) a
  obtain ⟨e1, e2, _⟩ := s2 hv
  refine ⟨s1.mpr hv, ?_, e2, Or.inr (by rw [e1]; simp)⟩
  have : (start backtrackOps (calls backtrackOps ls0 hist) a.f0 a.g0 a.stp a.stpmin a.stpmax).m =
      (calls backtrackOps ls0 hist).m := backtrack_member [.start a] _
  rw [this, backtrack_member]
  unfold newBacktrack at h0
  split at h0
  · cases h0
  · cases h0; rfl

theorem running_stop {ftol amin : K} {a : Args K} (hv : a.Valid) (hf : 0 < ftol) (hf' : ftol ≤ 1 / 2)
    (ha : 0 < amin) (n : Nat) (hn : a.stp * (1 / (2 * (1 - ftol))) ^ n ≤ a.stpmin) :
    ∀ (values : List (K × K)) (k : Nat) (ls : Ls K (Backtrack K)), Running ftol amin a k ls →
      n < k + values.length → (search backtrackOps ls values).task ≠ .search ∨ n < k := by
  intro values
  induction values with
  | nil => intro k ls _ hk; right; simpa using hk
  | cons v l ih =>
    intro k ls hr hk
    obtain ⟨f, g⟩ := v
    simp only [search]
    rw [if_pos hr.task]
    obtain ⟨r1, r2⟩ := running_step hr hv hf hf' ha f g
    by_cases hc : (iterate backtrackOps ls ls.stp f g).1.task = .search
    · obtain ⟨h1, h2, _, _⟩ := r1 hc
      rcases ih (k + 1) _ h1 (by simp at hk; omega) with h | h
      · left; exact h
      · by_cases hnk : n < k
        · right; exact hnk
        · have : k = n := by omega
          subst this
          rcases hr.step with hs | hs
          · exact absurd hs (ne_of_gt h2)
          · exact absurd (lt_of_lt_of_le h2 (le_trans hs hn)) (lt_irrefl _)
    · left
      cases l with
      | nil => exact hc
      | cons w l => simp only [search]; rw [if_neg hc]; exact hc

/-- **C17 (positive lower bound).** Whatever the previous use of the line search, after a
successful start, whatever the function values and derivatives given, the search is stopped after
`n + 1` iterations as soon as `stp c^n ≤ stpmin` with `c = 1/(2 (1 - ftol))`. -/
theorem backtrack_terminates (raw : Ls K Unit) (ftol amin : K) (ls0 : Ls K (Backtrack K))
    (h0 : newBacktrack raw ftol amin = some ls0) (hist : List (Call K)) (a : Args K) (hv : a.Valid)
    (n : Nat) (hn : a.stp * (1 / (2 * (1 - ftol))) ^ n ≤ a.stpmin)
    (values : List (K × K)) (hl : n + 1 ≤ values.length) :
    (search backtrackOps (calls backtrackOps ls0 (hist ++ [.start a])) values).task ≠ .search := by
  obtain ⟨p1, p2, p3, p4⟩ := newBacktrack_params raw ftol amin ls0 h0
  rcases running_stop hv p1 p2 p3 n hn values 0 _ (running_start h0 hist a hv) (by omega) with h | h
  · exact h
  · omega

/-- **C17 (positive lower bound), such a number of iterations exists** and depends only on
`stp/stpmin` and `ftol`. -/
theorem backtrack_bound_exists [Archimedean K] (ftol : K) (hf : ftol < 1 / 2) (hf0 : 0 < ftol)
    (ratio : K) :
    ∃ n : Nat, ∀ a : Args K, 0 < a.stpmin → a.stp / a.stpmin ≤ ratio →
      a.stp * (1 / (2 * (1 - ftol))) ^ n ≤ a.stpmin := by
  have hd : 0 < 2 * (1 - ftol) := by linarith
  have hc : 1 / (2 * (1 - ftol)) < 1 := by rw [div_lt_one hd]; linarith
  have hc0 : 0 < 1 / (2 * (1 - ftol)) := by positivity
  have hM : (0 : K) < max ratio 1 := lt_of_lt_of_le zero_lt_one (le_max_right _ _)
  obtain ⟨n, hn⟩ := exists_pow_lt_of_lt_one (show 0 < 1 / max ratio 1 by positivity) hc
  refine ⟨n, fun a h0 hr => ?_⟩
  have h1 : a.stp ≤ max ratio 1 * a.stpmin := by
    rw [div_le_iff₀ h0] at hr
    exact le_trans hr (mul_le_mul_of_nonneg_right (le_max_left _ _) h0.le)
  calc _ ≤ (max ratio 1 * a.stpmin) * (1 / (2 * (1 - ftol))) ^ n :=
        mul_le_mul_of_nonneg_right h1 (pow_nonneg hc0.le n)
    _ ≤ (max ratio 1 * a.stpmin) * (1 / max ratio 1) :=
        mul_le_mul_of_nonneg_left hn.le (by positivity)
    _ = a.stpmin := by field_simp

/-- The limit case `ftol = 1/2`, which the constructor accepts: the search may never stop.  For
`phi (s) = f0 + g0 s stpmin/(s + stpmin)`, whose derivative at zero is `g0`, all steps are the
middle of `[stpmin, stp]`, hence the lower bound is never reached and the sufficient decrease
condition never satisfied. -/
theorem backtrack_half_never_stops (raw : Ls K Unit) (amin : K) (ha : 0 < amin) (ha' : amin < 1 / 2)
    (ls0 : Ls K (Backtrack K)) (h0 : newBacktrack raw (1 / 2) amin = some ls0) (hist : List (Call K))
    (a : Args K) (hv : a.Valid) (hp : 0 < a.stpmin) (hs : a.stpmin < a.stp) (dphi : K → K) (n : Nat) :
    (drive backtrackOps (fun s => (a.f0 + a.g0 * s * a.stpmin / (s + a.stpmin), dphi s)) n
      (calls backtrackOps ls0 (hist ++ [.start a]))).task = .search := by
  suffices h : ∀ (n k : Nat) (ls : Ls K (Backtrack K)), Running (1 / 2) amin a k ls →
      a.stpmin < ls.stp →
      (drive backtrackOps (fun s => (a.f0 + a.g0 * s * a.stpmin / (s + a.stpmin), dphi s)) n ls).task
        = .search by
    refine h n 0 _ (running_start h0 hist a hv) ?_
    rw [calls_append]
    simp only [calls, call]
    rw [((start_checks backtrackOps backtrack_method (calls backtrackOps ls0 hist) a).2.1 hv).1]
    exact hs
  intro n
  induction n with
  | zero => intro k ls hr _; exact hr.task
  | succ n ih =>
    intro k ls hr hlt
    simp only [drive]
    rw [if_pos hr.task]
    have hr' := hr
    obtain ⟨ht, hm, ⟨c1, c2, c3, c4, c5, c6⟩, _⟩ := hr
    have hmf : ls.m.ftol = 1 / 2 := by rw [hm]
    have hma : ls.m.amin = amin := by rw [hm]
    have hb : ls.stpmin ≤ ls.stp ∧ ls.stp ≤ ls.stpmax := ⟨by rw [c3]; exact c5, by rw [c4]; exact c6⟩
    have hg : a.g0 < 0 := hv.2.2.2.2
    have hpos : 0 < ls.stp := lt_trans hp hlt
    have hsum : 0 < ls.stp + a.stpmin := by linarith
    generalize hF : a.f0 + a.g0 * ls.stp * a.stpmin / (ls.stp + a.stpmin) = F
    have hFe : F = a.f0 + a.g0 * ls.stp * (a.stpmin / (ls.stp + a.stpmin)) := by rw [← hF]; ring
    have hrat : a.stpmin / (ls.stp + a.stpmin) < 1 / 2 := by
      rw [div_lt_div_iff₀ hsum (by norm_num)]; linarith
    have hrat0 : 0 < a.stpmin / (ls.stp + a.stpmin) := by positivity
    have hgs : a.g0 * ls.stp < 0 := mul_neg_of_neg_of_pos hg hpos
    have hna : ¬ F ≤ ls.finit + ls.m.ftol * ls.stp * ls.ginit := by
      rw [c1, c2, hmf, not_le, hFe]; nlinarith
    obtain ⟨q1, q2, _⟩ := backtrack_step ls F (dphi ls.stp) (by rw [hmf]; norm_num)
      (by rw [hmf]) (by rw [hma]; exact ha) (by rw [c2]; exact hg)
      (by rw [c3]; exact hv.1) hb ht
    have hsr := q1.mpr ⟨hna, by rw [c3]; exact hlt⟩
    obtain ⟨r1, _⟩ := running_step hr' hv (by norm_num) (le_refl _) ha F (dphi ls.stp)
    refine ih (k + 1) _ (r1 hsr).1 ?_
    rw [q2 hsr]
    have hr : (F - (ls.finit - -ls.stp * ls.ginit)) * lit 2 1 =
        -ls.stp * a.g0 * (2 * (ls.stp / (ls.stp + a.stpmin))) := by
      rw [lit_two, c1, c2, hFe]
      field_simp
      ring
    have hq : 0 < -ls.stp * a.g0 := by nlinarith
    have h2 : 0 < 2 * (ls.stp / (ls.stp + a.stpmin)) := by positivity
    have hlt2 : ls.stp / (ls.stp + a.stpmin) < 1 := by rw [div_lt_one hsum]; linarith
    have hmin : amin * (-ls.stp * a.g0 * (2 * (ls.stp / (ls.stp + a.stpmin)))) < -ls.stp * a.g0 := by
      have : amin * (2 * (ls.stp / (ls.stp + a.stpmin))) < 1 := by nlinarith
      nlinarith
    have e : backtrackTrial ls ls.stp F = (ls.stp + a.stpmin) / 2 := by
      unfold backtrackTrial
      simp only []
      rw [hr, hma, c2, c3, if_neg (show ¬ amin ≥ lit 1 2 by rw [lit_half]; exact not_le.mpr ha'),
        if_neg (not_le.mpr (mul_pos hq h2)),
        if_neg (show ¬ -ls.stp * a.g0 ≤
          amin * (-ls.stp * a.g0 * (2 * (ls.stp / (ls.stp + a.stpmin)))) from not_le.mpr hmin)]
      have e' : ls.stp * (-ls.stp * a.g0 / (-ls.stp * a.g0 * (2 * (ls.stp / (ls.stp + a.stpmin))))) =
          (ls.stp + a.stpmin) / 2 := by
        have := hg.ne
        field_simp
      rw [e', if_neg (by linarith)]
    rw [e]; linarith

end exact

/-- **C17 (no lower bound).** For a function with a negative derivative at zero, with `ftol < 1/2`
and `stpmin = 0`, whatever the previous use of the line search, the search started with a positive
step stops, and then the step is positive and satisfies the sufficient decrease condition. -/
theorem backtrack_finds_step (phi dphi : ℝ → ℝ) (g0 : ℝ) (hd : HasDerivAt phi g0 0) (hg : g0 < 0)
    (raw : Ls ℝ Unit) (ftol amin : ℝ) (hf : ftol < 1 / 2) (ls0 : Ls ℝ (Backtrack ℝ))
    (h0 : newBacktrack raw ftol amin = some ls0) (hist : List (Call ℝ)) (stp stpmax : ℝ)
    (hs : 0 < stp) (hs' : stp ≤ stpmax) :
    ∃ n, ∃ ls, ls = drive backtrackOps (fun s => (phi s, dphi s)) n
        (calls backtrackOps ls0 (hist ++ [.start ⟨phi 0, g0, stp, 0, stpmax⟩])) ∧
      ls.task ≠ .search ∧ ls.task ≠ .error ∧ 0 < ls.stp ∧ ls.stp ≤ stp ∧
      phi ls.stp ≤ phi 0 + ftol * ls.stp * g0 := by
  obtain ⟨p1, p2, p3, p4⟩ := newBacktrack_params raw ftol amin ls0 h0
  set a : Args ℝ := ⟨phi 0, g0, stp, 0, stpmax⟩ with ha
  have hv : a.Valid := ⟨le_refl _, le_trans hs.le hs', hs.le, hs', hg⟩
  -- the condition holds for all small enough steps
  obtain ⟨δ, hδ, hok⟩ : ∃ δ > 0, ∀ t, 0 < t → t < δ → phi t ≤ phi 0 + ftol * t * g0 := by
    have hlim := hd.tendsto_slope
    have : ∀ᶠ t in nhdsWithin (0 : ℝ) {0}ᶜ, slope phi 0 t < ftol * g0 := by
      apply hlim.eventually_lt_const
      nlinarith
    rw [eventually_nhdsWithin_iff, Metric.eventually_nhds_iff] at this
    obtain ⟨δ, hδ, h⟩ := this
    refine ⟨δ, hδ, fun t ht ht' => ?_⟩
    have := h (show dist t 0 < δ by simp [abs_of_pos ht, ht']) (by simp [ht.ne'])
    rw [slope_def_field, sub_zero, div_lt_iff₀ ht] at this
    nlinarith
  have hd' : 0 < 2 * (1 - ftol) := by linarith
  have hc : 1 / (2 * (1 - ftol)) < 1 := by rw [div_lt_one hd']; linarith
  have hc0 : 0 < 1 / (2 * (1 - ftol)) := by positivity
  obtain ⟨n, hn⟩ := exists_pow_lt_of_lt_one (show 0 < δ / stp by positivity) hc
  have hn : stp * (1 / (2 * (1 - ftol))) ^ n < δ := by
    rw [lt_div_iff₀ hs] at hn; linarith
  suffices h : ∀ (j k : Nat) (ls : Ls ℝ (Backtrack ℝ)), Running ftol amin a k ls → 0 < ls.stp →
      ls.stp ≤ stp → n < k + j → k ≤ n →
      ∃ ls', ls' = drive backtrackOps (fun s => (phi s, dphi s)) j ls ∧ ls'.task ≠ .search ∧
        ls'.task ≠ .error ∧ 0 < ls'.stp ∧ ls'.stp ≤ stp ∧ phi ls'.stp ≤ phi 0 + ftol * ls'.stp * g0 by
    refine ⟨n + 1, h (n + 1) 0 _ (running_start h0 hist a hv) ?_ ?_ (by omega) (by omega)⟩
    · rw [calls_append]
      simp only [calls, call]
      rw [((start_checks backtrackOps backtrack_method (calls backtrackOps ls0 hist) a).2.1 hv).1]
      exact hs
    · rw [calls_append]
      simp only [calls, call]
      rw [((start_checks backtrackOps backtrack_method (calls backtrackOps ls0 hist) a).2.1 hv).1]
  intro j
  induction j with
  | zero => intro k ls _ _ _ h1 h2; omega
  | succ j ih =>
    intro k ls hr hp hle hk hkn
    simp only [drive]
    rw [if_pos hr.task]
    obtain ⟨r1, r2⟩ := running_step hr hv p1 p2 p3 (phi ls.stp) (dphi ls.stp)
    by_cases hcs : (iterate backtrackOps ls ls.stp (phi ls.stp) (dphi ls.stp)).1.task = .search
    · obtain ⟨h1, h2, h3, h4⟩ := r1 hcs
      have hkn' : k ≠ n := by
        intro e
        subst e
        rcases hr.step with hst | hst
        · rw [hst] at hp; exact absurd hp (lt_irrefl _)
        · exact h4 (hok _ hp (lt_of_le_of_lt hst hn))
      have hdec : (iterate backtrackOps ls ls.stp (phi ls.stp) (dphi ls.stp)).1.stp ≤ stp := by
        rcases h1.step with hst | hst
        · rw [hst]; exact hs.le
        · exact le_trans hst (by
            have := pow_le_one₀ (n := k + 1) hc0.le hc.le
            show stp * _ ≤ stp
            nlinarith)
      exact ih (k + 1) _ h1 h3 hdec (by omega) (by omega)
    · obtain ⟨e1, e2⟩ := r2 hcs
      have hdr : drive backtrackOps (fun s => (phi s, dphi s)) j
          (iterate backtrackOps ls ls.stp (phi ls.stp) (dphi ls.stp)).1 =
          (iterate backtrackOps ls ls.stp (phi ls.stp) (dphi ls.stp)).1 := by
        cases j with
        | zero => rfl
        | succ j => simp only [drive]; rw [if_neg hcs]
      refine ⟨_, rfl, ?_, ?_, ?_, ?_, ?_⟩ <;> rw [hdr]
      · exact hcs
      · rw [iterate_eq _ _ _ _ hr.task]
        rcases finish_task (boundOf ls) (backtrackOps.iterate ls ls.stp (phi ls.stp) (dphi ls.stp)).1
          (backtrackOps.iterate ls ls.stp (phi ls.stp) (dphi ls.stp)).2 with ⟨q, _⟩ | ⟨q, _⟩
        · rw [q]; simp only [backtrackOps, backtrackIterate]
          split
          · simp [succeed]
          · split <;> simp [succeed, warn]
        · rw [q]; simp
      · rw [e1]; exact hp
      · rw [e1]; exact hle
      · rw [e1]
        rcases e2 with e2 | e2
        · exact e2
        · rw [e2] at hp; exact absurd hp (lt_irrefl _)

/-! ### The hypotheses can be met -/

example (raw : Ls ℚ Unit) : ∃ ls0, newBacktrack raw (1 / 10000) (1 / 10) = some ls0 ∧
    (⟨1, -1, 1, 1 / 8, 2⟩ : Args ℚ).Valid ∧
    (⟨1, -1, 1, 1 / 8, 2⟩ : Args ℚ).stp * (1 / (2 * (1 - 1 / 10000))) ^ 4 ≤ 1 / 8 := by
  refine ⟨allocated { raw with m := ⟨1 / 10000, 1 / 10⟩ }, ?_, ?_, ?_⟩
  · unfold newBacktrack
    rw [if_neg (by rw [lit_half]; norm_num)]
  · simp only [Args.Valid]; norm_num
  · norm_num

example : HasDerivAt (fun s : ℝ => s * s - s) (-1) 0 := by
  have := ((hasDerivAt_id (0 : ℝ)).mul (hasDerivAt_id (0 : ℝ))).sub (hasDerivAt_id (0 : ℝ))
  simp at this
  exact this

end Opk.LineSearch
