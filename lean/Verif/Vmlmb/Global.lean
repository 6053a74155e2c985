import Verif.Vmlmb.Direction
import Verif.Vmlmb.Converge
import Verif.LineSearch.Lift
import Mathlib.Algebra.Order.BigOperators.Ring.Finset
/-! # C87: convergence of the variable metric optimizer without bounds

Exact arithmetic (real numbers), Moré and Thuente line search. -/
set_option linter.unusedSectionVars false
namespace Opk.Vmlmb
open Opk.Optim Matrix

variable {ι : Type} [Fintype ι] [DecidableEq ι]

/-- Optimizer and variables of the caller. -/
abbrev St (ι : Type) := Sess ℝ (LineSearch.Csrch ℝ) (ι → ℝ)

/-- What the caller does: the function `F` and the gradient `G` are computed when asked for, the optimizer is called again after each
new iterate, and the session stops on any other task. -/
noncomputable def turn (par : Par ℝ (ι → ℝ)) (F : (ι → ℝ) → ℝ) (G : (ι → ℝ) → ι → ℝ) (s : St ι) : St ι :=
  match s.opt.task with
  | .computeFG => s.reply par LineSearch.csrchOps (F s.x) (G s.x)
  | .newX => s.next par LineSearch.csrchOps
  | _ => s

/-- The session after `k` calls. -/
noncomputable def run (par : Par ℝ (ι → ℝ)) (F : (ι → ℝ) → ℝ) (G : (ι → ℝ) → ι → ℝ) (s : St ι) : ℕ → St ι
  | 0 => s
  | k + 1 => turn par F G (run par F G s k)

/-- Specification: the gradient is Lipschitz continuous and the function is bounded below. -/
structure Smooth (F : (ι → ℝ) → ℝ) (G : (ι → ℝ) → ι → ℝ) (L fmin : ℝ) : Prop where
  pos : 0 < L
  lip : ∀ x y, (G x - G y) ⬝ᵥ (G x - G y) ≤ L ^ 2 * ((x - y) ⬝ᵥ (x - y))
  low : ∀ x, fmin ≤ F x

/-- The parameters of the optimizer. -/
structure Plain (par : Par ℝ (ι → ℝ)) : Prop where
  vs : par.vs = exactVs
  box : par.box = none
  method : par.method = .lbfgs
  lo : 0 < par.stpmin
  mid : par.stpmin ≤ 1 ∧ 1 ≤ par.stpmax
  delta : 0 < par.delta

/-- The parameters of the line search. -/
structure Tol (ls : LineSearch.Ls ℝ (LineSearch.Csrch ℝ)) (ftol gtol : ℝ) : Prop where
  ftol : ls.m.ftol = ftol
  gtol : ls.m.gtol = gtol
  xtol : 0 < ls.m.xtol

theorem cauchy (u v : ι → ℝ) : (u ⬝ᵥ v) ^ 2 ≤ (u ⬝ᵥ u) * (v ⬝ᵥ v) := by
  have := Finset.sum_mul_sq_le_sq_mul_sq Finset.univ u v
  simp only [dotProduct]
  refine this.trans (le_of_eq ?_)
  congr 1 <;> exact Finset.sum_congr rfl fun _ _ => by ring

theorem dot_nonneg (u : ι → ℝ) : 0 ≤ u ⬝ᵥ u := Finset.sum_nonneg fun i _ => mul_self_nonneg _

/-- The decrease of the function when the Wolfe conditions hold. -/
theorem wolfe_decrease (F : (ι → ℝ) → ℝ) (G : (ι → ℝ) → ι → ℝ) (L fmin : ℝ) (hs : Smooth F G L fmin) (x d : ι → ℝ) (a ftol gtol ε : ℝ)
    (ha : 0 < a) (hf : 0 ≤ ftol) (hg : gtol < 1) (hp : 0 < d ⬝ᵥ G x)
    (h1 : F (x - a • d) ≤ F x - a * (ftol * (d ⬝ᵥ G x))) (h2 : |d ⬝ᵥ G (x - a • d)| ≤ gtol * (d ⬝ᵥ G x))
    (hang : ε ^ 2 * ((d ⬝ᵥ d) * (G x ⬝ᵥ G x)) ≤ (d ⬝ᵥ G x) ^ 2) :
    F (x - a • d) + ftol * (1 - gtol) * ε ^ 2 / L * (G x ⬝ᵥ G x) ≤ F x := by
  generalize hx' : x - a • d = x' at *
  generalize hq : d ⬝ᵥ G x = p at *
  have hD : 0 < d ⬝ᵥ d := by
    refine lt_of_le_of_ne (dot_nonneg d) fun e => ?_
    have := cauchy d (G x)
    rw [← e, hq, zero_mul] at this
    have : 0 < p ^ 2 := by positivity
    linarith
  have e1 : d ⬝ᵥ (G x - G x') = p - d ⬝ᵥ G x' := by rw [dotProduct_sub, hq]
  have e2 : (1 - gtol) * p ≤ d ⬝ᵥ (G x - G x') := by
    rw [e1]
    have := (abs_le.mp h2).2
    linarith
  have e3 : (d ⬝ᵥ (G x - G x')) ^ 2 ≤ (L * a * (d ⬝ᵥ d)) ^ 2 := by
    have h3 := hs.lip x x'
    have h4 : x - x' = a • d := by rw [← hx']; simp
    rw [h4, smul_dotProduct, dotProduct_smul] at h3
    have h5 := mul_le_mul_of_nonneg_left h3 hD.le
    refine (cauchy d _).trans (h5.trans (le_of_eq ?_))
    simp only [smul_eq_mul]
    ring
  have e4 : d ⬝ᵥ (G x - G x') ≤ L * a * (d ⬝ᵥ d) :=
    le_of_sq_le_sq e3 (by have := hs.pos; positivity)
  have e5 : (1 - gtol) * p ≤ L * a * (d ⬝ᵥ d) := e2.trans e4
  have e6 : (1 - gtol) * ε ^ 2 * (G x ⬝ᵥ G x) ≤ L * a * p := by
    have h6 : (1 - gtol) * (ε ^ 2 * ((d ⬝ᵥ d) * (G x ⬝ᵥ G x))) ≤ (1 - gtol) * p ^ 2 := mul_le_mul_of_nonneg_left hang (by linarith)
    have h7 : (1 - gtol) * p * p ≤ L * a * (d ⬝ᵥ d) * p := mul_le_mul_of_nonneg_right e5 hp.le
    have h8 : (d ⬝ᵥ d) * ((1 - gtol) * ε ^ 2 * (G x ⬝ᵥ G x)) ≤ (d ⬝ᵥ d) * (L * a * p) := by nlinarith
    exact le_of_mul_le_mul_left h8 hD
  have e7 : ftol * ((1 - gtol) * ε ^ 2 * (G x ⬝ᵥ G x)) ≤ ftol * (L * a * p) := mul_le_mul_of_nonneg_left e6 hf
  have e8 : ftol * (1 - gtol) * ε ^ 2 / L * (G x ⬝ᵥ G x) ≤ a * (ftol * p) := by
    rw [div_mul_eq_mul_div, div_le_iff₀ hs.pos]
    linarith
  linarith

theorem direction_ok (par : Par ℝ (ι → ℝ)) (hb : par.box = none) (o : Opt ℝ (LineSearch.Csrch ℝ) (ι → ℝ)) (x g : ι → ℝ) :
    ∃ r, direction par o x g = .ok r := by
  unfold direction
  rw [hb]
  dsimp only
  split_ifs <;> exact ⟨_, rfl⟩

/-- A new line search is always started. -/
theorem newX_search (par : Par ℝ (ι → ℝ)) (hp : Plain par) (o : Opt ℝ (LineSearch.Csrch ℝ) (ι → ℝ)) (ht : o.task = .newX) (x g : ι → ℝ) (f : ℝ)
    (hg : 0 < o.gnorm) (hgn : o.gnorm = Real.sqrt (g ⬝ᵥ g)) (ftol gtol : ℝ) (tol : Tol o.ls ftol gtol) (h0 : 0 ≤ ftol) (h1 : ftol < 1) (h4 : ftol ≤ gtol) :
    ∃ r, iterate par LineSearch.csrchOps o x f g = (success r .computeFG, x - r.stp • r.d) ∧ r.evaluations = o.evaluations ∧ r.iterations = o.iterations ∧
      r.ginit = o.ginit ∧ r.x0 = x ∧ LineSearch.Inv r.ls ∧ LineSearch.Fresh r.ls ∧ r.ls.stp = r.stp ∧ r.ls.finit = f ∧ r.ls.ginit = -(r.d ⬝ᵥ g) ∧
      0 < r.ls.stpmin ∧ Tol r.ls ftol gtol ∧ Chosen par o x g r.d r.ls.ginit := by
  obtain ⟨⟨a, dtg⟩, hd⟩ := direction_ok par hp.box o x g
  obtain ⟨u1, u2, u3, u4, u5, u6, u7⟩ := updated_keeps par o x g
  have hk : SameBut (updated par o x g) a := by
    rcases direction_stages par o x g with ⟨q, st, hq, -⟩ | ⟨q, hq, hk, -⟩
    · rw [hd] at hq; cases hq
    · rw [hd] at hq; cases hq; exact hk
  unfold SameBut at hk
  obtain ⟨a1, a2, -, -, -, a6, -, -, -, a10, a11, -⟩ := hk
  obtain ⟨b1, b2, b3, b4, b5, b6, b7, b8, b9, b10, b11, b12, b13, b14, b15, b16, b17, b18, b19, b20⟩ :=
    initialStep_keeps par a x f g dtg
  -- the initial step
  have hgs : o.gnorm * o.gnorm = g ⬝ᵥ g := by rw [hgn, Real.mul_self_sqrt (dot_nonneg g)]
  have hstep : 0 < (initialStep par a x f g dtg).1.stp ∧ (initialStep par a x f g dtg).2 < 0 := by
    unfold initialStep
    by_cases hn : dtg < 0
    · rw [if_pos hn]; exact ⟨zero_lt_one, hn⟩
    · rw [if_neg hn]
      have en : ∀ q : Opt ℝ (LineSearch.Csrch ℝ) (ι → ℝ), q.gnorm = o.gnorm → 0 < steepestStep par q x f (-q.gnorm * q.gnorm) ∧ -q.gnorm * q.gnorm < 0 := by
        intro q hq
        have hneg : -q.gnorm * q.gnorm < 0 := by rw [hq]; nlinarith
        refine ⟨?_, hneg⟩
        unfold steepestStep
        rw [hp.box, hp.vs]
        by_cases hf : (!(f == 0)) = true
        · rw [if_pos hf]
          have hf0 : f ≠ 0 := by simpa using hf
          have h2 : (lit 2 1 : ℝ) = 2 := by show ((2 : ℕ) : ℝ) / ((1 : ℕ) : ℝ) = 2; norm_num
          rw [h2]
          have : 0 < |f / (-q.gnorm * q.gnorm)| := abs_pos.mpr (div_ne_zero hf0 hneg.ne)
          show 0 < 2 * |f / (-q.gnorm * q.gnorm)|
          linarith
        · rw [if_neg hf]
          have hd := hp.delta
          dsimp only
          rw [hq]
          split_ifs with hx
          · exact div_pos (mul_pos hd hx) hg
          · exact div_pos hd hg
      dsimp only
      rw [hp.method]
      dsimp only
      have hq : ∀ q : Opt ℝ (LineSearch.Csrch ℝ) (ι → ℝ), q = (if a.mp > 0 then { a with restarts := a.restarts + 1, mp := 0 } else a) → q.gnorm = o.gnorm := by
        rintro q rfl
        split_ifs <;> exact a10.trans u3
      generalize hq' : (if a.mp > 0 then { a with restarts := a.restarts + 1, mp := 0 } else a) = q
      have := en { q with d := g } (hq q hq'.symm)
      exact this
  have hbrk : ∃ r, onNewX par LineSearch.csrchOps o x f g = .brk r ∧ LineSearch.Inv r.ls ∧ LineSearch.Fresh r.ls ∧ 0 < r.ls.stpmin ∧ Tol r.ls ftol gtol ∧
      r.evaluations = o.evaluations ∧ r.iterations = o.iterations ∧ r.ginit = o.ginit := by
    unfold onNewX
    rw [hd]
    dsimp only
    generalize initialStep par a x f g dtg = is at *
    obtain ⟨b, dtg'⟩ := is
    dsimp only at *
    unfold limitStep
    rw [hp.box]
    dsimp only
    obtain ⟨d1, d2, d3, d4, d5, d6, d7, d8, d9, d10, d11, d12, d13, d14, d15, d16, d17⟩ := savePoint_keeps par b x f g
    generalize savePoint par b x f g = sp at *
    have els : sp.ls = o.ls := by rw [d3, b3, a6, u5]
    rw [els]
    have hl := hp.lo
    have hm := hp.mid
    have hok : LineSearch.Args.Ok ⟨f, dtg', sp.stp, b.stp * par.stpmin, b.stp * par.stpmax⟩ := by
      refine ⟨(mul_pos hstep.1 hl).le, ⟨?_, ?_⟩, hstep.2⟩
      · show b.stp * par.stpmin ≤ sp.stp
        rw [d15]; nlinarith
      · show sp.stp ≤ b.stp * par.stpmax
        rw [d15]; nlinarith
    obtain ⟨s1, s2, s3, s4, s5, s6, s7, s8, s9⟩ := LineSearch.start_real o.ls (by rw [tol.ftol]; exact h0) (by rw [tol.ftol]; exact h1) (by rw [tol.ftol, tol.gtol]; exact h4) _ hok
    dsimp only at s1 s2 s3 s4 s5 s6 s7 s8 s9
    rw [if_neg (not_not.mpr s1.task)]
    refine ⟨_, rfl, s1, s2, ?_, ⟨s7.trans tol.ftol, s8.trans tol.gtol, ?_⟩, ?_, ?_, ?_⟩
    · show 0 < _; rw [s6]; exact mul_pos hstep.1 hl
    · show 0 < _; rw [s9]; exact tol.xtol
    · exact d1.trans (b1.trans (a1.trans u6))
    · exact d2.trans (b2.trans (a2.trans u7))
    · exact d10.trans (b16.trans (a11.trans u4))
  obtain ⟨r, hr, r1, r2, r3, r4, r5, r6, r7⟩ := hbrk
  have hB := onNewX_begun par LineSearch.csrchOps LineSearch.csrch_method o x f g r hr
  refine ⟨r, ?_, r5, r6, r7, hB.x0, r1, r2, hB.stp, hB.finit, ?_, r3, r4, hB.chosen⟩
  · have e : iterate par LineSearch.csrchOps o x f g = trial par r := by
      unfold iterate
      rw [ht]
      dsimp only
      rw [hr]
    rw [e]
    unfold trial
    rw [hp.box, hp.vs, hB.x0]
    dsimp only [exactVs]
    rw [one_smul, neg_smul, ← sub_eq_add_neg]
  · rcases hB.chosen with ⟨-, -, c⟩ | ⟨-, c1, c2⟩
    · rw [c, hp.vs]; rfl
    · rw [hp.method] at c1
      dsimp only at c1
      rw [c2, c1, ← hgs]
      ring

section loop
variable (par : Par ℝ (ι → ℝ)) (F : (ι → ℝ) → ℝ) (G : (ι → ℝ) → ι → ℝ) (x1 : ι → ℝ) (ε ftol gtol L : ℝ)

/-- Norm of the gradient. -/
noncomputable def gnormAt (x : ι → ℝ) : ℝ := Real.sqrt (G x ⬝ᵥ G x)

/-- Specification: the threshold on the norm of the gradient, for the initial variables `x1`. -/
noncomputable def threshold : ℝ := max (max 0 par.gatol) (par.grtol * gnormAt G x1)

/-- Specification: what the function loses at least with each iteration. -/
noncomputable def gain : ℝ := ftol * (1 - gtol) * ε ^ 2 / L * threshold par G x1 ^ 2

/-- The optimizer waits for the first function value. -/
structure First (s : St ι) : Prop where
  task : s.opt.task = .computeFG
  ev : s.opt.evaluations = 0
  it : s.opt.iterations = 0
  x : s.x = x1
  tol : Tol s.opt.ls ftol gtol

/-- The optimizer has an iterate. -/
structure Point (s : St ι) : Prop where
  ev : 1 ≤ s.opt.evaluations
  tol : Tol s.opt.ls ftol gtol
  ginit : s.opt.ginit = gnormAt G x1
  f : s.f = F s.x
  g : s.g = G s.x
  gnorm : s.opt.gnorm = gnormAt G s.x
  task : s.opt.task = (if gnormAt G s.x ≤ threshold par G x1 then .finalX else .newX)
  low : F s.x + s.opt.iterations * gain par G x1 ε ftol gtol L ≤ F x1

/-- A line search is running. -/
structure Search (s : St ι) : Prop where
  task : s.opt.task = .computeFG
  ev : 1 ≤ s.opt.evaluations
  tol : Tol s.opt.ls ftol gtol
  ginit : s.opt.ginit = gnormAt G x1
  inv : LineSearch.Inv s.opt.ls
  fresh : LineSearch.Fresh s.opt.ls
  stp : s.opt.ls.stp = s.opt.stp
  lo : 0 < s.opt.ls.stpmin
  x : s.x = s.opt.x0 - s.opt.stp • s.opt.d
  finit : s.opt.ls.finit = F s.opt.x0
  slope : s.opt.ls.ginit = -(s.opt.d ⬝ᵥ G s.opt.x0)
  ang : ε ^ 2 * ((s.opt.d ⬝ᵥ s.opt.d) * (G s.opt.x0 ⬝ᵥ G s.opt.x0)) ≤ (s.opt.d ⬝ᵥ G s.opt.x0) ^ 2
  gn : threshold par G x1 < gnormAt G s.opt.x0
  low : F s.opt.x0 + s.opt.iterations * gain par G x1 ε ftol gtol L ≤ F x1

/-- The line search has failed. -/
structure Failed (fmin : ℝ) (s : St ι) : Prop where
  task : s.opt.task = .error
  status : s.opt.status = .ls .stepEqStpmin ∨ s.opt.status = .ls .stepEqStpmax ∨ s.opt.status = .ls .xtolTestSatisfied
  low : s.opt.iterations * gain par G x1 ε ftol gtol L ≤ F x1 - fmin

theorem threshold_nonneg : 0 ≤ threshold par G x1 := (le_max_left _ _).trans (le_max_left _ _)

theorem accept_point (hp : Plain par) (o : Opt ℝ (LineSearch.Csrch ℝ) (ι → ℝ)) (x : ι → ℝ) (ev : 1 ≤ o.evaluations) (tol : Tol o.ls ftol gtol)
    (h1 : o.evaluations = 1 → x = x1) (h2 : o.evaluations ≠ 1 → o.ginit = gnormAt G x1)
    (low : F x + o.iterations * gain par G x1 ε ftol gtol L ≤ F x1) :
    Point par F G x1 ε ftol gtol L ⟨accept par o x (G x), x, F x, G x⟩ := by
  have hm : MethodOk par := ⟨fun _ => hp.box, fun _ => hp.method⟩
  obtain ⟨k1, k2, -, -, -, k6, -⟩ := accept_keeps par o x (G x)
  have hgn : gradNorm par x (G x) = some (gnormAt G x) := by
    unfold gradNorm
    rw [hp.box, hp.vs]
    rfl
  rcases accept_test par hm o x (G x) with ⟨-, a⟩ | ⟨gn, a1, a2, a3, a4⟩
  · rw [hgn] at a; cases a
  rw [hgn] at a1
  cases a1
  have e : (if o.evaluations = 1 then gnormAt G x else o.ginit) = gnormAt G x1 := by
    split_ifs with c
    · rw [h1 c]
    · exact h2 c
  rw [e] at a2 a4
  rw [max3_eq] at a4
  exact ⟨by rw [k1]; exact ev, by rw [k6]; exact tol, a2, rfl, rfl, a3, a4, by rw [k2]; exact low⟩

theorem first_step (hp : Plain par) (s : St ι) (h : First x1 ftol gtol s) :
    Point par F G x1 ε ftol gtol L (turn par F G s) ∧ (turn par F G s).opt.iterations = s.opt.iterations := by
  have e : turn par F G s = ⟨accept par { s.opt with evaluations := s.opt.evaluations + 1 } s.x (G s.x), s.x, F s.x, G s.x⟩ := by
    unfold turn Sess.reply iterate onFG
    rw [h.task]
    dsimp only
    rw [if_neg (show ¬ s.opt.evaluations + 1 > 1 by rw [h.ev]; norm_num)]
    simp only [h.task]
  rw [e]
  refine ⟨accept_point par F G x1 ε ftol gtol L hp _ _ (by dsimp only; rw [h.ev]; norm_num) h.tol (fun _ => h.x) (fun q => absurd (by dsimp only; rw [h.ev]; norm_num) q) ?_, ?_⟩
  · dsimp only
    rw [h.it, h.x]; simp
  · exact (accept_keeps par _ s.x (G s.x)).2.1

theorem first_x (s : St ι) (h : First x1 ftol gtol s) : (turn par F G s).x = x1 := by
  have e : (turn par F G s).x = s.x := by
    unfold turn Sess.reply iterate onFG
    rw [h.task]
    dsimp only
    rw [if_neg (show ¬ s.opt.evaluations + 1 > 1 by rw [h.ev]; norm_num)]
  rw [e, h.x]

theorem point_step (hp : Plain par) (f0 : 0 ≤ ftol) (f1 : ftol < 1) (f4 : ftol ≤ gtol) (s : St ι) (h : Point par F G x1 ε ftol gtol L s) (ht : s.opt.task = .newX)
    (ang : ε ^ 2 * (((turn par F G s).opt.d ⬝ᵥ (turn par F G s).opt.d) * (G s.x ⬝ᵥ G s.x)) ≤ ((turn par F G s).opt.d ⬝ᵥ G s.x) ^ 2) :
    Search par F G x1 ε ftol gtol L (turn par F G s) ∧ (turn par F G s).opt.iterations = s.opt.iterations := by
  have hgt : threshold par G x1 < gnormAt G s.x := by
    have := h.task
    rw [ht] at this
    by_contra q
    rw [if_pos (not_lt.mp q)] at this
    cases this
  have hg0 := (threshold_nonneg par G x1).trans_lt hgt
  obtain ⟨r, e, r1, r2, r3, r4, r5, r6, r7, r8, r9, r10, r11, -⟩ := newX_search par hp s.opt ht s.x s.g s.f (by rw [h.gnorm]; exact hg0)
    (by rw [h.gnorm, h.g]; rfl) ftol gtol h.tol f0 f1 f4
  have e' : turn par F G s = ⟨success r .computeFG, s.x - r.stp • r.d, s.f, s.g⟩ := by
    unfold turn Sess.next
    rw [ht]
    dsimp only
    rw [e]
  rw [e'] at ang ⊢
  have rx : (success r .computeFG).x0 = s.x := r4
  refine ⟨⟨rfl, ?_, r11, r3.trans h.ginit, r5, r6, r7, r10, ?_, ?_, ?_, ?_, ?_, ?_⟩, r2⟩
  · exact r1.symm ▸ h.ev
  · dsimp only; rw [rx]; rfl
  · dsimp only; rw [rx]; exact r8.trans h.f
  · dsimp only; rw [rx, ← h.g]; exact r9
  · dsimp only; rw [rx]; exact ang
  · dsimp only; rw [rx]; exact hgt
  · dsimp only; rw [rx]
    show _ + (r.iterations : ℝ) * _ ≤ _
    rw [r2]; exact h.low

/-- A line search is started at each new iterate. -/
theorem point_step' (hp : Plain par) (f0 : 0 ≤ ftol) (f1 : ftol < 1) (f4 : ftol ≤ gtol) (s : St ι) (h : Point par F G x1 ε ftol gtol L s) (ht : s.opt.task = .newX) :
    (turn par F G s).opt.task = .computeFG := by
  have hgt : threshold par G x1 < gnormAt G s.x := by
    have := h.task
    rw [ht] at this
    by_contra q
    rw [if_pos (not_lt.mp q)] at this
    cases this
  have hg0 := (threshold_nonneg par G x1).trans_lt hgt
  obtain ⟨r, e, -⟩ := newX_search par hp s.opt ht s.x s.g s.f (by rw [h.gnorm]; exact hg0)
    (by rw [h.gnorm, h.g]; rfl) ftol gtol h.tol f0 f1 f4
  unfold turn Sess.next
  rw [ht]
  dsimp only
  rw [e]
  rfl

theorem search_step (hp : Plain par) (fmin : ℝ) (hs : Smooth F G L fmin) (f0 : 0 ≤ ftol) (f4 : 4 * ftol ≤ gtol) (g1 : gtol < 1) (s : St ι)
    (h : Search par F G x1 ε ftol gtol L s) :
    (Search par F G x1 ε ftol gtol L (turn par F G s) ∧ (turn par F G s).opt.iterations = s.opt.iterations ∧
      LineSearch.Same s.opt.ls (turn par F G s).opt.ls ∧ LineSearch.Move s.opt.ls (turn par F G s).opt.ls) ∨
    (Point par F G x1 ε ftol gtol L (turn par F G s) ∧ (turn par F G s).opt.iterations = s.opt.iterations + 1) ∨
    (Failed par F G x1 ε ftol gtol L fmin (turn par F G s) ∧ (turn par F G s).opt.iterations = s.opt.iterations) := by
  have h4 : 4 * s.opt.ls.m.ftol ≤ s.opt.ls.m.gtol := by rw [h.tol.ftol, h.tol.gtol]; exact f4
  obtain ⟨i1, i2, i3, i4⟩ := LineSearch.iterate_real s.opt.ls h.inv h4 (F s.x) (-(s.opt.d ⬝ᵥ G s.x))
  obtain ⟨i6, i7⟩ := LineSearch.iterate_end s.opt.ls h.inv.task (F s.x) (-(s.opt.d ⬝ᵥ G s.x))
  have i5 := LineSearch.iterate_stp s.opt.ls h.inv.task (F s.x) (-(s.opt.d ⬝ᵥ G s.x))
  have i4' := i4 h.fresh
  have e : turn par F G s = (let r := match onFG par LineSearch.csrchOps s.opt s.x (F s.x) (G s.x) with
      | .ret o => (o, s.x)
      | .brk o => trial par o
      ⟨r.1, r.2, F s.x, G s.x⟩) := by
    unfold turn Sess.reply iterate
    rw [h.task]
    dsimp only
    rcases onFG par LineSearch.csrchOps s.opt s.x (F s.x) (G s.x) <;> rfl
  rw [e]
  unfold onFG
  dsimp only
  have ev := h.ev
  rw [if_pos (show s.opt.evaluations + 1 > 1 by omega)]
  have ed : derivative par LineSearch.csrchOps { s.opt with evaluations := s.opt.evaluations + 1 } s.x (G s.x) = -(s.opt.d ⬝ᵥ G s.x) := by
    unfold derivative
    rw [hp.box, hp.vs]
    rfl
  rw [ed, ← h.stp]
  generalize hr : LineSearch.iterate LineSearch.csrchOps s.opt.ls s.opt.ls.stp (F s.x) (-(s.opt.d ⬝ᵥ G s.x)) = r at *
  have htol : Tol r.1 ftol gtol := ⟨i2.ftol.trans h.tol.ftol, i2.gtol.trans h.tol.gtol, by rw [i2.xtol]; exact h.tol.xtol⟩
  by_cases c1 : r.1.task = .search
  · left
    rw [if_pos c1]
    dsimp only
    obtain ⟨j1, j2⟩ := i3 c1
    unfold trial
    rw [hp.box, hp.vs]
    dsimp only [exactVs]
    refine ⟨⟨rfl, ?_, htol, h.ginit, j1, j2.fresh h4, i5, ?_, ?_, i2.finit.trans h.finit, i2.ginit.trans h.slope, h.ang, h.gn, h.low⟩, rfl, i2, j2⟩
    · show 1 ≤ s.opt.evaluations + 1
      omega
    · show 0 < r.1.stpmin
      rw [i2.stpmin]; exact h.lo
    · rw [one_smul, neg_smul, ← sub_eq_add_neg]; rfl
  rw [if_neg c1]
  by_cases c2 : r.1.task = .convergence
  · right; left
    rw [if_neg (fun q => q.1 c2)]
    dsimp only
    obtain ⟨w1, w2⟩ := i6 c2
    have hlow : F s.x + gain par G x1 ε ftol gtol L ≤ F s.opt.x0 := by
      have hpos := h.inv.g0
      rw [h.slope] at hpos w2
      rw [h.inv.gt, h.slope, h.finit, h.tol.ftol] at w1
      rw [h.tol.gtol, abs_neg] at w2
      have hst : 0 < s.opt.stp := by
        have := h.inv.lo
        rw [h.stp] at this
        exact h.lo.trans_le this
      rw [h.stp] at w1
      rw [h.x] at w1 w2 ⊢
      have := wolfe_decrease F G L fmin hs s.opt.x0 s.opt.d s.opt.stp ftol gtol ε hst f0 g1 (by linarith) (by linarith) (by linarith) h.ang
      have hsq : threshold par G x1 ^ 2 ≤ G s.opt.x0 ⬝ᵥ G s.opt.x0 := by
        have h6 := h.gn
        unfold gnormAt at h6
        have h7 := (Real.lt_sqrt (threshold_nonneg par G x1)).mp h6
        exact h7.le
      have hc : 0 ≤ ftol * (1 - gtol) * ε ^ 2 / L := div_nonneg (mul_nonneg (mul_nonneg f0 (by linarith)) (sq_nonneg _)) hs.pos.le
      have := mul_le_mul_of_nonneg_left hsq hc
      unfold gain
      linarith
    refine ⟨accept_point par F G x1 ε ftol gtol L hp _ _ (by dsimp only; omega) htol (fun q => absurd q (by dsimp only; omega)) (fun _ => h.ginit) ?_, ?_⟩
    · dsimp only
      have := h.low
      push_cast
      linarith
    · exact (accept_keeps par _ s.x (G s.x)).2.1
  · right; right
    rw [if_pos (show _ ∧ _ from ⟨c2, Or.inr i4'⟩)]
    have c3 : r.1.task = .warning := by
      rcases hq : r.1.task with _ | _ | _ | _
      · exact absurd hq i1
      · exact absurd hq c1
      · exact absurd hq c2
      · rfl
    refine ⟨⟨rfl, ?_, ?_⟩, rfl⟩
    · show Optim.Status.ls r.1.status = _ ∨ Optim.Status.ls r.1.status = _ ∨ Optim.Status.ls r.1.status = _
      rcases i7 c3 with q | q | q | q
      · exact Or.inl (congrArg _ q)
      · exact Or.inr (Or.inl (congrArg _ q))
      · exact Or.inr (Or.inr (congrArg _ q))
      · exact absurd q i4'
    · show (s.opt.iterations : ℝ) * _ ≤ _
      have := h.low
      have := hs.low s.opt.x0
      linarith

/-- What is true of the session all along the run. -/
def Good (fmin : ℝ) (s : St ι) : Prop :=
  First x1 ftol gtol s ∨ Point par F G x1 ε ftol gtol L s ∨ Search par F G x1 ε ftol gtol L s ∨ Failed par F G x1 ε ftol gtol L fmin s

theorem turn_stays (s : St ι) (h : s.opt.task = .finalX ∨ s.opt.task = .error) : turn par F G s = s := by
  unfold turn
  rcases h with h | h <;> rw [h]

theorem gain_nonneg (f0 : 0 ≤ ftol) (g1 : gtol < 1) (hL : 0 < L) : 0 ≤ gain par G x1 ε ftol gtol L :=
  mul_nonneg (div_nonneg (mul_nonneg (mul_nonneg f0 (by linarith)) (sq_nonneg _)) hL.le) (sq_nonneg _)

theorem good_low (fmin : ℝ) (hs : Smooth F G L fmin) (s : St ι) (h : Good par F G x1 ε ftol gtol L fmin s) :
    s.opt.iterations * gain par G x1 ε ftol gtol L ≤ F x1 - fmin := by
  rcases h with h | h | h | h
  · rw [h.it]
    have := hs.low x1
    simp only [Int.cast_zero, zero_mul]
    linarith
  · have := h.low
    have := hs.low s.x
    linarith
  · have := h.low
    have := hs.low s.opt.x0
    linarith
  · exact h.low

theorem good_step (hp : Plain par) (fmin : ℝ) (hs : Smooth F G L fmin) (f0 : 0 ≤ ftol) (f4 : 4 * ftol ≤ gtol) (g1 : gtol < 1) (s : St ι)
    (ang : Point par F G x1 ε ftol gtol L s → s.opt.task = .newX → ε ^ 2 * (((turn par F G s).opt.d ⬝ᵥ (turn par F G s).opt.d) * (G s.x ⬝ᵥ G s.x)) ≤ ((turn par F G s).opt.d ⬝ᵥ G s.x) ^ 2)
    (h : Good par F G x1 ε ftol gtol L fmin s) :
    Good par F G x1 ε ftol gtol L fmin (turn par F G s) ∧ s.opt.iterations ≤ (turn par F G s).opt.iterations := by
  rcases h with h | h | h | h
  · obtain ⟨a, b⟩ := first_step par F G x1 ε ftol gtol L hp s h
    exact ⟨Or.inr (Or.inl a), b.ge⟩
  · by_cases c : s.opt.task = .newX
    · obtain ⟨a, b⟩ := point_step par F G x1 ε ftol gtol L hp f0 (by linarith) (by linarith) s h c (ang h c)
      exact ⟨Or.inr (Or.inr (Or.inl a)), b.ge⟩
    · have : s.opt.task = .finalX := by
        rw [h.task] at c ⊢
        split_ifs at c ⊢ <;> simp_all
      rw [turn_stays par F G s (Or.inl this)]
      exact ⟨Or.inr (Or.inl h), le_refl _⟩
  · rcases search_step par F G x1 ε ftol gtol L hp fmin hs f0 f4 g1 s h with ⟨a, b, -⟩ | ⟨a, b⟩ | ⟨a, b⟩
    · exact ⟨Or.inr (Or.inr (Or.inl a)), b.ge⟩
    · exact ⟨Or.inr (Or.inl a), by omega⟩
    · exact ⟨Or.inr (Or.inr (Or.inr a)), b.ge⟩
  · rw [turn_stays par F G s (Or.inr h.task)]
    exact ⟨Or.inr (Or.inr (Or.inr h)), le_refl _⟩

end loop

/-- The session ends if the angle between the search directions and the gradients remains bounded. -/
theorem run_ends (par : Par ℝ (ι → ℝ)) (hp : Plain par) (F : (ι → ℝ) → ℝ) (G : (ι → ℝ) → ι → ℝ) (L fmin : ℝ) (hs : Smooth F G L fmin)
    (o : Opt ℝ (LineSearch.Csrch ℝ) (ι → ℝ)) (ftol gtol : ℝ) (tol : Tol o.ls ftol gtol) (f0 : 0 < ftol) (f4 : 4 * ftol ≤ gtol) (g1 : gtol < 1)
    (hpos : 0 < par.gatol ∨ 0 < par.grtol) (ε : ℝ) (hε : 0 < ε) (x1 g : ι → ℝ) (f : ℝ)
    (ang : ∀ k, Point par F G x1 ε ftol gtol L (run par F G (Sess.begin par o x1 f g) k) → (run par F G (Sess.begin par o x1 f g) k).opt.task = .newX →
      ε ^ 2 * (((run par F G (Sess.begin par o x1 f g) (k + 1)).opt.d ⬝ᵥ (run par F G (Sess.begin par o x1 f g) (k + 1)).opt.d) *
        (G (run par F G (Sess.begin par o x1 f g) k).x ⬝ᵥ G (run par F G (Sess.begin par o x1 f g) k).x)) ≤
      ((run par F G (Sess.begin par o x1 f g) (k + 1)).opt.d ⬝ᵥ G (run par F G (Sess.begin par o x1 f g) k).x) ^ 2) :
    (∀ k, (run par F G (Sess.begin par o x1 f g) k).opt.iterations * gain par G x1 ε ftol gtol L ≤ F x1 - fmin) ∧
    ∃ n, (∀ k, n ≤ k → run par F G (Sess.begin par o x1 f g) k = run par F G (Sess.begin par o x1 f g) n) ∧
      ((run par F G (Sess.begin par o x1 f g) n).opt.task = .finalX ∧
        gnormAt G (run par F G (Sess.begin par o x1 f g) n).x ≤ threshold par G x1 ∧
        (run par F G (Sess.begin par o x1 f g) n).f = F (run par F G (Sess.begin par o x1 f g) n).x ∧
        (run par F G (Sess.begin par o x1 f g) n).f ≤ F x1 ∨
       (run par F G (Sess.begin par o x1 f g) n).opt.task = .error ∧
        ((run par F G (Sess.begin par o x1 f g) n).opt.status = .ls .stepEqStpmin ∨ (run par F G (Sess.begin par o x1 f g) n).opt.status = .ls .stepEqStpmax ∨
         (run par F G (Sess.begin par o x1 f g) n).opt.status = .ls .xtolTestSatisfied)) := by
  generalize hr : run par F G (Sess.begin par o x1 f g) = r at *
  have r0 : r 0 = Sess.begin par o x1 f g := by rw [← hr]; rfl
  have rs : ∀ k, r (k + 1) = turn par F G (r k) := fun k => by rw [← hr]; rfl
  have hF : First x1 ftol gtol (r 0) := by
    rw [r0]
    unfold Sess.begin start
    rw [hp.box]
    exact ⟨rfl, rfl, rfl, rfl, tol⟩
  have ang' : ∀ k, Point par F G x1 ε ftol gtol L (r k) → (r k).opt.task = .newX → ε ^ 2 * (((turn par F G (r k)).opt.d ⬝ᵥ (turn par F G (r k)).opt.d) * (G (r k).x ⬝ᵥ G (r k).x)) ≤ ((turn par F G (r k)).opt.d ⬝ᵥ G (r k).x) ^ 2 :=
    fun k => by rw [← rs]; exact ang k
  have good : ∀ k, Good par F G x1 ε ftol gtol L fmin (r k) := by
    intro k
    induction k with
    | zero => exact Or.inl hF
    | succ k ih => rw [rs]; exact (good_step par F G x1 ε ftol gtol L hp fmin hs f0.le f4 g1 (r k) (ang' k) ih).1
  refine ⟨fun k => good_low par F G x1 ε ftol gtol L fmin hs (r k) (good k), ?_⟩
  have itn : ∀ k, 0 ≤ (r k).opt.iterations := by
    intro k
    induction k with
    | zero => exact hF.it.ge
    | succ k ih => rw [rs]; exact ih.trans (good_step par F G x1 ε ftol gtol L hp fmin hs f0.le f4 g1 (r k) (ang' k) (good k)).2
  have stay : ∀ n, ((r n).opt.task = .finalX ∨ (r n).opt.task = .error) → ∀ k, n ≤ k → r k = r n := by
    intro n hn k hk
    induction k, hk using Nat.le_induction with
    | base => rfl
    | succ k hk ih => rw [rs, ih, turn_stays par F G _ hn]
  have final : ∀ n, ((r n).opt.task = .finalX ∨ (r n).opt.task = .error) → ∃ n, (∀ k, n ≤ k → r k = r n) ∧
      ((r n).opt.task = .finalX ∧ gnormAt G (r n).x ≤ threshold par G x1 ∧ (r n).f = F (r n).x ∧ (r n).f ≤ F x1 ∨
       (r n).opt.task = .error ∧ ((r n).opt.status = .ls .stepEqStpmin ∨ (r n).opt.status = .ls .stepEqStpmax ∨ (r n).opt.status = .ls .xtolTestSatisfied)) := by
    intro n hn
    refine ⟨n, stay n hn, ?_⟩
    rcases good n with h | h | h | h
    · rw [h.task] at hn; rcases hn with q | q <;> cases q
    · have ht := h.task
      split_ifs at ht with c
      · left
        refine ⟨ht, c, h.f, ?_⟩
        have h5 := h.low
        rw [h.f]
        have h6 := mul_nonneg (Int.cast_nonneg (R := ℝ) (itn n)) (gain_nonneg par G x1 ε ftol gtol L f0.le g1 hs.pos)
        linarith
      · rw [ht] at hn; rcases hn with q | q <;> cases q
    · rw [h.task] at hn; rcases hn with q | q <;> cases q
    · exact Or.inr ⟨h.task, h.status⟩
  -- the threshold is positive, or the first gradient is zero
  by_cases hth : threshold par G x1 = 0
  · have e1 : gnormAt G x1 = 0 := by
      have h1 : par.gatol ≤ 0 := ((le_max_right 0 par.gatol).trans (le_max_left _ _)).trans hth.le
      have h2 : par.grtol * gnormAt G x1 ≤ 0 := (le_max_right _ _).trans hth.le
      have h3 : 0 < par.grtol := hpos.resolve_left (not_lt.mpr h1)
      have h4 : 0 ≤ gnormAt G x1 := Real.sqrt_nonneg _
      nlinarith
    apply final 1
    left
    have h1 := first_step par F G x1 ε ftol gtol L hp (r 0) hF
    have e2 := first_x par F G x1 ftol gtol (r 0) hF
    rw [rs 0, h1.1.task, e2, if_pos (by rw [e1, hth])]
  have hth' : 0 < threshold par G x1 := lt_of_le_of_ne (threshold_nonneg par G x1) (Ne.symm hth)
  have hc : 0 < gain par G x1 ε ftol gtol L :=
    mul_pos (div_pos (mul_pos (mul_pos f0 (by linarith)) (pow_pos hε 2)) hs.pos) (pow_pos hth' 2)
  by_contra hno
  have live : ∀ n, ¬ ((r n).opt.task = .finalX ∨ (r n).opt.task = .error) := fun n hn => hno (final n hn)
  have mono1 : ∀ k, (r k).opt.iterations ≤ (r (k + 1)).opt.iterations := fun k => by
    rw [rs]; exact (good_step par F G x1 ε ftol gtol L hp fmin hs f0.le f4 g1 (r k) (ang' k) (good k)).2
  have mono : Monotone fun k => (r k).opt.iterations := monotone_nat_of_le_succ mono1
  obtain ⟨ub, ⟨K, hK⟩, hub⟩ := Int.exists_greatest_of_bdd (P := fun z => ∃ k, (r k).opt.iterations = z)
    ⟨⌈(F x1 - fmin) / gain par G x1 ε ftol gtol L⌉, by
      rintro z ⟨k, rfl⟩
      have := good_low par F G x1 ε ftol gtol L fmin hs (r k) (good k)
      rw [← le_div_iff₀ hc] at this
      exact_mod_cast this.trans (Int.le_ceil _)⟩ ⟨_, 0, rfl⟩
  have const : ∀ k, K ≤ k → (r k).opt.iterations = ub := fun k hk => le_antisymm (hub _ ⟨k, rfl⟩) (hK ▸ mono hk)
  have step : ∀ k, K ≤ k → Search par F G x1 ε ftol gtol L (r k) → Search par F G x1 ε ftol gtol L (r (k + 1)) ∧
      LineSearch.Same (r k).opt.ls (r (k + 1)).opt.ls ∧ LineSearch.Move (r k).opt.ls (r (k + 1)).opt.ls := by
    intro k hk h
    rcases search_step par F G x1 ε ftol gtol L hp fmin hs f0.le f4 g1 (r k) h with ⟨a, -, b, c⟩ | ⟨a, b⟩ | ⟨a, -⟩
    · rw [rs]; exact ⟨a, b, c⟩
    · rw [← rs, const k hk, const (k + 1) (by omega)] at b; omega
    · rw [← rs] at a; exact absurd (Or.inr a.task) (live (k + 1))
  have sp : ∀ k, Point par F G x1 ε ftol gtol L (r k) → Search par F G x1 ε ftol gtol L (r (k + 1)) := by
    intro k h
    have ht : (r k).opt.task = .newX := by
      have := h.task
      split_ifs at this with c
      · exact absurd (Or.inl this) (live k)
      · exact this
    rw [rs]
    exact (point_step par F G x1 ε ftol gtol L hp f0.le (by linarith) (by linarith) (r k) h ht (ang' k h ht)).1
  have ex : ∃ k, K ≤ k ∧ Search par F G x1 ε ftol gtol L (r k) := by
    rcases good K with h | h | h | h
    · have := (first_step par F G x1 ε ftol gtol L hp (r K) h).1
      rw [← rs] at this
      exact ⟨K + 1 + 1, by omega, sp (K + 1) this⟩
    · exact ⟨K + 1, by omega, sp K h⟩
    · exact ⟨K, le_refl _, h⟩
    · exact absurd (Or.inr h.task) (live K)
  obtain ⟨k0, hk0, h0⟩ := ex
  have all : ∀ j, Search par F G x1 ε ftol gtol L (r (k0 + j)) := by
    intro j
    induction j with
    | zero => exact h0
    | succ j ih => exact (step (k0 + j) (by omega) ih).1
  exact LineSearch.no_infinite_search (fun j => (r (k0 + j)).opt.ls) (fun j => (all j).inv)
    (fun j => (step (k0 + j) (by omega) (all j)).2.2) (fun j => (step (k0 + j) (by omega) (all j)).2.1) (all 0).lo (all 0).tol.xtol

/-- The angle is bounded if `epsilon` is positive. -/
theorem angle_eps (par : Par ℝ (ι → ℝ)) (hp : Plain par) (F : (ι → ℝ) → ℝ) (G : (ι → ℝ) → ι → ℝ) (x1 : ι → ℝ) (ftol gtol L : ℝ) (f0 : 0 ≤ ftol) (f1 : ftol < 1) (f4 : ftol ≤ gtol)
    (e0 : 0 < par.epsilon) (e1 : par.epsilon < 1) (s : St ι) (h : Point par F G x1 par.epsilon ftol gtol L s) (ht : s.opt.task = .newX) :
    par.epsilon ^ 2 * (((turn par F G s).opt.d ⬝ᵥ (turn par F G s).opt.d) * (G s.x ⬝ᵥ G s.x)) ≤ ((turn par F G s).opt.d ⬝ᵥ G s.x) ^ 2 := by
  have hgt : threshold par G x1 < gnormAt G s.x := by
    have := h.task
    rw [ht] at this
    by_contra q
    rw [if_pos (not_lt.mp q)] at this
    cases this
  have hg0 := (threshold_nonneg par G x1).trans_lt hgt
  obtain ⟨r, e, -, -, -, -, -, -, -, -, -, -, -, hch⟩ := newX_search par hp s.opt ht s.x s.g s.f (by rw [h.gnorm]; exact hg0)
    (by rw [h.gnorm, h.g]; rfl) ftol gtol h.tol f0 f1 f4
  have e' : turn par F G s = ⟨success r .computeFG, s.x - r.stp • r.d, s.f, s.g⟩ := by
    unfold turn Sess.next
    rw [ht]
    dsimp only
    rw [e]
  rw [e']
  show par.epsilon ^ 2 * ((r.d ⬝ᵥ r.d) * (G s.x ⬝ᵥ G s.x)) ≤ (r.d ⬝ᵥ G s.x) ^ 2
  rw [← h.g]
  rcases hch with ⟨-, c, -⟩ | ⟨-, c, -⟩
  · unfold Rejected at c
    rw [hp.vs] at c
    push Not at c
    have c' := c.2 e0
    simp only [exactVs, neg_neg] at c'
    rw [h.gnorm] at c'
    unfold gnormAt at c'
    rw [← h.g] at c'
    have e3 : par.epsilon ^ 2 * ((r.d ⬝ᵥ r.d) * (s.g ⬝ᵥ s.g)) = (par.epsilon * Real.sqrt (r.d ⬝ᵥ r.d) * Real.sqrt (s.g ⬝ᵥ s.g)) ^ 2 := by
      rw [mul_pow, mul_pow, Real.sq_sqrt (dot_nonneg _), Real.sq_sqrt (dot_nonneg _)]
      ring
    rw [e3]
    exact pow_le_pow_left₀ (mul_nonneg (mul_nonneg e0.le (Real.sqrt_nonneg _)) (Real.sqrt_nonneg _)) c' 2
  · rw [hp.method] at c
    dsimp only at c
    rw [c]
    have := dot_nonneg s.g
    have h2 : par.epsilon ^ 2 ≤ 1 := pow_le_one₀ e0.le e1.le
    nlinarith [mul_nonneg this this]

/-- An optimizer which is created without bounds. -/
theorem plain_new (finite : ℝ → Bool) (opts : Options ℝ) (size : Int) (same : Bool) (ls : LineSearch.Ls ℝ (LineSearch.Csrch ℝ))
    (raw opt : Opt ℝ (LineSearch.Csrch ℝ) (ι → ℝ)) (par : Par ℝ (ι → ℝ)) (hnew : new finite exactVs opts size none same ls raw = some (par, opt))
    (hlo : 0 < opts.stpmin) (hmid : opts.stpmin ≤ 1 ∧ 1 ≤ opts.stpmax) :
    Plain par ∧ par.gatol = opts.gatol ∧ par.grtol = opts.grtol ∧ par.epsilon = opts.epsilon ∧ opt.ls = ls ∧ 0 ≤ opts.epsilon ∧ opts.epsilon < 1 := by
  obtain ⟨hm, h1, h2, h3, -, h5, h6, h7, h8, h9, h10, -, h12⟩ := new_method finite exactVs opts size none same ls raw par opt hnew
  unfold checkOptions at h12
  simp only [Bool.not_eq_true', decide_eq_false_iff_not, not_or, not_lt, not_le, ge_iff_le] at h12
  obtain ⟨-, -, -, -, -, c1, -, c2, c3, -⟩ := h12
  exact ⟨⟨h5, h1, hm.2 h1, by rw [h7]; exact hlo, by rw [h7, h8]; exact hmid, by rw [h9]; exact c1⟩, h2, h3, h6, h10, c2, c3⟩

/-- **C87.** Exact arithmetic, no bounds, Moré and Thuente line search.  Let the function be bounded below and its gradient be Lipschitz
continuous.  If `epsilon` is positive, and if `gatol` or `grtol` is positive, then the session ends: after a finite number of calls
either the optimizer tells that the gradient is small enough, which is then true, or the line search has failed for one of the three documented reasons.
There are at most `(F x1 - fmin) / gain` iterations. -/
theorem vmlmb_ends (finite : ℝ → Bool) (opts : Options ℝ) (size : Int) (same : Bool) (ls : LineSearch.Ls ℝ (LineSearch.Csrch ℝ))
    (raw opt : Opt ℝ (LineSearch.Csrch ℝ) (ι → ℝ)) (par : Par ℝ (ι → ℝ)) (hnew : new finite exactVs opts size none same ls raw = some (par, opt))
    (F : (ι → ℝ) → ℝ) (G : (ι → ℝ) → ι → ℝ) (L fmin : ℝ) (hs : Smooth F G L fmin)
    (f0 : 0 < ls.m.ftol) (f4 : 4 * ls.m.ftol ≤ ls.m.gtol) (g1 : ls.m.gtol < 1) (hx : 0 < ls.m.xtol)
    (hlo : 0 < opts.stpmin) (hmid : opts.stpmin ≤ 1 ∧ 1 ≤ opts.stpmax) (hpos : 0 < opts.gatol ∨ 0 < opts.grtol) (he : 0 < opts.epsilon)
    (x1 g : ι → ℝ) (f : ℝ) :
    let r := run par F G (Sess.begin par opt x1 f g)
    let tol := max (max 0 opts.gatol) (opts.grtol * Real.sqrt (G x1 ⬝ᵥ G x1))
    (∀ k, (r k).opt.iterations * (ls.m.ftol * (1 - ls.m.gtol) * opts.epsilon ^ 2 / L * tol ^ 2) ≤ F x1 - fmin) ∧
    ∃ n, (∀ k, n ≤ k → r k = r n) ∧
      ((r n).opt.task = .finalX ∧ Real.sqrt (G (r n).x ⬝ᵥ G (r n).x) ≤ tol ∧ (r n).f = F (r n).x ∧ (r n).f ≤ F x1 ∨
       (r n).opt.task = .error ∧ ((r n).opt.status = .ls .stepEqStpmin ∨ (r n).opt.status = .ls .stepEqStpmax ∨
         (r n).opt.status = .ls .xtolTestSatisfied)) := by
  obtain ⟨hp, e1, e2, e3, e4, e5, e6⟩ := plain_new finite opts size same ls raw opt par hnew hlo hmid
  intro r tol
  have key := run_ends par hp F G L fmin hs opt ls.m.ftol ls.m.gtol (by rw [e4]; exact ⟨rfl, rfl, hx⟩) f0 f4 g1 (by rw [e1, e2]; exact hpos)
    par.epsilon (by rw [e3]; exact he) x1 g f (fun k hk ht => angle_eps par hp F G x1 _ _ L f0.le (by linarith) (by linarith) (by rw [e3]; exact he)
      (by rw [e3]; exact e6) _ hk ht)
  have et : threshold par G x1 = tol := by
    unfold threshold
    rw [e1, e2]
    rfl
  unfold gain at key
  rw [et, e3] at key
  exact key

/-- Options for the examples. -/
noncomputable def demoOptions (ε : ℝ) : Options ℝ :=
  { gatol := 0, grtol := 1 / 1000000, delta := 1 / 100, epsilon := ε, stpmin := 1 / 100000, stpmax := 100000, mem := 5, blmvm := false, saveMemory := true }

/-- A line search for the examples. -/
noncomputable def demoSearch (m : LineSearch.Csrch ℝ) : LineSearch.Ls ℝ (LineSearch.Csrch ℝ) :=
  ⟨0, 0, 0, 0, 0, .notStarted, .error, { m with ftol := 1 / 10000, gtol := 9 / 10, xtol := 1 / 100000 }⟩

/-- The hypotheses hold for a quadratic function of one variable, with the default parameters of the line search; there is at least one
iteration. -/
example (raw : Opt ℝ (LineSearch.Csrch ℝ) (Fin 1 → ℝ)) (m : LineSearch.Csrch ℝ) : ∃ par opt,
    new (fun _ => true) exactVs (demoOptions (1 / 100)) 1 none true (demoSearch m) raw = some (par, opt) ∧
    Smooth (fun x : Fin 1 → ℝ => x ⬝ᵥ x / 2) (fun x => x) 1 0 ∧
    (run par (fun x : Fin 1 → ℝ => x ⬝ᵥ x / 2) (fun x => x) (Sess.begin par opt (fun _ => 1) 0 0) 1).opt.task = .newX ∧
    ∃ n, (run par (fun x : Fin 1 → ℝ => x ⬝ᵥ x / 2) (fun x => x) (Sess.begin par opt (fun _ => 1) 0 0) n).opt.task = .finalX ∨
      (run par (fun x : Fin 1 → ℝ => x ⬝ᵥ x / 2) (fun x => x) (Sess.begin par opt (fun _ => 1) 0 0) n).opt.task = .error := by
  have hsm : Smooth (fun x : Fin 1 → ℝ => x ⬝ᵥ x / 2) (fun x => x) 1 0 :=
    ⟨one_pos, fun x y => by rw [one_pow, one_mul], fun x => div_nonneg (dot_nonneg x) (by norm_num)⟩
  have hn : ∃ q, new (fun _ => true) exactVs (demoOptions (1 / 100)) 1 none true (demoSearch m) raw = some q := by
    unfold new checkOptions demoOptions
    norm_num
  obtain ⟨⟨par, opt⟩, hn⟩ := hn
  obtain ⟨hp, e1, e2, e3, e4, -⟩ := plain_new _ _ _ _ _ _ _ _ hn (by unfold demoOptions; norm_num) (by unfold demoOptions; norm_num)
  refine ⟨par, opt, hn, hsm, ?_, ?_⟩
  · have hF : First (fun _ => 1) (1 / 10000) (9 / 10) (Sess.begin par opt (fun _ : Fin 1 => (1 : ℝ)) 0 0) := by
      unfold Sess.begin start
      rw [hp.box]
      exact ⟨rfl, rfl, rfl, rfl, (show Tol opt.ls _ _ by rw [e4]; exact ⟨rfl, rfl, by unfold demoSearch; norm_num⟩)⟩
    have h1 := (first_step par (fun x : Fin 1 → ℝ => x ⬝ᵥ x / 2) (fun x => x) (fun _ => 1) 1 _ _ 1 hp _ hF).1
    have ht := h1.task
    rw [first_x _ _ _ _ _ _ _ hF] at ht
    have hg : gnormAt (fun x : Fin 1 → ℝ => x) (fun _ => 1) = 1 := by
      unfold gnormAt
      simp [dotProduct]
    rw [if_neg (by unfold threshold; rw [hg, e1, e2]; unfold demoOptions; norm_num)] at ht
    exact ht
  · obtain ⟨-, n, -, h⟩ := vmlmb_ends _ _ _ _ _ _ _ _ hn _ _ 1 0 hsm (by unfold demoSearch; norm_num) (by unfold demoSearch; norm_num) (by unfold demoSearch; norm_num)
      (by unfold demoSearch; norm_num) (by unfold demoOptions; norm_num) (by unfold demoOptions; norm_num) (Or.inr (by unfold demoOptions; norm_num)) (by unfold demoOptions; norm_num) (fun _ => 1) 0 0
    exact ⟨n, h.imp (·.1) (·.1)⟩

end Opk.Vmlmb
