import Verif.LineSearch.Sure
import Verif.Vmlmb.Decrease
import Verif.Nlcg.History
/-! # Both optimizers are monotone with the line search of Moré and Thuente and real numbers

With real numbers and `4 ftol ≤ gtol` the search never warns of rounding errors (`LineSearch.csrch_calls_sure`), hence every step that is accepted
satisfies the conditions of Wolfe. -/
namespace Opk.Vmlmb
open Opk.Optim
variable {V : Type}

/-- **C27 (VMLMB, the line search of Moré and Thuente, real numbers).** With `4 ftol ≤ gtol`, as for the default parameters of the line search, for any
history, with or without bounds: when, during a line search, the caller gives the function value `f` and is then told of a new iterate, this value
satisfies the sufficient decrease condition with respect to the value `fb` at the previous iterate, and the derivative the curvature condition.  There is no
exception. -/
theorem csrch_decrease_real (finite : ℝ → Bool) (vs : Vs ℝ V) (opts : Options ℝ) (size : Int) (box : Option (Cs ℝ V))
    (same : Bool) (lraw : LineSearch.Ls ℝ (LineSearch.Csrch ℝ)) (ftol gtol xtol : ℝ) (ls0 : LineSearch.Ls ℝ (LineSearch.Csrch ℝ))
    (hls : LineSearch.newCsrch lraw ftol gtol xtol = some ls0) (h1 : ftol < 1) (h4 : 4 * ftol ≤ gtol)
    (raw : Opt ℝ (LineSearch.Csrch ℝ) V) (par : Par ℝ V) (opt : Opt ℝ (LineSearch.Csrch ℝ) V)
    (hnew : new finite vs opts size box same ls0 raw = some (par, opt))
    (hist : List (Call ℝ V)) (x : V) (f : ℝ) (g : V) :
    let r := calls par LineSearch.csrchOps opt hist
    let r' := (iterate par LineSearch.csrchOps r x f g).1
    0 < r.evaluations → r'.task = .newX ∨ r'.task = .finalX →
    ∃ fb gb : ℝ, baseF par LineSearch.csrchOps opt none hist = some fb ∧ gb = r.ls.ginit ∧ gb < 0 ∧ 0 < r.stp ∧
      f ≤ fb + r.stp * (ftol * gb) ∧ |slope vs box.isSome r.x0 r.d r.stp x g| ≤ -gtol * gb := by
  intro r r' he hn
  refine csrch_decrease finite vs opts size box same lraw ftol gtol xtol ls0 hls raw par opt hnew hist x f g he hn ?_
  obtain ⟨lh, dtg, a, -, -, -, -, -, -, h7, -, -⟩ := accepted_step finite vs opts size box same ls0 raw par
    opt hnew _ LineSearch.csrch_method hist x f g he hn
  rw [show (iterate par LineSearch.csrchOps (calls par LineSearch.csrchOps opt hist) x f g).1.ls = _ from h7]
  exact LineSearch.csrch_calls_sure lraw ftol gtol xtol ls0 hls h1 h4 _

/-- The objective strictly decreases between the iterates of VMLMB. -/
theorem csrch_strict_decrease (finite : ℝ → Bool) (vs : Vs ℝ V) (opts : Options ℝ) (size : Int) (box : Option (Cs ℝ V))
    (same : Bool) (lraw : LineSearch.Ls ℝ (LineSearch.Csrch ℝ)) (ftol gtol xtol : ℝ) (ls0 : LineSearch.Ls ℝ (LineSearch.Csrch ℝ))
    (hls : LineSearch.newCsrch lraw ftol gtol xtol = some ls0) (h0 : 0 < ftol) (h1 : ftol < 1) (h4 : 4 * ftol ≤ gtol)
    (raw : Opt ℝ (LineSearch.Csrch ℝ) V) (par : Par ℝ V) (opt : Opt ℝ (LineSearch.Csrch ℝ) V)
    (hnew : new finite vs opts size box same ls0 raw = some (par, opt))
    (hist : List (Call ℝ V)) (x : V) (f : ℝ) (g : V) :
    let r := calls par LineSearch.csrchOps opt hist
    let r' := (iterate par LineSearch.csrchOps r x f g).1
    0 < r.evaluations → r'.task = .newX ∨ r'.task = .finalX →
    ∃ fb, baseF par LineSearch.csrchOps opt none hist = some fb ∧ f < fb := by
  intro r r' he hn
  obtain ⟨fb, gb, k1, -, k2, k3, k4, -⟩ := csrch_decrease_real finite vs opts size box same lraw ftol gtol xtol ls0 hls h1 h4 raw par opt
    hnew hist x f g he hn
  refine ⟨fb, k1, ?_⟩
  have : r.stp * (ftol * gb) < 0 := mul_neg_of_pos_of_neg k3 (mul_neg_of_pos_of_neg h0 k2)
  linarith

/-! ## An example with real numbers -/

section demo

/-- Vectors of one element. -/
noncomputable def lineVs : Vs ℝ ℝ where
  axpby a x b y := a * x + b * y
  axpbypcz a x b y c z := a * x + b * y + c * z
  scale a x := a * x
  product x y := x * y
  dot x y := x * y
  dot3 w x y := w * x * y
  norm2 x := |x|

noncomputable def lineSearch : LineSearch.Ls ℝ (LineSearch.Csrch ℝ) :=
  ⟨0, 0, 0, 0, 0, .notStarted, .error, ⟨1/10000, 9/10, 1/10, 0, ⟨0, 0, 0, 0, 0, 0, false⟩, 0, 0, 0, 0, 0⟩⟩


theorem lineStart : LineSearch.start LineSearch.csrchOps lineSearch 1 (-1) 2 0 2000000 =
    LineSearch.csrchStart { lineSearch with stp := 2, stpmin := 0, stpmax := 2000000, finit := 1, ginit := -1 } := by
  unfold LineSearch.start
  rw [if_neg (by norm_num), if_neg (by norm_num), if_neg (by norm_num), if_neg (by norm_num), if_neg (by norm_num)]
  rfl

theorem lineStart_task : (LineSearch.start LineSearch.csrchOps lineSearch 1 (-1) 2 0 2000000).task = .search := by
  rw [lineStart]
  rfl

/-- The first step is accepted. -/
theorem lineSearch_converges :
    (LineSearch.iterate LineSearch.csrchOps (LineSearch.start LineSearch.csrchOps lineSearch 1 (-1) 2 0 2000000) 2 0 (-(1 * (1/4)))).1.task = .convergence := by
  have e := LineSearch.iterate_eq LineSearch.csrchOps (LineSearch.start LineSearch.csrchOps lineSearch 1 (-1) 2 0 2000000) 0 (-(1 * (1/4))) lineStart_task
  rw [lineStart] at *
  generalize hs : LineSearch.csrchStart { lineSearch with stp := 2, stpmin := 0, stpmax := 2000000, finit := 1, ginit := -1 } = s at *
  have e1 : s.stp = 2 := by rw [← hs]; rfl
  have e2 : LineSearch.csrchOps.iterate s 2 0 (-(1 * (1/4))) = (LineSearch.succeed s .convergence, 2) := by
    refine if_pos ?_
    rw [← hs]
    show (0 : ℝ) ≤ 1 + 2 * (1/10000 * (-1)) ∧ |(-(1 * (1/4)) : ℝ)| ≤ -(9/10) * (-1)
    norm_num [abs_le]
  rw [e1, e2] at e
  rw [e]
  unfold LineSearch.finish
  rw [if_neg, if_neg]
  · rfl
  · rw [← hs]; show ¬ (2 : ℝ) ≥ 2000000; norm_num
  · rw [← hs]; show ¬ (2 : ℝ) ≤ 0; norm_num

noncomputable def lineRaw : Opt ℝ (LineSearch.Csrch ℝ) ℝ :=
  { ginit := 0, f0 := 0, gnorm := 0, stp := 0, bsmin := 0, ls := lineSearch, x0ref := none, x0own := 0, g0ref := none, g0own := 0, d := 0, w := 0, gp := 0, evaluations := 0, iterations := 0, restarts := 0, status := .success, task := .start, gamma := 1, s := fun _ => 0, y := fun _ => 0, alpha := fun _ => 0, rho := fun _ => 0, mp := 0, updates := 0 }
noncomputable def lineOptions : Options ℝ := ⟨1/10, 0, 1/10, 0, 0, 1000000, 2, false, false⟩
noncomputable def linePar : Par ℝ ℝ :=
  { vs := lineVs, box := none, method := .lbfgs, delta := 1/10, epsilon := 0, grtol := 1/10, gatol := 0, stpmin := 0, stpmax := 1000000, saveMemory := false, m := 2 }
/-- At the first point. -/
noncomputable def lineOpt1 : Opt ℝ (LineSearch.Csrch ℝ) ℝ := { lineRaw with gnorm := 1, ginit := 1, evaluations := 1, task := .newX }
/-- When the first line search has been started. -/
noncomputable def lineOpt2 : Opt ℝ (LineSearch.Csrch ℝ) ℝ :=
  { lineOpt1 with f0 := 1, stp := 2, d := 1, x0own := 1, g0own := 1, ls := LineSearch.start LineSearch.csrchOps lineSearch 1 (-1) 2 0 2000000, task := .computeFG }

theorem line1 : iterate linePar LineSearch.csrchOps (start linePar (failure lineRaw .notStarted) 1).1 1 1 1 = (lineOpt1, 1) := by
  have h : ¬ (1 : ℝ) ≤ max3 0 0 (1/10 * 1) := by unfold max3 cmax; norm_num
  simp only [iterate, start, success, onFG, accept, lineRaw, lineOpt1, linePar, lineVs, failure, abs_one]
  rw [if_neg (by decide), if_pos (by decide), if_neg h]
  rfl

theorem line2 : iterate linePar LineSearch.csrchOps lineOpt1 1 1 1 = (lineOpt2, -1) := by
  have hs : steepestStep linePar { lineOpt1 with d := 1 } 1 1 (-1) = 2 := by
    unfold steepestStep
    rw [if_pos (by simp)]
    show ((2 : ℕ) : ℝ) / ((1 : ℕ) : ℝ) * |1 / (-1)| = 2
    norm_num
  have e : onNewX linePar LineSearch.csrchOps lineOpt1 1 1 1 = .brk { lineOpt2 with task := .newX } := by
    have e1 : direction linePar lineOpt1 1 1 = .ok ({ lineOpt1 with d := 1 }, 0) := rfl
    have e2 : initialStep linePar { lineOpt1 with d := 1 } 1 1 1 0 = ({ lineOpt1 with d := 1, stp := 2 }, -1) := by
      unfold initialStep
      rw [if_neg (lt_irrefl _), if_neg (by decide)]
      dsimp only [linePar]
      rw [show -lineOpt1.gnorm * lineOpt1.gnorm = -1 by unfold lineOpt1; norm_num]
      exact Prod.ext (congrArg (fun t => { lineOpt1 with d := 1, stp := t }) hs) rfl
    unfold onNewX
    rw [e1]
    dsimp only
    rw [e2]
    have e3 : LineSearch.start LineSearch.csrchOps lineOpt1.ls 1 (-1) 2 (2 * linePar.stpmin) (2 * linePar.stpmax) =
        LineSearch.start LineSearch.csrchOps lineSearch 1 (-1) 2 0 2000000 := by
      unfold linePar lineOpt1 lineRaw
      norm_num
    refine (if_neg ?_).trans ?_
    · show ¬ (LineSearch.start LineSearch.csrchOps lineOpt1.ls 1 (-1) 2 (2 * linePar.stpmin) (2 * linePar.stpmax)).task ≠ .search
      rw [e3, lineStart_task]
      decide
    · show Flow.brk { lineOpt2 with task := .newX, ls := LineSearch.start LineSearch.csrchOps lineOpt1.ls 1 (-1) 2 (2 * linePar.stpmin) (2 * linePar.stpmax) } = _
      rw [e3]
      rfl
  have e' : iterate linePar LineSearch.csrchOps lineOpt1 1 1 1 = trial linePar { lineOpt2 with task := .newX } := by
    unfold iterate
    rw [show lineOpt1.task = .newX from rfl]
    dsimp only
    rw [e]
  rw [e']
  simp only [trial, success, linePar, lineVs, lineOpt2, lineOpt1, lineRaw, Opt.x0]
  norm_num

/-- The hypotheses hold: from `x = 1`, `f = 1`, `g = 1` the first trial point is `-1` and it is accepted if `f = 0`, `g = 1/4`. -/
example : LineSearch.newCsrch lineSearch (1/10000) (9/10) (1/10) = some lineSearch ∧
    new (fun _ => true) lineVs lineOptions 2 none true lineSearch lineRaw = some (linePar, failure lineRaw .notStarted) ∧
    calls linePar LineSearch.csrchOps (failure lineRaw .notStarted) [.start 1, .iterate 1 1 1, .iterate 1 1 1] = lineOpt2 ∧ 0 < lineOpt2.evaluations ∧
    (iterate linePar LineSearch.csrchOps lineOpt2 (-1) 0 (1/4)).1.task = .newX := by
  refine ⟨?_, ?_, ?_, by decide, ?_⟩
  · unfold LineSearch.newCsrch
    norm_num
    rfl
  · unfold new
    rw [show checkOptions (fun _ => true) lineOptions = true by simp only [checkOptions, lineOptions]; norm_num]
    rfl
  · simp only [calls, step, line1, line2]
  · have hq := lineSearch_converges
    unfold iterate
    rw [show lineOpt2.task = .computeFG from rfl]
    dsimp only
    have e : onFG linePar LineSearch.csrchOps lineOpt2 (-1) 0 (1/4) = .ret (accept linePar { lineOpt2 with evaluations := 2, ls := (LineSearch.iterate LineSearch.csrchOps (LineSearch.start LineSearch.csrchOps lineSearch 1 (-1) 2 0 2000000) 2 0 (-(1 * (1/4)))).1, stp := (LineSearch.iterate LineSearch.csrchOps (LineSearch.start LineSearch.csrchOps lineSearch 1 (-1) 2 0 2000000) 2 0 (-(1 * (1/4)))).2, iterations := 1 } (-1) (1/4)) := by
      refine (if_neg ?_).trans ((if_neg ?_).trans rfl)
      · intro h
        cases hq.symm.trans h
      · exact fun h => h.1 hq
    rw [e]
    show (if |(1/4 : ℝ)| ≤ max3 0 0 (1/10 * 1) then Task.finalX else .newX) = .newX
    rw [if_neg]
    unfold max3 cmax
    norm_num

end demo
end Opk.Vmlmb

namespace Opk.Nlcg
open Opk.Optim
open Opk.Vmlmb (Call lineVs lineSearch lineStart_task lineSearch_converges)
variable {V : Type}

/-- **C27 (NLCG, the line search of Moré and Thuente, real numbers).** Same thing for the nonlinear conjugate gradients. -/
theorem csrch_decrease_real (finite : ℝ → Bool) (vs : Vs ℝ V) (opts : Options ℝ)
    (lraw : LineSearch.Ls ℝ (LineSearch.Csrch ℝ)) (ftol gtol xtol : ℝ) (ls0 : LineSearch.Ls ℝ (LineSearch.Csrch ℝ))
    (hls : LineSearch.newCsrch lraw ftol gtol xtol = some ls0) (h1 : ftol < 1) (h4 : 4 * ftol ≤ gtol) (raw : V)
    (par : Par ℝ V) (opt : Opt ℝ (LineSearch.Csrch ℝ) V) (hnew : new finite vs opts ls0 raw = some (par, opt))
    (hist : List (Call ℝ V)) (x : V) (f : ℝ) (g : V) (r r')
    (e1 : calls par LineSearch.csrchOps opt hist = some r)
    (e2 : iterate par LineSearch.csrchOps r x f g = some r')
    (he : 0 < r.evaluations) (hn : r'.1.task = .newX ∨ r'.1.task = .finalX) :
    ∃ xb fb, (past par LineSearch.csrchOps opt ⟨none, none⟩ hist).base = some (xb, fb) ∧ r.x0 = xb ∧
      r.ls.ginit = r.dtg0 ∧ r.ls.ginit < 0 ∧ 0 < r.alpha ∧ f ≤ fb + r.alpha * (ftol * r.ls.ginit) ∧
      |-vs.dot r.d g| ≤ -gtol * r.ls.ginit := by
  refine csrch_decrease finite vs opts lraw ftol gtol xtol ls0 hls raw par opt hnew hist x f g r r' e1 e2 he hn ?_
  obtain ⟨lh, a, -, -, -, -, -, -, l7, -⟩ := accepted_step finite vs opts ls0 raw par
    opt hnew _ LineSearch.csrch_method hist x f g r r' e1 e2 he hn
  rw [l7]
  exact LineSearch.csrch_calls_sure lraw ftol gtol xtol ls0 hls h1 h4 _

/-- The objective strictly decreases between the iterates of NLCG. -/
theorem csrch_strict_decrease (finite : ℝ → Bool) (vs : Vs ℝ V) (opts : Options ℝ)
    (lraw : LineSearch.Ls ℝ (LineSearch.Csrch ℝ)) (ftol gtol xtol : ℝ) (ls0 : LineSearch.Ls ℝ (LineSearch.Csrch ℝ))
    (hls : LineSearch.newCsrch lraw ftol gtol xtol = some ls0) (h0 : 0 < ftol) (h1 : ftol < 1) (h4 : 4 * ftol ≤ gtol) (raw : V)
    (par : Par ℝ V) (opt : Opt ℝ (LineSearch.Csrch ℝ) V) (hnew : new finite vs opts ls0 raw = some (par, opt))
    (hist : List (Call ℝ V)) (x : V) (f : ℝ) (g : V) (r r')
    (e1 : calls par LineSearch.csrchOps opt hist = some r)
    (e2 : iterate par LineSearch.csrchOps r x f g = some r')
    (he : 0 < r.evaluations) (hn : r'.1.task = .newX ∨ r'.1.task = .finalX) :
    ∃ xb fb, (past par LineSearch.csrchOps opt ⟨none, none⟩ hist).base = some (xb, fb) ∧ f < fb := by
  obtain ⟨xb, fb, k1, -, -, k2, k3, k4, -⟩ := csrch_decrease_real finite vs opts lraw ftol gtol xtol ls0 hls h1 h4 raw par opt
    hnew hist x f g r r' e1 e2 he hn
  refine ⟨xb, fb, k1, ?_⟩
  have : r.alpha * (ftol * r.ls.ginit) < 0 := mul_neg_of_pos_of_neg k3 (mul_neg_of_pos_of_neg h0 k2)
  linarith

section demo

noncomputable def lineOptions : Options ℝ := ⟨1/10, 0, 1/10, 0, 0, 1000000, 0, 3, false⟩
noncomputable def linePar : Par ℝ ℝ :=
  { vs := lineVs, rule := .polakRibierePolyak, flags := 3, delta := 1/10, epsilon := 0, grtol := 1/10, gatol := 0, stpmin := 0, stpmax := 1000000, fmin := 0, fminGiven := false, hagerZhangOrig := false }
noncomputable def lineOpt : Opt ℝ (LineSearch.Csrch ℝ) ℝ :=
  failure { f0 := 0, g0norm := 0, gnorm := 0, dtg0 := 0, dtg := 0, ginit := 0, alpha := 0, beta := 0, ls := lineSearch, x0 := 0, g0 := some 0, d := 0, y := some 0, iterations := 0, restarts := 0, evaluations := 0, status := .success, task := .error } .notStarted
/-- At the first point. -/
noncomputable def lineOpt1 : Opt ℝ (LineSearch.Csrch ℝ) ℝ :=
  { f0 := 0, g0norm := 0, gnorm := 1, dtg0 := 0, dtg := 0, ginit := 1, alpha := 0, beta := 0, ls := lineSearch, x0 := 0, g0 := some 0, d := 0, y := some 0, iterations := 0, restarts := 0, evaluations := 1, status := .success, task := .newX }
/-- When the first line search has been started. -/
noncomputable def lineOpt2 : Opt ℝ (LineSearch.Csrch ℝ) ℝ :=
  { f0 := 1, g0norm := 1, gnorm := 1, dtg0 := -1, dtg := -1, ginit := 1, alpha := 2, beta := 0, ls := LineSearch.start LineSearch.csrchOps lineSearch 1 (-1) 2 0 2000000, x0 := 1, g0 := some 1, d := 1, y := some 0, iterations := 0, restarts := 0, evaluations := 1, status := .success, task := .computeFG }

theorem line1 : iterate linePar LineSearch.csrchOps (start lineOpt) 1 1 1 = some (lineOpt1, 1) := by
  have h : ¬ (1 : ℝ) ≤ max3 0 0 (1/10 * 1) := by unfold max3; norm_num
  simp only [iterate, start, success, onFG, accept, lineOpt, lineOpt1, linePar, lineVs, failure, finish, abs_one]
  rw [if_neg (by decide), if_pos (by decide), if_neg h]
  rfl

theorem line2 : iterate linePar LineSearch.csrchOps lineOpt1 1 1 1 = some (lineOpt2, -1) := by
  have hs : steepestStep linePar { lineOpt1 with d := 1, dtg := -1 } 1 1 = 2 := by
    unfold steepestStep linePar
    rw [if_neg (by simp), if_pos (by simp)]
    show ((2 : ℕ) : ℝ) / ((1 : ℕ) : ℝ) * |1 / (-1)| = 2
    norm_num
  have e : onNewX linePar LineSearch.csrchOps lineOpt1 1 1 1 = some (.brk { lineOpt2 with task := .newX }) := by
    have e1 : direction linePar lineOpt1 1 = some lineOpt1 := if_pos (by decide)
    have e2 : initialStep linePar lineOpt1 1 1 1 = { lineOpt1 with d := 1, dtg := -1, alpha := 2 } := by
      unfold initialStep
      rw [if_neg (show ¬ lineOpt1.dtg < 0 from lt_irrefl _), if_neg (by decide)]
      dsimp only
      rw [show -lineOpt1.gnorm * lineOpt1.gnorm = -1 by unfold lineOpt1; norm_num, hs]
      rfl
    unfold onNewX
    rw [e1]
    simp only [Option.map_some, e2]
    have e3 : LineSearch.start LineSearch.csrchOps lineOpt1.ls 1 (-1) 2 (linePar.stpmin * 2) (linePar.stpmax * 2) =
        LineSearch.start LineSearch.csrchOps lineSearch 1 (-1) 2 0 2000000 := by
      unfold linePar lineOpt1
      norm_num
    refine congrArg some ((if_neg ?_).trans ?_)
    · show ¬ (LineSearch.start LineSearch.csrchOps lineOpt1.ls 1 (-1) 2 (linePar.stpmin * 2) (linePar.stpmax * 2)).task ≠ .search
      rw [e3, lineStart_task]
      decide
    · show Flow.brk { lineOpt2 with task := .newX, ls := LineSearch.start LineSearch.csrchOps lineOpt1.ls 1 (-1) 2 (linePar.stpmin * 2) (linePar.stpmax * 2) } = _
      rw [e3]
      rfl
  have e' : iterate linePar LineSearch.csrchOps lineOpt1 1 1 1 = (onNewX linePar LineSearch.csrchOps lineOpt1 1 1 1).map (finish linePar 1) := rfl
  rw [e', e]
  simp only [Option.map_some, finish, trial, success, linePar, lineVs, lineOpt2]
  norm_num

/-- The hypotheses hold: from `x = 1`, `f = 1`, `g = 1` the first trial point is `-1` and it is accepted if `f = 0`, `g = 1/4`. -/
example : LineSearch.newCsrch lineSearch (1/10000) (9/10) (1/10) = some lineSearch ∧
    new (fun _ => true) lineVs lineOptions lineSearch 0 = some (linePar, lineOpt) ∧
    calls linePar LineSearch.csrchOps lineOpt [.start 1, .iterate 1 1 1, .iterate 1 1 1] = some lineOpt2 ∧ 0 < lineOpt2.evaluations ∧
    (iterate linePar LineSearch.csrchOps lineOpt2 (-1) 0 (1/4)).map (fun q => q.1.task) = some .newX := by
  refine ⟨?_, ?_, ?_, by decide, ?_⟩
  · unfold LineSearch.newCsrch
    norm_num
    rfl
  · unfold new
    rw [show checkOptions (fun _ => true) lineOptions = true by simp only [checkOptions, lineOptions]; norm_num]
    rfl
  · simp [calls, step, line1, line2]
  · have hd : ∀ q : LineSearch.Ls ℝ (LineSearch.Csrch ℝ) × ℝ, q.1.task = .convergence →
        (finish linePar (-1) (if q.1.task ≠ .convergence then
          if q.1.task = .search then .brk { lineOpt2 with evaluations := 2, dtg := -(1 * (1/4)), ls := q.1, alpha := q.2 }
          else if q.1.task ≠ .warning ∨ q.1.status ≠ .roundingErrorsPreventProgress then
            .ret (failure { lineOpt2 with evaluations := 2, dtg := -(1 * (1/4)), ls := q.1, alpha := q.2 } (.ls q.1.status))
          else .ret (accept linePar { lineOpt2 with evaluations := 2, dtg := -(1 * (1/4)), ls := q.1, alpha := q.2, iterations := 1 } (1/4))
          else .ret (accept linePar { lineOpt2 with evaluations := 2, dtg := -(1 * (1/4)), ls := q.1, alpha := q.2, iterations := 1 } (1/4)))).1.task = .newX := by
      intro q hq
      rw [if_neg (not_not.mpr hq)]
      show (if |(1/4 : ℝ)| ≤ max3 0 0 (1/10 * 1) then Task.finalX else .newX) = .newX
      rw [if_neg]
      unfold max3
      norm_num
    exact congrArg some (hd _ lineSearch_converges)

end demo
end Opk.Nlcg
