import Verif.Vmlmb.Demo
import Verif.LineSearch.Nonmono
/-!
# C57: an acceptable step which reaches the last bound

The property (an acceptable trial point becomes the new iterate) is false of the code when the step is equal to the limit
given to the line search, which is the step to the last bound when this step is shorter than `stp * stpmax`.
-/
set_option linter.unusedSectionVars false
set_option linter.unusedSimpArgs false
namespace Opk.Vmlmb
open Opk.Optim

variable {F M V : Type} [Add F] [Sub F] [Mul F] [Div F] [Neg F] [Zero F] [One F]
  [LinearOrder F] [CMath F]

/-- The line search `o` of the optimizer is satisfied by the value `f` and the derivative computed with the
gradient `g` at the trial point `x`. -/
def Satisfied (par : Par F V) (ops : LineSearch.Ops F M) (o : Opt F M V) (x : V) (f : F) (g : V) : Prop :=
  let dtg := derivative par ops { o with evaluations := o.evaluations + 1 } x g
  LineSearch.KeepsStep ops o.ls f dtg ∧ (ops.iterate o.ls o.ls.stp f dtg).1.task = .convergence

theorem onFG_ls (par : Par F V) (ops : LineSearch.Ops F M) (o : Opt F M V) (x : V) (f : F) (g : V)
    (ht : o.task = .computeFG) (hev : 0 < o.evaluations) (hs : o.ls.stp = o.stp) (l : LineSearch.Ls F M × F)
    (hl : LineSearch.iterate ops o.ls o.ls.stp f (derivative par ops { o with evaluations := o.evaluations + 1 } x g) = l)
    (hns : l.1.task ≠ .search) :
    (l.1.task = .convergence → (iterate par ops o x f g).2 = x ∧ (iterate par ops o x f g).1 =
      accept par { o with evaluations := o.evaluations + 1, ls := l.1, stp := l.2, iterations := o.iterations + 1 } x g) ∧
    (l.1.task = .warning → l.1.status ≠ .roundingErrorsPreventProgress → (iterate par ops o x f g).2 = x ∧
      (iterate par ops o x f g).1.task = .error ∧ (iterate par ops o x f g).1.status = .ls l.1.status) := by
  have hit : iterate par ops o x f g = (match onFG par ops o x f g with | .ret o => (o, x) | .brk o => trial par o) := by
    unfold iterate; rw [ht]; dsimp only; rcases onFG par ops o x f g with r | r <;> rfl
  rw [hit]
  unfold onFG
  dsimp only
  rw [if_pos (by omega : o.evaluations + 1 > 1)]
  rw [hs] at hl
  generalize derivative par ops { o with evaluations := o.evaluations + 1 } x g = dtg at *
  rw [hl]
  rw [if_neg hns]
  constructor
  · intro hc
    rw [if_neg (by rw [hc]; simp)]
    exact ⟨rfl, rfl⟩
  · intro hw hst
    rw [if_pos (by rw [hw]; simpa using hst)]
    exact ⟨rfl, rfl, rfl⟩

/-- **C57, the part which holds.**  At any time, if the line search is satisfied at the trial point with a step
strictly between the limits, the trial point is the new iterate: `OPK_TASK_NEW_X` or `OPK_TASK_FINAL_X` is returned
and the variables are not changed (unless the convex set reports an error). -/
theorem acceptable_step_partial (par : Par F V) (ops : LineSearch.Ops F M) (ok : LineSearch.Method ops)
    (o : Opt F M V) (x : V) (f : F) (g : V) (ht : o.task = .computeFG) (hev : 0 < o.evaluations)
    (hls : o.ls.task = .search) (hs : o.ls.stp = o.stp) (hsat : Satisfied par ops o x f g)
    (hb : o.ls.stpmin < o.stp ∧ o.stp < o.ls.stpmax) (hset : NoSetError par) :
    (iterate par ops o x f g).2 = x ∧
    ((iterate par ops o x f g).1.task = .newX ∨ (iterate par ops o x f g).1.task = .finalX) := by
  rw [← hs] at hb
  obtain ⟨h1, -⟩ := LineSearch.converged_is_reported_partial ops ok o.ls f _ hls hsat.1 hsat.2 hb
  obtain ⟨h2, h3⟩ := (onFG_ls par ops o x f g ht hev hs _ rfl (by rw [h1]; simp)).1 h1
  refine ⟨h2, ?_⟩
  rw [h3]
  unfold accept
  have hok : ∀ p : Opt F M V, ∀ c : Prop, [Decidable c] → (success p (if c then .finalX else .newX)).task = .newX ∨
      (success p (if c then .finalX else .newX)).task = .finalX := by
    intro p c _
    unfold success
    split_ifs
    · right; rfl
    · left; rfl
  rcases hbx : par.box with _ | box
  · exact hok _ _
  · obtain ⟨-, -, ⟨w, hw⟩, -⟩ := hset box hbx x g
    dsimp only
    rw [hw]
    exact hok _ _

/-- **C57 is false of the code (general).**  If the line search is satisfied at the trial point with a
step equal to one of its limits, `OPK_TASK_ERROR` is returned. -/
theorem step_at_limit_fails (par : Par F V) (ops : LineSearch.Ops F M) (ok : LineSearch.Method ops)
    (o : Opt F M V) (x : V) (f : F) (g : V) (ht : o.task = .computeFG) (hev : 0 < o.evaluations)
    (hls : o.ls.task = .search) (hs : o.ls.stp = o.stp) (hsat : Satisfied par ops o x f g)
    (hb : o.stp = o.ls.stpmin ∨ o.stp = o.ls.stpmax) :
    (iterate par ops o x f g).1.task = .error ∧
    ((iterate par ops o x f g).1.status = .ls .stepEqStpmin ∨ (iterate par ops o x f g).1.status = .ls .stepEqStpmax) := by
  rw [← hs] at hb
  obtain ⟨h1, h2⟩ := LineSearch.converged_at_bound_is_a_warning ops ok o.ls f _ hls hsat.1 hsat.2 hb
  obtain ⟨-, h3, h4⟩ := (onFG_ls par ops o x f g ht hev hs _ rfl (by rw [h1]; simp)).2 h1
    (by rcases h2 with h | h <;> rw [h] <;> simp)
  refine ⟨h3, ?_⟩
  rw [h4]
  rcases h2 with h | h <;> rw [h]
  · left; rfl
  · right; rfl

open Demo in
/-- **C57 is false of the code (witness).**  Minimization of `f (x) = x` for `x ≥ 0` (the bound is a box set of
`src/simple_vector.c`) from `x = 1` with a backtracking line search: the only trial point is the solution `x = 0`
and the sufficient decrease condition is satisfied, yet `OPK_TASK_ERROR` is returned. -/
theorem acceptable_step_refused :
    let box : Cs ℚ (Fin 1 → ℚ) := boxCs 1000000 (.scalar 0) .unset
    ∃ par opt, new (fun _ => true) exactVs (opts false false) 1 (some box) true bt (raw bt) = some (par, opt) ∧
      let s := Sess.acts par LineSearch.backtrackOps { opt := opt, x := 0, f := 0, g := 0 } [.start 1, .go 1 1, .go 1 1]
      let s' := s.act par LineSearch.backtrackOps (.go 0 1)
      s.opt.task = .computeFG ∧ s.x 0 = 0 ∧ s.opt.stp = 1 ∧ s.opt.d 0 = 1 ∧ s.opt.f0 = 1 ∧
      (0 : ℚ) ≤ 1 + 1/10000 * s.opt.stp * s.opt.ls.ginit ∧
      s'.opt.task = .error ∧ s'.opt.status = .ls .stepEqStpmax := by
  intro box
  refine ⟨{ vs := exactVs, box := some box, method := .vmlmb, delta := 1/10, epsilon := 0, grtol := 1/10, gatol := 0, stpmin := 0, stpmax := 1000000, saveMemory := false, m := 1 }, failure { raw bt with gamma := 1 } .notStarted, ?_, ?_⟩
  · unfold new
    rw [if_neg (by simp only [checkOptions, opts]; norm_num), if_neg (by simp [opts]), if_neg (by simp)]
    rfl
  · decide +kernel

end Opk.Vmlmb
