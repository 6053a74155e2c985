import Verif.Nlcg.Descent
import Verif.Vmlmb.Demo
/-!
# Examples for the theorems about the conjugate gradient optimizer

Small runs on rational numbers which meet the hypotheses of the theorems, and the witness for C31.
-/
namespace Opk.Nlcg.Demo
open Opk.Optim Matrix
open Opk.Vmlmb (exactVs Call)
open Opk.Vmlmb.Demo (bt mt oneVs quart quad)

/-- Options with given flags. -/
def opts (flags : Nat) : Options ℚ := ⟨1/10, 0, 1/10, 0, 0, 1000000, 0, flags, false⟩

variable {M V : Type}

def par (vs : Vs ℚ V) (rule : Rule) (flags : Nat) : Par ℚ V :=
  { vs := vs, rule := rule, flags := flags, delta := 1/10, epsilon := 0, grtol := 1/10, gatol := 0, stpmin := 0, stpmax := 1000000, fmin := 0, fminGiven := false, hagerZhangOrig := false }
def opt (ls : LineSearch.Ls ℚ M) (raw : V) (needed : Bool) : Opt ℚ M V :=
  failure { f0 := 0, g0norm := 0, gnorm := 0, dtg0 := 0, dtg := 0, ginit := 0, alpha := 0, beta := 0, ls := ls, x0 := raw, g0 := if needed then some raw else none, d := raw, y := if needed then some raw else none, iterations := 0, restarts := 0, evaluations := 0, status := .success, task := .error } .notStarted

/-- The optimizers above are created by the constructor. -/
theorem created (vs : Vs ℚ V) (flags : Nat) (h : flags ≠ 0) (rule : Rule) (needed : Bool) (hs : select flags = some (rule, needed))
    (ls : LineSearch.Ls ℚ M) (raw : V) :
    new (fun _ => true) vs (opts flags) ls raw = some (par vs rule flags, opt ls raw needed) := by
  unfold new
  rw [show checkOptions (fun _ => true) (opts flags) = true by simp only [checkOptions, opts]; norm_num]
  have hf : (opts flags).flags = flags := rfl
  simp only [Bool.not_true, Bool.false_eq_true, if_false, hf, if_neg h, hs]
  rfl

/-- A caller minimizing a function: the history of the calls. -/
def play (par : Par ℚ V) (ops : LineSearch.Ops ℚ M) (fg : V → ℚ × V) : Nat → Opt ℚ M V → V → List (Call ℚ V)
  | 0, _, _ => []
  | k + 1, o, x =>
    match iterate par ops o x (fg x).1 (fg x).2 with
    | none => []
    | some r => .iterate x (fg x).1 (fg x).2 :: play par ops fg k r.1 r.2

/-- The history of a run of `k` calls to `opk_iterate`. -/
def run (par : Par ℚ V) (ops : LineSearch.Ops ℚ M) (fg : V → ℚ × V) (k : Nat) (o : Opt ℚ M V) (x : V) : List (Call ℚ V) :=
  .start x :: play par ops fg k (start o) x

/-- `protocol`: a run with line searches up to convergence. -/
example :
    let p := par oneVs .polakRibierePolyak (3 ||| POWELL)
    let h := run p LineSearch.backtrackOps quart 5 (opt bt 0 true) 2
    log p LineSearch.backtrackOps (opt bt 0 true) h =
      [(true, .error, .computeFG), (false, .computeFG, .newX), (false, .newX, .computeFG), (false, .computeFG, .newX),
       (false, .newX, .computeFG), (false, .computeFG, .finalX)] ∧
    ((calls p LineSearch.backtrackOps (opt bt 0 true) h).map fun r => (r.evaluations, r.iterations, r.restarts)) = some (3, 2, 1) := by
  decide +kernel

/-- `convergence_test`: an evaluation is pending and the next one announces the convergence or not. -/
example :
    let p := par oneVs .daiYuan 6
    let h := run p LineSearch.backtrackOps quart 4 (opt bt 0 true) 2
    (calls p LineSearch.backtrackOps (opt bt 0 true) h).map (fun r => (r.task,
      (iterate p LineSearch.backtrackOps r 0 0 (4/5)).map (·.1.task),
      (iterate p LineSearch.backtrackOps r 0 0 1).map (·.1.task))) =
    some (.computeFG, some .finalX, some .newX) := by
  decide +kernel

/-- `backtrack_decrease`, `csrch_decrease`: an accepted step. -/
example :
    let p := par oneVs .daiYuan 6
    let h := run p LineSearch.backtrackOps quart 2 (opt bt 0 true) 2
    (calls p LineSearch.backtrackOps (opt bt 0 true) h).map (fun r => (r.task, r.evaluations,
      (iterate p LineSearch.backtrackOps r 1 (1/4) 1).map (fun q => (q.1.task, q.1.dtg0)))) =
    some (.computeFG, 1, some (.newX, -64)) := by
  decide +kernel

example :
    let p := par oneVs .daiYuan 6
    let h := run p LineSearch.csrchOps quart 2 (opt mt 0 true) 2
    (calls p LineSearch.csrchOps (opt mt 0 true) h).map (fun r => (r.task, r.evaluations,
      (iterate p LineSearch.csrchOps r 1 (1/4) 1).map (fun q => (q.1.task, q.1.ls.status, q.1.dtg)))) =
    some (.computeFG, 1, some (.newX, .success, -8)) := by
  decide +kernel

/-! ## Vectors of two elements -/

/-- Up to the second iterate. -/
def acts : List (Act ℚ (Fin 2 → ℚ)) := [.start ![3, 1], .go (13/2) ![3, 4], .go 0 0, .go (1/2) ![0, 1]]

/-- `new_direction`, `search_started`, `never_restarts`, `initial_step`: a direction of Dai and Yuan. -/
example :
    let p := par exactVs .daiYuan (6 ||| SHANNO_PHUA)
    (Sess.acts p LineSearch.csrchOps { opt := opt mt 0 true, x := 0, f := 0, g := 0, gp := 0 } acts).bind
      (fun s => (s.next p LineSearch.csrchOps).map fun s' =>
        (s.opt.task, s.opt.evaluations, s.opt.ls.status, s'.opt.task, s'.opt.restarts)) =
    some (.newX, 2, .success, .computeFG, 0) ∧
    (Sess.acts p LineSearch.csrchOps { opt := opt mt 0 true, x := 0, f := 0, g := 0, gp := 0 } acts).map
      (fun s => (s.gp 1, s.opt.d 1, s.opt.alpha)) = some (4, 4, 13/25) ∧
    (Sess.acts p LineSearch.csrchOps { opt := opt mt 0 true, x := 0, f := 0, g := 0, gp := 0 } acts).bind
      (fun s => (s.next p LineSearch.csrchOps).map fun s' => (s'.opt.d 0, s'.opt.d 1, s'.opt.alpha)) =
    some (1/7, 25/21, 273/25) := by
  decide +kernel

/-- `new_direction`: a restart of the method of Polak, Ribière and Polyak with Powell's modification. -/
example :
    let p := par exactVs .polakRibierePolyak (3 ||| POWELL)
    (Sess.acts p LineSearch.backtrackOps { opt := opt bt 0 true, x := 0, f := 0, g := 0, gp := 0 }
      [.start ![3, 1], .go (13/2) ![3, 4], .go 0 0, .go (1/2) ![0, 1]]).bind
      (fun s => (s.next p LineSearch.backtrackOps).map fun s' =>
        (s.opt.task, s'.opt.restarts, s'.opt.d 0, s'.opt.d 1, s'.opt.alpha)) =
    some (.newX, 1, 0, 1, 1) := by
  decide +kernel

/-! ## C31 -/

/-- **C31, witness.** With the options `fmin = 6, fmin_given = TRUE` and for a function whose value at the first point is `13/2`, the
first step would be `2 (f - fmin) / ‖g‖² = 1/25`; it is `2 |f| / ‖g‖² = 13/25`. -/
theorem fmin_not_honoured :
    let o := { opts 6 with fmin := 6, fminGiven := true }
    ∃ p : Par ℚ (Fin 2 → ℚ), new (fun _ => true) exactVs o mt 0 = some (p, opt mt 0 true) ∧
      (Sess.acts p LineSearch.csrchOps { opt := opt mt 0 true, x := 0, f := 0, g := 0, gp := 0 }
        [.start ![3, 1], .go (13/2) ![3, 4], .go 0 0]).map (fun s => (s.opt.task, s.opt.alpha)) = some (.computeFG, 13/25) ∧
      2 * (13/2 - o.fmin) / (![3, 4] ⬝ᵥ ![3, 4]) = 1/25 := by
  refine ⟨{ par exactVs .daiYuan 6 with fmin := 6 }, ?_, ?_, ?_⟩
  · unfold new
    rw [show checkOptions (fun _ => true) { opts 6 with fmin := 6, fminGiven := true } = true by simp only [checkOptions, opts]; norm_num]
    rfl
  · decide +kernel
  · simp [dotProduct, Fin.sum_univ_two]; norm_num

end Opk.Nlcg.Demo
