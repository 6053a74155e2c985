import Verif.Vmlmb.Restart
import Verif.Vmlmb.SaveMemory
import Mathlib.Data.Fin.VecNotation
/-!
# Examples for the theorems about the variable metric optimizer

Small runs on rational numbers which meet the hypotheses of the theorems.
-/
namespace Opk.Vmlmb.Demo
open Opk.Optim

/-- A backtracking line search. -/
def bt : LineSearch.Ls ℚ (LineSearch.Backtrack ℚ) := ⟨0, 0, 0, 0, 0, .notStarted, .error, ⟨1/10000, 1/10⟩⟩
/-- A Moré and Thuente line search. -/
def mt : LineSearch.Ls ℚ (LineSearch.Csrch ℚ) :=
  ⟨0, 0, 0, 0, 0, .notStarted, .error, ⟨1/10000, 9/10, 1/10, 0, ⟨0, 0, 0, 0, 0, 0, false⟩, 0, 0, 0, 0, 0⟩⟩
/-- Contents of the memory before the creation. -/
def raw {M V : Type} [Zero V] (ls : LineSearch.Ls ℚ M) : Opt ℚ M V :=
  { ginit := 0, f0 := 0, gnorm := 0, stp := 0, bsmin := 0, ls := ls, x0ref := none, x0own := 0, g0ref := none, g0own := 0, d := 0, w := 0, gp := 0, evaluations := 0, iterations := 0, restarts := 0, status := .success, task := .start, gamma := 0, s := fun _ => 0, y := fun _ => 0, alpha := fun _ => 0, rho := fun _ => 0, mp := 0, updates := 0 }

/-- Options: memory of 2 steps. -/
def opts (blmvm save : Bool) : Options ℚ := ⟨1/10, 0, 1/10, 0, 0, 1000000, 2, blmvm, save⟩

/-- Vectors of one element. -/
def oneVs : Vs ℚ ℚ where
  axpby a x b y := a * x + b * y
  axpbypcz a x b y c z := a * x + b * y + c * z
  scale a x := a * x
  product x y := x * y
  dot x y := x * y
  dot3 w x y := w * x * y
  norm2 x := |x|

/-- The bound `x ≥ lo`. -/
def above (lo : ℚ) : Cs ℚ ℚ where
  projvar x := .ok (if x ≤ lo then lo else x)
  projdir x d := .ok (if x ≤ lo ∧ d > 0 then 0 else d)
  freevar x d := .ok (if x ≤ lo ∧ d > 0 then 0 else 1)
  steplim x d := .ok (if d > 0 then ⟨(x - lo) / d, (x - lo) / d, (x - lo) / d⟩ else ⟨1000000, 1000000, 1000000⟩)

variable {M V : Type} [Zero V]

/-- A caller minimizing a function: the history of the calls. -/
def play (par : Par ℚ V) (ops : LineSearch.Ops ℚ M) (fg : V → ℚ × V) : Nat → Opt ℚ M V → V → List (Call ℚ V)
  | 0, _, _ => []
  | k + 1, o, x =>
    let r := iterate par ops o x (fg x).1 (fg x).2
    .iterate x (fg x).1 (fg x).2 :: play par ops fg k r.1 r.2

/-- The history of a run of `k` calls to `opk_iterate`. -/
def run (par : Par ℚ V) (ops : LineSearch.Ops ℚ M) (fg : V → ℚ × V) (k : Nat) (o : Opt ℚ M V) (x : V) : List (Call ℚ V) :=
  .start x :: play par ops fg k (start par o x).1 (start par o x).2

/-- `x ^ 4 / 4` -/
def quart (x : ℚ) : ℚ × ℚ := (x * x * x * x / 4, x * x * x)

def par1 (blmvm save : Bool) (box : Option (Cs ℚ ℚ)) : Par ℚ ℚ :=
  { vs := oneVs, box := box, method := match box with | none => .lbfgs | some _ => if blmvm then .blmvm else .vmlmb, delta := 1/10, epsilon := 0, grtol := 1/10, gatol := 0, stpmin := 0, stpmax := 1000000, saveMemory := save, m := 2 }
def opt1 {M : Type} (ls : LineSearch.Ls ℚ M) : Opt ℚ M ℚ := failure { raw ls with gamma := 1 } .notStarted


/-- The optimizers above are created by the constructors. -/
theorem created (blmvm save : Bool) (box : Option (Cs ℚ ℚ)) {M : Type} (ls : LineSearch.Ls ℚ M) :
    new (fun _ => true) oneVs (opts blmvm save) 5 box true ls (raw ls) = some (par1 blmvm save box, opt1 ls) := by
  unfold new
  rw [if_neg (by simp only [checkOptions, opts]; norm_num), if_neg (by simp [opts]), if_neg (by simp)]
  rcases box with _ | box
  · rfl
  · cases blmvm <;> rfl

theorem bt_created : LineSearch.newBacktrack ⟨0, 0, 0, 0, 0, .notStarted, .error, ()⟩ (1/10000) (1/10) = some bt := by
  unfold LineSearch.newBacktrack
  rw [if_neg (by simp only [ExactMath.lit_eq]; norm_num)]
  rfl

theorem mt_created : LineSearch.newCsrch mt (1/10000) (9/10) (1/10) = some mt := by
  unfold LineSearch.newCsrch
  rw [if_neg (by norm_num), if_neg (by norm_num), if_neg (by norm_num)]
  rfl

/-- `protocol`, `convergence_test`, `memory_pairs`: a run with a line search, an iterate and then convergence. -/
example :
    let h := run (par1 false false none) LineSearch.backtrackOps quart 5 (opt1 bt) 2
    let r := calls (par1 false false none) LineSearch.backtrackOps (opt1 bt) h
    log (par1 false false none) LineSearch.backtrackOps (opt1 bt) h =
      [(true, .error, .computeFG), (false, .computeFG, .newX), (false, .newX, .computeFG), (false, .computeFG, .newX),
       (false, .newX, .computeFG), (false, .computeFG, .finalX)] ∧
    r.evaluations = 3 ∧ r.iterations = 2 ∧ r.restarts = 0 ∧ r.mp = 1 ∧ getS (par1 false false none) (some r) 1 = some (-1) ∧
    getY (par1 false false none) (some r) 1 = some (-7) ∧
    visited (par1 false false none) LineSearch.backtrackOps (opt1 bt) [] 0 h = [(1, 1), (2, 8)] := by
  decide +kernel

/-- `convergence_test`: before the last call, an evaluation is pending and the next one announces the convergence. -/
example :
    let par := par1 false false none
    let r := calls par LineSearch.backtrackOps (opt1 bt) (run par LineSearch.backtrackOps quart 4 (opt1 bt) 2)
    r.task = .computeFG ∧ (iterate par LineSearch.backtrackOps r (6/7) 0 (216/343)).1.task = .finalX ∧
    (iterate par LineSearch.backtrackOps r (6/7) 0 1).1.task = .newX := by
  decide +kernel

/-- `backtrack_decrease`, `csrch_decrease`: an accepted step. -/
example :
    let par := par1 false false none
    let r := calls par LineSearch.backtrackOps (opt1 bt) (run par LineSearch.backtrackOps quart 4 (opt1 bt) 2)
    0 < r.evaluations ∧ (iterate par LineSearch.backtrackOps r (6/7) 0 1).1.task = .newX ∧
    baseF par LineSearch.backtrackOps (opt1 bt) none (run par LineSearch.backtrackOps quart 4 (opt1 bt) 2) = some (1/4) := by
  decide +kernel

example :
    let par := par1 false false none
    let r := calls par LineSearch.csrchOps (opt1 mt) (run par LineSearch.csrchOps quart 4 (opt1 mt) 2)
    let r' := (iterate par LineSearch.csrchOps r (6/7) 0 (6/7)).1
    0 < r.evaluations ∧ r'.task = .newX ∧ r'.ls.status = .success := by
  decide +kernel

/-- `save_memory_transparent`: the memory is full and a bound is active. -/
example :
    let par := par1 false true (some (above (1/10)))
    let h := run par LineSearch.backtrackOps quart 10 (opt1 bt) 2
    let r := calls par LineSearch.backtrackOps (opt1 bt) h
    r.task = .computeFG ∧ r.iterations = 4 ∧ r.mp = 1 ∧ par.m = 2 ∧ r.x0ref = some 0 ∧
    (calls (par1 false false (some (above (1/10)))) LineSearch.backtrackOps (opt1 bt) h).mp = 2 := by
  decide +kernel

/-! ## Vectors of two elements and a box -/

/-- `x₀² / 2 + 2 x₁²` -/
def quad (x : Fin 2 → ℚ) : ℚ × (Fin 2 → ℚ) := (x 0 * x 0 / 2 + 2 * x 1 * x 1, ![x 0, 4 * x 1])

def par2 (lower upper : Side ℚ 2) (bounded : Bool) : Par ℚ (Fin 2 → ℚ) :=
  { vs := exactVs, box := boxArg 1000000 lower upper bounded, method := if bounded then .vmlmb else .lbfgs, delta := 1/10, epsilon := 0, grtol := 1/10, gatol := 0, stpmin := 0, stpmax := 1000000, saveMemory := false, m := 2 }
def opt2 {M : Type} (ls : LineSearch.Ls ℚ M) : Opt ℚ M (Fin 2 → ℚ) := failure { raw ls with gamma := 1 } .notStarted

theorem created2 (lower upper : Side ℚ 2) (bounded : Bool) {M : Type} (ls : LineSearch.Ls ℚ M) :
    new (fun _ => true) exactVs (opts false false) 2 (boxArg 1000000 lower upper bounded) true ls (raw ls) =
      some (par2 lower upper bounded, opt2 ls) := by
  unfold new
  rw [if_neg (by simp only [checkOptions, opts]; norm_num), if_neg (by simp [opts]), if_neg (by simp)]
  cases bounded <;> rfl

/-- The lower bounds `0` and `1/2`. -/
def lo : Side ℚ 2 := .vector ![0, 1/2]

theorem lo_bounds : Bounds lo .unset := by
  intro i
  simp [lo, Side.at, Box.Consistent]

/-- `iterates_feasible`: the first point is not feasible, the trial point is projected. -/
example :
    let par := par2 lo .unset true
    let s := Sess.acts par LineSearch.backtrackOps { opt := opt2 bt, x := 0, f := 0, g := 0 }
      [.start ![3, 1], .go (quad ![3, 1]).1 (quad ![3, 1]).2, .go 0 0]
    s.opt.task = .computeFG ∧ s.x 0 = 36/25 ∧ s.x 1 = 1/2 ∧ s.opt.x0 1 - s.opt.stp * s.opt.d 1 = -27/25 := by
  decide +kernel

/-- `search_started`: at the new iterate the projected gradient is not zero (the second variable is blocked). -/
example :
    let par := par2 lo .unset true
    let s := Sess.acts par LineSearch.backtrackOps { opt := opt2 bt, x := 0, f := 0, g := 0 }
      [.start ![3, 0], .go 5 ![3, 2]]
    s.opt.task = .newX ∧ s.x 0 = 3 ∧ s.x 1 = 1/2 ∧ s.g 0 = 3 := by
  decide +kernel

example : freeGrad lo .unset ![3, 1/2] ![3, 2] 0 = 3 ∧ freeGrad lo .unset ![3, 1/2] ![3, 2] 1 = 0 := by
  unfold freeGrad
  simp [Box.Blocked, lo, Side.at]

/-- `bfgs_direction`: a direction computed from a pair of positive curvature. -/
example :
    let par := par2 .unset .unset false
    let h : List (Call ℚ (Fin 2 → ℚ)) := [.start ![3, 1], .iterate ![3, 1] (13/2) ![3, 4], .iterate ![3, 1] (13/2) ![3, 4],
      .iterate ![1, 0] (1/2) ![1, 1]]
    let r := calls par LineSearch.backtrackOps (opt2 bt) h
    let r' := (iterate par LineSearch.backtrackOps r ![1, 0] (1/2) ![1, 1]).1
    r.task = .newX ∧ r.iterations = 1 ∧ r'.task = .computeFG ∧ r'.mp = 1 ∧ r'.d 0 = 93/91 ∧ r'.d 1 = 29/91 := by
  decide +kernel

end Opk.Vmlmb.Demo
