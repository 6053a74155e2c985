import Verif.Bobyqa.Returned
/-!
# BOBYQA: examples
-/
namespace Opk.Bobyqa.Demo
open Linalg CMath Cobyla

/-- A workspace. -/
def blank : St ℚ :=
  { x := fun _ => 0, xbase := fun _ => 0, xpt := fun _ _ => 0, fval := fun _ => 0, xopt := fun _ => 0, gopt := fun _ => 0,
    hq := fun _ _ => 0, pq := fun _ => 0, bmat := fun _ _ => 0, zmat := fun _ _ => 0, sl := fun _ => 0, su := fun _ => 0,
    xnew := fun _ => 0, xalt := fun _ => 0, d := fun _ => 0, vlag := fun _ => 0, wd := fun _ => 0, adelt := 0, alpha := 0,
    beta := 0, cauchy := 0, crvmin := 0, delta := 0, denom := 0, diff := 0, diffa := 0, diffb := 0, diffc := 0, distsq := 0,
    dnorm := 0, dsq := 0, f := 0, fl := 0, fsave := 0, ratio := 0, rho := 0, vquad := 0, xoptsq := 0, fbeg := 0, stepa := 0,
    stepb := 0, ipt := 0, jpt := 0, itest := 0, kbase := 0, knew := 0, kopt := 0, nf := 0, nfsav := 0, nresc := 0, ntrits := 0,
    status := .success, log := [],
    res := { aux1 := fun _ => 0, aux2 := fun _ => 0, ptsid := fun _ => none, wdist := fun _ => 0, winc := 0, fbase := 0,
             beta := 0, denom := 0, nrem := 0, kold := 0, knew := 0, kpt := 0 } }

/-- `trsbox` gives no step: the accuracy of the model is improved until `rho` is small enough. -/
def still : Par ℚ → St ℚ → Trs ℚ := fun _ _ => ⟨fun _ => 0, fun _ => 0, fun _ => 0, 0⟩

/-- What the user sees for two variables. -/
def view (r : Option (Status × (Nat → ℚ) × ℚ × List ((Nat → ℚ) × ℚ))) : Option (Status × List ℚ × ℚ × List (List ℚ × ℚ)) :=
  r.map fun t => (t.1, [t.2.1 1, t.2.1 2], t.2.2.1, t.2.2.2.reverse.map fun e => ([e.1 1, e.1 2], e.2))

def args (npt : Int) (maximize : Bool) (scl : Option (Nat → ℚ)) (rhoend : ℚ) (maxfun : Int) : Args ℚ :=
  ⟨2, npt, maximize, fun i => if i = 1 then 0 else 1, fun _ => -1, fun _ => 3, scl, 1, rhoend, maxfun⟩

/-- A step along the first variable (not the one of `trsbox`: the model may increase). -/
def first : Par ℚ → St ℚ → Trs ℚ := fun _ s => ⟨fun i => if i = 1 then s.delta else 0, s.gopt, fun _ => 0, 0⟩

def sq : Nat → (Nat → ℚ) → ℚ := fun _ x => (x 1 - 1) * (x 1 - 1) + x 2 * x 2

theorem natRoot_mono : ∀ k m n : Nat, m ≤ n → natRoot k m ≤ natRoot k n := by
  intro k
  induction k with
  | zero => intro m n _; exact le_refl _
  | succ k ih =>
    intro m n h
    have := ih (m / 4) (n / 4) (Nat.div_le_div_right h)
    unfold natRoot
    dsimp only
    rcases lt_or_eq_of_le this with q | q
    · split_ifs <;> omega
    · rw [q]
      split_ifs with c1 c2
      · exact le_refl _
      · exact absurd (c1.trans h) c2
      · omega
      · exact le_refl _

/-- The rational numbers meet the hypothesis on the square root of the theorems (as the real numbers do). -/
theorem rat_sqrt (a : ℚ) (h : 1 ≤ a) : 1 ≤ CMath.sqrt a := by
  show 1 ≤ (natRoot 64 a.num.toNat : ℚ) / (natRoot 64 a.den : ℚ)
  have hd : 1 ≤ natRoot 64 a.den := (by decide +kernel : natRoot 64 1 = 1) ▸ natRoot_mono 64 1 a.den a.den_pos
  have hn : a.den ≤ a.num.toNat := by
    have h1 : (a.den : ℚ) ≤ a.num := by
      have := Rat.num_div_den a
      have hp : (0 : ℚ) < a.den := by exact_mod_cast a.den_pos
      rw [← this, le_div_iff₀ hp] at h
      linarith
    have h2 : (a.den : Int) ≤ a.num := by exact_mod_cast h1
    omega
  have h3 := natRoot_mono 64 _ _ hn
  rw [le_div_iff₀ (by exact_mod_cast hd), one_mul]
  exact_mod_cast h3

theorem real_sqrt (a : ℝ) (h : 1 ≤ a) : 1 ≤ CMath.sqrt a := Real.one_le_sqrt.mpr h

set_option maxRecDepth 100000 in
/-- A run which succeeds: the point `(1, 1)` is the best one (C49, C71, C72); `W(1)` is its value. -/
example : view (optimize (args 5 false none 1 100) sq still blank 100) =
    some (.success, [1, 1], 1, [([0, 1], 2), ([1, 1], 1), ([0, 2], 5), ([-1, 1], 5), ([0, 0], 1), ([1, 1], 1)]) := by
  decide +kernel

set_option maxRecDepth 100000 in
/-- The same function is maximized with scaling factors 1 and 2. -/
example : view (optimize (args 5 true (some fun i => i) 1 100) sq still blank 100) =
    some (.success, [0, 3], 10, [([0, 1], 2), ([1, 1], 1), ([0, 3], 10), ([-1, 1], 5), ([0, -1], 2), ([0, 3], 10)]) := by
  decide +kernel

set_option maxRecDepth 100000 in
/-- With three evaluations; and with the limit zero there is one. -/
example : view (optimize (args 6 false none (1 / 2) 3) sq still blank 100) =
      some (.tooManyEvaluations, [1, 1], 0, [([0, 1], 2), ([1, 1], 1), ([0, 2], 5)]) ∧
    view (optimize (args 6 false none (1 / 2) 0) sq still blank 100) = some (.tooManyEvaluations, [0, 1], 0, [([0, 1], 2)]) := by
  constructor <;> decide +kernel

set_option maxRecDepth 100000 in
/-- **C72**, the exception is needed: with the status `STEP_FAILED` the last value, `-10`, is the least one, but the
variables are those of an older call. -/
theorem bobyqa_step_failed : view (optimize (args 5 false none 1 100) (fun i x => if x 1 = 2 then -10 else sq i x) first blank 100) =
    some (.stepFailed, [1, 1], 0, [([0, 1], 2), ([1, 1], 1), ([0, 2], 5), ([-1, 1], 5), ([0, 0], 1), ([2, 1], -10)]) := by
  decide +kernel

set_option maxRecDepth 100000 in
/-- Bounds too close: the objective function is not called, the status is `TOO_CLOSE` and the variables are changed. -/
example : view (optimize ⟨2, 5, false, fun _ => 0, fun _ => -1, fun i => if i = 1 then 3 else 0, none, 1, 1, 10⟩ sq still blank 9) =
      some (.tooClose, [0, 0], 0, []) ∧
    view (optimize ⟨2, 5, false, fun _ => -1 / 2, fun _ => -1, fun i => if i = 1 then 3 else 0, none, 1, 1, 10⟩ sq still blank 9) =
      some (.tooClose, [0, -1 / 2], 0, []) := by
  constructor <;> decide +kernel

/-- The theorems apply to such a run: whatever the number of steps it is found to take, the point is the best one. -/
example (fuel : Nat) (st : Status) (x : Nat → ℚ) (w1 : ℚ) (log : List ((Nat → ℚ) × ℚ))
    (h : optimize (args 5 false none 1 100) sq still blank fuel = some (st, x, w1, log)) (hl : log ≠ []) (hs : st = .success) :
    ∀ e ∈ log, w1 ≤ e.2 := by
  obtain ⟨-, h2, -⟩ := optimize_best rat_sqrt _ _ _ _ fuel st x w1 log h hl
  obtain ⟨e, he, hw⟩ := h2 (by rw [hs]; decide)
  rw [hw hs]
  exact he.2.2

end Opk.Bobyqa.Demo
