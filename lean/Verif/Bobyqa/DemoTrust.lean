import Verif.Bobyqa.Ends
import Verif.Bobyqa.Stationary
import Verif.Bobyqa.Demo
import Verif.Gqt.Demo

/-!
Runs of `trsbox`, and of BOBYQA with the step of `trsbox`.
-/

namespace Opk.Bobyqa.Demo
open Linalg CMath Cobyla

/-- The variables before the call; their values do not matter. -/
def junk : Tb ℚ :=
  ⟨fun _ => 7, fun _ => 7, fun _ => 7, fun _ => 7, fun _ => 7, fun _ => 7, 7, 7, 7, 7, 7, 7, 7, 7, 7, 7, 7, 7, 7, 7, 7, 7, 7, 7, 7⟩

/-- The model `-3 d₁ - 4 d₂ + (d₁² + d₂²)/2`. -/
def bowl (su1 delta : ℚ) : Box ℚ :=
  ⟨2, 1, fun _ i => i, fun _ => 0, fun i => if i = 1 then -3 else -4, fun i j => if i = j then 1 else 0, fun _ => 0, fun _ => -9,
    fun i => if i = 1 then su1 else 9, delta⟩

def viewT (o : Option (Trs ℚ)) : Option (List ℚ × List ℚ × List ℚ × ℚ) :=
  o.map fun r => ([r.d 1, r.d 2], [r.gnew 1, r.gnew 2], [r.xbdi 1, r.xbdi 2], r.crvmin)

set_option maxRecDepth 100000 in
/-- The minimum of the model; at a bound of the first variable; at the boundary of the trust region. -/
example : viewT (trsbox (bowl 9 10) junk 10) = some ([3, 4], [0, 0], [0, 0], 1) ∧
    viewT (trsbox (bowl 2 10) junk 10) = some ([2, 4], [-1, 0], [1, 0], 1) ∧
    viewT (trsbox (bowl 9 1) junk 10) = some ([3 / 5, 4 / 5], [-12 / 5, -16 / 5], [0, 0], 0) := by
  refine ⟨?_, ?_, ?_⟩ <;> decide +kernel

/-- The step of `trsbox` with at most 12 steps of the machine. -/
def powell : Par ℚ → St ℚ → Trs ℚ := fun p s => (trsbox (s.box p) junk 12).getD ⟨fun _ => 0, fun _ => 0, fun _ => 0, 0⟩

set_option maxRecDepth 100000 in
/-- BOBYQA with this step finds the minimum of a quadratic function. -/
example : view (optimize (args 5 false none 1 100) sq powell blank 30) =
    some (.success, [1, 0], 0, [([0, 1], 2), ([1, 1], 1), ([0, 2], 5), ([-1, 1], 5), ([0, 0], 1), ([1, 0], 0), ([1, 0], 0)]) := by
  decide +kernel

/-- The same model with the real numbers. -/
noncomputable def bowlR (delta : ℝ) : Box ℝ :=
  ⟨2, 1, fun _ i => i, fun _ => 0, fun i => if i = 1 then -3 else -4, fun i j => if i = j then 1 else 0, fun _ => 0, fun _ => -9, fun _ => 9, delta⟩

/-- `trsbox` ends and its step reduces this model. -/
example (t : Tb ℝ) : ∃ fuel r, trsbox (bowlR 1) t fuel = some r ∧ r.d 1 * r.d 1 + r.d 2 * r.d 2 ≤ 1 ∧ (bowlR 1).quad r.d < 0 := by
  obtain ⟨fuel, r, h1, h2, h3⟩ := trsbox_descent (b := bowlR 1) Opk.Gqt.Demo.real_sqrt (fun i _ _ => ⟨by norm_num [bowlR], by norm_num [bowlR]⟩)
    (fun i _ _ => by norm_num [bowlR]) (by norm_num [bowlR]) t
  refine ⟨fuel, r, h1, ?_, h3 fun hs => ?_⟩
  · have := h2.trust
    have e : Finset.Icc 1 (bowlR 1).n = {1, 2} := by decide
    rw [e, Finset.sum_pair (by norm_num)] at this
    have e : (bowlR 1).delta = 1 := rfl
    rw [e] at this
    linarith
  · have := (hs 1 le_rfl (by show 1 ≤ 2; norm_num)).2 (by norm_num [bowlR])
    norm_num [bowlR] at this

/-- There is a step as required by `optimize_never_failed`. -/
example (t : Tb ℝ) : ∃ T : Par ℝ → St ℝ → Trs ℝ, ∀ p, IsTrsbox p (T p) := by
  have h := fun p => exists_trsbox Opk.Gqt.Demo.real_sqrt p t
  choose T hT using h
  exact ⟨T, hT⟩

/-- BOBYQA ends on any real function, and it returns the best point of the calls. -/
example (a : Args ℝ) (obj : Nat → (Nat → ℝ) → ℝ) (t : Tb ℝ) (s : St ℝ) : ∃ (T : Par ℝ → St ℝ → Trs ℝ) (fuel : Nat) (r : _), optimize a obj T s fuel = some r ∧ r.1 ≠ .stepFailed := by
  have h := fun p => exists_trsbox Opk.Gqt.Demo.real_sqrt p t
  choose T hT using h
  obtain ⟨fuel, st, x, w1, log, h1, h2, _⟩ := optimize_total Opk.Gqt.Demo.real_sqrt a obj T hT s
  exact ⟨T, fuel, (st, x, w1, log), h1, h2⟩

end Opk.Bobyqa.Demo
