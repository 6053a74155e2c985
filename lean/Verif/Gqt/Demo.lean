import Verif.Gqt.Newton
/-!
# Runs of the constrained quadratic minimizer

All the square roots taken in the runs with rational numbers are exact.
-/
namespace Opk.Gqt.Demo
open Linalg Finset Opk.Gqt

section
variable {F : Type} [Neg F] [One F]

/-- Arguments of a problem of size `n`, the arrays are one after the other. -/
def args (n : Nat) (delta rtol atol : F) (itmax : Int) (par : Option F) : Args F :=
  { n := n, a := 0, lda := n, b := n * n, delta := delta, rtol := rtol, atol := atol, itmax := itmax, par := par, x := n * n + n, z := n * n + 2 * n, wa1 := n * n + 3 * n, wa2 := n * n + 4 * n }

/-- A memory with some elements from the address 0, the others are -1. -/
def fill (l : List F) : Mem F := fun p => if p < 0 then -1 else l.getD p.toNat (-1)

theorem elem_bounds {n i j : Nat} (hi : i < n) (hj : j < n) : 0 ≤ elem 0 n i j ∧ elem 0 n i j < n * n := by
  unfold elem
  constructor
  · positivity
  · have : (j : Int) + 1 ≤ n := by omega
    nlinarith

theorem args_layout {n : Nat} (hn : 1 ≤ n) (delta rtol atol : F) (itmax : Int) (par : Option F) : Layout (args n delta rtol atol itmax par) n := by
  refine ⟨rfl, hn, le_rfl, ?_, ?_, ?_, ?_, ?_, ?_, ?_, ?_, ?_, ?_, ?_, ?_, ?_, ?_, ?_⟩
  · rintro i j hi hj ⟨k, hk, h⟩; have := elem_bounds hi hj; dsimp only [args] at h; omega
  · rintro i j hi hj ⟨k, hk, h⟩; have := elem_bounds hi hj; dsimp only [args] at h; omega
  · rintro i j hi hj ⟨k, hk, h⟩; have := elem_bounds hi hj; dsimp only [args] at h; omega
  · rintro i j hi hj ⟨k, hk, h⟩; have := elem_bounds hi hj; dsimp only [args] at h; omega
  · rintro i j hi hj ⟨k, hk, h⟩; have := elem_bounds hi hj; dsimp only [args] at h; omega
  all_goals rintro p ⟨k, hk, h⟩ ⟨k', hk', h'⟩; dsimp only [args] at h h'; omega
end

/-- A diagonal matrix (the lower triangle is not read) and a vector. -/
def diag4 (a b c d : ℚ) (t : ℚ) : Mem ℚ := fill [a, 7, 7, 7, 0, b, 7, 7, 0, 0, c, 7, 0, 0, 0, d, t, 0, 0, 0]

/-- What a run returns: code, parameter, value, number of iterations, and the memory. -/
def run (g : Args ℚ) (mem : Mem ℚ) (len : Nat) : Option (Int × ℚ × ℚ × Int × List ℚ) :=
  (gqt g 10 mem).map fun r => (r.info, r.par, r.fx, r.iter, (List.range len).map fun (k : Nat) => r.mem k)

/-- One dimension, the minimum is in the ball: `f(x) = 2*x^2 + 2*x`. -/
example : run (args 1 1 (1 / 10) 0 10 none) (fill [4, 2]) 3 = some (1, 0, -1 / 2, 1, [4, 2, -1 / 2]) := by decide +kernel
/-- One dimension, negative curvature: `f(x) = -2*x^2 + x`. -/
example : run (args 1 1 (1 / 10) 0 10 none) (fill [-4, 1]) 3 = some (1, 5, -3, 1, [-4, 1, -1]) := by decide +kernel
/-- One dimension, the minimum is on the boundary: `f(x) = 3*x^2/2 + 4*x`. -/
example : run (args 1 1 0 1 10 (some 3)) (fill [3, 4]) 3 = some (1, 1, -5 / 2, 1, [3, 4, -1]) := by decide +kernel
/-- The tolerance on the values is reached. -/
example : (run (args 4 1 (1 / 100) (1 / 2) 10 (some (1 / 20))) (diag4 (1 - 1 / 20) (1 / 4 - 1 / 20) (1 / 4 - 1 / 20) (1 / 16 - 1 / 20) (289 / 361)) 24).map Prod.fst = some 2 := by decide +kernel

/-- The returned parameter is positive, the code is 1 but the norm of the solution is not within the tolerance of `delta`: the convergence is decided by the reduction of the objective function.
The documentation (`src/optimpack.h:2305-2314`) says `abs(norm(x) - delta) <= rtol*delta`. -/
theorem gqt_norm_not_close : ¬∀ (g : Args ℚ) (n : Nat) (mem : Mem ℚ) (fuel : Nat) (r : Result ℚ), Layout g n → 0 < g.delta → 0 < g.rtol → g.rtol < 1 → gqt g fuel mem = some r →
    r.info = 1 → 0 < r.par → ((1 - g.rtol) * g.delta) * ((1 - g.rtol) * g.delta) ≤ sq n (at1 r.mem g.x) := by
  intro h
  have hrun : run (args 4 1 (1 / 10) 0 10 (some (1 / 20))) (diag4 (1 - 1 / 20) (1 / 4 - 1 / 20) (1 / 4 - 1 / 20) (1 / 16 - 1 / 20) (289 / 361)) 24 =
    some (1, 1 / 20, -1 / 2 * (21 / 20 * (289 / 361) * (289 / 361)), 1,
      [19 / 20, 0, 0, 0, 0, 1 / 5, 0, 0, 0, 0, 1 / 5, 0, 0, 0, 0, 1 / 80, 289 / 361, 0, 0, 0, -289 / 361, 0, 0, 0]) := by decide +kernel
  obtain ⟨r, h1, h2⟩ := Option.map_eq_some_iff.1 hrun
  have h3 := h _ 4 _ 10 r (args_layout (by decide) _ _ _ _ _) (by norm_num [args]) (by norm_num [args]) (by norm_num [args]) h1 (by simpa using congrArg Prod.fst h2)
    (by have := congrArg (fun q => q.2.1) h2; dsimp only at this; rw [this]; norm_num)
  have h4 : (List.range 24).map (fun (k : Nat) => r.mem k) = _ := congrArg (fun q => q.2.2.2.2) h2
  have e0 := congrArg (fun l => l.getD 20 0) h4
  have e1 := congrArg (fun l => l.getD 21 0) h4
  have e2 := congrArg (fun l => l.getD 22 0) h4
  have e3 := congrArg (fun l => l.getD 23 0) h4
  simp at e0 e1 e2 e3
  simp only [sq, sum_range_succ, sum_range_zero, at1, args] at h3
  norm_num at h3
  rw [e0, e1, e2, e3] at h3
  norm_num at h3

section real
open Real

theorem real_sqrt : ∀ a : ℝ, 0 ≤ a → 0 ≤ CMath.sqrt a ∧ CMath.sqrt a * CMath.sqrt a = a := fun a ha => ⟨Real.sqrt_nonneg a, Real.mul_self_sqrt ha⟩

/-- `f(x, y) = 2*x^2 + 2*x*y + 3*y^2 + 2*x + 4*y`, whose minimum is `(-1/5, -3/5)`. -/
noncomputable def mem2 : Mem ℝ := fill [4, 0, 2, 6, 2, 4]

theorem mem2_quad (v : Nat → ℝ) : quad (mat (args 2 (1 : ℝ) (1 / 10) 0 10 none) mem2) 2 v = 4 * v 0 * v 0 + 4 * v 0 * v 1 + 6 * v 1 * v 1 := by
  simp only [quad, sum_range_succ, sum_range_zero, sym, mat, args, elem, mem2, fill]
  norm_num [List.getD, show Int.toNat 2 = 2 from rfl, show Int.toNat 3 = 3 from rfl, show Int.toNat 4 = 4 from rfl, show Int.toNat 5 = 5 from rfl]
  ring

theorem mem2_posDef : ∀ v, (∃ i < 2, v i ≠ 0) → 0 < quad (mat (args 2 (1 : ℝ) (1 / 10) 0 10 none) mem2) 2 v := by
  rintro v ⟨i, hi, hv⟩
  rw [mem2_quad]
  obtain rfl | rfl : i = 0 ∨ i = 1 := by omega
  · have := mul_self_pos.2 hv
    nlinarith [mul_self_nonneg (v 0 + 3 * v 1), mul_self_nonneg (v 1)]
  · have := mul_self_pos.2 hv
    nlinarith [mul_self_nonneg (2 * v 0 + v 1)]

theorem mem2_solves : Solves (mat (args 2 (1 : ℝ) (1 / 10) 0 10 none) mem2) (at1 mem2 (args 2 (1 : ℝ) (1 / 10) 0 10 none).b) 2 0 (fun i => if i = 0 then -1 / 5 else -3 / 5) := by
  intro i hi
  obtain rfl | rfl : i = 0 ∨ i = 1 := by omega
  · simp only [sum_range_succ, sum_range_zero, sym, mat, args, elem, mem2, fill, at1]
    norm_num [List.getD, show Int.toNat 2 = 2 from rfl, show Int.toNat 3 = 3 from rfl, show Int.toNat 4 = 4 from rfl, show Int.toNat 5 = 5 from rfl]
  · simp only [sum_range_succ, sum_range_zero, sym, mat, args, elem, mem2, fill, at1]
    norm_num [List.getD, show Int.toNat 2 = 2 from rfl, show Int.toNat 3 = 3 from rfl, show Int.toNat 4 = 4 from rfl, show Int.toNat 5 = 5 from rfl]

/-- The hypotheses of the theorems are met: the run on real numbers ends with the code 1 and the exact solution, whose value is accurate. -/
example : ∃ r, gqt (args 2 (1 : ℝ) (1 / 10) 0 10 none) 10 mem2 = some r ∧ r.info = 1 ∧ r.mem 6 = -1 / 5 ∧ r.mem 7 = -3 / 5 ∧
    (∀ v, sq 2 v ≤ 1 → objective (mat (args 2 (1 : ℝ) (1 / 10) 0 10 none) mem2) (at1 mem2 4) 2 (at1 r.mem 6) ≤
      (1 - 1 / 10) * (1 - 1 / 10) * objective (mat (args 2 (1 : ℝ) (1 / 10) 0 10 none) mem2) (at1 mem2 4) 2 v) := by
  obtain ⟨r, hr, -⟩ := gqt_terminates (args 2 (1 : ℝ) (1 / 10) 0 10 none) mem2
  have hr := hr 10 (by decide)
  have L : Layout (args 2 (1 : ℝ) (1 / 10) 0 10 none) 2 := args_layout (by decide) _ _ _ _ _
  obtain ⟨h1, -, -, h2, -⟩ := gqt_newton real_sqrt L (by norm_num [args]) (by norm_num [args]) (by simp [args]) mem2_posDef mem2_solves
    (by simp only [sq, sum_range_succ, sum_range_zero, args]; norm_num) hr
  refine ⟨r, hr, h1, ?_, ?_, ?_⟩
  · simpa [args] using h2 0 (by decide)
  · simpa [args] using h2 1 (by decide)
  · have := (gqt_relative real_sqrt L (by norm_num [args]) (by norm_num [args]) (by norm_num [args]) hr h1).2.2 ⟨0, by decide, by simp [args, mem2, fill]⟩
    intro v hv
    have := this v (by simpa [args] using hv)
    simpa [args] using this
end real
end Opk.Gqt.Demo
