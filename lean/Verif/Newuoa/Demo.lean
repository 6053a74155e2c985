import Verif.Newuoa.Ends
import Verif.Bobyqa.Demo
import Verif.Gqt.Demo

/-!
# NEWUOA: examples
-/
namespace Opk.Newuoa.Demo
open Linalg CMath Cobyla

/-- A workspace filled with zeros. -/
def blank : St ℚ :=
  { x := fun _ => 0, xbase := fun _ => 0, xopt := fun _ => 0, xnew := fun _ => 0, xpt := fun _ _ => 0, fval := fun _ => 0, gq := fun _ => 0,
    hq := fun _ _ => 0, pq := fun _ => 0, bmat := fun _ _ => 0, zmat := fun _ _ => 0, d := fun _ => 0, vlag := fun _ => 0, w := fun _ => 0,
    alpha := 0, beta := 0, crvmin := 0, delta := 0, diff := 0, diffa := 0, diffb := 0, diffc := 0, dnorm := 0, dsq := 0, dstep := 0, f := 0,
    fbeg := 0, fopt := 0, fsave := 0, ratio := 0, rho := 0, vquad := 0, xipt := 0, xjpt := 0, xoptsq := 0, idz := 0, ipt := 0, jpt := 0,
    itest := 0, knew := 0, ksave := 0, kopt := 0, nf := 0, nfsav := 0, status := .success, log := [] }

/-- `trsapp` gives the step `d`; the others do nothing. -/
def steps (d : St ℚ → Nat → ℚ) : Par ℚ → Subs ℚ := fun _ =>
  ⟨fun s => (d s, 0, s.w), fun s => (1, s.d, s.vlag, s.w), fun s => (s.d, s.w, s.vlag, s.beta, s.xnew), fun s => (s.bmat, s.zmat, s.idz, s.vlag, s.w)⟩

/-- No step. -/
def still : Par ℚ → Subs ℚ := steps fun _ _ => 0

/-- A step along the first variable. -/
def first : Par ℚ → Subs ℚ := steps fun s i => if i = 1 then s.delta else 0

/-- What the user sees for two variables. -/
def view (r : Option (Status × (Nat → ℚ) × Option ℚ × List ((Nat → ℚ) × ℚ))) : Option (Status × List ℚ × Option ℚ × List (List ℚ × ℚ)) :=
  r.map fun t => (t.1, [t.2.1 1, t.2.1 2], t.2.2.1, t.2.2.2.reverse.map fun e => ([e.1 1, e.1 2], e.2))

def args (npt : Int) (maximize : Bool) (scl : Option (Nat → ℚ)) (rhoend : ℚ) (maxfun : Int) : Args ℚ :=
  ⟨2, npt, maximize, fun i => if i = 1 then 0 else 1, scl, 1, rhoend, maxfun⟩

def sq : Nat → (Nat → ℚ) → ℚ := fun _ x => (x 1 - 1) * (x 1 - 1) + x 2 * x 2

/-- The rational and the real numbers meet the hypotheses of the theorems. -/
theorem rat_laws : Laws ℚ := laws

example : Laws ℝ := laws

set_option maxRecDepth 100000 in
/-- A run which succeeds: the point `(1, 1)` is the best one (C74, C75). -/
example : view (optimize (args 5 false none 1 100) still sq blank 100) =
    some (.success, [1, 1], some 1, [([0, 1], 2), ([1, 1], 1), ([0, 2], 5), ([-1, 1], 5), ([0, 0], 1), ([1, 1], 1)]) := by
  decide +kernel

set_option maxRecDepth 100000 in
/-- The same function is maximized with scaling factors 1 and 2 and at most seven calls. -/
example : view (optimize (args 6 true (some fun i => i) (1 / 2) 7) still sq blank 100) =
    some (.tooManyEvaluations, [-1, 3], some 13,
      [([0, 1], 2), ([1, 1], 1), ([0, 3], 10), ([-1, 1], 5), ([0, -1], 2), ([-1, 3], 13), ([-1, 3], 13)]) := by
  decide +kernel

set_option maxRecDepth 100000 in
/-- With the status `STEP_FAILED`, the last value is taken into account (it is not in BOBYQA). -/
example : view (optimize (args 5 false none 1 8) first (fun i x => if x 1 = 2 then -10 else sq i x) blank 100) =
    some (.stepFailed, [2, 1], some (-10), [([0, 1], 2), ([1, 1], 1), ([0, 2], 5), ([-1, 1], 5), ([0, 0], 1), ([2, 1], -10)]) := by
  decide +kernel

set_option maxRecDepth 100000 in
/-- **C75**, the condition on the number of calls is needed: with three calls for five interpolation points, the variables are those of
none of the calls (the workspace is not initialized), and with a workspace filled with zeros they are not the best ones; the value is the
best one. -/
theorem newuoa_too_few_calls :
    view (optimize (args 5 false none 1 3) still sq { blank with xopt := fun _ => 7 } 100) =
      some (.tooManyEvaluations, [7, 8], some 1, [([0, 1], 2), ([1, 1], 1), ([0, 2], 5)]) ∧
    view (optimize (args 5 false none 1 3) still sq blank 100) =
      some (.tooManyEvaluations, [0, 1], some 1, [([0, 1], 2), ([1, 1], 1), ([0, 2], 5)]) := by
  constructor <;> decide +kernel

set_option maxRecDepth 100000 in
/-- Hence the variables at the end are not always the best ones. -/
theorem newuoa_best_false : ¬ ∀ (a : Args ℚ) (o : Par ℚ → Subs ℚ) (obj : Nat → (Nat → ℚ) → ℚ) (s : St ℚ) (fuel : Nat) (st : Status) (x : Nat → ℚ)
    (v : ℚ) (log : List ((Nat → ℚ) × ℚ)), optimize a o obj s fuel = some (st, x, some v, log) → ∃ e ∈ log, e.1 1 = x 1 ∧ e.1 2 = x 2 := by
  intro h
  have e := newuoa_too_few_calls.1
  unfold view at e
  obtain ⟨⟨st, x, w, log⟩, h1, h2⟩ := Option.map_eq_some_iff.mp e
  simp only [Prod.mk.injEq, List.cons.injEq, and_true] at h2
  obtain ⟨-, ⟨x1, x2⟩, rfl, hl⟩ := h2
  obtain ⟨c, hc, c1, c2⟩ := h _ _ _ _ _ _ _ _ _ h1
  have hm : ([c.1 1, c.1 2], c.2) ∈ log.reverse.map fun e => ([e.1 1, e.1 2], e.2) := List.mem_map.mpr ⟨c, List.mem_reverse.mpr hc, rfl⟩
  rw [hl, c1, c2, x1, x2] at hm
  revert hm
  simp

/-- What the user of `newuoa_iterate` sees: the status, the variables at the end and the radius, the calls, their number. -/
def see (r : Option (Status × (Nat → ℚ) × List ((Nat → ℚ) × ℚ) × Option (Ctx ℚ))) : Option (Status × List (List ℚ × ℚ) × Int) :=
  r.map fun t => (t.1, ([t.2.1 1, t.2.1 2], getRho t.2.2.2) :: t.2.2.1.reverse.map (fun e => ([e.1 1, e.1 2], e.2)), getNevals t.2.2.2)

/-- The loop of a caller with a new workspace. -/
def loop (npt maxfun : Int) (o : Par ℚ → Subs ℚ) : Option (Status × List (List ℚ × ℚ) × Int) :=
  see (converse o 20 sq 20 (create 2 npt 1 (1 / 20) maxfun true blank) (fun i => if i = 1 then 0 else 1) [])

set_option maxRecDepth 100000 in
/-- With reverse communication (C76, C78): the radius is `rhoend` in case of success. -/
example : loop 4 100 still = some (.success, [([1, 1], 1 / 20), ([0, 1], 2), ([1, 1], 1), ([0, 2], 5), ([-1, 1], 5),
    ([1, 1], 1), ([1, 1], 1), ([1, 1], 1), ([1, 1], 1)], 8) := by
  decide +kernel

/-- A workspace filled with zeros. -/
example : fresh blank = blank := rfl

/-- The loop ends (C77), for instance. -/
example (o : Par ℝ → Subs ℝ) (obj : Nat → (Nat → ℝ) → ℝ) (s : St ℝ) :
    ∃ fuel r, optimize ⟨3, 7, false, fun _ => 1, none, 1, 1 / 1000, 200⟩ o obj s fuel = some r :=
  newuoa_optimize_ends Opk.Gqt.Demo.real_sqrt _ o obj s

/-- The theorems apply to the runs above. -/
example (fuel : Nat) (st : Status) (x : Nat → ℚ) (v : ℚ) (log : List ((Nat → ℚ) × ℚ))
    (h : optimize (args 5 false none 1 100) first sq blank fuel = some (st, x, some v, log)) : (x, v) ∈ log ∧ ∀ e ∈ log, v ≤ e.2 := by
  rcases optimize_result rat_laws _ _ _ _ _ _ _ _ _ h with ⟨-, -, q, -⟩ | ⟨v', q, r⟩
  · exact absurd q (by simp)
  · have := Option.some.inj q
    subst this
    exact ⟨r.vars (by decide), r.best⟩

end Opk.Newuoa.Demo
