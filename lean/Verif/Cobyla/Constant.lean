import Verif.Cobyla.Shift
import Verif.Cobyla.Descends
import Verif.Cobyla.Demo
/-!
# COBYLA: the objective function as a constraint

When `trstlp` is called, `CON(M+1)` is minus the value of the objective function at the pole
(`src/cobyla.c:682`, `src/cobyla.c:791`; it is set to zero afterwards, line 808).  In the second stage
the code replaces the last active constraint, which is the objective function, and not the constraint
of the ratio test (`src/cobyla.c:1262-1306`): from then on the objective function is an inactive
constraint, "the predicted value is not negative".  This needs at least two constraints
(`trstlp_const`, `trstlp_gain`).
-/
namespace Opk.Cobyla.Demo
open Linalg CMath

/-- Affine functions: minimize `f0 + 3 x + 4 y` subject to `4 x + 3 y ≥ 0` and `x ≥ 0`. -/
def fc (f0 : ℚ) (x : Nat → ℚ) : ℚ × (Nat → ℚ) := (f0 + 3 * x 1 + 4 * x 2, fun k => if k = 1 then 4 * x 1 + 3 * x 2 else x 1)

/-- What `cobyla_optimize` returns if at most three evaluations are necessary. -/
def three (f0 : ℚ) : Option (Status ⊕ Result ℚ) :=
  optimize (lpT 50 ⟨2, 2, 1, 1 / 2, 100⟩) 50 3 2 2 false (fun _ => fc f0) (fun _ => 0) none 1 (1 / 2) 100 zeroSt

set_option maxRecDepth 100000 in
theorem three_zero : (three 0).isSome = true := by decide +kernel

set_option maxRecDepth 100000 in
theorem three_ten : (three 10).isSome = false := by decide +kernel

/-- **C97** (the negation of the full property): with two constraints, adding a constant to the
objective function changes the number of evaluations. -/
theorem cobyla_constant : ¬ ∀ (lpFuel fuel count : Nat) (n m : Int) (maximize : Bool) (fc : Nat → (Nat → ℚ) → ℚ × (Nat → ℚ)) (c : ℚ)
    (x : Nat → ℚ) (scl : Option (Nat → ℚ)) (rhobeg rhoend : ℚ) (maxfun : Int) (w : St ℚ),
    optimize (lpT lpFuel ⟨n.toNat, m.toNat, rhobeg, rhoend, maxfun⟩) fuel count n m maximize (fun k x => ((fc k x).1 + c, (fc k x).2)) x scl rhobeg rhoend maxfun w =
      (optimize (lpT lpFuel ⟨n.toNat, m.toNat, rhobeg, rhoend, maxfun⟩) fuel count n m maximize fc x scl rhobeg rhoend maxfun w).map (addConst c) := by
  intro h
  have h1 := h 50 50 3 2 2 false (fun _ => fc 0) 10 (fun _ => 0) none 1 (1 / 2) 100 zeroSt
  have e : (fun (k : Nat) (x : Nat → ℚ) => (((fun _ => fc 0 : Nat → (Nat → ℚ) → ℚ × (Nat → ℚ)) k x).1 + 10, ((fun _ => fc 0 : Nat → (Nat → ℚ) → ℚ × (Nat → ℚ)) k x).2)) = fun _ => fc 10 := by
    funext k x
    exact Prod.ext (by simp only [fc]; ring) rfl
  rw [e] at h1
  have h2 := congrArg Option.isSome (show three 10 = (three 0).map (addConst 10) from h1)
  rw [Option.isSome_map, three_zero, three_ten] at h2
  exact absurd h2 (by simp)

set_option maxRecDepth 100000 in
/-- The points: with `f0 = 0` the code reports a success after the initial simplex (and `(0, 0)` is not
the best point: the direction `(3, -4)` decreases the objective function and the constraints permit it). -/
theorem cobyla_points_zero : run (fc 0) 2 2 1 (1 / 2) [0, 0] 4 =
    some ([([0, 0], 0), ([1, 0], 3), ([0, 1], 4)], .success, [0, 0], 0, 1 / 2) := by
  decide +kernel

set_option maxRecDepth 100000 in
/-- With `f0 = 10` there is a fourth point, `(1, 0)`, where
the objective function is `13`: greater than at the best vertex `(0, 0)`, which is feasible, though all
the functions are affine, hence equal to their models. -/
theorem cobyla_points_ten : run (fc 10) 2 2 1 (1 / 2) [0, 0] 4 =
    some ([([0, 0], 10), ([1, 0], 13), ([0, 1], 14), ([1, 0], 13)], .iterate, [1 / 2, 0], 13, 1 / 2) := by
  decide +kernel

set_option maxRecDepth 100000 in
/-- The step: along `(1, 0)`, where the objective function increases. -/
theorem trstlp_uphill : (trstlp (⟨2, 2, fun i c => if c = 1 then (if i = 1 then 4 else 3) else if c = 2 then (if i = 1 then 1 else 0) else (if i = 1 then -3 else -4),
    fun c => if c = 3 then -10 else 0, 1⟩ : Lp ℚ) 50 zeroTr).map (fun u => (u.dx 1, u.dx 2, u.ifull)) = some (1, 0, 1) := by
  decide +kernel

set_option maxRecDepth 100000 in
/-- With the first constraint only the constant does not matter (C97): the same points. -/
example : (run (fun x => ((fc 0 x).1, (fc 0 x).2)) 2 1 1 1 [0, 0] 3).map (fun r => (r.1.map Prod.fst, r.2.1)) =
    (run (fun x => ((fc 10 x).1, (fc 10 x).2)) 2 1 1 1 [0, 0] 3).map (fun r => (r.1.map Prod.fst, r.2.1)) := by
  decide +kernel

/-- A program which evaluates `g` where it is asked, from the origin: the evaluations and the context. -/
def drive (g : (Nat → ℚ) → ℚ × (Nat → ℚ)) : Nat → Ctx ℚ → List (Eval ℚ) → Option (List (Eval ℚ) × Ctx ℚ)
  | 0, ctx, h => some (h, ctx)
  | k + 1, ctx, h =>
    if ctx.status = .iterate then
      match iterate (lpT 50 ctx.par) 50 (some ctx) (g ctx.st.x).1 (some ctx.st.x) (some (g ctx.st.x).2) with
      | some (_, some ctx') => drive g k ctx' (⟨ctx.st.x, (g ctx.st.x).1, (g ctx.st.x).2⟩ :: h)
      | _ => none
    else none

theorem drive_obey {g : (Nat → ℚ) → ℚ × (Nat → ℚ)} {ctx0 ctx ctx' : Ctx ℚ} {h h' : List (Eval ℚ)} (k : Nat)
    (H : Obey (fun p T => T = lpT 50 p) ctx0 h ctx) (hd : drive g k ctx h = some (h', ctx')) :
    Obey (fun p T => T = lpT 50 p) ctx0 h' ctx' := by
  induction k generalizing ctx h with
  | zero =>
    simp only [drive, Option.some.injEq, Prod.mk.injEq] at hd
    obtain ⟨rfl, rfl⟩ := hd
    exact H
  | succ k ih =>
    unfold drive at hd
    by_cases q : ctx.status = .iterate
    · rw [if_pos q] at hd
      cases hi : iterate (lpT 50 ctx.par) 50 (some ctx) (g ctx.st.x).1 (some ctx.st.x) (some (g ctx.st.x).2) with
      | none => rw [hi] at hd; exact absurd hd (by simp)
      | some r =>
        obtain ⟨e, o⟩ := r
        cases o with
        | none => rw [hi] at hd; exact absurd hd (by simp)
        | some c1 =>
          rw [hi] at hd
          exact ih (Obey.iterate H (lpT 50 ctx.par) 50 _ ctx.st.x _ e rfl (fun _ _ _ _ => rfl) q (fun _ => by simp) hi) hd
    · rw [if_neg q] at hd
      exact absurd hd (by simp)

/-- What `cobyla_create` returns. -/
def ctx22 : Ctx ℚ := ⟨⟨2, 2, 1, 1 / 2, 100⟩, .iterate, zeroSt⟩

set_option maxRecDepth 100000 in
theorem drive_ten : (drive (fc 10) 3 ctx22 []).map (fun r => (r.1.map (fun e => ((e.x 1, e.x 2), e.f, worst 2 e.c)), r.2.status, r.2.st.ibrnch, r.2.st.x 1, r.2.st.x 2)) =
    some ([((0, 1), 14, 0), ((1, 0), 13, 0), ((0, 0), 10, 0)], .iterate, 1, 1, 0) := by
  decide +kernel

/-- **C98** (the negation of the full property): with two constraints, a trial point may be uphill for
the model of the objective function though the best vertex is feasible. -/
theorem cobyla_uphill : ¬ ∀ {n m : Int} {rhobeg rhoend : ℚ} {maxfun : Int} {room : Bool} {ctx0 ctx : Ctx ℚ} {h : List (Eval ℚ)} (lpFuel : Nat),
    create n m rhobeg rhoend maxfun room = some ctx0 → Obey (fun p T => T = lpT lpFuel p) ctx0 h ctx →
    ctx.status = .iterate → h ≠ [] → ctx.st.ibrnch = 1 → Descends ctx.par h ctx.st := by
  intro hall
  have h0 : create 2 2 1 (1 / 2) 100 true = some ctx22 := by
    unfold create ctx22
    rw [if_neg (by norm_num)]
    rfl
  obtain ⟨⟨h, ctx⟩, hd, hmap⟩ := Option.map_eq_some_iff.mp drive_ten
  simp only [Prod.mk.injEq] at hmap
  obtain ⟨m1, m2, m3, m4, m5⟩ := hmap
  have H := drive_obey 3 (.start) hd
  have hpar : ctx.par = ⟨2, 2, 1, 1 / 2, 100⟩ := obey_par H
  have hne : h ≠ [] := by rintro rfl; simp at m1
  obtain ⟨e, k1, ⟨simi, k2⟩, ⟨mu, -, k3⟩, k4⟩ := hall 50 h0 H m2 hne m3
  rw [hpar] at k1 k2 k3 k4
  simp only [Par.np] at k1 k2 k3 k4
  have hmem : ∀ u ∈ h, worst 2 u.c = 0 ∧ u.f = 10 + 3 * u.x 1 + 4 * u.x 2 ∧ (13 ≤ u.f → u.x 1 + u.x 2 = 1) := by
    intro u hu
    have := List.mem_map_of_mem (f := fun e : Eval ℚ => ((e.x 1, e.x 2), e.f, worst 2 e.c)) hu
    rw [m1] at this
    simp only [List.mem_cons, Prod.mk.injEq, List.not_mem_nil, or_false] at this
    rcases this with ⟨⟨a1, a2⟩, a3, a4⟩ | ⟨⟨a1, a2⟩, a3, a4⟩ | ⟨⟨a1, a2⟩, a3, a4⟩ <;> rw [a1, a2, a3, a4] <;> norm_num
  obtain ⟨a1, a2, a3⟩ := hmem _ (k1 1 (by norm_num) (by norm_num))
  obtain ⟨b1, b2, b3⟩ := hmem _ (k1 2 (by norm_num) (by norm_num))
  obtain ⟨c1, c2, c3⟩ := hmem _ (k1 3 (by norm_num) (by norm_num))
  have s2 : ∀ g : Nat → ℚ, ∑ i ∈ Finset.Icc 1 2, g i = g 1 + g 2 := fun g => by
    rw [Finset.sum_Icc_succ_top (by omega), Finset.Icc_self, Finset.sum_singleton]
  have hup := k4 c1 (fun i => if i = 1 then 3 else 4) 10 (by
    intro j hj hj'
    rw [s2]
    norm_num
    obtain ⟨-, u2, -⟩ := hmem _ (k1 j hj hj')
    rw [u2]; ring)
  rw [s2, m4, m5] at hup
  norm_num at hup
  have q1 := k3 1 (by norm_num) (by norm_num)
  have q2 := k3 2 (by norm_num) (by norm_num)
  norm_num at q1 q2
  rw [c1, a1] at q1
  rw [c1, b1] at q2
  have r1 := a3 (by linarith)
  have r2 := b3 (by linarith)
  have r3 := c3 hup
  have i11 := k2 1 1 (by norm_num) (by norm_num) (by norm_num) (by norm_num)
  have i12 := k2 1 2 (by norm_num) (by norm_num) (by norm_num) (by norm_num)
  have i22 := k2 2 2 (by norm_num) (by norm_num) (by norm_num) (by norm_num)
  rw [s2] at i11 i12 i22
  norm_num at i11 i12 i22
  have d1 : (e 1).x 2 - (e 3).x 2 = -((e 1).x 1 - (e 3).x 1) := by linarith
  have d2 : (e 2).x 2 - (e 3).x 2 = -((e 2).x 1 - (e 3).x 1) := by linarith
  rw [d1] at i11
  rw [d2] at i12 i22
  generalize (e 1).x 1 - (e 3).x 1 = u at i11
  generalize (e 2).x 1 - (e 3).x 1 = v at i12 i22
  have e1 : (simi 1 1 - simi 1 2) * u = 1 := by linarith
  have e2 : (simi 1 1 - simi 1 2) * v = 0 := by linarith
  have e3 : (simi 2 1 - simi 2 2) * v = 1 := by linarith
  rcases mul_eq_zero.mp e2 with z | z
  · rw [z, zero_mul] at e1; exact zero_ne_one e1
  · rw [z, mul_zero] at e3; exact zero_ne_one e3

set_option maxRecDepth 100000 in
/-- There are trial points with one constraint (`cobyla_descends_partial`). -/
example : (drive (fun x => (x 1, fun _ => x 1 + 3 / 2)) 2 ⟨⟨1, 1, 1, 1 / 4, 100⟩, .iterate, zeroSt⟩ []).map (fun r => (r.1.map (fun e => (e.x 1, e.f)), r.2.status, r.2.st.ibrnch, r.2.st.x 1)) =
    some ([(1, 1), (0, 0)], .iterate, 1, -1) := by
  decide +kernel

end Opk.Cobyla.Demo
