import Verif.Newuoa.Interpolates
import Verif.Powell.Quadratic

/-!
# NEWUOA: a quadratic objective function and as many points as coefficients

The model is the objective function.
-/
namespace Opk.Newuoa
open Linalg CMath Cobyla Powell

set_option linter.unusedSectionVars false

/-- The model is quadratic. -/
theorem isQuadratic_quad (p : Par ℝ) (s : St ℝ) : IsQuadratic p.n (s.quad p) := by
  have a1 : IsQuadratic p.n (hform p.n s.hq) := by
    refine IsQuadratic.sum _ fun j hj => IsQuadratic.sum _ fun i hi => IsQuadratic.mul ?_ _
    rw [Finset.mem_Icc] at hi hj
    exact isQuadratic_mono hi.1 (by omega) hj.1 hj.2
  have a2 : IsQuadratic p.n (fun y => (∑ k ∈ Finset.Icc 1 p.npt, s.pq k * (dot p.n (s.xpt k) y * dot p.n (s.xpt k) y)) / 2) := by
    have := (IsQuadratic.sum (Finset.Icc 1 p.npt) fun k _ => (isQuadratic_prod p.n (s.xpt k) (s.xpt k)).mul (s.pq k)).mul (1 / 2)
    refine (congrArg (IsQuadratic p.n) (funext fun x => ?_)).mp this
    ring
  exact ((isQuadratic_dot p.n s.gq).add a1).add a2

theorem isQuadratic_lfun (p : Par ℝ) (s : St ℝ) (t : Nat) : IsQuadratic p.n (lfun p s t) := by
  refine IsQuadratic.add (IsQuadratic.sum _ fun k _ => ?_) (isQuadratic_dot _ _)
  have := (isQuadratic_prod p.n (s.xpt k) (s.xpt k)).mul (omega p.nptm s.zmat k t / 2)
  refine (congrArg (IsQuadratic p.n) (funext fun x => ?_)).mp this
  ring

/-- With as many points as coefficients, the model of a quadratic function is this function. -/
theorem Core.exact {p : Par ℝ} (hm : 2 * p.npt = (p.n + 1) * (p.n + 2)) {s : St ℝ} (h : Core p s) (hc : Cen p s) {f : (Nat → ℝ) → ℝ} (hf : IsQuadratic p.n f)
    (hv : ∀ e ∈ s.log, e.2 = f e.1) (x : Nat → ℝ) : s.model p x = f x := by
  obtain ⟨c, hg⟩ := h.inv
  have key := quadratic_unique hm s.xpt (fun t y => c t + lfun p s t y) (fun t _ _ => (isQuadratic_const p.n (c t)).add (isQuadratic_lfun p s t))
    (fun t k t1 t2 k1 k2 => by rw [lfun_pt hg t1 t2 k1 k2]; ring)
    (f := fun y => (s.fopt - s.quad p s.xopt) + s.quad p y + -1 * f (fun j => y j + s.xbase j))
    (((isQuadratic_const _ _).add (isQuadratic_quad p s)).add ((hf.shift s.xbase).mul (-1)))
    (fun k k1 k2 => by
      have e := hv _ (h.log k k1 k2)
      dsimp only at e
      have i := h.int k s.kopt k1 k2 hc.k1 hc.k2
      rw [show (fun j => s.xpt k j + s.xbase j) = fun j => s.xbase j + s.xpt k j from funext fun j => add_comm _ _, ← e, hc.x, hc.f]
      linarith)
    (fun j => x j - s.xbase j)
  dsimp only at key
  rw [show (fun j => x j - s.xbase j + s.xbase j) = x from funext fun j => by ring] at key
  unfold St.model
  linarith

/-- A quadratic objective function with `(n+1)(n+2)/2` points: each time that a step is computed, and each time that a value
is asked for after the first ones, the model is the objective function. -/
theorem newuoa_quadratic {p : Par ℝ} (hp : Valid p) (hm : 2 * p.npt = (p.n + 1) * (p.n + 2)) {o : Subs ℝ} (hu : o.update = update p)
    (hb : o.biglag = biglag realTrig p) {f : (Nat → ℝ) → ℝ} (hf : IsQuadratic p.n f) {s0 : St ℝ} (hl : s0.log = []) {fuel : Nat} {l : Lab} {s : St ℝ}
    (hr : run p o (fun _ => f) fuel (.l50, init s0) = (l, s)) (hlab : l = .l100 ∨ l = .l120 ∨ l = .ask ∧ p.npt < s.nf) (x : Nat → ℝ) : s.model p x = f x := by
  have npt0 : 0 < p.npt := by have := hp.lo; omega
  obtain ⟨ok, keep⟩ := run_keep hp hu hb (calfun := fun _ => f) fuel (.l50, init s0) (ok_init npt0 s0 hl) trivial ⟨0, Begun.zero p s0, npt0⟩
  have val := run_values p o f fuel (.l50, init s0) (by intro e he; rw [show (init s0).log = [] from hl] at he; simp at he)
  rw [hr] at ok keep val
  rcases hlab with rfl | rfl | ⟨rfl, q⟩
  · exact keep.1.exact hm keep.2 hf val x
  · exact keep.1.exact hm keep.2.1 hf val x
  · rcases keep with ⟨w, -⟩ | ⟨-, k1, k2, -⟩
    · exact absurd q (by have w : s.nf ≤ p.npt := w; omega)
    · exact k1.exact hm k2 hf val x

/-- Then, the value at a trust region step (`KNEW = 0`) is less than all the values before, or NEWUOA stops with the status
`STEP_FAILED`, whatever the step. -/
theorem newuoa_quadratic_descent {p : Par ℝ} (hp : Valid p) (hm : 2 * p.npt = (p.n + 1) * (p.n + 2)) {o : Subs ℝ} (hu : o.update = update p)
    (hb : o.biglag = biglag realTrig p) {f : (Nat → ℝ) → ℝ} (hf : IsQuadratic p.n f) {s0 : St ℝ} (hl : s0.log = []) {fuel : Nat} {s : St ℝ}
    (hr : run p o (fun _ => f) fuel (.l50, init s0) = (.ask, s)) (hn : p.npt < s.nf) (hk : s.knew = 0) :
    (∀ e ∈ s.log, f s.x < e.2) ∨
    (run p o (fun _ => f) (fuel + 1) (.l50, init s0)).1 = .done ∧ (run p o (fun _ => f) (fuel + 1) (.l50, init s0)).2.status = .stepFailed := by
  have npt0 : 0 < p.npt := by have := hp.lo; omega
  obtain ⟨ok, keep⟩ := run_keep hp hu hb (calfun := fun _ => f) fuel (.l50, init s0) (ok_init npt0 s0 hl) trivial ⟨0, Begun.zero p s0, npt0⟩
  have ex := newuoa_quadratic hp hm hu hb hf hl hr (Or.inr (Or.inr ⟨rfl, hn⟩))
  rw [run_add p o (fun _ => f) fuel 1, hr]
  rw [hr] at ok keep
  show _ ∨ (answer p (f s.x) s).1 = .done ∧ (answer p (f s.x) s).2.status = .stepFailed
  rcases keep with ⟨w, -⟩ | ⟨-, k1, k2, k3⟩
  · exact absurd hn (by have w : s.nf ≤ p.npt := w; omega)
  rcases ok.1.2.2 with ⟨w, -⟩ | ⟨-, m, hx, -⟩
  · exact absurd hn (by have w : s.nf ≤ p.npt := w; omega)
  obtain ⟨tr, hxn⟩ := k3.resolve_left (by rw [hk]; decide)
  have pr : predicted p s = f s.x - s.fopt := by
    rw [predicted_eq p s tr.1 fun i _ _ => by rw [hxn]]
    have := ex s.x
    unfold St.model at this
    rw [hx, show (fun j => s.xbase j + s.xnew j - s.xbase j) = s.xnew from funext fun j => by ring] at this
    rw [hx]
    linarith
  by_cases c : f s.x < s.fopt
  · exact Or.inl fun e he => lt_of_lt_of_le c (m.1 e he)
  · refine Or.inr ?_
    unfold answer after
    rw [if_neg (show ¬ (put (f s.x) s).nf ≤ p.npt from not_le.mpr hn), if_neg (show ¬ (put (f s.x) s).knew = -1 by show ¬ s.knew = -1; rw [hk]; decide)]
    dsimp only
    have e1 : (errors p (put (f s.x) s)).knew = 0 := by
      have := errors_fields p (put (f s.x) s)
      rw [this.2.2.2.2.2.2.2.2.2.2.1]; exact hk
    have e2 : (errors p (put (f s.x) s)).vquad = f s.x - s.fopt := by
      rw [← pr]; unfold errors; dsimp only; split_ifs <;> rfl
    rw [if_neg (by rw [e1]; decide), if_pos (by rw [e2]; exact sub_nonneg.mpr (not_lt.mp c))]
    exact ⟨rfl, rfl⟩

/-- For instance, two variables and six points. -/
example (s0 : St ℝ) (trsapp : St ℝ → (Nat → ℝ) × ℝ × (Nat → ℝ)) :
    let p : Par ℝ := ⟨2, 6, 1, 1 / 1000, 200⟩
    let o : Subs ℝ := ⟨trsapp, biglag realTrig p, fun s => (s.d, s.w, s.vlag, s.beta, s.xnew), update p⟩
    let f : (Nat → ℝ) → ℝ := fun x => 3 + x 1 - 2 * (x 1 * x 2) + x 2 * x 2
    ∃ fuel s, run p o (fun _ => f) fuel (.l50, init { s0 with log := [] }) = (.l100, s) ∧ ∀ x, s.model p x = f x := by
  intro p o f
  have hp : Valid p := ⟨by decide, by decide, by decide, by norm_num [p], by norm_num [p]⟩
  have hf : IsQuadratic p.n f := by
    refine ⟨3, fun i => if i = 1 then 1 else 0, fun i j => if i = 1 ∧ j = 2 then -2 else if i = 2 ∧ j = 2 then 1 else 0, fun x => ?_⟩
    show f x = 3 + ∑ i ∈ Finset.Icc 1 2, _ + ∑ i ∈ Finset.Icc 1 2, ∑ j ∈ Finset.Icc 1 2, _
    simp [Finset.sum_Icc_succ_top, f]
    ring
  obtain ⟨fuel, s, e, -⟩ := run_begins hp (by decide) o (fun _ => f) { s0 with log := [] }
  exact ⟨fuel, s, e, newuoa_quadratic hp (by decide) rfl rfl hf rfl e (Or.inl rfl)⟩

end Opk.Newuoa
