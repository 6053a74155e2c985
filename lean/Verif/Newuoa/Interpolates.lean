import Verif.Newuoa.Longest
import Verif.Newuoa.Returned

/-!
# NEWUOA: the quadratic model takes the values of the objective function

With real numbers, `trsapp` and `bigden` being any functions.
-/
namespace Opk.Newuoa
open Linalg CMath Cobyla Powell

set_option linter.unusedSectionVars false

/-- The quadratic model at the point `x` of the objective function, with the constant such that the model is `FOPT` at
the best point. -/
noncomputable def St.model (p : Par ℝ) (s : St ℝ) (x : Nat → ℝ) : ℝ :=
  s.fopt + (s.quad p (fun j => x j - s.xbase j) - s.quad p s.xopt)

/-- A function takes the values of `f` at `m` points, which have been evaluated and differ from each other, and one of
which is the best point evaluated. -/
structure Matches (n m : Nat) (f : (Nat → ℝ) → ℝ) (log : List ((Nat → ℝ) × ℝ)) (q : (Nat → ℝ) → ℝ) : Prop where
  ex : ∃ pts : Nat → Nat → ℝ,
    (∀ k, 1 ≤ k → k ≤ m → (pts k, f (pts k)) ∈ log ∧ q (pts k) = f (pts k)) ∧
    (∀ k l, 1 ≤ k → k ≤ m → 1 ≤ l → l ≤ m → k ≠ l → ∃ j, 1 ≤ j ∧ j ≤ n ∧ pts k j ≠ pts l j) ∧
    ∃ k, 1 ≤ k ∧ k ≤ m ∧ ∀ e ∈ log, f (pts k) ≤ e.2

/-- The values in the list are those of `f`. -/
theorem run_values (p : Par ℝ) (o : Subs ℝ) (f : (Nat → ℝ) → ℝ) (fuel : Nat) : ∀ ls : Lab × St ℝ, (∀ e ∈ ls.2.log, e.2 = f e.1) →
    ∀ e ∈ (run p o (fun _ => f) fuel ls).2.log, e.2 = f e.1 := by
  induction fuel with
  | zero => exact fun _ h => h
  | succ k ih =>
    intro ls h
    refine ih _ ?_
    unfold stepF
    split
    · rw [answer_log]
      intro e he
      rcases List.mem_cons.mp he with he | he
      · rw [he]
      · exact h e he
    · rw [step_log]; exact h

theorem real_root : ∀ a : ℝ, 0 ≤ a → 0 ≤ CMath.sqrt a ∧ CMath.sqrt a * CMath.sqrt a = a :=
  fun a ha => ⟨Real.sqrt_nonneg a, Real.mul_self_sqrt ha⟩

/-- The invariants of a run. -/
theorem run_keep {p : Par ℝ} (hp : Valid p) {o : Subs ℝ} (hu : o.update = update p) (hb : o.biglag = biglag realTrig p) {calfun : Nat → (Nat → ℝ) → ℝ}
    (fuel : Nat) : ∀ ls : Lab × St ℝ, Ok p ls.1 ls.2 → RadOk p ls.1 ls.2 → Keep p ls.1 ls.2 →
      Ok p (run p o calfun fuel ls).1 (run p o calfun fuel ls).2 ∧ Keep p (run p o calfun fuel ls).1 (run p o calfun fuel ls).2 := by
  induction fuel with
  | zero => exact fun _ h _ k => ⟨h, k⟩
  | succ k ih =>
    intro ls ok rad keep
    refine ih _ (ok_stepF laws.add_zero laws.add_comm ls ok) ?_ (keep_stepF hp real_root hu (biglag_ok hb) ls ok rad keep)
    exact rad_run real_root hp.rend hp.rbeg 1 ls ok rad

/-- The points of the inverse matrix differ. -/
theorem Core.apart {p : Par ℝ} {s : St ℝ} (h : Core p s) {k l : Nat} (k1 : 1 ≤ k) (k2 : k ≤ p.npt) (l1 : 1 ≤ l) (l2 : l ≤ p.npt) (ne : k ≠ l) :
    ∃ j, 1 ≤ j ∧ j ≤ p.n ∧ s.xpt k j ≠ s.xpt l j := by
  by_contra q
  push Not at q
  obtain ⟨c, hg⟩ := h.inv
  have e1 := lfun_pt hg k1 k2 k1 k2
  have e2 := lfun_pt hg k1 k2 l1 l2
  rw [if_pos rfl] at e1
  rw [if_neg (Ne.symm ne)] at e2
  have e3 : lfun p s k (s.xpt k) = lfun p s k (s.xpt l) := by
    have : ∀ x, dot p.n x (s.xpt k) = dot p.n x (s.xpt l) := fun x => dot_congr (fun _ _ _ => rfl) q
    unfold lfun
    simp only [this]
  linarith

theorem Core.matches {p : Par ℝ} {s : St ℝ} (h : Core p s) (hc : Cen p s) {f : (Nat → ℝ) → ℝ} (hv : ∀ e ∈ s.log, e.2 = f e.1) (hm : Least s.log s.fopt) :
    Matches p.n p.npt f s.log (s.model p) := by
  refine ⟨fun k j => s.xbase j + s.xpt k j, fun k k1 k2 => ?_, fun k l k1 k2 l1 l2 ne => ?_, s.kopt, hc.k1, hc.k2, ?_⟩
  · have m := h.log k k1 k2
    have e := hv _ m
    dsimp only at e
    refine ⟨by rw [← e]; exact m, ?_⟩
    rw [← e]
    unfold St.model
    have i := h.int k s.kopt k1 k2 hc.k1 hc.k2
    rw [show (fun j => s.xbase j + s.xpt k j - s.xbase j) = s.xpt k from funext fun j => by ring, hc.x, hc.f, i]
    ring
  · obtain ⟨j, j1, j2, j3⟩ := h.apart k1 k2 l1 l2 ne
    exact ⟨j, j1, j2, fun w => j3 (add_left_cancel w)⟩
  · have m := h.log s.kopt hc.k1 hc.k2
    have e := hv _ m
    dsimp only at e
    rw [← e, ← hc.f]
    exact hm

/-- Each time that a trust region step or a step for the geometry is computed (labels `l100` and `l120`), and each time
that a value is asked for after the first ones, the quadratic model takes the values of the objective function at `NPT`
points. -/
theorem newuoa_interpolates {p : Par ℝ} (hp : Valid p) {o : Subs ℝ} (hu : o.update = update p) (hb : o.biglag = biglag realTrig p)
    (f : (Nat → ℝ) → ℝ) {s0 : St ℝ} (hl : s0.log = []) {fuel : Nat} {l : Lab} {s : St ℝ} (hr : run p o (fun _ => f) fuel (.l50, init s0) = (l, s))
    (hlab : l = .l100 ∨ l = .l120 ∨ l = .ask ∧ p.npt < s.nf) : Matches p.n p.npt f s.log (s.model p) := by
  have npt0 : 0 < p.npt := by have := hp.lo; omega
  obtain ⟨ok, keep⟩ := run_keep hp hu hb (calfun := fun _ => f) fuel (.l50, init s0) (ok_init npt0 s0 hl) trivial ⟨0, Begun.zero p s0, npt0⟩
  have val := run_values p o f fuel (.l50, init s0) (by intro e he; rw [show (init s0).log = [] from hl] at he; simp at he)
  rw [hr] at ok keep val
  rcases hlab with rfl | rfl | ⟨rfl, q⟩
  · exact keep.1.matches keep.2 val ok.2.2.2.1
  · exact keep.1.matches keep.2.1 val ok.1.2.2.2.1
  · rcases keep with ⟨w, -⟩ | ⟨-, k1, k2, -⟩
    · exact absurd q (by have w : s.nf ≤ p.npt := w; omega)
    · rcases ok.1.2.2 with ⟨w, -⟩ | ⟨-, m, -⟩
      · exact absurd q (by have w : s.nf ≤ p.npt := w; omega)
      · exact k1.matches k2 val m.1

/-- When `update` is called (label `l410`), the denominator `ALPHA*BETA + TAU*TAU` of its formulas is positive, `ALPHA` being
the diagonal element of the inverse matrix, and the index `IDZ` is 1. -/
theorem newuoa_denominator {p : Par ℝ} (hp : Valid p) {o : Subs ℝ} (hu : o.update = update p) (hb : o.biglag = biglag realTrig p)
    (f : (Nat → ℝ) → ℝ) {s0 : St ℝ} (hl : s0.log = []) {fuel : Nat} {s : St ℝ} (hr : run p o (fun _ => f) fuel (.l50, init s0) = (.l410, s)) :
    0 < (∑ j ∈ Finset.Icc 1 p.nptm, s.zmat s.knew.toNat j * s.zmat s.knew.toNat j) * s.beta + s.vlag s.knew.toNat * s.vlag s.knew.toNat ∧ s.idz = 1 := by
  have npt0 : 0 < p.npt := by have := hp.lo; omega
  obtain ⟨-, keep⟩ := run_keep hp hu hb (calfun := fun _ => f) fuel (.l50, init s0) (ok_init npt0 s0 hl) trivial ⟨0, Begun.zero p s0, npt0⟩
  rw [hr] at keep
  have keep : Swap p s := keep
  exact ⟨keep.den, keep.core.idz⟩

/-- In the variables of the user, with the scaling and the sign of a maximization. -/
theorem optimize_interpolates {a : Args ℝ} {s0 : St ℝ} {p : Par ℝ} {scl : Option (Nat → ℝ)} {ls : Lab × St ℝ} (ha : prepare a s0 = .inr (p, scl, ls))
    {o : Par ℝ → Subs ℝ} (hu : (o p).update = update p) (hb : (o p).biglag = biglag realTrig p) (f : (Nat → ℝ) → ℝ) {fuel : Nat} {l : Lab} {s : St ℝ}
    (hr : run p (o p) (objfun (fun _ => f) a.maximize scl) fuel ls = (l, s)) (hlab : l = .l100 ∨ l = .l120 ∨ l = .ask ∧ p.npt < s.nf) :
    Matches a.n.toNat a.npt.toNat (fun x => if a.maximize then -f (unscale scl x) else f (unscale scl x)) s.log (s.model p) := by
  unfold prepare at ha
  split_ifs at ha with c1 c2 c3
  cases e : scaling a.n.toNat a.scl with
  | none => rw [e] at ha; simp at ha
  | some scl' =>
    rw [e] at ha
    simp only [Sum.inr.injEq, Prod.mk.injEq] at ha
    obtain ⟨rfl, rfl, rfl⟩ := ha
    push Not at c1 c2 c3
    refine newuoa_interpolates ⟨?_, ?_, ?_, c3.1, c3.2⟩ hu hb (fun x => if a.maximize then -f (unscale scl' x) else f (unscale scl' x)) (s0 := _) ?_ hr hlab
    · show 1 ≤ a.n.toNat; omega
    · show a.n.toNat + 2 ≤ a.npt.toNat; omega
    · show 2 * a.npt.toNat ≤ (a.n.toNat + 1) * (a.n.toNat + 2)
      have h := c2.2
      have : 2 * a.npt ≤ (a.n + 2) * (a.n + 1) := by
        have := Int.mul_ediv_self_le (x := (a.n + 2) * (a.n + 1)) (k := 2) (by norm_num)
        linarith
      have n0 : 0 ≤ a.n := by omega
      have m0 : 0 ≤ a.npt := by omega
      zify
      rw [Int.toNat_of_nonneg n0, Int.toNat_of_nonneg m0]
      linarith
    · rfl

/-! ### The hypotheses can be met -/

/-- If the number of calls is at least `NPT`, the iterations begin. -/
theorem run_begins {p : Par ℝ} (hp : Valid p) (hm : (p.npt : Int) ≤ p.maxfun) (o : Subs ℝ) (calfun : Nat → (Nat → ℝ) → ℝ) (s0 : St ℝ) :
    ∃ fuel s, run p o calfun fuel (.l50, init s0) = (.l100, s) ∧ s.rho = p.rhobeg ∧ s.delta = p.rhobeg ∧ s.nf = p.npt ∧
      ∃ t, Begun p p.npt t ∧ s = { (begin p t).2 with nfsav := t.nf } := by
  have three : ∀ m s, m < p.npt → Begun p m s → run p o calfun 3 (.l50, s) = l70 p (put (calfun (l50 p s).2.log.length (l50 p s).2.x) (l50 p s).2) := by
    intro m s h b
    have e : l310 p (l50 p s).2 = (.ask, (l50 p s).2) := by
      unfold l310
      rw [if_neg]
      have : (l50 p s).2.nf = m + 1 := by show s.nf + 1 = m + 1; rw [b.nf]
      rw [this]
      have := le_max_left p.maxfun 1
      push_cast
      omega
    show stepF p o calfun (stepF p o calfun (.l310, (l50 p s).2)) = _
    show stepF p o calfun (l310 p (l50 p s).2) = _
    rw [e]
    show after p (put _ _) = _
    unfold after
    rw [if_pos]
    show s.nf + 1 ≤ p.npt
    rw [b.nf]; omega
  have key : ∀ m, m < p.npt → ∃ s, run p o calfun (3 * m) (.l50, init s0) = (.l50, s) ∧ Begun p m s := by
    intro m
    induction m with
    | zero => exact fun _ => ⟨init s0, rfl, Begun.zero p s0⟩
    | succ m ih =>
      intro h
      obtain ⟨s, e, b⟩ := ih (by omega)
      refine ⟨model p (store (put (calfun (l50 p s).2.log.length (l50 p s).2.x) (l50 p s).2)), ?_, b.step hp (by omega) _⟩
      rw [show 3 * (m + 1) = 3 * m + 3 from rfl, run_add, e, three m s (by omega) b]
      unfold l70
      dsimp only
      rw [if_pos]
      rw [(b.step hp (by omega) (calfun (l50 p s).2.log.length (l50 p s).2.x)).nf]
      exact h
  obtain ⟨s, e, b⟩ := key (p.npt - 1) (by have := hp.lo; omega)
  have lt : p.npt - 1 < p.npt := by have := hp.lo; omega
  have e2 : run p o calfun (3 * (p.npt - 1) + 3) (.l50, init s0) = begin p (model p (store (put (calfun (l50 p s).2.log.length (l50 p s).2.x) (l50 p s).2))) := by
    rw [run_add, e, three _ s lt b]
    unfold l70
    dsimp only
    rw [if_neg]
    rw [(b.step hp lt (calfun (l50 p s).2.log.length (l50 p s).2.x)).nf]
    omega
  refine ⟨3 * (p.npt - 1) + 3 + 1, { (begin p (model p (store (put (calfun (l50 p s).2.log.length (l50 p s).2.x) (l50 p s).2)))).2 with
    nfsav := (begin p (model p (store (put (calfun (l50 p s).2.log.length (l50 p s).2.x) (l50 p s).2)))).2.nf }, ?_⟩
  have b' := b.step hp lt (calfun (l50 p s).2.log.length (l50 p s).2.x)
  rw [show p.npt - 1 + 1 = p.npt by omega] at b'
  refine ⟨by rw [run_add, e2]; rfl, rfl, rfl, ?_, _, b', rfl⟩
  show (model p (store (put (calfun (l50 p s).2.log.length (l50 p s).2.x) (l50 p s).2))).nf = p.npt
  rw [(b.step hp lt (calfun (l50 p s).2.log.length (l50 p s).2.x)).nf]
  omega

/-- For instance, for each objective function of three variables with seven points. -/
example (f : (Nat → ℝ) → ℝ) (s0 : St ℝ) (trsapp : St ℝ → (Nat → ℝ) × ℝ × (Nat → ℝ)) :
    let p : Par ℝ := ⟨3, 7, 1, 1 / 1000, 200⟩
    let o : Subs ℝ := ⟨trsapp, biglag realTrig p, fun s => (s.d, s.w, s.vlag, s.beta, s.xnew), update p⟩
    ∃ fuel s, run p o (fun _ => f) fuel (.l50, init { s0 with log := [] }) = (.l100, s) ∧ Matches 3 7 f s.log (s.model p) := by
  intro p o
  have hp : Valid p := ⟨by decide, by decide, by decide, by norm_num [p], by norm_num [p]⟩
  obtain ⟨fuel, s, e, -⟩ := run_begins hp (by decide) o (fun _ => f) { s0 with log := [] }
  exact ⟨fuel, s, e, newuoa_interpolates hp rfl rfl f rfl e (Or.inl rfl)⟩

end Opk.Newuoa
