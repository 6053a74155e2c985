import Verif.Nlcg.Descent
import Verif.Vmlmb.Convex
/-! # C90: convergence of the conjugate gradient optimizer

Exact arithmetic (real numbers), Moré and Thuente line search. -/
set_option linter.unusedSectionVars false
set_option linter.unusedSimpArgs false
namespace Opk.Nlcg
open Opk.Optim Matrix
open Opk.Vmlmb (exactVs Smooth Strong Tol gnormAt dot_nonneg cauchy wolfe_decrease)

variable {ι : Type} [Fintype ι] [DecidableEq ι]

/-- Optimizer and variables of the caller. -/
abbrev St (ι : Type) := Sess ℝ (LineSearch.Csrch ℝ) (ι → ℝ)

/-- What the caller does: the function `F` and the gradient `G` are computed when asked for, the optimizer is called again after each
new iterate, and the session stops on any other task. -/
noncomputable def turn (par : Par ℝ (ι → ℝ)) (F : (ι → ℝ) → ℝ) (G : (ι → ℝ) → ι → ℝ) (s : St ι) : Option (St ι) :=
  match s.opt.task with
  | .computeFG => s.reply par LineSearch.csrchOps (F s.x) (G s.x)
  | .newX => s.next par LineSearch.csrchOps
  | _ => some s

/-- The session after `k` calls. -/
noncomputable def run (par : Par ℝ (ι → ℝ)) (F : (ι → ℝ) → ℝ) (G : (ι → ℝ) → ι → ℝ) (s : St ι) : ℕ → Option (St ι)
  | 0 => some s
  | k + 1 => (run par F G s k).bind (turn par F G)

theorem real_sqrt (a : ℝ) (h : 0 ≤ a) : 0 ≤ CMath.sqrt a ∧ CMath.sqrt a * CMath.sqrt a = a :=
  ⟨Real.sqrt_nonneg a, Real.mul_self_sqrt h⟩

/-- The initial step is positive. -/
theorem begun_pos (par : Par ℝ (ι → ℝ)) (hs : Setting par) (ops : LineSearch.Ops ℝ (LineSearch.Csrch ℝ)) (o : Opt ℝ (LineSearch.Csrch ℝ) (ι → ℝ)) (x : ι → ℝ) (f : ℝ)
    (g : ι → ℝ) (r : Opt ℝ (LineSearch.Csrch ℝ) (ι → ℝ)) (hB : Begun par ops o x f g r) (hg : 0 < o.gnorm) (hv : Vecs par o)
    (h : 1 < o.evaluations → o.dtg0 < 0 ∧ 0 < o.alpha) : 0 < r.alpha := by
  obtain ⟨q, hq, -, -, s3, -, -⟩ := hB.stages
  obtain ⟨beta, d, y, dtg, e, -⟩ := direction_some par o g hv
  rw [e] at hq
  cases hq
  rw [← s3]
  unfold initialStep
  have hev : dtg < 0 → 1 < o.evaluations := by
    intro h1
    by_contra hc
    unfold direction at e
    rw [if_pos (by omega)] at e
    simp only [Option.some.injEq, Opt.mk.injEq] at e
    rw [← e.2.2.2.2.1] at h1
    exact lt_irrefl _ h1
  split_ifs with h1 h2 h3
  · obtain ⟨k1, k2⟩ := h (hev h1)
    exact mul_pos k2 (div_pos_of_neg_of_neg k1 h1)
  · exact (h (hev h1)).2
  all_goals
    dsimp only
    unfold steepestStep
    rw [hs.fmin]
    simp only [Bool.false_eq_true, false_and, if_false]
    have hd := hs.delta
    split_ifs with h4 h5
    · rw [ExactMath.lit_eq, ExactMath.fabs_eq]
      have hf0 : f ≠ 0 := by simpa using h4
      have hn : -o.gnorm * o.gnorm ≠ 0 := by
        have : 0 < o.gnorm * o.gnorm := by positivity
        intro q; linarith
      have : (0:ℝ) < |f / (-o.gnorm * o.gnorm)| := abs_pos.mpr (div_ne_zero hf0 hn)
      push_cast
      linarith
    · exact div_pos (mul_pos hd h5) hg
    · exact div_pos hd hg

/-- Parameters of the optimizer. -/
structure Usual (par : Par ℝ (ι → ℝ)) : Prop where
  set : Setting par
  lo : 0 < par.stpmin
  mid : par.stpmin ≤ 1 ∧ 1 ≤ par.stpmax

/-- Property `Dir n d g` of the directions `-d` of the iteration `n` (from 0) at an iterate where the gradient is `g`: it is kept by the
recurrence, and it bounds the angle. -/
structure Dirs (par : Par ℝ (ι → ℝ)) (G : (ι → ℝ) → ι → ℝ) (gtol τ : ℝ) (Dir : ℕ → (ι → ℝ) → (ι → ℝ) → Prop) (bound : ℕ → ℝ) : Prop where
  pos : ∀ n, 0 < bound n
  steep : ∀ n g, τ ^ 2 < g ⬝ᵥ g → Dir n g g
  next : ∀ (n : ℕ) (d x : ι → ℝ) (a : ℝ) (d' : ι → ℝ), Dir n d (G x) → 0 < d ⬝ᵥ G x → 0 < a → τ ^ 2 < G x ⬝ᵥ G x → τ ^ 2 < G (x - a • d) ⬝ᵥ G (x - a • d) →
    |d ⬝ᵥ G (x - a • d)| ≤ gtol * (d ⬝ᵥ G x) →
    ¬ Restarts par.rule (hasBit par.flags POWELL) par.epsilon (-d) (G x) (G (x - a • d)) →
    -d' = published_direction par.rule (hasBit par.flags POWELL) (-d) (G x) (G (x - a • d)) → 0 < d' ⬝ᵥ G (x - a • d) →
    Dir (n + 1) d' (G (x - a • d))
  ratio : ∀ n d g, Dir n d g → τ ^ 2 < g ⬝ᵥ g → 0 < d ⬝ᵥ g → d ⬝ᵥ d ≤ bound n * (d ⬝ᵥ g) ^ 2

section loop
variable (par : Par ℝ (ι → ℝ)) (F : (ι → ℝ) → ℝ) (G : (ι → ℝ) → ι → ℝ) (x1 : ι → ℝ) (ftol gtol τ : ℝ)
  (Dir : ℕ → (ι → ℝ) → (ι → ℝ) → Prop) (gain : ℕ → ℝ)

/-- The optimizer waits for the first function value. -/
structure First (s : St ι) : Prop where
  inv : SInv par s
  task : s.opt.task = .computeFG
  ev : s.opt.evaluations = 0
  it : s.opt.iterations = 0
  x : s.x = x1
  tol : Tol s.opt.ls ftol gtol

/-- What is known at an iterate of the search which has led to it. -/
structure Came (m : ℕ) (s : St ι) (x0 : ι → ℝ) (a : ℝ) : Prop where
  alpha : 0 < s.opt.alpha
  step : 0 < a
  x : s.x = x0 - a • s.opt.d
  gp : s.gp = G x0
  dir : Dir m s.opt.d (G x0)
  wolfe : |s.opt.d ⬝ᵥ G s.x| ≤ gtol * (s.opt.d ⬝ᵥ G x0)
  gn : τ < gnormAt G x0

/-- The optimizer has an iterate. -/
structure Point (n : ℕ) (s : St ι) : Prop where
  inv : SInv par s
  ev : 1 ≤ s.opt.evaluations
  it : s.opt.iterations = n
  tol : Tol s.opt.ls ftol gtol
  ginit : s.opt.ginit = gnormAt G x1
  f : s.f = F s.x
  g : s.g = G s.x
  task : s.opt.task = (if gnormAt G s.x ≤ τ then .finalX else .newX)
  low : F s.x + ∑ j ∈ Finset.range n, gain j ≤ F x1
  past : 1 < s.opt.evaluations → ∃ m x0 a, n = m + 1 ∧ Came G gtol τ Dir m s x0 a

/-- A line search is running. -/
structure Search (n : ℕ) (s : St ι) : Prop where
  inv : SInv par s
  task : s.opt.task = .computeFG
  ev : 1 ≤ s.opt.evaluations
  it : s.opt.iterations = n
  tol : Tol s.opt.ls ftol gtol
  ginit : s.opt.ginit = gnormAt G x1
  lsi : LineSearch.Inv s.opt.ls
  fresh : LineSearch.Fresh s.opt.ls
  lo : 0 < s.opt.ls.stpmin
  x : s.x = s.opt.x0 - s.opt.alpha • s.opt.d
  finit : s.opt.ls.finit = F s.opt.x0
  slope : s.opt.ls.ginit = -(s.opt.d ⬝ᵥ G s.opt.x0)
  gp : s.gp = G s.opt.x0
  dir : Dir n s.opt.d (G s.opt.x0)
  gn : τ < gnormAt G s.opt.x0
  low : F s.opt.x0 + ∑ j ∈ Finset.range n, gain j ≤ F x1

/-- The line search has failed. -/
structure Failed (fmin : ℝ) (n : ℕ) (s : St ι) : Prop where
  task : s.opt.task = .error
  status : s.opt.status = .ls .stepEqStpmin ∨ s.opt.status = .ls .stepEqStpmax ∨ s.opt.status = .ls .xtolTestSatisfied
  it : s.opt.iterations = n
  low : ∑ j ∈ Finset.range n, gain j ≤ F x1 - fmin

theorem sq_lt_of_lt (hτ : 0 ≤ τ) (x : ι → ℝ) (h : τ < gnormAt G x) : τ ^ 2 < G x ⬝ᵥ G x := (Real.lt_sqrt hτ).mp h

/-- The invariant of the sessions is kept. -/
theorem turn_inv (hu : Usual par) (s : St ι) (h : SInv par s) (ht : s.opt.task = .computeFG ∨ s.opt.task = .newX) (s' : St ι) (e : turn par F G s = some s') : SInv par s' := by
  obtain ⟨t, e1, h1⟩ := act_inv real_sqrt par hu.set LineSearch.csrchOps LineSearch.csrch_method s h (.go (F s.x) (G s.x))
  have : turn par F G s = s.act par LineSearch.csrchOps (.go (F s.x) (G s.x)) := by
    unfold turn Sess.act
    rcases ht with q | q <;> rw [q] <;> simp
  rw [this, e1] at e
  cases e
  exact h1

theorem accept_task (hu : Usual par) (hτ : τ = max (max 0 par.gatol) (par.grtol * gnormAt G x1)) (o : Opt ℝ (LineSearch.Csrch ℝ) (ι → ℝ)) (x : ι → ℝ)
    (h1 : o.evaluations ≤ 1 → x = x1) (h2 : 1 < o.evaluations → o.ginit = gnormAt G x1) :
    ∃ t, accept par o (G x) = { o with gnorm := gnormAt G x, ginit := gnormAt G x1, status := .success, task := t } ∧
      t = (if gnormAt G x ≤ τ then .finalX else .newX) := by
  obtain ⟨gi, t, e, e1, e2⟩ := accept_eq par o (G x)
  have en : par.vs.norm2 (G x) = gnormAt G x := by rw [hu.set.vs]; rfl
  rw [en] at e e1 e2
  have : gi = gnormAt G x1 := by
    rw [e1]
    split_ifs with c
    · rw [h1 c]
    · exact h2 (not_le.mp c)
  rw [this] at e e2
  rw [max3_eq, ← hτ] at e2
  exact ⟨t, e, e2⟩

theorem first_step (hu : Usual par) (hτ : τ = max (max 0 par.gatol) (par.grtol * gnormAt G x1)) (s : St ι) (h : First par x1 ftol gtol s) :
    ∃ s', turn par F G s = some s' ∧ Point par F G x1 ftol gtol τ Dir gain 0 s' ∧ s'.x = x1 := by
  obtain ⟨t, e1, e2⟩ := accept_task par G x1 τ hu hτ { s.opt with evaluations := s.opt.evaluations + 1 } s.x (fun _ => h.x) (fun q => by dsimp only at q; rw [h.ev] at q; omega)
  have e : turn par F G s = some ⟨accept par { s.opt with evaluations := s.opt.evaluations + 1 } (G s.x), s.x, F s.x, G s.x, s.gp⟩ := by
    unfold turn Sess.reply
    rw [h.task]
    unfold iterate
    simp only [h.task]
    rcases onFG_cases par LineSearch.csrchOps s.opt (F s.x) (G s.x) with ⟨-, k⟩ | ⟨k, -⟩
    · rw [k]; simp only [finish, h.task]; rfl
    · rw [h.ev] at k; omega
  have inv' := turn_inv par F G hu s h.inv (Or.inl h.task) _ e
  rw [e1] at e inv'
  refine ⟨_, e, ⟨inv', ?_, ?_, h.tol, rfl, rfl, rfl, e2, ?_, ?_⟩, h.x⟩ <;> dsimp only
  · rw [h.ev]; norm_num
  · rw [h.it]; rfl
  · rw [h.x]; simp
  · intro q; rw [h.ev] at q; omega

theorem point_step (hu : Usual par) (hτ : 0 ≤ τ) (bound : ℕ → ℝ) (hd : Dirs par G gtol τ Dir bound) (f0 : 0 ≤ ftol) (f1 : ftol < 1) (f4 : ftol ≤ gtol)
    (n : ℕ) (s : St ι) (h : Point par F G x1 ftol gtol τ Dir gain n s) (ht : s.opt.task = .newX) :
    ∃ s', turn par F G s = some s' ∧ Search par F G x1 ftol gtol τ Dir gain n s' := by
  have hgt : τ < gnormAt G s.x := by
    have := h.task
    rw [ht] at this
    by_contra q
    rw [if_pos (not_lt.mp q)] at this
    cases this
  have hg0 := hτ.trans_lt hgt
  have hgg := sq_lt_of_lt G τ hτ s.x hgt
  obtain ⟨n1, n2, n3⟩ := h.inv.newX (Or.inl ht)
  have hgn : s.opt.gnorm = gnormAt G s.x := by rw [n1, h.g]; rfl
  obtain ⟨r, hB, hr⟩ := iterate_newX par LineSearch.csrchOps s.opt s.x s.f s.g h.inv.vecs (Or.inl ht)
  have ha : 0 < r.alpha := begun_pos par hu.set _ s.opt s.x s.f s.g r hB (by rw [hgn]; exact hg0) h.inv.vecs (fun q => by
    obtain ⟨-, l⟩ := n3 q
    obtain ⟨m, x0, a, -, p⟩ := h.past q
    exact ⟨l.neg, p.alpha⟩)
  have hgg0 : 0 < s.g ⬝ᵥ s.g := by rw [h.g]; exact (sq_nonneg τ).trans_lt hgg
  have key : r.dtg = -(r.d ⬝ᵥ s.g) ∧ r.dtg < 0 ∧ Dir n r.d s.g := by
    by_cases hev : 1 < s.opt.evaluations
    · obtain ⟨l1, l2⟩ := n3 hev
      obtain ⟨m, x0, a, en, p⟩ := h.past hev
      rcases begun_direction real_sqrt par hu.set _ s.opt s.x s.f s.g s.gp h.inv.vecs hev l2 n1 l1 r hB with ⟨-, b1, b2, -⟩ | ⟨b0, b1, b2, b3, -⟩
      · rw [b1, b2]
        exact ⟨rfl, by linarith, hd.steep n s.g (by rw [h.g]; exact hgg)⟩
      · refine ⟨b2, b3, ?_⟩
        rw [b2] at b3
        have l3 := l2.neg
        rw [l2.dtg0] at l3
        rw [p.gp] at b0 b1 l3
        rw [h.g] at b0 b1 b3 ⊢
        have w := p.wolfe
        have gx := hgg
        rw [p.x] at b0 b1 b3 w gx ⊢
        rw [en]
        exact hd.next m s.opt.d x0 a r.d p.dir (by linarith) p.step (sq_lt_of_lt G τ hτ x0 p.gn) gx w b0 b1 (by linarith)
    · obtain ⟨b1, b2, -⟩ := begun_first real_sqrt par _ s.opt s.x s.f s.g (by omega) n1 r hB
      rw [b1, b2]
      exact ⟨rfl, by linarith, hd.steep n s.g (by rw [h.g]; exact hgg)⟩
  obtain ⟨k1, k2, k3⟩ := key
  have hl := hu.lo
  have hm := hu.mid
  have hok : LineSearch.Args.Ok ⟨s.f, r.dtg, r.alpha, par.stpmin * r.alpha, par.stpmax * r.alpha⟩ :=
    ⟨(mul_pos hl ha).le, ⟨show par.stpmin * r.alpha ≤ r.alpha by nlinarith, show r.alpha ≤ par.stpmax * r.alpha by nlinarith⟩, k2⟩
  obtain ⟨s1, s2, s3, s4, s5, s6, s7, s8, s9⟩ := LineSearch.start_real s.opt.ls (by rw [h.tol.ftol]; exact f0) (by rw [h.tol.ftol]; exact f1)
    (by rw [h.tol.ftol, h.tol.gtol]; exact f4) _ hok
  dsimp only at s1 s2 s3 s4 s5 s6 s7 s8 s9
  rw [← hB.ls] at s1 s2 s3 s4 s5 s6 s7 s8 s9
  rcases hr with ⟨-, hr⟩ | ⟨hr, -⟩
  swap
  · exact absurd s1.task hr
  have e : turn par F G s = some ⟨success r .computeFG, s.x - r.alpha • r.d, s.f, s.g, s.g⟩ := by
    unfold turn Sess.next
    rw [ht]
    dsimp only
    rw [hr]
    simp only [Option.map_some, trial]
    rw [hu.set.vs, hB.x0]
    dsimp only [exactVs]
    rw [one_smul, neg_smul, ← sub_eq_add_neg]
  refine ⟨_, e, turn_inv par F G hu s h.inv (Or.inr ht) _ e, rfl, ?_, ?_, ⟨s7.trans h.tol.ftol, s8.trans h.tol.gtol, ?_⟩, ?_, s1, s2, ?_, ?_, ?_, ?_, ?_, ?_, ?_, ?_⟩ <;>
    dsimp only [success] <;> try rw [hB.x0]
  · rw [hB.evaluations]; exact h.ev
  · rw [hB.iterations]; exact h.it
  · rw [s9]; exact h.tol.xtol
  · rw [hB.ginit]; exact h.ginit
  · rw [s6]; exact mul_pos hl ha
  · rw [s3]; exact h.f
  · rw [s4, k1, h.g]
  · exact h.g
  · rw [← h.g]; exact k3
  · exact hgt
  · exact h.low

theorem search_step (hu : Usual par) (hτ : τ = max (max 0 par.gatol) (par.grtol * gnormAt G x1)) (bound : ℕ → ℝ) (hd : Dirs par G gtol τ Dir bound)
    (L fmin : ℝ) (hs : Smooth F G L fmin) (hgain : ∀ n, gain n = ftol * (1 - gtol) / (L * bound n))
    (f0 : 0 ≤ ftol) (f4 : 4 * ftol ≤ gtol) (g1 : gtol < 1) (n : ℕ) (s : St ι) (h : Search par F G x1 ftol gtol τ Dir gain n s) :
    ∃ s', turn par F G s = some s' ∧
    ((Search par F G x1 ftol gtol τ Dir gain n s' ∧ LineSearch.Same s.opt.ls s'.opt.ls ∧ LineSearch.Move s.opt.ls s'.opt.ls) ∨
     Point par F G x1 ftol gtol τ Dir gain (n + 1) s' ∨ Failed F x1 gain fmin n s') := by
  have hτ0 : 0 ≤ τ := by rw [hτ]; exact (le_max_left _ _).trans (le_max_left _ _)
  have h4 : 4 * s.opt.ls.m.ftol ≤ s.opt.ls.m.gtol := by rw [h.tol.ftol, h.tol.gtol]; exact f4
  obtain ⟨i1, i2, i3, i4⟩ := LineSearch.iterate_real s.opt.ls h.lsi h4 (F s.x) (-(s.opt.d ⬝ᵥ G s.x))
  obtain ⟨i6, i7⟩ := LineSearch.iterate_end s.opt.ls h.lsi.task (F s.x) (-(s.opt.d ⬝ᵥ G s.x))
  have i5 := LineSearch.iterate_stp s.opt.ls h.lsi.task (F s.x) (-(s.opt.d ⬝ᵥ G s.x))
  have i4' := i4 h.fresh
  have ev := h.ev
  obtain ⟨-, hstp, -, -, hl⟩ := h.inv.fg h.task (by omega)
  have et : turn par F G s = some ⟨(finish par s.x (onFG par LineSearch.csrchOps s.opt (F s.x) (G s.x))).1,
      (finish par s.x (onFG par LineSearch.csrchOps s.opt (F s.x) (G s.x))).2, F s.x, G s.x, s.gp⟩ := by
    unfold turn Sess.reply
    rw [h.task]
    unfold iterate
    simp only [h.task, Option.map_some]
  have inv' := turn_inv par F G hu s h.inv (Or.inl h.task) _ et
  refine ⟨_, et, ?_⟩
  clear et
  rcases onFG_cases par LineSearch.csrchOps s.opt (F s.x) (G s.x) with ⟨k, -⟩ | ⟨-, q, r, hq, hr, hk⟩
  · omega
  have ed : -par.vs.dot s.opt.d (G s.x) = -(s.opt.d ⬝ᵥ G s.x) := by rw [hu.set.vs]; rfl
  rw [ed] at hq hr
  rw [← hstp] at hq
  rw [← hq] at i1 i2 i3 i4' i5 i6 i7
  have htol : Tol q.1 ftol gtol := ⟨i2.ftol.trans h.tol.ftol, i2.gtol.trans h.tol.gtol, by rw [i2.xtol]; exact h.tol.xtol⟩
  have hstep : 0 < s.opt.alpha := by
    have := h.lsi.lo
    rw [hstp] at this
    exact h.lo.trans_le this
  rcases hk with ⟨c1, ek⟩ | ⟨c2, ek⟩ | ⟨c1, c2, c3, ek⟩
  · left
    obtain ⟨j1, j2⟩ := i3 c1
    rw [ek] at inv' ⊢
    subst hr
    refine ⟨⟨inv', rfl, ?_, h.it, htol, h.ginit, j1, j2.fresh h4, ?_, ?_, i2.finit.trans h.finit, i2.ginit.trans h.slope, h.gp, h.dir, h.gn, h.low⟩, i2, j2⟩
    · show 1 ≤ s.opt.evaluations + 1
      omega
    · show 0 < q.1.stpmin
      rw [i2.stpmin]; exact h.lo
    · simp only [finish, trial, success]
      rw [hu.set.vs]
      dsimp only [exactVs]
      rw [one_smul, neg_smul, ← sub_eq_add_neg]
  · right; left
    have c : q.1.task = .convergence := c2.resolve_right (fun w => i4' w.2)
    obtain ⟨w1, w2⟩ := i6 c
    have hpos := h.lsi.g0
    rw [h.slope] at hpos w2
    rw [h.lsi.gt, h.slope, h.finit, h.tol.ftol, hstp] at w1
    rw [h.tol.gtol, abs_neg] at w2
    have w2' : |s.opt.d ⬝ᵥ G s.x| ≤ gtol * (s.opt.d ⬝ᵥ G s.opt.x0) := by linarith
    have hgg := sq_lt_of_lt G τ hτ0 s.opt.x0 h.gn
    have hlow : F s.x + gain n ≤ F s.opt.x0 := by
      have hb := hd.pos n
      have hgp : 0 < G s.opt.x0 ⬝ᵥ G s.opt.x0 := (sq_nonneg τ).trans_lt hgg
      have hrat := hd.ratio n _ _ h.dir hgg (by linarith)
      have hsq : Real.sqrt (1 / (bound n * (G s.opt.x0 ⬝ᵥ G s.opt.x0))) ^ 2 = 1 / (bound n * (G s.opt.x0 ⬝ᵥ G s.opt.x0)) := Real.sq_sqrt (by positivity)
      have hw2 := w2'
      rw [h.x] at w1 hw2 ⊢
      have := wolfe_decrease F G L fmin hs s.opt.x0 s.opt.d s.opt.alpha ftol gtol (Real.sqrt (1 / (bound n * (G s.opt.x0 ⬝ᵥ G s.opt.x0)))) hstep f0 g1 (by linarith) (by linarith) hw2
        (by
          rw [hsq, div_mul_eq_mul_div, one_mul, div_le_iff₀ (by positivity)]
          nlinarith)
      rw [hsq] at this
      have hL := hs.pos
      have e : ftol * (1 - gtol) * (1 / (bound n * (G s.opt.x0 ⬝ᵥ G s.opt.x0))) / L * (G s.opt.x0 ⬝ᵥ G s.opt.x0) = gain n := by
        rw [hgain]
        field_simp
      rw [e] at this
      exact this
    obtain ⟨t, e1, e2⟩ := accept_task par G x1 τ hu hτ { r with iterations := r.iterations + 1 } s.x (fun w => by subst hr; dsimp only at w; omega) (fun _ => by subst hr; exact h.ginit)
    rw [ek] at inv' ⊢
    simp only [finish] at inv' ⊢
    rw [e1] at inv' ⊢
    subst hr
    have hq2 : 0 < q.2 := by
      obtain ⟨k1, -, -, k4, -⟩ := h.inv.fg h.task (by omega)
      have := (LineSearch.iterate_step LineSearch.csrchOps LineSearch.csrch_method s.opt.ls (F s.x) (-(s.opt.d ⬝ᵥ G s.x)) k1 k4).1
      rw [← hq, i5] at this
      exact h.lo.trans_le this
    refine ⟨inv', ?_, ?_, htol, rfl, rfl, rfl, e2, ?_, fun _ => ⟨n, s.opt.x0, s.opt.alpha, rfl, ?_, hstep, h.x, h.gp, h.dir, w2', h.gn⟩⟩
    · dsimp only; omega
    · dsimp only; rw [h.it]; push_cast; rfl
    · rw [Finset.sum_range_succ]
      have := h.low
      dsimp only
      linarith
    · exact hq2
  · right; right
    have c4 : q.1.task = .warning := by
      rcases hh : q.1.task with _ | _ | _ | _
      · exact absurd hh i1
      · exact absurd hh c1
      · exact absurd hh c2
      · rfl
    rw [ek]
    subst hr
    refine ⟨rfl, ?_, h.it, ?_⟩
    · show Optim.Status.ls q.1.status = _ ∨ Optim.Status.ls q.1.status = _ ∨ Optim.Status.ls q.1.status = _
      rcases i7 c4 with w | w | w | w
      · exact Or.inl (congrArg _ w)
      · exact Or.inr (Or.inl (congrArg _ w))
      · exact Or.inr (Or.inr (congrArg _ w))
      · exact absurd w i4'
    · have := h.low
      have := hs.low s.opt.x0
      linarith

/-- What is true of the session all along the run. -/
def Good (fmin : ℝ) (n : ℕ) (s : St ι) : Prop :=
  (n = 0 ∧ First par x1 ftol gtol s) ∨ Point par F G x1 ftol gtol τ Dir gain n s ∨ Search par F G x1 ftol gtol τ Dir gain n s ∨ Failed F x1 gain fmin n s

theorem turn_stays (s : St ι) (h : s.opt.task = .finalX ∨ s.opt.task = .error) : turn par F G s = some s := by
  unfold turn
  rcases h with h | h <;> rw [h]

theorem good_it (fmin : ℝ) (n : ℕ) (s : St ι) (h : Good par F G x1 ftol gtol τ Dir gain fmin n s) : s.opt.iterations = n := by
  rcases h with ⟨rfl, h⟩ | h | h | h
  · exact h.it
  · exact h.it
  · exact h.it
  · exact h.it

theorem good_low (L fmin : ℝ) (hs : Smooth F G L fmin) (n : ℕ) (s : St ι) (h : Good par F G x1 ftol gtol τ Dir gain fmin n s) :
    ∑ j ∈ Finset.range n, gain j ≤ F x1 - fmin := by
  rcases h with ⟨rfl, h⟩ | h | h | h
  · have := hs.low x1
    simp only [Finset.range_zero, Finset.sum_empty]
    linarith
  · have := h.low
    have := hs.low s.x
    linarith
  · have := h.low
    have := hs.low s.opt.x0
    linarith
  · exact h.low

theorem good_step (hu : Usual par) (hτ : τ = max (max 0 par.gatol) (par.grtol * gnormAt G x1)) (bound : ℕ → ℝ) (hd : Dirs par G gtol τ Dir bound)
    (L fmin : ℝ) (hs : Smooth F G L fmin) (hgain : ∀ n, gain n = ftol * (1 - gtol) / (L * bound n))
    (f0 : 0 ≤ ftol) (f4 : 4 * ftol ≤ gtol) (g1 : gtol < 1) (n : ℕ) (s : St ι) (h : Good par F G x1 ftol gtol τ Dir gain fmin n s) :
    ∃ s', turn par F G s = some s' ∧ ∃ m, n ≤ m ∧ Good par F G x1 ftol gtol τ Dir gain fmin m s' := by
  have hτ0 : 0 ≤ τ := by rw [hτ]; exact (le_max_left _ _).trans (le_max_left _ _)
  rcases h with ⟨rfl, h⟩ | h | h | h
  · obtain ⟨s', e, h', -⟩ := first_step par F G x1 ftol gtol τ Dir gain hu hτ s h
    exact ⟨s', e, 0, le_refl _, Or.inr (Or.inl h')⟩
  · by_cases c : s.opt.task = .newX
    · obtain ⟨s', e, h'⟩ := point_step par F G x1 ftol gtol τ Dir gain hu hτ0 bound hd f0 (by linarith) (by linarith) n s h c
      exact ⟨s', e, n, le_refl _, Or.inr (Or.inr (Or.inl h'))⟩
    · have : s.opt.task = .finalX := by
        rw [h.task] at c ⊢
        split_ifs at c ⊢ <;> simp_all
      exact ⟨s, turn_stays par F G s (Or.inl this), n, le_refl _, Or.inr (Or.inl h)⟩
  · obtain ⟨s', e, ⟨h', -⟩ | h' | h'⟩ := search_step par F G x1 ftol gtol τ Dir gain hu hτ bound hd L fmin hs hgain f0 f4 g1 n s h
    · exact ⟨s', e, n, le_refl _, Or.inr (Or.inr (Or.inl h'))⟩
    · exact ⟨s', e, n + 1, by omega, Or.inr (Or.inl h')⟩
    · exact ⟨s', e, n, le_refl _, Or.inr (Or.inr (Or.inr h'))⟩
  · exact ⟨s, turn_stays par F G s (Or.inr h.task), n, le_refl _, Or.inr (Or.inr (Or.inr h))⟩

end loop

/-- How a session ends: a small gradient and a function value which is not greater than the first one, or one of three failures of the line search. -/
def Ends (F : (ι → ℝ) → ℝ) (G : (ι → ℝ) → ι → ℝ) (x1 : ι → ℝ) (tol : ℝ) (s : St ι) : Prop :=
  s.opt.task = .finalX ∧ Real.sqrt (G s.x ⬝ᵥ G s.x) ≤ tol ∧ s.f = F s.x ∧ s.f ≤ F x1 ∨
  s.opt.task = .error ∧ (s.opt.status = .ls .stepEqStpmin ∨ s.opt.status = .ls .stepEqStpmax ∨ s.opt.status = .ls .xtolTestSatisfied)

/-- The session ends if the angles between the search directions and the gradients do not become too large too fast. -/
theorem run_ends (par : Par ℝ (ι → ℝ)) (hu : Usual par) (F : (ι → ℝ) → ℝ) (G : (ι → ℝ) → ι → ℝ) (L fmin : ℝ) (hs : Smooth F G L fmin)
    (ftol gtol : ℝ) (f0 : 0 < ftol) (f4 : 4 * ftol ≤ gtol) (g1 : gtol < 1) (hpos : 0 < par.gatol ∨ 0 < par.grtol) (x1 : ι → ℝ) (τ : ℝ)
    (hτ : τ = max (max 0 par.gatol) (par.grtol * gnormAt G x1))
    (hdir : 0 < τ → ∃ Dir bound, Dirs par G gtol τ Dir bound ∧ ∀ C, ∃ n, C < ∑ j ∈ Finset.range n, 1 / bound j)
    (s : St ι) (hF : First par x1 ftol gtol s) :
    ∃ r : ℕ → St ι, (∀ k, run par F G s k = some (r k)) ∧ ∃ n, (∀ k, n ≤ k → r k = r n) ∧ Ends F G x1 τ (r n) := by
  have hτ0 : 0 ≤ τ := by rw [hτ]; exact (le_max_left _ _).trans (le_max_left _ _)
  by_cases hth : τ = 0
  · -- the gradient is zero at the first iterate
    have e1 : gnormAt G x1 = 0 := by
      have h1 : par.gatol ≤ 0 := ((le_max_right 0 par.gatol).trans (le_max_left _ _)).trans (hτ.symm.trans hth).le
      have h2 : par.grtol * gnormAt G x1 ≤ 0 := (le_max_right _ _).trans (hτ.symm.trans hth).le
      have h3 : 0 < par.grtol := hpos.resolve_left (not_lt.mpr h1)
      have h4 : 0 ≤ gnormAt G x1 := Real.sqrt_nonneg _
      nlinarith
    obtain ⟨s', e, h', hx⟩ := first_step par F G x1 ftol gtol τ (fun _ _ _ => True) (fun _ => 0) hu hτ s hF
    have ht : s'.opt.task = .finalX := by rw [h'.task, hx, if_pos (by rw [e1, hth])]
    refine ⟨fun k => if k = 0 then s else s', ?_, 1, ?_, Or.inl ⟨ht, ?_, h'.f, ?_⟩⟩
    · intro k
      induction k with
      | zero => rfl
      | succ k ih =>
        show (run par F G s k).bind _ = _
        rw [ih]
        by_cases hk : k = 0
        · subst hk; exact e
        · dsimp only
          rw [if_neg hk]
          exact turn_stays par F G s' (Or.inl ht)
    · intro k hk
      simp only [one_ne_zero, if_false]
      rw [if_neg (by omega)]
    · simp only [one_ne_zero, if_false]
      rw [hx, hth]
      exact e1.le
    · simp only [one_ne_zero, if_false]
      rw [h'.f, hx]
  obtain ⟨Dir, bound, hd, hdiv⟩ := hdir (lt_of_le_of_ne hτ0 (Ne.symm hth))
  set gain : ℕ → ℝ := fun n => ftol * (1 - gtol) / (L * bound n) with hgain
  have hc : 0 < ftol * (1 - gtol) / L := div_pos (mul_pos f0 (by linarith)) hs.pos
  have gpos : ∀ n, 0 < gain n := fun n => div_pos (mul_pos f0 (by linarith)) (mul_pos hs.pos (hd.pos n))
  have gsum : ∀ n, ∑ j ∈ Finset.range n, gain j = ftol * (1 - gtol) / L * ∑ j ∈ Finset.range n, 1 / bound j := by
    intro n
    rw [Finset.mul_sum]
    refine Finset.sum_congr rfl fun j _ => ?_
    rw [hgain]
    dsimp only
    rw [div_mul_div_comm, mul_one]
  have step := good_step par F G x1 ftol gtol τ Dir gain hu hτ bound hd L fmin hs (fun _ => rfl) f0.le f4 g1
  -- the states
  let T := {p : ℕ × St ι // Good par F G x1 ftol gtol τ Dir gain fmin p.1 p.2}
  have nx : ∀ p : T, ∃ q : T, turn par F G p.1.2 = some q.1.2 ∧ p.1.1 ≤ q.1.1 := by
    rintro ⟨⟨n, s⟩, h⟩
    obtain ⟨s', e, m, hm, h'⟩ := step n s h
    exact ⟨⟨⟨m, s'⟩, h'⟩, e, hm⟩
  choose nxt hnxt hle using nx
  let p0 : T := ⟨⟨0, s⟩, Or.inl ⟨rfl, hF⟩⟩
  let tr : ℕ → T := fun k => nxt^[k] p0
  have trs : ∀ k, tr (k + 1) = nxt (tr k) := fun k => Function.iterate_succ_apply' nxt k p0
  obtain ⟨r, hr⟩ : ∃ r : ℕ → St ι, r = fun k => (tr k).1.2 := ⟨_, rfl⟩
  obtain ⟨ν, hν⟩ : ∃ ν : ℕ → ℕ, ν = fun k => (tr k).1.1 := ⟨_, rfl⟩
  have good : ∀ k, Good par F G x1 ftol gtol τ Dir gain fmin (ν k) (r k) := fun k => by rw [hr, hν]; exact (tr k).2
  have rs : ∀ k, turn par F G (r k) = some (r (k + 1)) := fun k => by
    rw [hr]; dsimp only; rw [trs]; exact hnxt (tr k)
  have mono1 : ∀ k, ν k ≤ ν (k + 1) := fun k => by rw [hν]; dsimp only; rw [trs]; exact hle (tr k)
  have r0 : r 0 = s := by rw [hr]; rfl
  clear_value tr
  clear trs hr hν hle hnxt
  refine ⟨r, ?_, ?_⟩
  · intro k
    induction k with
    | zero => rw [r0]; rfl
    | succ k ih =>
      show (run par F G s k).bind _ = _
      rw [ih]; exact rs k
  have stay : ∀ n, ((r n).opt.task = .finalX ∨ (r n).opt.task = .error) → ∀ k, n ≤ k → r k = r n := by
    intro n hn k hk
    induction k, hk using Nat.le_induction with
    | base => rfl
    | succ k hk ih =>
      have := rs k
      rw [ih, turn_stays par F G _ hn] at this
      exact (Option.some.inj this).symm
  have final : ∀ n, ((r n).opt.task = .finalX ∨ (r n).opt.task = .error) → ∃ n, (∀ k, n ≤ k → r k = r n) ∧ Ends F G x1 τ (r n) := by
    intro n hn
    refine ⟨n, stay n hn, ?_⟩
    rcases good n with ⟨-, h⟩ | h | h | h
    · rw [h.task] at hn; rcases hn with q | q <;> cases q
    · have ht := h.task
      split_ifs at ht with c
      · left
        refine ⟨ht, c, h.f, ?_⟩
        have h5 := h.low
        rw [h.f]
        have h6 := Finset.sum_nonneg (s := Finset.range (ν n)) (f := gain) fun j _ => (gpos j).le
        linarith
      · rw [ht] at hn; rcases hn with q | q <;> cases q
    · rw [h.task] at hn; rcases hn with q | q <;> cases q
    · exact Or.inr ⟨h.task, h.status⟩
  by_contra hno
  have live : ∀ n, ¬ ((r n).opt.task = .finalX ∨ (r n).opt.task = .error) := fun n hn => hno (final n hn)
  have mono : Monotone ν := monotone_nat_of_le_succ mono1
  obtain ⟨N, hN⟩ := hdiv ((F x1 - fmin) / (ftol * (1 - gtol) / L))
  have hlt : ∀ k, ν k < N := by
    intro k
    by_contra hk
    have h1 := good_low par F G x1 ftol gtol τ Dir gain L fmin hs _ _ (good k)
    have h2 : ∑ j ∈ Finset.range N, gain j ≤ ∑ j ∈ Finset.range (ν k), gain j :=
      Finset.sum_le_sum_of_subset_of_nonneg (Finset.range_mono (not_lt.mp hk)) fun j _ _ => (gpos j).le
    rw [gsum N] at h2
    rw [div_lt_iff₀ hc] at hN
    linarith
  obtain ⟨ub, ⟨K, hK⟩, hub⟩ := Int.exists_greatest_of_bdd (P := fun z => ∃ k, (ν k : ℤ) = z)
    ⟨N, by rintro z ⟨k, rfl⟩; exact_mod_cast (hlt k).le⟩ ⟨_, 0, rfl⟩
  have const : ∀ k, K ≤ k → ν k = ν K := by
    intro k hk
    have h1 := hub _ ⟨k, rfl⟩
    rw [← hK] at h1
    exact le_antisymm (by exact_mod_cast h1) (mono hk)
  have uniq : ∀ k m, Good par F G x1 ftol gtol τ Dir gain fmin m (r k) → m = ν k := by
    intro k m h
    have h1 := good_it par F G x1 ftol gtol τ Dir gain fmin _ _ h
    have h2 := good_it par F G x1 ftol gtol τ Dir gain fmin _ _ (good k)
    exact_mod_cast h1.symm.trans h2
  have sstep : ∀ k, K ≤ k → Search par F G x1 ftol gtol τ Dir gain (ν K) (r k) → Search par F G x1 ftol gtol τ Dir gain (ν K) (r (k + 1)) ∧
      LineSearch.Same (r k).opt.ls (r (k + 1)).opt.ls ∧ LineSearch.Move (r k).opt.ls (r (k + 1)).opt.ls := by
    intro k hk h
    obtain ⟨s', e, hc⟩ := search_step par F G x1 ftol gtol τ Dir gain hu hτ bound hd L fmin hs (fun _ => rfl) f0.le f4 g1 _ (r k) h
    rw [rs] at e
    cases e
    rcases hc with hc | hc | hc
    · exact hc
    · have h3 := uniq (k + 1) _ (Or.inr (Or.inl hc))
      rw [const (k + 1) (by omega)] at h3
      omega
    · exact absurd (Or.inr hc.task) (live (k + 1))
  have sp : ∀ k, K ≤ k → Point par F G x1 ftol gtol τ Dir gain (ν K) (r k) → Search par F G x1 ftol gtol τ Dir gain (ν K) (r (k + 1)) := by
    intro k hk h
    have ht : (r k).opt.task = .newX := by
      have := h.task
      split_ifs at this with c
      · exact absurd (Or.inl this) (live k)
      · exact this
    obtain ⟨s', e, h'⟩ := point_step par F G x1 ftol gtol τ Dir gain hu hτ0 bound hd f0.le (by linarith) (by linarith) _ (r k) h ht
    rw [rs] at e
    cases e
    exact h'
  have ex : ∃ k, K ≤ k ∧ Search par F G x1 ftol gtol τ Dir gain (ν K) (r k) := by
    rcases good K with ⟨h0, h⟩ | h | h | h
    · obtain ⟨s', e, h', -⟩ := first_step par F G x1 ftol gtol τ Dir gain hu hτ (r K) h
      rw [rs] at e
      cases e
      rw [← h0] at h'
      exact ⟨K + 1 + 1, by omega, sp (K + 1) (by omega) h'⟩
    · exact ⟨K + 1, by omega, sp K (le_refl _) h⟩
    · exact ⟨K, le_refl _, h⟩
    · exact absurd (Or.inr h.task) (live K)
  obtain ⟨k0, hk0, h0⟩ := ex
  have all : ∀ j, Search par F G x1 ftol gtol τ Dir gain (ν K) (r (k0 + j)) := by
    intro j
    induction j with
    | zero => exact h0
    | succ j ih => exact (sstep (k0 + j) (by omega) ih).1
  exact LineSearch.no_infinite_search (fun j => (r (k0 + j)).opt.ls) (fun j => (all j).lsi)
    (fun j => (sstep (k0 + j) (by omega) (all j)).2.2) (fun j => (sstep (k0 + j) (by omega) (all j)).2.1) (all 0).lo (all 0).tol.xtol

end Opk.Nlcg
