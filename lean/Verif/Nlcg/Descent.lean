import Verif.Nlcg.Session
/-! # C31, C58, C59: descent without restart and initial steps of the conjugate gradient optimizer -/
set_option linter.unusedSectionVars false
set_option linter.unusedSimpArgs false
namespace Opk.Nlcg
open Opk.Optim Matrix
open Opk.Vmlmb (exactVs bfgs bfgs_mulVec bfgs_pos dot_self_pos Call)

section exact
variable {K M ι : Type} [Field K] [LinearOrder K] [IsStrictOrderedRing K] [CMath K] [ExactMath K]
  [Fintype ι] [DecidableEq ι]

theorem dot_self_nonneg (v : ι → K) : 0 ≤ v ⬝ᵥ v := Finset.sum_nonneg fun _ _ => mul_self_nonneg _

/-! ## Properties of the published formulas -/

/-- The directions of Hager and Zhang are always sufficient descent directions, whatever the line search. -/
theorem hagerZhang_descent (powell : Bool) (p g0 g : ι → K) (h : p ⬝ᵥ (g - g0) ≠ 0) :
    published_direction .hagerZhang powell p g0 g ⬝ᵥ g ≤ -(7 / 8) * (g ⬝ᵥ g) := by
  have hg := dot_self_nonneg g
  have key : (-g + published .hagerZhang p g0 g • p) ⬝ᵥ g ≤ -(7 / 8) * (g ⬝ᵥ g) := by
    unfold published
    dsimp only
    generalize hy : g - g0 = y at *
    have h1 := dot_self_nonneg ((1 / 4 : K) • g - ((p ⬝ᵥ g) / (p ⬝ᵥ y)) • y)
    simp only [sub_dotProduct, dotProduct_sub, smul_dotProduct, dotProduct_smul, smul_eq_mul, add_dotProduct,
      neg_dotProduct] at h1 ⊢
    rw [dotProduct_comm g y] at h1
    generalize p ⬝ᵥ y = py at *
    generalize p ⬝ᵥ g = pg at *
    generalize y ⬝ᵥ y = yy at *
    generalize y ⬝ᵥ g = yg at *
    generalize g ⬝ᵥ g = gg at *
    have : (yg - 2 * yy / py * pg) / py * pg = pg / py * yg - 2 * (pg / py * (pg / py * yy)) := by field_simp
    rw [this]
    linarith
  unfold published_direction
  dsimp only
  unfold clipped
  split_ifs
  · rcases le_total (published .hagerZhang p g0 g) 0 with hb | hb
    · rw [max_eq_right hb]
      simp only [zero_smul, add_zero, neg_dotProduct]
      linarith
    · rw [max_eq_left hb]; exact key
  · exact key

/-- The directions of Dai and Yuan are descent directions as soon as the curvature is positive along the previous descent
direction. -/
theorem daiYuan_descent (powell : Bool) (p g0 g : ι → K) (h0 : p ⬝ᵥ g0 < 0) (h : p ⬝ᵥ g0 < p ⬝ᵥ g) (hg : g ≠ 0) :
    0 < clipped powell (published .daiYuan p g0 g) ∧ published_direction .daiYuan powell p g0 g ⬝ᵥ g < 0 := by
  have hgg := dot_self_pos g hg
  have hy : 0 < p ⬝ᵥ (g - g0) := by rw [dotProduct_sub]; linarith
  have hb : 0 < published .daiYuan p g0 g := div_pos hgg hy
  have hc : clipped powell (published .daiYuan p g0 g) = published .daiYuan p g0 g := by
    unfold clipped; split_ifs
    · exact max_eq_left hb.le
    · rfl
  refine ⟨by rw [hc]; exact hb, ?_⟩
  unfold published_direction
  dsimp only
  rw [hc, add_dotProduct, neg_dotProduct, smul_dotProduct, smul_eq_mul]
  have e : -(g ⬝ᵥ g) + published .daiYuan p g0 g * (p ⬝ᵥ g) = published .daiYuan p g0 g * (p ⬝ᵥ g0) := by
    unfold published
    dsimp only
    have : p ⬝ᵥ g = p ⬝ᵥ (g - g0) + p ⬝ᵥ g0 := by rw [dotProduct_sub]; ring
    rw [this]
    field_simp
    ring
  rw [e]
  exact mul_neg_of_pos_of_neg hb h0

/-- Fletcher's conjugate descent directions are descent directions when the derivative along the previous one is less
than opposed at the new iterate. -/
theorem fletcher_descent (powell : Bool) (p g0 g : ι → K) (h0 : p ⬝ᵥ g0 < 0) (h : p ⬝ᵥ g < -(p ⬝ᵥ g0)) (hg : g ≠ 0) :
    0 < clipped powell (published .fletcher p g0 g) ∧ published_direction .fletcher powell p g0 g ⬝ᵥ g < 0 := by
  have hgg := dot_self_pos g hg
  have hb : 0 < published .fletcher p g0 g := by
    unfold published; exact div_pos_of_neg_of_neg (by linarith) h0
  have hc : clipped powell (published .fletcher p g0 g) = published .fletcher p g0 g := by
    unfold clipped; split_ifs
    · exact max_eq_left hb.le
    · rfl
  refine ⟨by rw [hc]; exact hb, ?_⟩
  unfold published_direction
  dsimp only
  rw [hc, add_dotProduct, neg_dotProduct, smul_dotProduct, smul_eq_mul]
  have e : published .fletcher p g0 g * -(p ⬝ᵥ g0) = g ⬝ᵥ g := by
    unfold published; dsimp only
    have := h0.ne
    field_simp
  have := mul_lt_mul_of_pos_left h hb
  linarith

/-- The directions of Perry and Shanno are descent directions as soon as the curvature is positive. -/
theorem perryShanno_descent (powell : Bool) (p g0 g : ι → K) (h : p ⬝ᵥ g0 < p ⬝ᵥ g) (hg : g ≠ 0) :
    published_direction .perryShanno powell p g0 g ⬝ᵥ g < 0 := by
  have hy : 0 < p ⬝ᵥ (g - g0) := by rw [dotProduct_sub]; linarith
  have hyy : 0 < (g - g0) ⬝ᵥ (g - g0) := by
    apply dot_self_pos
    intro h0
    rw [h0] at hy; simp at hy
  unfold published_direction
  dsimp only
  rw [neg_dotProduct, dotProduct_comm]
  have := bfgs_pos (((p ⬝ᵥ (g - g0)) / ((g - g0) ⬝ᵥ (g - g0))) • (1 : Matrix ι ι K)) ?_ p (g - g0) hy g hg
  · linarith
  · intro v hv
    rw [smul_mulVec, one_mulVec, dotProduct_smul, smul_eq_mul]
    exact mul_pos (div_pos hy hyy) (dot_self_pos v hv)

/-- Cases where a restart is not possible. -/
theorem no_restart (rule : Rule) (powell : Bool) (p g0 g : ι → K) (h0 : p ⬝ᵥ g0 < 0) (h1 : p ⬝ᵥ g0 < p ⬝ᵥ g)
    (h2 : p ⬝ᵥ g < -(p ⬝ᵥ g0)) (hg : g ≠ 0)
    (hr : rule = .daiYuan ∨ rule = .perryShanno ∨ rule = .fletcher ∨
      rule = .hagerZhang ∧ clipped powell (published rule p g0 g) ≠ 0) : ¬ Restarts rule powell 0 p g0 g := by
  have hy : p ⬝ᵥ (g - g0) ≠ 0 := by rw [dotProduct_sub]; intro h; linarith
  have hgg := dot_self_pos g hg
  rintro (h | ⟨h, h'⟩ | h | ⟨h, -⟩)
  · rcases hr with rfl | rfl | rfl | ⟨rfl, -⟩ <;> unfold denominator at h <;> dsimp only at h
    · exact hy h
    · exact hy h
    · exact h0.ne h
    · exact hy h
  · rcases hr with rfl | rfl | rfl | ⟨rfl, h3⟩
    · exact (daiYuan_descent powell p g0 g h0 h1 hg).1.ne' h'
    · exact h rfl
    · exact (fletcher_descent powell p g0 g h0 h2 hg).1.ne' h'
    · exact h3 h'
  · rcases hr with rfl | rfl | rfl | ⟨rfl, -⟩
    · exact absurd h (not_le.2 (daiYuan_descent powell p g0 g h0 h1 hg).2)
    · exact absurd h (not_le.2 (perryShanno_descent powell p g0 g h1 hg))
    · exact absurd h (not_le.2 (fletcher_descent powell p g0 g h0 h2 hg).2)
    · have := hagerZhang_descent powell p g0 g hy
      linarith
  · exact lt_irrefl _ h

/-! ## Sessions are histories -/

theorem calls_snoc (par : Par K (ι → K)) (ops : LineSearch.Ops K M) (l1 : List (Call K (ι → K))) (c : Call K (ι → K)) :
    ∀ o r r', calls par ops o l1 = some r → step par ops r c = some r' → calls par ops o (l1 ++ [c]) = some r' := by
  induction l1 with
  | nil => intro o r r' h1 h2; cases h1; simp [calls, h2]
  | cons a l ih =>
    intro o r r' h1 h2
    simp only [calls, List.cons_append] at h1 ⊢
    rcases hs : step par ops o a with _ | o'
    · rw [hs] at h1; cases h1
    · rw [hs] at h1; exact ih o' r r' h1 h2

/-- The curvature condition at the new iterates of a session with the line search of Moré and Thuente. -/
def Wolfe (gtol : K) (o : Opt K M (ι → K)) : Prop :=
  (o.task = .newX ∨ o.task = .finalX) → 1 < o.evaluations → o.ls.status ≠ .roundingErrorsPreventProgress →
    |o.dtg| ≤ -gtol * o.dtg0

theorem acts_wolfe (finite : K → Bool) (opts : Options K) (lraw : LineSearch.Ls K (LineSearch.Csrch K))
    (ftol gtol xtol : K) (ls0 : LineSearch.Ls K (LineSearch.Csrch K))
    (hls : LineSearch.newCsrch lraw ftol gtol xtol = some ls0) (raw : ι → K)
    (par : Par K (ι → K)) (opt : Opt K (LineSearch.Csrch K) (ι → K))
    (hnew : new finite exactVs opts ls0 raw = some (par, opt)) (l : List (Act K (ι → K))) :
    ∀ (s s' : Sess K (LineSearch.Csrch K) (ι → K)) (hist), calls par LineSearch.csrchOps opt hist = some s.opt →
      Wolfe gtol s.opt → s.acts par LineSearch.csrchOps l = some s' → Wolfe gtol s'.opt := by
  induction l with
  | nil => intro s s' hist _ hw h; cases h; exact hw
  | cons a l ih =>
    intro s s' hist hc hw h
    simp only [Sess.acts] at h
    rcases ha : s.act par LineSearch.csrchOps a with _ | t
    · rw [ha] at h; cases h
    · rw [ha] at h
      rcases a with x | ⟨f, g⟩
      · cases ha
        refine ih _ _ (hist ++ [.start x]) (calls_snoc par _ hist _ _ _ _ hc rfl) ?_ h
        intro hn; simp [start, success] at hn
      · unfold Sess.act at ha
        dsimp only at ha
        by_cases hfg : s.opt.task = .computeFG
        · rw [if_pos hfg] at ha
          unfold Sess.reply at ha
          rcases hi : iterate par LineSearch.csrchOps s.opt s.x f g with _ | q
          · rw [hi] at ha; cases ha
          · rw [hi] at ha
            cases ha
            have hst : step par LineSearch.csrchOps s.opt (.iterate s.x f g) = some q.1 := by simp [step, hi]
            refine ih _ _ (hist ++ [.iterate s.x f g]) (calls_snoc par _ hist _ _ _ _ hc hst) ?_ h
            intro hn he hnr
            dsimp only at hn he hnr ⊢
            obtain ⟨q', e', ha'⟩ := iterate_fg par LineSearch.csrchOps s.opt s.x f g hfg
            rw [hi] at e'
            cases e'
            cases ha' with
            | first r he' hr =>
              obtain ⟨gi, t, e1, -, -⟩ := accept_eq par { s.opt with evaluations := s.opt.evaluations + 1 } g
              rw [e1] at hr
              subst hr
              dsimp only at he
              omega
            | search q he' hq ht => simp [trial, success] at hn
            | accepted q r he' hq ht hr =>
              obtain ⟨xb, fb, -, -, k1, -, -, -, k2⟩ := csrch_decrease finite exactVs opts lraw ftol gtol xtol ls0 hls raw par opt hnew
                hist s.x f g _ _ hc hi he' hn hnr
              rw [ExactMath.fabs_eq, k1] at k2
              obtain ⟨gi, t, e1, -, -⟩ := accept_eq par { s.opt with evaluations := s.opt.evaluations + 1, dtg := -par.vs.dot s.opt.d g, ls := q.1, alpha := q.2, iterations := s.opt.iterations + 1 } g
              rw [e1] at hr
              subst hr
              dsimp only
              rw [(new_setting finite opts ls0 raw par opt hnew).vs]
              exact k2
            | failed q r he' hq ht hr => subst hr; simp [failure] at hn
        · rw [if_neg hfg] at ha
          unfold Sess.next at ha
          rcases hi : iterate par LineSearch.csrchOps s.opt s.x s.f s.g with _ | q
          · rw [hi] at ha; cases ha
          · rw [hi] at ha
            cases ha
            have hst : step par LineSearch.csrchOps s.opt (.iterate s.x s.f s.g) = some q.1 := by simp [step, hi]
            refine ih _ _ (hist ++ [.iterate s.x s.f s.g]) (calls_snoc par _ hist _ _ _ _ hc hst) ?_ h
            dsimp only
            by_cases hn : s.opt.task = .newX ∨ s.opt.task = .finalX
            · have hi0 := new_inv finite exactVs opts ls0 raw par opt hnew LineSearch.csrchOps
              obtain ⟨r0, e0, hr⟩ := calls_inv par _ LineSearch.csrch_method ls0 hist opt _ hi0
              rw [hc] at e0
              cases e0
              obtain ⟨r, -, (⟨-, k⟩ | ⟨-, k1, -, k⟩)⟩ := iterate_newX par LineSearch.csrchOps s.opt s.x s.f s.g hr.vecs hn
              · rw [hi] at k; cases k; intro h; simp [trial, success] at h
              · rw [hi] at k; cases k; intro h; simp [k1] at h
            · have := iterate_other par LineSearch.csrchOps s.opt s.x s.f s.g hfg hn
              rw [hi] at this; cases this
              exact hw

/-- **C58.** In exact arithmetic, with the line search of Moré and Thuente for a tolerance `gtol < 1` and without a lower bound on
the angle between the direction and the gradient (`epsilon = 0`), for any sequence of actions of the caller: at a new iterate
accepted without warning and where the gradient is not zero, the methods of Dai and Yuan, of Perry and Shanno and of
Fletcher do not restart, nor does the one of Hager and Zhang if its `β` is not zero, and the new direction is a descent
direction. -/
theorem never_restarts (hsqrt : ∀ a : K, 0 ≤ a → 0 ≤ CMath.sqrt a ∧ CMath.sqrt a * CMath.sqrt a = a)
    (finite : K → Bool) (opts : Options K) (lraw : LineSearch.Ls K (LineSearch.Csrch K)) (ftol gtol xtol : K)
    (ls0 : LineSearch.Ls K (LineSearch.Csrch K)) (hls : LineSearch.newCsrch lraw ftol gtol xtol = some ls0) (hgt : gtol < 1)
    (raw : ι → K) (par : Par K (ι → K)) (opt : Opt K (LineSearch.Csrch K) (ι → K))
    (hnew : new finite exactVs opts ls0 raw = some (par, opt)) (heps : opts.epsilon = 0)
    (x : ι → K) (f : K) (g gp : ι → K) (l : List (Act K (ι → K))) :
    ∃ s s', Sess.acts par LineSearch.csrchOps { opt := opt, x := x, f := f, g := g, gp := gp } l = some s ∧
      s.next par LineSearch.csrchOps = some s' ∧
    (s.opt.task = .newX ∨ s.opt.task = .finalX → 1 < s.opt.evaluations → s.g ≠ 0 →
      s.opt.ls.status ≠ .roundingErrorsPreventProgress →
      (par.rule = .daiYuan ∨ par.rule = .perryShanno ∨ par.rule = .fletcher ∨
        par.rule = .hagerZhang ∧ clipped (hasBit par.flags POWELL) (published par.rule (-s.opt.d) s.gp s.g) ≠ 0) →
      s'.opt.restarts = s.opt.restarts ∧
      -s'.opt.d = published_direction par.rule (hasBit par.flags POWELL) (-s.opt.d) s.gp s.g ∧ 0 < s'.opt.d ⬝ᵥ s.g) := by
  obtain ⟨s, s', e1, e2, h⟩ := new_direction hsqrt finite opts ls0 raw par opt hnew LineSearch.csrchOps
    LineSearch.csrch_method x f g gp l
  refine ⟨s, s', e1, e2, fun hn he hg hnr hr => ?_⟩
  have hs := new_setting finite opts ls0 raw par opt hnew
  obtain ⟨s0, e0, hi⟩ := acts_inv hsqrt par hs LineSearch.csrchOps LineSearch.csrch_method l _
    (new_sinv finite opts ls0 raw par opt hnew x f g gp)
  rw [e1] at e0
  cases e0
  obtain ⟨n1, n2, n3⟩ := hi.newX hn
  obtain ⟨m1, m2⟩ := n3 he
  obtain ⟨-, -, ht0, -⟩ := new_spec finite _ opts ls0 raw par opt hnew
  have hw := acts_wolfe finite opts lraw ftol gtol xtol ls0 hls raw par opt hnew l _ s [] rfl
    (fun h => by simp [ht0] at h) e1 hn he hnr
  have hgt0 : 0 ≤ gtol := by
    unfold LineSearch.newCsrch at hls
    split_ifs at hls with c1 c2 c3
    exact not_lt.1 c2
  have hneg := m2.neg
  have hdg0 : (-s.opt.d) ⬝ᵥ s.gp = s.opt.dtg0 := by rw [m2.dtg0, neg_dotProduct]
  have hdg : (-s.opt.d) ⬝ᵥ s.g = s.opt.dtg := by rw [m1, neg_dotProduct]
  have hlt : |s.opt.dtg| < -s.opt.dtg0 := by nlinarith
  obtain ⟨w1, w2⟩ := abs_lt.1 hlt
  have hnot := no_restart par.rule (hasBit par.flags POWELL) (-s.opt.d) s.gp s.g (by rw [hdg0]; exact hneg)
    (by rw [hdg0, hdg]; linarith) (by rw [hdg0, hdg]; exact w2) hg hr
  rw [← heps] at hnot
  rcases h hn with ⟨h, -⟩ | ⟨-, ⟨h, -⟩ | ⟨-, h1, h2, h3⟩⟩
  · omega
  · exact absurd h hnot
  · refine ⟨h2, h1, ?_⟩
    rw [heps] at hnot
    have : ¬ 0 ≤ published_direction par.rule (hasBit par.flags POWELL) (-s.opt.d) s.gp s.g ⬝ᵥ s.g :=
      fun h => hnot (Or.inr (Or.inr (Or.inl h)))
    rw [← h1, neg_dotProduct] at this
    push Not at this
    linarith

/-! ## Initial steps -/

/-- Specification: the initial step along the opposite of the gradient. -/
def SteepestStep (delta : K) (x : ι → K) (f : K) (g : ι → K) (alpha : K) : Prop :=
  (f ≠ 0 → alpha * (g ⬝ᵥ g) = 2 * |f|) ∧
  (f = 0 → x ≠ 0 → alpha * CMath.sqrt (g ⬝ᵥ g) = delta * CMath.sqrt (x ⬝ᵥ x)) ∧
  (f = 0 → x = 0 → alpha * CMath.sqrt (g ⬝ᵥ g) = delta)

theorem steepestStep_spec (hsqrt : ∀ a : K, 0 ≤ a → 0 ≤ CMath.sqrt a ∧ CMath.sqrt a * CMath.sqrt a = a)
    (par : Par K (ι → K)) (hs : Setting par) (o : Opt K M (ι → K)) (x : ι → K) (f : K) (g : ι → K) (hg : g ≠ 0)
    (h1 : o.gnorm = CMath.sqrt (g ⬝ᵥ g)) (h2 : o.dtg = -o.gnorm * o.gnorm) :
    SteepestStep par.delta x f g (steepestStep par o x f) := by
  have hgg := dot_self_pos g hg
  obtain ⟨q1, q2⟩ := hsqrt _ hgg.le
  have hvn : ∀ a, par.vs.norm2 a = CMath.sqrt (a ⬝ᵥ a) := by intro a; rw [hs.vs]; rfl
  have hne : CMath.sqrt (g ⬝ᵥ g) ≠ 0 := by intro h; rw [h] at q2; simp at q2; rw [← q2] at hgg; exact lt_irrefl _ hgg
  unfold steepestStep
  rw [hs.fmin]
  simp only [Bool.false_eq_true, false_and, if_false]
  refine ⟨fun hf => ?_, fun hf hx => ?_, fun hf hx => ?_⟩
  · rw [if_pos (by simpa using hf), ExactMath.lit_eq, ExactMath.fabs_eq, h2, h1]
    rw [neg_mul, q2, abs_div, abs_neg, abs_of_pos hgg]
    have := hgg.ne'
    push_cast
    field_simp
  · have hx' := dot_self_pos x hx
    obtain ⟨r1, r2⟩ := hsqrt _ hx'.le
    have : 0 < CMath.sqrt (x ⬝ᵥ x) := lt_of_le_of_ne r1 (fun h => by rw [← h] at r2; simp at r2; rw [← r2] at hx'; exact lt_irrefl _ hx')
    rw [if_neg (by simpa using hf), hvn, if_pos this, h1]
    field_simp
  · obtain ⟨r1, r2⟩ := hsqrt (x ⬝ᵥ x) (dot_self_nonneg x)
    have : ¬ 0 < CMath.sqrt (x ⬝ᵥ x) := by
      rw [hx] at r2 ⊢
      simp only [dotProduct_zero, mul_self_eq_zero] at r2 ⊢
      rw [r2]; exact lt_irrefl _
    rw [if_neg (by simpa using hf), hvn, if_neg this, h1]
    field_simp

/-- **C59, C31_partial.** In exact arithmetic, for a new optimizer and any sequence of actions of the caller: when a line search is
started, at an iterate where the gradient is not zero, the initial step is, along the opposite of the gradient
(at the first iterate and after a restart), the one of the specification, which does not depend on `fmin`;
and otherwise, with the option of Shanno and Phua, such that the change predicted at first order is that of the last search
and, without this option, the last step. -/
theorem initial_step (hsqrt : ∀ a : K, 0 ≤ a → 0 ≤ CMath.sqrt a ∧ CMath.sqrt a * CMath.sqrt a = a)
    (finite : K → Bool) (opts : Options K) (ls0 : LineSearch.Ls K M) (raw : ι → K)
    (par : Par K (ι → K)) (opt : Opt K M (ι → K)) (hnew : new finite exactVs opts ls0 raw = some (par, opt))
    (ops : LineSearch.Ops K M) (ok : LineSearch.Method ops) (x : ι → K) (f : K) (g gp : ι → K) (l : List (Act K (ι → K))) :
    ∃ s s', Sess.acts par ops { opt := opt, x := x, f := f, g := g, gp := gp } l = some s ∧ s.next par ops = some s' ∧
    (s.opt.task = .newX ∨ s.opt.task = .finalX → s.g ≠ 0 →
      (s'.opt.d = s.g ∧ (s.opt.evaluations = 1 ∨ s'.opt.restarts = s.opt.restarts + 1) ∧ SteepestStep opts.delta s.x s.f s.g s'.opt.alpha) ∨
      (1 < s.opt.evaluations ∧ s'.opt.restarts = s.opt.restarts ∧
        (hasBit par.flags SHANNO_PHUA = true → s'.opt.alpha * (s'.opt.d ⬝ᵥ s.g) = s.opt.alpha * (s.opt.d ⬝ᵥ s.gp)) ∧
        (hasBit par.flags SHANNO_PHUA = false → s'.opt.alpha = s.opt.alpha))) := by
  have hs := new_setting finite opts ls0 raw par opt hnew
  have hdelta : par.delta = opts.delta := by
    obtain ⟨-, -, -, -, -, -, -, -, -, -, h, -⟩ := new_spec finite _ opts ls0 raw par opt hnew
    exact h
  obtain ⟨s, e, hi⟩ := acts_inv hsqrt par hs ops ok l _ (new_sinv finite opts ls0 raw par opt hnew x f g gp)
  by_cases hn : s.opt.task = .newX ∨ s.opt.task = .finalX
  · obtain ⟨n1, n2, n3⟩ := hi.newX hn
    obtain ⟨r, hB, hr⟩ := iterate_newX par ops s.opt s.x s.f s.g hi.vecs hn
    have hcon : s.g ≠ 0 →
      (r.d = s.g ∧ (s.opt.evaluations = 1 ∨ r.restarts = s.opt.restarts + 1) ∧ SteepestStep opts.delta s.x s.f s.g r.alpha) ∨
      (1 < s.opt.evaluations ∧ r.restarts = s.opt.restarts ∧
        (hasBit par.flags SHANNO_PHUA = true → r.alpha * (r.d ⬝ᵥ s.g) = s.opt.alpha * (s.opt.d ⬝ᵥ s.gp)) ∧
        (hasBit par.flags SHANNO_PHUA = false → r.alpha = s.opt.alpha)) := by
      intro hg
      have hsteep : (r.restarts = s.opt.restarts + 1 ∨ s.opt.evaluations ≤ 1) → SteepestStep opts.delta s.x s.f s.g r.alpha := by
        intro hor
        obtain ⟨q, hq, -, -, s3, s4, -⟩ := hB.stages
        obtain ⟨beta, d, y, dtg, e', -⟩ := direction_some par s.opt s.g hi.vecs
        rw [e'] at hq
        cases hq
        rw [← s3, ← hdelta]
        unfold initialStep at s4 ⊢
        have hnl : ¬ dtg < 0 := by
          intro h1
          rcases hor with hor | hor
          · rw [if_pos h1] at s4
            have : (if hasBit par.flags SHANNO_PHUA = true then
                ({ s.opt with dtg := dtg, alpha := s.opt.alpha * (s.opt.dtg0 / dtg), beta := beta, d := d, y := y } : Opt K M (ι → K))
                else { s.opt with dtg := dtg, beta := beta, d := d, y := y }).restarts = s.opt.restarts := by split_ifs <;> rfl
            rw [this] at s4
            omega
          · unfold direction at e'
            rw [if_pos hor] at e'
            simp only [Option.some.injEq, Opt.mk.injEq] at e'
            rw [← e'.2.2.2.2.1] at h1
            exact lt_irrefl _ h1
        rw [if_neg hnl]
        by_cases hgt : s.opt.evaluations > 1
        · rw [if_pos hgt]
          exact steepestStep_spec hsqrt par hs _ s.x s.f s.g hg n1 rfl
        · rw [if_neg hgt]
          exact steepestStep_spec hsqrt par hs _ s.x s.f s.g hg n1 rfl
      by_cases he : 1 < s.opt.evaluations
      · obtain ⟨m1, m2⟩ := n3 he
        rcases begun_direction hsqrt par hs ops s.opt s.x s.f s.g s.gp hi.vecs he m2 n1 m1 r hB with
          ⟨b0, b1, b2, b3, b4⟩ | ⟨b0, b1, b2, b3, b4, b5, b6⟩
        · exact Or.inl ⟨b1, Or.inr b3, hsteep (Or.inl b3)⟩
        · refine Or.inr ⟨he, b4, fun h => ?_, fun h => ?_⟩
          · rw [h, if_pos rfl] at b5
            have e1 : r.d ⬝ᵥ s.g = -r.dtg := by rw [b2, neg_neg]
            have e2 : s.opt.d ⬝ᵥ s.gp = -s.opt.dtg0 := by rw [m2.dtg0, neg_neg]
            rw [b5, e1, e2]
            have := b3.ne
            field_simp
          · rw [h] at b5; exact b5
      · left
        obtain ⟨b1, b2, b3, b4⟩ := begun_first hsqrt par ops s.opt s.x s.f s.g (by omega) n1 r hB
        exact ⟨b1, Or.inl (by omega), hsteep (Or.inr (by omega))⟩
    rcases hr with ⟨k1, k2⟩ | ⟨k1, k2, -, k3⟩
    · exact ⟨s, _, e, by unfold Sess.next; rw [k2]; rfl, fun _ => hcon⟩
    · exact ⟨s, _, e, by unfold Sess.next; rw [k3]; rfl, fun _ => hcon⟩
  · by_cases hfg : s.opt.task = .computeFG
    · obtain ⟨r, e1, -⟩ := iterate_fg par ops s.opt s.x s.f s.g hfg
      exact ⟨s, _, e, by unfold Sess.next; rw [e1]; rfl, fun h => absurd h hn⟩
    · exact ⟨s, _, e, by unfold Sess.next; rw [iterate_other par ops s.opt s.x s.f s.g hfg hn]; rfl, fun h => absurd h hn⟩

end exact

/-! ## C31 -/

section fmin
variable {F M V : Type} [Add F] [Sub F] [Mul F] [Div F] [Neg F] [Zero F] [One F]
  [LinearOrder F] [CMath F]

/-- The optimizer does not look at `fmin` when it is not given. -/
theorem iterate_fmin (par : Par F V) (v : F) (h : par.fminGiven = false) (ops : LineSearch.Ops F M) (o : Opt F M V) (x : V)
    (f : F) (g : V) : iterate { par with fmin := v } ops o x f g = iterate par ops o x f g := by
  have hup : ∀ o : Opt F M V, update { par with fmin := v } o g = update par o g := by
    intro o; unfold update; rcases par.rule <;> rfl
  have hst : ∀ o : Opt F M V, steepestStep { par with fmin := v } o x f = steepestStep par o x f := by
    intro o; unfold steepestStep; dsimp only; rw [h]; simp
  have hdir : ∀ o : Opt F M V, direction { par with fmin := v } o g = direction par o g := by
    intro o; unfold direction; rw [hup]
  have hin : ∀ o : Opt F M V, initialStep { par with fmin := v } o x f g = initialStep par o x f g := by
    intro o; unfold initialStep; simp only [hst]
  have hnx : onNewX { par with fmin := v } ops o x f g = onNewX par ops o x f g := by
    unfold onNewX; simp only [hdir, hin]
  have hfg : onFG { par with fmin := v } ops o f g = onFG par ops o f g := rfl
  unfold iterate
  rw [hnx, hfg]
  rcases o.task <;> rfl

/-- **C31, negation.** The options `fmin` and `fmin_given` have no effect: two optimizers created with options which only differ
by these behave in the same way, for any history of calls. -/
theorem fmin_ignored (finite : F → Bool) (vs : Vs F V) (opts : Options F) (v : F) (b : Bool) (hv : finite v = true) (ls0 : LineSearch.Ls F M) (raw : V)
    (par : Par F V) (opt : Opt F M V) (hnew : new finite vs opts ls0 raw = some (par, opt)) :
    ∃ par', new finite vs { opts with fmin := v, fminGiven := b } ls0 raw = some (par', opt) ∧
      ∀ (ops : LineSearch.Ops F M) (x : V) (f : F) (g : V) (o : Opt F M V), iterate par' ops o x f g = iterate par ops o x f g := by
  obtain ⟨-, -, -, -, -, -, -, -, -, -, -, -, -, -, efm, -, kopt⟩ := new_spec finite _ opts ls0 raw par opt hnew
  have hc : checkOptions finite { opts with fmin := v, fminGiven := b } = true := by
    unfold checkOptions at kopt ⊢
    rw [Bool.not_eq_true', decide_eq_false_iff_not] at kopt ⊢
    simp only [not_or] at kopt ⊢
    obtain ⟨a1, a2, a3, a4, a5, a6, a7, a8, a9, a10, a11, a12, a13, -⟩ := kopt
    exact ⟨a1, a2, a3, a4, a5, a6, a7, a8, a9, a10, a11, a12, a13, by simp [hv]⟩
  refine ⟨{ par with fmin := v }, ?_, fun ops x f g o => iterate_fmin par v efm ops o x f g⟩
  unfold new at hnew ⊢
  rw [kopt] at hnew
  rw [hc]
  simp only [Bool.not_true, Bool.false_eq_true, if_false] at hnew ⊢
  generalize hf : (if opts.flags = 0 then DEFAULT else opts.flags) = fl at hnew ⊢
  rcases hs : select fl with _ | ⟨rule, needed⟩
  · rw [hs] at hnew; cases hnew
  · rw [hs] at hnew
    simp only [Option.some.injEq, Prod.mk.injEq] at hnew ⊢
    obtain ⟨rfl, rfl⟩ := hnew
    exact ⟨rfl, rfl⟩

end fmin

end Opk.Nlcg
