import Verif.Bobyqa.TrustEnds

/-!
The step of `trsbox` is null only when no feasible step reduces the model at first order.
-/

namespace Opk.Bobyqa
open Linalg CMath Cobyla

section
variable {K : Type} [Field K] [LinearOrder K] [IsStrictOrderedRing K] [CMath K] [ExactMath K]

/-- The point `xopt` meets the first order conditions: a variable which would reduce the model by decreasing is at its lower
bound, and one which would reduce the model by increasing is at its upper bound. -/
def Stationary (b : Box K) : Prop :=
  ∀ i, 1 ≤ i → i ≤ b.n → (0 < b.gopt i → b.xopt i = b.sl i) ∧ (b.gopt i < 0 → b.xopt i = b.su i)

/-! ### The reduction never decreases -/

theorem t210_qred (b : Box K) (t : Tb K) : (t210 b t).2.qred = t.qred := by
  unfold t210
  dsimp only
  split_ifs <;> rfl

theorem t30_qred (b : Box K) (t : Tb K) : (t30 b t).2.qred = t.qred := by
  unfold t30
  dsimp only
  split_ifs <;> first | rfl | exact t210_qred _ _

theorem tStep_qred (b : Box K) (st shs : K) (iact : Nat) (t : Tb K) : t.qred ≤ (tStep b st iact shs t).1.qred := by
  unfold tStep
  split_ifs
  · show t.qred ≤ t.qred + cmax _ 0
    rw [cmax_eq]
    exact le_add_of_nonneg_right (le_max_right _ _)
  · exact le_rfl

theorem t50_qred (b : Box K) (t : Tb K) : t.qred ≤ (t50 b t).2.qred := by
  unfold t50
  dsimp only
  generalize (limited b t _ : K × Nat) = r
  generalize (accF b.n t.xbdi (fun i => t.s i * t.hs i) 0 : K) = shs
  have h := tStep_qred b r.1 shs r.2 t
  generalize tStep b r.1 r.2 shs t = u at h ⊢
  unfold tFix
  dsimp only
  split_ifs <;> first | exact h | exact le_rfl

theorem t100_qred (b : Box K) (t : Tb K) : (t100 b t).2.qred = t.qred := by
  unfold t100
  split_ifs
  · rfl
  · exact t210_qred _ _

theorem t120_qred (b : Box K) (t : Tb K) : (t120 b t).2.qred = t.qred := by
  unfold t120
  dsimp only
  split_ifs
  · rfl
  · generalize up b.n _ (⟨1, 0, t.xsav, none⟩ : Ang K) = a
    cases a.stop with
    | some iv => rfl
    | none => exact t210_qred _ _

theorem t150_qred (b : Box K) (t : Tb K) : t.qred ≤ (t150 b t).2.qred := by
  unfold t150
  dsimp only
  generalize (scan _ _ _ : Scan K) = c
  generalize (reduction _ _ _ _ _ : K) = sdec
  split_ifs with c0 c1 c2 c3
  · exact le_rfl
  · exact le_rfl
  all_goals
    show t.qred ≤ t.qred + sdec
    linarith

theorem tNext_qred (b : Box K) (x : TLab × Tb K) : x.2.qred ≤ (tNext b x).2.qred := by
  obtain ⟨l, t⟩ := x
  cases l with
  | t20 => exact le_rfl
  | t30 => exact (t30_qred b t).ge
  | t50 => exact t50_qred b t
  | t90 => exact le_rfl
  | t100 => exact (t100_qred b t).ge
  | t120 => exact (t120_qred b t).ge
  | t150 => exact t150_qred b t
  | t190 => exact le_rfl

theorem tRun_qred (b : Box K) : ∀ (fuel : Nat) (x : TLab × Tb K), x.2.qred ≤ (tRun b fuel x).2.qred
  | 0, _ => le_rfl
  | fuel + 1, x => (tNext_qred b x).trans (tRun_qred b fuel (tNext b x))

/-! ### The first step -/

theorem t50_first (hsqrt : ∀ a : K, 0 ≤ a → 0 ≤ CMath.sqrt a ∧ CMath.sqrt a * CMath.sqrt a = a) {b : Box K} {t : Tb K} (h : T50 b t)
    (hd : ∀ i, t.d i = 0) (hdel : b.delta ≠ 0)
    (hs : ∀ i, 1 ≤ i → i ≤ b.n → (0 < t.s i → b.xopt i < b.su i) ∧ (t.s i < 0 → b.sl i < b.xopt i)) : t.qred < (t50 b t).2.qred := by
  have zd : dot b.n t.d t.d = 0 := by
    unfold dot
    exact Finset.sum_eq_zero fun i _ => by rw [hd, mul_zero]
  unfold t50
  rw [h.shs, h.resid, accF_dot, dot_mask_free h.free]
  dsimp only
  have hpos : 0 < b.delta * b.delta := mul_self_pos.mpr hdel
  have c0 : ¬b.delta * b.delta - dot b.n t.d t.d ≤ 0 := by rw [zd, sub_zero]; exact not_le.mpr hpos
  rw [if_neg c0]
  obtain ⟨B1, -⟩ := boundary_spec hsqrt (ds := dot b.n t.s t.d) h.pos (not_le.mp c0)
  generalize boundary t.stepsq (b.delta * b.delta - dot b.n t.d t.d) (dot b.n t.s t.d) = B at B1 ⊢
  obtain ⟨H, hH⟩ : ∃ H, H = dot b.n t.s (b.hess t.s) := ⟨_, rfl⟩
  obtain ⟨st0, hst0⟩ : ∃ x, x = if H > 0 then cmin B (t.gredsq / H) else B := ⟨_, rfl⟩
  rw [← hH, ← hst0]
  have g1 : 0 < st0 := by
    rw [hst0]
    split_ifs with c
    · rw [cmin_eq]; exact lt_min B1 (div_pos h.gredsq c)
    · exact B1
  have g3 : ∀ a, 0 ≤ a → a ≤ st0 → a * H ≤ t.gredsq := by
    intro a ha hle
    by_cases c : H > 0
    · rw [hst0, if_pos c, cmin_eq] at hle
      have := hle.trans (min_le_right _ _)
      rwa [le_div_iff₀ c] at this
    · exact (mul_nonpos_of_nonneg_of_nonpos ha (not_lt.mp c)).trans h.gredsq.le
  obtain ⟨l1, l2, -, l4, l5⟩ := limited_spec h.cg.base.inside g1
  generalize limited b t st0 = r at l1 l2 l4 l5 ⊢
  have rpos : 0 < r.1 := by
    by_cases c : r.2 = 0
    · rw [l4 c]; exact g1
    · obtain ⟨a1, a2, a3, a4⟩ := l5 c
      refine lt_of_le_of_ne l1 fun e => ?_
      rw [← e, zero_mul, add_zero, hd, add_zero] at a4
      rcases lt_or_gt_of_ne a3 with q | q
      · rw [if_pos q] at a4
        exact absurd a4 ((hs r.2 a1 a2).2 q).ne'
      · rw [if_neg (not_lt.mpr q.le)] at a4
        exact absurd a4 ((hs r.2 a1 a2).1 q).ne
  have hq : t.qred < (tStep b r.1 r.2 H t).1.qred := by
    unfold tStep
    rw [if_pos rpos]
    show t.qred < t.qred + cmax _ 0
    rw [cmax_eq]
    have half : (lit 1 2 : K) = 1 / 2 := by rw [lit_rat]; norm_num
    have : 0 < r.1 * (t.gredsq - lit 1 2 * r.1 * H) := by
      rw [half]
      apply mul_pos rpos
      have := g3 r.1 l1 l2
      have := h.gredsq
      nlinarith
    have := lt_max_of_lt_left (b := r.1 * (t.gredsq - lit 1 2 * r.1 * H)) (c := 0) this
    linarith
  generalize tStep b r.1 r.2 H t = u at hq ⊢
  unfold tFix
  dsimp only
  split_ifs <;> exact hq

/-- **The step of `trsbox` is null if and only if the first order conditions are met.** -/
theorem trsbox_null_iff (hsqrt : ∀ a : K, 0 ≤ a → 0 ≤ CMath.sqrt a ∧ CMath.sqrt a * CMath.sqrt a = a) {b : Box K}
    (hb : ∀ i, 1 ≤ i → i ≤ b.n → b.sl i ≤ b.xopt i ∧ b.xopt i ≤ b.su i) (hw : ∀ i, 1 ≤ i → i ≤ b.n → b.sl i < b.su i) (hdel : b.delta ≠ 0)
    {t : Tb K} {fuel : Nat} {r : Trs K} (hr : trsbox b t fuel = some r) :
    (∀ i, 1 ≤ i → i ≤ b.n → r.d i = 0) ↔ Stationary b := by
  -- the states at the labels 20 and 30
  obtain ⟨u, hu⟩ : ∃ u : Tb K, u = { (tInit b t).2 with beta := 0 } := ⟨_, rfl⟩
  have h20 : TCg b (tInit b t).2 := tInit_ok hb t
  have h30 : T30 b u := by rw [hu]; exact ⟨TCg.same h20 ⟨rfl, rfl, rfl, rfl, rfl, rfl, rfl⟩, Or.inl rfl⟩
  have ud : ∀ i, u.d i = 0 := by rw [hu]; exact fun _ => rfl
  have uq : u.qred = 0 := by rw [hu]; rfl
  have ug : u.gnew = b.gopt := by rw [hu]; rfl
  have ux : u.xbdi = fixed0 b := by rw [hu]; rfl
  have ub : u.beta = 0 := by rw [hu]
  -- the label 190 is not reached before two steps
  obtain ⟨m, rfl⟩ : ∃ m, fuel = m + 2 := by
    match fuel, hr with
    | 0, hr => exact absurd hr (by simp [trsbox, tRun, tInit])
    | 1, hr => exact absurd hr (by simp [trsbox, tRun, tInit, tNext])
    | m + 2, _ => exact ⟨m, rfl⟩
  have e : tRun b (m + 2) (tInit b t) = tRun b m (t30 b u) := by rw [hu]; rfl
  have hr0 := hr
  unfold trsbox at hr
  rw [e] at hr
  have stay : ∀ (k : Nat) (t : Tb K), tRun b k (.t190, t) = (.t190, t) := by
    intro k
    induction k with
    | zero => intro _; rfl
    | succ k ih => exact fun t => ih t
  -- the steepest descent direction
  obtain ⟨s, hs⟩ : ∃ s : Nat → K, s = fun i => if u.xbdi i ≠ 0 then 0 else if u.beta = 0 then -u.gnew i else u.beta * u.s i - u.gnew i := ⟨_, rfl⟩
  have sv : ∀ i, s i = if fixed0 b i ≠ 0 then 0 else -b.gopt i := by
    intro i
    rw [hs]; dsimp only
    rw [ux, ub, if_pos rfl, ug]
  have sdir : ∀ i, 1 ≤ i → i ≤ b.n → (0 < s i → b.xopt i < b.su i) ∧ (s i < 0 → b.sl i < b.xopt i) := by
    intro i h1 h2
    obtain ⟨b1, b2⟩ := hb i h1 h2
    have b3 := hw i h1 h2
    rw [sv]
    unfold fixed0
    constructor
    · intro h
      split_ifs at h with c1 c2 c3 c4
      all_goals first
        | exact absurd h (lt_irrefl _)
        | (exact lt_of_le_of_lt c1 b3)
        | (exfalso; simp at *; linarith)
        | (push Not at c3; exact c3)
        | skip
      all_goals simp at *
      all_goals first | linarith | skip
    · intro h
      split_ifs at h with c1 c2 c3 c4
      all_goals simp at *
      all_goals first | linarith | skip
  have sz : dot b.n s s = 0 ↔ Stationary b := by
    constructor
    · intro z i h1 h2
      have := sq_le_dot s h1 h2
      rw [z] at this
      have e0 : s i = 0 := mul_self_eq_zero.mp (le_antisymm this (mul_self_nonneg _))
      obtain ⟨b1, b2⟩ := hb i h1 h2
      have b3 := hw i h1 h2
      rw [sv] at e0
      unfold fixed0 at e0
      refine ⟨fun hg => ?_, fun hg => ?_⟩
      · by_cases c1 : b.xopt i ≤ b.sl i
        · exact le_antisymm c1 b1
        · exfalso
          rw [if_neg c1, if_neg (not_le.mpr hg)] at e0
          simp only [ite_self, ne_eq, not_true_eq_false, if_false] at e0
          linarith
      · by_cases c1 : b.xopt i ≤ b.sl i
        · exfalso
          rw [if_pos c1, if_neg (not_le.mpr hg)] at e0
          simp only [ne_eq, not_true_eq_false, if_false] at e0
          linarith
        · by_cases c2 : b.xopt i ≥ b.su i
          · exact le_antisymm b2 c2
          · exfalso
            rw [if_neg c1, if_neg c2] at e0
            simp only [ne_eq, not_true_eq_false, if_false] at e0
            linarith
    · intro hst
      unfold dot
      refine Finset.sum_eq_zero fun i hi => ?_
      obtain ⟨h1, h2⟩ := Finset.mem_Icc.mp hi
      obtain ⟨q1, q2⟩ := hst i h1 h2
      have b3 := hw i h1 h2
      have e0 : s i = 0 := by
        rw [sv]
        rcases lt_trichotomy (b.gopt i) 0 with g | g | g
        · have e1 := q2 g
          have : fixed0 b i ≠ 0 := by
            unfold fixed0
            rw [if_neg (by rw [e1]; exact not_le.mpr b3), if_pos (by rw [e1]), if_pos g.le]
            exact one_ne_zero
          rw [if_pos this]
        · rw [g, neg_zero, ite_self]
        · have e1 := q1 g
          have : fixed0 b i ≠ 0 := by
            unfold fixed0
            rw [if_pos e1.le, if_pos g.le]
            norm_num
          rw [if_pos this]
      rw [e0, mul_zero]
  rw [← sz]
  by_cases c0 : dot b.n s s = 0
  · have e3 : (t30 b u).1 = .t190 ∧ (t30 b u).2.d = u.d := by
      unfold t30
      rw [← hs]
      dsimp only
      rw [acc_dot, if_pos c0]
      exact ⟨rfl, rfl⟩
    generalize t30 b u = x at hr e3
    obtain ⟨l, w⟩ := x
    obtain ⟨e4, e5⟩ := e3
    have e4 : l = .t190 := e4
    subst e4
    rw [stay] at hr
    simp only [Option.some.injEq] at hr
    refine ⟨fun _ => c0, fun _ i _ _ => ?_⟩
    rw [← hr]
    show w.d i = 0
    have e5 : w.d = u.d := e5
    rw [e5, ud]
  · refine ⟨fun hz => ?_, fun h => absurd h c0⟩
    exfalso
    have zd : dot b.n u.d u.d = 0 := by
      unfold dot
      exact Finset.sum_eq_zero fun i _ => by rw [ud, mul_zero]
    have zm : dot b.n (mask u.xbdi u.d) u.d = 0 := by
      unfold dot
      exact Finset.sum_eq_zero fun i _ => by rw [ud, mul_zero]
    have hpos : 0 < b.delta * b.delta := mul_self_pos.mpr hdel
    have hdelsq : u.delsq = b.delta * b.delta := by rw [h30.cg.delsq, zd, zm]; ring
    have spos : 0 < dot b.n s s := lt_of_le_of_ne (Finset.sum_nonneg fun i _ => mul_self_nonneg _) (Ne.symm c0)
    have e3 : (t30 b u).1 = .t50 ∧ (t30 b u).2.d = u.d ∧ (t30 b u).2.s = s := by
      unfold t30
      rw [← hs]
      dsimp only
      rw [acc_dot, if_neg c0, if_pos ub]
      dsimp only
      rw [if_neg (by rw [uq, hdelsq, mul_zero]; exact not_le.mpr (mul_pos spos hpos))]
      unfold t210
      dsimp only
      rw [if_pos h30.cg.crvmin_ne]
      exact ⟨rfl, rfl, rfl⟩
    have hok := t30_ok h30
    have q0 := t30_qred b u
    generalize t30 b u = x at hr e3 hok q0
    obtain ⟨l, w⟩ := x
    obtain ⟨e4, e5, e6⟩ := e3
    have e4 : l = .t50 := e4
    have e5 : w.d = u.d := e5
    have e6 : w.s = s := e6
    have q0 : w.qred = u.qred := q0
    subst e4
    have hok : T50 b w := hok
    have q1 := t50_first hsqrt hok (fun i => by rw [e5, ud]) hdel (by rw [e6]; exact sdir)
    match m, hr with
    | 0, hr => exact absurd hr (by simp [tRun])
    | m + 1, hr =>
      have e7 : tRun b (m + 1) (.t50, w) = tRun b m (t50 b w) := rfl
      rw [e7] at hr
      have q2 := tRun_qred b m (t50 b w)
      have hT := tRun_ok hsqrt m _ (t50_ok hsqrt hok)
      generalize tRun b m (t50 b w) = x at hr q2 hT
      obtain ⟨l, v⟩ := x
      cases l <;> simp only [reduceCtorEq] at hr
      have hT : TBase b v := hT
      have q2 : (t50 b w).2.qred ≤ v.qred := q2
      simp only [Option.some.injEq] at hr
      have e8 : b.quad v.d = 0 := by
        have : ∀ i, 1 ≤ i → i ≤ b.n → v.d i = 0 := by
          intro i h1 h2
          have := hz i h1 h2
          rwa [← hr] at this
        unfold Box.quad dot
        rw [Finset.sum_eq_zero, Finset.sum_eq_zero]
        · ring
        · intro i hi
          obtain ⟨h1, h2⟩ := Finset.mem_Icc.mp hi
          rw [this i h1 h2, zero_mul]
        · intro i hi
          obtain ⟨h1, h2⟩ := Finset.mem_Icc.mp hi
          rw [this i h1 h2, mul_zero]
      have := hT.red
      rw [e8] at this
      linarith

/-- **C80.**  `trsbox` ends; its step is in the trust region, within the bounds, and reduces the model strictly unless the
first order conditions are already met. -/
theorem trsbox_descent [Archimedean K] (hsqrt : ∀ a : K, 0 ≤ a → 0 ≤ CMath.sqrt a ∧ CMath.sqrt a * CMath.sqrt a = a) {b : Box K}
    (hb : ∀ i, 1 ≤ i → i ≤ b.n → b.sl i ≤ b.xopt i ∧ b.xopt i ≤ b.su i) (hw : ∀ i, 1 ≤ i → i ≤ b.n → b.sl i < b.su i) (hdel : b.delta ≠ 0)
    (t : Tb K) : ∃ fuel r, trsbox b t fuel = some r ∧ TrsGood b r ∧ (¬Stationary b → b.quad r.d < 0) := by
  obtain ⟨fuel, r, h1, h2⟩ := trsbox_ends hsqrt hb t
  refine ⟨fuel, r, h1, h2, fun hs => ?_⟩
  rcases h2.decrease with q | ⟨-, q⟩
  · exact q
  · exact absurd ((trsbox_null_iff hsqrt hb hw hdel h1).mp q) hs

end
end Opk.Bobyqa
