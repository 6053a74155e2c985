import Verif.Vmlmb.Session
import Mathlib.Tactic.Positivity
/-! # C25: a line search is started along a descent direction -/
set_option linter.unusedSectionVars false
set_option linter.unusedSimpArgs false
namespace Opk.Vmlmb
open Opk.Optim Opk.Box Matrix

section any
variable {F M V : Type} [Add F] [Sub F] [Mul F] [Div F] [Neg F] [Zero F] [One F]
  [LinearOrder F] [CMath F]

theorem steepestStep_congr (par : Par F V) (o q : Opt F M V) (x : V) (f dtg : F) (h1 : q.gnorm = o.gnorm) (h2 : q.w = o.w) :
    steepestStep par q x f dtg = steepestStep par o x f dtg := by
  unfold steepestStep
  rw [h1, h2]

/-- The length of the step before it is limited by the bounds. -/
def Length (par : Par F V) (o : Opt F M V) (x : V) (f : F) (g d : V) (dtg stp0 : F) : Prop :=
  stp0 = 1 ∧ dtg = -par.vs.dot d g ∧ dtg < 0 ∨
  stp0 = steepestStep par o x f dtg ∧ dtg = -o.gnorm * o.gnorm

/-- All the ways not to start a line search at a new iterate. -/
theorem onNewX_ret (par : Par F V) (ops : LineSearch.Ops F M) (ok : LineSearch.Method ops) (o : Opt F M V) (x : V)
    (f : F) (g : V) (r : Opt F M V) (h : onNewX par ops o x f g = .ret r) :
    (∃ box st d, par.box = some box ∧ box.projdir x d = .error st) ∨
    ∃ d dtg stp0, Chosen par o x g d dtg ∧ Length par o x f g d dtg stp0 ∧
      ((∃ box st, par.box = some box ∧ box.steplim x d = .error st) ∨
       (∃ box l, par.box = some box ∧ box.steplim x d = .ok l ∧ l.s3 ≤ 0 ∧ r.status = .wouldBlock) ∨
       ∃ stp smax, ¬ (⟨f, dtg, stp, stp0 * par.stpmin, smax⟩ : LineSearch.Args F).Valid ∧
        r.status = .ls (LineSearch.start ops o.ls f dtg stp (stp0 * par.stpmin) smax).status ∧
        (par.box = none → stp = stp0 ∧ smax = stp0 * par.stpmax) ∧
        ∀ box, par.box = some box → ∃ l, box.steplim x d = .ok l ∧ 0 < l.s3 ∧
          stp = min stp0 l.s3 ∧ smax = min (stp0 * par.stpmax) l.s3) := by
  unfold onNewX at h
  obtain ⟨w1, w2, w3, -, w5, -⟩ := updated_keeps par o x g
  rcases direction_stages par o x g with ⟨q, st, hq, hk, hns⟩ | ⟨q, hq, hk, -⟩
  · left
    unfold direction at hq
    dsimp only at hq
    generalize apply par _ g = p at hq
    obtain ⟨a, b⟩ := p
    dsimp only at hq
    rcases b with _ | _
    · simp at hq
    · simp only [if_true] at hq
      rcases hbx : par.box with _ | box
      · rw [hbx] at hq
        dsimp only at hq
        split_ifs at hq
      · rw [hbx] at hq
        dsimp only at hq
        rcases hpd : box.projdir x a.d with st' | d
        · exact ⟨box, st', a.d, rfl, hpd⟩
        · rw [hpd] at hq
          dsimp only at hq
          split_ifs at hq
  · right
    obtain ⟨a, dtg⟩ := q
    have hch := direction_chosen par o x g a dtg hq
    rw [hq] at h; dsimp only at hk h
    unfold SameBut at hk
    obtain ⟨-, -, -, -, -, a6, -, a8, a9, a10, -⟩ := hk
    obtain ⟨b1, b2, b3, b4, b5, b6, b7, b8, b9, b10, b11, b12, b13, b14, b15, b16, b17, b18, b19, b20⟩ :=
      initialStep_keeps par a x f g dtg
    have hdir : Chosen par o x g (initialStep par a x f g dtg).1.d (initialStep par a x f g dtg).2 ∧
        Length par o x f g (initialStep par a x f g dtg).1.d (initialStep par a x f g dtg).2 (initialStep par a x f g dtg).1.stp := by
      unfold initialStep
      by_cases hneg : dtg < 0
      · rw [if_pos hneg]; exact ⟨Or.inl (hch.1 hneg), Or.inl ⟨rfl, (hch.1 hneg).2.2, hneg⟩⟩
      · rw [if_neg hneg]
        dsimp only
        have e1 : ∀ q : Opt F M V, q = (if a.mp > 0 then { a with restarts := a.restarts + 1, mp := 0 } else a) →
            q.w = o.w ∧ q.gp = o.gp ∧ q.gnorm = o.gnorm := by
          intro q hq
          rw [hq]
          split_ifs <;> exact ⟨a8.trans w1, a9.trans w2, a10.trans w3⟩
        generalize hq : (if a.mp > 0 then { a with restarts := a.restarts + 1, mp := 0 } else a) = q
        obtain ⟨q1, q2, q3⟩ := e1 q hq.symm
        refine ⟨Or.inr ⟨hch.2 hneg, ?_⟩, Or.inr ?_⟩
        · rcases par.method <;> dsimp only <;> rw [q3] <;> simp [q1, q2]
        · rcases par.method <;> dsimp only <;> exact ⟨steepestStep_congr par o _ x f _ q3 q1, by rw [q3]⟩
    generalize initialStep par a x f g dtg = is at *
    obtain ⟨b, dtg'⟩ := is
    dsimp only at *
    refine ⟨b.d, dtg', b.stp, hdir.1, hdir.2, ?_⟩
    generalize hl : limitStep par b x = lr at h
    unfold limitStep at hl
    dsimp only at hl
    rcases hbx : par.box with _ | box
    · rw [hbx] at hl
      dsimp only at hl
      subst hl
      dsimp only at h
      obtain ⟨d1, d2, d3, d4, d5, d6, d7, d8, d9, d10, d11, d12, d13, d14, d15, d16, d17⟩ := savePoint_keeps par b x f g
      generalize savePoint par b x f g = sp at *
      have els : sp.ls = o.ls := by rw [d3, b3, a6, w5]
      rw [els, d15] at h
      obtain ⟨s1, -⟩ := LineSearch.start_checks ops ok o.ls ⟨f, dtg', b.stp, b.stp * par.stpmin, b.stp * par.stpmax⟩
      dsimp only at s1
      split_ifs at h with ht
      cases h
      exact Or.inr (Or.inr ⟨b.stp, b.stp * par.stpmax, fun hv => ht (s1.2 hv), rfl, fun _ => ⟨rfl, rfl⟩,
        fun _ h => by cases h⟩)
    · rw [hbx] at hl
      dsimp only at hl
      rcases hsl : box.steplim x b.d with st | l
      · exact Or.inl ⟨box, st, rfl, hsl⟩
      · rw [hsl] at hl
        dsimp only at hl
        by_cases h3 : l.s3 ≤ 0
        · rw [if_pos h3] at hl
          subst hl
          cases h
          exact Or.inr (Or.inl ⟨box, l, rfl, hsl, h3, rfl⟩)
        · rw [if_neg h3] at hl
          subst hl
          dsimp only at h
          generalize hl1 : ({ (if b.stp > l.s3 then { b with stp := l.s3 } else b) with bsmin := l.s2 } : Opt F M V) = l1 at h
          have k1 : l1.stp = min b.stp l.s3 := by
            rw [← hl1]
            by_cases h4 : b.stp > l.s3
            · simp only [if_pos h4]; rw [min_eq_right (le_of_lt h4)]
            · simp only [if_neg h4]; rw [min_eq_left (not_lt.1 h4)]
          have k2 : l1.ls = b.ls := by rw [← hl1]; by_cases h4 : b.stp > l.s3 <;> simp [h4]
          have k3 : (if b.stp * par.stpmax > l.s3 then l.s3 else b.stp * par.stpmax) = min (b.stp * par.stpmax) l.s3 := by
            by_cases h4 : b.stp * par.stpmax > l.s3
            · rw [if_pos h4, min_eq_right (le_of_lt h4)]
            · rw [if_neg h4, min_eq_left (not_lt.1 h4)]
          rw [k3] at h
          obtain ⟨d1, d2, d3, d4, d5, d6, d7, d8, d9, d10, d11, d12, d13, d14, d15, d16, d17⟩ := savePoint_keeps par l1 x f g
          generalize savePoint par l1 x f g = sp at *
          have els : sp.ls = o.ls := by rw [d3, k2, b3, a6, w5]
          rw [els, d15, k1] at h
          obtain ⟨s1, -⟩ := LineSearch.start_checks ops ok o.ls
            ⟨f, dtg', min b.stp l.s3, b.stp * par.stpmin, min (b.stp * par.stpmax) l.s3⟩
          dsimp only at s1
          split_ifs at h with ht
          cases h
          exact Or.inr (Or.inr ⟨_, _, fun hv => ht (s1.2 hv), rfl, (fun h => by cases h),
            (fun box' h => by
              cases h
              exact ⟨l, hsl, not_le.1 h3, rfl, rfl⟩)⟩)

end any

section exact
variable {K M : Type} [Field K] [LinearOrder K] [IsStrictOrderedRing K] [CMath K] [ExactMath K] {n : Nat}

theorem trial_clamp (par : Par K (Fin n → K)) (inf : K) (lower upper : Side K n) (hs : Setting par inf lower upper)
    (o : Opt K M (Fin n → K))
    (h1 : Feasible lower upper o.x0) (h2 : Open lower upper o.x0 o.d)
    (h3 : ∀ box, par.box = some box → ∃ l, box.steplim o.x0 o.d = .ok l ∧ o.bsmin = l.s2) (h4 : 0 ≤ o.stp) :
    trial par o = (success o .computeFG, fun i => clampO (lower.at i) (upper.at i) (o.x0 i - o.stp * o.d i)) := by
  have hx : par.vs.axpby 1 o.x0 (-o.stp) o.d = fun i => o.x0 i - o.stp * o.d i := by
    rw [hs.vs]; funext i
    show (1 • o.x0 + (-o.stp) • o.d) i = _
    simp [sub_eq_add_neg]
  unfold trial
  dsimp only
  rw [hx]
  rcases hs.box with ⟨hb, rfl, rfl⟩ | hb
  · rw [hb]
    dsimp only
    congr 1
  · rw [hb]
    dsimp only
    by_cases hc : o.stp > o.bsmin
    · rw [if_pos hc, projvar_eq]
    · rw [if_neg hc]
      obtain ⟨l, e1, e2⟩ := h3 _ hb
      obtain ⟨l', e3, -, -, -, -, -, e4, -⟩ := steplim_ok inf hs.hinf lower upper o.x0 o.d h1
      rw [e1] at e3
      cases e3
      have hf := e4 h2 o.stp h4 (by rw [← e2]; exact not_lt.1 hc)
      congr 1
      funext i
      exact (clampO_id (hf i)).symm

theorem length_pos (par : Par K (Fin n → K)) (o : Opt K M (Fin n → K)) (x : Fin n → K) (f : K) (g d : Fin n → K)
    (dtg stp0 : K) (hd : 0 < par.delta) (h : Length par o x f g d dtg stp0) (hg : 0 < o.gnorm) : 0 < stp0 := by
  rcases h with ⟨h, -⟩ | ⟨h, hdt⟩
  · rw [h]; exact one_pos
  · rw [h]
    unfold steepestStep
    dsimp only
    have hne : dtg ≠ 0 := by rw [hdt]; nlinarith
    by_cases hf : f = 0
    · subst hf
      simp only [beq_self_eq_true, Bool.not_true, Bool.false_eq_true, if_false]
      split_ifs with hx
      · positivity
      · positivity
    · have : (!(f == 0)) = true := by simp [hf]
      rw [if_pos this, ExactMath.fabs_eq, ExactMath.lit_eq]
      have : 0 < |f / dtg| := abs_pos.2 (div_ne_zero hf hne)
      simpa using this

/-- **C25 (VMLMB).** In exact arithmetic (with an exact square root), for a new optimizer with consistent bounds or
none and any sequence of actions of the caller: at a new iterate where the projected gradient is not zero,
the next call either starts a line search or fails because of the limits of the step.  When a line search
is started, the derivative announced to the line search is exactly minus the inner product of the direction and of the
gradient, it is strictly negative, the value is the one given by the caller and the variables are moved from the
iterate along the opposite of the direction (and projected).  With `stpmin = 0` and `stpmax ≥ 1`, a line
search is always started. -/
theorem search_started (hsqrt : ∀ a : K, 0 ≤ a → 0 ≤ CMath.sqrt a ∧ CMath.sqrt a * CMath.sqrt a = a)
    (finite : K → Bool) (opts : Options K) (size : Int) (same bounded : Bool) (inf : K) (h0 : 0 < inf)
    (lower upper : Side K n) (hb : Bounds lower upper) (hu : bounded = false → lower = .unset ∧ upper = .unset)
    (ls0 : LineSearch.Ls K M) (raw : Opt K M (Fin n → K)) (par : Par K (Fin n → K)) (opt : Opt K M (Fin n → K))
    (hnew : new finite exactVs opts size (boxArg inf lower upper bounded) same ls0 raw = some (par, opt))
    (ops : LineSearch.Ops K M) (ok : LineSearch.Method ops) (x : Fin n → K) (f : K) (g : Fin n → K)
    (l : List (Act K (Fin n → K))) :
    let s := Sess.acts par ops { opt := opt, x := x, f := f, g := g } l
    let s' := s.next par ops
    s.opt.task = .newX ∨ s.opt.task = .finalX → freeGrad lower upper s.x s.g ≠ 0 →
    (s'.opt.task = .computeFG ∧ s'.opt.ls.ginit = -(s'.opt.d ⬝ᵥ s.g) ∧ s'.opt.ls.ginit < 0 ∧ s'.opt.ls.finit = s.f ∧
      s'.opt.ls.stp = s'.opt.stp ∧ 0 ≤ s'.opt.stp ∧
      s'.x = fun i => clampO (lower.at i) (upper.at i) (s.x i - s'.opt.stp * s'.opt.d i)) ∨
    (s'.opt.task = .error ∧ (s'.opt.status = .ls .stpminGtStpmax ∨ s'.opt.status = .ls .stepLtStpmin ∨
      s'.opt.status = .ls .stepGtStpmax) ∧ ¬ (opts.stpmin = 0 ∧ 1 ≤ opts.stpmax)) := by
  intro s s' hn hg
  have hs := new_setting finite opts size same bounded inf h0 lower upper hb hu ls0 raw par opt hnew
  obtain ⟨-, -, -, ht0, -, -⟩ := new_counters finite _ opts size _ same ls0 raw par opt hnew
  obtain ⟨-, -, -, -, -, -, -, kmin, kmax, kdel, -, -, kopt⟩ := new_method finite _ opts size _ same ls0 raw par opt hnew
  have hi : SInv par inf lower upper s := acts_inv par ops ok inf lower upper hs l _ (new_inv par inf lower upper opt ht0 x f g)
  have hx := hi.feasible (Or.inr hn)
  obtain ⟨n1, n2⟩ := hi.newX hn
  have hpg := dot_self_pos _ hg
  obtain ⟨q1, q2⟩ := hsqrt _ hpg.le
  rw [← n2] at q1 q2
  have hgn : 0 < s.opt.gnorm := lt_of_le_of_ne q1 (fun h => by rw [← h] at q2; simp at q2; rw [← q2] at hpg; exact lt_irrefl _ hpg)
  have hchosen : ∀ d dtg, Chosen par s.opt s.x s.g d dtg → dtg = -(d ⬝ᵥ s.g) ∧ dtg < 0 := by
    intro d dtg hc
    rcases hc with ⟨-, h1, h2⟩ | ⟨-, hd, h2⟩
    · rw [hs.vs] at h2
      refine ⟨h2, ?_⟩
      unfold Rejected at h1
      push Not at h1
      rw [h2]
      have := h1.1
      rw [hs.vs] at this
      exact this
    · have : d = steep par s.opt s.g := hd
      rw [n1] at this
      rw [this, freeGrad_dot, h2]
      constructor
      · rw [← q2]; ring
      · nlinarith
  rcases iterate_newX par ops s.opt s.x s.f s.g hn with ⟨r, e1, e2⟩ | ⟨r, e1, e2, e3⟩
  · left
    have hB := onNewX_begun par ops ok s.opt s.x s.f s.g r e1
    have htr := trial_clamp par inf lower upper hs r (by rw [hB.x0]; exact hx)
      (by rw [hB.x0]; exact chosen_open par inf lower upper hs _ _ _ _ _ hB.chosen n1)
      (by
        intro box hb
        obtain ⟨l, l1, -, l2, -⟩ := hB.lim box hb
        exact ⟨l, by rw [hB.x0]; exact l1, l2⟩)
      (le_trans hB.stpmin.1 hB.stpmin.2.1)
    have hs' : s' = { opt := success r .computeFG, x := fun i => clampO (lower.at i) (upper.at i) (r.x0 i - r.stp * r.d i), f := s.f, g := s.g } := by
      show Sess.next par ops s = _
      unfold Sess.next
      rw [e2, htr]
    rw [hs']
    obtain ⟨c1, c2⟩ := hchosen _ _ hB.chosen
    refine ⟨rfl, c1, c2, hB.finit, hB.stp, le_trans hB.stpmin.1 hB.stpmin.2.1, ?_⟩
    rw [hB.x0]; rfl
  · right
    have hs' : s' = { opt := r, x := s.x, f := s.f, g := s.g } := by
      show Sess.next par ops s = _
      unfold Sess.next
      rw [e3]
    rw [hs']
    refine ⟨e2, ?_⟩
    dsimp only
    have hdel : 0 < par.delta ∧ 0 ≤ par.stpmin := by
      unfold checkOptions at kopt
      rw [Bool.not_eq_true', decide_eq_false_iff_not] at kopt
      simp only [not_or] at kopt
      rw [kdel, kmin]
      exact ⟨not_le.1 kopt.2.2.2.2.2.1, not_lt.1 kopt.2.2.2.2.2.2.2.2.2.2.1⟩
    rcases onNewX_ret par ops ok s.opt s.x s.f s.g r e1 with ⟨box, st, d, b1, b2⟩ | ⟨d, dtg, stp0, c1, c2, hc⟩
    · exfalso
      rcases hs.box with ⟨hbx, -⟩ | hbx
      · rw [hbx] at b1; cases b1
      · rw [hbx] at b1; cases b1
        rw [projdir_eq] at b2; cases b2
    · obtain ⟨d1, d2⟩ := hchosen _ _ c1
      have hp := length_pos par s.opt s.x s.f s.g d dtg stp0 hdel.1 c2 hgn
      have hd0 : d ≠ 0 := by
        intro h; rw [h] at d1; simp at d1; rw [d1] at d2; exact lt_irrefl _ d2
      have hop := chosen_open par inf lower upper hs _ _ _ _ _ c1 n1
      obtain ⟨l, l1, l2, l3, l4, l5, l6, l7, l8⟩ := steplim_ok inf h0 lower upper s.x d hx
      have hs3 : 0 < l.s3 := by
        have := l6 hd0; rw [l8 hop] at this; exact lt_of_lt_of_le l4 this
      have hbx : ∀ box, par.box = some box → box = boxCs inf lower upper := by
        intro box hbx
        rcases hs.box with ⟨h, -⟩ | h <;> rw [h] at hbx <;> cases hbx
        rfl
      rcases hc with ⟨box, st, b1, b2⟩ | ⟨box, l', b1, b2, b3, -⟩ | ⟨stp, smax, v1, v2, v3, v4⟩
      · exfalso; rw [hbx box b1, l1] at b2; cases b2
      · exfalso
        rw [hbx box b1, l1] at b2
        cases b2
        exact absurd b3 (not_le.2 hs3)
      · have hm0 : 0 ≤ stp0 * par.stpmin := mul_nonneg hp.le hdel.2
        obtain ⟨s1, s2, s3, s4, s5, s6, s7, s8⟩ := LineSearch.start_checks ops ok s.opt.ls ⟨s.f, dtg, stp, stp0 * par.stpmin, smax⟩
        dsimp only at s1 s2 s3 s4 s5 s6 s7 s8
        constructor
        · rw [v2]
          by_cases k1 : smax < stp0 * par.stpmin
          · left; rw [s5 hm0 k1]
          · push Not at k1
            by_cases k2 : stp < stp0 * par.stpmin
            · right; left; rw [s6 hm0 k1 k2]
            · push Not at k2
              by_cases k3 : smax < stp
              · right; right; rw [s7 hm0 k2 k1 k3]
              · push Not at k3
                exact absurd ⟨hm0, k1, k2, k3, d2⟩ v1
        · rintro ⟨z1, z2⟩
          rw [← kmin] at z1
          rw [← kmax] at z2
          apply v1
          have hle : stp0 ≤ stp0 * par.stpmax := by nlinarith
          rcases hq : par.box with _ | box
          · obtain ⟨rfl, rfl⟩ := v3 hq
            refine ⟨hm0, ?_, ?_, hle, d2⟩ <;> dsimp only <;> rw [z1, mul_zero] <;> linarith
          · obtain ⟨l', b2, b3, rfl, rfl⟩ := v4 box hq
            refine ⟨hm0, ?_, ?_, min_le_min_right _ hle, d2⟩ <;> dsimp only <;> rw [z1, mul_zero]
            · exact le_min (by linarith) b3.le
            · exact le_min hp.le b3.le

end exact

end Opk.Vmlmb
