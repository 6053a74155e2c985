import Verif.Nlcg.History
import Verif.Vmlmb.Bfgs
/-!
# C25, C30: search directions of the conjugate gradient optimizer

Sessions of a caller which gives back to the optimizer the variables as they were set by the optimizer and, at a new
iterate, the function value and the gradient computed there; in exact arithmetic.
-/
set_option linter.unusedSectionVars false
set_option linter.unusedSimpArgs false
namespace Opk.Nlcg
open Opk.Optim Matrix
open Opk.Vmlmb (exactVs bfgs bfgs_mulVec dot_self_pos)

section sess
variable {F M V : Type} [Add F] [Sub F] [Mul F] [Div F] [Neg F] [Zero F] [One F]
  [LinearOrder F] [CMath F]

/-- The optimizer and what the caller owns: the variables, the function value and the gradient.  The caller also remembers the
gradient at the last iterate from which a line search was started. -/
structure Sess (F M V : Type) where
  opt : Opt F M V
  x : V
  f : F
  g : V
  gp : V

/-- The caller answers to `OPK_TASK_COMPUTE_FG`. -/
def Sess.reply (par : Par F V) (ops : LineSearch.Ops F M) (s : Sess F M V) (f : F) (g : V) : Option (Sess F M V) :=
  (iterate par ops s.opt s.x f g).map fun r => { s with opt := r.1, x := r.2, f := f, g := g }

/-- The caller calls `opk_iterate` when no evaluation is asked. -/
def Sess.next (par : Par F V) (ops : LineSearch.Ops F M) (s : Sess F M V) : Option (Sess F M V) :=
  (iterate par ops s.opt s.x s.f s.g).map fun r => { s with opt := r.1, x := r.2, gp := s.g }

/-- What the caller may do: (re)start with some variables or call `opk_iterate`, with a new function
value and gradient if they were asked, with the last ones otherwise. -/
inductive Act (F V : Type) where
  | start (x : V)
  | go (f : F) (g : V)

/-- One action of the caller. -/
def Sess.act (par : Par F V) (ops : LineSearch.Ops F M) (s : Sess F M V) : Act F V → Option (Sess F M V)
  | .start x => some { s with opt := start s.opt, x := x }
  | .go f g => if s.opt.task = .computeFG then s.reply par ops f g else s.next par ops

/-- A sequence of actions. -/
def Sess.acts (par : Par F V) (ops : LineSearch.Ops F M) (s : Sess F M V) : List (Act F V) → Option (Sess F M V)
  | [] => some s
  | a :: l => (s.act par ops a).bind fun s => Sess.acts par ops s l

end sess

section exact
variable {K M ι : Type} [Field K] [LinearOrder K] [IsStrictOrderedRing K] [CMath K] [ExactMath K]
  [Fintype ι] [DecidableEq ι]

/-! ## Specification: the published formulas -/

/-- The parameter `β` of the methods, for the last direction `p` and the gradients `g0` and `g` at the previous and the
current iterate. -/
def published (rule : Rule) (p g0 g : ι → K) : K :=
  let y := g - g0
  match rule with
  | .fletcherReeves => (g ⬝ᵥ g) / (g0 ⬝ᵥ g0)
  | .hestenesStiefel => (g ⬝ᵥ y) / (p ⬝ᵥ y)
  | .polakRibierePolyak => (g ⬝ᵥ y) / (g0 ⬝ᵥ g0)
  | .fletcher => -(g ⬝ᵥ g) / (p ⬝ᵥ g0)
  | .liuStorey => -(g ⬝ᵥ y) / (p ⬝ᵥ g0)
  | .daiYuan => (g ⬝ᵥ g) / (p ⬝ᵥ y)
  | .hagerZhang => ((y - (2 * (y ⬝ᵥ y) / (p ⬝ᵥ y)) • p) ⬝ᵥ g) / (p ⬝ᵥ y)
  | .perryShanno => ((g ⬝ᵥ y) / (y ⬝ᵥ y) - 2 * (p ⬝ᵥ g) / (p ⬝ᵥ y)) / ((p ⬝ᵥ y) / (y ⬝ᵥ y))

/-- The denominator in the formula. -/
def denominator (rule : Rule) (p g0 g : ι → K) : K :=
  match rule with
  | .fletcherReeves | .polakRibierePolyak => g0 ⬝ᵥ g0
  | .fletcher | .liuStorey => p ⬝ᵥ g0
  | .hestenesStiefel | .daiYuan | .hagerZhang | .perryShanno => p ⬝ᵥ (g - g0)

/-- Powell's modification. -/
def clipped (powell : Bool) (beta : K) : K := if powell then max beta 0 else beta

/-- The new direction: `-g + β p` or, for the method of Perry and Shanno, `-H g` with `H` the memoryless BFGS approximation
of the inverse of the Hessian. -/
def published_direction (rule : Rule) (powell : Bool) (p g0 g : ι → K) : ι → K :=
  match rule with
  | .perryShanno =>
    let y := g - g0; -(bfgs (((p ⬝ᵥ y) / (y ⬝ᵥ y)) • 1) p y *ᵥ g)
  | rule => -g + clipped powell (published rule p g0 g) • p

/-- The cases of a restart: the formula cannot be applied, `β = 0`, or the direction is not a (sufficient) descent
direction. -/
def Restarts (rule : Rule) (powell : Bool) (epsilon : K) (p g0 g : ι → K) : Prop :=
  denominator rule p g0 g = 0 ∨
  (rule ≠ .perryShanno ∧ clipped powell (published rule p g0 g) = 0) ∨
  0 ≤ published_direction rule powell p g0 g ⬝ᵥ g ∨
  0 < epsilon ∧ -epsilon * CMath.sqrt (published_direction rule powell p g0 g ⬝ᵥ published_direction rule powell p g0 g) *
    CMath.sqrt (g ⬝ᵥ g) < published_direction rule powell p g0 g ⬝ᵥ g

/-! ## Invariant -/

/-- What is known of the last search. -/
structure Last (par : Par K (ι → K)) (o : Opt K M (ι → K)) (gp : ι → K) : Prop where
  dtg0 : o.dtg0 = -(o.d ⬝ᵥ gp)
  neg : o.dtg0 < 0
  g0 : ∀ v, o.g0 = some v → v = gp
  g0norm : o.g0norm = CMath.sqrt (gp ⬝ᵥ gp)
  alpha : 0 ≤ o.alpha

/-- Invariant of the sessions. -/
structure SInv (par : Par K (ι → K)) (s : Sess K M (ι → K)) : Prop where
  vecs : Vecs par s.opt
  nonneg : 0 ≤ s.opt.evaluations
  newX : s.opt.task = .newX ∨ s.opt.task = .finalX →
    s.opt.gnorm = CMath.sqrt (s.g ⬝ᵥ s.g) ∧ 0 < s.opt.evaluations ∧
    (1 < s.opt.evaluations → s.opt.dtg = -(s.opt.d ⬝ᵥ s.g) ∧ Last par s.opt s.gp)
  fg : s.opt.task = .computeFG → 0 < s.opt.evaluations →
    s.opt.ls.task = .search ∧ s.opt.ls.stp = s.opt.alpha ∧ 0 ≤ s.opt.ls.stpmin ∧ s.opt.ls.stpmin ≤ s.opt.ls.stpmax ∧
    Last par s.opt s.gp

/-- The settings. -/
structure Setting (par : Par K (ι → K)) : Prop where
  vs : par.vs = exactVs
  delta : 0 < par.delta
  stpmin : 0 ≤ par.stpmin
  stpmax : par.stpmin < par.stpmax
  epsilon : 0 ≤ par.epsilon ∧ par.epsilon < 1
  orig : par.hagerZhangOrig = false
  fmin : par.fminGiven = false

theorem new_setting (finite : K → Bool) (opts : Options K) (ls0 : LineSearch.Ls K M) (raw : ι → K)
    (par : Par K (ι → K)) (opt : Opt K M (ι → K)) (h : new finite exactVs opts ls0 raw = some (par, opt)) :
    Setting par := by
  obtain ⟨-, -, -, -, -, evs, -, -, emin, emax, edel, eeps, -, -, efm, eor, kopt⟩ := new_spec finite _ opts ls0 raw par opt h
  unfold checkOptions at kopt
  rw [Bool.not_eq_true', decide_eq_false_iff_not] at kopt
  simp only [not_or] at kopt
  obtain ⟨-, -, -, -, -, k1, -, k2, k3, -, k4, -, k5, -⟩ := kopt
  refine ⟨evs, ?_, ?_, ?_, ⟨?_, ?_⟩, eor, efm⟩
  · rw [edel]; exact not_le.1 k1
  · rw [emin]; exact not_lt.1 k4
  · rw [emin, emax]; exact not_le.1 k5
  · rw [eeps]; exact not_lt.1 k2
  · rw [eeps]; exact not_le.1 k3

/-! ## The update rules -/

/-- The direction given by the update is the published one, or the formula fails. -/
theorem update_published (hsqrt : ∀ a : K, 0 ≤ a → 0 ≤ CMath.sqrt a ∧ CMath.sqrt a * CMath.sqrt a = a)
    (par : Par K (ι → K)) (hs : Setting par) (o : Opt K M (ι → K)) (g gp : ι → K) (hv : Vecs par o)
    (hl : Last par o gp) (hg : o.gnorm = CMath.sqrt (g ⬝ᵥ g)) (hd : o.dtg = -(o.d ⬝ᵥ g)) :
    ∃ q ok, update par o g = some (q, ok) ∧
      (ok = false ↔ denominator par.rule (-o.d) gp g = 0 ∨
        (par.rule ≠ .perryShanno ∧ clipped (hasBit par.flags POWELL) (published par.rule (-o.d) gp g) = 0)) ∧
      (ok = true → -q.d = published_direction par.rule (hasBit par.flags POWELL) (-o.d) gp g ∧
        q.beta = (if par.rule = .perryShanno then published .perryShanno (-o.d) gp g else clipped (hasBit par.flags POWELL) (published par.rule (-o.d) gp g))) ∧
      q.evaluations = o.evaluations ∧ q.gnorm = o.gnorm ∧ q.alpha = o.alpha ∧ q.dtg0 = o.dtg0 ∧ q.restarts = o.restarts := by
  have hgp : gp ≠ 0 := by
    intro h
    have := hl.neg
    rw [hl.dtg0, h] at this
    simp at this
  have hgg : 0 ≤ g ⬝ᵥ g := by
    by_cases h : g = 0
    · rw [h]; simp
    · exact (dot_self_pos _ h).le
  have hpp := dot_self_pos _ hgp
  obtain ⟨g1, g2⟩ := hsqrt _ hgg
  obtain ⟨p1, p2⟩ := hsqrt _ hpp.le
  rw [← hg] at g1 g2
  rw [← hl.g0norm] at p1 p2
  have p0 : o.g0norm ≠ 0 := by intro h; rw [h] at p2; simp at p2; rw [← p2] at hpp; exact lt_irrefl _ hpp
  have hdn : (-o.d) ⬝ᵥ gp = o.dtg0 := by rw [hl.dtg0, neg_dotProduct]
  have hdg : (-o.d) ⬝ᵥ g = o.dtg := by rw [hd, neg_dotProduct]
  have hne := hl.neg.ne
  -- the two helper functions
  have h0 : ∀ beta, (hasBit par.flags POWELL = true → 0 ≤ beta) → ∃ q ok, update0 par o g beta = (q, ok) ∧
      (ok = false ↔ clipped (hasBit par.flags POWELL) beta = 0) ∧
      (ok = true → -q.d = -g + clipped (hasBit par.flags POWELL) beta • -o.d ∧ q.beta = clipped (hasBit par.flags POWELL) beta) ∧
      q.evaluations = o.evaluations ∧ q.gnorm = o.gnorm ∧ q.alpha = o.alpha ∧ q.dtg0 = o.dtg0 ∧ q.restarts = o.restarts := by
    intro beta hb
    have hc : clipped (hasBit par.flags POWELL) beta = beta := by
      unfold clipped
      split_ifs with h
      · exact max_eq_left (hb h)
      · rfl
    rw [hc]
    unfold update0
    dsimp only
    by_cases hz : beta = 0
    · rw [if_pos (by simpa using hz)]
      exact ⟨_, _, rfl, by simp [hz], by simp, rfl, rfl, rfl, rfl, rfl⟩
    · rw [if_neg (by simpa using hz)]
      refine ⟨_, _, rfl, by simp [hz], fun _ => ⟨?_, rfl⟩, rfl, rfl, rfl, rfl, rfl⟩
      rw [hs.vs]
      show -(1 • g + beta • o.d) = _
      rw [one_smul, smul_neg]; abel
  have h1 : ∀ (y : ι → K) beta, ∃ q ok, update1 par { o with y := some y } g beta = (q, ok) ∧
      (ok = false ↔ clipped (hasBit par.flags POWELL) beta = 0) ∧
      (ok = true → -q.d = -g + clipped (hasBit par.flags POWELL) beta • -o.d ∧ q.beta = clipped (hasBit par.flags POWELL) beta) ∧
      q.evaluations = o.evaluations ∧ q.gnorm = o.gnorm ∧ q.alpha = o.alpha ∧ q.dtg0 = o.dtg0 ∧ q.restarts = o.restarts := by
    intro y beta
    unfold update1
    dsimp only
    have hc : (if hasBit par.flags POWELL = true ∧ beta < 0 then 0 else beta) = clipped (hasBit par.flags POWELL) beta := by
      unfold clipped
      by_cases hb : hasBit par.flags POWELL = true
      · simp only [hb, true_and, if_true]
        split_ifs with h
        · exact (max_eq_right h.le).symm
        · exact (max_eq_left (not_lt.1 h)).symm
      · simp [hb]
    rw [hc]
    generalize clipped (hasBit par.flags POWELL) beta = b
    by_cases hz : b = 0
    · rw [if_pos (by simpa using hz)]
      exact ⟨_, _, rfl, by simp [hz], by simp, rfl, rfl, rfl, rfl, rfl⟩
    · rw [if_neg (by simpa using hz)]
      refine ⟨_, _, rfl, by simp [hz], fun _ => ⟨?_, rfl⟩, rfl, rfl, rfl, rfl, rfl⟩
      rw [hs.vs]
      show -(1 • g + b • o.d) = _
      rw [one_smul, smul_neg]; abel
  have nb : ∀ a : K, ((!(a == 0)) = true) = (a ≠ 0) := by intro a; simp
  have hcl : ∀ c, clipped c (0 : K) = 0 := by intro c; unfold clipped; simp
  unfold update
  by_cases hfr : par.rule = .fletcherReeves
  · rw [hfr]
    obtain ⟨q, ok, e, e1, e2, e3⟩ := h0 (o.gnorm / o.g0norm * (o.gnorm / o.g0norm))
      (fun _ => mul_self_nonneg _)
    have hb : o.gnorm / o.g0norm * (o.gnorm / o.g0norm) = published .fletcherReeves (-o.d) gp g := by
      unfold published; rw [div_mul_div_comm, g2, p2]
    rw [hb] at e1 e2
    have hden : denominator .fletcherReeves (-o.d) gp g ≠ 0 := hpp.ne'
    refine ⟨q, ok, congrArg some e, ?_, ?_, e3⟩
    · rw [e1]; simp [hden]
    · intro h; rw [if_neg (by simp)]; exact e2 h
  by_cases hcd : par.rule = .fletcher
  · rw [hcd]
    have hb : -o.gnorm * (o.gnorm / o.dtg0) = published .fletcher (-o.d) gp g := by
      unfold published; dsimp only; rw [hdn, ← g2]; field_simp
    have hnn : 0 ≤ published .fletcher (-o.d) gp g := by
      unfold published; dsimp only; rw [hdn]
      exact div_nonneg_of_nonpos (by linarith) hl.neg.le
    obtain ⟨q, ok, e, e1, e2, e3⟩ := h0 (published .fletcher (-o.d) gp g) (fun _ => hnn)
    rw [← hb] at e
    have hden : denominator .fletcher (-o.d) gp g ≠ 0 := by unfold denominator; dsimp only; rw [hdn]; exact hne
    refine ⟨q, ok, congrArg some e, ?_, ?_, e3⟩
    · rw [e1]; simp [hden]
    · intro h; rw [if_neg (by simp)]; exact e2 h
  obtain ⟨hgs, hys⟩ := hv ⟨hfr, hcd⟩
  obtain ⟨v, ev, ey⟩ := formY_eq par o g hgs hys
  have hvp := hl.g0 v ev
  subst hvp
  have hy : par.vs.axpby 1 g (-1) v = g - v := by
    rw [hs.vs]
    show 1 • g + (-1 : K) • v = _
    rw [one_smul, neg_one_smul, sub_eq_add_neg]
  rw [hy] at ey
  have hvd : ∀ a b, par.vs.dot a b = a ⬝ᵥ b := by intro a b; rw [hs.vs]; rfl
  have hvn : ∀ a, par.vs.norm2 a = CMath.sqrt (a ⬝ᵥ a) := by intro a; rw [hs.vs]; rfl
  have hdy : -(o.d ⬝ᵥ (g - v)) = (-o.d) ⬝ᵥ (g - v) := by rw [neg_dotProduct]
  have hyy : 0 ≤ (g - v) ⬝ᵥ (g - v) := by
    by_cases h : g - v = 0
    · rw [h]; simp
    · exact (dot_self_pos _ h).le
  -- conclusion for the rules which use `update1`
  have hfin : ∀ rule beta, rule ≠ .perryShanno →
      (denominator rule (-o.d) v g = 0 → beta = 0) →
      (denominator rule (-o.d) v g ≠ 0 → beta = published rule (-o.d) v g) →
      published_direction rule (hasBit par.flags POWELL) (-o.d) v g =
        -g + clipped (hasBit par.flags POWELL) (published rule (-o.d) v g) • -o.d →
      ∃ q ok, some (update1 par { o with y := some (g - v) } g beta) = some (q, ok) ∧
      (ok = false ↔ denominator rule (-o.d) v g = 0 ∨
        (rule ≠ .perryShanno ∧ clipped (hasBit par.flags POWELL) (published rule (-o.d) v g) = 0)) ∧
      (ok = true → -q.d = published_direction rule (hasBit par.flags POWELL) (-o.d) v g ∧
        q.beta = (if rule = .perryShanno then published .perryShanno (-o.d) v g else clipped (hasBit par.flags POWELL) (published rule (-o.d) v g))) ∧
      q.evaluations = o.evaluations ∧ q.gnorm = o.gnorm ∧ q.alpha = o.alpha ∧ q.dtg0 = o.dtg0 ∧ q.restarts = o.restarts := by
    intro rule beta hr k1 k2 k3
    obtain ⟨q, ok, e, e1, e2, e3⟩ := h1 (g - v) beta
    refine ⟨q, ok, congrArg some e, ?_, ?_, e3⟩
    · rw [e1]
      by_cases hden : denominator rule (-o.d) v g = 0
      · simp [hden, k1 hden, hcl]
      · simp [hden, hr, k2 hden]
    · intro hok
      by_cases hden : denominator rule (-o.d) v g = 0
      · exfalso
        rw [k1 hden, hcl] at e1
        rw [e1.2 rfl] at hok
        cases hok
      · rw [k3, if_neg hr, ← k2 hden]
        exact e2 hok
  rcases hr : par.rule <;> dsimp only
  · exact absurd hr hfr
  · unfold updateHS; rw [ey]
    simp only [Option.map_some, hvd, hdy]
    refine hfin .hestenesStiefel _ (by decide) ?_ ?_ rfl
    · intro h; unfold denominator at h; dsimp only at h; rw [if_neg (by rw [nb]; exact not_not.2 h)]
    · intro h; unfold denominator at h; dsimp only at h; rw [if_pos (by rw [nb]; exact h)]; rfl
  · unfold updatePRP; rw [ey]
    simp only [Option.map_some, hvd, hdy]
    refine hfin .polakRibierePolyak _ (by decide) ?_ ?_ rfl
    · intro h; unfold denominator at h; dsimp only at h; exact absurd h hpp.ne'
    · intro _; unfold published; dsimp only; rw [div_div, p2]
  · exact absurd hr hcd
  · unfold updateLS; rw [ey]
    simp only [Option.map_some, hvd, hdy]
    refine hfin .liuStorey _ (by decide) ?_ ?_ rfl
    · intro h; unfold denominator at h; dsimp only at h; rw [hdn] at h; exact absurd h hne
    · intro _; unfold published; dsimp only; rw [hdn]
  · unfold updateDY; rw [ey]
    simp only [Option.map_some, hvd, hdy]
    refine hfin .daiYuan _ (by decide) ?_ ?_ rfl
    · intro h; unfold denominator at h; dsimp only at h; rw [if_neg (by rw [nb]; exact not_not.2 h)]
    · intro h; unfold denominator at h; dsimp only at h
      rw [if_pos (by rw [nb]; exact h)]
      unfold published
      dsimp only
      rw [← g2]; field_simp
  · unfold updatePS; rw [ey]
    simp only [Option.map_some, hvd, hdy]
    by_cases hz : (g - v) ⬝ᵥ (g - v) ≤ 0
    · have h0 : g - v = 0 := by
        by_contra h
        exact absurd hz (not_le.2 (dot_self_pos _ h))
      rw [if_pos hz]
      refine ⟨_, _, rfl, ?_, by simp, rfl, rfl, rfl, rfl, rfl⟩
      simp [denominator, h0]
    rw [if_neg hz]
    by_cases hd0 : (-o.d) ⬝ᵥ (g - v) = 0
    · rw [if_pos (by simpa using hd0)]
      exact ⟨_, _, rfl, ⟨fun _ => Or.inl hd0, fun _ => rfl⟩, by simp, rfl, rfl, rfl, rfl, rfl⟩
    · rw [if_neg (by simpa using hd0)]
      refine ⟨_, _, rfl, ⟨(fun h => by cases h), fun h => ?_⟩, fun _ => ?_, rfl, rfl, rfl, rfl, rfl⟩
      · rcases h with h | h
        · exact absurd h hd0
        · exact absurd rfl h.1
      have hyp := not_le.1 hz
      dsimp only
      rw [hs.vs, if_pos trivial]
      constructor
      · show -(_ • g + _ • o.d + _ • (g - v)) = published_direction .perryShanno _ _ _ _
        unfold published_direction
        dsimp only
        rw [bfgs_mulVec]
        dsimp only
        rw [ExactMath.lit_eq, ← hdg]
        generalize hP : -o.d = P at *
        have hod : o.d = -P := by rw [← hP, neg_neg]
        rw [hod]
        generalize hY : g - v = Y at *
        simp only [smul_mulVec, one_mulVec, smul_dotProduct, sub_dotProduct, dotProduct_sub, smul_eq_mul]
        rw [dotProduct_comm g P]
        generalize P ⬝ᵥ Y = py at *
        generalize Y ⬝ᵥ Y = yy at *
        generalize P ⬝ᵥ g = pg at *
        generalize g ⬝ᵥ Y = gy at *
        funext i
        simp only [Pi.add_apply, Pi.neg_apply, Pi.smul_apply, Pi.sub_apply, smul_eq_mul]
        have := hyp.ne'
        push_cast
        field_simp
        ring
      · unfold published
        dsimp only
        rw [ExactMath.lit_eq, ← hdg]
        norm_num
  · unfold updateHZ; rw [ey, hs.orig]
    simp only [Option.map_some, hvd, hdy, hvn, Bool.false_eq_true, if_false]
    obtain ⟨y1, y2⟩ := hsqrt _ hyy
    have : (if (!(-o.d ⬝ᵥ (g - v) == 0)) = true then
        update1 par { o with y := some (g - v) } g
          (((g - v) ⬝ᵥ g - lit 2 1 * (CMath.sqrt ((g - v) ⬝ᵥ (g - v)) / -o.d ⬝ᵥ (g - v)) * CMath.sqrt ((g - v) ⬝ᵥ (g - v)) * o.dtg) / -o.d ⬝ᵥ (g - v))
        else update1 par { o with y := some (g - v) } g 0) =
        update1 par { o with y := some (g - v) } g (if -o.d ⬝ᵥ (g - v) = 0 then 0 else
          (((g - v) ⬝ᵥ g - lit 2 1 * (CMath.sqrt ((g - v) ⬝ᵥ (g - v)) / -o.d ⬝ᵥ (g - v)) * CMath.sqrt ((g - v) ⬝ᵥ (g - v)) * o.dtg) / -o.d ⬝ᵥ (g - v))) := by
      by_cases hd0 : (-o.d) ⬝ᵥ (g - v) = 0
      · rw [if_neg (by rw [nb]; exact not_not.2 hd0), if_pos hd0]
      · rw [if_pos (by rw [nb]; exact hd0), if_neg hd0]
    rw [this]
    refine hfin .hagerZhang _ (by decide) ?_ ?_ rfl
    · intro h; unfold denominator at h; dsimp only at h; rw [if_pos h]
    · intro h; unfold denominator at h; dsimp only at h
      rw [if_neg h]
      unfold published
      dsimp only
      rw [ExactMath.lit_eq, ← hdg, sub_dotProduct (g - v), smul_dotProduct, smul_eq_mul]
      generalize (-o.d) ⬝ᵥ (g - v) = py at *
      generalize (-o.d) ⬝ᵥ g = pg at *
      generalize (g - v) ⬝ᵥ g = gy at *
      congr 2
      push_cast
      generalize CMath.sqrt ((g - v) ⬝ᵥ (g - v)) = w at *
      rw [← y2]
      field_simp

/-! ## The new direction -/

/-- The direction, the derivative and the counter of the restarts at a new iterate other than the first one. -/
theorem begun_direction (hsqrt : ∀ a : K, 0 ≤ a → 0 ≤ CMath.sqrt a ∧ CMath.sqrt a * CMath.sqrt a = a)
    (par : Par K (ι → K)) (hs : Setting par) (ops : LineSearch.Ops K M) (o : Opt K M (ι → K)) (x : ι → K) (f : K) (g gp : ι → K)
    (hv : Vecs par o) (he : 1 < o.evaluations)
    (hl : Last par o gp) (hg : o.gnorm = CMath.sqrt (g ⬝ᵥ g)) (hd : o.dtg = -(o.d ⬝ᵥ g))
    (r : Opt K M (ι → K)) (hB : Begun par ops o x f g r) :
    (Restarts par.rule (hasBit par.flags POWELL) par.epsilon (-o.d) gp g ∧ r.d = g ∧ r.dtg = -(g ⬝ᵥ g) ∧
      r.restarts = o.restarts + 1 ∧ r.beta = 0) ∨
    (¬ Restarts par.rule (hasBit par.flags POWELL) par.epsilon (-o.d) gp g ∧
      -r.d = published_direction par.rule (hasBit par.flags POWELL) (-o.d) gp g ∧
      r.dtg = -(r.d ⬝ᵥ g) ∧ r.dtg < 0 ∧ r.restarts = o.restarts ∧
      r.alpha = (if hasBit par.flags SHANNO_PHUA then o.alpha * (o.dtg0 / r.dtg) else o.alpha) ∧
      r.beta = (if par.rule = .perryShanno then published .perryShanno (-o.d) gp g else
        clipped (hasBit par.flags POWELL) (published par.rule (-o.d) gp g))) := by
  have hgg : 0 ≤ g ⬝ᵥ g := by
    by_cases h : g = 0
    · rw [h]; simp
    · exact (dot_self_pos _ h).le
  obtain ⟨-, g2⟩ := hsqrt _ hgg
  rw [← hg] at g2
  obtain ⟨q, ok, e, e1, e2, e3, e4, e5, e6, e7⟩ := update_published hsqrt par hs o g gp hv hl hg hd
  obtain ⟨q', hq', s1, s2, s3, s4, s5⟩ := hB.stages
  unfold direction at hq'
  rw [if_neg (by omega), e] at hq'
  simp only [Option.map_some, Option.some.injEq] at hq'
  have hvd : ∀ a b, par.vs.dot a b = a ⬝ᵥ b := by intro a b; rw [hs.vs]; rfl
  have hvn : ∀ a, par.vs.norm2 a = CMath.sqrt (a ⬝ᵥ a) := by intro a; rw [hs.vs]; rfl
  -- a restart
  have hrest : ∀ t : Opt K M (ι → K), t.evaluations = o.evaluations → t.gnorm = o.gnorm → t.restarts = o.restarts → 0 ≤ t.dtg →
      (initialStep par t x f g).d = g ∧ (initialStep par t x f g).dtg = -(g ⬝ᵥ g) ∧
      (initialStep par t x f g).restarts = o.restarts + 1 ∧ (initialStep par t x f g).beta = 0 := by
    intro t t1 t2 t3 t4
    unfold initialStep
    rw [if_neg (not_lt.2 t4), if_pos (by rw [t1]; exact he)]
    refine ⟨rfl, ?_, ?_, rfl⟩
    · dsimp only; rw [t2, ← g2]; ring
    · dsimp only; rw [t3]
  rcases ok with _ | _
  · left
    simp only [Bool.not_false, if_true] at hq'
    subst hq'
    obtain ⟨k1, k2, k3, k4⟩ := hrest { q with dtg := 0 } e3 e4 e7 (le_refl _)
    refine ⟨?_, s1.symm.trans k1, s2.symm.trans k2, s4.symm.trans k3, s5.symm.trans k4⟩
    rcases e1.1 rfl with h | h
    · exact Or.inl h
    · exact Or.inr (Or.inl h)
  · obtain ⟨d1, d2⟩ := e2 rfl
    have hnf : ¬ (denominator par.rule (-o.d) gp g = 0 ∨
        (par.rule ≠ .perryShanno ∧ clipped (hasBit par.flags POWELL) (published par.rule (-o.d) gp g) = 0)) :=
      fun h => by simpa using e1.2 h
    simp only [Bool.not_true, Bool.false_eq_true, if_false, hvd, hvn] at hq'
    have hpd : published_direction par.rule (hasBit par.flags POWELL) (-o.d) gp g ⬝ᵥ g = -(q.d ⬝ᵥ g) := by
      rw [← d1, neg_dotProduct]
    have hpp : published_direction par.rule (hasBit par.flags POWELL) (-o.d) gp g ⬝ᵥ
        published_direction par.rule (hasBit par.flags POWELL) (-o.d) gp g = q.d ⬝ᵥ q.d := by
      rw [← d1, neg_dotProduct, dotProduct_neg, neg_neg]
    by_cases heps : par.epsilon > 0 ∧ -(q.d ⬝ᵥ g) > -par.epsilon * CMath.sqrt (q.d ⬝ᵥ q.d) * q.gnorm
    · left
      rw [if_pos heps] at hq'
      subst hq'
      obtain ⟨k1, k2, k3, k4⟩ := hrest { q with dtg := 0 } e3 e4 e7 (le_refl _)
      refine ⟨Or.inr (Or.inr (Or.inr ?_)), s1.symm.trans k1, s2.symm.trans k2, s4.symm.trans k3, s5.symm.trans k4⟩
      rw [hpd, hpp, ← hg, ← e4]
      exact heps
    · rw [if_neg heps] at hq'
      by_cases hneg : -(q.d ⬝ᵥ g) < 0
      · right
        subst hq'
        have hi : initialStep par { q with dtg := -(q.d ⬝ᵥ g) } x f g =
            (if hasBit par.flags SHANNO_PHUA then { q with dtg := -(q.d ⬝ᵥ g), alpha := q.alpha * (q.dtg0 / -(q.d ⬝ᵥ g)) } else { q with dtg := -(q.d ⬝ᵥ g) }) := by
          unfold initialStep
          rw [if_pos hneg]
        have hi' : (initialStep par { q with dtg := -(q.d ⬝ᵥ g) } x f g).d = q.d ∧
            (initialStep par { q with dtg := -(q.d ⬝ᵥ g) } x f g).dtg = -(q.d ⬝ᵥ g) ∧
            (initialStep par { q with dtg := -(q.d ⬝ᵥ g) } x f g).alpha =
              (if hasBit par.flags SHANNO_PHUA then q.alpha * (q.dtg0 / -(q.d ⬝ᵥ g)) else q.alpha) ∧
            (initialStep par { q with dtg := -(q.d ⬝ᵥ g) } x f g).restarts = q.restarts ∧
            (initialStep par { q with dtg := -(q.d ⬝ᵥ g) } x f g).beta = q.beta := by
          rw [hi]
          split_ifs <;> exact ⟨rfl, rfl, rfl, rfl, rfl⟩
        obtain ⟨i1, i2, i3, i4, i5⟩ := hi'
        rw [i1] at s1
        rw [i2] at s2
        rw [i3] at s3
        rw [i4] at s4
        rw [i5] at s5
        refine ⟨?_, by rw [← s1]; exact d1, by rw [← s1, ← s2], by rw [← s2]; exact hneg, s4.symm.trans e7,
          by rw [← s3, ← s2, e5, e6], by rw [← s5]; exact d2⟩
        rintro (h | h | h | h)
        · exact hnf (Or.inl h)
        · exact hnf (Or.inr h)
        · rw [hpd] at h; exact absurd hneg (not_lt.2 h)
        · rw [hpd, hpp, ← hg, ← e4] at h; exact heps h
      · left
        subst hq'
        obtain ⟨k1, k2, k3, k4⟩ := hrest { q with dtg := -(q.d ⬝ᵥ g) } e3 e4 e7 (not_lt.1 hneg)
        refine ⟨Or.inr (Or.inr (Or.inl ?_)), s1.symm.trans k1, s2.symm.trans k2, s4.symm.trans k3, s5.symm.trans k4⟩
        rw [hpd]; exact not_lt.1 hneg

/-- At the first iterate, the direction is the one of the steepest descent. -/
theorem begun_first (hsqrt : ∀ a : K, 0 ≤ a → 0 ≤ CMath.sqrt a ∧ CMath.sqrt a * CMath.sqrt a = a)
    (par : Par K (ι → K)) (ops : LineSearch.Ops K M) (o : Opt K M (ι → K)) (x : ι → K) (f : K) (g : ι → K)
    (he : o.evaluations ≤ 1) (hg : o.gnorm = CMath.sqrt (g ⬝ᵥ g)) (r : Opt K M (ι → K)) (hB : Begun par ops o x f g r) :
    r.d = g ∧ r.dtg = -(g ⬝ᵥ g) ∧ r.restarts = o.restarts ∧ r.beta = 0 := by
  have hgg : 0 ≤ g ⬝ᵥ g := by
    by_cases h : g = 0
    · rw [h]; simp
    · exact (dot_self_pos _ h).le
  obtain ⟨-, g2⟩ := hsqrt _ hgg
  rw [← hg] at g2
  obtain ⟨q', hq', s1, s2, s3, s4, s5⟩ := hB.stages
  unfold direction at hq'
  rw [if_pos he] at hq'
  cases hq'
  unfold initialStep at s1 s2 s4 s5
  simp only [lt_irrefl, if_false, gt_iff_lt, not_lt.2 he] at s1 s2 s4 s5
  refine ⟨s1.symm, ?_, s4.symm, s5.symm⟩
  rw [← s2, ← g2]; ring

/-- The initial step is not negative (it is positive along the steepest descent direction). -/
theorem begun_alpha (par : Par K (ι → K)) (hs : Setting par) (ops : LineSearch.Ops K M) (o : Opt K M (ι → K)) (x : ι → K) (f : K)
    (g : ι → K) (r : Opt K M (ι → K)) (hB : Begun par ops o x f g r) (hg : 0 < o.gnorm) (hv : Vecs par o)
    (h : 1 < o.evaluations → o.dtg0 < 0 ∧ 0 ≤ o.alpha) : 0 ≤ r.alpha := by
  obtain ⟨q, hq, -, -, s3, -, -⟩ := hB.stages
  obtain ⟨beta, d, y, dtg, e, -⟩ := direction_some par o g hv
  rw [e] at hq
  cases hq
  rw [← s3]
  unfold initialStep
  split_ifs with h1 h2 h3
  · dsimp only
    have he : 1 < o.evaluations := by
      by_contra hc
      unfold direction at e
      rw [if_pos (by omega)] at e
      simp only [Option.some.injEq, Opt.mk.injEq] at e
      rw [← e.2.2.2.2.1] at h1
      exact lt_irrefl _ h1
    obtain ⟨k1, k2⟩ := h he
    exact mul_nonneg k2 (div_nonneg_of_nonpos k1.le h1.le)
  · have he : 1 < o.evaluations := by
      by_contra hc
      unfold direction at e
      rw [if_pos (by omega)] at e
      simp only [Option.some.injEq, Opt.mk.injEq] at e
      rw [← e.2.2.2.2.1] at h1
      exact lt_irrefl _ h1
    exact (h he).2
  all_goals
    dsimp only
    unfold steepestStep
    rw [hs.fmin]
    simp only [Bool.false_eq_true, false_and, if_false]
    have hd := hs.delta
    split_ifs with h4 h5
    · rw [ExactMath.lit_eq, ExactMath.fabs_eq]
      have : (0:K) ≤ |f / (-o.gnorm * o.gnorm)| := abs_nonneg _
      simpa using this
    · positivity
    · positivity

/-! ## Invariance -/

theorem act_inv (hsqrt : ∀ a : K, 0 ≤ a → 0 ≤ CMath.sqrt a ∧ CMath.sqrt a * CMath.sqrt a = a)
    (par : Par K (ι → K)) (hs : Setting par) (ops : LineSearch.Ops K M) (ok : LineSearch.Method ops)
    (s : Sess K M (ι → K)) (h : SInv par s) (a : Act K (ι → K)) :
    ∃ s', s.act par ops a = some s' ∧ SInv par s' := by
  have hvn : ∀ a, par.vs.norm2 a = CMath.sqrt (a ⬝ᵥ a) := by intro a; rw [hs.vs]; rfl
  have hvd : ∀ a b, par.vs.dot a b = a ⬝ᵥ b := by intro a b; rw [hs.vs]; rfl
  rcases a with x | ⟨f, g⟩
  · refine ⟨_, rfl, h.vecs, le_refl _, ?_, ?_⟩
    · intro h; simp [start, success] at h
    · intro _ h; simp [start, success] at h
  · unfold Sess.act
    dsimp only
    by_cases hfg : s.opt.task = .computeFG
    · rw [if_pos hfg]
      unfold Sess.reply
      obtain ⟨r, e, ha⟩ := iterate_fg par ops s.opt s.x f g hfg
      rw [e]
      refine ⟨_, rfl, ?_⟩
      have hng := h.nonneg
      cases ha with
      | first r he hr =>
        obtain ⟨gi, t, e1, -, ht⟩ := accept_eq par { s.opt with evaluations := s.opt.evaluations + 1 } g
        rw [e1] at hr
        subst hr
        refine ⟨h.vecs, by dsimp only; omega, fun _ => ⟨hvn g, by dsimp only; omega, fun h => by dsimp only at h; omega⟩, fun hc => ?_⟩
        exfalso
        dsimp only at hc
        rw [ht] at hc
        split_ifs at hc <;> cases hc
      | search q he hq ht =>
        obtain ⟨k1, k2, k3, k4, k5⟩ := h.fg hfg he
        obtain ⟨d1, d2, d3, d4⟩ := LineSearch.iterate_data ops ok s.opt.ls s.opt.alpha f (-par.vs.dot s.opt.d g)
        have hst := LineSearch.iterate_step ops ok s.opt.ls f (-par.vs.dot s.opt.d g) k1 k4
        rw [k2, ← hq] at hst
        rw [← hq] at d1 d2
        refine ⟨h.vecs, by simp only [trial, success]; omega, fun h => by simp [trial, success] at h, fun _ _ => ?_⟩
        simp only [trial, success]
        refine ⟨ht, hst.2.2.symm, by rw [d1]; exact k3, by rw [d1, d2]; exact k4, k5.dtg0, k5.neg, k5.g0, k5.g0norm, ?_⟩
        dsimp only
        rw [hst.2.2]; exact le_trans k3 hst.1
      | accepted q r he hq ht hr =>
        obtain ⟨k1, k2, k3, k4, k5⟩ := h.fg hfg he
        have hst := LineSearch.iterate_step ops ok s.opt.ls f (-par.vs.dot s.opt.d g) k1 k4
        rw [k2, ← hq] at hst
        obtain ⟨gi, t, e1, -, ht'⟩ := accept_eq par { s.opt with evaluations := s.opt.evaluations + 1, dtg := -par.vs.dot s.opt.d g, ls := q.1, alpha := q.2, iterations := s.opt.iterations + 1 } g
        rw [e1] at hr
        subst hr
        refine ⟨h.vecs, by dsimp only; omega, fun _ => ⟨hvn g, by dsimp only; omega, fun _ => ⟨?_, k5.dtg0, k5.neg, k5.g0, k5.g0norm, ?_⟩⟩, fun hc => ?_⟩
        · dsimp only; rw [hvd]
        · dsimp only
          rw [hst.2.2]; exact le_trans k3 hst.1
        · exfalso
          dsimp only at hc
          rw [ht'] at hc
          split_ifs at hc <;> cases hc
      | failed q r he hq ht hr =>
        subst hr
        exact ⟨h.vecs, by simp only [failure]; omega, fun h => by simp [failure] at h, fun h => by simp [failure] at h⟩
    · rw [if_neg hfg]
      unfold Sess.next
      by_cases hn : s.opt.task = .newX ∨ s.opt.task = .finalX
      · obtain ⟨n1, n2, n3⟩ := h.newX hn
        obtain ⟨r, hB, hr⟩ := iterate_newX par ops s.opt s.x s.f s.g h.vecs hn
        have v := begun_vecs par ops s.opt s.x s.f s.g r hB h.vecs
        rcases hr with ⟨k1, k2⟩ | ⟨k1, k2, -, k3⟩
        · rw [k2]
          refine ⟨_, rfl, v, by simp only [trial, success]; rw [hB.evaluations]; omega, fun h => by simp [trial, success] at h, fun _ _ => ?_⟩
          simp only [trial, success]
          obtain ⟨s1, s2, -⟩ := LineSearch.start_checks ops ok s.opt.ls ⟨s.f, r.dtg, r.alpha, par.stpmin * r.alpha, par.stpmax * r.alpha⟩
          dsimp only at s1 s2
          have hls := hB.ls
          rw [← hls] at s1 s2
          have hv := s1.1 k1
          obtain ⟨c1, c2, -⟩ := s2 hv
          unfold LineSearch.Conforms at c2
          refine ⟨k1, c1, by rw [c2.2.2.1]; exact hv.1, by rw [c2.2.2.1, c2.2.2.2.1]; exact hv.2.1, ?_, ?_, ?_, ?_, ?_⟩
          · show r.dtg0 = -(r.d ⬝ᵥ s.g)
            rw [hB.dtg0]
            by_cases he : 1 < s.opt.evaluations
            · obtain ⟨m1, m2⟩ := n3 he
              rcases begun_direction hsqrt par hs ops s.opt s.x s.f s.g s.gp h.vecs he m2 n1 m1 r hB with
                ⟨-, b1, b2, -⟩ | ⟨-, -, b2, -⟩
              · rw [b2, b1]
              · exact b2
            · obtain ⟨b1, b2, -⟩ := begun_first hsqrt par ops s.opt s.x s.f s.g (by omega) n1 r hB
              rw [b2, b1]
          · show r.dtg0 < 0
            rw [hB.dtg0]; exact hv.2.2.2.2
          · intro w hw
            have hg0 := hB.g0
            change r.g0 = some w at hw
            rw [hw] at hg0
            rcases hh : s.opt.g0 with _ | u
            · rw [hh] at hg0; cases hg0
            · rw [hh] at hg0; cases hg0; rfl
          · show r.g0norm = _
            rw [hB.g0norm]; exact n1
          · show 0 ≤ r.alpha
            exact le_trans hv.1 hv.2.2.1
        · rw [k3]
          exact ⟨_, rfl, v, by dsimp only; rw [hB.evaluations]; omega, fun h => by simp [k2] at h, fun h => by simp [k2] at h⟩
      · rw [iterate_other par ops s.opt s.x s.f s.g hfg hn]
        exact ⟨_, rfl, h.vecs, h.nonneg, fun h => absurd h hn, fun h => absurd h hfg⟩

theorem acts_inv (hsqrt : ∀ a : K, 0 ≤ a → 0 ≤ CMath.sqrt a ∧ CMath.sqrt a * CMath.sqrt a = a)
    (par : Par K (ι → K)) (hs : Setting par) (ops : LineSearch.Ops K M) (ok : LineSearch.Method ops)
    (l : List (Act K (ι → K))) : ∀ s : Sess K M (ι → K), SInv par s → ∃ s', s.acts par ops l = some s' ∧ SInv par s' := by
  induction l with
  | nil => intro s h; exact ⟨s, rfl, h⟩
  | cons a l ih =>
    intro s h
    obtain ⟨s1, e, h1⟩ := act_inv hsqrt par hs ops ok s h a
    unfold Sess.acts
    rw [e]
    exact ih s1 h1

theorem new_sinv (finite : K → Bool) (opts : Options K) (ls0 : LineSearch.Ls K M) (raw : ι → K)
    (par : Par K (ι → K)) (opt : Opt K M (ι → K)) (h : new finite exactVs opts ls0 raw = some (par, opt))
    (x : ι → K) (f : K) (g gp : ι → K) : SInv par { opt := opt, x := x, f := f, g := g, gp := gp } := by
  obtain ⟨hv, hc, ht, -⟩ := new_spec finite _ opts ls0 raw par opt h
  exact ⟨hv, hc.evaluations_nonneg, fun h => by simp [ht] at h, fun h => by simp [ht] at h⟩

/-- **C30.** In exact arithmetic, for a new optimizer and any sequence of actions of the caller: at a new iterate after the first
one, with `p` the direction of the last line search, `gp` the gradient at the iterate where it started and `g` the gradient
at the new iterate, the new direction is the published one and the number of restarts does not change, except in
the cases of a restart, where the new direction is `-g`, and `beta` is zero.  At the first iterate the
direction is `-g` and it is not counted as a restart. -/
theorem new_direction (hsqrt : ∀ a : K, 0 ≤ a → 0 ≤ CMath.sqrt a ∧ CMath.sqrt a * CMath.sqrt a = a)
    (finite : K → Bool) (opts : Options K) (ls0 : LineSearch.Ls K M) (raw : ι → K)
    (par : Par K (ι → K)) (opt : Opt K M (ι → K)) (hnew : new finite exactVs opts ls0 raw = some (par, opt))
    (ops : LineSearch.Ops K M) (ok : LineSearch.Method ops) (x : ι → K) (f : K) (g gp : ι → K) (l : List (Act K (ι → K))) :
    ∃ s s', Sess.acts par ops { opt := opt, x := x, f := f, g := g, gp := gp } l = some s ∧ s.next par ops = some s' ∧
    (s.opt.task = .newX ∨ s.opt.task = .finalX →
      (s.opt.evaluations = 1 ∧ -s'.opt.d = -s.g ∧ s'.opt.restarts = s.opt.restarts ∧ s'.opt.beta = 0) ∨
      (1 < s.opt.evaluations ∧
        ((Restarts par.rule (hasBit par.flags POWELL) opts.epsilon (-s.opt.d) s.gp s.g ∧ -s'.opt.d = -s.g ∧
            s'.opt.restarts = s.opt.restarts + 1 ∧ s'.opt.beta = 0) ∨
         (¬ Restarts par.rule (hasBit par.flags POWELL) opts.epsilon (-s.opt.d) s.gp s.g ∧
            -s'.opt.d = published_direction par.rule (hasBit par.flags POWELL) (-s.opt.d) s.gp s.g ∧
            s'.opt.restarts = s.opt.restarts ∧
            s'.opt.beta = (if par.rule = .perryShanno then published .perryShanno (-s.opt.d) s.gp s.g else
              clipped (hasBit par.flags POWELL) (published par.rule (-s.opt.d) s.gp s.g)))))) := by
  have hs := new_setting finite opts ls0 raw par opt hnew
  have heps : par.epsilon = opts.epsilon := by
    obtain ⟨-, -, -, -, -, -, -, -, -, -, -, h, -⟩ := new_spec finite _ opts ls0 raw par opt hnew
    exact h
  obtain ⟨s, e, hi⟩ := acts_inv hsqrt par hs ops ok l _ (new_sinv finite opts ls0 raw par opt hnew x f g gp)
  by_cases hn : s.opt.task = .newX ∨ s.opt.task = .finalX
  · obtain ⟨n1, n2, n3⟩ := hi.newX hn
    obtain ⟨r, hB, hr⟩ := iterate_newX par ops s.opt s.x s.f s.g hi.vecs hn
    have hcon : ∀ t : Opt K M (ι → K), t.d = r.d → t.restarts = r.restarts → t.beta = r.beta →
      (s.opt.evaluations = 1 ∧ -t.d = -s.g ∧ t.restarts = s.opt.restarts ∧ t.beta = 0) ∨
      (1 < s.opt.evaluations ∧
        ((Restarts par.rule (hasBit par.flags POWELL) opts.epsilon (-s.opt.d) s.gp s.g ∧ -t.d = -s.g ∧
            t.restarts = s.opt.restarts + 1 ∧ t.beta = 0) ∨
         (¬ Restarts par.rule (hasBit par.flags POWELL) opts.epsilon (-s.opt.d) s.gp s.g ∧
            -t.d = published_direction par.rule (hasBit par.flags POWELL) (-s.opt.d) s.gp s.g ∧
            t.restarts = s.opt.restarts ∧
            t.beta = (if par.rule = .perryShanno then published .perryShanno (-s.opt.d) s.gp s.g else
              clipped (hasBit par.flags POWELL) (published par.rule (-s.opt.d) s.gp s.g))))) := by
      intro t t1 t2 t3
      rw [t1, t2, t3, ← heps]
      by_cases he : 1 < s.opt.evaluations
      · right
        refine ⟨he, ?_⟩
        obtain ⟨m1, m2⟩ := n3 he
        rcases begun_direction hsqrt par hs ops s.opt s.x s.f s.g s.gp hi.vecs he m2 n1 m1 r hB with
          ⟨b0, b1, b2, b3, b4⟩ | ⟨b0, b1, b2, b3, b4, b5, b6⟩
        · exact Or.inl ⟨b0, by rw [b1], b3, b4⟩
        · exact Or.inr ⟨b0, b1, b4, b6⟩
      · left
        obtain ⟨b1, b2, b3, b4⟩ := begun_first hsqrt par ops s.opt s.x s.f s.g (by omega) n1 r hB
        exact ⟨by omega, by rw [b1], b3, b4⟩
    rcases hr with ⟨k1, k2⟩ | ⟨k1, k2, -, k3⟩
    · refine ⟨s, _, e, by unfold Sess.next; rw [k2]; rfl, fun _ => ?_⟩
      exact hcon (success r .computeFG) rfl rfl rfl
    · refine ⟨s, _, e, by unfold Sess.next; rw [k3]; rfl, fun _ => ?_⟩
      exact hcon r rfl rfl rfl
  · obtain ⟨s', e', -⟩ := act_inv hsqrt par hs ops ok s hi (.go s.f s.g)
    by_cases hfg : s.opt.task = .computeFG
    · obtain ⟨r, e1, -⟩ := iterate_fg par ops s.opt s.x s.f s.g hfg
      exact ⟨s, _, e, by unfold Sess.next; rw [e1]; rfl, fun h => absurd h hn⟩
    · exact ⟨s, _, e, by unfold Sess.next; rw [iterate_other par ops s.opt s.x s.f s.g hfg hn]; rfl, fun h => absurd h hn⟩

/-- **C25 (NLCG).** In exact arithmetic (with an exact square root), for a new optimizer and any sequence of actions of the
caller: at a new iterate where the gradient is not zero, the next call either starts a line search or fails because of the
limits of the step, which is only possible if these limits do not contain one.  When a line search is started,
the derivative announced to the line search is exactly minus the inner product of the direction and of the gradient,
it is strictly negative, the value is the one given by the caller and the variables are moved from the
iterate along the opposite of the direction. -/
theorem search_started (hsqrt : ∀ a : K, 0 ≤ a → 0 ≤ CMath.sqrt a ∧ CMath.sqrt a * CMath.sqrt a = a)
    (finite : K → Bool) (opts : Options K) (ls0 : LineSearch.Ls K M) (raw : ι → K)
    (par : Par K (ι → K)) (opt : Opt K M (ι → K)) (hnew : new finite exactVs opts ls0 raw = some (par, opt))
    (ops : LineSearch.Ops K M) (ok : LineSearch.Method ops) (x : ι → K) (f : K) (g gp : ι → K) (l : List (Act K (ι → K))) :
    ∃ s s', Sess.acts par ops { opt := opt, x := x, f := f, g := g, gp := gp } l = some s ∧ s.next par ops = some s' ∧
    (s.opt.task = .newX ∨ s.opt.task = .finalX → s.g ≠ 0 →
      (s'.opt.task = .computeFG ∧ s'.opt.ls.ginit = -(s'.opt.d ⬝ᵥ s.g) ∧ s'.opt.ls.ginit < 0 ∧ s'.opt.ls.finit = s.f ∧
        s'.opt.ls.stp = s'.opt.alpha ∧ 0 ≤ s'.opt.alpha ∧ s'.x = s.x - s'.opt.alpha • s'.opt.d) ∨
      (s'.opt.task = .error ∧ (s'.opt.status = .ls .stepLtStpmin ∨ s'.opt.status = .ls .stepGtStpmax) ∧
        ¬ (opts.stpmin ≤ 1 ∧ 1 ≤ opts.stpmax))) := by
  have hs := new_setting finite opts ls0 raw par opt hnew
  obtain ⟨emin, emax⟩ : par.stpmin = opts.stpmin ∧ par.stpmax = opts.stpmax := by
    obtain ⟨-, -, -, -, -, -, -, -, h1, h2, -⟩ := new_spec finite _ opts ls0 raw par opt hnew
    exact ⟨h1, h2⟩
  obtain ⟨s, e, hi⟩ := acts_inv hsqrt par hs ops ok l _ (new_sinv finite opts ls0 raw par opt hnew x f g gp)
  by_cases hn : s.opt.task = .newX ∨ s.opt.task = .finalX
  · obtain ⟨n1, n2, n3⟩ := hi.newX hn
    obtain ⟨r, hB, hr⟩ := iterate_newX par ops s.opt s.x s.f s.g hi.vecs hn
    obtain ⟨c1, c2, c3, c4, c5, c6, c7, c8⟩ := LineSearch.start_checks ops ok s.opt.ls ⟨s.f, r.dtg, r.alpha, par.stpmin * r.alpha, par.stpmax * r.alpha⟩
    dsimp only at c1 c2 c3 c4 c5 c6 c7 c8
    rw [← hB.ls] at c1 c2 c3 c4 c5 c6 c7 c8
    rcases hr with ⟨k1, k2⟩ | ⟨k1, k2, k4, k3⟩
    · refine ⟨s, _, e, by unfold Sess.next; rw [k2]; rfl, fun _ hg => Or.inl ?_⟩
      have hv := c1.1 k1
      obtain ⟨d1, d2, -⟩ := c2 hv
      unfold LineSearch.Conforms at d2
      have hdt : r.dtg = -(r.d ⬝ᵥ s.g) := by
        by_cases he : 1 < s.opt.evaluations
        · obtain ⟨m1, m2⟩ := n3 he
          rcases begun_direction hsqrt par hs ops s.opt s.x s.f s.g s.gp hi.vecs he m2 n1 m1 r hB with
            ⟨-, b1, b2, -⟩ | ⟨-, -, b2, -⟩
          · rw [b2, b1]
          · exact b2
        · obtain ⟨b1, b2, -⟩ := begun_first hsqrt par ops s.opt s.x s.f s.g (by omega) n1 r hB
          rw [b2, b1]
      refine ⟨rfl, d2.2.1.trans hdt, ?_, d2.1, d1, le_trans hv.1 hv.2.2.1, ?_⟩
      · show r.ls.ginit < 0
        rw [d2.2.1]; exact hv.2.2.2.2
      · show par.vs.axpby 1 r.x0 (-r.alpha) r.d = s.x - r.alpha • r.d
        rw [hs.vs, hB.x0]
        show (1 : K) • s.x + (-r.alpha) • r.d = _
        rw [one_smul, neg_smul, sub_eq_add_neg]
    · refine ⟨s, _, e, by unfold Sess.next; rw [k3]; rfl, fun _ hg => Or.inr ?_⟩
      dsimp only
      refine ⟨k2, ?_⟩
      have hpg := dot_self_pos _ hg
      obtain ⟨q1, q2⟩ := hsqrt _ hpg.le
      rw [← n1] at q1 q2
      have hgn : 0 < s.opt.gnorm := lt_of_le_of_ne q1 (fun h => by rw [← h] at q2; simp at q2; rw [← q2] at hpg; exact lt_irrefl _ hpg)
      have hal : 0 ≤ r.alpha := begun_alpha par hs ops s.opt s.x s.f s.g r hB hgn hi.vecs
        (fun he => ⟨(n3 he).2.neg, (n3 he).2.alpha⟩)
      have hdt : r.dtg < 0 := by
        by_cases he : 1 < s.opt.evaluations
        · obtain ⟨m1, m2⟩ := n3 he
          rcases begun_direction hsqrt par hs ops s.opt s.x s.f s.g s.gp hi.vecs he m2 n1 m1 r hB with
            ⟨-, b1, b2, -⟩ | ⟨-, -, -, b2, -⟩
          · rw [b2]; linarith
          · exact b2
        · obtain ⟨b1, b2, -⟩ := begun_first hsqrt par ops s.opt s.x s.f s.g (by omega) n1 r hB
          rw [b2]; linarith
      have h0 : 0 ≤ par.stpmin * r.alpha := mul_nonneg hs.stpmin hal
      have h1 : par.stpmin * r.alpha ≤ par.stpmax * r.alpha := mul_le_mul_of_nonneg_right hs.stpmax.le hal
      constructor
      · rw [k4]
        by_cases h2 : r.alpha < par.stpmin * r.alpha
        · left; rw [c6 h0 h1 h2]
        · push Not at h2
          by_cases h3 : par.stpmax * r.alpha < r.alpha
          · right; rw [c7 h0 h2 h1 h3]
          · push Not at h3
            exact absurd (c1.2 ⟨h0, h1, h2, h3, hdt⟩) k1
      · rintro ⟨z1, z2⟩
        rw [← emin] at z1
        rw [← emax] at z2
        refine k1 (c1.2 ⟨h0, h1, ?_, ?_, hdt⟩) <;> dsimp only <;> nlinarith
  · by_cases hfg : s.opt.task = .computeFG
    · obtain ⟨r, e1, -⟩ := iterate_fg par ops s.opt s.x s.f s.g hfg
      exact ⟨s, _, e, by unfold Sess.next; rw [e1]; rfl, fun h => absurd h hn⟩
    · exact ⟨s, _, e, by unfold Sess.next; rw [iterate_other par ops s.opt s.x s.f s.g hfg hn]; rfl, fun h => absurd h hn⟩

end exact

end Opk.Nlcg
