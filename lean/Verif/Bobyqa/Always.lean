import Verif.Bobyqa.Keep
import Verif.Bobyqa.Ends
import Verif.Newuoa.Quadratic

/-!
# BOBYQA: the quadratic model takes the values of the objective function at all the iterations
-/
set_option linter.unusedSectionVars false
namespace Opk.Bobyqa
open Linalg CMath Cobyla Powell
open Newuoa (omega qval Matches)

section
variable {K : Type} [Field K] [LinearOrder K] [IsStrictOrderedRing K] [CMath K] [ExactMath K]

/-- The rotations of `update` are accurate at the calls of the objective function in the first `fuel` steps. -/
def Steady (p : Par K) (calfun : Nat → (Nat → K) → K) (T : St K → Trs K) (fuel : Nat) (ls : Lab × St K) : Prop :=
  ∀ j s, j < fuel → run p calfun T j ls = (.l360, s) → Even p s

/-- With `n + 2` points there are no rotations. -/
theorem Steady.single {p : Par K} (hp : p.npt = p.n + 2) (calfun : Nat → (Nat → K) → K) (T : St K → Trs K) (fuel : Nat) (ls : Lab × St K) :
    Steady p calfun T fuel ls := fun _ s _ _ => Even.single (by show p.npt - (p.n + 1) = 1; omega) s

theorem run_keep (hsqrt : ∀ a : K, 0 ≤ a → 0 ≤ CMath.sqrt a ∧ CMath.sqrt a * CMath.sqrt a = a) {p : Par K} (hp : Newuoa.Valid p.nw) (calfun : Nat → (Nat → K) → K) (T : St K → Trs K)
    (fuel : Nat) : ∀ ls : Lab × St K, Ok p ls.1 ls.2 → Keep p ls.1 ls.2 → Steady p calfun T fuel ls →
    Ok p (run p calfun T fuel ls).1 (run p calfun T fuel ls).2 ∧ Keep p (run p calfun T fuel ls).1 (run p calfun T fuel ls).2 := by
  induction fuel with
  | zero => intro ls ok k _; exact ⟨ok, k⟩
  | succ fuel ih =>
    intro ls ok k he
    refine ih (step p calfun T ls) (ok_step (weak_sqrt hsqrt) p hp.rend hp.rbeg calfun T ls ok) (keep_step hsqrt hp calfun T ok k fun e => ?_) fun j s hj hr => he (j + 1) s (by omega) hr
    exact he 0 ls.2 (by omega) (by rw [← e]; rfl)

theorem keep_begins {p : Par K} (hp : Newuoa.Valid p.nw) {x sl su : Nat → K} (h : Ready p x sl su) (s0 : St K) :
    Ok p (start x sl su s0).1 (start x sl su s0).2 ∧ Keep p (start x sl su s0).1 (start x sl su s0).2 := by
  have n1 : 1 ≤ p.n := hp.n1
  have npt : p.n + 2 ≤ p.npt := hp.lo
  exact ⟨ok_start p hp.r (by omega) x sl su s0 h, begun_start p x sl su s0 n1⟩

end

/-- The labels of an iteration. -/
def Iterates (l : Lab) : Prop := l = .l60 ∨ l = .l90 ∨ l = .l210 ∨ l = .l230 ∨ l = .l360 ∨ l = .l650 ∨ l = .l680

/-- The labels out of reach: `rescue`, and an access out of the arrays. -/
def Rescues (l : Lab) : Prop := l = .l190 ∨ l = .r80 ∨ l = .r120 ∨ l = .rpts ∨ l = .l190b ∨ l = .wrong

/-- **C92.**  With real numbers, for any objective function and any step of `trsbox`, as long as the rotations of `update`
are accurate: at any time of any iteration, the quadratic model takes the values of the function at `NPT` points of the
calls, the best one is one of them; `rescue` is never called; and the status `ROUNDING_ERRORS` is never set. -/
theorem bobyqa_interpolates {p : Par ℝ} (hp : Newuoa.Valid p.nw) (f : (Nat → ℝ) → ℝ) (T : St ℝ → Trs ℝ) {x sl su : Nat → ℝ} (h : Ready p x sl su) (s0 : St ℝ)
    {fuel : Nat} {l : Lab} {s : St ℝ} (hr : run p (fun _ => f) T fuel (start x sl su s0) = (l, s)) (he : Steady p (fun _ => f) T fuel (start x sl su s0)) :
    (Iterates l → Matches p.n p.npt f s.log (s.model p) ∧ Inverse p s) ∧ ¬ Rescues l ∧ (l = .done ∨ l = .ret → Clean s.status) := by
  obtain ⟨o, k⟩ := keep_begins hp h s0
  obtain ⟨ok, keep⟩ := run_keep Newuoa.real_root hp (fun _ => f) T fuel _ o k he
  have gen := bobyqb_genuine p (fun _ => f) T x sl su s0 fuel
  rw [hr] at ok keep gen
  have val := genuine_value f _ gen
  refine ⟨fun q => ?_, fun q => ?_, fun q => ?_⟩
  · have key : Core p s ∧ Full p s := by
      rcases q with rfl | rfl | rfl | rfl | rfl | rfl | rfl
      · exact ⟨keep, ok.1⟩
      · exact ⟨keep.1, ok.1⟩
      · exact ⟨keep.1, ok.1⟩
      · exact ⟨keep.1, ok.1⟩
      · exact ⟨keep.1, ok.1⟩
      · exact ⟨keep, ok.1⟩
      · exact ⟨keep, ok.1⟩
    exact ⟨key.1.matches key.2 val, key.1.inv⟩
  · rcases q with rfl | rfl | rfl | rfl | rfl | rfl <;> exact keep
  · rcases q with rfl | rfl <;> exact keep

/-- The denominator of the update is positive, and it is the one of the formula of Powell for `KNEW`. -/
theorem bobyqa_denominator {p : Par ℝ} (hp : Newuoa.Valid p.nw) (calfun : Nat → (Nat → ℝ) → ℝ) (T : St ℝ → Trs ℝ) {x sl su : Nat → ℝ} (h : Ready p x sl su) (s0 : St ℝ)
    {fuel : Nat} {s : St ℝ} (hr : run p calfun T fuel (start x sl su s0) = (.l360, s)) (he : Steady p calfun T fuel (start x sl su s0)) (hn : s.ntrits ≠ -1) :
    0 < s.denom ∧ omega p.nptm s.zmat s.knew s.knew * s.beta + s.vlag s.knew * s.vlag s.knew = s.denom := by
  obtain ⟨o, k⟩ := keep_begins hp h s0
  obtain ⟨-, keep⟩ := run_keep Newuoa.real_root hp calfun T fuel _ o k he
  rw [hr] at keep
  have := keep.2.resolve_left hn
  exact ⟨this.pos, this.den⟩

/-- **C92**, in the variables of the user, with the scaling and the sign of a maximization. -/
theorem optimize_interpolates {a : Args ℝ} {s0 : St ℝ} {p : Par ℝ} {scl : Option (Nat → ℝ)} {ls : Lab × St ℝ} (ha : prepare a s0 = .inr (p, scl, ls))
    (f : (Nat → ℝ) → ℝ) (T : St ℝ → Trs ℝ) {fuel : Nat} {l : Lab} {s : St ℝ} (hr : run p (objfun (fun _ => f) a.maximize scl) T fuel ls = (l, s))
    (he : Steady p (objfun (fun _ => f) a.maximize scl) T fuel ls) :
    (Iterates l → Matches a.n.toNat a.npt.toNat (fun x => if a.maximize then -f (unscale scl x) else f (unscale scl x)) s.log (s.model p) ∧ Inverse p s) ∧
    ¬ Rescues l ∧ (l = .done ∨ l = .ret → Clean s.status) := by
  obtain ⟨v, en, em, -⟩ := prepare_valid ha
  obtain ⟨-, -, -, -, x, sl, su, rfl, hrd⟩ := prepare_ready a s0 p scl ls ha
  have ob : objfun (fun _ => f) a.maximize scl = fun _ x => if a.maximize then -f (unscale scl x) else f (unscale scl x) := by
    funext _ x
    unfold objfun
    cases a.maximize <;> simp
  rw [ob] at hr he
  rw [← en, ← em]
  exact bobyqa_interpolates v _ T hrd s0 hr he

/-- With `n + 2` points and the step of `trsbox`, `bobyqa_optimize` with valid arguments returns the status `SUCCESS` or
`TOO_MANY_EVALUATIONS`, whatever the objective function. -/
theorem optimize_clean {a : Args ℝ} (hm : a.npt = a.n + 2) (obj : Nat → (Nat → ℝ) → ℝ) {T : Par ℝ → St ℝ → Trs ℝ} (hT : ∀ p, IsTrsbox p (T p)) {s0 : St ℝ} {fuel : Nat} {st : Status}
    {x : Nat → ℝ} {w1 : ℝ} {log : List ((Nat → ℝ) × ℝ)} (h : optimize a obj T s0 fuel = some (st, x, w1, log)) {q : _} (ha : prepare a s0 = .inr q) : st = .success ∨ st = .tooManyEvaluations := by
  have nf := optimize_never_failed Newuoa.real_root a obj T hT s0 fuel st x w1 log h
  unfold optimize at h
  obtain ⟨p, scl, ls⟩ := q
  rw [ha] at h
  obtain ⟨v, en, em, -⟩ := prepare_valid ha
  obtain ⟨-, -, -, -, x0, sl, su, rfl, hrd⟩ := prepare_ready a s0 p scl ls ha
  have n1 : 1 ≤ p.n := v.n1
  have one : p.npt = p.n + 2 := by rw [en, em]; rw [en] at n1; omega
  dsimp only at h
  obtain ⟨o, k⟩ := keep_begins v hrd s0
  obtain ⟨-, keep⟩ := run_keep Newuoa.real_root v (objfun obj a.maximize scl) (T p) fuel _ o k (Steady.single one _ _ _ _)
  cases hr : run p (objfun obj a.maximize scl) (T p) fuel (start x0 sl su s0) with
  | mk l r =>
    rw [hr] at h keep
    cases l <;> simp only [reduceCtorEq] at h
    simp only [Option.some.injEq, Prod.mk.injEq] at h
    obtain ⟨rfl, rfl, rfl, rfl⟩ := h
    rcases keep with w | w | w
    · exact Or.inl w
    · exact Or.inr w
    · exact absurd w nf

/-- With `n + 2` points and the step of `trsbox`, `bobyqa_optimize` with valid arguments ends with the status `SUCCESS` or
`TOO_MANY_EVALUATIONS`, and the variables are those of the best call. -/
theorem optimize_returns {a : Args ℝ} (hm : a.npt = a.n + 2) (obj : Nat → (Nat → ℝ) → ℝ) {T : Par ℝ → St ℝ → Trs ℝ} (hT : ∀ p, IsTrsbox p (T p)) {s0 : St ℝ} {q : _}
    (ha : prepare a s0 = .inr q) : ∃ fuel st x w1 log, optimize a obj T s0 fuel = some (st, x, w1, log) ∧ (st = .success ∨ st = .tooManyEvaluations) ∧ Genuine obj log ∧
      (log ≠ [] → ∃ e, BestCall a x e log ∧ (st = .success → w1 = e.2)) := by
  obtain ⟨fuel, st, x, w1, log, h, -, g, b⟩ := optimize_total Newuoa.real_root a obj T hT s0
  exact ⟨fuel, st, x, w1, log, h, optimize_clean hm obj hT h ha, g, b⟩

/-! ### A quadratic objective function, and as many points as coefficients -/

theorem isQuadratic_quad (p : Par ℝ) (s : St ℝ) : IsQuadratic p.n (s.quad p) := Newuoa.isQuadratic_quad p.nw s.nw

theorem IsQuadratic.at {n : Nat} {f : (Nat → ℝ) → ℝ} (h : IsQuadratic n f) {x y : Nat → ℝ} (e : ∀ i, 1 ≤ i → i ≤ n → x i = y i) : f x = f y := by
  obtain ⟨c, g, h, q⟩ := h
  rw [q, q]
  congr 1
  · congr 1
    refine Finset.sum_congr rfl fun i hi => ?_
    rw [Finset.mem_Icc] at hi
    rw [e i hi.1 hi.2]
  · refine Finset.sum_congr rfl fun i hi => Finset.sum_congr rfl fun j hj => ?_
    rw [Finset.mem_Icc] at hi hj
    rw [e i hi.1 hi.2, e j hj.1 hj.2]

/-- With as many points as coefficients, the model of a quadratic function is this function. -/
theorem Core.exact {p : Par ℝ} (hm : 2 * p.npt = (p.n + 1) * (p.n + 2)) {s : St ℝ} (h : Core p s) (hf : Full p s) {f : (Nat → ℝ) → ℝ} (hq : IsQuadratic p.n f)
    (hv : ∀ e ∈ s.log, e.2 = f e.1) (x : Nat → ℝ) : s.model p x = f x := by
  obtain ⟨c, hg⟩ := h.inv
  have key := quadratic_unique hm s.xpt (fun t y => c t + Newuoa.lfun p.nw s.nw t y) (fun t _ _ => (isQuadratic_const p.n (c t)).add (Newuoa.isQuadratic_lfun p.nw s.nw t))
    (fun t k t1 t2 k1 k2 => by
      have := Newuoa.lfun_pt (p := p.nw) (s := s.nw) hg t1 t2 k1 k2
      have e : Newuoa.lfun p.nw s.nw t (s.xpt k) = Newuoa.lfun p.nw s.nw t (s.nw.xpt k) := rfl
      rw [e, this]; ring)
    (f := fun y => s.fval s.kopt + s.quad p (fun j => y j + -s.xopt j) + -1 * f (fun j => y j + s.xbase j))
    (((isQuadratic_const _ _).add ((isQuadratic_quad p s).shift fun j => -s.xopt j)).add ((hq.shift s.xbase).mul (-1)))
    (fun k k1 k2 => by
      obtain ⟨e, e1, e2, e3⟩ := hf.recs k k1 k2
      have i := h.int k k1 k2
      have v := hv e e1
      rw [e2, IsQuadratic.at hq (y := fun j => s.xpt k j + s.xbase j) (fun i i1 i2 => by rw [e3 i i1 i2, add_comm])] at v
      rw [← v, show (fun j => s.xpt k j + -s.xopt j) = fun j => s.xpt k j - s.xopt j from funext fun j => by ring, i]
      ring)
    (fun j => x j - s.xbase j)
  dsimp only at key
  rw [show (fun j => x j - s.xbase j + s.xbase j) = x from funext fun j => by ring] at key
  unfold St.model
  rw [show (fun j => x j - (s.xbase j + s.xopt j)) = fun j => x j - s.xbase j + -s.xopt j from funext fun j => by ring]
  linarith

/-- A quadratic objective function with `(n+1)(n+2)/2` points: at any time of any iteration, the model is the objective
function. -/
theorem bobyqa_quadratic {p : Par ℝ} (hp : Newuoa.Valid p.nw) (hm : 2 * p.npt = (p.n + 1) * (p.n + 2)) {f : (Nat → ℝ) → ℝ} (hf : IsQuadratic p.n f) (T : St ℝ → Trs ℝ)
    {x sl su : Nat → ℝ} (h : Ready p x sl su) (s0 : St ℝ) {fuel : Nat} {l : Lab} {s : St ℝ} (hr : run p (fun _ => f) T fuel (start x sl su s0) = (l, s))
    (he : Steady p (fun _ => f) T fuel (start x sl su s0)) (hl : Iterates l) (y : Nat → ℝ) : s.model p y = f y := by
  obtain ⟨o, k⟩ := keep_begins hp h s0
  obtain ⟨ok, keep⟩ := run_keep Newuoa.real_root hp (fun _ => f) T fuel _ o k he
  have gen := bobyqb_genuine p (fun _ => f) T x sl su s0 fuel
  rw [hr] at ok keep gen
  have val := genuine_value f _ gen
  have key : Core p s ∧ Full p s := by
    rcases hl with rfl | rfl | rfl | rfl | rfl | rfl | rfl
    · exact ⟨keep, ok.1⟩
    · exact ⟨keep.1, ok.1⟩
    · exact ⟨keep.1, ok.1⟩
    · exact ⟨keep.1, ok.1⟩
    · exact ⟨keep.1, ok.1⟩
    · exact ⟨keep, ok.1⟩
    · exact ⟨keep, ok.1⟩
  exact key.1.exact hm key.2 hf val y

/-- The first model, without any assumption on `update`. -/
theorem bobyqa_first_quadratic {p : Par ℝ} (hp : Newuoa.Valid p.nw) (hmax : (p.npt : Int) ≤ p.maxfun) (hm : 2 * p.npt = (p.n + 1) * (p.n + 2)) {f : (Nat → ℝ) → ℝ} (hf : IsQuadratic p.n f)
    (T : St ℝ → Trs ℝ) {x sl su : Nat → ℝ} (h : Ready p x sl su) (s0 : St ℝ) :
    ∃ s, run p (fun _ => f) T (p.npt + 1) (start x sl su s0) = (.l60, s) ∧ ∀ y, s.model p y = f y := by
  obtain ⟨r, e1, e2, e3, e4, -⟩ := bobyqa_begins hp hmax (fun _ => f) T h s0
  have gen := bobyqb_genuine p (fun _ => f) T x sl su s0 (p.npt + 1)
  rw [e1] at gen
  exact ⟨r, e1, e4.exact hm e3.1 hf (genuine_value f _ gen)⟩

/-! ### The hypotheses can be met -/

/-- A step of length one along the second axis, away from the nearest bound. -/
noncomputable def axisStep (s : St ℝ) : Trs ℝ where
  d := fun i => if i = 2 then (if 10 ≤ s.su 2 - s.xopt 2 then 1 else -1) else 0
  gnew := fun _ => 0
  xbdi := fun _ => 0
  crvmin := 0

/-- From the first iteration, a trust region step is tried. -/
theorem reaches_trial {p : Par ℝ} (hp : Newuoa.Valid p.nw) (hn : p.n = 2) (hr : p.rhobeg = 1) (hb : p.xu 2 - p.xl 2 = 20) (calfun : Nat → (Nat → ℝ) → ℝ) {s : St ℝ} (ok : Ok p .l60 s)
    (h : Core p s) (r1 : s.rho = p.rhobeg) (r2 : s.delta = p.rhobeg) : ∃ s', run p calfun axisStep 3 (.l60, s) = (.l360, s') ∧ s'.ntrits ≠ -1 := by
  have w := ok.1.xopt_within ok.2.1
  have box : ∀ i, 1 ≤ i → i ≤ p.n → boxStep s (axisStep s) i = s.xopt i + (axisStep s).d i := by
    intro i i1 i2
    obtain ⟨w1, w2⟩ := w i i1 i2
    have g := ok.1.geo 2 (by norm_num) (by omega)
    have wid : s.su 2 - s.sl 2 = 20 := by rw [g.1, g.2]; linarith
    unfold boxStep
    rw [if_neg (by show ¬ (0 : ℝ) = 1; norm_num), if_neg (by show ¬ (0 : ℝ) = -1; norm_num)]
    refine clamp_id ?_
    unfold axisStep
    dsimp only
    by_cases e : i = 2
    · rw [if_pos e]
      subst e
      by_cases c : 10 ≤ s.su 2 - s.xopt 2
      · rw [if_pos c]; constructor <;> linarith
      · rw [if_neg c]; constructor <;> linarith
    · rw [if_neg e, add_zero]; exact ⟨w1, w2⟩
  have dsq : acc p.n (fun i => (boxStep s (axisStep s) i - s.xopt i) * (boxStep s (axisStep s) i - s.xopt i)) 0 = 1 := by
    rw [acc_eq, zero_add, Finset.sum_congr rfl (g := fun i => (axisStep s).d i * (axisStep s).d i) (fun i hi => by
      rw [Finset.mem_Icc] at hi
      rw [box i hi.1 hi.2]; ring), hn, show Finset.Icc 1 2 = {1, 2} from rfl, Finset.sum_pair (by norm_num)]
    unfold axisStep
    dsimp only
    rw [if_neg (by norm_num), if_pos rfl]
    split_ifs <;> norm_num
  have k1 := keep_l60 Newuoa.real_root hp.rend axisStep ok h
  have o1 := ok_l60 p hp.rend axisStep s ok
  have e1 : (l60 p axisStep s).1 = .l90 ∧ (l60 p axisStep s).2.ntrits = s.ntrits + 1 := by
    unfold l60
    dsimp only
    rw [if_neg]
    · exact ⟨rfl, rfl⟩
    · rw [dsq, r1, r2, hr, cmin_eq, show CMath.sqrt (1 : ℝ) = 1 from Real.sqrt_one, min_self, Newuoa.lit_half]
      norm_num
  have n0 : (0 : Int) ≤ s.ntrits := ok.2.2.2
  show ∃ s', run p calfun axisStep 2 (l60 p axisStep s) = _ ∧ _
  generalize l60 p axisStep s = t at *
  obtain ⟨l, t⟩ := t
  obtain ⟨rfl, e2⟩ : l = .l90 ∧ t.ntrits = s.ntrits + 1 := e1
  have k2 := keep_l90 k1
  have o2 := ok_l90 p t o1
  have e3 : (l90 p t).1 = .l230 ∧ (l90 p t).2.ntrits = t.ntrits := by
    unfold l90
    dsimp only
    by_cases c : t.dsq ≤ t.xoptsq * lit 1 1000
    · rw [if_pos c, if_neg (by show ¬ t.ntrits = 0; omega)]; exact ⟨rfl, rfl⟩
    · rw [if_neg c, if_neg (by omega)]; exact ⟨rfl, rfl⟩
  show ∃ s', run p calfun axisStep 1 (l90 p t) = _ ∧ _
  generalize l90 p t = u at *
  obtain ⟨l, u⟩ := u
  obtain ⟨rfl, e4⟩ : l = .l230 ∧ u.ntrits = t.ntrits := e3
  obtain ⟨e5, -⟩ := l230_trial o2 k2 (by show ¬ u.ntrits = 0; omega)
  have e6 : (l230 p u).2.ntrits = u.ntrits := by
    unfold l230 damaged
    dsimp only
    split_ifs <;> rfl
  refine ⟨(l230 p u).2, ?_, by omega⟩
  show l230 p u = _
  generalize l230 p u = v at *
  obtain ⟨l, v⟩ := v
  obtain rfl : l = _ := e5
  rfl

/-- Two variables, the first one at its upper bound, and `m` points. -/
noncomputable def sizedArgs (m : Int) : Args ℝ := { firstArgs with npt := m }

theorem sizedArgs_prepare {m : Int} (m1 : 4 ≤ m) (m2 : m ≤ 6) (s0 : St ℝ) : ∃ p scl ls, prepare (sizedArgs m) s0 = .inr (p, scl, ls) ∧ p.rhobeg = 1 ∧ p.xu 2 - p.xl 2 = 20 := by
  have c : firstClose 2 (1 : ℝ) firstArgs.xl firstArgs.xu = 0 := by
    unfold firstClose
    refine up_inv (fun _ t => t = 0) 2 rfl fun k _ t ht => ?_
    rw [if_neg]
    · exact ht
    · rintro ⟨-, q⟩
      unfold firstArgs at q
      dsimp only at q
      split_ifs at q <;> norm_num at q
  unfold prepare
  have e1 : ¬ (sizedArgs m).n < 2 := by unfold sizedArgs firstArgs; norm_num
  have e2 : ¬ ((sizedArgs m).npt < (sizedArgs m).n + 2 ∨ (sizedArgs m).npt > ((sizedArgs m).n + 2) * ((sizedArgs m).n + 1) / 2) := by
    show ¬ (m < (2 : Int) + 2 ∨ m > ((2 : Int) + 2) * (2 + 1) / 2)
    norm_num; omega
  have e3 : ¬ ((sizedArgs m).rhoend ≤ 0 ∨ (sizedArgs m).rhoend > (sizedArgs m).rhobeg) := by unfold sizedArgs firstArgs; norm_num
  rw [if_neg e1, if_neg e2, if_neg e3]
  show ∃ p scl ls, (if firstClose 2 (1 : ℝ) firstArgs.xl firstArgs.xu ≠ 0 then _ else _) = _ ∧ _
  rw [if_neg (by rw [c]; simp)]
  refine ⟨_, _, _, rfl, rfl, ?_⟩
  show (if 2 = 1 then (0 : ℝ) else 10) - -10 = 20
  norm_num

/-- The maximization of `x(1)² x(2)` with four points: after the first iteration has tried a step, the model takes the values
of its opposite at four points. -/
example (s0 : St ℝ) : ∃ p scl ls s, prepare (sizedArgs 4) s0 = .inr (p, scl, ls) ∧ run p (objfun (fun _ x => x 1 ^ 2 * x 2) true scl) axisStep 8 ls = (.l360, s) ∧ s.ntrits ≠ -1 ∧ 0 < s.denom ∧
    Matches 2 4 (fun x => -(unscale scl x 1 ^ 2 * unscale scl x 2)) s.log (s.model p) := by
  obtain ⟨p, scl, ls, h, r1, r2⟩ := sizedArgs_prepare (m := 4) (by norm_num) (by norm_num) s0
  obtain ⟨v, en, em, ef⟩ := prepare_valid h
  have en : p.n = 2 := en
  have em : p.npt = 4 := em
  have ef : p.maxfun = 100 := ef
  obtain ⟨-, -, -, -, x, sl, su, e, hrd⟩ := prepare_ready (sizedArgs 4) s0 p scl ls h
  obtain ⟨s1, a1, -, a2, a3, a4, a5⟩ := bobyqa_begins v (by rw [em, ef]; norm_num) (objfun (fun _ x => x 1 ^ 2 * x 2) true scl) axisStep hrd s0
  obtain ⟨s2, b1, b2⟩ := reaches_trial v en r1 r2 (objfun (fun _ x => x 1 ^ 2 * x 2) true scl) a2 a3 a4 a5
  have add : ∀ (j k : Nat) (ls : Lab × St ℝ), run p (objfun (fun _ x => x 1 ^ 2 * x 2) true scl) axisStep (j + k) ls
      = run p (objfun (fun _ x => x 1 ^ 2 * x 2) true scl) axisStep k (run p (objfun (fun _ x => x 1 ^ 2 * x 2) true scl) axisStep j ls) := by
    intro j k
    induction j with
    | zero => intro ls; rw [Nat.zero_add]; rfl
    | succ j ih => intro ls; rw [Nat.succ_add]; exact ih _
  have r : run p (objfun (fun _ x => x 1 ^ 2 * x 2) true scl) axisStep 8 ls = (.l360, s2) := by
    rw [show 8 = (p.npt + 1) + 3 by omega, add, e, a1, b1]
  have st : Steady p (objfun (fun _ x => x 1 ^ 2 * x 2) true scl) axisStep 8 ls := Steady.single (by omega) _ _ _ _
  refine ⟨p, scl, ls, s2, h, r, b2, ?_, ((optimize_interpolates h (fun x => x 1 ^ 2 * x 2) axisStep r st).1 (by unfold Iterates; simp)).1⟩
  rw [e] at r st
  exact (bobyqa_denominator v _ axisStep hrd s0 r st b2).1

/-- With six points, the first model of a quadratic function of two variables is this function. -/
example (s0 : St ℝ) (T : St ℝ → Trs ℝ) : ∃ p ls s, run p (fun _ x => x 1 * x 2 + x 2 * x 2) T 7 ls = (.l60, s) ∧ ∀ y, s.model p y = y 1 * y 2 + y 2 * y 2 := by
  obtain ⟨p, scl, ls, h, -⟩ := sizedArgs_prepare (m := 6) (by norm_num) (by norm_num) s0
  obtain ⟨v, en, em, ef⟩ := prepare_valid h
  have en : p.n = 2 := en
  have em : p.npt = 6 := em
  have ef : p.maxfun = 100 := ef
  obtain ⟨-, -, -, -, x, sl, su, e, hrd⟩ := prepare_ready (sizedArgs 6) s0 p scl ls h
  obtain ⟨s, a1, a2⟩ := bobyqa_first_quadratic v (by rw [em, ef]; norm_num) (by rw [em, en]) (f := fun x => x 1 * x 2 + x 2 * x 2)
    (by rw [en]; exact (isQuadratic_mono (by norm_num) (by norm_num) (by norm_num) (by norm_num)).add (isQuadratic_mono (by norm_num) (by norm_num) (by norm_num) (by norm_num))) T hrd s0
  rw [em] at a1
  exact ⟨p, _, s, a1, a2⟩

/-- With four points, the maximization ends with `SUCCESS` or `TOO_MANY_EVALUATIONS`. -/
example (s0 : St ℝ) (T : Par ℝ → St ℝ → Trs ℝ) (hT : ∀ p, IsTrsbox p (T p)) : ∃ fuel st x w1 log, optimize (sizedArgs 4) (fun _ x => x 1 ^ 2 * x 2) T s0 fuel = some (st, x, w1, log) ∧
    (st = .success ∨ st = .tooManyEvaluations) := by
  obtain ⟨p, scl, ls, h, -⟩ := sizedArgs_prepare (m := 4) (by norm_num) (by norm_num) s0
  obtain ⟨fuel, st, x, w1, log, q, r, -⟩ := optimize_returns (a := sizedArgs 4) rfl (fun _ x => x 1 ^ 2 * x 2) hT h
  exact ⟨fuel, st, x, w1, log, q, r⟩

end Opk.Bobyqa
