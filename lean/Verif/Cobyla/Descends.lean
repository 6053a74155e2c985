import Verif.Cobyla.Ends
import Verif.Cobyla.Last
/-!
# COBYLA: does a trial point decrease the objective function?

From a feasible best vertex, the linear model of the objective function should not be greater at the
trial point.
-/
set_option linter.unusedSectionVars false
set_option linter.unusedSimpArgs false
namespace Opk.Cobyla
open Linalg CMath

section
variable {K : Type} [Field K] [LinearOrder K] [IsStrictOrderedRing K] [CMath K] [ExactMath K]

/-- **C98** (specification): there are `n + 1` evaluations not in the same hyperplane, one of which is
the best for a merit function "objective function plus a multiple of the greatest violation"; if this
one is feasible, then the affine function which interpolates the objective function is not greater at
the point to evaluate than there. -/
def Descends (p : Par K) (h : List (Eval K)) (s : St K) : Prop :=
  ∃ e : Nat → Eval K, (∀ j, 1 ≤ j → j ≤ p.np → e j ∈ h) ∧
    (∃ simi, Inv p.n (fun i j => (e j).x i - (e p.np).x i) simi) ∧
    (∃ mu, 0 ≤ mu ∧ ∀ j, 1 ≤ j → j ≤ p.np → (e p.np).f + mu * worst p.m (e p.np).c ≤ (e j).f + mu * worst p.m (e j).c) ∧
    (worst p.m (e p.np).c = 0 → ∀ (g : Nat → K) (g0 : K),
      (∀ j, 1 ≤ j → j ≤ p.np → g0 + ∑ i ∈ Finset.Icc 1 p.n, g i * (e j).x i = (e j).f) →
      g0 + ∑ i ∈ Finset.Icc 1 p.n, g i * s.x i ≤ (e p.np).f)

/-- What the step satisfies with at most one constraint. -/
def Down (p : Par K) (T : St K → (Nat → K) × Nat) : Prop :=
  ∀ s : St K, 0 < s.rho → (∀ c, 1 ≤ c → c ≤ p.m → s.con c ≤ 0) → 0 ≤ ∑ i ∈ Finset.Icc 1 p.n, s.a i p.mp * (T s).1 i

theorem down_lpT (hsqrt : ∀ a : K, 0 ≤ a → 0 ≤ CMath.sqrt a ∧ CMath.sqrt a * CMath.sqrt a = a) {p : Par K} (hm : p.m ≤ 1) (fuel : Nat) :
    Down p (lpT fuel p) := by
  intro s hs hc
  unfold lpT
  cases h : trstlp (Lp.of p s) fuel zeroTr with
  | some u => exact trstlp_gain (q := Lp.of p s) hsqrt hs hm hc h
  | none => simp

/-- The gradient of the objective function in `A`, with the opposite sign. -/
theorem linear_objective (p : Par K) (s : St K) (i : Nat) (hi : 1 ≤ i) (hi' : i ≤ p.n) :
    (linear p s).2 i p.mp = -∑ j ∈ Finset.Icc 1 p.n, (s.datmat p.mp j - s.datmat p.mp p.np) * s.simi j i := by
  unfold linear
  rw [show p.mp = p.m + 1 from rfl, up_succ]
  generalize up p.m _ (s.con, s.a) = st
  dsimp only
  rw [up_col p.n (p.m + 1) (fun i _ => if p.m + 1 = p.m + 1 then -up p.n (fun j t => t + (s.datmat (p.m + 1) j + set1 st.1 (p.m + 1) (-s.datmat (p.m + 1) p.np) (p.m + 1)) * s.simi j i) 0
      else up p.n (fun j t => t + (s.datmat (p.m + 1) j + set1 st.1 (p.m + 1) (-s.datmat (p.m + 1) p.np) (p.m + 1)) * s.simi j i) 0)]
  dsimp only
  rw [if_pos ⟨⟨hi, hi'⟩, rfl⟩, if_pos rfl, up_sum, zero_add]
  congr 1
  refine Finset.sum_congr rfl fun j _ => ?_
  simp only [set1, if_true]
  ring

theorem descends_trial {p : Par K} {h : List (Eval K)} {s : St K} (hf : Full p h s)
    (hc : ∀ k, 1 ≤ k → k ≤ p.m → s.con k = -s.datmat k p.np)
    (ha : ∀ i, 1 ≤ i → i ≤ p.n → s.a i p.mp = -∑ j ∈ Finset.Icc 1 p.n, (s.datmat p.mp j - s.datmat p.mp p.np) * s.simi j i)
    {mu : K} (hmu : 0 ≤ mu) (hl : ∀ j, 1 ≤ j → j ≤ p.np → s.datmat p.mp p.np + mu * s.datmat p.mpp p.np ≤ s.datmat p.mp j + mu * s.datmat p.mpp j)
    (hd : (∀ c, 1 ≤ c → c ≤ p.m → s.con c ≤ 0) → 0 ≤ ∑ i ∈ Finset.Icc 1 p.n, s.a i p.mp * s.dx i)
    (hx : ∀ i, 1 ≤ i → i ≤ p.n → s.x i = s.sim i p.np + s.dx i) : Descends p h s := by
  classical
  have hex : ∀ j, ∃ e : Eval K, 1 ≤ j → j ≤ p.np → e ∈ h ∧
      (∀ i, 1 ≤ i → i ≤ p.n → e.x i = s.sim i p.np + (if j = p.np then 0 else s.sim i j)) ∧
      (∀ k, 1 ≤ k → k ≤ p.m → e.c k = s.datmat k j) ∧ e.f = s.datmat p.mp j ∧ worst p.m e.c = s.datmat p.mpp j := by
    intro j
    by_cases hj : 1 ≤ j ∧ j ≤ p.np
    · by_cases hj' : j = p.np
      · obtain ⟨e, e0, e1, e2, e3, e4⟩ := hf.pole
        subst hj'
        exact ⟨e, fun _ _ => ⟨e0, fun i hi hi' => by rw [if_pos rfl, add_zero]; exact e1 i hi hi', e2, e3, e4⟩⟩
      · obtain ⟨e, e0, e1, e2, e3, e4⟩ := hf.vert j hj.1 (by have := hj.2; simp only [Par.np] at this hj'; omega)
        exact ⟨e, fun _ _ => ⟨e0, fun i hi hi' => by rw [if_neg hj']; exact e1 i hi hi', e2, e3, e4⟩⟩
    · exact ⟨⟨fun _ => 0, 0, fun _ => 0⟩, fun h1 h2 => absurd ⟨h1, h2⟩ hj⟩
  choose e he using hex
  have hnp : 1 ≤ p.np := by simp only [Par.np]; omega
  obtain ⟨p0, p1, p2, p3, p4⟩ := he p.np hnp le_rfl
  have hed : ∀ j, 1 ≤ j → j ≤ p.n → ∀ i, 1 ≤ i → i ≤ p.n → (e j).x i - (e p.np).x i = s.sim i j := by
    intro j hj hj' i hi hi'
    obtain ⟨-, v1, -⟩ := he j hj (by simp only [Par.np]; omega)
    rw [v1 i hi hi', p1 i hi hi', if_pos rfl, if_neg (by simp only [Par.np]; omega)]
    ring
  refine ⟨e, fun j h1 h2 => (he j h1 h2).1, ⟨s.simi, ?_⟩, ⟨mu, hmu, ?_⟩, ?_⟩
  · intro i j hi hi' hj hj'
    rw [← hf.inv i j hi hi' hj hj']
    refine Finset.sum_congr rfl fun k hk => ?_
    rw [Finset.mem_Icc] at hk
    dsimp only
    rw [hed j hj hj' k hk.1 hk.2]
  · intro j hj hj'
    obtain ⟨-, -, -, v3, v4⟩ := he j hj hj'
    rw [p3, p4, v3, v4]
    exact hl j hj hj'
  · intro hw g g0 hg
    have hpole := hg p.np hnp le_rfl
    rw [p3] at hpole
    have hgi : ∀ i, 1 ≤ i → i ≤ p.n → s.a i p.mp = -g i := by
      intro i hi hi'
      rw [ha i hi hi']
      have h1 : ∀ j ∈ Finset.Icc 1 p.n, (s.datmat p.mp j - s.datmat p.mp p.np) * s.simi j i =
          ∑ l ∈ Finset.Icc 1 p.n, g l * (s.sim l j * s.simi j i) := by
        intro j hj
        rw [Finset.mem_Icc] at hj
        have hj1 := hg j hj.1 (by simp only [Par.np]; omega)
        obtain ⟨-, -, -, v3, -⟩ := he j hj.1 (by simp only [Par.np]; omega)
        rw [v3] at hj1
        rw [← hj1, ← hpole]
        have : g0 + ∑ i ∈ Finset.Icc 1 p.n, g i * (e j).x i - (g0 + ∑ i ∈ Finset.Icc 1 p.n, g i * (e p.np).x i) =
            ∑ l ∈ Finset.Icc 1 p.n, g l * s.sim l j := by
          rw [add_sub_add_left_eq_sub, ← Finset.sum_sub_distrib]
          refine Finset.sum_congr rfl fun l hl => ?_
          rw [Finset.mem_Icc] at hl
          rw [← hed j hj.1 hj.2 l hl.1 hl.2]
          ring
        rw [this, Finset.sum_mul]
        exact Finset.sum_congr rfl fun l _ => by ring
      rw [Finset.sum_congr rfl h1, Finset.sum_comm]
      have h2 : ∀ l ∈ Finset.Icc 1 p.n, ∑ j ∈ Finset.Icc 1 p.n, g l * (s.sim l j * s.simi j i) = if l = i then g l else 0 := by
        intro l hl
        rw [Finset.mem_Icc] at hl
        rw [← Finset.mul_sum, hf.inv.right l i hl.1 hl.2 hi hi']
        split_ifs <;> simp
      rw [Finset.sum_congr rfl h2, Finset.sum_ite_eq', if_pos (Finset.mem_Icc.mpr ⟨hi, hi'⟩)]
    obtain ⟨-, w2⟩ := worst_ge p.m (e p.np).c
    have hgain := hd fun c h1 h2 => by rw [hc c h1 h2, ← p2 c h1 h2, ← hw]; exact w2 c h1 h2
    have h3 : ∑ i ∈ Finset.Icc 1 p.n, g i * s.x i = ∑ i ∈ Finset.Icc 1 p.n, g i * (e p.np).x i - ∑ i ∈ Finset.Icc 1 p.n, s.a i p.mp * s.dx i := by
      rw [← Finset.sum_sub_distrib]
      refine Finset.sum_congr rfl fun i hi => ?_
      rw [Finset.mem_Icc] at hi
      rw [hx i hi.1 hi.2, p1 i hi.1 hi.2, if_pos rfl, hgi i hi.1 hi.2]
      ring
    rw [h3, p3]
    linarith

/-- The moment of a jump. -/
def Falls (p : Par K) (h : List (Eval K)) : Jump × St K → Prop
  | (.call, s) => s.ibrnch = 1 → Descends p h s
  | (.again, _) => True
  | (.done, _) => True
  | (.best _, _) => True
  | (.wrong, _) => True

theorem falls_reduce (p : Par K) (h : List (Eval K)) (s : St K) : Falls p h (reduce p s) := by
  unfold reduce
  split_ifs <;> trivial

theorem falls_pass {p : Par K} {h : List (Eval K)} {s : St K} {T : St K → (Nat → K) × Nat} (hT : Down p T)
    (hb01 : s.ibrnch = 0 ∨ s.ibrnch = 1) (hf : Full p h s) (hrho : 0 < s.rho) (hmu : 0 ≤ s.parmu) : Falls p h (pass p T s) := by
  have hf1 := hf.switch
  have hlead := pole_lead p s
  unfold pass
  rw [← pole_rho p s] at hrho
  rw [← pole_ibrnch p s] at hb01
  rw [← (pole_spec p s).1] at hmu
  generalize Cobyla.pole p s = s1 at hf1 hrho hb01 hlead hmu
  unfold passPole
  rw [inverseError_eq hf1.inv, if_neg (by rw [ExactMath.lit_eq]; norm_num)]
  have hcon : ∀ k, 1 ≤ k → k ≤ p.m → (assess p { s1 with con := (linear p s1).1, a := (linear p s1).2 }).con k =
      -(assess p { s1 with con := (linear p s1).1, a := (linear p s1).2 }).datmat k p.np := fun k h1 h2 => (linear_spec p s1 k h1 h2).1
  have hgrad : ∀ i, 1 ≤ i → i ≤ p.n → (assess p { s1 with con := (linear p s1).1, a := (linear p s1).2 }).a i p.mp =
      -∑ j ∈ Finset.Icc 1 p.n, ((assess p { s1 with con := (linear p s1).1, a := (linear p s1).2 }).datmat p.mp j -
        (assess p { s1 with con := (linear p s1).1, a := (linear p s1).2 }).datmat p.mp p.np) *
        (assess p { s1 with con := (linear p s1).1, a := (linear p s1).2 }).simi j i := fun i h1 h2 => linear_objective p s1 i h1 h2
  have hfull : Full p h (assess p { s1 with con := (linear p s1).1, a := (linear p s1).2 }) := hf1.congr rfl rfl rfl
  have hl : ∀ j, 1 ≤ j → j ≤ p.np → (assess p { s1 with con := (linear p s1).1, a := (linear p s1).2 }).datmat p.mp p.np +
      s1.parmu * (assess p { s1 with con := (linear p s1).1, a := (linear p s1).2 }).datmat p.mpp p.np ≤
      (assess p { s1 with con := (linear p s1).1, a := (linear p s1).2 }).datmat p.mp j +
      s1.parmu * (assess p { s1 with con := (linear p s1).1, a := (linear p s1).2 }).datmat p.mpp j := fun j h1 h2 => (hlead j h1 h2).1
  have hr2 : 0 < (assess p { s1 with con := (linear p s1).1, a := (linear p s1).2 }).rho := hrho
  have hb2 : (assess p { s1 with con := (linear p s1).1, a := (linear p s1).2 }).ibrnch = 0 ∨ (assess p { s1 with con := (linear p s1).1, a := (linear p s1).2 }).ibrnch = 1 := hb01
  generalize assess p { s1 with con := (linear p s1).1, a := (linear p s1).2 } = s2 at *
  unfold branch
  by_cases q1 : s2.ibrnch = 1 ∨ s2.iflag = 1
  · rw [if_pos q1]
    have hd := hT s2 hr2
    generalize T s2 = d at hd
    unfold trust
    dsimp only
    by_cases q2 : d.2 = 0 ∧ up p.n (fun i t => t + d.1 i * d.1 i) 0 < lit 1 4 * s2.rho * s2.rho
    · rw [if_pos q2]; exact falls_reduce _ _ _
    · rw [if_neg q2]
      have hset : ∀ c, 1 ≤ c → c ≤ p.m → set1 s2.con p.mp 0 c = s2.con c := by
        intro c _ h4
        simp only [set1]
        rw [if_neg (by simp only [Par.mp]; omega)]
      unfold increaseMu trial
      dsimp only
      split_ifs
      all_goals first
        | trivial
        | skip
      all_goals
        intro _
        refine descends_trial (hfull.congr rfl rfl rfl) (fun k h1 h2 => (hset k h1 h2).trans (hcon k h1 h2)) hgrad hmu hl
          (fun hc => hd fun c h1 h2 => by rw [← hset c h1 h2]; exact hc c h1 h2) ?_
        intro i h3 h4
        dsimp only
        rw [up_set1 p.n (fun i _ => s2.sim i p.np + d.1 i)]
        dsimp only
        rw [if_pos ⟨h3, h4⟩]
  · rw [if_neg q1]
    have hb0 : s2.ibrnch = 0 := by tauto
    unfold newVertex
    dsimp only
    split_ifs
    · trivial
    · intro hh
      exact absurd (hh.symm.trans hb0) one_ne_zero

theorem falls_newEval {p : Par K} {s : St K} (h : List (Eval K)) (f : K) (c : Nat → K) : Falls p h (newEval p f c s) := by
  unfold newEval place
  generalize record p f c s = t
  by_cases h1 : t.ibrnch = 1
  · rw [if_pos h1]
    unfold judge judgeStep
    dsimp only
    split_ifs
    · exact falls_reduce _ _ _
    · trivial
    · exact falls_reduce _ _ _
    all_goals first | trivial | exact falls_reduce _ _ _
  · rw [if_neg h1]
    unfold complete
    dsimp only
    have hb : (exchange p { t with datmat := store p.mpp t.con t.jdrop t.datmat }).ibrnch = t.ibrnch := by
      unfold exchange; split_ifs <;> rfl
    generalize exchange p { t with datmat := store p.mpp t.con t.jdrop t.datmat } = u at hb
    split_ifs
    · trivial
    · unfold nextVertex
      split_ifs
      · intro hh
        exact absurd (hb.symm.trans hh) h1
      · trivial

/-- The multiplier of the merit function is not negative. -/
theorem pass_mu {p : Par K} {s : St K} (T : St K → (Nat → K) × Nat) (hmu : 0 ≤ s.parmu) : 0 ≤ (pass p T s).2.parmu := by
  unfold pass
  rw [← (pole_spec p s).1] at hmu
  have := less_pass (p := p) T hmu
  generalize passPole p T (Cobyla.pole p s) = js at this
  obtain ⟨j, t⟩ := js
  cases j with
  | again => exact this.1
  | call => exact this
  | best e => exact this
  | done => exact this
  | wrong => exact this

theorem falls_passes {p : Par K} {h : List (Eval K)} {T : St K → (Nat → K) × Nat}
    (hsqrt : ∀ a : K, 0 ≤ a → 0 ≤ CMath.sqrt a ∧ CMath.sqrt a * CMath.sqrt a = a) (hT : Down p T) (hend : 0 < p.rhoend) (fuel : Nat)
    (js : Jump × St K) (H : After p h js) (hw : Falls p h js) (hrho : 0 < js.2.rho) (hmu : 0 ≤ js.2.parmu) :
    Falls p h (passes p T fuel js) ∧ 0 ≤ (passes p T fuel js).2.parmu := by
  induction fuel generalizing js with
  | zero => exact ⟨hw, hmu⟩
  | succ fuel ih =>
    obtain ⟨j, s⟩ := js
    cases j with
    | again =>
      obtain ⟨a1, a2, a3⟩ := H
      have h1 := after_pass T hsqrt a3 a1 a2 hrho
      obtain ⟨-, ⟨k, h2⟩, -, -⟩ := kept_pass p T s
      exact ih _ h1 (falls_pass hT a3 a1 hrho hmu) (reduced_pos hend hrho h2) (pass_mu T hmu)
    | call => exact ⟨hw, hmu⟩
    | best e => exact ⟨hw, hmu⟩
    | done => exact ⟨hw, hmu⟩
    | wrong => exact ⟨hw, hmu⟩

theorem falls_resume {p : Par K} {h : List (Eval K)} {s s' : St K} {T : St K → (Nat → K) × Nat} {e : Status}
    (hsqrt : ∀ a : K, 0 ≤ a → 0 ≤ CMath.sqrt a ∧ CMath.sqrt a * CMath.sqrt a = a) (hT : Down p T) (hp : 1 ≤ p.n) (hend : 0 < p.rhoend)
    (hrho : 0 < s.rho) (hmu : 0 ≤ s.parmu) (fuel : Nat) (f : K) (c : Nat → K) (H : Wait p h s)
    (hr : resume p T fuel f c s = some (e, s')) :
    0 ≤ s'.parmu ∧ (e = .iterate → s'.ibrnch = 1 → Descends p (⟨s.x, f, c⟩ :: h) s') := by
  obtain ⟨-, ⟨k, h2⟩, -, -⟩ := kept_newEval p f c s
  have h4 := (resume_exact T hsqrt hp hend hrho fuel f c H).1
  obtain ⟨h3, h5⟩ := falls_passes hsqrt hT hend fuel _ (after_newEval hp f c H) (falls_newEval _ f c) (reduced_pos hend hrho h2) (newEval_mu p f c s hmu)
  unfold resume at hr
  generalize passes p T fuel (newEval p f c s) = js at h3 h4 h5 hr
  obtain ⟨j, s1⟩ := js
  cases j with
  | call =>
    simp only [settle] at hr
    by_cases q : p.maxfun ≤ s1.nfvals ∧ s1.nfvals > 0
    · rw [if_pos q, Option.some.injEq, Prod.mk.injEq] at hr
      obtain ⟨rfl, rfl⟩ := hr
      exact ⟨h5, fun h => by cases h⟩
    · rw [if_neg q, Option.some.injEq, Prod.mk.injEq] at hr
      obtain ⟨rfl, rfl⟩ := hr
      exact ⟨h5, fun _ => h3⟩
  | best e' => exact h4.1.elim
  | done =>
    simp only [settle, Option.some.injEq, Prod.mk.injEq] at hr
    obtain ⟨rfl, rfl⟩ := hr
    refine ⟨?_, fun h => by cases h⟩
    split_ifs <;> exact h5
  | again => simp [settle] at hr
  | wrong => simp [settle] at hr

/-- **C98** (partial): in exact arithmetic, with at most one constraint, for any sequence of calls
which leave `x` unchanged, whatever the replies, with the step of the code: a trial point satisfies
`Descends`.  Missing: two constraints or more, where it does not hold (`cobyla_uphill`). -/
theorem cobyla_descends_partial (hsqrt : ∀ a : K, 0 ≤ a → 0 ≤ CMath.sqrt a ∧ CMath.sqrt a * CMath.sqrt a = a)
    {n m : Int} {rhobeg rhoend : K} {maxfun : Int} {room : Bool} {ctx0 ctx : Ctx K} {h : List (Eval K)} (lpFuel : Nat) (hm : m ≤ 1)
    (h0 : create n m rhobeg rhoend maxfun room = some ctx0) (H : Obey (fun p T => T = lpT lpFuel p) ctx0 h ctx)
    (hst : ctx.status = .iterate) (hne : h ≠ []) (hb : ctx.st.ibrnch = 1) : Descends ctx.par h ctx.st := by
  have hcx := fun {ctx : Ctx K} {h : List (Eval K)} (H : Obey (fun p T => T = lpT lpFuel p) ctx0 h ctx) => cobyla_exact hsqrt h0 H
  obtain ⟨q1, q2, q3, q4, q5, q6⟩ := create_facts h0
  have hm0 : ctx0.par.m ≤ 1 := by
    unfold create at h0
    split_ifs at h0
    simp only [Option.some.injEq] at h0
    subst h0
    show m.toNat ≤ 1
    omega
  have key : (h ≠ [] → 0 ≤ ctx.st.parmu) ∧ (h ≠ [] → ctx.status = .iterate → ctx.st.ibrnch = 1 → Descends ctx.par h ctx.st) := by
    clear hst hne hb
    induction H with
    | start => exact ⟨fun h => absurd rfl h, fun h => absurd rfl h⟩
    | @iterate c1 _ h H1 T fuel f x c e hT hx hs hc1 hr ih =>
      obtain ⟨i1, i2⟩ := ih
      obtain ⟨e1, -, e3, -⟩ := hcx H1
      have hpar := obey_par H1
      rcases iterate_cases hr with ⟨hbad, -, -⟩ | ⟨-, h2, hbad⟩ | ⟨x', s', hx', hst', hres, h2⟩
      · exfalso
        obtain ⟨_, -, -, -, h4, -⟩ := cobyla_protocol hr
        obtain ⟨-, h5⟩ := h4 ⟨hs, by simp, hc1⟩
        rw [hbad] at h5
        simp at h5
      · exact absurd hs hbad
      · obtain rfl := Option.some.inj h2
        obtain rfl := Option.some.inj hx'
        generalize hs0 : (if c1.st.nfvals = 0 then init c1.par x c1.st else { c1.st with x := x }) = s0 at hres
        have hw : Wait c1.par h s0 ∧ 0 < s0.rho ∧ s0.x = x ∧ 0 ≤ s0.parmu := by
          rw [← hs0]
          by_cases hz : c1.st.nfvals = 0
          · rw [if_pos hz]
            have hb : 0 < c1.par.rhobeg := by rw [hpar, q2]; exact q4
            exact ⟨wait_init c1.par hb x c1.st h, hb, rfl, le_rfl⟩
          · rw [if_neg hz]
            have hne : h ≠ [] := fun hh => hz (by rw [e1, hh]; rfl)
            exact ⟨(e3 hs hne).caller x (hx hz), obey_rho H1 (by rw [q1]; exact q3) (by rw [q2]; exact q4) q6 hz, rfl, i1 hne⟩
        obtain ⟨w1, w2, w3, w4⟩ := hw
        have hdn : Down c1.par T := by
          rw [hT]
          exact down_lpT hsqrt (by rw [hpar]; exact hm0) lpFuel
        obtain ⟨r1, r2⟩ := falls_resume hsqrt hdn (by rw [hpar]; exact q5) (by rw [hpar, q1]; exact q3) w2 w4 fuel f _ w1 hres
        rw [w3] at r2
        exact ⟨fun _ => r1, fun _ => r2⟩
    | restart _ e hr => exact ⟨fun h => absurd rfl h, fun h => absurd rfl h⟩
  exact key.2 hne hst hb

end
end Opk.Cobyla
