import Verif.Bobyqa.Cauchy
import Verif.Bobyqa.Moves
import Verif.Bobyqa.Shift
import Verif.Bobyqa.Interpolates

/-!
# The model of BOBYQA interpolates at all the iterations, in exact arithmetic
-/
set_option linter.unusedSectionVars false
namespace Opk.Bobyqa
open Linalg CMath Cobyla Powell
open Newuoa (omega hform qval hform_congr hcolumn betaOf lfun omega_nonneg lit_half)

section
variable {K : Type} [Field K] [LinearOrder K] [IsStrictOrderedRing K] [CMath K] [ExactMath K]

/-- `XNEW` is `XOPT + D`. -/
def Moved (s : St K) : Prop := ∀ i, s.xnew i = s.xopt i + s.d i

/-- Before an evaluation. -/
structure Try (p : Par K) (s : St K) : Prop where
  moved : Moved s
  lag : Lag p s s.xnew
  wd : ∀ k, 1 ≤ k → k ≤ p.npt → s.wd k = Powell.dot p.n (s.xpt k) s.d
  den : omega p.nptm s.zmat s.knew s.knew * s.beta + s.vlag s.knew * s.vlag s.knew = s.denom
  pos : 0 < s.denom

/-- The rotations of `update` are accurate for all the rows of `ZMAT`. -/
def Even (p : Par K) (s : St K) : Prop := ∀ k, 1 ≤ k → k ≤ p.npt → Spread p s.zmat k

theorem Even.single {p : Par K} (hp : p.nptm = 1) (s : St K) : Even p s := by
  intro k _ _ j j1 j2
  omega

/-- No rounding errors are reported. -/
def Clean (st : Status) : Prop := st = .success ∨ st = .tooManyEvaluations ∨ st = .stepFailed

/-- What is true at each label, if `rescue` is never called. -/
def Keep (p : Par K) : Lab → St K → Prop
  | .pre, s => Begun p s
  | .l20, s => First p s
  | .l60, s => Core p s
  | .l90, s => Core p s ∧ (s.ntrits = 0 → 0 < s.adelt) ∧ (s.ntrits ≠ 0 → Moved s ∧ 0 < Powell.dot p.n s.d s.d)
  | .l210, s => Core p s ∧ 0 < s.adelt
  | .l230, s => Core p s ∧ Moved s ∧ (s.ntrits = 0 → s.alpha = omega p.nptm s.zmat s.knew s.knew ∧ lagv p s s.d ≠ 0 ∧ (0 < s.cauchy → lagv p s (fun i => s.xalt i - s.xopt i) ≠ 0)) ∧
      (s.ntrits ≠ 0 → 0 < Powell.dot p.n s.d s.d)
  | .l360, s => Core p s ∧ (s.ntrits = -1 ∨ Try p s)
  | .l650, s => Core p s
  | .l680, s => Core p s
  | .done, s => Clean s.status
  | .ret, s => Clean s.status
  | _, _ => False

/-! ### The Lagrange functions -/

/-- The values of the Lagrange functions give the point. -/
theorem good_sum_point {n npt : Nat} {pts om bm : Nat → Nat → K} {c : Nat → K} (h : Good n npt pts om bm c) (x : Nat → K) {j : Nat} (j1 : 1 ≤ j) (j2 : j ≤ n) :
    ∑ i ∈ Finset.Icc 1 npt, pts i j * ∑ k ∈ Idx n npt, Hm npt c om bm i k * col n npt pts x k = x j := by
  simp only [Finset.mul_sum]
  rw [Finset.sum_comm]
  have e : ∀ k ∈ Idx n npt, ∑ i ∈ Finset.Icc 1 npt, pts i j * (Hm npt c om bm i k * col n npt pts x k) = (if npt + j = k then 1 else 0) * col n npt pts x k := by
    intro k hk
    simp only [← mul_assoc]
    rw [← Finset.sum_mul, ← h.inv (npt + j) (mem_grad j2) k hk, sum_idx, Wm_out (by omega) (by omega), zero_mul, zero_add]
    congr 1
    rw [eq_comm, add_eq_left.mpr]
    · refine Finset.sum_congr rfl fun i hi => ?_
      rw [Finset.mem_Icc] at hi
      rw [Wm_pt hi.1 hi.2, col_grad j1]
    · refine Finset.sum_eq_zero fun l hl => ?_
      rw [Finset.mem_Icc] at hl
      rw [Wm_out (by omega) (by omega), zero_mul]
  rw [Finset.sum_congr rfl e, sum_delta (mem_grad j2), col_grad j1]

/-- The Lagrange functions of the points other than `KOPT` vanish all at the point `KOPT` only. -/
theorem Lag.other {p : Par K} {s : St K} {x : Nat → K} (h : Lag p s x) (hi : Inverse p s) (k1 : 1 ≤ s.kopt) (k2 : s.kopt ≤ p.npt) {j : Nat} (j1 : 1 ≤ j) (j2 : j ≤ p.n)
    (ne : x j ≠ s.xpt s.kopt j) : ∃ k, 1 ≤ k ∧ k ≤ p.npt ∧ k ≠ s.kopt ∧ s.vlag k ≠ 0 := by
  obtain ⟨c, hi⟩ := hi
  by_contra q
  push Not at q
  have v : ∀ k, 1 ≤ k → k ≤ p.npt → s.vlag k = ∑ l ∈ Idx p.n p.npt, Hm p.npt c (omega p.nptm s.zmat) s.bmat k l * col p.n p.npt s.xpt x l := fun k q1 q2 => (h c hi).1 k q1 (Nat.le_add_right_of_le q2)
  have z : ∀ k ∈ Finset.Icc 1 p.npt, k ≠ s.kopt → ∑ l ∈ Idx p.n p.npt, Hm p.npt c (omega p.nptm s.zmat) s.bmat k l * col p.n p.npt s.xpt x l = 0 := by
    intro k hk w
    rw [Finset.mem_Icc] at hk
    rw [← v k hk.1 hk.2]
    exact q k hk.1 hk.2 w
  have mk : s.kopt ∈ Finset.Icc 1 p.npt := Finset.mem_Icc.mpr ⟨k1, k2⟩
  have e1 := Newuoa.Good.sum_one hi x
  have e2 := good_sum_point hi x j1 j2
  rw [Finset.sum_eq_single_of_mem _ mk z] at e1
  rw [Finset.sum_eq_single_of_mem _ mk (fun k hk w => by rw [z k hk w, mul_zero]), e1, mul_one] at e2
  exact ne e2.symm

/-! ### The choice of the point to replace -/

theorem pickKnew_den {p : Par K} {s : St K} (hb : 0 ≤ s.beta) (skip : Nat) (y : Nat → K) :
    (pickKnew p s skip y).2.1 ≤ (pickKnew p s skip y).1 ∧ 0 ≤ (pickKnew p s skip y).2.1 ∧
    (0 < (pickKnew p s skip y).1 → 0 < (pickKnew p s skip y).2.2.2 ∧
      omega p.nptm s.zmat (pickKnew p s skip y).2.2.1 (pickKnew p s skip y).2.2.1 * s.beta + s.vlag (pickKnew p s skip y).2.2.1 * s.vlag (pickKnew p s skip y).2.2.1 = (pickKnew p s skip y).2.2.2) ∧
    ∀ k, 1 ≤ k → k ≤ p.npt → k ≠ skip → s.vlag k ≠ 0 → 0 < (pickKnew p s skip y).1 := by
  have hdiag : ∀ k, acc p.nptm (fun j => s.zmat k j * s.zmat k j) 0 = omega p.nptm s.zmat k k := by
    intro k
    rw [acc_eq, zero_add]
    rfl
  unfold pickKnew
  dsimp only
  simp only [hdiag]
  refine up_inv (fun q (t : K × K × Nat × K) => t.2.1 ≤ t.1 ∧ 0 ≤ t.2.1 ∧ (0 < t.1 → 0 < t.2.2.2 ∧ omega p.nptm s.zmat t.2.2.1 t.2.2.1 * s.beta + s.vlag t.2.2.1 * s.vlag t.2.2.1 = t.2.2.2) ∧
    ∀ k, 1 ≤ k → k ≤ q → k ≠ skip → s.vlag k ≠ 0 → 0 < t.1) p.npt ⟨le_refl _, le_refl _, fun q => absurd q (lt_irrefl _), fun k q1 q2 => by omega⟩ ?_
  rintro k hk ⟨a, b, c, d⟩ ⟨i1, i2, i3, i4⟩
  dsimp only at i1 i2 i3 i4 ⊢
  by_cases e : k + 1 ≠ skip
  · rw [if_pos e]
    have t1 : ∀ v : K, 1 ≤ cmax 1 v := fun v => by rw [cmax_eq]; exact le_max_left _ _
    have w1 := t1 (acc p.n (fun j => (s.xpt (k + 1) j - y j) * (s.xpt (k + 1) j - y j)) 0 / (s.delta * s.delta) * (acc p.n (fun j => (s.xpt (k + 1) j - y j) * (s.xpt (k + 1) j - y j)) 0 / (s.delta * s.delta)))
    generalize cmax 1 (acc p.n (fun j => (s.xpt (k + 1) j - y j) * (s.xpt (k + 1) j - y j)) 0 / (s.delta * s.delta) * (acc p.n (fun j => (s.xpt (k + 1) j - y j) * (s.xpt (k + 1) j - y j)) 0 / (s.delta * s.delta))) = w at *
    have g := mul_nonneg hb (omega_nonneg p.nptm s.zmat (k + 1))
    have v0 := mul_self_nonneg (s.vlag (k + 1))
    have w0 : 0 < w := zero_lt_one.trans_le w1
    have m1 : w * (s.vlag (k + 1) * s.vlag (k + 1)) ≤ w * (s.beta * omega p.nptm s.zmat (k + 1) (k + 1) + s.vlag (k + 1) * s.vlag (k + 1)) :=
      mul_le_mul_of_nonneg_left (by linarith) w0.le
    have m0 := mul_nonneg w0.le v0
    rw [cmax_eq]
    by_cases q : w * (s.beta * omega p.nptm s.zmat (k + 1) (k + 1) + s.vlag (k + 1) * s.vlag (k + 1)) > a
    · rw [if_pos q]
      dsimp only
      have pos := lt_of_le_of_lt (i2.trans i1) q
      refine ⟨max_le (i1.trans q.le) m1, le_max_of_le_left i2, fun _ => ⟨?_, by ring⟩, fun _ _ _ _ _ => pos⟩
      exact pos_of_mul_pos_right pos w0.le
    · rw [if_neg q]
      dsimp only
      refine ⟨max_le i1 (m1.trans (not_lt.mp q)), le_max_of_le_left i2, i3, fun l l1 l2 l3 l4 => ?_⟩
      by_cases el : l = k + 1
      · rw [el] at l4
        exact lt_of_lt_of_le (mul_pos w0 (mul_self_pos.mpr l4)) (m1.trans (not_lt.mp q))
      · exact i4 l l1 (by omega) l3 l4
  · rw [if_neg e]
    refine ⟨i1, i2, i3, fun l l1 l2 l3 l4 => i4 l l1 ?_ l3 l4⟩
    push Not at e
    omega

theorem half_lt {a b : K} (h1 : b ≤ a) (h2 : 0 < a) : ¬ a ≤ lit 1 2 * b := by
  rw [lit_half]
  intro q
  linarith

theorem pos_of_half {a b : K} (h1 : 0 ≤ b) (h2 : ¬ a ≤ lit 1 2 * b) : 0 < a := by
  rw [lit_half] at h2
  linarith [not_le.mp h2]

/-! ### The labels -/

theorem keep_short {p : Par K} (g : Nat → K) {s : St K} (h : Core p s) : Keep p (short p g s).1 (short p g s).2 := by
  have c : Core p { s with distsq := lit 100 1 * s.rho * s.rho, ntrits := -1 } := h.same ⟨rfl, rfl, rfl, rfl, rfl, rfl, rfl⟩ ⟨rfl, rfl, rfl⟩
  unfold short
  dsimp only
  split_ifs <;> exact c

theorem keep_l60 (hsqrt : ∀ a : K, 0 ≤ a → 0 ≤ CMath.sqrt a ∧ CMath.sqrt a * CMath.sqrt a = a) {p : Par K} (hre : 0 < p.rhoend) (T : St K → Trs K) {s : St K} (ok : Ok p .l60 s)
    (h : Keep p .l60 s) : Keep p (l60 p T s).1 (l60 p T s).2 := by
  obtain ⟨-, -, o3, o4⟩ := ok
  have h : Core p s := h
  unfold l60
  dsimp only
  by_cases hd : cmin (sqrt (acc p.n (fun i => (boxStep s (T s) i - s.xopt i) * (boxStep s (T s) i - s.xopt i)) 0)) s.delta < lit 1 2 * s.rho
  · rw [if_pos hd]
    exact keep_short _ (h.same ⟨rfl, rfl, rfl, rfl, rfl, rfl, rfl⟩ ⟨rfl, rfl, rfl⟩)
  · rw [if_neg hd]
    refine ⟨h.same ⟨rfl, rfl, rfl, rfl, rfl, rfl, rfl⟩ ⟨rfl, rfl, rfl⟩, fun e => ?_, fun _ => ⟨fun i => ?_, ?_⟩⟩
    · have e : s.ntrits + 1 = 0 := e
      omega
    · show boxStep s (T s) i = s.xopt i + (boxStep s (T s) i - s.xopt i)
      ring
    · show 0 < Powell.dot p.n (fun i => boxStep s (T s) i - s.xopt i) (fun i => boxStep s (T s) i - s.xopt i)
      have e : acc p.n (fun i => (boxStep s (T s) i - s.xopt i) * (boxStep s (T s) i - s.xopt i)) 0
          = Powell.dot p.n (fun i => boxStep s (T s) i - s.xopt i) (fun i => boxStep s (T s) i - s.xopt i) := by rw [acc_eq, zero_add]; rfl
      rw [e, cmin_eq, lit_half] at hd
      have r : 0 < s.rho := hre.trans_le o3.1
      have q := (not_lt.mp hd).trans (min_le_left _ _)
      have n0 : 0 ≤ Powell.dot p.n (fun i => boxStep s (T s) i - s.xopt i) (fun i => boxStep s (T s) i - s.xopt i) := Finset.sum_nonneg fun i _ => mul_self_nonneg _
      generalize Powell.dot p.n (fun i => boxStep s (T s) i - s.xopt i) (fun i => boxStep s (T s) i - s.xopt i) = a at *
      obtain ⟨-, r2⟩ := hsqrt a n0
      rw [← r2]
      have : 0 < CMath.sqrt a := by linarith
      exact mul_pos this this

theorem keep_l90 {p : Par K} {s : St K} (h : Keep p .l90 s) : Keep p (l90 p s).1 (l90 p s).2 := by
  have key : ∀ t : St K, Keep p .l90 t → Keep p (if t.ntrits = 0 then .l210 else .l230) t := by
    rintro t ⟨h1, h2, h3⟩
    by_cases e : t.ntrits = 0
    · rw [if_pos e]; exact ⟨h1, h2 e⟩
    · rw [if_neg e]; exact ⟨h1, (h3 e).1, fun q => absurd q e, fun _ => (h3 e).2⟩
  unfold l90
  dsimp only
  by_cases c : s.dsq ≤ s.xoptsq * lit 1 1000
  · rw [if_pos c]
    obtain ⟨h1, h2, h3⟩ := h
    refine key _ ⟨shift_core h1, h2, fun e => ⟨fun i => ?_, (h3 e).2⟩⟩
    have := (h3 e).1 i
    show s.xnew i - s.xopt i = 0 + s.d i
    rw [this]; ring
  · rw [if_neg c]
    exact key s h

theorem keep_l210 (hsqrt : ∀ a : K, 0 ≤ a → 0 ≤ CMath.sqrt a ∧ CMath.sqrt a * CMath.sqrt a = a) {p : Par K} {s : St K} (ok : Ok p .l210 s) (h : Keep p .l210 s) :
    Keep p (l210 p s).1 (l210 p s).2 := by
  obtain ⟨o1, o2, -, o4, o5⟩ := ok
  obtain ⟨h1, h2⟩ := h
  have v1 := altNew_value hsqrt h1 o1 o5 h2
  have v2 := altCauchy_value hsqrt (p := p) (o1.xopt_within o2) h2
  obtain ⟨xn, hn⟩ : ∃ xn, xn = altNew p s := ⟨_, rfl⟩
  obtain ⟨al, ha⟩ : ∃ al, al = altCauchy p s := ⟨_, rfl⟩
  have e : l210 p s = (.l230, { s with xnew := xn, xalt := al.1, cauchy := al.2, alpha := hcol p s s.knew, d := fun i => xn i - s.xopt i }) := by rw [hn, ha]; rfl
  rw [← hn] at v1
  rw [← ha] at v2
  rw [e]
  refine ⟨h1.same ⟨rfl, rfl, rfl, rfl, rfl, rfl, rfl⟩ ⟨rfl, rfl, rfl⟩, fun i => ?_, fun _ => ⟨hcol_eq p s s.knew, v1, v2⟩, fun q => absurd o4 q⟩
  show xn i = s.xopt i + (xn i - s.xopt i)
  ring

/-- `VLAG` and `BETA` at `L230`. -/
theorem l230_lag {p : Par K} {s : St K} (h : Core p s) (k1 : 1 ≤ s.kopt) (k2 : s.kopt ≤ p.npt) (hm : Moved s) {t : St K} (e1 : t.xpt = s.xpt ∧ t.zmat = s.zmat ∧ t.bmat = s.bmat)
    (e2 : t.vlag = (vlagBeta p s).1 ∧ t.beta = (vlagBeta p s).2 ∧ t.xnew = s.xnew) : Lag p t t.xnew := by
  intro c hc
  have hc : Good p.n p.npt t.xpt (omega p.nptm t.zmat) t.bmat c := hc
  obtain ⟨x1, x2, x3⟩ := e1
  obtain ⟨y1, y2, y3⟩ := e2
  rw [x1, x2, x3] at hc
  obtain ⟨a, b⟩ := vlagBeta_spec hc k1 k2 h.xo h.sq
  have ex : t.xnew = fun j => s.xopt j + s.d j := y3.trans (funext hm)
  have hcol : ∀ x i, hcolumn p.nw t.nw c x i = hcolumn p.nw s.nw c x i := by
    intro x i
    show ∑ k ∈ Idx p.n p.npt, Hm p.npt c (omega p.nptm t.zmat) t.bmat i k * col p.n p.npt t.xpt x k = _
    rw [x1, x2, x3]
    rfl
  rw [ex]
  refine ⟨fun i i1 i2 => ?_, ?_⟩
  · show t.vlag i = _
    rw [y1, hcol]
    exact a i i1 i2
  · show t.beta = _
    rw [y2, b]
    unfold Newuoa.betaOf
    simp only [hcol]
    show _ = _ - ∑ i ∈ Idx p.n p.npt, col p.n p.npt t.xpt _ i * _
    rw [x1]
    rfl

/-- A trust region step is always accepted. -/
theorem l230_trial {p : Par K} {s : St K} (ok : Ok p .l230 s) (h : Keep p .l230 s) (e : s.ntrits ≠ 0) : (l230 p s).1 = .l360 ∧ Keep p .l360 (l230 p s).2 := by
  obtain ⟨o1, -, -, o4, o5, -, -⟩ := ok
  obtain ⟨h1, h2, h3, h4⟩ := h
  have wd : ∀ k, 1 ≤ k → k ≤ p.npt → ptsD p s k = Powell.dot p.n (s.xpt k) s.d := fun k _ _ => by
    unfold ptsD
    rw [acc_eq, zero_add]
    rfl
  obtain ⟨u, hu⟩ : ∃ u : St K, u = { s with vlag := (vlagBeta p s).1, beta := (vlagBeta p s).2, wd := ptsD p s, dsq := acc p.n (fun j => s.d j * s.d j) 0 } := ⟨_, rfl⟩
  have lag : Lag p u u.xnew := l230_lag h1 o1.kopt1 o1.koptn h2 (by rw [hu]; exact ⟨rfl, rfl, rfl⟩) (by rw [hu]; exact ⟨rfl, rfl, rfl⟩)
  have inv : Inverse p u := by rw [hu]; exact h1.inv
  have hb : 0 ≤ u.beta := Newuoa.Lag.beta_nonneg lag inv
  have far : ∃ j, 1 ≤ j ∧ j ≤ p.n ∧ u.xnew j ≠ u.xpt u.kopt j := by
    by_contra q
    push Not at q
    refine (h4 e).ne' (Finset.sum_eq_zero fun j hj => ?_)
    rw [Finset.mem_Icc] at hj
    have := q j hj.1 hj.2
    rw [hu] at this
    have : s.xnew j = s.xpt s.kopt j := this
    rw [h2 j, h1.xo, add_eq_left] at this
    rw [this, mul_zero]
  obtain ⟨j, j1, j2, j3⟩ := far
  obtain ⟨k, k1, k2, k3, k4⟩ := lag.other inv (by rw [hu]; exact o1.kopt1) (by rw [hu]; exact o1.koptn) j1 j2 j3
  obtain ⟨d1, d2, d3, d4⟩ := pickKnew_den (p := p) hb u.kopt u.xopt
  have pos := d4 k k1 k2 k3 k4
  have nd := half_lt d1 pos
  have core : Core p u := by rw [hu]; exact h1.same ⟨rfl, rfl, rfl, rfl, rfl, rfl, rfl⟩ ⟨rfl, rfl, rfl⟩
  have mv : Moved u := by rw [hu]; exact h2
  have wd' : ∀ k, 1 ≤ k → k ≤ p.npt → u.wd k = Powell.dot p.n (u.xpt k) u.d := by rw [hu]; exact wd
  have e2 : l230 p s = if (pickKnew p u u.kopt u.xopt).1 ≤ lit 1 2 * (pickKnew p u u.kopt u.xopt).2.1
      then damaged { u with knew := (pickKnew p u u.kopt u.xopt).2.2.1, denom := (pickKnew p u u.kopt u.xopt).2.2.2 }
      else (.l360, { u with knew := (pickKnew p u u.kopt u.xopt).2.2.1, denom := (pickKnew p u u.kopt u.xopt).2.2.2 }) := by
    rw [hu]
    exact if_neg e
  rw [e2]
  rw [if_neg nd]
  exact ⟨rfl, core.same ⟨rfl, rfl, rfl, rfl, rfl, rfl, rfl⟩ ⟨rfl, rfl, rfl⟩, Or.inr ⟨mv, lag, wd', (d3 pos).2, (d3 pos).1⟩⟩

theorem keep_l230 {p : Par K} {s : St K} (ok : Ok p .l230 s) (h : Keep p .l230 s) : Keep p (l230 p s).1 (l230 p s).2 := by
  have ok' := ok
  obtain ⟨o1, -, -, o4, o5, -, -⟩ := ok'
  obtain ⟨h1, h2, h3, h4⟩ := h
  have wd : ∀ k, 1 ≤ k → k ≤ p.npt → ptsD p s k = Powell.dot p.n (s.xpt k) s.d := fun k _ _ => by
    unfold ptsD
    rw [acc_eq, zero_add]
    rfl
  by_cases e : s.ntrits = 0
  · unfold l230
    dsimp only
    rw [if_pos e]
    obtain ⟨a1, a2, a3⟩ := h3 e
    have lag := l230_lag h1 o1.kopt1 o1.koptn h2 (t := { s with vlag := (vlagBeta p s).1, beta := (vlagBeta p s).2, wd := ptsD p s, dsq := acc p.n (fun j => s.d j * s.d j) 0, denom := (vlagBeta p s).1 s.knew * (vlagBeta p s).1 s.knew + s.alpha * (vlagBeta p s).2 }) ⟨rfl, rfl, rfl⟩ ⟨rfl, rfl, rfl⟩
    have hb : 0 ≤ (vlagBeta p s).2 := Newuoa.Lag.beta_nonneg lag h1.inv
    have hv : (vlagBeta p s).1 s.knew ≠ 0 := by
      obtain ⟨c, hc⟩ := h1.inv
      have k := o5 e
      rw [(vlagBeta_spec hc o1.kopt1 o1.koptn h1.xo h1.sq).1 s.knew k.1 (Nat.le_add_right_of_le k.2.1), lagv_column hc h1.xo o1.kopt1 o1.koptn k s.d]
      exact a2
    have v2 := mul_self_pos.mpr hv
    have ab : 0 ≤ s.alpha * (vlagBeta p s).2 := by rw [a1]; exact mul_nonneg (omega_nonneg _ _ _) hb
    by_cases c1 : (vlagBeta p s).1 s.knew * (vlagBeta p s).1 s.knew + s.alpha * (vlagBeta p s).2 < s.cauchy ∧ s.cauchy > 0
    · rw [if_pos c1]
      refine ⟨h1.same ⟨rfl, rfl, rfl, rfl, rfl, rfl, rfl⟩ ⟨rfl, rfl, rfl⟩, fun i => ?_, fun _ => ⟨a1, a3 c1.2, fun q => absurd q (lt_irrefl _)⟩, fun q => absurd e q⟩
      show s.xalt i = s.xopt i + (s.xalt i - s.xopt i)
      ring
    · rw [if_neg c1, if_neg (half_lt (le_add_of_nonneg_right ab) (add_pos_of_pos_of_nonneg v2 ab))]
      refine ⟨h1.same ⟨rfl, rfl, rfl, rfl, rfl, rfl, rfl⟩ ⟨rfl, rfl, rfl⟩, Or.inr ⟨h2, lag, wd, ?_, add_pos_of_pos_of_nonneg v2 ab⟩⟩
      show omega p.nptm s.zmat s.knew s.knew * (vlagBeta p s).2 + (vlagBeta p s).1 s.knew * (vlagBeta p s).1 s.knew = (vlagBeta p s).1 s.knew * (vlagBeta p s).1 s.knew + s.alpha * (vlagBeta p s).2
      rw [a1]; ring
  · obtain ⟨w1, w2⟩ := l230_trial ok ⟨h1, h2, h3, h4⟩ e
    rw [w1]
    exact w2

theorem afterMove_keep {p : Par K} (fopt : K) {s : St K} (h : Core p s) : Keep p (afterMove fopt s).1 (afterMove fopt s).2 := by
  unfold afterMove
  dsimp only
  split_ifs
  · exact h
  · exact h.same ⟨rfl, rfl, rfl, rfl, rfl, rfl, rfl⟩ ⟨rfl, rfl, rfl⟩

theorem keep_absorb (hsqrt : ∀ a : K, 0 ≤ a → 0 ≤ CMath.sqrt a ∧ CMath.sqrt a * CMath.sqrt a = a) {p : Par K} (hm : 1 ≤ p.nptm) {s : St K} (h : Swap p s)
    (ne : ¬ s.f < s.fval s.kopt → s.knew ≠ s.kopt) : Keep p (absorb p s).1 (absorb p s).2 := by
  unfold absorb
  rw [if_neg (by have := h.t1; omega)]
  refine afterMove_keep _ (tryFrobenius_keep (h.keep hsqrt hm ne) ?_ ?_)
  · unfold recenter
    dsimp only
    split_ifs
    · exact h.t1
    · exact h.k1
  · unfold recenter
    dsimp only
    split_ifs
    · exact h.t2
    · exact h.k2

theorem keep_assess (hsqrt : ∀ a : K, 0 ≤ a → 0 ≤ CMath.sqrt a ∧ CMath.sqrt a * CMath.sqrt a = a) {p : Par K} (hm : 1 ≤ p.nptm) {s : St K} (h : Core p s) (ht : Try p s) (he : Even p s)
    (k1 : 1 ≤ s.kopt) (k2 : s.kopt ≤ p.npt) (hk : Kn p s) : Keep p (assess p s).1 (assess p s).2 := by
  obtain ⟨t1, t2, ne⟩ := hk
  obtain ⟨u, hu⟩ : ∃ u, u = errors p s := ⟨_, rfl⟩
  have sw : Swap p u := by
    rw [hu]
    refine ⟨h.same ⟨rfl, rfl, rfl, rfl, rfl, rfl, rfl⟩ ⟨rfl, rfl, rfl⟩, t1, t2, k1, k2, ht.lag, ht.den, ht.pos, ht.moved, ?_, he _ t1 t2⟩
    show s.f - s.fval s.kopt - predicted p s = s.f - s.fval s.kopt - s.quad p s.d
    rw [predicted_quad p s ht.wd]
  have ev : Even p u := by rw [hu]; exact he
  have ne : u.knew ≠ u.kopt := by rw [hu]; exact ne
  have e : assess p s = if u.ntrits > 0 then
      if u.vquad ≥ 0 then fail .stepFailed u
      else absorb p (repick p { u with ratio := (u.f - u.fval u.kopt) / u.vquad, delta := newDelta u })
    else absorb p u := by rw [hu]; rfl
  rw [e]
  by_cases c1 : u.ntrits > 0
  · rw [if_pos c1]
    by_cases c2 : u.vquad ≥ 0
    · rw [if_pos c2]
      exact Or.inr (Or.inr rfl)
    · rw [if_neg c2]
      obtain ⟨v, hv⟩ : ∃ v : St K, v = { u with ratio := (u.f - u.fval u.kopt) / u.vquad, delta := newDelta u } := ⟨_, rfl⟩
      have sv : Swap p v := by
        rw [hv]
        exact ⟨sw.core.same ⟨rfl, rfl, rfl, rfl, rfl, rfl, rfl⟩ ⟨rfl, rfl, rfl⟩, sw.t1, sw.t2, sw.k1, sw.k2, sw.lag, sw.den, sw.pos, sw.hd, sw.diff, sw.spread⟩
      have ev' : Even p v := by rw [hv]; exact ev
      have ne' : v.knew ≠ v.kopt := by rw [hv]; exact ne
      rw [← hv]
      have hb : 0 ≤ v.beta := Newuoa.Lag.beta_nonneg sv.lag sv.core.inv
      obtain ⟨d1, d2, d3, -⟩ := pickKnew_den (p := p) hb 0 v.xnew
      unfold repick
      dsimp only
      by_cases c3 : v.f < v.fval v.kopt
      · rw [if_pos c3]
        by_cases c4 : (pickKnew p v 0 v.xnew).1 ≤ lit 1 2 * (pickKnew p v 0 v.xnew).2.1
        · rw [if_pos c4]
          exact keep_absorb hsqrt hm sv fun _ => ne'
        · rw [if_neg c4]
          obtain ⟨q1, q2, -⟩ := pickKnew_ok p v 0 v.xnew c4
          have dd := d3 (pos_of_half d2 c4)
          refine keep_absorb hsqrt hm ⟨sv.core.same ⟨rfl, rfl, rfl, rfl, rfl, rfl, rfl⟩ ⟨rfl, rfl, rfl⟩, q1, q2, sv.k1, sv.k2, sv.lag, dd.2, dd.1, sv.hd, sv.diff, ev' _ q1 q2⟩ fun n => absurd c3 n
      · rw [if_neg c3]
        exact keep_absorb hsqrt hm sv fun _ => ne'
  · rw [if_neg c1]
    exact keep_absorb hsqrt hm sw fun _ => ne

theorem keep_l360 (hsqrt : ∀ a : K, 0 ≤ a → 0 ≤ CMath.sqrt a ∧ CMath.sqrt a * CMath.sqrt a = a) {p : Par K} (hm : 1 ≤ p.nptm) (calfun : Nat → (Nat → K) → K) {s : St K} (ok : Ok p .l360 s)
    (h : Keep p .l360 s) (he : Even p s) : Keep p (l360 p calfun s).1 (l360 p calfun s).2 := by
  obtain ⟨o1, -, -, o4, -⟩ := ok
  obtain ⟨h1, h2⟩ := h
  unfold l360
  dsimp only
  by_cases c1 : p.maxfun ≤ (s.nf : Int)
  · rw [if_pos c1]
    exact Or.inr (Or.inl rfl)
  · rw [if_neg c1]
    obtain ⟨t, ht⟩ : ∃ t : St K, t = { call calfun (place p s s.xnew) { s with x := place p s s.xnew } with f := calfun s.nf (place p s s.xnew) } := ⟨_, rfl⟩
    by_cases c2 : s.ntrits = -1
    · have e : (call calfun (place p s s.xnew) { s with x := place p s s.xnew }).ntrits = -1 := c2
      rw [if_pos e]
      exact Or.inl o1.status
    · have e : ¬ (call calfun (place p s s.xnew) { s with x := place p s s.xnew }).ntrits = -1 := c2
      rw [if_neg e]
      obtain ⟨-, g2⟩ := o4.resolve_left c2
      have tr := h2.resolve_left c2
      have := keep_assess hsqrt hm (s := t) (by rw [ht]; exact h1.same ⟨rfl, rfl, rfl, rfl, rfl, rfl, rfl⟩ ⟨rfl, rfl, rfl⟩) (by rw [ht]; exact ⟨tr.moved, tr.lag, tr.wd, tr.den, tr.pos⟩)
        (by rw [ht]; exact he) (by rw [ht]; exact o1.kopt1) (by rw [ht]; exact o1.koptn) (by rw [ht]; exact g2)
      rw [ht] at this
      exact this

theorem keep_l650 {p : Par K} (hre : 0 < p.rhoend) {s : St K} (ok : Ok p .l650 s) (h : Keep p .l650 s) : Keep p (l650 p s).1 (l650 p s).2 := by
  obtain ⟨-, -, o3, -, -, -⟩ := ok
  have hr : 0 < s.rho := hre.trans_le o3.1
  have c : Core p { s with knew := (farthest p s).1, distsq := (farthest p s).2 } := Core.same h ⟨rfl, rfl, rfl, rfl, rfl, rfl, rfl⟩ ⟨rfl, rfl, rfl⟩
  unfold l650
  dsimp only
  split_ifs
  · refine ⟨c.same ⟨rfl, rfl, rfl, rfl, rfl, rfl, rfl⟩ ⟨rfl, rfl, rfl⟩, fun _ => ?_, fun q => absurd rfl q⟩
    unfold far
    dsimp only
    have key : ∀ d : K, s.rho ≤ if d ≤ s.rho * lit 3 2 then s.rho else d := by
      intro d
      split_ifs with h
      · exact le_refl _
      · rw [lit_rat] at h
        push_cast at h
        linarith
    have kd : s.rho ≤ (if s.ntrits = -1 then (if cmin (lit 1 10 * s.delta) (lit 1 2 * sqrt (farthest p s).2) ≤ s.rho * lit 3 2 then s.rho else cmin (lit 1 10 * s.delta) (lit 1 2 * sqrt (farthest p s).2)) else s.delta) := by
      by_cases q : s.ntrits = -1
      · rw [if_pos q]; exact key _
      · rw [if_neg q]; exact o3.2
    exact hr.trans_le (clamp_mem kd).1
  · exact c
  · exact c
  · exact c

theorem keep_l680 {p : Par K} {s : St K} (ok : Ok p .l680 s) (h : Keep p .l680 s) : Keep p (l680 p s).1 (l680 p s).2 := by
  unfold l680
  dsimp only
  split_ifs with c1 c2
  · exact Core.same h ⟨rfl, rfl, rfl, rfl, rfl, rfl, rfl⟩ ⟨rfl, rfl, rfl⟩
  · exact ⟨h, Or.inl c2⟩
  · exact Or.inl ok.1.status

theorem keep_finish {p : Par K} {s : St K} (h : Keep p .done s) : Keep p (finish p s).1 (finish p s).2 := by
  have h : Clean s.status := h
  have e : (finish p s).2.status = s.status := by
    unfold finish
    dsimp only
    split_ifs <;> rfl
  show Clean (finish p s).2.status
  rw [e]
  exact h

/-- A step of BOBYQA keeps the model. -/
theorem keep_step (hsqrt : ∀ a : K, 0 ≤ a → 0 ≤ CMath.sqrt a ∧ CMath.sqrt a * CMath.sqrt a = a) {p : Par K} (hp : Newuoa.Valid p.nw) (calfun : Nat → (Nat → K) → K) (T : St K → Trs K)
    {ls : Lab × St K} (ok : Ok p ls.1 ls.2) (h : Keep p ls.1 ls.2) (he : ls.1 = .l360 → Even p ls.2) : Keep p (step p calfun T ls).1 (step p calfun T ls).2 := by
  obtain ⟨l, s⟩ := ls
  have hm : 1 ≤ p.nptm := by
    have : p.n + 2 ≤ p.npt := hp.lo
    show 1 ≤ p.npt - (p.n + 1)
    omega
  have hre : 0 < p.rhoend := hp.rend
  cases l with
  | pre =>
    obtain ⟨-, w⟩ := first_prelim hp hsqrt calfun ok h
    show Keep p (prelim p calfun s).1 (prelim p calfun s).2
    rcases w with ⟨w1, w2⟩ | ⟨w1, w2⟩ | ⟨w1, w2, -⟩
    · rw [w1]; exact w2
    · rw [w1]; exact w2
    · rw [w1]
      exact Or.inr (Or.inl w2)
  | l20 =>
    obtain ⟨a1, a2⟩ := first_l20 hp hsqrt h
    show Keep p (l20 p s).1 (l20 p s).2
    rw [a1]
    exact a2
  | l60 => exact keep_l60 hsqrt hre T ok h
  | l90 => exact keep_l90 h
  | l210 => exact keep_l210 hsqrt ok h
  | l230 => exact keep_l230 ok h
  | l360 => exact keep_l360 hsqrt hm calfun ok h (he rfl)
  | l650 => exact keep_l650 hre ok h
  | l680 => exact keep_l680 ok h
  | done => exact keep_finish h
  | ret => exact h
  | l190 => exact absurd h id
  | r80 => exact absurd h id
  | r120 => exact absurd h id
  | rpts => exact absurd h id
  | l190b => exact absurd h id
  | wrong => exact absurd h id

end
end Opk.Bobyqa
