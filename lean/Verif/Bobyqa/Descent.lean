import Verif.Bobyqa.TrustEnds
import Verif.Bobyqa.Returned

/-!
# BOBYQA with the step of `trsbox`

The change of the model predicted after a trust region step is negative, hence the status `STEP_FAILED` is never returned in
exact arithmetic, and the point returned is always the best one.
-/
set_option linter.unusedSectionVars false
namespace Opk.Bobyqa
open Linalg CMath Cobyla

section
variable {K : Type} [Field K] [LinearOrder K] [IsStrictOrderedRing K] [CMath K] [ExactMath K]

/-- `T` is the step of `trsbox`. -/
def IsTrsbox (p : Par K) (T : St K → Trs K) : Prop :=
  ∀ s : St K, Within p s s.xopt → ∃ t fuel, trsbox (s.box p) t fuel = some (T s)

/-- There is such a step, as `trsbox` ends. -/
theorem exists_trsbox [Archimedean K] (hsqrt : ∀ a : K, 0 ≤ a → 0 ≤ CMath.sqrt a ∧ CMath.sqrt a * CMath.sqrt a = a) (p : Par K) (t : Tb K) :
    ∃ T, IsTrsbox p T := by
  classical
  have h : ∀ s : St K, ∃ r, Within p s s.xopt → ∃ t fuel, trsbox (s.box p) t fuel = some r := by
    intro s
    by_cases c : Within p s s.xopt
    · obtain ⟨fuel, r, h, -⟩ := trsbox_ends hsqrt (b := s.box p) c t
      exact ⟨r, fun _ => ⟨t, fuel, h⟩⟩
    · exact ⟨⟨t.d, t.gnew, t.xbdi, t.crvmin⟩, fun h => absurd h c⟩
  choose T hT using h
  exact ⟨T, hT⟩

/-! ### The predicted change -/

/-- The quadratic form of the half of a symmetric matrix. -/
theorem half_form (n : Nat) (hq : Nat → Nat → K) (d : Nat → K) :
    ∑ j ∈ Finset.Icc 1 n, ∑ i ∈ Finset.Icc 1 j, hq i j * (if i = j then 1 / 2 * (d i * d j) else d i * d j) =
      1 / 2 * ∑ i ∈ Finset.Icc 1 n, d i * ∑ j ∈ Finset.Icc 1 n, hq (min i j) (max i j) * d j := by
  induction n with
  | zero => simp
  | succ n ih =>
    rw [Finset.sum_Icc_succ_top (by omega), ih, Finset.sum_Icc_succ_top (by omega)]
    rw [Finset.sum_Icc_succ_top (by omega), Finset.sum_Icc_succ_top (by omega)]
    rw [if_pos rfl, min_self, max_self]
    have e1 : ∑ i ∈ Finset.Icc 1 n, hq i (n + 1) * (if i = n + 1 then 1 / 2 * (d i * d (n + 1)) else d i * d (n + 1)) =
        ∑ i ∈ Finset.Icc 1 n, hq i (n + 1) * (d i * d (n + 1)) := by
      refine Finset.sum_congr rfl fun i hi => ?_
      obtain ⟨_, h2⟩ := Finset.mem_Icc.mp hi
      rw [if_neg (by omega)]
    have e2 : ∑ i ∈ Finset.Icc 1 n, d i * ∑ j ∈ Finset.Icc 1 (n + 1), hq (min i j) (max i j) * d j =
        ∑ i ∈ Finset.Icc 1 n, d i * ∑ j ∈ Finset.Icc 1 n, hq (min i j) (max i j) * d j + ∑ i ∈ Finset.Icc 1 n, hq i (n + 1) * (d i * d (n + 1)) := by
      rw [← Finset.sum_add_distrib]
      refine Finset.sum_congr rfl fun i hi => ?_
      obtain ⟨_, h2⟩ := Finset.mem_Icc.mp hi
      rw [Finset.sum_Icc_succ_top (by omega), min_eq_left (by omega), max_eq_right (by omega)]; ring
    have e3 : d (n + 1) * ∑ j ∈ Finset.Icc 1 n, hq (min (n + 1) j) (max (n + 1) j) * d j = ∑ i ∈ Finset.Icc 1 n, hq i (n + 1) * (d i * d (n + 1)) := by
      rw [Finset.mul_sum]
      refine Finset.sum_congr rfl fun j hj => ?_
      obtain ⟨_, h2⟩ := Finset.mem_Icc.mp hj
      rw [min_eq_right (by omega), max_eq_left (by omega)]; ring
    rw [e1, e2, mul_add (d (n + 1)), e3]
    ring

/-- `VQUAD` is the change of the model. -/
theorem predicted_eq (p : Par K) (s : St K) (hw : ∀ k, 1 ≤ k → k ≤ p.npt → s.wd k = ∑ j ∈ Finset.Icc 1 p.n, s.xpt k j * s.d j) :
    predicted p s = (s.box p).quad s.d := by
  have half : (lit 1 2 : K) = 1 / 2 := by rw [lit_rat]; norm_num
  unfold predicted
  dsimp only
  rw [acc_eq]
  have e1 : up p.n (fun j v => up j (fun i v => v + s.hq i j * (if i = j then lit 1 2 * (s.d i * s.d j) else s.d i * s.d j)) (v + s.d j * s.gopt j)) 0 =
      dot p.n s.gopt s.d + ∑ j ∈ Finset.Icc 1 p.n, ∑ i ∈ Finset.Icc 1 j, s.hq i j * (if i = j then 1 / 2 * (s.d i * s.d j) else s.d i * s.d j) := by
    have e : ∀ j v, up j (fun i v => v + s.hq i j * (if i = j then lit 1 2 * (s.d i * s.d j) else s.d i * s.d j)) (v + s.d j * s.gopt j) =
        v + (s.gopt j * s.d j + ∑ i ∈ Finset.Icc 1 j, s.hq i j * (if i = j then 1 / 2 * (s.d i * s.d j) else s.d i * s.d j)) := by
      intro j v
      rw [up_sum, half]; ring
    rw [up_congr fun j _ _ v => e j v, up_sum, zero_add, Finset.sum_add_distrib]
    rfl
  rw [e1, half_form]
  unfold Box.quad
  have e2 : dot p.n s.d ((s.box p).hess s.d) = ∑ i ∈ Finset.Icc 1 p.n, s.d i * ∑ j ∈ Finset.Icc 1 p.n, s.hq (min i j) (max i j) * s.d j +
      ∑ k ∈ Finset.Icc 1 p.npt, s.pq k * (dot p.n (s.xpt k) s.d * dot p.n (s.xpt k) s.d) := by
    unfold dot Box.hess
    simp only [mul_add, Finset.sum_add_distrib]
    congr 1
    simp only [Finset.mul_sum]
    rw [Finset.sum_comm]
    refine Finset.sum_congr rfl fun k _ => Finset.sum_congr rfl fun i _ => ?_
    show s.d i * (s.pq k * dot p.n (s.xpt k) s.d * s.xpt k i) = s.pq k * (dot p.n (s.xpt k) s.d * (s.xpt k i * s.d i))
    ring
  show _ = dot p.n s.gopt s.d + 1 / 2 * dot p.n s.d ((s.box p).hess s.d)
  rw [e2, mul_add, add_assoc]
  congr 2
  rw [Finset.mul_sum]
  refine Finset.sum_congr rfl fun k hk => ?_
  obtain ⟨k1, k2⟩ := Finset.mem_Icc.mp hk
  rw [hw k k1 k2, half]
  unfold dot
  ring

/-! ### The shift of the origin -/

/-- The second derivatives of the model do not depend on the origin. -/
theorem shift_hess (p : Par K) (s : St K) (v : Nat → K) (i : Nat) :
    ((shift p s).box p).hess v i = (s.box p).hess v i := by
  have half : (lit 1 2 : K) = 1 / 2 := by rw [lit_rat]; norm_num
  obtain ⟨w, hw⟩ : ∃ w : Nat → K, w = fun j => acc p.npt (fun k => s.pq k * s.xpt k j) (-lit 1 2 * acc p.npt (fun k => s.pq k) 0 * s.xopt j) := ⟨_, rfl⟩
  have e1 : ((shift p s).box p).hess v i = ∑ j ∈ Finset.Icc 1 p.n, (s.hq (min i j) (max i j) + w (min i j) * s.xopt (max i j) + s.xopt (min i j) * w (max i j)) * v j +
      ∑ k ∈ Finset.Icc 1 p.npt, s.pq k * dot p.n (fun j => s.xpt k j - s.xopt j) v * (s.xpt k i - s.xopt i) := by
    rw [hw]; rfl
  have e2 : ∀ j, (s.hq (min i j) (max i j) + w (min i j) * s.xopt (max i j) + s.xopt (min i j) * w (max i j)) * v j =
      s.hq (min i j) (max i j) * v j + (w i * (s.xopt j * v j) + s.xopt i * (w j * v j)) := by
    intro j
    rcases le_total i j with h | h
    · rw [min_eq_left h, max_eq_right h]; ring
    · rw [min_eq_right h, max_eq_left h]; ring
  have e3 : ∀ k, dot p.n (fun j => s.xpt k j - s.xopt j) v = dot p.n (s.xpt k) v - dot p.n s.xopt v := by
    intro k
    unfold dot
    rw [← Finset.sum_sub_distrib]
    exact Finset.sum_congr rfl fun j _ => sub_mul _ _ _
  have e4 : ∀ j, w j = ∑ k ∈ Finset.Icc 1 p.npt, s.pq k * s.xpt k j - 1 / 2 * (∑ k ∈ Finset.Icc 1 p.npt, s.pq k) * s.xopt j := by
    intro j
    rw [hw]
    dsimp only
    rw [acc_eq, acc_eq, half]; ring
  have e5 : ∑ j ∈ Finset.Icc 1 p.n, w j * v j = ∑ k ∈ Finset.Icc 1 p.npt, s.pq k * dot p.n (s.xpt k) v - 1 / 2 * (∑ k ∈ Finset.Icc 1 p.npt, s.pq k) * dot p.n s.xopt v := by
    have : ∑ k ∈ Finset.Icc 1 p.npt, s.pq k * dot p.n (s.xpt k) v = ∑ j ∈ Finset.Icc 1 p.n, (∑ k ∈ Finset.Icc 1 p.npt, s.pq k * s.xpt k j) * v j := by
      unfold dot
      simp only [Finset.mul_sum, Finset.sum_mul]
      rw [Finset.sum_comm]
      exact Finset.sum_congr rfl fun j _ => Finset.sum_congr rfl fun k _ => (mul_assoc _ _ _).symm
    rw [this]
    unfold dot
    rw [Finset.mul_sum, ← Finset.sum_sub_distrib]
    refine Finset.sum_congr rfl fun j _ => ?_
    rw [e4]; ring
  have e6 : ∑ k ∈ Finset.Icc 1 p.npt, s.pq k * dot p.n (fun j => s.xpt k j - s.xopt j) v * (s.xpt k i - s.xopt i) =
      ∑ k ∈ Finset.Icc 1 p.npt, s.pq k * dot p.n (s.xpt k) v * s.xpt k i - dot p.n s.xopt v * (∑ k ∈ Finset.Icc 1 p.npt, s.pq k * s.xpt k i)
        - s.xopt i * (∑ k ∈ Finset.Icc 1 p.npt, s.pq k * dot p.n (s.xpt k) v) + s.xopt i * dot p.n s.xopt v * ∑ k ∈ Finset.Icc 1 p.npt, s.pq k := by
    rw [Finset.mul_sum, Finset.mul_sum, Finset.mul_sum, ← Finset.sum_sub_distrib, ← Finset.sum_sub_distrib, ← Finset.sum_add_distrib]
    refine Finset.sum_congr rfl fun k _ => ?_
    rw [e3]; ring
  rw [e1, e6, Finset.sum_congr rfl fun j _ => e2 j, Finset.sum_add_distrib, Finset.sum_add_distrib, ← Finset.mul_sum, ← Finset.mul_sum, e5, e4]
  show _ = ∑ j ∈ Finset.Icc 1 p.n, s.hq (min i j) (max i j) * v j + ∑ k ∈ Finset.Icc 1 p.npt, s.pq k * dot p.n (s.xpt k) v * s.xpt k i
  unfold dot
  ring

theorem shift_quad (p : Par K) (s : St K) (v : Nat → K) : ((shift p s).box p).quad v = (s.box p).quad v := by
  unfold Box.quad
  rw [dot_congr (u := v) (fun _ _ _ => rfl) fun i _ _ => shift_hess p s v i]
  rfl

/-! ### The step -/

/-- The end of `trsbox` does not change the step. -/
theorem boxStep_eq {p : Par K} {s : St K} {r : Trs K} (h : TrsGood (s.box p) r) (i : Nat) (h1 : 1 ≤ i) (h2 : i ≤ p.n) :
    boxStep s r i = s.xopt i + r.d i := by
  have g1 : s.sl i ≤ s.xopt i + r.d i ∧ s.xopt i + r.d i ≤ s.su i := h.inside i h1 h2
  have g2 : r.xbdi i = 0 ∨ r.xbdi i = -1 ∧ s.xopt i + r.d i = s.sl i ∨ r.xbdi i = 1 ∧ s.xopt i + r.d i = s.su i := h.fixed i h1 h2
  have n1 : (-1 : K) ≠ 1 := by norm_num
  unfold boxStep
  rcases g2 with e | ⟨e, q⟩ | ⟨e, q⟩
  · rw [e, if_neg (by norm_num), if_neg (by norm_num)]
    unfold clamp
    split_ifs with c1 c2
    · exact le_antisymm c1 g1.2
    · exact le_antisymm g1.1 c2
    · rfl
  · rw [e, if_neg n1, if_pos rfl, q]
  · rw [e, if_pos rfl, q]

theorem quad_congr {b : Box K} {u v : Nat → K} (h : ∀ i, 1 ≤ i → i ≤ b.n → u i = v i) : b.quad u = b.quad v := by
  unfold Box.quad
  rw [dot_congr (fun _ _ _ => rfl) h, dot_congr h fun i _ _ => hess_congr h i]

/-- The model decreases along the step. -/
def Desc (p : Par K) (s : St K) : Prop := 0 < s.ntrits → (s.box p).quad s.d < 0

/-- What is true at each label, besides `Ok`. -/
def Dn (p : Par K) : Lab → St K → Prop
  | .l90, s => Desc p s
  | .l230, s => Desc p s
  | .l360, s => Desc p s ∧ (0 < s.ntrits → ∀ k, 1 ≤ k → k ≤ p.npt → s.wd k = ∑ j ∈ Finset.Icc 1 p.n, s.xpt k j * s.d j)
  | .done, s => s.status ≠ .stepFailed
  | .ret, s => s.status ≠ .stepFailed
  | _, _ => True

theorem dn_short (p : Par K) (g : Nat → K) (s : St K) : Dn p (short p g s).1 (short p g s).2 := by
  unfold short
  dsimp only
  split_ifs <;> exact trivial

theorem dn_l60 (hsqrt : ∀ a : K, 0 ≤ a → 0 ≤ CMath.sqrt a ∧ CMath.sqrt a * CMath.sqrt a = a) (p : Par K) (hre : 0 < p.rhoend) (T : St K → Trs K)
    (hT : IsTrsbox p T) (s : St K) (h : Ok p .l60 s) : Dn p (l60 p T s).1 (l60 p T s).2 := by
  obtain ⟨h1, h2, h3, h4⟩ := h
  obtain ⟨t, fuel, ht⟩ := hT s (h1.xopt_within h2)
  have hg := trsbox_good hsqrt (b := s.box p) (h1.xopt_within h2) ht
  have hb := fun i h1 h2 => boxStep_eq hg i h1 h2
  unfold l60
  dsimp only
  by_cases hd : cmin (sqrt (acc p.n (fun i => (boxStep s (T s) i - s.xopt i) * (boxStep s (T s) i - s.xopt i)) 0)) s.delta < lit 1 2 * s.rho
  · rw [if_pos hd]; exact dn_short p _ _
  · rw [if_neg hd]
    intro _
    show (s.box p).quad (fun i => boxStep s (T s) i - s.xopt i) < 0
    have e : ∀ i, 1 ≤ i → i ≤ p.n → boxStep s (T s) i - s.xopt i = (T s).d i := by
      intro i i1 i2
      rw [hb i i1 i2]; ring
    rw [quad_congr (b := s.box p) e]
    rcases hg.decrease with q | ⟨-, q⟩
    · exact q
    · exfalso
      apply hd
      have z : acc p.n (fun i => (boxStep s (T s) i - s.xopt i) * (boxStep s (T s) i - s.xopt i)) 0 = 0 := by
        apply acc_zero
        intro i i1 i2
        rw [e i i1 i2, q i i1 i2, mul_zero]
      have hr : 0 < s.rho := hre.trans_le h3.1
      rw [z, cmin_eq, lit_rat]
      refine lt_of_le_of_lt (min_le_left _ _) ?_
      obtain ⟨-, w⟩ := hsqrt 0 le_rfl
      rw [mul_self_eq_zero.mp w]
      push_cast
      positivity

theorem dn_l90 (p : Par K) (s : St K) (h : Dn p .l90 s) : Dn p (l90 p s).1 (l90 p s).2 := by
  have h : Desc p s := h
  unfold l90
  dsimp only
  by_cases c : s.dsq ≤ s.xoptsq * lit 1 1000
  · rw [if_pos c]
    have hs : Desc p (shift p s) := by
      intro hn
      show ((shift p s).box p).quad s.d < 0
      rw [shift_quad]
      exact h hn
    split_ifs
    · exact trivial
    · exact hs
  · rw [if_neg c]
    split_ifs
    · exact trivial
    · exact h

theorem dn_damaged (p : Par K) (s : St K) : Dn p (damaged s).1 (damaged s).2 := by
  unfold damaged
  split_ifs
  · exact trivial
  · show Status.roundingErrors ≠ .stepFailed
    decide

theorem dn_l230 (p : Par K) (s : St K) (h : Dn p .l230 s) : Dn p (l230 p s).1 (l230 p s).2 := by
  have h : Desc p s := h
  unfold l230
  dsimp only
  by_cases c : s.ntrits = 0
  · rw [if_pos c]
    split_ifs
    · intro hn
      have hn : 0 < s.ntrits := hn
      omega
    · exact dn_damaged p _
    · refine ⟨fun hn => ?_, fun hn => ?_⟩
      · have hn : 0 < s.ntrits := hn
        omega
      · have hn : 0 < s.ntrits := hn
        omega
  · rw [if_neg c]
    split_ifs
    · exact dn_damaged p _
    · refine ⟨h, fun _ k _ _ => ?_⟩
      show ptsD p s k = _
      unfold ptsD
      rw [acc_eq, zero_add]

theorem dn_absorb (p : Par K) (s : St K) : Dn p (absorb p s).1 (absorb p s).2 := by
  unfold absorb afterMove
  dsimp only
  split_ifs <;> exact trivial

theorem dn_l360 (p : Par K) (calfun : Nat → (Nat → K) → K) (s : St K) (h : Ok p .l360 s) (hd : Dn p .l360 s) :
    Dn p (l360 p calfun s).1 (l360 p calfun s).2 := by
  obtain ⟨h1, -⟩ := h
  obtain ⟨d1, d2⟩ := hd
  unfold l360
  dsimp only
  split_ifs with c1 c2
  · show Status.tooManyEvaluations ≠ .stepFailed
    decide
  · show s.status ≠ .stepFailed
    rw [h1.status]; decide
  · unfold assess
    dsimp only
    split_ifs with c3 c4
    · exfalso
      have c3 : 0 < s.ntrits := c3
      have e := predicted_eq p s (d2 c3)
      have c4 : predicted p s ≥ 0 := c4
      rw [e] at c4
      exact absurd (d1 c3) (not_lt.mpr c4)
    · exact dn_absorb p _
    · exact dn_absorb p _

theorem dn_step (hsqrt : ∀ a : K, 0 ≤ a → 0 ≤ CMath.sqrt a ∧ CMath.sqrt a * CMath.sqrt a = a) (p : Par K) (hre : 0 < p.rhoend)
    (calfun : Nat → (Nat → K) → K) (T : St K → Trs K) (hT : IsTrsbox p T) (ls : Lab × St K) (h : Ok p ls.1 ls.2) (hd : Dn p ls.1 ls.2) :
    Dn p (step p calfun T ls).1 (step p calfun T ls).2 := by
  obtain ⟨l, s⟩ := ls
  cases l with
  | pre =>
    show Dn p (prelim p calfun s).1 (prelim p calfun s).2
    unfold prelim
    dsimp only
    generalize prelimModel p _ = u
    split_ifs
    · exact trivial
    · unfold begin
      dsimp only
      split_ifs
      · exact (by decide : Status.tooManyEvaluations ≠ .stepFailed)
      · exact trivial
  | l20 =>
    show Dn p (l20 p s).1 (l20 p s).2
    unfold l20
    split_ifs <;> exact trivial
  | l60 => exact dn_l60 hsqrt p hre T hT s h
  | l90 => exact dn_l90 p s hd
  | l190 => exact trivial
  | r80 =>
    show Dn p (r80 p s).1 (r80 p s).2
    unfold r80
    dsimp only
    split_ifs <;> exact trivial
  | r120 =>
    show Dn p (r120 p s).1 (r120 p s).2
    unfold r120
    dsimp only
    split_ifs <;> exact trivial
  | rpts =>
    show Dn p (rpts p calfun s).1 (rpts p calfun s).2
    unfold rpts
    by_cases c : s.res.kpt ≤ p.npt
    · rw [if_pos c]
      cases s.res.ptsid s.res.kpt with
      | none => exact trivial
      | some id =>
        dsimp only
        split_ifs <;> exact trivial
    · rw [if_neg c]; exact trivial
  | l190b =>
    show Dn p (l190b p s).1 (l190b p s).2
    unfold l190b
    dsimp only
    split_ifs
    all_goals first | exact trivial | exact (by decide : Status.tooManyEvaluations ≠ .stepFailed)
  | l210 =>
    have h : Full p s ∧ Xo p s ∧ Rad p s ∧ s.ntrits = 0 ∧ Kn p s := h
    intro hn
    have hn : 0 < s.ntrits := hn
    have := h.2.2.2.1
    omega
  | l230 => exact dn_l230 p s hd
  | l360 => exact dn_l360 p calfun s h hd
  | l650 =>
    show Dn p (l650 p s).1 (l650 p s).2
    unfold l650
    dsimp only
    split_ifs
    · intro hn
      exact absurd hn (lt_irrefl (0 : Int))
    all_goals exact trivial
  | l680 =>
    have h : Full p s ∧ Xo p s ∧ Rad p s ∧ Within p s s.xnew := h
    show Dn p (l680 p s).1 (l680 p s).2
    unfold l680
    dsimp only
    split_ifs with c1 c2
    · exact trivial
    · refine ⟨fun hn => ?_, fun hn => ?_⟩
      · have hn : 0 < s.ntrits := hn
        omega
      · have hn : 0 < s.ntrits := hn
        omega
    · show s.status ≠ .stepFailed
      rw [h.1.status]; decide
  | done =>
    have hd : s.status ≠ .stepFailed := hd
    show Dn p (finish p s).1 (finish p s).2
    unfold finish
    dsimp only
    split_ifs <;> exact hd
  | ret => exact hd
  | wrong => exact trivial

/-! ### The whole algorithm -/

theorem weak_sqrt (hsqrt : ∀ a : K, 0 ≤ a → 0 ≤ CMath.sqrt a ∧ CMath.sqrt a * CMath.sqrt a = a) : ∀ a : K, 1 ≤ a → 1 ≤ CMath.sqrt a := by
  intro a ha
  obtain ⟨h1, h2⟩ := hsqrt a (zero_le_one.trans ha)
  by_contra h
  push Not at h
  nlinarith

/-- With the step of `trsbox`, `bobyqb` never returns the status `STEP_FAILED`. -/
theorem bobyqb_never_failed (hsqrt : ∀ a : K, 0 ≤ a → 0 ≤ CMath.sqrt a ∧ CMath.sqrt a * CMath.sqrt a = a) (p : Par K) (h0 : 0 < p.rhoend)
    (hre : p.rhoend ≤ p.rhobeg) (hn : 1 ≤ p.npt) (calfun : Nat → (Nat → K) → K) (T : St K → Trs K) (hT : IsTrsbox p T) (x sl su : Nat → K)
    (s r : St K) (h : Ready p x sl su) (fuel : Nat) (hr : run p calfun T fuel (start x sl su s) = (.ret, r)) : r.status ≠ .stepFailed := by
  have := run_inv p calfun T (fun ls => Ok p ls.1 ls.2 ∧ Dn p ls.1 ls.2)
    (fun ls q => ⟨ok_step (weak_sqrt hsqrt) p h0 hre calfun T ls q.1, dn_step hsqrt p h0 calfun T hT ls q.1 q.2⟩) fuel (start x sl su s)
    ⟨ok_start p (h0.trans_le hre) hn x sl su s h, trivial⟩
  rw [hr] at this
  exact this.2

/-- **C81.**  In exact arithmetic, with the step of `trsbox`, the status `STEP_FAILED` is never returned. -/
theorem optimize_never_failed (hsqrt : ∀ a : K, 0 ≤ a → 0 ≤ CMath.sqrt a ∧ CMath.sqrt a * CMath.sqrt a = a) (a : Args K)
    (obj : Nat → (Nat → K) → K) (T : Par K → St K → Trs K) (hT : ∀ p, IsTrsbox p (T p)) (s : St K) (fuel : Nat) (st : Status) (x : Nat → K) (w1 : K)
    (log : List ((Nat → K) × K)) (h : optimize a obj T s fuel = some (st, x, w1, log)) : st ≠ .stepFailed := by
  unfold optimize at h
  cases hp : prepare a s with
  | inl e =>
    rw [hp] at h
    simp only [Option.some.injEq, Prod.mk.injEq] at h
    obtain ⟨rfl, -, -, -⟩ := h
    unfold prepare at hp
    dsimp only at hp
    split_ifs at hp
    · rw [← Sum.inl.inj hp]; exact (by decide : Status.badNvars ≠ .stepFailed)
    · rw [← Sum.inl.inj hp]; exact (by decide : Status.badNpt ≠ .stepFailed)
    · rw [← Sum.inl.inj hp]; exact (by decide : Status.badRhoRange ≠ .stepFailed)
    · cases hs : scaling a.n.toNat a.scl with
      | none =>
        rw [hs] at hp
        rw [← Sum.inl.inj hp]; exact (by decide : Status.badScaling ≠ .stepFailed)
      | some sc =>
        rw [hs] at hp
        dsimp only at hp
        split_ifs at hp
        rw [← Sum.inl.inj hp]; exact (by decide : Status.tooClose ≠ .stepFailed)
  | inr t =>
    obtain ⟨p, scl, ls⟩ := t
    rw [hp] at h
    obtain ⟨h0, hre, hn, hpn, x0, sl, su, rfl, hrd⟩ := prepare_ready a s p scl ls hp
    dsimp only at h
    cases hr : run p (objfun obj a.maximize scl) (T p) fuel (start x0 sl su s) with
    | mk l r =>
      rw [hr] at h
      cases l <;> simp only [reduceCtorEq] at h
      simp only [Option.some.injEq, Prod.mk.injEq] at h
      obtain ⟨rfl, rfl, rfl, rfl⟩ := h
      exact bobyqb_never_failed hsqrt p h0 hre hn (objfun obj a.maximize scl) (T p) (hT p) x0 sl su s r hrd fuel hr

/-- **C81.**  In exact arithmetic, with the step of `trsbox`, the variables at the end are always those of the call which
gave the best value. -/
theorem optimize_best_always (hsqrt : ∀ a : K, 0 ≤ a → 0 ≤ CMath.sqrt a ∧ CMath.sqrt a * CMath.sqrt a = a) (a : Args K)
    (obj : Nat → (Nat → K) → K) (T : Par K → St K → Trs K) (hT : ∀ p, IsTrsbox p (T p)) (s : St K) (fuel : Nat) (st : Status) (x : Nat → K) (w1 : K)
    (log : List ((Nat → K) × K)) (h : optimize a obj T s fuel = some (st, x, w1, log)) (hl : log ≠ []) :
    Genuine obj log ∧ ∃ e, BestCall a x e log ∧ (st = .success → w1 = e.2) := by
  obtain ⟨h1, h2, -⟩ := optimize_best (weak_sqrt hsqrt) a obj T s fuel st x w1 log h hl
  exact ⟨h1, h2 (optimize_never_failed hsqrt a obj T hT s fuel st x w1 log h)⟩

end
end Opk.Bobyqa
