import Verif.Newuoa.Begin
import Verif.Newuoa.Ends

/-!
# The model of NEWUOA interpolates at all the iterations, in exact arithmetic
-/
namespace Opk.Newuoa
open Linalg CMath Cobyla Powell

set_option linter.unusedSectionVars false

variable {K : Type} [Field K] [LinearOrder K] [IsStrictOrderedRing K] [CMath K] [ExactMath K]

/-- What the iterations keep: the inverse matrix, the interpolation conditions, and the fact that the values are those of
the user. -/
structure Core (p : Par K) (s : St K) : Prop where
  idz : s.idz = 1
  inv : Inverse p s
  int : Interp p s
  log : ∀ k, 1 ≤ k → k ≤ p.npt → ((fun j => s.xbase j + s.xpt k j), s.fval k) ∈ s.log

/-- `XOPT` is the point `KOPT`. -/
structure Cen (p : Par K) (s : St K) : Prop where
  k1 : 1 ≤ s.kopt
  k2 : s.kopt ≤ p.npt
  x : s.xopt = s.xpt s.kopt
  f : s.fopt = s.fval s.kopt
  sq : s.xoptsq = dot p.n s.xopt s.xopt

/-- `VLAG` and `BETA` are those of the point `x`. -/
def Lag (p : Par K) (s : St K) (x : Nat → K) : Prop :=
  ∀ c, Good p.n p.npt s.xpt (omega p.nptm s.zmat) s.bmat c → (∀ i, 1 ≤ i → i ≤ p.npt + p.n → s.vlag i = hcolumn p s c x i) ∧ s.beta = betaOf p s c x

/-- `KNEW` is the index of a point to be moved. -/
def Target (p : Par K) (s : St K) : Prop := 0 < s.knew ∧ s.knew ≤ p.npt ∧ s.knew.toNat ≠ s.kopt

/-- Before an evaluation. -/
def Trial (p : Par K) (s : St K) : Prop :=
  (∀ k, 1 ≤ k → k ≤ p.npt → s.w k = wcheck p s k) ∧ (s.knew = 0 ∨ Target p s ∧ s.vlag s.knew.toNat ≠ 0) ∧ Lag p s (fun j => s.xopt j + s.d j)

/-- Before the change of the model. -/
structure Swap (p : Par K) (s : St K) : Prop where
  core : Core p s
  t1 : 0 < s.knew
  t2 : s.knew ≤ p.npt
  lag : Lag p s s.xnew
  den : 0 < omega p.nptm s.zmat s.knew.toNat s.knew.toNat * s.beta + s.vlag s.knew.toNat * s.vlag s.knew.toNat
  k1 : 1 ≤ s.kopt
  k2 : s.kopt ≤ p.npt
  diff : s.diff = s.f - s.fval s.kopt - (s.quad p s.xnew - s.quad p (s.xpt s.kopt))
  log : ((fun j => s.xbase j + s.xnew j), s.f) ∈ s.log
  less : s.f < s.fsave → s.xopt = s.xnew ∧ s.fopt = s.f ∧ s.xoptsq = dot p.n s.xopt s.xopt
  more : ¬ s.f < s.fsave → s.knew.toNat ≠ s.kopt ∧ Cen p s

/-- The invariants at the labels. -/
def Keep (p : Par K) : Lab → St K → Prop
  | .l50, s => ∃ m, Begun p m s ∧ m < p.npt
  | .l310, s => (s.nf ≤ p.npt ∧ ∃ m s0, Begun p m s0 ∧ m < p.npt ∧ s = (l50 p s0).2) ∨
      (p.npt < s.nf ∧ Core p s ∧ Cen p s ∧ (s.knew = -1 ∨ Trial p s ∧ s.xnew = fun j => s.xopt j + s.d j))
  | .ask, s => (s.nf ≤ p.npt ∧ ∃ m s0, Begun p m s0 ∧ m < p.npt ∧ s = (l50 p s0).2) ∨
      (p.npt < s.nf ∧ Core p s ∧ Cen p s ∧ (s.knew = -1 ∨ Trial p s ∧ s.xnew = fun j => s.xopt j + s.d j))
  | .l90, s => Core p s ∧ Cen p s
  | .l100, s => Core p s ∧ Cen p s
  | .l120, s => Core p s ∧ Cen p s ∧ (s.knew = 0 ∧ s.dsq = dot p.n s.d s.d ∨ Target p s ∧ 0 < s.dstep ∧ s.dsq = s.dstep * s.dstep)
  | .l290, s => Core p s ∧ Cen p s ∧ (s.knew = -1 ∨ Trial p s)
  | .l410, s => Swap p s
  | .l460, s => Core p s ∧ Cen p s ∧ s.knew ≤ 0
  | .l490, s => Core p s ∧ Cen p s ∧ s.knew ≤ 0
  | .done, _ => True
  | .ret, _ => True

/-- What is asked from `biglag`: a step of length `DSTEP` at which the Lagrange function does not vanish. -/
def BigOk (p : Par K) (o : Subs K) : Prop :=
  ∀ s : St K, s.idz = 1 → Cen p s → Target p s → 0 < s.dstep → ∀ c, Good p.n p.npt s.xpt (omega p.nptm s.zmat) s.bmat c →
    (o.biglag s).1 = omega p.nptm s.zmat s.knew.toNat s.knew.toNat ∧ dot p.n (o.biglag s).2.1 (o.biglag s).2.1 = s.dstep * s.dstep ∧
    hcolumn p s c (fun j => s.xopt j + (o.biglag s).2.1 j) s.knew.toNat ≠ 0

theorem Core.same {p : Par K} {s t : St K} (h : Core p s) (e1 : t.idz = s.idz ∧ t.xpt = s.xpt ∧ t.zmat = s.zmat ∧ t.bmat = s.bmat)
    (e2 : t.fval = s.fval ∧ t.gq = s.gq ∧ t.hq = s.hq ∧ t.pq = s.pq ∧ t.xbase = s.xbase) (e3 : ∀ e ∈ s.log, e ∈ t.log) : Core p t := by
  obtain ⟨a1, a2, a3, a4⟩ := e1
  obtain ⟨b1, b2, b3, b4, b5⟩ := e2
  refine ⟨a1.trans h.idz, h.inv.same ⟨a2, a3, a4⟩, h.int.same ⟨a2, b1, b2, b3, b4⟩, fun k k1 k2 => ?_⟩
  rw [b5, a2, b1]
  exact e3 _ (h.log k k1 k2)

theorem Cen.same {p : Par K} {s t : St K} (h : Cen p s)
    (e : t.kopt = s.kopt ∧ t.xopt = s.xopt ∧ t.xpt = s.xpt ∧ t.fopt = s.fopt ∧ t.fval = s.fval ∧ t.xoptsq = s.xoptsq) : Cen p t := by
  obtain ⟨a1, a2, a3, a4, a5, a6⟩ := e
  refine ⟨?_, ?_, ?_, ?_, ?_⟩
  · rw [a1]; exact h.k1
  · rw [a1]; exact h.k2
  · rw [a1, a2, a3]; exact h.x
  · rw [a1, a4, a5]; exact h.f
  · rw [a2, a6]; exact h.sq

theorem omega_nonneg (m : Nat) (z : Nat → Nat → K) (i : Nat) : 0 ≤ omega m z i i := Finset.sum_nonneg fun _ _ => mul_self_nonneg _

theorem Lag.beta_nonneg {p : Par K} {s : St K} {x : Nat → K} (h : Lag p s x) (hi : Inverse p s) : 0 ≤ s.beta := by
  obtain ⟨c, hi⟩ := hi
  rw [(h c hi).2]
  exact hi.beta_nonneg x (hcolumn p s c x) (fun i _ => rfl)

/-- The Lagrange functions do not vanish all. -/
theorem Lag.some_nonzero {p : Par K} {s : St K} {x : Nat → K} (h : Lag p s x) (hi : Inverse p s) : ∃ k, 1 ≤ k ∧ k ≤ p.npt ∧ s.vlag k ≠ 0 := by
  obtain ⟨c, hi⟩ := hi
  by_contra q
  push Not at q
  have := Good.sum_one hi x
  rw [Finset.sum_eq_zero] at this
  · exact zero_ne_one this
  · intro k hk
    rw [Finset.mem_Icc] at hk
    exact ((h c hi).1 k hk.1 (by omega)).symm.trans (q k hk.1 hk.2)

/-! ### The shift -/

theorem shift_keep {p : Par K} {s : St K} (h : Core p s) (hc : Cen p s) : Core p (shift p s) ∧ Cen p (shift p s) := by
  obtain ⟨c, hi⟩ := h.inv
  refine ⟨⟨h.idz, ?_, shift_interp p s h.int, fun k k1 k2 => ?_⟩, hc.k1, hc.k2, ?_, hc.f, ?_⟩
  · exact shift_good p s h.idz hc.sq hi
  · have e : (fun j => (shift p s).xbase j + (shift p s).xpt k j) = fun j => s.xbase j + s.xpt k j := by
      funext j
      rw [shift_xpt p s k j k1 k2]
      show s.xbase j + s.xopt j + _ = _
      ring
    rw [e]
    exact h.log k k1 k2
  · funext j
    show 0 = (shift p s).xpt s.kopt j
    rw [shift_xpt p s _ j hc.k1 hc.k2, ← hc.x, sub_self]
  · show 0 = dot p.n (fun _ => 0) (fun _ => 0)
    unfold Powell.dot
    rw [Finset.sum_eq_zero fun _ _ => by ring]

/-! ### `L120` -/

theorem lagrange_trial {p : Par K} {s : St K} (h : Core p s) (hc : Cen p s) (hd : s.dsq = dot p.n s.d s.d) :
    Core p (lagrange p s) ∧ Cen p (lagrange p s) ∧ (∀ k, (lagrange p s).w k = wcheck p (lagrange p s) k) ∧ Lag p (lagrange p s) (fun j => s.xopt j + s.d j) :=
  ⟨h.same ⟨rfl, rfl, rfl, rfl⟩ ⟨rfl, rfl, rfl, rfl, rfl⟩ fun _ q => q, hc.same ⟨rfl, rfl, rfl, rfl, rfl, rfl⟩, fun _ => rfl,
    fun _ hg => lagrange_spec p s h.idz hg hc.k1 hc.k2 hc.x hc.sq hd⟩

/-- The condition on which `bigden` is called does not hold. -/
theorem no_bigden {α β τ : K} (hα : 0 ≤ α) (hβ : 0 ≤ β) : ¬ fabs (1 + α * β / (τ * τ)) ≤ lit 4 5 := by
  have : 0 ≤ α * β / (τ * τ) := div_nonneg (mul_nonneg hα hβ) (mul_self_nonneg τ)
  rw [ExactMath.fabs_eq, ExactMath.lit_eq, abs_of_nonneg (by linarith)]
  push_cast
  intro q
  have : (4 : K) / 5 < 1 := by norm_num
  linarith

theorem keep_l120 {p : Par K} {o : Subs K} (ho : BigOk p o) {s : St K} (h : Keep p .l120 s) : Keep p (l120 p o s).1 (l120 p o s).2 := by
  obtain ⟨h1, h2, h3⟩ := h
  have hs : Core p (if s.dsq ≤ s.xoptsq * lit 1 1000 then shift p s else s) ∧ Cen p (if s.dsq ≤ s.xoptsq * lit 1 1000 then shift p s else s) ∧
      ((if s.dsq ≤ s.xoptsq * lit 1 1000 then shift p s else s).knew = 0 ∧ (if s.dsq ≤ s.xoptsq * lit 1 1000 then shift p s else s).dsq =
          dot p.n (if s.dsq ≤ s.xoptsq * lit 1 1000 then shift p s else s).d (if s.dsq ≤ s.xoptsq * lit 1 1000 then shift p s else s).d ∨
        Target p (if s.dsq ≤ s.xoptsq * lit 1 1000 then shift p s else s) ∧ 0 < (if s.dsq ≤ s.xoptsq * lit 1 1000 then shift p s else s).dstep ∧
          (if s.dsq ≤ s.xoptsq * lit 1 1000 then shift p s else s).dsq =
            (if s.dsq ≤ s.xoptsq * lit 1 1000 then shift p s else s).dstep * (if s.dsq ≤ s.xoptsq * lit 1 1000 then shift p s else s).dstep) := by
    split_ifs
    · obtain ⟨a, b⟩ := shift_keep h1 h2
      exact ⟨a, b, h3⟩
    · exact ⟨h1, h2, h3⟩
  unfold l120
  dsimp only
  generalize (if s.dsq ≤ s.xoptsq * lit 1 1000 then shift p s else s) = t at hs ⊢
  obtain ⟨h1, h2, h3⟩ := hs
  rcases h3 with ⟨k, hd⟩ | ⟨tg, ds, hd⟩
  · rw [if_neg (show ¬ t.knew > 0 by omega), if_neg (show ¬ ((lagrange p t).knew > 0 ∧ _) from fun q => by have : t.knew > 0 := q.1; omega)]
    obtain ⟨a, b, c, d⟩ := lagrange_trial h1 h2 hd
    exact ⟨a, b, Or.inr ⟨fun k _ _ => c k, Or.inl k, d⟩⟩
  · rw [if_pos tg.1]
    obtain ⟨cc, hg⟩ := h1.inv
    obtain ⟨b1, b2, b3⟩ := ho t h1.idz h2 tg ds cc hg
    have hd' : ({ t with alpha := (o.biglag t).1, d := (o.biglag t).2.1, vlag := (o.biglag t).2.2.1, w := (o.biglag t).2.2.2 } : St K).dsq =
        dot p.n ({ t with alpha := (o.biglag t).1, d := (o.biglag t).2.1, vlag := (o.biglag t).2.2.1, w := (o.biglag t).2.2.2 } : St K).d
          ({ t with alpha := (o.biglag t).1, d := (o.biglag t).2.1, vlag := (o.biglag t).2.2.1, w := (o.biglag t).2.2.2 } : St K).d := hd.trans b2.symm
    obtain ⟨a, b, c, d⟩ := lagrange_trial (s := { t with alpha := (o.biglag t).1, d := (o.biglag t).2.1, vlag := (o.biglag t).2.2.1, w := (o.biglag t).2.2.2 })
      (h1.same ⟨rfl, rfl, rfl, rfl⟩ ⟨rfl, rfl, rfl, rfl, rfl⟩ fun _ q => q) (h2.same ⟨rfl, rfl, rfl, rfl, rfl, rfl⟩) hd'
    have e1 : (lagrange p { t with alpha := (o.biglag t).1, d := (o.biglag t).2.1, vlag := (o.biglag t).2.2.1, w := (o.biglag t).2.2.2 }).alpha = (o.biglag t).1 := rfl
    have e2 : (lagrange p { t with alpha := (o.biglag t).1, d := (o.biglag t).2.1, vlag := (o.biglag t).2.2.1, w := (o.biglag t).2.2.2 }).knew = t.knew := rfl
    have e3 : (lagrange p { t with alpha := (o.biglag t).1, d := (o.biglag t).2.1, vlag := (o.biglag t).2.2.1, w := (o.biglag t).2.2.2 }).vlag t.knew.toNat ≠ 0 := by
      rw [(d cc hg).1 _ (by have := tg.1; omega) (by have := tg.2.1; omega)]
      exact b3
    have e4 : (lagrange p { t with alpha := (o.biglag t).1, d := (o.biglag t).2.1, vlag := (o.biglag t).2.2.1, w := (o.biglag t).2.2.2 }).kopt = t.kopt := rfl
    have e5 : (lagrange p { t with alpha := (o.biglag t).1, d := (o.biglag t).2.1, vlag := (o.biglag t).2.2.1, w := (o.biglag t).2.2.2 }).xopt = t.xopt := rfl
    have e6 : (lagrange p { t with alpha := (o.biglag t).1, d := (o.biglag t).2.1, vlag := (o.biglag t).2.2.1, w := (o.biglag t).2.2.2 }).d = (o.biglag t).2.1 := rfl
    have d : Lag p (lagrange p { t with alpha := (o.biglag t).1, d := (o.biglag t).2.1, vlag := (o.biglag t).2.2.1, w := (o.biglag t).2.2.2 })
        (fun j => t.xopt j + (o.biglag t).2.1 j) := d
    generalize lagrange p { t with alpha := (o.biglag t).1, d := (o.biglag t).2.1, vlag := (o.biglag t).2.2.1, w := (o.biglag t).2.2.2 } = u at *
    rw [if_neg]
    · refine ⟨a, b, Or.inr ⟨fun k _ _ => c k, Or.inr ⟨?_, ?_⟩, ?_⟩⟩
      · unfold Target; rw [e2, e4]; exact tg
      · rw [e2]; exact e3
      · rw [e5, e6]; exact d
    · intro q
      refine no_bigden ?_ (d.beta_nonneg a.inv) q.2
      rw [e1, b1]
      exact omega_nonneg _ _ _

/-! ### After an evaluation -/

theorem pickKnew_spec {p : Par K} {s : St K} (hid : s.idz = 1) (hb : 0 ≤ s.beta) (hr : 0 < s.rho) :
    (pickKnew p s = 0 ∨ 1 ≤ pickKnew p s ∧ pickKnew p s ≤ p.npt ∧
      0 < omega p.nptm s.zmat (pickKnew p s) (pickKnew p s) * s.beta + s.vlag (pickKnew p s) * s.vlag (pickKnew p s) ∧ ¬ (s.f ≥ s.fsave ∧ pickKnew p s = s.kopt)) ∧
    (s.f < s.fsave → (∃ k, 1 ≤ k ∧ k ≤ p.npt ∧ s.vlag k ≠ 0) → pickKnew p s ≠ 0) := by
  have hR : 0 < cmax (lit 1 10 * s.delta) s.rho * cmax (lit 1 10 * s.delta) s.rho := by
    rw [cmax_max]
    have : 0 < max (lit 1 10 * s.delta) s.rho := lt_of_lt_of_le hr (le_max_right _ _)
    positivity
  have hdiag : ∀ k, acc p.nptm (fun j => signed s.idz j 1 * (s.zmat k j * s.zmat k j)) 0 = omega p.nptm s.zmat k k := by
    intro k
    rw [acc_zero, hid]
    unfold omega signed
    refine Finset.sum_congr rfl fun j hj => ?_
    rw [Finset.mem_Icc] at hj
    rw [if_neg (by omega), one_mul]
  have hσ : ∀ k, 0 ≤ s.beta * omega p.nptm s.zmat k k + s.vlag k * s.vlag k := fun k =>
    add_nonneg (mul_nonneg hb (omega_nonneg _ _ _)) (mul_self_nonneg _)
  unfold pickKnew
  dsimp only
  simp only [hdiag, ExactMath.fabs_eq, abs_of_nonneg (hσ _)]
  generalize cmax (lit 1 10 * s.delta) s.rho * cmax (lit 1 10 * s.delta) s.rho = R at hR
  obtain ⟨val, hval⟩ : ∃ val : Nat → K, val = fun k =>
      if acc p.n (fun j => (s.xpt k j - s.xopt j) * (s.xpt k j - s.xopt j)) 0 > R then
        (s.beta * omega p.nptm s.zmat k k + s.vlag k * s.vlag k) *
          (acc p.n (fun j => (s.xpt k j - s.xopt j) * (s.xpt k j - s.xopt j)) 0 / R * (acc p.n (fun j => (s.xpt k j - s.xopt j) * (s.xpt k j - s.xopt j)) 0 / R) *
            (acc p.n (fun j => (s.xpt k j - s.xopt j) * (s.xpt k j - s.xopt j)) 0 / R))
      else s.beta * omega p.nptm s.zmat k k + s.vlag k * s.vlag k := ⟨_, rfl⟩
  have hv : ∀ k, 0 < val k ↔ 0 < s.beta * omega p.nptm s.zmat k k + s.vlag k * s.vlag k := by
    intro k
    rw [hval]
    dsimp only
    split_ifs with q
    · have : 0 < acc p.n (fun j => (s.xpt k j - s.xopt j) * (s.xpt k j - s.xopt j)) 0 / R := div_pos (lt_trans hR q) hR
      exact mul_pos_iff_of_pos_right (by positivity)
    · rfl
  have key := up_inv (fun m (t : Nat × K) => (t.1 = 0 ∧ t.2 = (if s.f ≥ s.fsave then 1 else 0) ∨ 1 ≤ t.1 ∧ t.1 ≤ p.npt ∧ 0 < val t.1 ∧ ¬ (s.f ≥ s.fsave ∧ t.1 = s.kopt)) ∧ 0 ≤ t.2 ∧
      (s.f < s.fsave → ∀ k, 1 ≤ k → k ≤ m → val k ≤ t.2)) p.npt
    (body := fun k (t : Nat × K) => if val k > t.2 ∧ ¬ (s.f ≥ s.fsave ∧ k = s.kopt) then (k, val k) else t) (s := (0, if s.f ≥ s.fsave then 1 else 0))
    ⟨Or.inl ⟨rfl, rfl⟩, by split_ifs <;> norm_num, fun _ k k1 k2 => by omega⟩ (by
      intro m hm t ⟨a, b, c⟩
      by_cases q : val (m + 1) > t.2 ∧ ¬ (s.f ≥ s.fsave ∧ m + 1 = s.kopt)
      · rw [if_pos q]
        refine ⟨Or.inr ⟨by omega, by omega, lt_of_le_of_lt b q.1, q.2⟩, le_of_lt (lt_of_le_of_lt b q.1), fun hf k k1 k2 => ?_⟩
        by_cases e : k = m + 1
        · rw [e]
        · exact le_trans (c hf k k1 (by omega)) q.1.le
      · rw [if_neg q]
        refine ⟨a, b, fun hf k k1 k2 => ?_⟩
        by_cases e : k = m + 1
        · rw [e]
          by_contra w
          exact q ⟨not_le.mp w, fun g => absurd hf (not_lt.mpr g.1)⟩
        · exact c hf k k1 (by omega))
  have eb : (up p.npt (fun k (t : Nat × K) => if val k > t.2 ∧ ¬ (s.f ≥ s.fsave ∧ k = s.kopt) then (k, val k) else t) (0, if s.f ≥ s.fsave then 1 else 0)) =
    up p.npt (fun k (t : Nat × K) =>
    if (if acc p.n (fun j => (s.xpt k j - s.xopt j) * (s.xpt k j - s.xopt j)) 0 > R then
        (s.beta * omega p.nptm s.zmat k k + s.vlag k * s.vlag k) *
          (acc p.n (fun j => (s.xpt k j - s.xopt j) * (s.xpt k j - s.xopt j)) 0 / R * (acc p.n (fun j => (s.xpt k j - s.xopt j) * (s.xpt k j - s.xopt j)) 0 / R) *
            (acc p.n (fun j => (s.xpt k j - s.xopt j) * (s.xpt k j - s.xopt j)) 0 / R))
      else s.beta * omega p.nptm s.zmat k k + s.vlag k * s.vlag k) > t.2 ∧ ¬ (s.f ≥ s.fsave ∧ k = s.kopt) then (k, if acc p.n (fun j => (s.xpt k j - s.xopt j) * (s.xpt k j - s.xopt j)) 0 > R then
        (s.beta * omega p.nptm s.zmat k k + s.vlag k * s.vlag k) *
          (acc p.n (fun j => (s.xpt k j - s.xopt j) * (s.xpt k j - s.xopt j)) 0 / R * (acc p.n (fun j => (s.xpt k j - s.xopt j) * (s.xpt k j - s.xopt j)) 0 / R) *
            (acc p.n (fun j => (s.xpt k j - s.xopt j) * (s.xpt k j - s.xopt j)) 0 / R))
      else s.beta * omega p.nptm s.zmat k k + s.vlag k * s.vlag k) else t) (0, if s.f ≥ s.fsave then 1 else 0) := by rw [hval]
  rw [eb] at key
  generalize up p.npt _ _ = r at key ⊢
  obtain ⟨a, b, c⟩ := key
  constructor
  · rcases a with a | ⟨a1, a2, a3, a4⟩
    · exact Or.inl a.1
    · exact Or.inr ⟨a1, a2, by rw [mul_comm (omega _ _ _ _)]; exact (hv _).mp a3, a4⟩
  · intro hf ⟨k, k1, k2, k3⟩ e
    rcases a with a | a
    · have a2 := a.2
      rw [if_neg (not_le.mpr hf)] at a2
      have := c hf k k1 k2
      rw [a2] at this
      have p1 : 0 < val k := (hv k).mpr (add_pos_of_nonneg_of_pos (mul_nonneg hb (omega_nonneg _ _ _)) (mul_self_pos.mpr k3))
      exact absurd p1 (not_lt.mpr this)
    · omega

theorem errors_fields (p : Par K) (s : St K) :
    (errors p s).idz = s.idz ∧ (errors p s).xpt = s.xpt ∧ (errors p s).zmat = s.zmat ∧ (errors p s).bmat = s.bmat ∧ (errors p s).fval = s.fval ∧ (errors p s).gq = s.gq ∧
    (errors p s).hq = s.hq ∧ (errors p s).pq = s.pq ∧ (errors p s).xbase = s.xbase ∧ (errors p s).log = s.log ∧ (errors p s).knew = s.knew ∧ (errors p s).kopt = s.kopt ∧
    (errors p s).vlag = s.vlag ∧ (errors p s).beta = s.beta ∧ (errors p s).xnew = s.xnew ∧ (errors p s).f = s.f ∧ (errors p s).fsave = s.fopt ∧ (errors p s).rho = s.rho ∧
    (errors p s).diff = s.f - s.fopt - predicted p s ∧
    (s.f < s.fopt → (errors p s).xopt = s.xnew ∧ (errors p s).fopt = s.f ∧ (errors p s).xoptsq = acc p.n (fun i => s.xnew i * s.xnew i) 0) ∧
    (¬ s.f < s.fopt → (errors p s).xopt = s.xopt ∧ (errors p s).fopt = s.fopt ∧ (errors p s).xoptsq = s.xoptsq) := by
  unfold errors
  dsimp only
  by_cases c : s.f < s.fopt
  · rw [if_pos c]
    exact ⟨rfl, rfl, rfl, rfl, rfl, rfl, rfl, rfl, rfl, rfl, rfl, rfl, rfl, rfl, rfl, rfl, rfl, rfl, rfl, fun _ => ⟨rfl, rfl, rfl⟩, fun q => absurd c q⟩
  · rw [if_neg c]
    exact ⟨rfl, rfl, rfl, rfl, rfl, rfl, rfl, rfl, rfl, rfl, rfl, rfl, rfl, rfl, rfl, rfl, rfl, rfl, rfl, fun q => absurd q c, fun _ => ⟨rfl, rfl, rfl⟩⟩

/-- The state after the errors are computed; `KNEW` is not known yet. -/
structure Half (p : Par K) (s : St K) : Prop where
  core : Core p s
  lag : Lag p s s.xnew
  k1 : 1 ≤ s.kopt
  k2 : s.kopt ≤ p.npt
  diff : s.diff = s.f - s.fval s.kopt - (s.quad p s.xnew - s.quad p (s.xpt s.kopt))
  log : ((fun j => s.xbase j + s.xnew j), s.f) ∈ s.log
  less : s.f < s.fsave → s.xopt = s.xnew ∧ s.fopt = s.f ∧ s.xoptsq = dot p.n s.xopt s.xopt
  more : ¬ s.f < s.fsave → Cen p s

theorem errors_half {p : Par K} {s : St K} (h : Core p s) (hc : Cen p s) (hw : ∀ k, 1 ≤ k → k ≤ p.npt → s.w k = wcheck p s k)
    (hx : s.xnew = fun j => s.xopt j + s.d j) (hl : Lag p s s.xnew) (hg : ((fun j => s.xbase j + s.xnew j), s.f) ∈ s.log) : Half p (errors p s) := by
  have hpred := predicted_eq p s hw (fun i _ _ => congrFun hx i)
  obtain ⟨e1, e2, e3, e4, e5, e6, e7, e8, e9, e10, e11, e12, e13, e14, e15, e16, e17, e18, e19, e20, e21⟩ := errors_fields p s
  have eq : ∀ y, (errors p s).quad p y = s.quad p y := by
    intro y; unfold St.quad; rw [e2, e6, e7, e8]
  refine ⟨h.same ⟨e1, e2, e3, e4⟩ ⟨e5, e6, e7, e8, e9⟩ fun e q => by rw [e10]; exact q, ?_, by rw [e12]; exact hc.k1, by rw [e12]; exact hc.k2, ?_, ?_, ?_, ?_⟩
  · intro c hgood
    rw [e2, e3, e4] at hgood
    have := hl c hgood
    rw [e13, e14, e15]
    unfold hcolumn betaOf hcolumn
    rw [e2, e3, e4]
    exact this
  · rw [e19, e16, e5, e12, e15, eq, eq, e2, hpred, hc.f, hc.x]
  · rw [e9, e15, e16, e10]; exact hg
  · intro q
    rw [e16, e17] at q
    obtain ⟨a, b, c⟩ := e20 q
    rw [a, b, c, e15, e16]
    exact ⟨rfl, rfl, acc_dot _ _ _⟩
  · intro q
    rw [e16, e17] at q
    obtain ⟨a, b, c⟩ := e21 q
    exact hc.same ⟨e12, a, e2, b, e5, c⟩

/-- The end of `after`. -/
def rest (p : Par K) (s : St K) : Lab × St K :=
  if s.knew > 0 then (.l410, s)
  else if s.vquad ≥ 0 then (.done, { s with status := .stepFailed })
  else
    let s := { s with ratio := (s.f - s.fsave) / s.vquad }
    let s := { s with delta := newDelta s }
    let s := { s with knew := pickKnew p s }
    if s.knew = 0 then (.l460, s) else (.l410, s)

theorem keep_rest {p : Par K} {u : St K} (hh : Half p u) (t2' : u.knew = 0 ∨ Target p u ∧ u.vlag u.knew.toNat ≠ 0) (hr : 0 < u.rho) : Keep p (rest p u).1 (rest p u).2 := by
  have beta := hh.lag.beta_nonneg hh.core.inv
  unfold rest
  dsimp only
  split_ifs with c1 c2 c3
  · rcases t2' with w | ⟨w1, w2⟩
    · omega
    · refine ⟨hh.core, c1, w1.2.1, hh.lag, ?_, hh.k1, hh.k2, hh.diff, hh.log, hh.less, fun q => ⟨w1.2.2, hh.more q⟩⟩
      exact add_pos_of_nonneg_of_pos (mul_nonneg (omega_nonneg _ _ _) beta) (mul_self_pos.mpr w2)
  · trivial
  · obtain ⟨-, k2⟩ := pickKnew_spec (p := p) (s := { u with ratio := (u.f - u.fsave) / u.vquad, delta := newDelta { u with ratio := (u.f - u.fsave) / u.vquad } }) hh.core.idz beta
      hr
    have nl : ¬ u.f < u.fsave := fun q => k2 q (hh.lag.some_nonzero hh.core.inv) (by exact_mod_cast c3)
    exact ⟨hh.core.same ⟨rfl, rfl, rfl, rfl⟩ ⟨rfl, rfl, rfl, rfl, rfl⟩ fun _ q => q, (hh.more nl).same ⟨rfl, rfl, rfl, rfl, rfl, rfl⟩, le_of_eq c3⟩
  · obtain ⟨k1, -⟩ := pickKnew_spec (p := p) (s := { u with ratio := (u.f - u.fsave) / u.vquad, delta := newDelta { u with ratio := (u.f - u.fsave) / u.vquad } }) hh.core.idz beta
      hr
    generalize pickKnew p { u with ratio := (u.f - u.fsave) / u.vquad, delta := newDelta { u with ratio := (u.f - u.fsave) / u.vquad } } = k at *
    obtain ⟨a1, a2, a3, a4⟩ := k1.resolve_left (by exact_mod_cast c3)
    refine ⟨hh.core.same ⟨rfl, rfl, rfl, rfl⟩ ⟨rfl, rfl, rfl, rfl, rfl⟩ fun _ q => q, by show (0 : Int) < k; omega, by show (k : Int) ≤ p.npt; omega, hh.lag, a3, hh.k1, hh.k2, hh.diff,
      hh.log, hh.less, fun q => ⟨fun w => a4 ⟨not_lt.mp q, w⟩, (hh.more q).same ⟨rfl, rfl, rfl, rfl, rfl, rfl⟩⟩⟩

theorem keep_answer {p : Par K} (hp : Valid p) (hsqrt : ∀ a : K, 0 ≤ a → 0 ≤ CMath.sqrt a ∧ CMath.sqrt a * CMath.sqrt a = a) {s : St K} (f : K)
    (ok : Ok p .ask s) (rad : RadOk p .ask s) (h : Keep p .ask s) : Keep p (answer p f s).1 (answer p f s).2 := by
  unfold answer after
  rcases h with ⟨hn, m, s0, hb, hm, rfl⟩ | ⟨hn, h1, h2, h3⟩
  · rw [if_pos (show (put f (l50 p s0).2).nf ≤ p.npt from hn)]
    have hs := hb.step hp hm f
    unfold l70
    dsimp only
    generalize model p (store (put f (l50 p s0).2)) = t at hs ⊢
    split_ifs with c
    · exact ⟨m + 1, hs, by rw [← hs.nf]; exact c⟩
    · have e : m + 1 = p.npt := by have := hs.nf; omega
      rw [e] at hs
      obtain ⟨k1, k2, k3⟩ := hs.best (by have := hp.lo; omega)
      exact ⟨⟨rfl, (hs.inverse hp hsqrt).same ⟨rfl, rfl, rfl⟩, (hs.interp hp).same ⟨rfl, rfl, rfl, rfl, rfl⟩, hs.log⟩, k1, k2, rfl, k3, acc_dot _ _ _⟩
  · rw [if_neg (show ¬ (put f s).nf ≤ p.npt from not_le.mpr hn)]
    by_cases c : (put f s).knew = -1
    · rw [if_pos c]; trivial
    rw [if_neg c]
    obtain ⟨⟨t1, t2, t3⟩, hx⟩ := h3.resolve_left c
    have hx' : s.x = fun j => s.xbase j + s.xnew j := by
      rcases ok.1.2.2 with w | w
      · exact absurd w.1 (not_le.mpr hn)
      · exact w.2.2.1
    have hh : Half p (errors p (put f s)) := by
      refine errors_half (h1.same ⟨rfl, rfl, rfl, rfl⟩ ⟨rfl, rfl, rfl, rfl, rfl⟩ fun _ q => List.mem_cons_of_mem _ q) (h2.same ⟨rfl, rfl, rfl, rfl, rfl, rfl⟩) t1 hx ?_ ?_
      · show Lag p s s.xnew
        rw [hx]; exact t3
      · show ((fun j => s.xbase j + s.xnew j), f) ∈ (s.x, f) :: s.log
        rw [← hx']; exact List.mem_cons_self
    have rho := (rad hn).1
    obtain ⟨-, -, -, -, -, -, -, -, -, -, e11, e12, e13, -, -, e16, e17, e18, -, -, -⟩ := errors_fields p (put f s)
    have t2' : (errors p (put f s)).knew = 0 ∨ Target p (errors p (put f s)) ∧ (errors p (put f s)).vlag (errors p (put f s)).knew.toNat ≠ 0 := by
      unfold Target
      rw [e11, e12, e13]; exact t2
    have e18 : (errors p (put f s)).rho = s.rho := e18
    exact keep_rest hh t2' (by rw [e18]; exact lt_of_lt_of_le hp.rend rho)

/-! ### The change of the model -/

theorem move_keep {p : Par K} (hp : Valid p) (hsqrt : ∀ a : K, 0 ≤ a → 0 ≤ CMath.sqrt a ∧ CMath.sqrt a * CMath.sqrt a = a) {o : Subs K} (hu : o.update = update p)
    {s : St K} (h : Swap p s) : Core p (move p o s) := by
  have hm : 1 ≤ p.nptm := by have := hp.nptm; have := hp.lo; omega
  obtain ⟨c, hg⟩ := h.core.inv
  have t1 : 1 ≤ s.knew.toNat := by have := h.t1; omega
  have t2 : s.knew.toNat ≤ p.npt := by have := h.t2; omega
  obtain ⟨lv, lb⟩ := h.lag c hg
  obtain ⟨u1, c', u2⟩ := update_good hsqrt hm h.core.idz hg rfl t1 t2 lv lb h.den
  have hid : (move p o s).idz = 1 := by
    show (o.update s).2.2.1 = 1
    rw [hu]; exact u1
  have hinv : Inverse p (move p o s) := by
    refine ⟨c', ?_⟩
    show Good p.n p.npt (fun a i => if a = s.knew.toNat then s.xnew i else s.xpt a i) (omega p.nptm (o.update s).2.1) (o.update s).1 c'
    rw [hu]; exact u2
  refine ⟨hid, hinv, move_interp p o s hid rfl t1 t2 h.core.int hinv h.k1 h.k2 h.diff, fun k k1 k2 => ?_⟩
  show ((fun j => s.xbase j + (move p o s).xpt k j), set1 s.fval s.knew.toNat s.f k) ∈ s.log
  rw [move_xpt]
  unfold set1
  split_ifs with q
  · exact h.log
  · exact h.core.log k k1 k2

theorem tryFrobenius_fields (p : Par K) (s : St K) :
    (tryFrobenius p s).xpt = s.xpt ∧ (tryFrobenius p s).fval = s.fval ∧ (tryFrobenius p s).xbase = s.xbase ∧ (tryFrobenius p s).log = s.log ∧ (tryFrobenius p s).xopt = s.xopt ∧
    (tryFrobenius p s).fopt = s.fopt ∧ (tryFrobenius p s).xoptsq = s.xoptsq ∧ (tryFrobenius p s).kopt = s.kopt ∧ (tryFrobenius p s).knew = s.knew ∧ (tryFrobenius p s).f = s.f ∧
    (tryFrobenius p s).fsave = s.fsave := by
  unfold tryFrobenius frobenius
  dsimp only
  split_ifs <;> exact ⟨rfl, rfl, rfl, rfl, rfl, rfl, rfl, rfl, rfl, rfl, rfl⟩

theorem keep_l410 {p : Par K} (hp : Valid p) (hsqrt : ∀ a : K, 0 ≤ a → 0 ≤ CMath.sqrt a ∧ CMath.sqrt a * CMath.sqrt a = a) {o : Subs K} (hu : o.update = update p)
    {s : St K} (h : Keep p .l410 s) : Keep p (l410 p o s).1 (l410 p o s).2 := by
  have h : Swap p s := h
  have hm := move_keep hp hsqrt hu h
  obtain ⟨f1, f2, f3⟩ := tryFrobenius_interp hm.idz hm.inv hm.int
  obtain ⟨e1, e2, e3, e4, e5, e6, e7, e8, e9, e10, e11⟩ := tryFrobenius_fields p (move p o s)
  have t1 : 1 ≤ s.knew.toNat := by have := h.t1; omega
  have t2 : s.knew.toNat ≤ p.npt := by have := h.t2; omega
  have hc : Core p (tryFrobenius p (move p o s)) := ⟨f3, f2, f1, fun k k1 k2 => by rw [e1, e2, e3, e4]; exact hm.log k k1 k2⟩
  have hx := move_xpt p o s
  have hv : (move p o s).fval = set1 s.fval s.knew.toNat s.f := rfl
  have e5 : (tryFrobenius p (move p o s)).xopt = s.xopt := e5
  have e6 : (tryFrobenius p (move p o s)).fopt = s.fopt := e6
  have e7 : (tryFrobenius p (move p o s)).xoptsq = s.xoptsq := e7
  have e8 : (tryFrobenius p (move p o s)).kopt = s.kopt := e8
  have e9 : (tryFrobenius p (move p o s)).knew = s.knew := e9
  have e10 : (tryFrobenius p (move p o s)).f = s.f := e10
  have e11 : (tryFrobenius p (move p o s)).fsave = s.fsave := e11
  have hcen : Cen p { tryFrobenius p (move p o s) with kopt := if (tryFrobenius p (move p o s)).f < (tryFrobenius p (move p o s)).fsave then (tryFrobenius p (move p o s)).knew.toNat
      else (tryFrobenius p (move p o s)).kopt } := by
    rw [e8, e9, e10, e11]
    by_cases q : s.f < s.fsave
    · rw [if_pos q]
      obtain ⟨a, b, d⟩ := h.less q
      refine ⟨t1, t2, ?_, ?_, ?_⟩
      · show (tryFrobenius p (move p o s)).xopt = (tryFrobenius p (move p o s)).xpt s.knew.toNat
        rw [e5, e1, hx, if_pos rfl, a]
      · show (tryFrobenius p (move p o s)).fopt = (tryFrobenius p (move p o s)).fval s.knew.toNat
        rw [e6, e2, hv, b]
        exact (if_pos rfl).symm
      · show (tryFrobenius p (move p o s)).xoptsq = dot p.n (tryFrobenius p (move p o s)).xopt (tryFrobenius p (move p o s)).xopt
        rw [e5, e7]; exact d
    · rw [if_neg q]
      obtain ⟨ne, hk⟩ := h.more q
      refine ⟨hk.k1, hk.k2, ?_, ?_, ?_⟩
      · show (tryFrobenius p (move p o s)).xopt = (tryFrobenius p (move p o s)).xpt s.kopt
        rw [e5, e1, hx, if_neg (Ne.symm ne), hk.x]
      · show (tryFrobenius p (move p o s)).fopt = (tryFrobenius p (move p o s)).fval s.kopt
        rw [e6, e2, hv, hk.f]
        exact (if_neg (Ne.symm ne)).symm
      · show (tryFrobenius p (move p o s)).xoptsq = dot p.n (tryFrobenius p (move p o s)).xopt (tryFrobenius p (move p o s)).xopt
        rw [e5, e7]; exact hk.sq
  unfold l410
  dsimp only
  by_cases q : (tryFrobenius p (move p o s)).f ≤ (tryFrobenius p (move p o s)).fsave + lit 1 10 * (tryFrobenius p (move p o s)).vquad ∨ (tryFrobenius p (move p o s)).ksave > 0
  · rw [if_pos q]
    exact ⟨hc.same ⟨rfl, rfl, rfl, rfl⟩ ⟨rfl, rfl, rfl, rfl, rfl⟩ fun _ q => q, hcen⟩
  · rw [if_neg q]
    exact ⟨hc.same ⟨rfl, rfl, rfl, rfl⟩ ⟨rfl, rfl, rfl, rfl, rfl⟩ fun _ q => q, hcen.same ⟨rfl, rfl, rfl, rfl, rfl, rfl⟩, le_refl (0 : Int)⟩

/-! ### The other labels -/

theorem farthest_spec (p : Par K) (s : St K) :
    (farthest p s).1 = 0 ∨ 1 ≤ (farthest p s).1 ∧ (farthest p s).1 ≤ p.npt ∧
      s.delta * lit 4 1 * s.delta < acc p.n (fun j => (s.xpt (farthest p s).1 j - s.xopt j) * (s.xpt (farthest p s).1 j - s.xopt j)) 0 := by
  have key := up_inv (fun _ (t : Nat × K) => s.delta * lit 4 1 * s.delta ≤ t.2 ∧ (t.1 = 0 ∨ 1 ≤ t.1 ∧ t.1 ≤ p.npt ∧
      s.delta * lit 4 1 * s.delta < acc p.n (fun j => (s.xpt t.1 j - s.xopt j) * (s.xpt t.1 j - s.xopt j)) 0)) p.npt
    (body := fun k (t : Nat × K) => if acc p.n (fun j => (s.xpt k j - s.xopt j) * (s.xpt k j - s.xopt j)) 0 > t.2 then
      (k, acc p.n (fun j => (s.xpt k j - s.xopt j) * (s.xpt k j - s.xopt j)) 0) else t) (s := (0, s.delta * lit 4 1 * s.delta))
    ⟨le_refl _, Or.inl rfl⟩ (by
      intro m hm t ⟨a, b⟩
      split_ifs with q
      · exact ⟨le_trans a q.le, Or.inr ⟨by omega, by omega, lt_of_le_of_lt a q⟩⟩
      · exact ⟨a, b⟩)
  exact key.2

theorem keep_l460 {p : Par K} {s : St K} (hr : 0 < s.rho) (h : Keep p .l460 s) : Keep p (l460 p s).1 (l460 p s).2 := by
  obtain ⟨h1, h2, h3⟩ := h
  have hf := farthest_spec p s
  unfold l460
  dsimp only
  generalize farthest p s = t at hf ⊢
  by_cases c : t.1 = 0
  · rw [if_pos c, if_neg (show ¬ s.knew > 0 by omega)]
    split_ifs
    · exact ⟨h1, h2⟩
    · exact ⟨h1, h2, h3⟩
  · rw [if_neg c]
    obtain ⟨a1, a2, a3⟩ := hf.resolve_left c
    rw [if_pos (show (t.1 : Int) > 0 by omega)]
    refine ⟨h1.same ⟨rfl, rfl, rfl, rfl⟩ ⟨rfl, rfl, rfl, rfl, rfl⟩ fun _ q => q, h2.same ⟨rfl, rfl, rfl, rfl, rfl, rfl⟩, Or.inr ⟨⟨by show (0 : Int) < t.1; omega, by show (t.1 : Int) ≤ p.npt; omega, ?_⟩, ?_, rfl⟩⟩
    · intro q
      have q : t.1 = s.kopt := q
      rw [q, ← h2.x, acc_zero, Finset.sum_eq_zero fun _ _ => by ring] at a3
      have : 0 ≤ s.delta * lit 4 1 * s.delta := by
        rw [ExactMath.lit_eq]
        have := mul_self_nonneg s.delta
        push_cast
        linarith
      exact absurd a3 (not_lt.mpr this)
    · show 0 < cmax _ s.rho
      rw [cmax_max]
      exact lt_of_lt_of_le hr (le_max_right _ _)

theorem keep_step {p : Par K} (hp : Valid p) (hsqrt : ∀ a : K, 0 ≤ a → 0 ≤ CMath.sqrt a ∧ CMath.sqrt a * CMath.sqrt a = a) {o : Subs K} (hu : o.update = update p)
    (ho : BigOk p o) (ls : Lab × St K) (ok : Ok p ls.1 ls.2) (rad : RadOk p ls.1 ls.2) (h : Keep p ls.1 ls.2) : Keep p (step p o ls).1 (step p o ls).2 := by
  obtain ⟨l, s⟩ := ls
  cases l
  · obtain ⟨m, hb, hm⟩ := h
    exact Or.inl ⟨by show s.nf + 1 ≤ p.npt; rw [hb.nf]; omega, m, s, hb, hm, rfl⟩
  · show Keep p (l310 p s).1 (l310 p s).2
    unfold l310
    split_ifs
    · trivial
    · exact h
  · exact h
  · exact ⟨h.1.same ⟨rfl, rfl, rfl, rfl⟩ ⟨rfl, rfl, rfl, rfl, rfl⟩ fun _ q => q, h.2.same ⟨rfl, rfl, rfl, rfl, rfl, rfl⟩⟩
  · obtain ⟨h1, h2⟩ := h
    show Keep p (l100 p o s).1 (l100 p o s).2
    unfold l100 short
    dsimp only
    split_ifs
    · exact ⟨h1.same ⟨rfl, rfl, rfl, rfl⟩ ⟨rfl, rfl, rfl, rfl, rfl⟩ fun _ q => q, h2.same ⟨rfl, rfl, rfl, rfl, rfl, rfl⟩, by show (-1 : Int) ≤ 0; decide⟩
    · exact ⟨h1.same ⟨rfl, rfl, rfl, rfl⟩ ⟨rfl, rfl, rfl, rfl, rfl⟩ fun _ q => q, h2.same ⟨rfl, rfl, rfl, rfl, rfl, rfl⟩, by show (-1 : Int) ≤ 0; decide⟩
    · exact ⟨h1.same ⟨rfl, rfl, rfl, rfl⟩ ⟨rfl, rfl, rfl, rfl, rfl⟩ fun _ q => q, h2.same ⟨rfl, rfl, rfl, rfl, rfl, rfl⟩, by show (-1 : Int) ≤ 0; decide⟩
    · exact ⟨h1.same ⟨rfl, rfl, rfl, rfl⟩ ⟨rfl, rfl, rfl, rfl, rfl⟩ fun _ q => q, h2.same ⟨rfl, rfl, rfl, rfl, rfl, rfl⟩, Or.inl ⟨rfl, acc_dot _ _ _⟩⟩
  · exact keep_l120 ho h
  · obtain ⟨h1, h2, h3⟩ := h
    have ok : Iter p s ∧ _ := ok
    refine Or.inr ⟨?_, h1.same ⟨rfl, rfl, rfl, rfl⟩ ⟨rfl, rfl, rfl, rfl, rfl⟩ fun _ q => q, h2.same ⟨rfl, rfl, rfl, rfl, rfl, rfl⟩, ?_⟩
    · show p.npt < s.nf + 1
      have := ok.1.1
      have := ok.1.2.2.1
      omega
    · rcases h3 with k | t
      · exact Or.inl k
      · exact Or.inr ⟨t, rfl⟩
  · exact keep_l410 hp hsqrt hu h
  · have rad : Rad p s := rad
    exact keep_l460 (lt_of_lt_of_le hp.rend rad.1) h
  · obtain ⟨h1, h2, h3⟩ := h
    show Keep p (l490 p s).1 (l490 p s).2
    unfold l490
    dsimp only
    split_ifs with c1 c2
    · exact ⟨h1.same ⟨rfl, rfl, rfl, rfl⟩ ⟨rfl, rfl, rfl, rfl, rfl⟩ fun _ q => q, h2.same ⟨rfl, rfl, rfl, rfl, rfl, rfl⟩⟩
    · exact ⟨h1, h2, Or.inl c2⟩
    · trivial
  · trivial
  · trivial

theorem keep_stepF {p : Par K} (hp : Valid p) (hsqrt : ∀ a : K, 0 ≤ a → 0 ≤ CMath.sqrt a ∧ CMath.sqrt a * CMath.sqrt a = a) {o : Subs K} (hu : o.update = update p)
    (ho : BigOk p o) {calfun : Nat → (Nat → K) → K} (ls : Lab × St K) (ok : Ok p ls.1 ls.2) (rad : RadOk p ls.1 ls.2) (h : Keep p ls.1 ls.2) :
    Keep p (stepF p o calfun ls).1 (stepF p o calfun ls).2 := by
  unfold stepF
  split
  · exact keep_answer hp hsqrt _ ok rad h
  · exact keep_step hp hsqrt hu ho _ ok rad h

end Opk.Newuoa
