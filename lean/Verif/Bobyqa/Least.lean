import Verif.Bobyqa.Always
import Verif.Newuoa.Least

/-!
# BOBYQA: the change of the model has the least Frobenius norm
-/
set_option linter.unusedSectionVars false
namespace Opk.Bobyqa
open Linalg CMath Cobyla Powell
open Newuoa (omega qval hform lfun Matches)

/-- The function `e` is quadratic with the second derivatives `E`, and takes the values at the points of the state. -/
def Passes (p : Par ℝ) (s : St ℝ) (e : (Nat → ℝ) → ℝ) (E : Nat → Nat → ℝ) : Prop :=
  HasHess p.n e E ∧ ∀ k, 1 ≤ k → k ≤ p.npt → e (fun j => s.xbase j + s.xpt k j) = s.fval k

/-- A combination of Lagrange functions is added to a function. -/
theorem combine_least {n npt nptm : Nat} {xpt zmat bmat : Nat → Nat → ℝ} {c : Nat → ℝ} (hg : Good n npt xpt (omega nptm zmat) bmat c) {q m e : (Nat → ℝ) → ℝ} {Q G E : Nat → Nat → ℝ}
    (v : Nat → ℝ) {a : ℝ} (hv : ∀ y, m y = q y + ∑ t ∈ Finset.Icc 1 npt, v t * (∑ k ∈ Finset.Icc 1 npt, omega nptm zmat k t * (Powell.dot n (xpt k) y * Powell.dot n (xpt k) y / 2) + Powell.dot n (bmat t) y) + a)
    (hq : HasHess n q Q) (hG : HasHess n m G) (hE : HasHess n e E) (fit : ∀ k, 1 ≤ k → k ≤ npt → e (xpt k) = m (xpt k)) :
    frob n (fun i j => G i j - Q i j) ≤ frob n (fun i j => E i j - Q i j) := by
  have d1 := hG.add (hq.mul (-1))
  have e1 := hE.add (hq.mul (-1))
  have hl : ∀ t, HasHess n (fun y => ∑ k ∈ Finset.Icc 1 npt, omega nptm zmat k t * (Powell.dot n (xpt k) y * Powell.dot n (xpt k) y / 2) + Powell.dot n (bmat t) y)
      (fun i j => ∑ k ∈ Finset.Icc 1 npt, omega nptm zmat k t * (xpt k i * xpt k j)) := by
    intro t
    have := (hasHess_sum (Finset.Icc 1 npt) fun k _ => (hasHess_sq n (xpt k)).mul (omega nptm zmat k t)).add (hasHess_dot n (bmat t))
    simp only [add_zero] at this
    exact this
  have l1 := (hasHess_sum (Finset.Icc 1 npt) fun t _ => (hl t).mul (v t)).add (hasHess_const n a)
  have same : (fun x => m x + -1 * q x) = fun x => (∑ t ∈ Finset.Icc 1 npt, v t * (∑ k ∈ Finset.Icc 1 npt, omega nptm zmat k t * (Powell.dot n (xpt k) x * Powell.dot n (xpt k) x / 2) + Powell.dot n (bmat t) x)) + a := by
    funext y
    rw [hv y]
    ring
  have main := least_frobenius (n := n) (m := npt) (pts := xpt) (lam := fun k => ∑ t ∈ Finset.Icc 1 npt, v t * omega nptm zmat k t) ?_ ?_ e1 d1 ?_ (a := 0) ?_
  · have : ∀ z : Nat → Nat → ℝ, (fun i j => z i j + -1 * Q i j) = fun i j => z i j - Q i j := fun z => funext fun i => funext fun j => by ring
    rwa [this, this] at main
  · rw [Finset.sum_comm]
    refine Finset.sum_eq_zero fun t ht => ?_
    rw [Finset.mem_Icc] at ht
    rw [← Finset.mul_sum, (Newuoa.Good.omega_sum hg ht.1 ht.2).1, mul_zero]
  · intro j j1 j2
    simp only [Finset.sum_mul]
    rw [Finset.sum_comm]
    refine Finset.sum_eq_zero fun t ht => ?_
    rw [Finset.mem_Icc] at ht
    rw [show ∑ k ∈ Finset.Icc 1 npt, v t * omega nptm zmat k t * xpt k j = v t * ∑ k ∈ Finset.Icc 1 npt, omega nptm zmat k t * xpt k j by
      rw [Finset.mul_sum]; exact Finset.sum_congr rfl fun k _ => by ring, (Newuoa.Good.omega_sum hg ht.1 ht.2).2 j j1 j2, mul_zero]
  · intro i j i1 i2 j1 j2
    rw [same] at d1
    rw [d1.eq i1 i2 j1 j2, ← l1.eq i1 i2 j1 j2, add_zero]
    simp only [Finset.mul_sum, Finset.sum_mul]
    rw [Finset.sum_comm]
    exact Finset.sum_congr rfl fun k _ => Finset.sum_congr rfl fun t _ => by ring
  · intro k k1 k2
    rw [fit k k1 k2, add_zero]

/-- The model at a displacement from `XBASE`. -/
theorem model_base (p : Par ℝ) (s : St ℝ) (y : Nat → ℝ) : s.model p (fun j => y j + s.xbase j) = s.fval s.kopt + s.quad p (fun j => y j - s.xopt j) := by
  unfold St.model
  rw [show (fun j => y j + s.xbase j - (s.xbase j + s.xopt j)) = fun j => y j - s.xopt j from funext fun j => by ring]

/-- The model of a state is another function plus a combination of the Lagrange functions. -/
theorem core_least {p : Par ℝ} {s : St ℝ} (hc : Core p s) {q e : (Nat → ℝ) → ℝ} {Q G E : Nat → Nat → ℝ} (v : Nat → ℝ) {a : ℝ}
    (hv : ∀ y, s.quad p (fun j => y j - s.xopt j) = q y + ∑ t ∈ Finset.Icc 1 p.npt, v t * lfun p.nw s.nw t y + a)
    (hq : HasHess p.n q Q) (hG : HasHess p.n (s.model p) G) (hE : Passes p s e E) : frob p.n (fun i j => G i j - Q i j) ≤ frob p.n (fun i j => E i j - Q i j) := by
  obtain ⟨c, hg⟩ := hc.inv
  refine combine_least hg v (a := s.fval s.kopt + a) (m := fun y => s.model p (fun j => y j + s.xbase j)) (e := fun y => e (fun j => y j + s.xbase j)) (fun y => ?_) hq (hG.shift s.xbase) (hE.1.shift s.xbase) ?_
  · rw [model_base, hv y]
    show s.fval s.kopt + (q y + ∑ t ∈ Finset.Icc 1 p.npt, v t * (∑ k ∈ Finset.Icc 1 p.npt, omega p.nptm s.zmat k t * (Powell.dot p.n (s.xpt k) y * Powell.dot p.n (s.xpt k) y / 2) + Powell.dot p.n (s.bmat t) y) + a) = _
    ring
  · intro k k1 k2
    rw [model_base, hc.int k k1 k2]
    rw [show (fun j => s.xpt k j + s.xbase j) = fun j => s.xbase j + s.xpt k j from funext fun j => add_comm _ _, hE.2 k k1 k2]
    ring

/-- The least Frobenius norm interpolant is a combination of the Lagrange functions. -/
theorem frobenius_quad (p : Par ℝ) (s : St ℝ) : ∃ v : Nat → ℝ, ∀ z, qval p.n p.npt s.xpt (frobenius p s).2 (fun _ _ => 0) (frobenius p s).1 z =
    ∑ l ∈ Finset.Icc 1 p.npt, v l * (lfun p.nw s.nw l (fun i => z i + s.xopt i) - lfun p.nw s.nw l s.xopt) := by
  obtain ⟨v, hv⟩ : ∃ v : Nat → ℝ, v = fun k => s.fval k - s.fval s.kopt := ⟨_, rfl⟩
  have pq : ∀ k, (frobenius p s).1 k = ∑ l ∈ Finset.Icc 1 p.npt, v l * omega p.nptm s.zmat k l := by
    intro k
    show acc p.nptm (fun j => acc p.npt (fun k => s.zmat k j * (s.fval k - s.fval s.kopt)) 0 * s.zmat k j) 0 = _
    rw [acc_eq, zero_add]
    simp only [acc_eq, zero_add, Finset.sum_mul]
    rw [Finset.sum_comm]
    refine Finset.sum_congr rfl fun l _ => ?_
    unfold Newuoa.omega
    rw [Finset.mul_sum, hv]
    exact Finset.sum_congr rfl fun j _ => by ring
  have g : ∀ i, (frobenius p s).2 i = ∑ l ∈ Finset.Icc 1 p.npt, s.bmat l i * v l + ∑ k ∈ Finset.Icc 1 p.npt, Powell.dot p.n (s.xpt k) s.xopt * (frobenius p s).1 k * s.xpt k i := by
    intro i
    show up p.npt (fun k t => t + s.bmat k i * (s.fval k - s.fval s.kopt) + s.xpt k i * ((frobenius p s).1 k * acc p.n (fun j => s.xpt k j * s.xopt j) 0)) 0 = _
    rw [up_congr (g := fun k t => t + (s.bmat k i * v k + Powell.dot p.n (s.xpt k) s.xopt * (frobenius p s).1 k * s.xpt k i)), up_sum, zero_add, Finset.sum_add_distrib]
    intro k _ _ t
    rw [acc_eq, zero_add, add_assoc, hv]
    show t + (_ + s.xpt k i * ((frobenius p s).1 k * Powell.dot p.n (s.xpt k) s.xopt)) = _
    ring
  have lin : ∀ y, qval p.n p.npt s.xpt (fun i => ∑ l ∈ Finset.Icc 1 p.npt, s.bmat l i * v l) (fun _ _ => 0) (frobenius p s).1 y = ∑ l ∈ Finset.Icc 1 p.npt, v l * lfun p.nw s.nw l y := by
    intro y
    unfold Newuoa.qval
    have hh : hform p.n (fun _ _ => (0 : ℝ)) y = 0 := by
      unfold Newuoa.hform
      exact Finset.sum_eq_zero fun j _ => Finset.sum_eq_zero fun i _ => by rw [mul_zero, zero_mul]
    have g : Powell.dot p.n (fun i => ∑ l ∈ Finset.Icc 1 p.npt, s.bmat l i * v l) y = ∑ l ∈ Finset.Icc 1 p.npt, v l * Powell.dot p.n (s.bmat l) y := by
      unfold Powell.dot
      simp only [Finset.sum_mul, Finset.mul_sum]
      rw [Finset.sum_comm]
      exact Finset.sum_congr rfl fun k _ => Finset.sum_congr rfl fun i _ => by ring
    have i1 : (∑ k ∈ Finset.Icc 1 p.npt, (frobenius p s).1 k * (Powell.dot p.n (s.xpt k) y * Powell.dot p.n (s.xpt k) y)) / 2
        = ∑ l ∈ Finset.Icc 1 p.npt, v l * ∑ k ∈ Finset.Icc 1 p.npt, omega p.nptm s.zmat k l * (Powell.dot p.n (s.xpt k) y * Powell.dot p.n (s.xpt k) y / 2) := by
      rw [Finset.sum_div]
      simp only [pq, Finset.sum_mul, Finset.mul_sum, Finset.sum_div]
      rw [Finset.sum_comm]
      exact Finset.sum_congr rfl fun l _ => Finset.sum_congr rfl fun k _ => by ring
    rw [hh, g, i1, add_zero, ← Finset.sum_add_distrib]
    refine Finset.sum_congr rfl fun l _ => ?_
    show _ = v l * (∑ k ∈ Finset.Icc 1 p.npt, omega p.nptm s.zmat k l * (Powell.dot p.n (s.xpt k) y * Powell.dot p.n (s.xpt k) y / 2) + Powell.dot p.n (s.bmat l) y)
    ring
  refine ⟨v, fun z => ?_⟩
  rw [qval_recenter p.n p.npt s.xpt (frobenius p s).1 (fun i => ∑ l ∈ Finset.Icc 1 p.npt, s.bmat l i * v l) (frobenius p s).2 s.xopt (fun _ _ => 0)
    (fun i i1 i2 => by rw [Finset.sum_eq_zero (s := Finset.Icc 1 p.n) (fun j _ => zero_mul _), add_zero]; exact g i), lin, lin, ← Finset.sum_sub_distrib]
  exact Finset.sum_congr rfl fun l _ => by ring

/-- The model after the change of a point is the old one plus a multiple of a Lagrange function and a constant. -/
theorem recenter_quad {p : Par ℝ} {s : St ℝ} (h : Swap p s) (fopt : ℝ) :
    ∃ a, ∀ y, (recenter p fopt (move p s)).quad p (fun j => y j - (recenter p fopt (move p s)).xopt j) =
      s.quad p (fun j => y j - s.xopt j) + s.diff * lfun p.nw (move p s).nw s.knew y + a := by
  have mv : ∀ y : Nat → ℝ, (move p s).quad p (fun j => y j - s.xopt j) = s.quad p (fun j => y j - s.xopt j) + s.diff * (lfun p.nw (move p s).nw s.knew y - lfun p.nw (move p s).nw s.knew s.xopt) := by
    intro y
    rw [move_quad p s h.t1 h.t2, show (fun i => y i - s.xopt i + s.xopt i) = y from funext fun i => by ring]
  unfold recenter
  by_cases q : (move p s).f < fopt
  · rw [if_pos q]
    refine ⟨-s.diff * lfun p.nw (move p s).nw s.knew s.xopt - (move p s).quad p s.d, fun y => ?_⟩
    show qval p.n p.npt (move p s).xpt (addPoints p.n p.npt (move p s).xpt (move p s).pq s.d (addHess p.n (move p s).hq s.d (move p s).gopt)) (move p s).hq (move p s).pq
        (fun j => y j - s.xnew j) = _
    rw [qval_recenter p.n p.npt (move p s).xpt (move p s).pq (move p s).gopt _ s.d (move p s).hq
        (fun i i1 i2 => by rw [addPoints_eq, addHess_eq _ _ _ _ _ i1 i2]),
      show (fun i => y i - s.xnew i + s.d i) = fun i => y i - s.xopt i from funext fun i => by rw [h.hd i]; ring]
    have := mv y
    unfold St.quad at this ⊢
    rw [this]
    ring
  · rw [if_neg q]
    refine ⟨-s.diff * lfun p.nw (move p s).nw s.knew s.xopt, fun y => ?_⟩
    show (move p s).quad p (fun j => y j - s.xopt j) = _
    rw [mv y]
    ring

theorem recenter_fields (p : Par ℝ) (fopt : ℝ) (s : St ℝ) : (recenter p fopt s).xpt = s.xpt ∧ (recenter p fopt s).fval = s.fval ∧ (recenter p fopt s).xbase = s.xbase ∧
    (recenter p fopt s).nw.zmat = s.zmat ∧ (recenter p fopt s).nw.bmat = s.bmat := by
  unfold recenter
  split_ifs <;> exact ⟨rfl, rfl, rfl, rfl, rfl⟩

theorem tryFrobenius_fields (p : Par ℝ) (s : St ℝ) : (tryFrobenius p s).xpt = s.xpt ∧ (tryFrobenius p s).fval = s.fval ∧ (tryFrobenius p s).xbase = s.xbase ∧
    (tryFrobenius p s).zmat = s.zmat ∧ (tryFrobenius p s).bmat = s.bmat ∧ (tryFrobenius p s).xopt = s.xopt ∧ (tryFrobenius p s).kopt = s.kopt := by
  unfold tryFrobenius
  dsimp only
  split_ifs <;> exact ⟨rfl, rfl, rfl, rfl, rfl, rfl, rfl⟩

theorem tryFrobenius_cases (p : Par ℝ) (s : St ℝ) : (∀ z, (tryFrobenius p s).quad p z = s.quad p z) ∨
    ∀ z, (tryFrobenius p s).quad p z = qval p.n p.npt s.xpt (frobenius p s).2 (fun _ _ => 0) (frobenius p s).1 z := by
  unfold tryFrobenius
  dsimp only
  split_ifs
  · exact Or.inr fun z => rfl
  · exact Or.inl fun z => rfl
  · exact Or.inr fun z => rfl
  · exact Or.inl fun z => rfl
  · exact Or.inl fun z => rfl

theorem lfun_same {p : Par ℝ} {s t : St ℝ} (h1 : t.xpt = s.xpt) (h2 : t.zmat = s.zmat) (h3 : t.bmat = s.bmat) (l : Nat) (y : Nat → ℝ) : lfun p.nw t.nw l y = lfun p.nw s.nw l y := by
  show ∑ k ∈ Finset.Icc 1 p.npt, omega p.nptm t.zmat k l * (Powell.dot p.n (t.xpt k) y * Powell.dot p.n (t.xpt k) y / 2) + Powell.dot p.n (t.bmat l) y
    = ∑ k ∈ Finset.Icc 1 p.npt, omega p.nptm s.zmat k l * (Powell.dot p.n (s.xpt k) y * Powell.dot p.n (s.xpt k) y / 2) + Powell.dot p.n (s.bmat l) y
  rw [h1, h2, h3]

theorem afterMove_fields (fopt : ℝ) (s : St ℝ) : (∀ p, (afterMove fopt s).2.model p = s.model p) ∧ (afterMove fopt s).2.xpt = s.xpt ∧ (afterMove fopt s).2.fval = s.fval ∧ (afterMove fopt s).2.xbase = s.xbase := by
  unfold afterMove
  dsimp only
  split_ifs <;> exact ⟨fun _ => rfl, rfl, rfl, rfl⟩

/-- When the new value is included in the model. -/
theorem absorb_least {p : Par ℝ} (hm : 1 ≤ p.nptm) {s : St ℝ} (h : Swap p s) (ne : ¬ s.f < s.fval s.kopt → s.knew ≠ s.kopt) {G0 G1 : Nat → Nat → ℝ}
    (h0 : HasHess p.n (s.model p) G0) (h1 : HasHess p.n ((absorb p s).2.model p) G1) :
    (∀ e E, Passes p (absorb p s).2 e E → frob p.n (fun i j => G1 i j - G0 i j) ≤ frob p.n (fun i j => E i j - G0 i j)) ∨
    (∀ e E, Passes p (absorb p s).2 e E → frob p.n G1 ≤ frob p.n E) := by
  have e : absorb p s = afterMove (s.fval s.kopt) (tryFrobenius p (recenter p (s.fval s.kopt) (move p s))) := by
    unfold absorb
    rw [if_neg (by have := h.t1; omega)]
  have hk := h.keep Newuoa.real_root hm ne
  have kk : 1 ≤ (recenter p (s.fval s.kopt) (move p s)).kopt ∧ (recenter p (s.fval s.kopt) (move p s)).kopt ≤ p.npt := by
    unfold recenter
    split_ifs
    · exact ⟨h.t1, h.t2⟩
    · exact ⟨h.k1, h.k2⟩
  obtain ⟨a, rq⟩ := recenter_quad h (s.fval s.kopt)
  obtain ⟨f1, f2, f3, f4, f5⟩ := recenter_fields p (s.fval s.kopt) (move p s)
  obtain ⟨r, hr⟩ : ∃ r, r = recenter p (s.fval s.kopt) (move p s) := ⟨_, rfl⟩
  rw [← hr] at e hk kk rq f1 f2 f3 f4 f5
  have ht := tryFrobenius_keep hk kk.1 kk.2
  obtain ⟨v, fq⟩ := frobenius_quad p r
  obtain ⟨g1, g2, g3, g4, g5, g6, g7⟩ := tryFrobenius_fields p r
  have cs := tryFrobenius_cases p r
  obtain ⟨t, ht'⟩ : ∃ t, t = tryFrobenius p r := ⟨_, rfl⟩
  rw [← ht'] at e ht g1 g2 g3 g4 g5 g6 g7 cs
  obtain ⟨m1, m2, m3, m4⟩ := afterMove_fields (s.fval s.kopt) t
  rw [← e] at m1 m2 m3 m4
  rw [m1] at h1
  have pass : ∀ w E, Passes p (absorb p s).2 w E → Passes p t w E := by
    intro w E q
    refine ⟨q.1, ?_⟩
    have := q.2
    rw [m2, m3, m4] at this
    exact this
  rcases cs with q | q
  · left
    intro w E hE
    refine core_least ht (fun l => if l = s.knew then s.diff else 0) (a := a - s.fval s.kopt) (q := fun y => s.model p (fun j => y j + s.xbase j)) (fun y => ?_) (h0.shift s.xbase) h1 (pass w E hE)
    rw [q, g6, rq y, model_base, Finset.sum_eq_single s.knew]
    · rw [if_pos rfl, lfun_same g1 g4 g5, lfun_same f1 f4 f5]
      ring
    · intro l _ hl; rw [if_neg hl, zero_mul]
    · intro w; exact absurd (Finset.mem_Icc.mpr ⟨h.t1, h.t2⟩) w
  · right
    intro w E hE
    have := core_least ht v (a := -∑ l ∈ Finset.Icc 1 p.npt, v l * lfun p.nw r.nw l r.xopt) (q := fun _ => 0) (fun y => ?_) (hasHess_const p.n 0) h1 (pass w E hE)
    · simpa only [sub_zero] using this
    · rw [q, fq, zero_add, g6, show (fun i => y i - r.xopt i + r.xopt i) = y from funext fun i => by ring, ← sub_eq_add_neg, ← Finset.sum_sub_distrib]
      refine Finset.sum_congr rfl fun l _ => ?_
      rw [lfun_same g1 g4 g5]
      ring

/-- After an evaluation, the new value is included in the model, or the run ends. -/
theorem assess_absorb {p : Par ℝ} {s : St ℝ} (h : Core p s) (ht : Try p s) (he : Even p s) (k1 : 1 ≤ s.kopt) (k2 : s.kopt ≤ p.npt) (hk : Kn p s) :
    (assess p s).1 = .done ∨ ∃ u, Swap p u ∧ (¬ u.f < u.fval u.kopt → u.knew ≠ u.kopt) ∧ u.model p = s.model p ∧ assess p s = absorb p u := by
  obtain ⟨t1, t2, ne⟩ := hk
  obtain ⟨u, hu⟩ : ∃ u, u = errors p s := ⟨_, rfl⟩
  have sw : Swap p u := by
    rw [hu]
    refine ⟨h.same ⟨rfl, rfl, rfl, rfl, rfl, rfl, rfl⟩ ⟨rfl, rfl, rfl⟩, t1, t2, k1, k2, ht.lag, ht.den, ht.pos, ht.moved, ?_, he _ t1 t2⟩
    show s.f - s.fval s.kopt - predicted p s = s.f - s.fval s.kopt - s.quad p s.d
    rw [predicted_quad p s ht.wd]
  have um : u.model p = s.model p := by rw [hu]; rfl
  have ev : Even p u := by rw [hu]; exact he
  have ne : u.knew ≠ u.kopt := by rw [hu]; exact ne
  have e : assess p s = if u.ntrits > 0 then
      if u.vquad ≥ 0 then fail .stepFailed u
      else absorb p (repick p { u with ratio := (u.f - u.fval u.kopt) / u.vquad, delta := newDelta u })
    else absorb p u := by rw [hu]; rfl
  rw [e]
  by_cases c1 : u.ntrits > 0
  · rw [if_pos c1]
    by_cases c2 : u.vquad ≥ 0
    · rw [if_pos c2]
      exact Or.inl rfl
    · rw [if_neg c2]
      right
      obtain ⟨v, hv⟩ : ∃ v : St ℝ, v = { u with ratio := (u.f - u.fval u.kopt) / u.vquad, delta := newDelta u } := ⟨_, rfl⟩
      have sv : Swap p v := by
        rw [hv]
        exact ⟨sw.core.same ⟨rfl, rfl, rfl, rfl, rfl, rfl, rfl⟩ ⟨rfl, rfl, rfl⟩, sw.t1, sw.t2, sw.k1, sw.k2, sw.lag, sw.den, sw.pos, sw.hd, sw.diff, sw.spread⟩
      have vm : v.model p = s.model p := by rw [← um, hv]; rfl
      have ev' : Even p v := by rw [hv]; exact ev
      have ne' : v.knew ≠ v.kopt := by rw [hv]; exact ne
      rw [← hv]
      have hb : 0 ≤ v.beta := Newuoa.Lag.beta_nonneg sv.lag sv.core.inv
      obtain ⟨d1, d2, d3, -⟩ := pickKnew_den (p := p) hb 0 v.xnew
      refine ⟨repick p v, ?_⟩
      unfold repick
      dsimp only
      by_cases c3 : v.f < v.fval v.kopt
      · rw [if_pos c3]
        by_cases c4 : (pickKnew p v 0 v.xnew).1 ≤ lit 1 2 * (pickKnew p v 0 v.xnew).2.1
        · rw [if_pos c4]
          exact ⟨sv, fun _ => ne', vm, rfl⟩
        · rw [if_neg c4]
          obtain ⟨q1, q2, -⟩ := pickKnew_ok p v 0 v.xnew c4
          have dd := d3 (pos_of_half d2 c4)
          exact ⟨⟨sv.core.same ⟨rfl, rfl, rfl, rfl, rfl, rfl, rfl⟩ ⟨rfl, rfl, rfl⟩, q1, q2, sv.k1, sv.k2, sv.lag, dd.2, dd.1, sv.hd, sv.diff, ev' _ q1 q2⟩, fun n => absurd c3 n, vm, rfl⟩
      · rw [if_neg c3]
        exact ⟨sv, fun _ => ne', vm, rfl⟩
  · rw [if_neg c1]
    exact Or.inr ⟨u, sw, fun _ => ne, um, rfl⟩

/-- **C94.**  With real numbers, as long as the rotations of `update` are accurate: when BOBYQA includes a new value in its
model, the second derivatives `G1` of the new model are those of the old one, `G0`, plus the least possible change for the
Frobenius norm, among all the quadratic functions which take the values of the objective function at the new interpolation
points; or they have themselves the least possible Frobenius norm. -/
theorem bobyqa_least_frobenius {p : Par ℝ} (hp : Newuoa.Valid p.nw) (f : (Nat → ℝ) → ℝ) (T : St ℝ → Trs ℝ) {x sl su : Nat → ℝ} (h : Ready p x sl su) (s0 : St ℝ)
    {fuel : Nat} {s : St ℝ} (hr : run p (fun _ => f) T fuel (start x sl su s0) = (.l360, s)) (he : Steady p (fun _ => f) T (fuel + 1) (start x sl su s0))
    {t : St ℝ} (hi : l360 p (fun _ => f) s = (.l60, t) ∨ l360 p (fun _ => f) s = (.l650, t))
    {G0 G1 : Nat → Nat → ℝ} (h0 : HasHess p.n (s.model p) G0) (h1 : HasHess p.n (t.model p) G1) :
    (∀ k, 1 ≤ k → k ≤ p.npt → ∃ y, (y, f y) ∈ t.log ∧ t.fval k = f y ∧ ∀ j, 1 ≤ j → j ≤ p.n → y j = t.xbase j + t.xpt k j) ∧
    ((∀ e E, Passes p t e E → frob p.n (fun i j => G1 i j - G0 i j) ≤ frob p.n (fun i j => E i j - G0 i j)) ∨
     (∀ e E, Passes p t e E → frob p.n G1 ≤ frob p.n E)) := by
  have hm : 1 ≤ p.nptm := by
    have : p.n + 2 ≤ p.npt := hp.lo
    show 1 ≤ p.npt - (p.n + 1)
    omega
  obtain ⟨o, k⟩ := keep_begins hp h s0
  have e4 : ∀ (k : Nat) (ls : Lab × St ℝ), run p (fun _ => f) T (k + 1) ls = step p (fun _ => f) T (run p (fun _ => f) T k ls) := by
    intro k
    induction k with
    | zero => intro ls; rfl
    | succ k ih => intro ls; exact ih _
  have hr2 : run p (fun _ => f) T (fuel + 1) (start x sl su s0) = l360 p (fun _ => f) s := by rw [e4, hr]; rfl
  obtain ⟨ok1, -⟩ := run_keep Newuoa.real_root hp (fun _ => f) T (fuel + 1) _ o k he
  obtain ⟨ok, keep⟩ := run_keep Newuoa.real_root hp (fun _ => f) T fuel _ o k fun j s hj hr => he j s (by omega) hr
  have ev : Even p s := he fuel s (by omega) hr
  have gen := bobyqb_genuine p (fun _ => f) T x sl su s0 (fuel + 1)
  rw [hr2] at ok1 gen
  rw [hr] at ok keep
  constructor
  · have fu : Full p t := by
      rcases hi with q | q
      · rw [q] at ok1; exact ok1.1
      · rw [q] at ok1; exact ok1.1
    have gen : ∀ e ∈ t.log, e.2 = f e.1 := by
      rcases hi with q | q
      · rw [q] at gen; exact genuine_value f _ gen
      · rw [q] at gen; exact genuine_value f _ gen
    intro k k1 k2
    obtain ⟨e, e1, e2, e3⟩ := fu.recs k k1 k2
    have v := gen e e1
    exact ⟨e.1, by rw [← v]; exact e1, by rw [← e2, v], e3⟩
  · obtain ⟨o1, -, -, o4, -⟩ := ok
    obtain ⟨c1, c2⟩ := keep
    obtain ⟨u, hu⟩ : ∃ u : St ℝ, u = { call (fun _ => f) (place p s s.xnew) { s with x := place p s s.xnew } with f := f (place p s s.xnew) } := ⟨_, rfl⟩
    have e : l360 p (fun _ => f) s = assess p u ∧ s.ntrits ≠ -1 := by
      unfold l360 at hi ⊢
      dsimp only at hi ⊢
      by_cases d1 : p.maxfun ≤ (s.nf : Int)
      · rw [if_pos d1] at hi
        rcases hi with q | q <;> cases congrArg Prod.fst q
      · rw [if_neg d1] at hi ⊢
        by_cases d2 : (call (fun _ => f) (place p s s.xnew) { s with x := place p s s.xnew }).ntrits = -1
        · rw [if_pos d2] at hi
          rcases hi with q | q <;> cases congrArg Prod.fst q
        · rw [if_neg d2, hu]
          exact ⟨rfl, d2⟩
    obtain ⟨-, g2⟩ := o4.resolve_left e.2
    have tr := c2.resolve_left e.2
    have um : u.model p = s.model p := by rw [hu]; rfl
    rcases assess_absorb (p := p) (s := u) (by rw [hu]; exact c1.same ⟨rfl, rfl, rfl, rfl, rfl, rfl, rfl⟩ ⟨rfl, rfl, rfl⟩) (by rw [hu]; exact ⟨tr.moved, tr.lag, tr.wd, tr.den, tr.pos⟩)
        (by rw [hu]; exact ev) (by rw [hu]; exact o1.kopt1) (by rw [hu]; exact o1.koptn) (by rw [hu]; exact g2) with w | ⟨w, w1, w2, w3, w4⟩
    · rw [← e.1] at w
      rcases hi with q | q <;> · rw [q] at w; cases w
    · have et : t = (absorb p w).2 := by
        rw [← w4, ← e.1]
        rcases hi with q | q <;> rw [q]
      rw [et] at h1 ⊢
      exact absorb_least hm w1 w2 (by rw [w3, um]; exact h0) h1

/-! ### The first model -/

/-- The first model has the least Frobenius norm: each entry of its matrix is zero or is given by the values. -/
theorem first_least {p : Par ℝ} (hp : Newuoa.Valid p.nw) {s : St ℝ} (h : First p s) {G E : Nat → Nat → ℝ} {e : (Nat → ℝ) → ℝ}
    (hG : HasHess p.n (s.quad p) G) (hE : HasHess p.n e E) {a : ℝ} (hv : ∀ k, 1 ≤ k → k ≤ p.npt → e (s.xpt k) = s.quad p (s.xpt k) + a) :
    frob p.n G ≤ frob p.n E := by
  have w := h.begun.arr
  rw [h.all] at w
  have nm := nptm_eq hp
  have n1 : 1 ≤ p.n := hp.n1
  have lo : p.n + 2 ≤ p.npt := hp.lo
  have z1 : s.xpt 1 = fun _ => 0 := funext w.x1
  have qe : ∀ y, s.quad p y = Powell.dot p.n s.gopt y + hform p.n s.hq y := by
    intro y
    unfold St.quad Newuoa.qval
    rw [Finset.sum_eq_zero fun k _ => by rw [h.begun.pq k, zero_mul], zero_div, add_zero]
  have e3 : ∀ i, (fun _ : Nat => (0 : ℝ)) = fun l => 0 * del l i := fun i => by funext l; ring
  have diag : ∀ i, 1 ≤ i → i ≤ p.n → G i i = 0 ∨ G i i = E i i := by
    intro i i1 i2
    by_cases c : 1 + p.n + i ≤ p.npt
    · right
      obtain ⟨α, hα⟩ : ∃ α, α = s.xpt (1 + i) i := ⟨_, rfl⟩
      have a0 : α ≠ 0 := by rw [hα]; exact w.al0 hp i1 i2 (by omega)
      have x1 : s.xpt (1 + i) = fun l => α * if l = i then 1 else 0 := funext fun j => by rw [hα]; exact w.axis i1 i2 j
      rcases w.bb i i1 i2 c with b | b
      · have x2 : s.xpt (1 + p.n + i) = fun l => -α * if l = i then 1 else 0 := funext fun j => by rw [hα, ← b]; exact w.axis' i1 i2 j
        have g := hG.cross i1 i2 i1 i2 α (-α)
        have q := hE.cross i1 i2 i1 i2 α (-α)
        have x0 : s.xpt 1 = fun l => (α * if l = i then (1 : ℝ) else 0) + -α * if l = i then 1 else 0 := by rw [z1]; funext l; ring
        rw [← x0, ← x1, ← x2, ← z1] at g q
        rw [hv 1 (le_refl _) (by omega), hv _ (by omega) (by omega), hv _ (by omega) c] at q
        have : (G i i - E i i) * (α * -α) = 0 := by linear_combination g - q
        exact sub_eq_zero.mp ((mul_eq_zero.mp this).resolve_right (mul_ne_zero a0 (neg_ne_zero.mpr a0)))
      · have x2 : s.xpt (1 + p.n + i) = fun l => (α * if l = i then (1 : ℝ) else 0) + α * if l = i then 1 else 0 := by
          funext j
          rw [w.axis' i1 i2 j, b, ← hα]
          unfold del
          ring
        have g := hG.cross i1 i2 i1 i2 α α
        have q := hE.cross i1 i2 i1 i2 α α
        rw [← x2, ← x1, ← z1] at g q
        rw [hv 1 (le_refl _) (by omega), hv _ (by omega) c, hv _ (by omega) (by omega)] at q
        have : (G i i - E i i) * (α * α) = 0 := by linear_combination g - q
        exact sub_eq_zero.mp ((mul_eq_zero.mp this).resolve_right (mul_ne_zero a0 a0))
    · left
      have g := hG.cross i1 i2 i1 i2 1 1
      have e1 : (fun l => (1 : ℝ) * (if l = i then 1 else 0) + 1 * if l = i then 1 else 0) = fun l => 2 * del l i := by funext l; unfold del; ring
      have e2 : (fun l => (1 : ℝ) * if l = i then 1 else 0) = fun l => 1 * del l i := rfl
      rw [e1, e2, e3 i, qe, qe, qe, Newuoa.hform_one i1 i2, Newuoa.hform_one i1 i2, Newuoa.hform_one i1 i2, Newuoa.dot_del i1 i2, Newuoa.dot_del i1 i2, Newuoa.dot_del i1 i2,
        w.q0 i i1 i2 (by omega)] at g
      linear_combination g
  have off : ∀ i j, 1 ≤ j → j < i → i ≤ p.n → G i j = 0 ∨ G i j = E i j := by
    intro i j j1 ji i2
    by_cases c : ∃ l, p.n < l ∧ 1 + p.n + l ≤ p.npt ∧ prelimPair p (1 + p.n + l) = (i, j)
    · right
      obtain ⟨l, l1, l2, q⟩ := c
      have a0 : s.xpt (1 + i) i ≠ 0 := w.al0 hp (by omega) i2 (by omega)
      have b0 : s.xpt (1 + j) j ≠ 0 := w.al0 hp j1 (by omega) (by omega)
      have x3 : s.xpt (1 + p.n + l) = fun t => s.xpt (1 + i) i * (if t = i then 1 else 0) + s.xpt (1 + j) j * if t = j then 1 else 0 := funext fun t => by
        have x1 := w.axis (l := i) (by omega) i2 t
        have x2 := w.axis (l := j) j1 (by omega) t
        rw [w.xc l t l1 l2, q]
        dsimp only
        rw [x1, x2]
        rfl
      have x1 : s.xpt (1 + i) = fun t => s.xpt (1 + i) i * if t = i then 1 else 0 := funext fun t => w.axis (by omega) i2 t
      have x2 : s.xpt (1 + j) = fun t => s.xpt (1 + j) j * if t = j then 1 else 0 := funext fun t => w.axis j1 (by omega) t
      have g := hG.cross (by omega) i2 j1 (by omega) (s.xpt (1 + i) i) (s.xpt (1 + j) j)
      have v := hE.cross (by omega) i2 j1 (by omega) (s.xpt (1 + i) i) (s.xpt (1 + j) j)
      rw [← x1, ← x2, ← x3, ← z1] at g v
      rw [hv 1 (le_refl _) (by omega), hv _ (by omega) l2, hv (1 + i) (by omega) (by omega), hv (1 + j) (by omega) (by omega)] at v
      have : (G i j - E i j) * (s.xpt (1 + i) i * s.xpt (1 + j) j) = 0 := by linear_combination g - v
      exact sub_eq_zero.mp ((mul_eq_zero.mp this).resolve_right (mul_ne_zero a0 b0))
    · left
      have g := hG.cross (by omega) i2 j1 (by omega) 1 1
      have e1 : (fun l => (1 : ℝ) * (if l = i then 1 else 0) + 1 * if l = j then 1 else 0) = fun l => 1 * del l i + 1 * del l j := rfl
      have e2 : ∀ i, (fun l => (1 : ℝ) * if l = i then 1 else 0) = fun l => 1 * del l i := fun _ => rfl
      rw [e1, e2, e2, e3 j, qe, qe, qe, qe, Newuoa.hform_two j1 ji i2, Newuoa.hform_one (by omega) i2, Newuoa.hform_one j1 (by omega), Newuoa.hform_one j1 (by omega), Newuoa.dot_addr,
        Newuoa.dot_del (by omega) i2, Newuoa.dot_del j1 (by omega), Newuoa.dot_del j1 (by omega), w.q4 i j ji fun l l1 l2 q => c ⟨l, l1, l2, q⟩] at g
      linear_combination g
  refine Finset.sum_le_sum fun i hi => Finset.sum_le_sum fun j hj => ?_
  rw [Finset.mem_Icc] at hi hj
  have : G i j = 0 ∨ G i j = E i j := by
    rcases lt_trichotomy i j with c | c | c
    · rw [hG.1 i j hi.1 hi.2 hj.1 hj.2, hE.1 i j hi.1 hi.2 hj.1 hj.2]
      exact off j i hi.1 c hj.2
    · rw [← c]; exact diag i hi.1 hi.2
    · exact off i j hj.1 c hi.2
  rcases this with w | w
  · rw [w, zero_pow two_ne_zero]; exact sq_nonneg _
  · rw [w]

/-- The shift of the gradient to the best point. -/
theorem l20_quad {p : Par ℝ} {s : St ℝ} (h : First p s) (y : Nat → ℝ) :
    (l20 p s).2.quad p (fun j => y j - (l20 p s).2.xopt j) = s.quad p y - s.quad p s.xopt := by
  unfold l20
  by_cases c : s.kopt ≠ s.kbase
  · rw [if_pos c]
    have e := qval_recenter p.n p.npt s.xpt s.pq s.gopt (addHess p.n s.hq s.xopt s.gopt) s.xopt s.hq (fun i i1 i2 => by
      have z : ∑ k ∈ Finset.Icc 1 p.npt, Powell.dot p.n (s.xpt k) s.xopt * s.pq k * s.xpt k i = 0 := Finset.sum_eq_zero fun k _ => by rw [h.begun.pq k, mul_zero, zero_mul]
      rw [addHess_eq p.n s.hq s.xopt s.gopt i i1 i2, z, add_zero]) (fun j => y j - s.xopt j)
    show qval p.n p.npt s.xpt (if s.nf > p.npt then _ else addHess p.n s.hq s.xopt s.gopt) s.hq s.pq _ = _
    rw [if_neg (by rw [h.all]; exact lt_irrefl _), e, show (fun i => y i - s.xopt i + s.xopt i) = y from funext fun i => by ring]
    rfl
  · rw [if_neg c]
    rw [not_not, h.base] at c
    have z : ∀ j, s.xopt j = 0 := by
      intro j
      rw [h.xo, c]
      have w := h.begun.arr
      rw [h.all] at w
      exact w.x1 j
    have q0 : s.quad p s.xopt = 0 := qval_zero p.n p.npt s.xpt s.pq s.gopt s.hq fun i _ _ => z i
    rw [q0, sub_zero]
    show s.quad p (fun j => y j - s.xopt j) = _
    rw [show (fun j => y j - s.xopt j) = y from funext fun j => by rw [z j, sub_zero]]

/-- **C94.**  The second derivatives of the first model of BOBYQA have the least Frobenius norm among all the quadratic
functions with the values of the objective function at the first points. -/
theorem bobyqa_first_least {p : Par ℝ} (hp : Newuoa.Valid p.nw) (hmax : (p.npt : Int) ≤ p.maxfun) (f : (Nat → ℝ) → ℝ) (T : St ℝ → Trs ℝ)
    {x sl su : Nat → ℝ} (h : Ready p x sl su) (s0 : St ℝ) :
    ∃ s, run p (fun _ => f) T (p.npt + 1) (start x sl su s0) = (.l60, s) ∧ Matches p.n p.npt f s.log (s.model p) ∧
      ∀ G, HasHess p.n (s.model p) G → ∀ e E, Passes p s e E → frob p.n G ≤ frob p.n E := by
  obtain ⟨s, a1, -, a3, -⟩ := bobyqa_first hp hmax f T h s0
  refine ⟨s, a1, a3, fun G hG e E hE => ?_⟩
  have npt : p.n + 2 ≤ p.npt := hp.lo
  obtain ⟨s', e1, e2, e3⟩ := first_run hp Newuoa.real_root (fun _ => f) T hmax (p.npt - 1) (start x sl su s0).2
    (ok_start p hp.r (by omega) x sl su s0 h) (begun_start p x sl su s0 hp.n1) (by show 0 + (p.npt - 1) + 1 = _; omega)
  have e4 : ∀ (k : Nat) (ls : Lab × St ℝ), run p (fun _ => f) T (k + 1) ls = step p (fun _ => f) T (run p (fun _ => f) T k ls) := by
    intro k
    induction k with
    | zero => intro ls; rfl
    | succ k ih => intro ls; exact ih _
  have run1 : run p (fun _ => f) T (p.npt + 1) (start x sl su s0) = l20 p s' := by
    rw [e4, show p.npt = p.npt - 1 + 1 by omega]
    rw [show start x sl su s0 = (.pre, (start x sl su s0).2) from rfl, e1]
    rfl
  have es : s = (l20 p s').2 := by rw [← run1, a1]
  have same : (l20 p s').2.xpt = s'.xpt ∧ (l20 p s').2.fval = s'.fval ∧ (l20 p s').2.xbase = s'.xbase := by
    unfold l20
    split_ifs <;> exact ⟨rfl, rfl, rfl⟩
  have hG' := (hG.shift s.xbase).add (hasHess_const p.n (s'.quad p s'.xopt - s.fval s.kopt))
  have eq : (fun y => s.model p (fun j => y j + s.xbase j) + (s'.quad p s'.xopt - s.fval s.kopt)) = s'.quad p := by
    funext y
    rw [model_base, es, l20_quad e3 y]
    ring
  rw [eq] at hG'
  simp only [add_zero] at hG'
  refine first_least hp e3 hG' (hE.1.shift s.xbase) (a := s'.fval 1) fun k k1 k2 => ?_
  have fit := hE.2 k k1 k2
  rw [es, same.1, same.2.1] at fit
  rw [e3.value hp k1 k2, es, show (fun j => s'.xpt k j + (l20 p s').2.xbase j) = fun j => (l20 p s').2.xbase j + s'.xpt k j from funext fun j => add_comm _ _, fit]
  ring

/-! ### The hypotheses can be met -/

theorem absorb_not_done (p : Par ℝ) (s : St ℝ) : (absorb p s).1 ≠ .done ∧ (s.knew ≠ 0 → (absorb p s).1 = .l60 ∨ (absorb p s).1 = .l650) := by
  unfold absorb
  by_cases q : s.knew = 0
  · rw [if_pos q]
    exact ⟨fun w => (by cases w), fun w => absurd q w⟩
  · rw [if_neg q]
    unfold afterMove
    dsimp only
    split_ifs
    · exact ⟨fun w => (by cases w), fun _ => Or.inl rfl⟩
    · exact ⟨fun w => (by cases w), fun _ => Or.inr rfl⟩

theorem run_add (p : Par ℝ) (calfun : Nat → (Nat → ℝ) → ℝ) (T : St ℝ → Trs ℝ) (j k : Nat) : ∀ ls : Lab × St ℝ, run p calfun T (j + k) ls = run p calfun T k (run p calfun T j ls) := by
  induction j with
  | zero => intro ls; rw [Nat.zero_add]; rfl
  | succ j ih => intro ls; rw [Nat.succ_add]; exact ih _

/-- With `NPT = N+2`, a trust region step which reduces the model and is not short leads to a change of the model. -/
theorem trial_included {p : Par ℝ} (hp : Newuoa.Valid p.nw) (hn : p.npt = p.n + 2) (calfun : Nat → (Nat → ℝ) → ℝ) {T : St ℝ → Trs ℝ} {s : St ℝ} (ok : Ok p .l60 s) (h : Core p s)
    {d : Nat → ℝ} (hd : ∀ i, 1 ≤ i → i ≤ p.n → boxStep s (T s) i = s.xopt i + d i) (hl : 1 / 2 * s.rho ≤ min (Real.sqrt (Powell.dot p.n d d)) s.delta) (hq : s.quad p d < 0) (hm : (s.nf : Int) < p.maxfun) :
    ∃ s', run p calfun T 3 (.l60, s) = (.l360, s') ∧ ((l360 p calfun s').1 = .l60 ∨ (l360 p calfun s').1 = .l650) := by
  have n0 : (0 : Int) ≤ s.ntrits := ok.2.2.2
  have dsq : acc p.n (fun i => (boxStep s (T s) i - s.xopt i) * (boxStep s (T s) i - s.xopt i)) 0 = Powell.dot p.n d d := by
    rw [acc_eq, zero_add]
    unfold Powell.dot
    refine Finset.sum_congr rfl fun i hi => ?_
    rw [Finset.mem_Icc] at hi
    rw [hd i hi.1 hi.2]; ring
  have k1 := keep_l60 Newuoa.real_root hp.rend T ok h
  have o1 := ok_l60 p hp.rend T s ok
  have q1 : ∀ v : Nat → ℝ, (∀ i, 1 ≤ i → i ≤ p.n → v i = d i) → s.quad p v < 0 := fun v hv => by
    rw [IsQuadratic.at (isQuadratic_quad p s) hv]; exact hq
  have e1 : (l60 p T s).1 = .l90 ∧ (l60 p T s).2.ntrits = s.ntrits + 1 ∧ (l60 p T s).2.quad p (l60 p T s).2.d < 0 ∧ (l60 p T s).2.nf = s.nf := by
    unfold l60
    dsimp only
    rw [if_neg]
    · refine ⟨rfl, rfl, q1 _ fun i i1 i2 => ?_, rfl⟩
      show boxStep s (T s) i - s.xopt i = d i
      rw [hd i i1 i2]; ring
    · rw [dsq, cmin_eq, Newuoa.lit_half]
      exact not_lt.mpr hl
  show ∃ s', run p calfun T 2 (l60 p T s) = _ ∧ _
  generalize l60 p T s = t at *
  obtain ⟨l, t⟩ := t
  obtain ⟨rfl, e2, e2', e2''⟩ : l = .l90 ∧ t.ntrits = s.ntrits + 1 ∧ t.quad p t.d < 0 ∧ t.nf = s.nf := e1
  have k2 := keep_l90 k1
  have o2 := ok_l90 p t o1
  have e3 : (l90 p t).1 = .l230 ∧ (l90 p t).2.ntrits = t.ntrits ∧ (l90 p t).2.quad p (l90 p t).2.d < 0 ∧ (l90 p t).2.nf = t.nf := by
    unfold l90
    dsimp only
    by_cases c : t.dsq ≤ t.xoptsq * lit 1 1000
    · rw [if_pos c, if_neg (by show ¬ t.ntrits = 0; omega)]
      refine ⟨rfl, rfl, ?_, rfl⟩
      rw [shift_model]
      exact e2'
    · rw [if_neg c, if_neg (by omega)]; exact ⟨rfl, rfl, e2', rfl⟩
  show ∃ s', run p calfun T 1 (l90 p t) = _ ∧ _
  generalize l90 p t = u at *
  obtain ⟨l, u⟩ := u
  obtain ⟨rfl, e4, e4', e4''⟩ : l = .l230 ∧ u.ntrits = t.ntrits ∧ u.quad p u.d < 0 ∧ u.nf = t.nf := e3
  have o3 := ok_l230 p u o2
  obtain ⟨e5, k3⟩ := l230_trial o2 k2 (by show ¬ u.ntrits = 0; omega)
  have e6 : (l230 p u).2.ntrits = u.ntrits ∧ (l230 p u).2.quad p (l230 p u).2.d < 0 ∧ (l230 p u).2.nf = u.nf := by
    unfold l230 damaged
    dsimp only
    rw [if_neg (show ¬ u.ntrits = 0 by omega)]
    split_ifs <;> exact ⟨rfl, e4', rfl⟩
  refine ⟨(l230 p u).2, ?_, ?_⟩
  · show l230 p u = _
    generalize l230 p u = v at *
    obtain ⟨l, v⟩ := v
    obtain rfl : l = _ := e5
    rfl
  · generalize l230 p u = v at *
    obtain ⟨l, v⟩ := v
    obtain rfl : l = _ := e5
    obtain ⟨e7, e8, e9⟩ : v.ntrits = u.ntrits ∧ v.quad p v.d < 0 ∧ v.nf = u.nf := e6
    obtain ⟨f1, f2, f3, f4, f5⟩ := o3
    obtain ⟨g1, g2⟩ := f4.resolve_left (show ¬ v.ntrits = -1 by omega)
    obtain ⟨c1, c2⟩ := k3
    have tr := c2.resolve_left (show v.ntrits ≠ -1 by omega)
    show (l360 p calfun v).1 = .l60 ∨ (l360 p calfun v).1 = .l650
    unfold l360
    dsimp only
    rw [if_neg (show ¬ p.maxfun ≤ (v.nf : Int) by omega), if_neg (show ¬ (call calfun (place p v v.xnew) { v with x := place p v v.xnew }).ntrits = -1 from (show ¬ v.ntrits = -1 by omega))]
    obtain ⟨w, hw⟩ : ∃ w : St ℝ, w = { call calfun (place p v v.xnew) { v with x := place p v v.xnew } with f := (call calfun (place p v v.xnew) { v with x := place p v v.xnew }).fl } := ⟨_, rfl⟩
    rw [← hw]
    have wt : Try p w := by rw [hw]; exact ⟨tr.moved, tr.lag, tr.wd, tr.den, tr.pos⟩
    have pos : ¬ (errors p w).vquad ≥ 0 := by
      show ¬ predicted p w ≥ 0
      rw [predicted_quad p w wt.wd, hw]
      exact not_le.mpr e8
    rcases assess_absorb (p := p) (s := w) (by rw [hw]; exact c1.same ⟨rfl, rfl, rfl, rfl, rfl, rfl, rfl⟩ ⟨rfl, rfl, rfl⟩) wt
        (Even.single (by show p.npt - (p.n + 1) = 1; omega) w) (by rw [hw]; exact f1.kopt1) (by rw [hw]; exact f1.koptn) (by rw [hw]; exact g2) with q | ⟨z, z1, -, -, z4⟩
    · exfalso
      unfold assess at q
      dsimp only at q
      rw [if_pos (show (errors p w).ntrits > 0 by rw [hw]; show v.ntrits > 0; omega), if_neg pos] at q
      exact (absorb_not_done p _).1 q
    · rw [z4]
      exact (absorb_not_done p z).2 (by have := z1.t1; omega)

/-- The bounds and the origin during `prelim`. -/
theorem prelim_frame (p : Par ℝ) (calfun : Nat → (Nat → ℝ) → ℝ) (s : St ℝ) : (prelim p calfun s).2.sl = s.sl ∧ (prelim p calfun s).2.su = s.su ∧ (prelim p calfun s).2.xbase = s.xbase := by
  have a : ∀ t : St ℝ, (prelimModel p t).sl = t.sl ∧ (prelimModel p t).su = t.su ∧ (prelimModel p t).xbase = t.xbase := by
    intro t
    have b : (prelimSwap p (prelimQuad p t)).sl = t.sl ∧ (prelimSwap p (prelimQuad p t)).su = t.su ∧ (prelimSwap p (prelimQuad p t)).xbase = t.xbase := by
      unfold prelimSwap prelimQuad
      dsimp only
      split_ifs <;> exact ⟨rfl, rfl, rfl⟩
    unfold prelimModel prelimModelA prelimModelC
    dsimp only
    split_ifs <;> first | exact ⟨rfl, rfl, rfl⟩ | exact b
  have c : (stored p calfun s).sl = s.sl ∧ (stored p calfun s).su = s.su ∧ (stored p calfun s).xbase = s.xbase := by
    unfold stored prelimStore call prelimPoint prelimA prelimB prelimC
    dsimp only
    split_ifs <;> exact ⟨rfl, rfl, rfl⟩
  obtain ⟨a1, a2, a3⟩ := a (stored p calfun s)
  rw [← c.1, ← c.2.1, ← c.2.2, ← a1, ← a2, ← a3, prelim_eq]
  unfold begin fail
  dsimp only
  split_ifs <;> exact ⟨rfl, rfl, rfl⟩

theorem first_frame {p : Par ℝ} (calfun : Nat → (Nat → ℝ) → ℝ) (T : St ℝ → Trs ℝ) (hmax : (p.npt : Int) ≤ p.maxfun) (j : Nat) :
    ∀ s : St ℝ, s.nf + j + 1 = p.npt → (run p calfun T (j + 1) (.pre, s)).2.sl = s.sl ∧ (run p calfun T (j + 1) (.pre, s)).2.su = s.su ∧ (run p calfun T (j + 1) (.pre, s)).2.xbase = s.xbase := by
  induction j with
  | zero => intro s _; exact prelim_frame p calfun s
  | succ j ih =>
    intro s e
    have nf : (prelimModel p (stored p calfun s)).nf = s.nf + 1 := (prelimModel_same p _).2.1.trans (stored_fields p calfun s).1
    have fr := prelim_frame p calfun s
    have e1 : prelim p calfun s = (.pre, prelimModel p (stored p calfun s)) := by
      rw [prelim_eq, if_pos ⟨by omega, by omega⟩]
    rw [e1] at fr
    show (run p calfun T (j + 1) (prelim p calfun s)).2.sl = _ ∧ (run p calfun T (j + 1) (prelim p calfun s)).2.su = _ ∧ (run p calfun T (j + 1) (prelim p calfun s)).2.xbase = _
    rw [e1]
    obtain ⟨w1, w2, w3⟩ := ih (prelimModel p (stored p calfun s)) (by omega)
    exact ⟨w1.trans fr.1, w2.trans fr.2.1, w3.trans fr.2.2⟩

/-- Two variables between -10 and 10, and four points. -/
noncomputable def fourPar : Par ℝ := ⟨2, 4, 1, 1 / 2, 100, fun _ => -10, fun _ => 10⟩

/-- A step of length one along the second axis. -/
noncomputable def downStep (_ : St ℝ) : Trs ℝ where
  d := fun i => if i = 2 then -1 else 0
  gnew := fun _ => 0
  xbdi := fun _ => 0
  crvmin := 0

theorem four_valid : Newuoa.Valid fourPar.nw := by
  constructor <;> (unfold Par.nw fourPar; norm_num)

theorem four_ready : Ready fourPar (fun _ => 0) (fun _ => -10) (fun _ => 10) := by
  constructor <;> (intro i _ _; unfold fourPar; norm_num)

theorem run_values {p : Par ℝ} {f : (Nat → ℝ) → ℝ} {T : St ℝ → Trs ℝ} {x sl su : Nat → ℝ} {s0 s : St ℝ} {fuel : Nat} {l : Lab}
    (h : run p (fun _ => f) T fuel (start x sl su s0) = (l, s)) : ∀ e ∈ s.log, e.2 = f e.1 := by
  have gen := bobyqb_genuine p (fun _ => f) T x sl su s0 fuel
  rw [h] at gen
  exact genuine_value f _ gen

theorem first_facts {p : Par ℝ} (hp : Newuoa.Valid p.nw) (hmax : (p.npt : Int) ≤ p.maxfun) (f : (Nat → ℝ) → ℝ) (T : St ℝ → Trs ℝ) {x sl su : Nat → ℝ} (h : Ready p x sl su) (s0 : St ℝ) :
    ∃ s s', run p (fun _ => f) T (p.npt + 1) (start x sl su s0) = (.l60, s) ∧ s.nf = p.npt ∧ Ok p .l60 s ∧ Core p s ∧ s.rho = p.rhobeg ∧ s.delta = p.rhobeg ∧
      Ok p .l20 s' ∧ First p s' ∧ s'.sl = sl ∧ s'.su = su ∧ s'.xbase = x ∧ (∀ e ∈ s'.log, e.2 = f e.1) ∧ s = (l20 p s').2 := by
  obtain ⟨s1, a1, a2, a3, a4, a5, a6⟩ := bobyqa_begins hp hmax (fun _ => f) T h s0
  have npt : p.n + 2 ≤ p.npt := hp.lo
  have e0 : (start x sl su s0).2.nf + (p.npt - 1) + 1 = p.npt := by show 0 + (p.npt - 1) + 1 = _; omega
  obtain ⟨s', e1, e2, e3⟩ := first_run hp Newuoa.real_root (fun _ => f) T hmax (p.npt - 1) (start x sl su s0).2
    (ok_start p hp.r (by omega) x sl su s0 h) (begun_start p x sl su s0 hp.n1) e0
  obtain ⟨b1, b2, b3⟩ := first_frame (fun _ => f) T hmax (p.npt - 1) (start x sl su s0).2 e0
  have es0 : (Lab.pre, (start x sl su s0).2) = start x sl su s0 := rfl
  rw [es0] at e1 b1 b2 b3
  have gen := run_values e1
  rw [e1] at b1 b2 b3
  refine ⟨s1, s', a1, a2, a3, a4, a5, a6, e2, e3, b1, b2, b3, gen, ?_⟩
  rw [show p.npt + 1 = (p.npt - 1 + 1) + 1 by omega, run_add, e1] at a1
  exact (congrArg Prod.snd a1).symm

/-- The minimization of `x(2)` with four points: the first trial step changes the model. -/
theorem four_run (s0 : St ℝ) : ∃ s t, run fourPar (fun _ x => x 2) downStep 8 (start (fun _ => 0) (fun _ => -10) (fun _ => 10) s0) = (.l360, s) ∧
    (l360 fourPar (fun _ x => x 2) s = (.l60, t) ∨ l360 fourPar (fun _ x => x 2) s = (.l650, t)) := by
  obtain ⟨s1, s', a1, a2, a3, a4, a5, a6, e2, e3, b1, b2, b3, gen, es⟩ := first_facts four_valid (by unfold fourPar; norm_num) (fun x => x 2) downStep four_ready s0
  have vals : ∀ k, 1 ≤ k → k ≤ 4 → s'.fval k = s'.xpt k 2 := by
    intro k k1 k2
    obtain ⟨e, c1, c2, c3⟩ := e2.1.recs k k1 k2
    rw [← c2, gen e c1, c3 2 (by norm_num) (le_refl _), b3, zero_add]
  have w := e3.begun.arr
  rw [e3.all] at w
  have x3 : s'.xpt 3 2 = 1 := by
    have := w.a0 2 (by norm_num) (le_refl _) (show 1 + 2 ≤ 4 by norm_num) (show 4 < 1 + 2 + 2 by norm_num)
    rw [b2, if_neg (by norm_num)] at this
    exact this
  have h22 : s'.hq 2 2 = 0 := w.q0 2 (by norm_num) (le_refl _) (show 4 < 1 + 2 + 2 by norm_num)
  have h12 : s'.hq 1 2 = 0 := w.q4 2 1 (by norm_num) fun l l1 l2 => by
    have l1 : 2 < l := l1
    have l2 : 1 + 2 + l ≤ 4 := l2
    omega
  have g2 : s'.gopt 2 = 1 := by
    have := w.q1 2 (by norm_num) (le_refl _) (show 1 + 2 ≤ 4 by norm_num)
    change s'.xpt 3 2 * s'.gopt 2 + 1 / 2 * s'.hq 2 2 * (s'.xpt 3 2 * s'.xpt 3 2) = s'.fval 3 - s'.fval 1 at this
    rw [vals 3 (by norm_num) (by norm_num), vals 1 (by norm_num) (by norm_num), x3, h22, w.x1 2] at this
    linarith
  have rows : ∀ k, 1 ≤ k → k ≤ 4 → 0 ≤ s'.xpt k 2 := by
    intro k k1 k2
    obtain rfl | rfl | rfl | rfl : k = 1 ∨ k = 2 ∨ k = 3 ∨ k = 4 := by omega
    · rw [w.x1 2]
    · rw [show 2 = 1 + 1 from rfl, w.xa 1 (1 + 1) (le_refl _) (show 1 ≤ 2 by norm_num) (by norm_num)]
    · rw [x3]; norm_num
    · have := w.xb 1 2 (le_refl _) (show 1 ≤ 2 by norm_num) (by norm_num)
      change s'.xpt 4 2 = 0 at this
      rw [this]
  have xo : s1.xopt = s'.xopt ∧ s1.sl = s'.sl ∧ s1.su = s'.su := by
    rw [es]
    unfold l20
    split_ifs <;> exact ⟨rfl, rfl, rfl⟩
  have lo : 0 ≤ s1.xopt 2 := by rw [xo.1, e3.xo]; exact rows _ e3.k1 e3.k2
  have wi := a3.1.xopt_within a3.2.1
  have hd : ∀ i, 1 ≤ i → i ≤ fourPar.n → boxStep s1 (downStep s1) i = s1.xopt i + (downStep s1).d i := by
    intro i i1 i2
    obtain ⟨w1, w2⟩ := wi i i1 i2
    unfold boxStep
    rw [if_neg (by show ¬ (0 : ℝ) = 1; norm_num), if_neg (by show ¬ (0 : ℝ) = -1; norm_num)]
    refine clamp_id ?_
    unfold downStep
    dsimp only
    by_cases e : i = 2
    · rw [if_pos e]
      subst e
      rw [xo.2.1, xo.2.2, b1, b2] at *
      constructor <;> linarith
    · rw [if_neg e, add_zero]; exact ⟨w1, w2⟩
  have dot2 : ∀ a b : Nat → ℝ, Powell.dot fourPar.n a b = a 1 * b 1 + a 2 * b 2 := by
    intro a b
    show ∑ i ∈ Finset.Icc 1 2, a i * b i = _
    rw [show Finset.Icc 1 2 = {1, 2} from rfl, Finset.sum_pair (by norm_num)]
  have qe : ∀ y, s'.quad fourPar y = s'.gopt 1 * y 1 + y 2 + 1 / 2 * s'.hq 1 1 * (y 1 * y 1) := by
    intro y
    unfold St.quad Newuoa.qval
    rw [Finset.sum_eq_zero fun k _ => by rw [e3.begun.pq k, zero_mul], zero_div, add_zero, dot2, g2]
    unfold Newuoa.hform
    show _ + ∑ j ∈ Finset.Icc 1 2, _ = _
    rw [show Finset.Icc 1 2 = {1, 2} from rfl, Finset.sum_pair (by norm_num), show Finset.Icc 1 1 = {1} from rfl, show Finset.Icc 1 2 = {1, 2} from rfl,
      Finset.sum_pair (by norm_num), Finset.sum_singleton, h12, h22, if_pos rfl]
    ring
  have hq : s1.quad fourPar (downStep s1).d < 0 := by
    have := l20_quad e3 (fun i => s'.xopt i + (downStep s1).d i)
    rw [← es, qe, qe, show (fun j => s'.xopt j + (downStep s1).d j - s1.xopt j) = (downStep s1).d from funext fun j => by rw [xo.1]; ring] at this
    rw [this]
    unfold downStep
    norm_num
  obtain ⟨s, q1, q2⟩ := trial_included four_valid rfl (fun _ x => x 2) (T := downStep) a3 a4 hd (by
    rw [a5, a6, dot2]
    unfold downStep fourPar
    norm_num) hq (by rw [a2]; unfold fourPar; norm_num)
  refine ⟨s, (l360 fourPar (fun _ x => x 2) s).2, ?_, ?_⟩
  · refine (run_add fourPar (fun _ x => x 2) downStep (fourPar.npt + 1) 3 _).trans ?_
    exact (congrArg (run fourPar (fun _ x => x 2) downStep 3) a1).trans q1
  · rcases q2 with q | q
    · left; rw [← q]
    · right; rw [← q]

/-- The second derivatives of a model. -/
theorem model_hess (p : Par ℝ) (s : St ℝ) : ∃ G, HasHess p.n (s.model p) G := by
  have := ((isQuadratic_quad p s).hess.choose_spec.shift (fun j => -(s.xbase j + s.xopt j))).add (hasHess_const p.n (s.fval s.kopt))
  refine ⟨_, (congrArg (fun z => HasHess p.n z _) (funext fun y => ?_)).mp this⟩
  unfold St.model
  simp only [← sub_eq_add_neg]
  ring

example (s0 : St ℝ) : ∃ s t G0 G1, run fourPar (fun _ x => x 2) downStep 8 (start (fun _ => 0) (fun _ => -10) (fun _ => 10) s0) = (.l360, s) ∧
    (l360 fourPar (fun _ x => x 2) s).2 = t ∧ HasHess 2 (s.model fourPar) G0 ∧ HasHess 2 (t.model fourPar) G1 ∧
    ((∀ e E, Passes fourPar t e E → frob 2 (fun i j => G1 i j - G0 i j) ≤ frob 2 (fun i j => E i j - G0 i j)) ∨ (∀ e E, Passes fourPar t e E → frob 2 G1 ≤ frob 2 E)) := by
  obtain ⟨s, t, h1, h2⟩ := four_run s0
  obtain ⟨G0, g0⟩ := model_hess fourPar s
  obtain ⟨G1, g1⟩ := model_hess fourPar t
  exact ⟨s, t, G0, G1, h1, by rcases h2 with q | q <;> rw [q], g0, g1,
    (bobyqa_least_frobenius four_valid (fun x => x 2) downStep four_ready s0 h1 (Steady.single rfl _ _ _ _) h2 g0 g1).2⟩

example (s0 : St ℝ) (f : (Nat → ℝ) → ℝ) (T : St ℝ → Trs ℝ) : ∃ s G, run fourPar (fun _ => f) T 5 (start (fun _ => 0) (fun _ => -10) (fun _ => 10) s0) = (.l60, s) ∧
    HasHess 2 (s.model fourPar) G ∧ ∀ e E, Passes fourPar s e E → frob 2 G ≤ frob 2 E := by
  obtain ⟨s, h1, -, h2⟩ := bobyqa_first_least four_valid (by unfold fourPar; norm_num) f T four_ready s0
  obtain ⟨G, g⟩ := model_hess fourPar s
  exact ⟨s, G, h1, g, h2 G g⟩

/-- **C94.**  The same for `bobyqa_optimize`, where the model is that of the function which is minimized, with the scaled variables. -/
theorem optimize_least {a : Args ℝ} {s0 : St ℝ} {p : Par ℝ} {scl : Option (Nat → ℝ)} {ls : Lab × St ℝ} (ha : prepare a s0 = .inr (p, scl, ls))
    (f : (Nat → ℝ) → ℝ) (T : St ℝ → Trs ℝ) {fuel : Nat} {s : St ℝ} (hr : run p (objfun (fun _ => f) a.maximize scl) T fuel ls = (.l360, s))
    (he : Steady p (objfun (fun _ => f) a.maximize scl) T (fuel + 1) ls) {t : St ℝ}
    (hi : l360 p (objfun (fun _ => f) a.maximize scl) s = (.l60, t) ∨ l360 p (objfun (fun _ => f) a.maximize scl) s = (.l650, t))
    {G0 G1 : Nat → Nat → ℝ} (h0 : HasHess p.n (s.model p) G0) (h1 : HasHess p.n (t.model p) G1) :
    (∀ e E, Passes p t e E → frob p.n (fun i j => G1 i j - G0 i j) ≤ frob p.n (fun i j => E i j - G0 i j)) ∨
    (∀ e E, Passes p t e E → frob p.n G1 ≤ frob p.n E) := by
  obtain ⟨v, -⟩ := prepare_valid ha
  obtain ⟨-, -, -, -, x, sl, su, rfl, hrd⟩ := prepare_ready a s0 p scl ls ha
  exact (bobyqa_least_frobenius v (fun x => objfun (fun _ => f) a.maximize scl 0 x) T hrd s0 hr he hi h0 h1).2

end Opk.Bobyqa
