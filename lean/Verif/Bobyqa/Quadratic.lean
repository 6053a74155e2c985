import Verif.Bobyqa.Trust
import Verif.Bobyqa.Begin

/-!
# The quadratic model of BOBYQA, in exact arithmetic

The gradient `GOPT` is the gradient of the model at the best point `XOPT`.
-/
set_option linter.unusedSectionVars false
namespace Opk.Bobyqa
open Linalg CMath Cobyla Powell
open Newuoa (omega hform qval hform_congr)

section
variable {K : Type} [Field K] [LinearOrder K] [IsStrictOrderedRing K] [CMath K] [ExactMath K]

/-- The change of the quadratic model, without its constant, for the displacement `y` from the point where the gradient is
`GOPT`. -/
def St.quad (p : Par K) (s : St K) (y : Nat → K) : K := qval p.n p.npt s.xpt s.gopt s.hq s.pq y

theorem hform_sym (n : Nat) (hq : Nat → Nat → K) (y : Nat → K) :
    hform n hq y = (∑ i ∈ Finset.Icc 1 n, ∑ j ∈ Finset.Icc 1 n, hq (min i j) (max i j) * (y i * y j)) / 2 := by
  have e := Newuoa.tri n (fun i j => hq (min i j) (max i j) * (y i * y j) / 2)
  rw [Finset.sum_div, Finset.sum_congr rfl (fun i _ => Finset.sum_div _ _ _), ← e]
  unfold Newuoa.hform
  refine Finset.sum_congr rfl fun j _ => Finset.sum_congr rfl fun i hi => ?_
  rw [Finset.mem_Icc] at hi
  rw [min_eq_left hi.2, max_eq_right hi.2, min_eq_right hi.2, max_eq_left hi.2]
  ring

theorem hform_add (n : Nat) (hq : Nat → Nat → K) (z v : Nat → K) :
    hform n hq (fun i => z i + v i) = hform n hq z + hform n hq v + Powell.dot n (fun i => ∑ j ∈ Finset.Icc 1 n, hq (min i j) (max i j) * v j) z := by
  rw [hform_sym, hform_sym, hform_sym]
  have c1 : Powell.dot n (fun i => ∑ j ∈ Finset.Icc 1 n, hq (min i j) (max i j) * v j) z = ∑ i ∈ Finset.Icc 1 n, ∑ j ∈ Finset.Icc 1 n, hq (min i j) (max i j) * (z i * v j) := by
    unfold Powell.dot
    refine Finset.sum_congr rfl fun i _ => ?_
    rw [Finset.sum_mul]
    exact Finset.sum_congr rfl fun j _ => by ring
  have c2 : ∑ i ∈ Finset.Icc 1 n, ∑ j ∈ Finset.Icc 1 n, hq (min i j) (max i j) * (v i * z j) = ∑ i ∈ Finset.Icc 1 n, ∑ j ∈ Finset.Icc 1 n, hq (min i j) (max i j) * (z i * v j) := by
    rw [Finset.sum_comm]
    refine Finset.sum_congr rfl fun i _ => Finset.sum_congr rfl fun j _ => ?_
    rw [min_comm, max_comm]; ring
  have c3 : ∑ i ∈ Finset.Icc 1 n, ∑ j ∈ Finset.Icc 1 n, hq (min i j) (max i j) * ((z i + v i) * (z j + v j))
      = ∑ i ∈ Finset.Icc 1 n, ∑ j ∈ Finset.Icc 1 n, hq (min i j) (max i j) * (z i * z j) + ∑ i ∈ Finset.Icc 1 n, ∑ j ∈ Finset.Icc 1 n, hq (min i j) (max i j) * (v i * v j)
      + ∑ i ∈ Finset.Icc 1 n, ∑ j ∈ Finset.Icc 1 n, hq (min i j) (max i j) * (z i * v j) + ∑ i ∈ Finset.Icc 1 n, ∑ j ∈ Finset.Icc 1 n, hq (min i j) (max i j) * (v i * z j) := by
    simp only [← Finset.sum_add_distrib]
    exact Finset.sum_congr rfl fun i _ => Finset.sum_congr rfl fun j _ => by ring
  rw [c1, c3, c2]
  ring

theorem dot_left (n : Nat) (x y z : Nat → K) : Powell.dot n (fun i => x i + y i) z = Powell.dot n x z + Powell.dot n y z := by
  rw [Powell.dot_comm, Powell.dot_add, Powell.dot_comm, Powell.dot_comm n z y]

theorem addPoints_eq (n npt : Nat) (xpt : Nat → Nat → K) (pq v g : Nat → K) (i : Nat) :
    addPoints n npt xpt pq v g i = g i + ∑ k ∈ Finset.Icc 1 npt, Powell.dot n (xpt k) v * pq k * xpt k i := by
  unfold addPoints
  refine up_inv (fun m (u : Nat → K) => u i = g i + ∑ k ∈ Finset.Icc 1 m, Powell.dot n (xpt k) v * pq k * xpt k i) npt (by simp) ?_
  intro m hm u hu
  show u i + acc n (fun j => xpt (m + 1) j * v j) 0 * pq (m + 1) * xpt (m + 1) i = _
  rw [hu, Finset.sum_Icc_succ_top (by omega), acc_eq, zero_add, add_assoc]
  rfl

/-- The sum with the points is bilinear. -/
theorem psum_add (n npt : Nat) (xpt : Nat → Nat → K) (pq z v : Nat → K) :
    (∑ k ∈ Finset.Icc 1 npt, pq k * (Powell.dot n (xpt k) (fun i => z i + v i) * Powell.dot n (xpt k) (fun i => z i + v i))) / 2
      = (∑ k ∈ Finset.Icc 1 npt, pq k * (Powell.dot n (xpt k) z * Powell.dot n (xpt k) z)) / 2 + (∑ k ∈ Finset.Icc 1 npt, pq k * (Powell.dot n (xpt k) v * Powell.dot n (xpt k) v)) / 2
      + Powell.dot n (fun i => ∑ k ∈ Finset.Icc 1 npt, Powell.dot n (xpt k) v * pq k * xpt k i) z := by
  have e : Powell.dot n (fun i => ∑ k ∈ Finset.Icc 1 npt, Powell.dot n (xpt k) v * pq k * xpt k i) z = ∑ k ∈ Finset.Icc 1 npt, pq k * (Powell.dot n (xpt k) v * Powell.dot n (xpt k) z) := by
    have e1 : ∀ k, pq k * (Powell.dot n (xpt k) v * Powell.dot n (xpt k) z) = ∑ i ∈ Finset.Icc 1 n, Powell.dot n (xpt k) v * pq k * xpt k i * z i := by
      intro k
      rw [show pq k * (Powell.dot n (xpt k) v * Powell.dot n (xpt k) z) = Powell.dot n (xpt k) v * pq k * Powell.dot n (xpt k) z by ring]
      generalize Powell.dot n (xpt k) v * pq k = a
      unfold Powell.dot
      rw [Finset.mul_sum]
      exact Finset.sum_congr rfl fun i _ => by ring
    rw [Finset.sum_congr rfl (fun k _ => e1 k), Finset.sum_comm]
    exact Finset.sum_congr rfl fun i _ => Finset.sum_mul _ _ _
  rw [e, ← add_div, ← Finset.sum_add_distrib, Finset.sum_div, Finset.sum_div, ← Finset.sum_add_distrib]
  refine Finset.sum_congr rfl fun k _ => ?_
  rw [dot_add]; ring

/-- The gradient at another point. -/
theorem qval_recenter (n npt : Nat) (xpt : Nat → Nat → K) (pq g g' v : Nat → K) (hq : Nat → Nat → K)
    (hg : ∀ i, 1 ≤ i → i ≤ n → g' i = g i + ∑ j ∈ Finset.Icc 1 n, hq (min i j) (max i j) * v j + ∑ k ∈ Finset.Icc 1 npt, Powell.dot n (xpt k) v * pq k * xpt k i) (z : Nat → K) :
    qval n npt xpt g' hq pq z = qval n npt xpt g hq pq (fun i => z i + v i) - qval n npt xpt g hq pq v := by
  unfold Newuoa.qval
  rw [Newuoa.dot_congr (x' := fun i => (g i + ∑ j ∈ Finset.Icc 1 n, hq (min i j) (max i j) * v j) + ∑ k ∈ Finset.Icc 1 npt, Powell.dot n (xpt k) v * pq k * xpt k i) hg (fun _ _ _ => rfl),
    dot_left, dot_left, hform_add, psum_add, Powell.dot_add]
  ring

theorem qval_zero (n npt : Nat) (xpt : Nat → Nat → K) (pq g : Nat → K) (hq : Nat → Nat → K) {z : Nat → K} (hz : ∀ i, 1 ≤ i → i ≤ n → z i = 0) :
    qval n npt xpt g hq pq z = 0 := by
  have d : ∀ x, Powell.dot n x z = 0 := fun x => Finset.sum_eq_zero fun i hi => by rw [Finset.mem_Icc] at hi; rw [hz i hi.1 hi.2, mul_zero]
  unfold Newuoa.qval Newuoa.hform
  rw [d, Finset.sum_eq_zero, Finset.sum_eq_zero]
  · ring
  · intro k _; rw [d]; ring
  · intro j hj
    refine Finset.sum_eq_zero fun i hi => ?_
    rw [Finset.mem_Icc] at hj
    rw [hz j hj.1 hj.2]; ring

/-! ### What the iterations keep -/

/-- The arrays `BMAT` and `ZMAT` hold the inverse matrix. -/
def Inverse (p : Par K) (s : St K) : Prop := ∃ c, Good p.n p.npt s.xpt (omega p.nptm s.zmat) s.bmat c

/-- The model, with its gradient at `XOPT`, takes the values `FVAL` at the points. -/
def Interp (p : Par K) (s : St K) : Prop :=
  ∀ k, 1 ≤ k → k ≤ p.npt → s.quad p (fun j => s.xpt k j - s.xopt j) = s.fval k - s.fval s.kopt

/-- What the iterations keep. -/
structure Core (p : Par K) (s : St K) : Prop where
  inv : Inverse p s
  int : Interp p s
  xo : s.xopt = s.xpt s.kopt
  sq : s.xoptsq = Powell.dot p.n s.xopt s.xopt

theorem Core.same {p : Par K} {s t : St K} (h : Core p s) (e1 : t.xpt = s.xpt ∧ t.zmat = s.zmat ∧ t.bmat = s.bmat ∧ t.fval = s.fval ∧ t.gopt = s.gopt ∧ t.hq = s.hq ∧ t.pq = s.pq)
    (e2 : t.xopt = s.xopt ∧ t.kopt = s.kopt ∧ t.xoptsq = s.xoptsq) : Core p t := by
  obtain ⟨a1, a2, a3, a4, a5, a6, a7⟩ := e1
  obtain ⟨b1, b2, b3⟩ := e2
  obtain ⟨h1, h2, h3, h4⟩ := h
  refine ⟨?_, ?_, ?_, ?_⟩
  · unfold Inverse; rw [a1, a2, a3]; exact h1
  · intro k k1 k2
    have := h2 k k1 k2
    unfold St.quad at this ⊢
    rw [a1, a5, a6, a7, b1, a4, b2]
    exact this
  · rw [b1, a1, b2]; exact h3
  · rw [b3, b1]; exact h4

/-! ### The first iteration -/

/-- After the first points. -/
structure First (p : Par K) (s : St K) : Prop where
  begun : Begun p s
  all : s.nf = p.npt
  base : s.kbase = 1
  xo : s.xopt = s.xpt s.kopt
  sq : s.xoptsq = Powell.dot p.n s.xopt s.xopt
  k1 : 1 ≤ s.kopt
  k2 : s.kopt ≤ p.npt
  rho : s.rho = p.rhobeg
  delta : s.delta = p.rhobeg

theorem First.inv {p : Par K} (hp : Newuoa.Valid p.nw) (hsqrt : ∀ a : K, 0 ≤ a → 0 ≤ CMath.sqrt a ∧ CMath.sqrt a * CMath.sqrt a = a) {s : St K} (h : First p s) :
    Inverse p s := by
  have w := h.begun.arr
  rw [h.all] at w
  exact ⟨_, (w.axes hp hsqrt).good⟩

/-- The first model, with its gradient at the first point. -/
theorem First.value {p : Par K} (hp : Newuoa.Valid p.nw) {s : St K} (h : First p s) {k : Nat} (k1 : 1 ≤ k) (k2 : k ≤ p.npt) :
    s.quad p (s.xpt k) = s.fval k - s.fval 1 := by
  have w := h.begun.arr
  rw [h.all] at w
  rw [← w.value hp k1 k2]
  unfold St.quad Newuoa.qval
  rw [Finset.sum_eq_zero fun k _ => by rw [h.begun.pq k, zero_mul], zero_div, add_zero]

theorem first_l20 {p : Par K} (hp : Newuoa.Valid p.nw) (hsqrt : ∀ a : K, 0 ≤ a → 0 ≤ CMath.sqrt a ∧ CMath.sqrt a * CMath.sqrt a = a) {s : St K} (h : First p s) :
    (l20 p s).1 = .l60 ∧ Core p (l20 p s).2 := by
  have v := fun k (k1 : 1 ≤ k) (k2 : k ≤ p.npt) => h.value hp k1 k2
  unfold l20
  by_cases c : s.kopt ≠ s.kbase
  · rw [if_pos c]
    refine ⟨rfl, h.inv hp hsqrt, fun k k1 k2 => ?_, h.xo, h.sq⟩
    have e := qval_recenter p.n p.npt s.xpt s.pq s.gopt (addHess p.n s.hq s.xopt s.gopt) s.xopt s.hq (fun i i1 i2 => by
      have z : ∑ k ∈ Finset.Icc 1 p.npt, Powell.dot p.n (s.xpt k) s.xopt * s.pq k * s.xpt k i = 0 := Finset.sum_eq_zero fun k _ => by rw [h.begun.pq k, mul_zero, zero_mul]
      rw [addHess_eq p.n s.hq s.xopt s.gopt i i1 i2, z, add_zero]) (fun j => s.xpt k j - s.xopt j)
    show qval p.n p.npt s.xpt (if s.nf > p.npt then _ else addHess p.n s.hq s.xopt s.gopt) s.hq s.pq _ = _
    rw [if_neg (by rw [h.all]; exact lt_irrefl _), e]
    have q1 := v k k1 k2
    have q2 := v s.kopt h.k1 h.k2
    rw [← h.xo] at q2
    unfold St.quad at q1 q2
    rw [show (fun i => s.xpt k i - s.xopt i + s.xopt i) = s.xpt k from funext fun i => by ring, q1, q2]
    ring
  · rw [if_neg c]
    refine ⟨rfl, h.inv hp hsqrt, fun k k1 k2 => ?_, h.xo, h.sq⟩
    rw [not_not, h.base] at c
    have z : ∀ j, s.xopt j = 0 := by
      intro j
      rw [h.xo, c]
      have w := h.begun.arr
      rw [h.all] at w
      exact w.x1 j
    rw [show (fun j => s.xpt k j - s.xopt j) = s.xpt k from funext fun j => by rw [z j, sub_zero], v k k1 k2, c]

end
end Opk.Bobyqa
