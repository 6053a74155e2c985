import Verif.Bobyqa.Lagrange

/-!
# The shift of the origin in BOBYQA keeps the model and the inverse matrix, in exact arithmetic
-/
set_option linter.unusedSectionVars false
namespace Opk.Bobyqa
open Linalg CMath Cobyla Powell
open Newuoa (omega hform qval hform_congr omega_sym lit_half lit_quarter)

section
variable {K : Type} [Field K] [LinearOrder K] [IsStrictOrderedRing K] [CMath K] [ExactMath K]

theorem shiftSum_eq (p : Par K) (s : St K) (k : Nat) : shiftSum p s k = Powell.dot p.n (s.xpt k) s.xopt - 1 / 2 * s.xoptsq := by
  unfold shiftSum
  rw [acc_eq, lit_half]
  unfold Powell.dot
  ring

theorem shiftVec_eq (p : Par K) (s : St K) (hx : s.xoptsq = Powell.dot p.n s.xopt s.xopt) (k j : Nat) :
    shiftSum p s k * s.xpt k j + (s.xoptsq * lit 1 4 - lit 1 2 * shiftSum p s k) * s.xopt j = shiftVec p.n s.xpt s.xopt k j := by
  rw [shiftSum_eq, lit_half, lit_quarter, hx]
  unfold shiftVec
  ring

theorem shiftB1_spec (p : Par K) (s : St K) (hx : s.xoptsq = Powell.dot p.n s.xopt s.xopt) :
    (∀ a j, a ≤ p.npt → shiftB1 p s a j = s.bmat a j) ∧
    (∀ i j, 1 ≤ i → j ≤ i → shiftB1 p s (p.npt + i) j = s.bmat (p.npt + i) j + ∑ k ∈ Finset.Icc 1 p.npt,
      (s.bmat k i * shiftVec p.n s.xpt s.xopt k j + shiftVec p.n s.xpt s.xopt k i * s.bmat k j)) := by
  unfold shiftB1
  dsimp only
  simp only [shiftVec_eq p s hx]
  refine up_inv (fun m (t : Nat → Nat → K) => (∀ a j, a ≤ p.npt → t a j = s.bmat a j) ∧
    (∀ i j, 1 ≤ i → j ≤ i → t (p.npt + i) j = s.bmat (p.npt + i) j + ∑ k ∈ Finset.Icc 1 m,
      (s.bmat k i * shiftVec p.n s.xpt s.xopt k j + shiftVec p.n s.xpt s.xopt k i * s.bmat k j))) p.npt ⟨fun _ _ _ => rfl, fun _ _ _ _ => by simp⟩ ?_
  rintro k hk t ⟨q1, q2⟩
  refine ⟨fun a j ha => ?_, fun i j i1 ij => ?_⟩
  · rw [if_neg (by omega)]; exact q1 a j ha
  · rw [if_pos (by omega), Nat.add_sub_cancel_left, q2 i j i1 ij, q1 (k + 1) i (by omega), q1 (k + 1) j (by omega), Finset.sum_Icc_succ_top (by omega)]
    ring

theorem shiftB2_spec (p : Par K) (s : St K) (hx : s.xoptsq = Powell.dot p.n s.xopt s.xopt) (b : Nat → Nat → K) :
    (∀ a j, a ≤ p.npt → shiftB2 p s b a j = b a j + ∑ k ∈ Finset.Icc 1 p.nptm,
      (∑ i ∈ Finset.Icc 1 p.npt, s.zmat i k * shiftVec p.n s.xpt s.xopt i j) * s.zmat a k) ∧
    (∀ i j, 1 ≤ i → j ≤ i → shiftB2 p s b (p.npt + i) j = b (p.npt + i) j + ∑ k ∈ Finset.Icc 1 p.nptm,
      (∑ l ∈ Finset.Icc 1 p.npt, s.zmat l k * shiftVec p.n s.xpt s.xopt l i) * (∑ l ∈ Finset.Icc 1 p.npt, s.zmat l k * shiftVec p.n s.xpt s.xopt l j)) := by
  unfold shiftB2
  have vl : ∀ k j, acc p.npt (fun i => shiftSum p s i * s.zmat i k * s.xpt i j)
      ((s.xoptsq * lit 1 4 * acc p.npt (fun i => s.zmat i k) 0 - lit 1 2 * acc p.npt (fun i => shiftSum p s i * s.zmat i k) 0) * s.xopt j)
      = ∑ i ∈ Finset.Icc 1 p.npt, s.zmat i k * shiftVec p.n s.xpt s.xopt i j := by
    intro k j
    rw [acc_eq, acc_eq, acc_eq, zero_add, zero_add, Finset.mul_sum, Finset.mul_sum, ← Finset.sum_sub_distrib, Finset.sum_mul, ← Finset.sum_add_distrib]
    exact Finset.sum_congr rfl fun i _ => by rw [← shiftVec_eq p s hx]; ring
  refine up_inv (fun m (t : Nat → Nat → K) => (∀ a j, a ≤ p.npt → t a j = b a j + ∑ k ∈ Finset.Icc 1 m,
      (∑ i ∈ Finset.Icc 1 p.npt, s.zmat i k * shiftVec p.n s.xpt s.xopt i j) * s.zmat a k) ∧
    (∀ i j, 1 ≤ i → j ≤ i → t (p.npt + i) j = b (p.npt + i) j + ∑ k ∈ Finset.Icc 1 m,
      (∑ l ∈ Finset.Icc 1 p.npt, s.zmat l k * shiftVec p.n s.xpt s.xopt l i) * (∑ l ∈ Finset.Icc 1 p.npt, s.zmat l k * shiftVec p.n s.xpt s.xopt l j)))
    p.nptm ⟨fun _ _ _ => by simp, fun _ _ _ _ => by simp⟩ ?_
  rintro k hk t ⟨q1, q2⟩
  dsimp only
  refine ⟨fun a j ha => ?_, fun i j i1 ij => ?_⟩
  · rw [if_pos ha, vl, q1 a j ha, Finset.sum_Icc_succ_top (by omega), add_assoc]
  · rw [if_neg (by omega), Nat.add_sub_cancel_left, if_pos ij, vl, vl, q2 i j i1 ij, Finset.sum_Icc_succ_top (by omega), add_assoc]

/-- The inverse matrix after the shift. -/
theorem shift_good (p : Par K) (s : St K) (hx : s.xoptsq = Powell.dot p.n s.xopt s.xopt) (h : Inverse p s) : Inverse p (shift p s) := by
  obtain ⟨c, h⟩ := h
  obtain ⟨a1, a2⟩ := shiftB1_spec p s hx
  obtain ⟨b1, b2⟩ := shiftB2_spec p s hx (shiftB1 p s)
  have e2 : ∀ i j, 1 ≤ i → i ≤ p.npt → (shift p s).bmat i j = s.bmat i j + ∑ k ∈ Finset.Icc 1 p.npt, omega p.nptm s.zmat i k * shiftVec p.n s.xpt s.xopt k j := by
    intro i j i1 i2
    show (if p.npt < i ∧ i - p.npt ≤ j then _ else shiftB2 p s (shiftB1 p s) i j) = _
    rw [if_neg (by omega), b1 i j i2, a1 i j i2]
    congr 1
    simp only [omega, Finset.sum_mul]
    rw [Finset.sum_comm]
    exact Finset.sum_congr rfl fun k _ => Finset.sum_congr rfl fun l _ => by ring
  have low : ∀ i j, 1 ≤ i → i ≤ p.n → 1 ≤ j → j ≤ i → shiftB2 p s (shiftB1 p s) (p.npt + i) j = s.bmat (p.npt + i) j
      + ∑ k ∈ Finset.Icc 1 p.npt, (s.bmat k i * shiftVec p.n s.xpt s.xopt k j + shiftVec p.n s.xpt s.xopt k i * s.bmat k j)
      + ∑ k ∈ Finset.Icc 1 p.npt, ∑ l ∈ Finset.Icc 1 p.npt, shiftVec p.n s.xpt s.xopt k i * omega p.nptm s.zmat k l * shiftVec p.n s.xpt s.xopt l j := by
    intro i j i1 i2 j1 ij
    rw [b2 i j i1 ij, a2 i j i1 ij]
    congr 1
    simp only [Finset.sum_mul_sum]
    rw [Finset.sum_comm]
    refine Finset.sum_congr rfl fun k _ => ?_
    rw [Finset.sum_comm]
    refine Finset.sum_congr rfl fun l _ => ?_
    unfold omega
    rw [Finset.mul_sum, Finset.sum_mul]
    exact Finset.sum_congr rfl fun m _ => by ring
  have e3 : ∀ i j, 1 ≤ i → i ≤ p.n → 1 ≤ j → j ≤ p.n → (shift p s).bmat (p.npt + i) j = s.bmat (p.npt + i) j
      + ∑ k ∈ Finset.Icc 1 p.npt, (s.bmat k i * shiftVec p.n s.xpt s.xopt k j + shiftVec p.n s.xpt s.xopt k i * s.bmat k j)
      + ∑ k ∈ Finset.Icc 1 p.npt, ∑ l ∈ Finset.Icc 1 p.npt, shiftVec p.n s.xpt s.xopt k i * omega p.nptm s.zmat k l * shiftVec p.n s.xpt s.xopt l j := by
    intro i j i1 i2 j1 j2
    show (if p.npt < p.npt + i ∧ p.npt + i - p.npt ≤ j then shiftB2 p s (shiftB1 p s) (p.npt + j) (p.npt + i - p.npt)
      else shiftB2 p s (shiftB1 p s) (p.npt + i) j) = _
    rw [Nat.add_sub_cancel_left]
    by_cases q : i ≤ j
    · rw [if_pos ⟨by omega, q⟩, low j i j1 j2 i1 q, h.bsym i j i1 i2 j1 j2]
      congr 1
      · congr 1
        exact Finset.sum_congr rfl fun k _ => by ring
      · rw [Finset.sum_comm]
        refine Finset.sum_congr rfl fun k _ => Finset.sum_congr rfl fun l _ => ?_
        rw [omega_sym]; ring
    · rw [if_neg (by omega)]
      exact low i j i1 i2 j1 (by omega)
  exact Good.shift (pts' := fun k j => s.xpt k j - s.xopt j) (bm' := (shift p s).bmat) (s := s.xopt) h (fun _ _ _ _ => rfl) (fun i j i1 i2 _ _ => e2 i j i1 i2) e3

/-- The model is the same function of the displacement from `XOPT` after the shift. -/
theorem shift_model (p : Par K) (s : St K) (z : Nat → K) : (shift p s).quad p z = s.quad p z := by
  have w : ∀ j, acc p.npt (fun k => s.pq k * s.xpt k j) (-lit 1 2 * acc p.npt (fun k => s.pq k) 0 * s.xopt j)
      = ∑ k ∈ Finset.Icc 1 p.npt, s.pq k * (s.xpt k j - 1 / 2 * s.xopt j) := by
    intro j
    rw [acc_eq, acc_eq, zero_add, lit_half, Finset.mul_sum, Finset.sum_mul, ← Finset.sum_add_distrib]
    exact Finset.sum_congr rfl fun k _ => by ring
  have hh : hform p.n (shift p s).hq z = hform p.n s.hq z
      + Powell.dot p.n (fun j => ∑ k ∈ Finset.Icc 1 p.npt, s.pq k * (s.xpt k j - 1 / 2 * s.xopt j)) z * Powell.dot p.n s.xopt z := by
    rw [← Newuoa.hform_outer]
    refine hform_congr (fun i j i1 ij _ => ?_) (fun _ _ _ => rfl)
    show s.hq i j + acc p.npt (fun k => s.pq k * s.xpt k i) _ * s.xopt j + s.xopt i * acc p.npt (fun k => s.pq k * s.xpt k j) _ = _
    rw [w, w]
  have w2 : Powell.dot p.n (fun j => ∑ k ∈ Finset.Icc 1 p.npt, s.pq k * (s.xpt k j - 1 / 2 * s.xopt j)) z
      = ∑ k ∈ Finset.Icc 1 p.npt, s.pq k * (Powell.dot p.n (s.xpt k) z - 1 / 2 * Powell.dot p.n s.xopt z) := by
    unfold Powell.dot
    rw [Finset.sum_congr rfl (fun i _ => by rw [Finset.sum_mul]), Finset.sum_comm]
    refine Finset.sum_congr rfl fun k _ => ?_
    rw [Finset.mul_sum, ← Finset.sum_sub_distrib, Finset.mul_sum]
    exact Finset.sum_congr rfl fun i _ => by ring
  have dx : ∀ k, Powell.dot p.n ((shift p s).xpt k) z = Powell.dot p.n (s.xpt k) z - Powell.dot p.n s.xopt z := by
    intro k
    unfold Powell.dot
    rw [← Finset.sum_sub_distrib]
    exact Finset.sum_congr rfl fun j _ => by show (s.xpt k j - s.xopt j) * z j = _; ring
  have i1 : ∑ k ∈ Finset.Icc 1 p.npt, (shift p s).pq k * (Powell.dot p.n ((shift p s).xpt k) z * Powell.dot p.n ((shift p s).xpt k) z)
      = ∑ k ∈ Finset.Icc 1 p.npt, s.pq k * ((Powell.dot p.n (s.xpt k) z - Powell.dot p.n s.xopt z) * (Powell.dot p.n (s.xpt k) z - Powell.dot p.n s.xopt z)) :=
    Finset.sum_congr rfl fun k hk => by rw [dx k]; rfl
  unfold St.quad Newuoa.qval
  rw [hh, w2, i1]
  have fin : (∑ k ∈ Finset.Icc 1 p.npt, s.pq k * (Powell.dot p.n (s.xpt k) z - 1 / 2 * Powell.dot p.n s.xopt z)) * Powell.dot p.n s.xopt z
      + (∑ k ∈ Finset.Icc 1 p.npt, s.pq k * ((Powell.dot p.n (s.xpt k) z - Powell.dot p.n s.xopt z) * (Powell.dot p.n (s.xpt k) z - Powell.dot p.n s.xopt z))) / 2
      = (∑ k ∈ Finset.Icc 1 p.npt, s.pq k * (Powell.dot p.n (s.xpt k) z * Powell.dot p.n (s.xpt k) z)) / 2 := by
    simp only [Finset.sum_mul, Finset.sum_div]
    rw [← Finset.sum_add_distrib]
    exact Finset.sum_congr rfl fun k _ => by ring
  show Powell.dot p.n s.gopt z + _ + _ = _
  linear_combination fin

theorem shift_core {p : Par K} {s : St K} (h : Core p s) : Core p (shift p s) := by
  refine ⟨shift_good p s h.sq h.inv, fun k k1 k2 => ?_, ?_, ?_⟩
  · rw [shift_model]
    have := h.int k k1 k2
    show s.quad p (fun j => s.xpt k j - s.xopt j - 0) = _
    simp only [sub_zero]
    exact this
  · funext j
    show 0 = s.xpt s.kopt j - s.xopt j
    rw [h.xo, sub_self]
  · show 0 = Powell.dot p.n (fun _ => 0) (fun _ => 0)
    unfold Powell.dot
    rw [Finset.sum_eq_zero fun _ _ => by ring]

end
end Opk.Bobyqa
