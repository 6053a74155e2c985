import Verif.Newuoa.Quad

/-!
# The Lagrange functions and the interpolation conditions of NEWUOA, in exact arithmetic
-/
namespace Opk.Newuoa
open Linalg CMath Cobyla Powell

set_option linter.unusedSectionVars false

variable {K : Type} [Field K] [LinearOrder K] [IsStrictOrderedRing K] [CMath K] [ExactMath K]

/-- The product of the inverse matrix by the column of the point `x`: the values at `x` of the Lagrange functions and of their gradients. -/
def hcolumn (p : Par K) (s : St K) (c : Nat → K) (x : Nat → K) (i : Nat) : K :=
  ∑ k ∈ Idx p.n p.npt, Hm p.npt c (omega p.nptm s.zmat) s.bmat i k * col p.n p.npt s.xpt x k

/-- The parameter `BETA` of the point `x`. -/
def betaOf (p : Par K) (s : St K) (c : Nat → K) (x : Nat → K) : K :=
  dot p.n x x * dot p.n x x / 2 - ∑ i ∈ Idx p.n p.npt, col p.n p.npt s.xpt x i * hcolumn p s c x i

/-- The values of the Lagrange functions have the sum 1. -/
theorem Good.sum_one {n npt : Nat} {pts om bm : Nat → Nat → K} {c : Nat → K} (h : Good n npt pts om bm c) (x : Nat → K) :
    ∑ i ∈ Finset.Icc 1 npt, ∑ k ∈ Idx n npt, Hm npt c om bm i k * col n npt pts x k = 1 := by
  rw [Finset.sum_comm]
  have e : ∀ k ∈ Idx n npt, ∑ i ∈ Finset.Icc 1 npt, Hm npt c om bm i k * col n npt pts x k = (if 0 = k then 1 else 0) * col n npt pts x k := by
    intro k hk
    rw [← Finset.sum_mul, ← h.inv 0 (mem_pt (Nat.zero_le _)) k hk, sum_idx, Wm_out (by omega) (by omega), zero_mul, zero_add]
    congr 1
    rw [eq_comm, add_eq_left.mpr]
    · refine Finset.sum_congr rfl fun i hi => ?_
      rw [Finset.mem_Icc] at hi
      rw [Wm_pt hi.1 hi.2, col_zero, one_mul]
    · refine Finset.sum_eq_zero fun j hj => ?_
      rw [Finset.mem_Icc] at hj
      rw [Wm_out (by omega) (by omega), zero_mul]
  rw [Finset.sum_congr rfl e, sum_delta (mem_pt (Nat.zero_le _)), col_zero]

/-! ### `VLAG` and `BETA` -/

/-- What changes in the column when `d` is added to `x`. -/
def dcol (p : Par K) (s : St K) (i : Nat) : K := if i = 0 then 0 else if i ≤ p.npt then wcheck p s i else s.d (i - p.npt)

theorem col_step (p : Par K) (s : St K) (i : Nat) (hi : i ∈ Idx p.n p.npt) :
    col p.n p.npt s.xpt (fun j => s.xopt j + s.d j) i = col p.n p.npt s.xpt s.xopt i + dcol p s i := by
  unfold dcol
  rcases idx_cases hi with rfl | ⟨i1, i2⟩ | ⟨j, rfl, j1, j2⟩
  · rw [if_pos rfl, col_zero, col_zero, add_zero]
  · rw [if_neg (by omega), if_pos i2, Powell.col_pt i1 i2, Powell.col_pt i1 i2, dot_add]
    unfold wcheck
    dsimp only
    rw [acc_dot, acc_dot, lit_half]
    ring
  · rw [if_neg (by omega), if_neg (by omega), col_grad j1, col_grad j1, Nat.add_sub_cancel_left]

/-- The product of the inverse matrix by the change of the column. -/
def hstep (p : Par K) (s : St K) (c : Nat → K) (i : Nat) : K := ∑ k ∈ Idx p.n p.npt, Hm p.npt c (omega p.nptm s.zmat) s.bmat i k * dcol p s k

theorem hstep_pt (p : Par K) (s : St K) (c : Nat → K) {i : Nat} (i1 : 1 ≤ i) (i2 : i ≤ p.npt) :
    hstep p s c i = ∑ k ∈ Finset.Icc 1 p.npt, omega p.nptm s.zmat i k * wcheck p s k + ∑ j ∈ Finset.Icc 1 p.n, s.bmat i j * s.d j := by
  unfold hstep
  rw [sum_idx, show dcol p s 0 = 0 from rfl, mul_zero, zero_add]
  congr 1
  · refine Finset.sum_congr rfl fun k hk => ?_
    rw [Finset.mem_Icc] at hk
    rw [Hm_pp i1 i2 hk.1 hk.2]
    unfold dcol
    rw [if_neg (by omega), if_pos hk.2]
  · refine Finset.sum_congr rfl fun j hj => ?_
    rw [Finset.mem_Icc] at hj
    rw [Hm_pg i1 i2 hj.1]
    unfold dcol
    rw [if_neg (by omega), if_neg (by omega), Nat.add_sub_cancel_left]

theorem hstep_grad (p : Par K) (s : St K) (c : Nat → K) {i : Nat} (i1 : 1 ≤ i) :
    hstep p s c (p.npt + i) = ∑ k ∈ Finset.Icc 1 p.npt, wcheck p s k * s.bmat k i + ∑ j ∈ Finset.Icc 1 p.n, s.bmat (p.npt + i) j * s.d j := by
  unfold hstep
  rw [sum_idx, show dcol p s 0 = 0 from rfl, mul_zero, zero_add]
  congr 1
  · refine Finset.sum_congr rfl fun k hk => ?_
    rw [Finset.mem_Icc] at hk
    rw [Hm_gp i1 hk.1 hk.2]
    unfold dcol
    rw [if_neg (by omega), if_pos hk.2, mul_comm]
  · refine Finset.sum_congr rfl fun j hj => ?_
    rw [Finset.mem_Icc] at hj
    rw [Hm_gg i1 hj.1]
    unfold dcol
    rw [if_neg (by omega), if_neg (by omega), Nat.add_sub_cancel_left]

/-- The components of the loop over the columns of `ZMAT`. -/
theorem lagrange_fold (p : Par K) (s : St K) (hid : s.idz = 1) (w v : Nat → K) :
    (up p.nptm (fun k (t : K × (Nat → K)) =>
      let sum := acc p.npt (fun i => s.zmat i k * w i) 0
      (if k < s.idz then t.1 + sum * sum else t.1 - sum * sum, fun i => t.2 i + signed s.idz k sum * s.zmat i k)) ((0 : K), v)).1
      = -∑ i ∈ Finset.Icc 1 p.npt, ∑ l ∈ Finset.Icc 1 p.npt, w i * omega p.nptm s.zmat i l * w l ∧
    ∀ i, (up p.nptm (fun k (t : K × (Nat → K)) =>
      let sum := acc p.npt (fun i => s.zmat i k * w i) 0
      (if k < s.idz then t.1 + sum * sum else t.1 - sum * sum, fun i => t.2 i + signed s.idz k sum * s.zmat i k)) ((0 : K), v)).2 i
      = v i + ∑ l ∈ Finset.Icc 1 p.npt, omega p.nptm s.zmat i l * w l := by
  have e1 : ∀ m, ∑ i ∈ Finset.Icc 1 p.npt, ∑ l ∈ Finset.Icc 1 p.npt, w i * omega m s.zmat i l * w l
      = ∑ k ∈ Finset.Icc 1 m, (∑ i ∈ Finset.Icc 1 p.npt, s.zmat i k * w i) * (∑ i ∈ Finset.Icc 1 p.npt, s.zmat i k * w i) := by
    intro m
    symm
    simp only [Finset.sum_mul_sum]
    rw [Finset.sum_comm]
    refine Finset.sum_congr rfl fun i _ => ?_
    rw [Finset.sum_comm]
    refine Finset.sum_congr rfl fun l _ => ?_
    unfold omega
    rw [Finset.mul_sum, Finset.sum_mul]
    exact Finset.sum_congr rfl fun k _ => by ring
  have e2 : ∀ m i, ∑ l ∈ Finset.Icc 1 p.npt, omega m s.zmat i l * w l = ∑ k ∈ Finset.Icc 1 m, (∑ l ∈ Finset.Icc 1 p.npt, s.zmat l k * w l) * s.zmat i k := by
    intro m i
    simp only [omega, Finset.sum_mul]
    rw [Finset.sum_comm]
    exact Finset.sum_congr rfl fun k _ => Finset.sum_congr rfl fun l _ => by ring
  rw [e1]
  simp only [e2]
  refine up_inv (fun m (t : K × (Nat → K)) => t.1 = -∑ k ∈ Finset.Icc 1 m, (∑ i ∈ Finset.Icc 1 p.npt, s.zmat i k * w i) * (∑ i ∈ Finset.Icc 1 p.npt, s.zmat i k * w i) ∧
    ∀ i, t.2 i = v i + ∑ k ∈ Finset.Icc 1 m, (∑ l ∈ Finset.Icc 1 p.npt, s.zmat l k * w l) * s.zmat i k) p.nptm ⟨by simp, fun i => by simp⟩ ?_
  rintro k hk t ⟨q1, q2⟩
  dsimp only
  rw [acc_zero, hid, if_neg (by omega), q1]
  refine ⟨?_, fun i => ?_⟩
  · rw [Finset.sum_Icc_succ_top (by omega)]; ring
  · unfold signed
    rw [if_neg (by omega), q2, Finset.sum_Icc_succ_top (by omega), add_assoc]

/-- `VLAG` and `BETA` are those of the new point. -/
theorem lagrange_spec (p : Par K) (s : St K) (hid : s.idz = 1) {c : Nat → K} (h : Good p.n p.npt s.xpt (omega p.nptm s.zmat) s.bmat c)
    (k1 : 1 ≤ s.kopt) (k2 : s.kopt ≤ p.npt) (hx : s.xopt = s.xpt s.kopt) (hq : s.xoptsq = dot p.n s.xopt s.xopt) (hd : s.dsq = dot p.n s.d s.d) :
    (∀ i, 1 ≤ i → i ≤ p.npt + p.n → (lagrange p s).vlag i = hcolumn p s c (fun j => s.xopt j + s.d j) i) ∧
    (lagrange p s).beta = betaOf p s c (fun j => s.xopt j + s.d j) := by
  obtain ⟨f1, f2⟩ := lagrange_fold p s hid (wcheck p s) (fun k => acc p.n (fun j => s.bmat k j * s.d j) 0)
  have hc : ∀ i ∈ Idx p.n p.npt, hcolumn p s c (fun j => s.xopt j + s.d j) i = (if i = s.kopt then 1 else 0) + hstep p s c i := by
    intro i hi
    rw [← h.col_pt k1 k2 hi, ← hx]
    unfold hcolumn hstep
    rw [← Finset.sum_add_distrib]
    refine Finset.sum_congr rfl fun k hk => ?_
    rw [col_step p s k hk, mul_add]
  -- the elements of the product before the addition of 1
  have base : ∀ i, 1 ≤ i → i ≤ p.npt + p.n → (if i ≤ p.npt then (up p.nptm (fun k (t : K × (Nat → K)) =>
      let sum := acc p.npt (fun i => s.zmat i k * wcheck p s i) 0
      (if k < s.idz then t.1 + sum * sum else t.1 - sum * sum, fun i => t.2 i + signed s.idz k sum * s.zmat i k)) ((0 : K), fun k => acc p.n (fun j => s.bmat k j * s.d j) 0)).2 i
      else acc p.n (fun k => s.bmat (p.npt + (i - p.npt)) k * s.d k) (acc p.npt (fun l => wcheck p s l * s.bmat l (i - p.npt)) 0)) = hstep p s c i := by
    intro i i1 i2
    split_ifs with q
    · rw [f2, hstep_pt p s c i1 q, acc_zero, add_comm]
    · obtain ⟨j, rfl⟩ : ∃ j, i = p.npt + j := ⟨i - p.npt, by omega⟩
      rw [Nat.add_sub_cancel_left, acc_eq, acc_zero, hstep_grad p s c (by omega)]
  constructor
  · intro i i1 i2
    rw [hc i (by rw [Idx, Finset.mem_range]; omega)]
    show set1 (fun k => if k ≤ p.npt then _ else _) s.kopt _ i = _
    unfold set1
    by_cases q : i = s.kopt
    · rw [if_pos q, if_pos q, ← q]
      exact (congrArg (· + 1) (base i i1 i2)).trans (add_comm _ _)
    · rw [if_neg q, if_neg q, zero_add]
      exact base i i1 i2
  · -- the quadratic form of the change
    have quad : ∑ i ∈ Idx p.n p.npt, dcol p s i * hstep p s c i
        = ∑ i ∈ Finset.Icc 1 p.npt, ∑ l ∈ Finset.Icc 1 p.npt, wcheck p s i * omega p.nptm s.zmat i l * wcheck p s l
        + acc p.n (fun j => acc p.npt (fun i => wcheck p s i * s.bmat i j) 0 * s.d j
          + acc p.n (fun k => s.bmat (p.npt + j) k * s.d k) (acc p.npt (fun i => wcheck p s i * s.bmat i j) 0) * s.d j) 0 := by
      rw [sum_idx, show dcol p s 0 = 0 from rfl, zero_mul, zero_add]
      have a1 : ∑ i ∈ Finset.Icc 1 p.npt, dcol p s i * hstep p s c i
          = ∑ i ∈ Finset.Icc 1 p.npt, ∑ l ∈ Finset.Icc 1 p.npt, wcheck p s i * omega p.nptm s.zmat i l * wcheck p s l
          + ∑ j ∈ Finset.Icc 1 p.n, (∑ i ∈ Finset.Icc 1 p.npt, wcheck p s i * s.bmat i j) * s.d j := by
        have : ∑ j ∈ Finset.Icc 1 p.n, (∑ i ∈ Finset.Icc 1 p.npt, wcheck p s i * s.bmat i j) * s.d j
            = ∑ i ∈ Finset.Icc 1 p.npt, ∑ j ∈ Finset.Icc 1 p.n, wcheck p s i * (s.bmat i j * s.d j) := by
          simp only [Finset.sum_mul]
          rw [Finset.sum_comm]
          exact Finset.sum_congr rfl fun i _ => Finset.sum_congr rfl fun j _ => by ring
        rw [this, ← Finset.sum_add_distrib]
        refine Finset.sum_congr rfl fun i hi => ?_
        rw [Finset.mem_Icc] at hi
        rw [hstep_pt p s c hi.1 hi.2, show dcol p s i = wcheck p s i by unfold dcol; rw [if_neg (by omega), if_pos hi.2], mul_add, Finset.mul_sum, Finset.mul_sum]
        congr 1
        exact Finset.sum_congr rfl fun l _ => by ring
      have a2 : ∑ j ∈ Finset.Icc 1 p.n, dcol p s (p.npt + j) * hstep p s c (p.npt + j)
          = ∑ j ∈ Finset.Icc 1 p.n, ((∑ i ∈ Finset.Icc 1 p.npt, wcheck p s i * s.bmat i j) + ∑ k ∈ Finset.Icc 1 p.n, s.bmat (p.npt + j) k * s.d k) * s.d j := by
        refine Finset.sum_congr rfl fun j hj => ?_
        rw [Finset.mem_Icc] at hj
        rw [hstep_grad p s c hj.1, show dcol p s (p.npt + j) = s.d j by unfold dcol; rw [if_neg (by omega), if_neg (by omega), Nat.add_sub_cancel_left], mul_comm]
      rw [a1, a2, acc_zero, add_assoc, ← Finset.sum_add_distrib]
      congr 1
      refine Finset.sum_congr rfl fun j _ => ?_
      simp only [acc_eq, zero_add]
    have kk : s.kopt ∈ Idx p.n p.npt := mem_pt k2
    -- the quadratic form of the new column
    have tot : ∑ i ∈ Idx p.n p.npt, col p.n p.npt s.xpt (fun j => s.xopt j + s.d j) i * hcolumn p s c (fun j => s.xopt j + s.d j) i
        = col p.n p.npt s.xpt s.xopt s.kopt + 2 * dcol p s s.kopt + ∑ i ∈ Idx p.n p.npt, dcol p s i * hstep p s c i := by
      have b1 : ∑ i ∈ Idx p.n p.npt, (col p.n p.npt s.xpt s.xopt i + dcol p s i) * (if i = s.kopt then 1 else 0) = col p.n p.npt s.xpt s.xopt s.kopt + dcol p s s.kopt := by
        have := sum_delta kk (fun i => col p.n p.npt s.xpt s.xopt i + dcol p s i)
        rw [← this]
        refine Finset.sum_congr rfl fun i _ => ?_
        rw [mul_comm]
        by_cases q : i = s.kopt
        · rw [if_pos q, if_pos q.symm]
        · rw [if_neg q, if_neg (Ne.symm q)]
      have b2 : ∑ i ∈ Idx p.n p.npt, col p.n p.npt s.xpt s.xopt i * hstep p s c i = dcol p s s.kopt := by
        unfold hstep
        simp only [Finset.mul_sum]
        rw [Finset.sum_comm]
        have : ∀ k ∈ Idx p.n p.npt, ∑ i ∈ Idx p.n p.npt, col p.n p.npt s.xpt s.xopt i * (Hm p.npt c (omega p.nptm s.zmat) s.bmat i k * dcol p s k)
            = (if s.kopt = k then 1 else 0) * dcol p s k := by
          intro k hk
          have e := h.col_pt k1 k2 hk
          rw [← hx] at e
          rw [show (if s.kopt = k then (1 : K) else 0) = if k = s.kopt then 1 else 0 by simp [eq_comm], ← e, Finset.sum_mul]
          refine Finset.sum_congr rfl fun i hi => ?_
          rw [h.hsym k hk i hi]; ring
        rw [Finset.sum_congr rfl this, sum_delta kk]
      have b3 : ∑ i ∈ Idx p.n p.npt, col p.n p.npt s.xpt (fun j => s.xopt j + s.d j) i * hcolumn p s c (fun j => s.xopt j + s.d j) i
          = ∑ i ∈ Idx p.n p.npt, (col p.n p.npt s.xpt s.xopt i + dcol p s i) * (if i = s.kopt then 1 else 0)
          + (∑ i ∈ Idx p.n p.npt, col p.n p.npt s.xpt s.xopt i * hstep p s c i + ∑ i ∈ Idx p.n p.npt, dcol p s i * hstep p s c i) := by
        rw [← Finset.sum_add_distrib, ← Finset.sum_add_distrib]
        refine Finset.sum_congr rfl fun i hi => ?_
        rw [hc i hi, col_step p s i hi]; ring
      rw [b3, b1, b2]; ring
    unfold betaOf
    rw [tot, quad]
    show acc p.n (fun j => s.d j * s.xopt j) 0 * acc p.n (fun j => s.d j * s.xopt j) 0
      + s.dsq * (s.xoptsq + acc p.n (fun j => s.d j * s.xopt j) 0 + acc p.n (fun j => s.d j * s.xopt j) 0 + lit 1 2 * s.dsq) + _ - _ = _
    rw [f1, acc_dot, hq, hd, lit_half, dot_add, Powell.col_pt k1 k2, ← hx]
    have dk : dcol p s s.kopt = dot p.n s.xopt s.d * (1 / 2 * dot p.n s.xopt s.d + dot p.n s.xopt s.xopt) := by
      unfold dcol wcheck
      rw [if_neg (by omega), if_pos k2, ← hx]
      dsimp only
      rw [acc_dot, acc_dot, lit_half]
    have d2 : dot p.n (fun j => s.xopt j + s.d j) s.xopt = dot p.n s.xopt s.xopt + dot p.n s.d s.xopt := by
      rw [dot_comm, dot_add, dot_comm p.n s.xopt s.d]
    have d3 : dot p.n (fun j => s.xopt j + s.d j) s.d = dot p.n s.d s.xopt + dot p.n s.d s.d := by
      rw [dot_comm, dot_add]
    rw [dk, d2, d3, dot_comm p.n s.xopt s.d]
    ring

end Opk.Newuoa
