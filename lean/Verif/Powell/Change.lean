import Verif.Powell.Inverse

/-!
The inverse matrix when a point is replaced and when the origin is moved.
-/

namespace Opk.Powell

section
variable {K : Type} [Field K]

/-- The inverse of a symmetric matrix is symmetric. -/
theorem IsInv.symm {S : Finset Nat} {W H : Nat → Nat → K} (hW : Sym S W) (h : IsInv S W H) : Sym S H := by
  have key : ∀ i ∈ S, ∀ j ∈ S, ∑ k ∈ S, ∑ l ∈ S, H k i * W k l * H l j = H j i := by
    intro i hi j hj
    have : ∀ k ∈ S, ∑ l ∈ S, H k i * W k l * H l j = (if j = k then 1 else 0) * H k i := by
      intro k hk
      rw [show (if j = k then (1 : K) else 0) = if k = j then 1 else 0 by simp [eq_comm], ← h k hk j hj, Finset.sum_mul]
      exact Finset.sum_congr rfl fun l _ => by ring
    rw [Finset.sum_congr rfl this]
    exact sum_delta hj _
  intro i hi j hj
  rw [← key j hj i hi, ← key i hi j hj, Finset.sum_comm]
  exact Finset.sum_congr rfl fun k hk => Finset.sum_congr rfl fun l hl => by rw [hW l hl k hk]; ring

theorem idx_cases {n npt i : Nat} (h : i ∈ Idx n npt) : i = 0 ∨ (1 ≤ i ∧ i ≤ npt) ∨ ∃ j, i = npt + j ∧ 1 ≤ j ∧ j ≤ n := by
  rw [Idx, Finset.mem_range] at h
  by_cases a : i = 0
  · exact Or.inl a
  · by_cases b : i ≤ npt
    · exact Or.inr (Or.inl ⟨by omega, b⟩)
    · exact Or.inr (Or.inr ⟨i - npt, by omega, by omega, by omega⟩)

/-- The arrays hold the inverse as soon as their elements are those of the inverse. -/
theorem Good.of {n npt : Nat} {pts om bm H : Nat → Nat → K} (h : IsInv (Idx n npt) (Wm n npt pts) H) (hs : ∀ i j, om i j = om j i)
    (h1 : ∀ i j, 1 ≤ i → i ≤ npt → 1 ≤ j → j ≤ npt → om i j = H i j)
    (h2 : ∀ i j, 1 ≤ i → i ≤ npt → 1 ≤ j → j ≤ n → bm i j = H i (npt + j))
    (h3 : ∀ i j, 1 ≤ i → i ≤ n → 1 ≤ j → j ≤ n → bm (npt + i) j = H (npt + i) (npt + j)) : Good n npt pts om bm (H 0) := by
  have sy : Sym (Idx n npt) H := h.symm (fun i _ j _ => Wm_sym n npt pts i j)
  have e : ∀ i ∈ Idx n npt, ∀ j ∈ Idx n npt, Hm npt (H 0) om bm i j = H i j := by
    intro i hi j hj
    rcases idx_cases hi with rfl | ⟨i1, i2⟩ | ⟨i', rfl, i1, i2⟩
    · unfold Hm; rw [if_pos rfl]
    · rcases idx_cases hj with rfl | ⟨j1, j2⟩ | ⟨j', rfl, j1, j2⟩
      · unfold Hm; rw [if_neg (by omega), if_pos rfl, sy 0 hj i hi]
      · rw [Hm_pp i1 i2 j1 j2, h1 i j i1 i2 j1 j2]
      · rw [Hm_pg i1 i2 j1, h2 i j' i1 i2 j1 j2]
    · rcases idx_cases hj with rfl | ⟨j1, j2⟩ | ⟨j', rfl, j1, j2⟩
      · unfold Hm; rw [if_neg (by omega), if_pos rfl, sy 0 hj _ hi]
      · rw [Hm_gp i1 j1 j2, h2 j i' j1 j2 i1 i2, sy _ hj _ hi]
      · rw [Hm_gg i1 j1, h3 i' j' i1 i2 j1 j2]
  refine ⟨hs, fun i j i1 i2 j1 j2 => ?_, fun i hi j hj => ?_⟩
  · rw [h3 i j i1 i2 j1 j2, h3 j i j1 j2 i1 i2, sy _ (mem_grad i2) _ (mem_grad j2)]
  · rw [← h i hi j hj]
    exact Finset.sum_congr rfl fun k hk => by rw [e k hk j hj]

/-- The point `t` becomes `x`. -/
theorem Good.update {n npt : Nat} {pts om bm : Nat → Nat → K} {c : Nat → K} (h : Good n npt pts om bm c) {t : Nat} (t1 : 1 ≤ t) (t2 : t ≤ npt)
    {x v : Nat → K} (hv : ∀ i ∈ Idx n npt, v i = ∑ k ∈ Idx n npt, Hm npt c om bm i k * col n npt pts x k) {al be ta si : K}
    (hb : be = dot n x x * dot n x x / 2 - ∑ k ∈ Idx n npt, col n npt pts x k * v k) (hta : ta = v t) (hal : al = om t t)
    (hsi : si = al * be + ta * ta) (h0 : si ≠ 0) {pts' om' bm' : Nat → Nat → K} (hp : ∀ k, pts' k = if k = t then x else pts k)
    {a : Nat → K} (ha : ∀ i, 1 ≤ i → i ≤ npt + n → a i = (if t = i then 1 else 0) - v i)
    (hs : ∀ i j, om' i j = om' j i)
    (h1 : ∀ i j, 1 ≤ i → i ≤ npt → 1 ≤ j → j ≤ npt →
      om' i j = om i j + (al * (a i * a j) - be * (om i t * om j t) + ta * (om i t * a j + a i * om j t)) / si)
    (h2 : ∀ i j, 1 ≤ i → i ≤ npt → 1 ≤ j → j ≤ n →
      bm' i j = bm i j + (al * (a i * a (npt + j)) - be * (om i t * bm t j) + ta * (om i t * a (npt + j) + a i * bm t j)) / si)
    (h3 : ∀ i j, 1 ≤ i → i ≤ n → 1 ≤ j → j ≤ n →
      bm' (npt + i) j = bm (npt + i) j + (al * (a (npt + i) * a (npt + j)) - be * (bm t i * bm t j) + ta * (bm t i * a (npt + j) + a (npt + i) * bm t j)) / si) :
    ∃ c', Good n npt pts' om' bm' c' := by
  have base := IsInv.update (fun i _ j _ => Wm_sym n npt pts i j) h.hsym h.inv (mem_pt (n := n) t2) hv hb hta
    (hal.trans (Hm_pp t1 t2 t1 t2).symm) hsi h0 (fun i => if 1 ≤ i then a i else (if t = i then 1 else 0) - v i) (by
      intro i hi
      rw [Idx, Finset.mem_range] at hi
      split_ifs with q r
      · rw [ha i q (by omega), if_pos r]
      · rw [ha i q (by omega), if_neg r]
      · rfl
      · rfl)
  have inv' : IsInv (Idx n npt) (Wm n npt pts') (revised t al be ta si (fun i => if 1 ≤ i then a i else (if t = i then 1 else 0) - v i) (Hm npt c om bm)) := by
    intro i hi j hj
    rw [← base i hi j hj]
    exact Finset.sum_congr rfl fun k _ => by rw [Wm_move t1 t2 pts x pts' hp]
  refine ⟨_, Good.of inv' hs ?_ ?_ ?_⟩
  · intro i j i1 i2 j1 j2
    unfold revised
    dsimp only
    rw [if_pos i1, if_pos j1, Hm_pp i1 i2 j1 j2, Hm_pp i1 i2 t1 t2, Hm_pp j1 j2 t1 t2]
    exact h1 i j i1 i2 j1 j2
  · intro i j i1 i2 j1 j2
    unfold revised
    dsimp only
    rw [if_pos i1, if_pos (by omega), Hm_pg i1 i2 j1, Hm_pp i1 i2 t1 t2, Hm_gp j1 t1 t2]
    exact h2 i j i1 i2 j1 j2
  · intro i j i1 i2 j1 j2
    unfold revised
    dsimp only
    rw [if_pos (by omega), if_pos (by omega), Hm_gg i1 j1, Hm_gp i1 t1 t2, Hm_gp j1 t1 t2]
    exact h3 i j i1 i2 j1 j2

/-! ### The origin is moved -/

/-- The vectors of the change of origin. -/
def shiftVec (n : Nat) (pts : Nat → Nat → K) (s : Nat → K) (k j : Nat) : K :=
  (dot n (pts k) s - dot n s s / 2) * (pts k j - s j / 2) + dot n s s / 4 * s j

/-- The constants of the change of origin. -/
def shiftCst (n : Nat) (pts : Nat → Nat → K) (s : Nat → K) (k : Nat) : K :=
  -(dot n (pts k) s * dot n (pts k) s / 2) - dot n s s * dot n s s / 4 + dot n s s * dot n (pts k) s / 2

variable [CharZero K]

theorem shift_square (n : Nat) (pts pts' : Nat → Nat → K) (s : Nat → K) (hp : ∀ k j, 1 ≤ j → j ≤ n → pts' k j = pts k j - s j) (i k : Nat) :
    dot n (pts' i) (pts' k) * dot n (pts' i) (pts' k) / 2 + shiftCst n pts s k + dot n (shiftVec n pts s k) (pts i)
      = dot n (pts i) (pts k) * dot n (pts i) (pts k) / 2 - shiftCst n pts s i - dot n (shiftVec n pts s i) (pts k) := by
  have e1 : dot n (pts' i) (pts' k) = dot n (pts i) (pts k) - dot n (pts i) s - dot n (pts k) s + dot n s s := by
    unfold dot
    rw [← Finset.sum_sub_distrib, ← Finset.sum_sub_distrib, ← Finset.sum_add_distrib]
    refine Finset.sum_congr rfl fun j hj => ?_
    rw [Finset.mem_Icc] at hj
    rw [hp i j hj.1 hj.2, hp k j hj.1 hj.2]; ring
  have e2 : ∀ a b, dot n (shiftVec n pts s a) (pts b) = (dot n (pts a) s - dot n s s / 2) * (dot n (pts a) (pts b) - dot n (pts b) s / 2) + dot n s s / 4 * dot n (pts b) s := by
    intro a b
    have : ∀ A B : K, ∑ j ∈ Finset.Icc 1 n, (A * (pts a j - s j / 2) + B * s j) * pts b j = A * (dot n (pts a) (pts b) - dot n (pts b) s / 2) + B * dot n (pts b) s := by
      intro A B
      unfold dot
      rw [Finset.sum_div, ← Finset.sum_sub_distrib, Finset.mul_sum, Finset.mul_sum, ← Finset.sum_add_distrib]
      exact Finset.sum_congr rfl fun j _ => by ring
    exact this _ _
  rw [e1, e2, e2]
  unfold shiftCst
  rw [dot_comm n (pts k) (pts i)]
  have h2 : (2 : K) ≠ 0 := by norm_num
  have h4 : (4 : K) ≠ 0 := by norm_num
  field_simp
  ring

/-- The products of the new matrix. -/
theorem shift_mul {n npt : Nat} {pts pts' : Nat → Nat → K} {s : Nat → K} (hp : ∀ k j, 1 ≤ j → j ≤ n → pts' k j = pts k j - s j) (y y' : Nat → K)
    (y1 : ∀ k, 1 ≤ k → k ≤ npt → y' k = y k)
    (y2 : ∀ j, 1 ≤ j → j ≤ n → y' (npt + j) = y (npt + j) + ∑ k ∈ Finset.Icc 1 npt, shiftVec n pts s k j * y k)
    (y0 : y' 0 = y 0 + ∑ j ∈ Finset.Icc 1 n, s j * y (npt + j)
      + ∑ k ∈ Finset.Icc 1 npt, (shiftCst n pts s k + dot n (shiftVec n pts s k) s) * y k) :
    (∀ i, 1 ≤ i → i ≤ npt → ∑ k ∈ Idx n npt, Wm n npt pts' i k * y' k = ∑ k ∈ Idx n npt, Wm n npt pts i k * y k
      - shiftCst n pts s i * (∑ k ∈ Idx n npt, Wm n npt pts 0 k * y k)
      - ∑ j ∈ Finset.Icc 1 n, shiftVec n pts s i j * (∑ k ∈ Idx n npt, Wm n npt pts (npt + j) k * y k)) ∧
    (∑ k ∈ Idx n npt, Wm n npt pts' 0 k * y' k = ∑ k ∈ Idx n npt, Wm n npt pts 0 k * y k) ∧
    (∀ j, 1 ≤ j → j ≤ n → ∑ k ∈ Idx n npt, Wm n npt pts' (npt + j) k * y' k = ∑ k ∈ Idx n npt, Wm n npt pts (npt + j) k * y k
      - s j * (∑ k ∈ Idx n npt, Wm n npt pts 0 k * y k)) := by
  have p0 : ∀ (q : Nat → Nat → K) (z : Nat → K), ∑ k ∈ Idx n npt, Wm n npt q 0 k * z k = ∑ k ∈ Finset.Icc 1 npt, z k := by
    intro q z
    rw [sum_idx, Wm_out (by omega) (by omega), zero_mul, zero_add, add_eq_left.mpr]
    · refine Finset.sum_congr rfl fun k hk => ?_
      rw [Finset.mem_Icc] at hk
      rw [Wm_pt hk.1 hk.2, col_zero, one_mul]
    · refine Finset.sum_eq_zero fun j hj => ?_
      rw [Finset.mem_Icc] at hj
      rw [Wm_out (by omega) (by omega), zero_mul]
  have pg : ∀ (q : Nat → Nat → K) (z : Nat → K) (j : Nat), 1 ≤ j → ∑ k ∈ Idx n npt, Wm n npt q (npt + j) k * z k = ∑ k ∈ Finset.Icc 1 npt, q k j * z k := by
    intro q z j j1
    rw [sum_idx, Wm_out (by omega) (by omega), zero_mul, zero_add, add_eq_left.mpr]
    · refine Finset.sum_congr rfl fun k hk => ?_
      rw [Finset.mem_Icc] at hk
      rw [Wm_pt hk.1 hk.2, col_grad j1]
    · refine Finset.sum_eq_zero fun i hi => ?_
      rw [Finset.mem_Icc] at hi
      rw [Wm_out (by omega) (by omega), zero_mul]
  have pp : ∀ (q : Nat → Nat → K) (z : Nat → K) (i : Nat), 1 ≤ i → i ≤ npt → ∑ k ∈ Idx n npt, Wm n npt q i k * z k
      = z 0 + ∑ k ∈ Finset.Icc 1 npt, dot n (q i) (q k) * dot n (q i) (q k) / 2 * z k + ∑ j ∈ Finset.Icc 1 n, q i j * z (npt + j) := by
    intro q z i i1 i2
    rw [sum_idx, Wm_pt' i1 i2, col_zero, one_mul]
    congr 1
    · congr 1
      refine Finset.sum_congr rfl fun k hk => ?_
      rw [Finset.mem_Icc] at hk
      rw [Wm_pt hk.1 hk.2, Powell.col_pt i1 i2]
    · refine Finset.sum_congr rfl fun j hj => ?_
      rw [Finset.mem_Icc] at hj
      rw [Wm_pt' i1 i2, col_grad hj.1]
  have s1 : ∑ k ∈ Finset.Icc 1 npt, y' k = ∑ k ∈ Finset.Icc 1 npt, y k :=
    Finset.sum_congr rfl fun k hk => by rw [Finset.mem_Icc] at hk; exact y1 k hk.1 hk.2
  refine ⟨fun i i1 i2 => ?_, by rw [p0, p0, s1], fun j j1 j2 => ?_⟩
  · rw [pp pts' y' i i1 i2, pp pts y i i1 i2, p0, y0]
    have e1 : ∑ k ∈ Finset.Icc 1 npt, dot n (pts' i) (pts' k) * dot n (pts' i) (pts' k) / 2 * y' k
        = ∑ k ∈ Finset.Icc 1 npt, (dot n (pts i) (pts k) * dot n (pts i) (pts k) / 2 - shiftCst n pts s i - dot n (shiftVec n pts s i) (pts k)
          - shiftCst n pts s k - dot n (shiftVec n pts s k) (pts i)) * y k := by
      refine Finset.sum_congr rfl fun k hk => ?_
      rw [Finset.mem_Icc] at hk
      rw [y1 k hk.1 hk.2]
      linear_combination y k * shift_square n pts pts' s hp i k
    have e2 : ∑ j ∈ Finset.Icc 1 n, pts' i j * y' (npt + j) = ∑ j ∈ Finset.Icc 1 n, pts i j * y (npt + j) - ∑ j ∈ Finset.Icc 1 n, s j * y (npt + j)
        + ∑ k ∈ Finset.Icc 1 npt, (dot n (shiftVec n pts s k) (pts i) - dot n (shiftVec n pts s k) s) * y k := by
      have f1 : ∑ k ∈ Finset.Icc 1 npt, (dot n (shiftVec n pts s k) (pts i) - dot n (shiftVec n pts s k) s) * y k
          = ∑ j ∈ Finset.Icc 1 n, (pts i j - s j) * ∑ k ∈ Finset.Icc 1 npt, shiftVec n pts s k j * y k := by
        unfold dot
        simp only [← Finset.sum_sub_distrib, Finset.sum_mul, Finset.mul_sum]
        rw [Finset.sum_comm]
        exact Finset.sum_congr rfl fun j _ => Finset.sum_congr rfl fun k _ => by ring
      rw [f1, ← Finset.sum_sub_distrib, ← Finset.sum_add_distrib]
      refine Finset.sum_congr rfl fun j hj => ?_
      rw [Finset.mem_Icc] at hj
      rw [hp i j hj.1 hj.2, y2 j hj.1 hj.2]; ring
    have e3 : ∑ j ∈ Finset.Icc 1 n, shiftVec n pts s i j * (∑ k ∈ Idx n npt, Wm n npt pts (npt + j) k * y k)
        = ∑ k ∈ Finset.Icc 1 npt, dot n (shiftVec n pts s i) (pts k) * y k := by
      rw [Finset.sum_congr rfl (fun j hj => by rw [pg pts y j (Finset.mem_Icc.mp hj).1, Finset.mul_sum]), Finset.sum_comm]
      refine Finset.sum_congr rfl fun k _ => ?_
      unfold dot
      rw [Finset.sum_mul]
      exact Finset.sum_congr rfl fun j _ => by ring
    rw [e1, e2, e3, Finset.mul_sum]
    simp only [sub_mul, add_mul, Finset.sum_sub_distrib, Finset.sum_add_distrib]
    ring
  · rw [pg pts' y' j j1, pg pts y j j1, p0, Finset.mul_sum, ← Finset.sum_sub_distrib]
    refine Finset.sum_congr rfl fun k hk => ?_
    rw [Finset.mem_Icc] at hk
    rw [hp k j j1 j2, y1 k hk.1 hk.2]; ring

/-- The columns before the second half of the change of origin. -/
def halfShift (n npt : Nat) (pts : Nat → Nat → K) (s : Nat → K) (H : Nat → Nat → K) : Nat → Nat → K := fun i j =>
  if j = 0 then H i 0 + ∑ q ∈ Finset.Icc 1 n, s q * H i (npt + q) + ∑ k ∈ Finset.Icc 1 npt, (shiftCst n pts s k + dot n (shiftVec n pts s k) s) * H i k
  else if j ≤ npt then H i j else H i j + ∑ k ∈ Finset.Icc 1 npt, shiftVec n pts s k (j - npt) * H i k

theorem halfShift_pt {n npt : Nat} {pts : Nat → Nat → K} {s : Nat → K} {H : Nat → Nat → K} {i j : Nat} (j1 : 1 ≤ j) (j2 : j ≤ npt) :
    halfShift n npt pts s H i j = H i j := by
  unfold halfShift; rw [if_neg (by omega), if_pos j2]

theorem halfShift_grad {n npt : Nat} {pts : Nat → Nat → K} {s : Nat → K} {H : Nat → Nat → K} {i j : Nat} (j1 : 1 ≤ j) :
    halfShift n npt pts s H i (npt + j) = H i (npt + j) + ∑ k ∈ Finset.Icc 1 npt, shiftVec n pts s k j * H i k := by
  unfold halfShift; rw [if_neg (by omega), if_neg (by omega), Nat.add_sub_cancel_left]

theorem mul_comb {n npt : Nat} {W H : Nat → Nat → K} (h : IsInv (Idx n npt) W H) {i : Nat} (hi : i ∈ Idx n npt) (T : Finset Nat) (g : Nat → Nat)
    (hg : ∀ l ∈ T, g l ∈ Idx n npt) (a : Nat → K) :
    ∑ k ∈ Idx n npt, W i k * (∑ l ∈ T, a l * H k (g l)) = ∑ l ∈ T, a l * (if i = g l then 1 else 0) := by
  simp only [Finset.mul_sum]
  rw [Finset.sum_comm]
  refine Finset.sum_congr rfl fun l hl => ?_
  rw [← h i hi (g l) (hg l hl), Finset.mul_sum]
  exact Finset.sum_congr rfl fun k _ => by ring

theorem comb_one {T : Finset Nat} {i : Nat} (a : Nat → K) : ∑ l ∈ T, a l * (if i = l then 1 else 0) = if i ∈ T then a i else 0 := by
  simp [Finset.sum_ite_eq]

/-- The products of `W` with the columns. -/
theorem halfShift_mul {n npt : Nat} {pts : Nat → Nat → K} {s : Nat → K} {H : Nat → Nat → K} (h : IsInv (Idx n npt) (Wm n npt pts) H) {i : Nat} (hi : i ∈ Idx n npt) :
    (∑ k ∈ Idx n npt, Wm n npt pts i k * halfShift n npt pts s H k 0 = (if i = 0 then 1 else 0)
      + ∑ q ∈ Finset.Icc 1 n, s q * (if i = npt + q then 1 else 0)
      + if i ∈ Finset.Icc 1 npt then shiftCst n pts s i + dot n (shiftVec n pts s i) s else 0) ∧
    (∀ j, 1 ≤ j → j ≤ npt → ∑ k ∈ Idx n npt, Wm n npt pts i k * halfShift n npt pts s H k j = if i = j then 1 else 0) ∧
    (∀ j, 1 ≤ j → j ≤ n → ∑ k ∈ Idx n npt, Wm n npt pts i k * halfShift n npt pts s H k (npt + j) = (if i = npt + j then 1 else 0)
      + if i ∈ Finset.Icc 1 npt then shiftVec n pts s i j else 0) := by
  have m1 := fun a => mul_comb h hi (Finset.Icc 1 npt) (fun l => l) (fun l hl => mem_pt (Finset.mem_Icc.mp hl).2) a
  have m2 := mul_comb h hi (Finset.Icc 1 n) (fun l => npt + l) (fun l hl => mem_grad (Finset.mem_Icc.mp hl).2) s
  refine ⟨?_, fun j j1 j2 => ?_, fun j j1 j2 => ?_⟩
  · rw [← comb_one (fun k => shiftCst n pts s k + dot n (shiftVec n pts s k) s), ← m1, ← m2, ← h i hi 0 (mem_pt (Nat.zero_le _)),
      ← Finset.sum_add_distrib, ← Finset.sum_add_distrib]
    exact Finset.sum_congr rfl fun k _ => by unfold halfShift; rw [if_pos rfl]; ring
  · rw [← h i hi j (mem_pt j2)]
    exact Finset.sum_congr rfl fun k _ => by rw [halfShift_pt j1 j2]
  · rw [← comb_one (fun k => shiftVec n pts s k j), ← m1, ← h i hi (npt + j) (mem_grad j2), ← Finset.sum_add_distrib]
    exact Finset.sum_congr rfl fun k _ => by rw [halfShift_grad j1]; ring

/-- The matrix for the new origin. -/
def shifted (n npt : Nat) (pts : Nat → Nat → K) (s : Nat → K) (H : Nat → Nat → K) : Nat → Nat → K := fun i j =>
  halfShift n npt pts s (fun a b => halfShift n npt pts s H b a) j i

theorem IsInv.shift {n npt : Nat} {pts pts' : Nat → Nat → K} {s : Nat → K} (hp : ∀ k j, 1 ≤ j → j ≤ n → pts' k j = pts k j - s j)
    {H : Nat → Nat → K} (h : IsInv (Idx n npt) (Wm n npt pts) H) : IsInv (Idx n npt) (Wm n npt pts') (shifted n npt pts s H) := by
  have sm : ∀ j, _ := fun j => shift_mul (n := n) (npt := npt) hp (fun k => halfShift n npt pts s H k j) (fun k => shifted n npt pts s H k j)
    (fun k k1 k2 => halfShift_pt k1 k2) (fun q q1 _ => halfShift_grad q1) (by show halfShift _ _ _ _ _ _ _ = _; rw [halfShift, if_pos rfl])
  intro i hi j hj
  obtain ⟨a1, a2, a3⟩ := sm j
  obtain ⟨z0, z1, z2⟩ := halfShift_mul (s := s) h (mem_pt (Nat.zero_le npt))
  have g := fun q (q2 : q ≤ n) => halfShift_mul (s := s) h (mem_grad (npt := npt) q2)
  have n0 : (0 : Nat) ∉ Finset.Icc 1 npt := by simp
  have ng : ∀ q, 1 ≤ q → npt + q ∉ Finset.Icc 1 npt := fun q hq => by simp; omega
  have w0 : ∑ k ∈ Idx n npt, Wm n npt pts 0 k * halfShift n npt pts s H k j = if 0 = j then 1 else 0 := by
    rcases idx_cases hj with rfl | ⟨j1, j2⟩ | ⟨j', rfl, j1, j2⟩
    · rw [z0, if_neg n0, if_pos rfl, Finset.sum_eq_zero, add_zero, add_zero]
      intro q hq
      rw [Finset.mem_Icc] at hq
      rw [if_neg (by omega), mul_zero]
    · exact z1 j j1 j2
    · rw [z2 j' j1 j2, if_neg n0, add_zero]
  have wg : ∀ q, 1 ≤ q → q ≤ n → ∑ k ∈ Idx n npt, Wm n npt pts (npt + q) k * halfShift n npt pts s H k j
      = (if npt + q = j then 1 else 0) + if 0 = j then s q else 0 := by
    intro q q1 q2
    obtain ⟨g0, g1, g2⟩ := g q q2
    rcases idx_cases hj with rfl | ⟨j1, j2⟩ | ⟨j', rfl, j1, j2⟩
    · rw [g0, if_neg (ng q q1), if_pos rfl, if_neg (by omega), zero_add, zero_add, add_zero]
      rw [Finset.sum_eq_single q, if_pos rfl, mul_one]
      · intro b _ hb; rw [if_neg (by omega), mul_zero]
      · intro hq; exact absurd (Finset.mem_Icc.mpr ⟨q1, q2⟩) hq
    · rw [g1 j j1 j2, if_neg (by omega), if_neg (by omega), add_zero]
    · rw [g2 j' j1 j2, if_neg (ng q q1), if_neg (show ¬(0 = npt + j') by omega)]
  rcases idx_cases hi with rfl | ⟨i1, i2⟩ | ⟨i', rfl, i1, i2⟩
  · rw [a2, w0]
  · rw [a1 i i1 i2, w0]
    have sg : ∑ q ∈ Finset.Icc 1 n, shiftVec n pts s i q * (∑ k ∈ Idx n npt, Wm n npt pts (npt + q) k * halfShift n npt pts s H k j)
        = ∑ q ∈ Finset.Icc 1 n, shiftVec n pts s i q * ((if npt + q = j then 1 else 0) + if 0 = j then s q else 0) :=
      Finset.sum_congr rfl fun q hq => by rw [Finset.mem_Icc] at hq; rw [wg q hq.1 hq.2]
    rw [sg]
    obtain ⟨p0, p1, p2⟩ := halfShift_mul (s := s) h (mem_pt (n := n) i2)
    have ip : i ∈ Finset.Icc 1 npt := Finset.mem_Icc.mpr ⟨i1, i2⟩
    rcases idx_cases hj with rfl | ⟨j1, j2⟩ | ⟨j', rfl, j1, j2⟩
    · rw [p0, if_pos ip, if_neg (show ¬(i = 0) by omega), if_pos rfl, Finset.sum_eq_zero (fun q hq => by
        rw [Finset.mem_Icc] at hq; rw [if_neg (by omega), mul_zero])]
      have : ∑ q ∈ Finset.Icc 1 n, shiftVec n pts s i q * ((if npt + q = 0 then (1 : K) else 0) + if (0 : Nat) = 0 then s q else 0) = dot n (shiftVec n pts s i) s :=
        Finset.sum_congr rfl fun q hq => by rw [Finset.mem_Icc] at hq; rw [if_neg (by omega), if_pos rfl, zero_add]
      rw [this]; ring
    · rw [p1 j j1 j2, if_neg (show ¬(0 = j) by omega), Finset.sum_eq_zero (fun q hq => by
        rw [Finset.mem_Icc] at hq; rw [if_neg (by omega), if_neg (by omega), add_zero, mul_zero])]
      ring
    · rw [p2 j' j1 j2, if_pos ip, if_neg (show ¬(0 = npt + j') by omega), if_neg (show ¬(i = npt + j') by omega)]
      rw [Finset.sum_eq_single j', if_pos rfl, if_neg (show ¬(0 = npt + j') by omega)]
      · ring
      · intro b _ hb; rw [if_neg (by omega), if_neg (by omega), add_zero, mul_zero]
      · intro hq; exact absurd (Finset.mem_Icc.mpr ⟨j1, j2⟩) hq
  · rw [a3 i' i1 i2, wg i' i1 i2, w0]
    rcases idx_cases hj with rfl | ⟨j1, j2⟩ | ⟨j', rfl, j1, j2⟩
    · rw [if_pos rfl, if_pos rfl]; ring
    · rw [if_neg (show ¬(0 = j) by omega), if_neg (show ¬(0 = j) by omega)]; ring
    · rw [if_neg (show ¬(0 = npt + j') by omega), if_neg (show ¬(0 = npt + j') by omega)]; ring

/-- The origin is moved to `s`. -/
theorem Good.shift {n npt : Nat} {pts pts' om bm bm' : Nat → Nat → K} {c s : Nat → K} (h : Good n npt pts om bm c)
    (hp : ∀ k j, 1 ≤ j → j ≤ n → pts' k j = pts k j - s j)
    (h2 : ∀ i j, 1 ≤ i → i ≤ npt → 1 ≤ j → j ≤ n → bm' i j = bm i j + ∑ k ∈ Finset.Icc 1 npt, om i k * shiftVec n pts s k j)
    (h3 : ∀ i j, 1 ≤ i → i ≤ n → 1 ≤ j → j ≤ n → bm' (npt + i) j = bm (npt + i) j
      + ∑ k ∈ Finset.Icc 1 npt, (bm k i * shiftVec n pts s k j + shiftVec n pts s k i * bm k j)
      + ∑ k ∈ Finset.Icc 1 npt, ∑ l ∈ Finset.Icc 1 npt, shiftVec n pts s k i * om k l * shiftVec n pts s l j) :
    ∃ c', Good n npt pts' om bm' c' := by
  refine ⟨_, Good.of (IsInv.shift hp h.inv) h.sym ?_ ?_ ?_⟩
  · intro i j i1 i2 j1 j2
    unfold shifted
    rw [halfShift_pt i1 i2, halfShift_pt j1 j2, Hm_pp i1 i2 j1 j2]
  · intro i j i1 i2 j1 j2
    unfold shifted
    rw [halfShift_pt i1 i2, halfShift_grad j1, Hm_pg i1 i2 j1, h2 i j i1 i2 j1 j2]
    congr 1
    refine Finset.sum_congr rfl fun k hk => ?_
    rw [Finset.mem_Icc] at hk
    rw [Hm_pp i1 i2 hk.1 hk.2, mul_comm]
  · intro i j i1 i2 j1 j2
    unfold shifted
    rw [halfShift_grad i1, halfShift_grad j1, Hm_gg i1 j1, h3 i j i1 i2 j1 j2]
    have e1 : ∑ k ∈ Finset.Icc 1 npt, shiftVec n pts s k j * Hm npt c om bm (npt + i) k = ∑ k ∈ Finset.Icc 1 npt, bm k i * shiftVec n pts s k j :=
      Finset.sum_congr rfl fun k hk => by rw [Finset.mem_Icc] at hk; rw [Hm_gp i1 hk.1 hk.2, mul_comm]
    have e2 : ∑ k ∈ Finset.Icc 1 npt, shiftVec n pts s k i * halfShift n npt pts s (Hm npt c om bm) k (npt + j)
        = ∑ k ∈ Finset.Icc 1 npt, shiftVec n pts s k i * bm k j + ∑ k ∈ Finset.Icc 1 npt, ∑ l ∈ Finset.Icc 1 npt, shiftVec n pts s k i * om k l * shiftVec n pts s l j := by
      rw [← Finset.sum_add_distrib]
      refine Finset.sum_congr rfl fun k hk => ?_
      rw [Finset.mem_Icc] at hk
      rw [halfShift_grad j1, Hm_pg hk.1 hk.2 j1, mul_add]
      congr 1
      rw [Finset.mul_sum]
      refine Finset.sum_congr rfl fun l hl => ?_
      rw [Finset.mem_Icc] at hl
      rw [Hm_pp hk.1 hk.2 hl.1 hl.2]; ring
    rw [e1, e2, Finset.sum_add_distrib]; ring

end
/-- Only the coordinates of the points matter. -/
theorem Good.congr {K : Type} [Field K] {n npt : Nat} {pts pts' om bm : Nat → Nat → K} {c : Nat → K} (h : Good n npt pts om bm c)
    (hp : ∀ k j, 1 ≤ k → k ≤ npt → 1 ≤ j → j ≤ n → pts' k j = pts k j) : Good n npt pts' om bm c := by
  have hd : ∀ k l, 1 ≤ k → k ≤ npt → 1 ≤ l → l ≤ npt → dot n (pts' k) (pts' l) = dot n (pts k) (pts l) := by
    intro k l k1 k2 l1 l2
    refine Finset.sum_congr rfl fun j hj => ?_
    rw [Finset.mem_Icc] at hj
    rw [hp k j k1 k2 hj.1 hj.2, hp l j l1 l2 hj.1 hj.2]
  have hc : ∀ l, 1 ≤ l → l ≤ npt → ∀ i ∈ Idx n npt, col n npt pts' (pts' l) i = col n npt pts (pts l) i := by
    intro l l1 l2 i hi
    rcases idx_cases hi with rfl | ⟨i1, i2⟩ | ⟨j, rfl, j1, j2⟩
    · rfl
    · rw [Powell.col_pt i1 i2, Powell.col_pt i1 i2, hd i l i1 i2 l1 l2]
    · rw [col_grad j1, col_grad j1, hp l j l1 l2 j1 j2]
  refine ⟨h.sym, h.bsym, fun i hi j hj => ?_⟩
  rw [← h.inv i hi j hj]
  refine Finset.sum_congr rfl fun k hk => ?_
  congr 1
  by_cases a : 1 ≤ k ∧ k ≤ npt
  · rw [Wm_pt a.1 a.2, Wm_pt a.1 a.2, hc k a.1 a.2 i hi]
  · by_cases b : 1 ≤ i ∧ i ≤ npt
    · rw [Wm_pt' b.1 b.2, Wm_pt' b.1 b.2, hc i b.1 b.2 k hk]
    · rw [Wm_out b a, Wm_out b a]

end Opk.Powell
