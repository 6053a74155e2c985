import Mathlib.Algebra.BigOperators.Intervals
import Mathlib.Algebra.BigOperators.Field
import Mathlib.Algebra.Order.BigOperators.Ring.Finset
import Mathlib.Tactic.Ring
import Mathlib.Tactic.LinearCombination
import Mathlib.Tactic.FieldSimp
import Mathlib.Tactic.Linarith
import Mathlib.Tactic.NormNum

/-!
# The matrices of the interpolation problem

The derivative free methods of Powell keep the inverse `H` of the matrix `W` of the equations which define the quadratic
functions of least Frobenius norm, see M. J. D. Powell, "Least Frobenius norm updating of quadratic models that satisfy
interpolation conditions", Math. Programming 100 (2004).  The index 0 is that of the constant term, the indices 1 to `npt` are
those of the points and the indices `npt + 1` to `npt + n` are those of the gradient.
-/

namespace Opk.Powell

section
variable {K : Type} [Field K]

/-- `H` is the inverse of `W`, for the indices in `S`. -/
def IsInv (S : Finset Nat) (W H : Nat → Nat → K) : Prop :=
  ∀ i ∈ S, ∀ j ∈ S, ∑ k ∈ S, W i k * H k j = if i = j then 1 else 0

def Sym (S : Finset Nat) (W : Nat → Nat → K) : Prop := ∀ i ∈ S, ∀ j ∈ S, W i j = W j i

/-- The matrix after a change of the row and of the column `t`. -/
def bordered (t : Nat) (w : Nat → K) (om : K) (W : Nat → Nat → K) : Nat → Nat → K := fun i j =>
  if i = t then (if j = t then om else w j) else if j = t then w i else W i j

/-- The formula (2.12) of Powell's paper; `a` is the vector `e_t - H w`. -/
def revised (t : Nat) (al be ta si : K) (a : Nat → K) (H : Nat → Nat → K) : Nat → Nat → K := fun i j =>
  H i j + (al * (a i * a j) - be * (H i t * H j t) + ta * (H i t * a j + a i * H j t)) / si

theorem sum_delta {S : Finset Nat} {t : Nat} (ht : t ∈ S) (f : Nat → K) : ∑ k ∈ S, (if t = k then (1 : K) else 0) * f k = f t := by
  rw [Finset.sum_eq_single t]
  · rw [if_pos rfl, one_mul]
  · intro b _ hb; rw [if_neg (Ne.symm hb), zero_mul]
  · intro q; exact absurd ht q

theorem bordered_mul {S : Finset Nat} {t : Nat} (ht : t ∈ S) {W : Nat → Nat → K} (hW : Sym S W) (w : Nat → K) (om : K) (y : Nat → K) (i : Nat) (hi : i ∈ S) :
    ∑ k ∈ S, bordered t w om W i k * y k = ∑ k ∈ S, W i k * y k + (if i = t then 1 else 0) * (∑ k ∈ S, (w k - W k t) * y k)
      + (w i - W i t) * y t + (om + W t t - 2 * w t) * ((if i = t then 1 else 0) * y t) := by
  have e := fun (f : Nat → K) => (Finset.add_sum_erase S f ht).symm
  have e1 : ∑ k ∈ S.erase t, bordered t w om W i k * y k = ∑ k ∈ S.erase t, (if i = t then w k else W i k) * y k := by
    refine Finset.sum_congr rfl fun k hk => ?_
    have : k ≠ t := Finset.ne_of_mem_erase hk
    unfold bordered
    by_cases c : i = t
    · rw [if_pos c, if_pos c, if_neg this]
    · rw [if_neg c, if_neg c, if_neg this]
  rw [e, e1, e (fun k => W i k * y k), e (fun k => (w k - W k t) * y k)]
  by_cases c : i = t
  · subst c
    have e2 : ∑ k ∈ S.erase i, (w k - W k i) * y k = ∑ k ∈ S.erase i, w k * y k - ∑ k ∈ S.erase i, W i k * y k := by
      rw [← Finset.sum_sub_distrib]
      refine Finset.sum_congr rfl fun k hk => ?_
      rw [hW k (Finset.mem_of_mem_erase hk) i hi]; ring
    simp only [if_true, e2, bordered]
    ring
  · simp only [if_neg c, bordered, if_true]
    ring

/-- Powell's formula: the revised matrix is the inverse of the bordered one. -/
theorem IsInv.update {S : Finset Nat} {W H : Nat → Nat → K} (hW : Sym S W) (hH : Sym S H) (h : IsInv S W H) {t : Nat} (ht : t ∈ S)
    {w v : Nat → K} {om be ta al si : K} (hv : ∀ i ∈ S, v i = ∑ k ∈ S, H i k * w k) (hb : be = om - ∑ k ∈ S, w k * v k)
    (hta : ta = v t) (hal : al = H t t) (hsi : si = al * be + ta * ta) (h0 : si ≠ 0) (a : Nat → K)
    (ha : ∀ i ∈ S, a i = (if t = i then 1 else 0) - v i) :
    IsInv S (bordered t w om W) (revised t al be ta si a H) := by
  have inv : ∀ i ∈ S, ∀ y : Nat → K, ∑ k ∈ S, H i k * (∑ l ∈ S, W k l * y l) = y i := by
    intro i hi y
    have e : ∑ k ∈ S, H i k * (∑ l ∈ S, W k l * y l) = ∑ l ∈ S, (∑ k ∈ S, W l k * H k i) * y l := by
      simp only [Finset.mul_sum, Finset.sum_mul]
      rw [Finset.sum_comm]
      refine Finset.sum_congr rfl fun l hl => Finset.sum_congr rfl fun k hk => ?_
      rw [hW k hk l hl, hH i hi k hk]; ring
    rw [e, Finset.sum_congr rfl (fun l hl => by rw [h l hl i hi, show (if l = i then (1 : K) else 0) = if i = l then 1 else 0 by simp [eq_comm]])]
    exact sum_delta hi y
  have inv2 : ∀ i ∈ S, ∀ y : Nat → K, ∑ k ∈ S, W i k * (∑ l ∈ S, H k l * y l) = y i := by
    intro i hi y
    have e : ∑ k ∈ S, W i k * (∑ l ∈ S, H k l * y l) = ∑ l ∈ S, (∑ k ∈ S, W i k * H k l) * y l := by
      simp only [Finset.mul_sum, Finset.sum_mul]
      rw [Finset.sum_comm]
      refine Finset.sum_congr rfl fun l hl => Finset.sum_congr rfl fun k hk => by ring
    rw [e, Finset.sum_congr rfl (fun l hl => by rw [h i hi l hl])]
    exact sum_delta hi y
  -- products of `W` with the vectors
  have Wv : ∀ i ∈ S, ∑ k ∈ S, W i k * v k = w i := fun i hi => by
    rw [← inv2 i hi w]
    exact Finset.sum_congr rfl fun k hk => by rw [hv k hk]
  have Wa : ∀ i ∈ S, ∑ k ∈ S, W i k * a k = W i t - w i := fun i hi => by
    rw [← Wv i hi, ← sum_delta ht (fun k => W i k), ← Finset.sum_sub_distrib]
    exact Finset.sum_congr rfl fun k hk => by rw [ha k hk]; ring
  have Wh : ∀ i ∈ S, ∑ k ∈ S, W i k * H k t = if i = t then 1 else 0 := fun i hi => h i hi t ht
  -- products with `w - W e_t`
  have uH : ∀ j ∈ S, ∑ k ∈ S, (w k - W k t) * H k j = - a j := fun j hj => by
    have e1 : ∑ k ∈ S, w k * H k j = v j := by
      rw [hv j hj]; exact Finset.sum_congr rfl fun k hk => by rw [hH k hk j hj]; ring
    have e2 : ∑ k ∈ S, W k t * H k j = if t = j then 1 else 0 := by
      rw [← h t ht j hj]; exact Finset.sum_congr rfl fun k hk => by rw [hW k hk t ht]
    simp only [sub_mul, Finset.sum_sub_distrib]
    rw [e1, e2, ha j hj]; ring
  have ua : ∑ k ∈ S, (w k - W k t) * a k = be - (om + W t t - 2 * w t) := by
    have e1 : ∑ k ∈ S, w k * a k = w t - ∑ k ∈ S, w k * v k := by
      rw [← sum_delta ht w, ← Finset.sum_sub_distrib]
      exact Finset.sum_congr rfl fun k hk => by rw [ha k hk]; ring
    have e2 : ∑ k ∈ S, W k t * a k = W t t - w t := by
      rw [← Wa t ht]; exact Finset.sum_congr rfl fun k hk => by rw [hW k hk t ht]
    simp only [sub_mul, Finset.sum_sub_distrib]
    rw [e1, e2, hb]; ring
  have uh : ∑ k ∈ S, (w k - W k t) * H k t = ta - 1 := by
    rw [uH t ht, ha t ht, if_pos rfl, hta]; ring
  have aT : a t = 1 - ta := by rw [ha t ht, if_pos rfl, hta]
  intro i hi j hj
  have B := fun y => bordered_mul ht hW w om y i hi
  have split : ∑ k ∈ S, bordered t w om W i k * revised t al be ta si a H k j
      = ∑ k ∈ S, bordered t w om W i k * H k j + (∑ k ∈ S, bordered t w om W i k * a k) * ((al * a j + ta * H j t) / si)
        + (∑ k ∈ S, bordered t w om W i k * H k t) * ((ta * a j - be * H j t) / si) := by
    simp only [Finset.sum_mul]
    rw [← Finset.sum_add_distrib, ← Finset.sum_add_distrib]
    refine Finset.sum_congr rfl fun k _ => ?_
    unfold revised
    field_simp
    ring
  rw [split, B (fun k => H k j), B a, B (fun k => H k t)]
  rw [h i hi j hj, uH j hj, Wa i hi, ua, Wh i hi, uh, aT, ← hal, ← hH j hj t ht, ← neg_sub (w i) (W i t)]
  generalize w i - W i t = u
  generalize (if i = t then (1 : K) else 0) = E
  generalize (if i = j then (1 : K) else 0) = D
  generalize om + W t t - 2 * w t = k
  generalize a j = x
  generalize H j t = y
  have : (1 : K) = (al * be + ta * ta) / si := by rw [← hsi, div_self h0]
  linear_combination (u * y + k * E * y - E * x) * this

/-! ### The matrix of the equations -/

/-- The scalar product of the first `n` elements. -/
def dot (n : Nat) (x y : Nat → K) : K := ∑ i ∈ Finset.Icc 1 n, x i * y i

theorem dot_comm (n : Nat) (x y : Nat → K) : dot n x y = dot n y x := Finset.sum_congr rfl fun _ _ => mul_comm _ _

theorem dot_add (n : Nat) (x y z : Nat → K) : dot n x (fun i => y i + z i) = dot n x y + dot n x z := by
  unfold dot; rw [← Finset.sum_add_distrib]; exact Finset.sum_congr rfl fun _ _ => mul_add _ _ _

/-- The indices of the equations. -/
def Idx (n npt : Nat) : Finset Nat := Finset.range (npt + n + 1)

theorem sum_idx (n npt : Nat) (f : Nat → K) :
    ∑ k ∈ Idx n npt, f k = f 0 + ∑ k ∈ Finset.Icc 1 npt, f k + ∑ j ∈ Finset.Icc 1 n, f (npt + j) := by
  have e : ∀ (m : Nat) (g : Nat → K), ∑ k ∈ Finset.Icc 1 m, g k = ∑ k ∈ Finset.range m, g (1 + k) := by
    intro m g
    rw [show Finset.Icc 1 m = Finset.Ico 1 (m + 1) from rfl, Finset.sum_Ico_eq_sum_range]; rfl
  unfold Idx
  rw [e, e, show npt + n + 1 = 1 + npt + n by omega, Finset.sum_range_add, Finset.sum_range_add]
  simp only [Finset.sum_range_one]
  congr 1
  exact Finset.sum_congr rfl fun k _ => by congr 1; omega

/-- The column of the matrix for the point `x`: the constant term, the second derivatives and the gradient. -/
def col (n npt : Nat) (pts : Nat → Nat → K) (x : Nat → K) : Nat → K := fun i =>
  if i = 0 then 1 else if i ≤ npt then dot n (pts i) x * dot n (pts i) x / 2 else x (i - npt)

/-- The matrix `W`. -/
def Wm (n npt : Nat) (pts : Nat → Nat → K) : Nat → Nat → K := fun i j =>
  if 1 ≤ j ∧ j ≤ npt then col n npt pts (pts j) i else if 1 ≤ i ∧ i ≤ npt then col n npt pts (pts i) j else 0

/-- The matrix `H` given by its first row, by its leading part `om` and by the array `BMAT`. -/
def Hm (npt : Nat) (c : Nat → K) (om bm : Nat → Nat → K) : Nat → Nat → K := fun i j =>
  if i = 0 then c j else if j = 0 then c i
  else if i ≤ npt then (if j ≤ npt then om i j else bm i (j - npt))
  else if j ≤ npt then bm j (i - npt) else bm i (j - npt)

theorem col_pt {n npt : Nat} {pts : Nat → Nat → K} {x : Nat → K} {i : Nat} (h1 : 1 ≤ i) (h2 : i ≤ npt) :
    col n npt pts x i = dot n (pts i) x * dot n (pts i) x / 2 := by
  unfold col; rw [if_neg (by omega), if_pos h2]

theorem col_grad {n npt : Nat} {pts : Nat → Nat → K} {x : Nat → K} {j : Nat} (h1 : 1 ≤ j) : col n npt pts x (npt + j) = x j := by
  unfold col; rw [if_neg (by omega), if_neg (by omega), Nat.add_sub_cancel_left]

theorem col_zero {n npt : Nat} {pts : Nat → Nat → K} {x : Nat → K} : col n npt pts x 0 = 1 := rfl

theorem Wm_pt {n npt : Nat} {pts : Nat → Nat → K} {i j : Nat} (h1 : 1 ≤ j) (h2 : j ≤ npt) : Wm n npt pts i j = col n npt pts (pts j) i := by
  unfold Wm; rw [if_pos ⟨h1, h2⟩]

theorem Wm_sym (n npt : Nat) (pts : Nat → Nat → K) (i j : Nat) : Wm n npt pts i j = Wm n npt pts j i := by
  unfold Wm
  by_cases a : 1 ≤ i ∧ i ≤ npt
  · by_cases b : 1 ≤ j ∧ j ≤ npt
    · simp only [if_pos a, if_pos b]
      rw [col_pt a.1 a.2, col_pt b.1 b.2, dot_comm]
    · simp only [if_pos a, if_neg b]
  · by_cases b : 1 ≤ j ∧ j ≤ npt
    · simp only [if_neg a, if_pos b]
    · simp only [if_neg a, if_neg b]

theorem Wm_pt' {n npt : Nat} {pts : Nat → Nat → K} {i j : Nat} (h1 : 1 ≤ i) (h2 : i ≤ npt) : Wm n npt pts i j = col n npt pts (pts i) j := by
  rw [Wm_sym, Wm_pt h1 h2]

theorem Wm_out {n npt : Nat} {pts : Nat → Nat → K} {i j : Nat} (h1 : ¬(1 ≤ i ∧ i ≤ npt)) (h2 : ¬(1 ≤ j ∧ j ≤ npt)) : Wm n npt pts i j = 0 := by
  unfold Wm; rw [if_neg h2, if_neg h1]

/-- One of the points is changed. -/
theorem Wm_move {n npt t : Nat} (h1 : 1 ≤ t) (h2 : t ≤ npt) (pts : Nat → Nat → K) (x : Nat → K) (pts' : Nat → Nat → K)
    (hp : ∀ k, pts' k = if k = t then x else pts k) (i j : Nat) :
    Wm n npt pts' i j = bordered t (col n npt pts x) (dot n x x * dot n x x / 2) (Wm n npt pts) i j := by
  have c1 : ∀ i y, i ≠ t → col n npt pts' y i = col n npt pts y i := by
    intro i y h; unfold col; rw [hp, if_neg h]
  have key : ∀ i j, i ≠ t → Wm n npt pts' i j = if j = t then col n npt pts x i else Wm n npt pts i j := by
    intro i j hi
    by_cases c : j = t
    · rw [if_pos c, Wm_pt (c ▸ h1) (c ▸ h2), hp, if_pos c, c1 i _ hi]
    · rw [if_neg c]
      by_cases b : 1 ≤ j ∧ j ≤ npt
      · rw [Wm_pt b.1 b.2, Wm_pt b.1 b.2, hp, if_neg c, c1 i _ hi]
      · by_cases d : 1 ≤ i ∧ i ≤ npt
        · rw [Wm_pt' d.1 d.2, Wm_pt' d.1 d.2, hp, if_neg hi, c1 j _ c]
        · rw [Wm_out d b, Wm_out d b]
  unfold bordered
  by_cases a : i = t
  · rw [if_pos a]
    by_cases b : j = t
    · rw [if_pos b, a, b, Wm_pt h1 h2, col_pt h1 h2, hp, if_pos rfl]
    · rw [if_neg b, Wm_sym, key j i b, if_pos a]
  · rw [if_neg a, key i j a]

theorem Hm_pp {npt : Nat} {c : Nat → K} {om bm : Nat → Nat → K} {i j : Nat} (i1 : 1 ≤ i) (i2 : i ≤ npt) (j1 : 1 ≤ j) (j2 : j ≤ npt) :
    Hm npt c om bm i j = om i j := by
  unfold Hm; rw [if_neg (by omega), if_neg (by omega), if_pos i2, if_pos j2]

theorem Hm_pg {npt : Nat} {c : Nat → K} {om bm : Nat → Nat → K} {i j : Nat} (i1 : 1 ≤ i) (i2 : i ≤ npt) (j1 : 1 ≤ j) :
    Hm npt c om bm i (npt + j) = bm i j := by
  unfold Hm; rw [if_neg (by omega), if_neg (by omega), if_pos i2, if_neg (by omega), Nat.add_sub_cancel_left]

theorem Hm_gp {npt : Nat} {c : Nat → K} {om bm : Nat → Nat → K} {i j : Nat} (i1 : 1 ≤ i) (j1 : 1 ≤ j) (j2 : j ≤ npt) :
    Hm npt c om bm (npt + i) j = bm j i := by
  unfold Hm; rw [if_neg (by omega), if_neg (by omega), if_neg (by omega), if_pos j2, Nat.add_sub_cancel_left]

theorem Hm_gg {npt : Nat} {c : Nat → K} {om bm : Nat → Nat → K} {i j : Nat} (i1 : 1 ≤ i) (j1 : 1 ≤ j) :
    Hm npt c om bm (npt + i) (npt + j) = bm (npt + i) j := by
  unfold Hm; rw [if_neg (by omega), if_neg (by omega), if_neg (by omega), if_neg (by omega), Nat.add_sub_cancel_left]

theorem Hm_sym {n npt : Nat} {c : Nat → K} {om bm : Nat → Nat → K} (h1 : ∀ i j, om i j = om j i)
    (h2 : ∀ i j, 1 ≤ i → i ≤ n → 1 ≤ j → j ≤ n → bm (npt + i) j = bm (npt + j) i) : Sym (Idx n npt) (Hm npt c om bm) := by
  intro i hi j hj
  rw [Idx, Finset.mem_range] at hi hj
  unfold Hm
  by_cases a : i = 0
  · rw [if_pos a]
    by_cases b : j = 0
    · rw [if_pos b, a, b]
    · rw [if_neg b, if_pos a]
  · rw [if_neg a]
    by_cases b : j = 0
    · rw [if_pos b, if_pos b]
    · rw [if_neg b, if_neg b, if_neg a]
      by_cases a2 : i ≤ npt
      · rw [if_pos a2]
        by_cases b2 : j ≤ npt
        · rw [if_pos b2, if_pos b2, if_pos a2, h1]
        · rw [if_neg b2, if_neg b2, if_pos a2]
      · rw [if_neg a2]
        by_cases b2 : j ≤ npt
        · rw [if_pos b2, if_pos b2, if_neg a2]
        · rw [if_neg b2, if_neg b2, if_neg a2]
          obtain ⟨i', rfl⟩ : ∃ i', i = npt + i' := ⟨i - npt, by omega⟩
          obtain ⟨j', rfl⟩ : ∃ j', j = npt + j' := ⟨j - npt, by omega⟩
          rw [Nat.add_sub_cancel_left, Nat.add_sub_cancel_left]
          exact h2 _ _ (by omega) (by omega) (by omega) (by omega)

/-- The arrays represent the inverse of the matrix `W` of the points. -/
structure Good (n npt : Nat) (pts om bm : Nat → Nat → K) (c : Nat → K) : Prop where
  sym : ∀ i j, om i j = om j i
  bsym : ∀ i j, 1 ≤ i → i ≤ n → 1 ≤ j → j ≤ n → bm (npt + i) j = bm (npt + j) i
  inv : IsInv (Idx n npt) (Wm n npt pts) (Hm npt c om bm)

theorem mem_pt {n npt i : Nat} (h2 : i ≤ npt) : i ∈ Idx n npt := by rw [Idx, Finset.mem_range]; omega

theorem mem_grad {n npt j : Nat} (h2 : j ≤ n) : npt + j ∈ Idx n npt := by rw [Idx, Finset.mem_range]; omega

theorem Good.hsym {n npt : Nat} {pts om bm : Nat → Nat → K} {c : Nat → K} (h : Good n npt pts om bm c) : Sym (Idx n npt) (Hm npt c om bm) :=
  Hm_sym h.sym h.bsym

/-- The product of `H` by the column of a point of the set. -/
theorem Good.col_pt {n npt : Nat} {pts om bm : Nat → Nat → K} {c : Nat → K} (h : Good n npt pts om bm c) {b : Nat} (b1 : 1 ≤ b) (b2 : b ≤ npt)
    {i : Nat} (hi : i ∈ Idx n npt) : ∑ k ∈ Idx n npt, Hm npt c om bm i k * col n npt pts (pts b) k = if i = b then 1 else 0 := by
  have := h.inv b (mem_pt b2) i hi
  rw [show (if i = b then (1 : K) else 0) = if b = i then 1 else 0 by simp [eq_comm], ← this]
  refine Finset.sum_congr rfl fun k hk => ?_
  rw [Wm_pt' b1 b2, h.hsym i hi k hk, mul_comm]

/-- The Lagrange functions: the values at the points. -/
theorem Good.lagrange {n npt : Nat} {pts om bm : Nat → Nat → K} {c : Nat → K} (h : Good n npt pts om bm c) {t i : Nat} (t1 : 1 ≤ t) (t2 : t ≤ npt)
    (i1 : 1 ≤ i) (i2 : i ≤ npt) :
    c t + ∑ k ∈ Finset.Icc 1 npt, om k t * (dot n (pts k) (pts i) * dot n (pts k) (pts i) / 2) + dot n (bm t) (pts i) = if i = t then 1 else 0 := by
  have := h.inv i (mem_pt i2) t (mem_pt t2)
  rw [← this, sum_idx, Wm_pt' i1 i2, col_zero]
  congr 1
  · congr 1
    · unfold Hm; rw [if_pos rfl, one_mul]
    · refine Finset.sum_congr rfl fun k hk => ?_
      rw [Finset.mem_Icc] at hk
      rw [Wm_pt' i1 i2, Powell.col_pt hk.1 hk.2, Hm_pp hk.1 hk.2 t1 t2, mul_comm]
  · refine Finset.sum_congr rfl fun j hj => ?_
    rw [Finset.mem_Icc] at hj
    rw [Wm_pt' i1 i2, col_grad hj.1, Hm_gp hj.1 t1 t2, mul_comm]

end

section
variable {K : Type} [Field K] [LinearOrder K] [IsStrictOrderedRing K]

/-- `BETA` is not negative. -/
theorem Good.beta_nonneg {n npt : Nat} {pts om bm : Nat → Nat → K} {c : Nat → K} (h : Good n npt pts om bm c) (x : Nat → K) (v : Nat → K)
    (hv : ∀ i ∈ Idx n npt, v i = ∑ k ∈ Idx n npt, Hm npt c om bm i k * col n npt pts x k) :
    0 ≤ dot n x x * dot n x x / 2 - ∑ k ∈ Idx n npt, col n npt pts x k * v k := by
  have Wv : ∀ i ∈ Idx n npt, ∑ k ∈ Idx n npt, Wm n npt pts i k * v k = col n npt pts x i := by
    intro i hi
    have e : ∑ k ∈ Idx n npt, Wm n npt pts i k * v k = ∑ l ∈ Idx n npt, (∑ k ∈ Idx n npt, Wm n npt pts i k * Hm npt c om bm k l) * col n npt pts x l := by
      simp only [Finset.sum_mul]
      rw [Finset.sum_comm]
      refine Finset.sum_congr rfl fun k hk => ?_
      rw [hv k hk, Finset.mul_sum]
      exact Finset.sum_congr rfl fun l hl => by ring
    rw [e, Finset.sum_congr rfl (fun l hl => by rw [h.inv i hi l hl])]
    exact sum_delta hi _
  have one : ∑ k ∈ Finset.Icc 1 npt, v k = 1 := by
    have := Wv 0 (mem_pt (Nat.zero_le _))
    rw [sum_idx, col_zero, Wm_out (by omega) (by omega), zero_mul, zero_add] at this
    rw [← this, eq_comm, add_eq_left.mpr]
    · refine Finset.sum_congr rfl fun k hk => ?_
      rw [Finset.mem_Icc] at hk
      rw [Wm_pt hk.1 hk.2, col_zero, one_mul]
    · refine Finset.sum_eq_zero fun j hj => ?_
      rw [Finset.mem_Icc] at hj
      rw [Wm_out (by omega) (by omega), zero_mul]
  have lin : ∀ j, 1 ≤ j → j ≤ n → ∑ k ∈ Finset.Icc 1 npt, pts k j * v k = x j := by
    intro j j1 j2
    have := Wv (npt + j) (mem_grad j2)
    rw [sum_idx, col_grad j1, Wm_out (by omega) (by omega), zero_mul, zero_add] at this
    rw [← this, eq_comm, add_eq_left.mpr]
    · refine Finset.sum_congr rfl fun k hk => ?_
      rw [Finset.mem_Icc] at hk
      rw [Wm_pt hk.1 hk.2, col_grad j1]
    · refine Finset.sum_eq_zero fun i hi => ?_
      rw [Finset.mem_Icc] at hi
      rw [Wm_out (by omega) (by omega), zero_mul]
  have pt : ∀ i, 1 ≤ i → i ≤ npt → v 0 + ∑ k ∈ Finset.Icc 1 npt, dot n (pts i) (pts k) * dot n (pts i) (pts k) / 2 * v k
      + ∑ j ∈ Finset.Icc 1 n, pts i j * v (npt + j) = dot n (pts i) x * dot n (pts i) x / 2 := by
    intro i i1 i2
    have := Wv i (mem_pt i2)
    rw [sum_idx, Powell.col_pt i1 i2] at this
    rw [← this, Wm_pt' i1 i2, col_zero, one_mul]
    congr 1
    · congr 1
      refine Finset.sum_congr rfl fun k hk => ?_
      rw [Finset.mem_Icc] at hk
      rw [Wm_pt hk.1 hk.2, Powell.col_pt i1 i2]
    · refine Finset.sum_congr rfl fun j hj => ?_
      rw [Finset.mem_Icc] at hj
      rw [Wm_pt' i1 i2, col_grad hj.1]
  -- the sum of the equations multiplied by the elements of `v`
  have tot : v 0 + ∑ j ∈ Finset.Icc 1 n, x j * v (npt + j)
      = ∑ k ∈ Finset.Icc 1 npt, (dot n (pts k) x * dot n (pts k) x / 2) * v k
        - ∑ k ∈ Finset.Icc 1 npt, ∑ l ∈ Finset.Icc 1 npt, dot n (pts k) (pts l) * dot n (pts k) (pts l) / 2 * (v k * v l) := by
    have e1 : ∑ i ∈ Finset.Icc 1 npt, (v 0 + ∑ k ∈ Finset.Icc 1 npt, dot n (pts i) (pts k) * dot n (pts i) (pts k) / 2 * v k
      + ∑ j ∈ Finset.Icc 1 n, pts i j * v (npt + j)) * v i = ∑ k ∈ Finset.Icc 1 npt, (dot n (pts k) x * dot n (pts k) x / 2) * v k := by
      refine Finset.sum_congr rfl fun i hi => ?_
      rw [Finset.mem_Icc] at hi
      rw [pt i hi.1 hi.2]
    rw [← e1]
    simp only [add_mul, Finset.sum_add_distrib]
    rw [← Finset.mul_sum, one, mul_one]
    have e2 : ∑ i ∈ Finset.Icc 1 npt, (∑ j ∈ Finset.Icc 1 n, pts i j * v (npt + j)) * v i = ∑ j ∈ Finset.Icc 1 n, x j * v (npt + j) := by
      simp only [Finset.sum_mul]
      rw [Finset.sum_comm]
      refine Finset.sum_congr rfl fun j hj => ?_
      rw [Finset.mem_Icc] at hj
      rw [← lin j hj.1 hj.2, Finset.sum_mul]
      exact Finset.sum_congr rfl fun i _ => by ring
    have e3 : ∑ i ∈ Finset.Icc 1 npt, (∑ k ∈ Finset.Icc 1 npt, dot n (pts i) (pts k) * dot n (pts i) (pts k) / 2 * v k) * v i
        = ∑ k ∈ Finset.Icc 1 npt, ∑ l ∈ Finset.Icc 1 npt, dot n (pts k) (pts l) * dot n (pts k) (pts l) / 2 * (v k * v l) := by
      refine Finset.sum_congr rfl fun i _ => ?_
      rw [Finset.sum_mul]
      exact Finset.sum_congr rfl fun k _ => by ring
    rw [e2, e3]; ring
  have wv : ∑ k ∈ Idx n npt, col n npt pts x k * v k = 2 * ∑ k ∈ Finset.Icc 1 npt, (dot n (pts k) x * dot n (pts k) x / 2) * v k
        - ∑ k ∈ Finset.Icc 1 npt, ∑ l ∈ Finset.Icc 1 npt, dot n (pts k) (pts l) * dot n (pts k) (pts l) / 2 * (v k * v l) := by
    rw [sum_idx, col_zero, one_mul]
    have e1 : ∑ k ∈ Finset.Icc 1 npt, col n npt pts x k * v k = ∑ k ∈ Finset.Icc 1 npt, (dot n (pts k) x * dot n (pts k) x / 2) * v k :=
      Finset.sum_congr rfl fun k hk => by rw [Finset.mem_Icc] at hk; rw [Powell.col_pt hk.1 hk.2]
    have e2 : ∑ j ∈ Finset.Icc 1 n, col n npt pts x (npt + j) * v (npt + j) = ∑ j ∈ Finset.Icc 1 n, x j * v (npt + j) :=
      Finset.sum_congr rfl fun j hj => by rw [Finset.mem_Icc] at hj; rw [col_grad hj.1]
    rw [e1, e2]
    linear_combination tot
  rw [wv]
  -- a sum of squares
  have sq : ∀ y z : Nat → K, dot n y z * dot n y z = ∑ i ∈ Finset.Icc 1 n, ∑ j ∈ Finset.Icc 1 n, (y i * y j) * (z i * z j) := by
    intro y z
    unfold dot
    rw [Finset.sum_mul_sum]
    exact Finset.sum_congr rfl fun i _ => Finset.sum_congr rfl fun j _ => by ring
  have fin : dot n x x * dot n x x / 2 - (2 * ∑ k ∈ Finset.Icc 1 npt, (dot n (pts k) x * dot n (pts k) x / 2) * v k
        - ∑ k ∈ Finset.Icc 1 npt, ∑ l ∈ Finset.Icc 1 npt, dot n (pts k) (pts l) * dot n (pts k) (pts l) / 2 * (v k * v l))
      = (∑ i ∈ Finset.Icc 1 n, ∑ j ∈ Finset.Icc 1 n, (x i * x j - ∑ k ∈ Finset.Icc 1 npt, v k * (pts k i * pts k j)) * (x i * x j - ∑ k ∈ Finset.Icc 1 npt, v k * (pts k i * pts k j))) / 2 := by
    have s1 : ∑ k ∈ Finset.Icc 1 npt, (dot n (pts k) x * dot n (pts k) x / 2) * v k
        = (∑ i ∈ Finset.Icc 1 n, ∑ j ∈ Finset.Icc 1 n, (x i * x j) * ∑ k ∈ Finset.Icc 1 npt, v k * (pts k i * pts k j)) / 2 := by
      have t : ∀ k ∈ Finset.Icc 1 npt, (dot n (pts k) x * dot n (pts k) x / 2) * v k
          = ∑ i ∈ Finset.Icc 1 n, ∑ j ∈ Finset.Icc 1 n, (x i * x j) * (v k * (pts k i * pts k j)) / 2 := by
        intro k _
        rw [sq]
        simp only [Finset.sum_div, Finset.sum_mul]
        exact Finset.sum_congr rfl fun i _ => Finset.sum_congr rfl fun j _ => by ring
      rw [Finset.sum_congr rfl t, Finset.sum_comm, Finset.sum_div]
      refine Finset.sum_congr rfl fun i _ => ?_
      rw [Finset.sum_comm, Finset.sum_div]
      refine Finset.sum_congr rfl fun j _ => ?_
      rw [Finset.mul_sum, Finset.sum_div]
    have s2 : ∑ k ∈ Finset.Icc 1 npt, ∑ l ∈ Finset.Icc 1 npt, dot n (pts k) (pts l) * dot n (pts k) (pts l) / 2 * (v k * v l)
        = (∑ i ∈ Finset.Icc 1 n, ∑ j ∈ Finset.Icc 1 n, (∑ k ∈ Finset.Icc 1 npt, v k * (pts k i * pts k j)) * ∑ k ∈ Finset.Icc 1 npt, v k * (pts k i * pts k j)) / 2 := by
      have t : ∀ k ∈ Finset.Icc 1 npt, ∑ l ∈ Finset.Icc 1 npt, dot n (pts k) (pts l) * dot n (pts k) (pts l) / 2 * (v k * v l)
          = ∑ i ∈ Finset.Icc 1 n, ∑ j ∈ Finset.Icc 1 n, ∑ l ∈ Finset.Icc 1 npt, (v k * (pts k i * pts k j)) * (v l * (pts l i * pts l j)) / 2 := by
        intro k _
        have t2 : ∀ l ∈ Finset.Icc 1 npt, dot n (pts k) (pts l) * dot n (pts k) (pts l) / 2 * (v k * v l)
          = ∑ i ∈ Finset.Icc 1 n, ∑ j ∈ Finset.Icc 1 n, (v k * (pts k i * pts k j)) * (v l * (pts l i * pts l j)) / 2 := by
          intro l _
          rw [sq]
          simp only [Finset.sum_div, Finset.sum_mul]
          exact Finset.sum_congr rfl fun i _ => Finset.sum_congr rfl fun j _ => by ring
        rw [Finset.sum_congr rfl t2, Finset.sum_comm]
        exact Finset.sum_congr rfl fun i _ => Finset.sum_comm
      rw [Finset.sum_congr rfl t, Finset.sum_comm, Finset.sum_div]
      refine Finset.sum_congr rfl fun i _ => ?_
      rw [Finset.sum_comm, Finset.sum_div]
      refine Finset.sum_congr rfl fun j _ => ?_
      rw [Finset.sum_mul_sum, Finset.sum_div]
      exact Finset.sum_congr rfl fun k _ => by rw [Finset.sum_div]
    rw [s1, s2, sq x x]
    have e : ∀ A B C : K, A / 2 - (2 * (B / 2) - C / 2) = (A - 2 * B + C) / 2 := fun A B C => by ring
    rw [e]
    congr 1
    simp only [two_mul]
    rw [← Finset.sum_add_distrib, ← Finset.sum_sub_distrib, ← Finset.sum_add_distrib]
    refine Finset.sum_congr rfl fun i _ => ?_
    rw [← Finset.sum_add_distrib, ← Finset.sum_sub_distrib, ← Finset.sum_add_distrib]
    exact Finset.sum_congr rfl fun j _ => by ring
  rw [fin]
  refine div_nonneg (Finset.sum_nonneg fun i _ => Finset.sum_nonneg fun j _ => mul_self_nonneg _) (by norm_num)

end
end Opk.Powell
