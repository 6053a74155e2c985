import Verif.Powell.First
import Mathlib.Algebra.BigOperators.Field

/-!
# The first inverse matrix of BOBYQA

The first points are the origin, one or two points on each axis, at any two different positions, and sums of the first
points on two axes.
-/
namespace Opk.Powell

variable {K : Type} [Field K] [LinearOrder K] [IsStrictOrderedRing K]

/-- The first points and the first arrays, with `m` columns in `ZMAT`: the positions on the axis `l` are `al l` and `be l`. -/
structure Axes (n m npt : Nat) (ka : K) (al be sg : Nat → K) (pts z bm : Nat → Nat → K) (a b : Nat → Nat) : Prop where
  hn : npt = m + n + 1
  hk : ka * ka = 2
  al0 : ∀ l, 1 ≤ l → l ≤ n → al l ≠ 0
  be0 : ∀ l, 1 ≤ l → l ≤ n → l ≤ m → be l ≠ 0
  ab0 : ∀ l, 1 ≤ l → l ≤ n → l ≤ m → al l - be l ≠ 0
  p1 : ∀ j, 1 ≤ j → j ≤ n → pts 1 j = 0
  p2 : ∀ l j, 1 ≤ l → l ≤ n → 1 ≤ j → j ≤ n → pts (1 + l) j = al l * del j l
  p3 : ∀ l j, 1 ≤ l → l ≤ n → l ≤ m → 1 ≤ j → j ≤ n → pts (1 + n + l) j = be l * del j l
  p4 : ∀ l j, n < l → l ≤ m → 1 ≤ j → j ≤ n → pts (1 + n + l) j = pts (1 + a l) j + pts (1 + b l) j
  ha : ∀ l, n < l → l ≤ m → 1 ≤ a l ∧ a l ≤ n
  hb : ∀ l, n < l → l ≤ m → 1 ≤ b l ∧ b l ≤ n
  ne : ∀ l, n < l → l ≤ m → a l ≠ b l
  key : ∀ l i, n < l → l ≤ m → 1 ≤ i → i ≤ npt → pts i (a l) * pts i (b l) = al (a l) * al (b l) * del i (1 + n + l)
  hs : ∀ l, n < l → l ≤ m → sg l * sg l * (al (a l) * al (b l) * (al (a l) * al (b l))) = 1
  z1 : ∀ k l, 1 ≤ k → k ≤ npt → 1 ≤ l → l ≤ n → l ≤ m →
    z k l = ka * (del k 1 / (al l * be l) + del k (1 + l) / (al l * (al l - be l)) - del k (1 + n + l) / (be l * (al l - be l)))
  z2 : ∀ k l, 1 ≤ k → k ≤ npt → n < l → l ≤ m → z k l = sg l * (del k 1 + del k (1 + n + l) - del k (1 + a l) - del k (1 + b l))
  b1 : ∀ k l, 1 ≤ k → k ≤ npt → 1 ≤ l → l ≤ n → l ≤ m →
    bm k l = -((al l + be l) / (al l * be l)) * del k 1 - be l / (al l * (al l - be l)) * del k (1 + l) + al l / (be l * (al l - be l)) * del k (1 + n + l)
  b2 : ∀ k l, 1 ≤ k → k ≤ npt → l ≤ n → m < l → bm k l = 1 / al l * (del k (1 + l) - del k 1)
  b3 : ∀ i l, 1 ≤ i → i ≤ n → 1 ≤ l → l ≤ n → bm (npt + i) l = if m < l then -(al l * al l) / 2 * del i l else 0

variable {n m npt : Nat} {ka : K} {al be sg : Nat → K} {pts z bm : Nat → Nat → K} {a b : Nat → Nat}

/-- The product of a point on an axis by a vector. -/
theorem Axes.dot2 (h : Axes n m npt ka al be sg pts z bm a b) {l : Nat} (l1 : 1 ≤ l) (l2 : l ≤ n) (y : Nat → K) : dot n (pts (1 + l)) y = al l * y l := by
  unfold dot
  rw [← sum_del (Finset.mem_Icc.mpr ⟨l1, l2⟩) y, Finset.mul_sum]
  refine Finset.sum_congr rfl fun j hj => ?_
  rw [Finset.mem_Icc] at hj
  rw [h.p2 l j l1 l2 hj.1 hj.2, mul_assoc]

theorem Axes.dot3 (h : Axes n m npt ka al be sg pts z bm a b) {l : Nat} (l1 : 1 ≤ l) (l2 : l ≤ n) (l3 : l ≤ m) (y : Nat → K) : dot n (pts (1 + n + l)) y = be l * y l := by
  unfold dot
  rw [← sum_del (Finset.mem_Icc.mpr ⟨l1, l2⟩) y, Finset.mul_sum]
  refine Finset.sum_congr rfl fun j hj => ?_
  rw [Finset.mem_Icc] at hj
  rw [h.p3 l j l1 l2 l3 hj.1 hj.2, mul_assoc]

theorem Axes.dot1 (h : Axes n m npt ka al be sg pts z bm a b) (y : Nat → K) : dot n (pts 1) y = 0 := by
  refine Finset.sum_eq_zero fun j hj => ?_
  rw [Finset.mem_Icc] at hj
  rw [h.p1 j hj.1 hj.2, zero_mul]

theorem Axes.dot4 (h : Axes n m npt ka al be sg pts z bm a b) {l : Nat} (l1 : n < l) (l2 : l ≤ m) (y : Nat → K) :
    dot n (pts (1 + n + l)) y = dot n (pts (1 + a l)) y + dot n (pts (1 + b l)) y := by
  unfold dot
  rw [← Finset.sum_add_distrib]
  refine Finset.sum_congr rfl fun j hj => ?_
  rw [Finset.mem_Icc] at hj
  rw [h.p4 l j l1 l2 hj.1 hj.2, add_mul]

theorem Axes.mem (h : Axes n m npt ka al be sg pts z bm a b) {i : Nat} (i1 : 1 ≤ i) (i2 : i ≤ m + n + 1) : i ∈ Finset.Icc 1 npt := by
  rw [Finset.mem_Icc, h.hn]; exact ⟨i1, i2⟩

/-- The sum over the points with the weights of a column of `ZMAT`. -/
theorem Axes.zsum1 (h : Axes n m npt ka al be sg pts z bm a b) {l : Nat} (l1 : 1 ≤ l) (l2 : l ≤ n) (l3 : l ≤ m) (f : Nat → K) :
    ∑ k ∈ Finset.Icc 1 npt, z k l * f k = ka * (f 1 / (al l * be l) + f (1 + l) / (al l * (al l - be l)) - f (1 + n + l) / (be l * (al l - be l))) := by
  rw [← sum_del (h.mem (i := 1 + l) (by omega) (by omega)) f, ← sum_del (h.mem (i := 1 + n + l) (by omega) (by omega)) f, ← sum_del (h.mem (i := 1) (by omega) (by omega)) f,
    Finset.sum_div, Finset.sum_div, Finset.sum_div, ← Finset.sum_add_distrib, ← Finset.sum_sub_distrib, Finset.mul_sum]
  refine Finset.sum_congr rfl fun k hk => ?_
  rw [Finset.mem_Icc] at hk
  rw [h.z1 k l hk.1 hk.2 l1 l2 l3]; ring

theorem Axes.zsum2 (h : Axes n m npt ka al be sg pts z bm a b) {l : Nat} (l1 : n < l) (l2 : l ≤ m) (f : Nat → K) :
    ∑ k ∈ Finset.Icc 1 npt, z k l * f k = sg l * (f 1 + f (1 + n + l) - f (1 + a l) - f (1 + b l)) := by
  obtain ⟨a1, a2⟩ := h.ha l l1 l2
  obtain ⟨b1, b2⟩ := h.hb l l1 l2
  rw [← sum_del (h.mem (i := 1) (by omega) (by omega)) f, ← sum_del (h.mem (i := 1 + n + l) (by omega) (by omega)) f, ← sum_del (h.mem (i := 1 + a l) (by omega) (by omega)) f,
    ← sum_del (h.mem (i := 1 + b l) (by omega) (by omega)) f, ← Finset.sum_add_distrib, ← Finset.sum_sub_distrib, ← Finset.sum_sub_distrib, Finset.mul_sum]
  refine Finset.sum_congr rfl fun k hk => ?_
  rw [Finset.mem_Icc] at hk
  rw [h.z2 k l hk.1 hk.2 l1 l2]; ring

/-- The sum over the points with the weights of a column of `BMAT`. -/
theorem Axes.bsum1 (h : Axes n m npt ka al be sg pts z bm a b) {l : Nat} (l1 : 1 ≤ l) (l2 : l ≤ n) (l3 : l ≤ m) (f : Nat → K) :
    ∑ k ∈ Finset.Icc 1 npt, bm k l * f k = -((al l + be l) / (al l * be l)) * f 1 - be l / (al l * (al l - be l)) * f (1 + l) + al l / (be l * (al l - be l)) * f (1 + n + l) := by
  rw [← sum_del (h.mem (i := 1) (by omega) (by omega)) f, ← sum_del (h.mem (i := 1 + l) (by omega) (by omega)) f, ← sum_del (h.mem (i := 1 + n + l) (by omega) (by omega)) f,
    Finset.mul_sum, Finset.mul_sum, Finset.mul_sum, ← Finset.sum_sub_distrib, ← Finset.sum_add_distrib]
  refine Finset.sum_congr rfl fun k hk => ?_
  rw [Finset.mem_Icc] at hk
  rw [h.b1 k l hk.1 hk.2 l1 l2 l3]; ring

theorem Axes.bsum2 (h : Axes n m npt ka al be sg pts z bm a b) {l : Nat} (l2 : l ≤ n) (l3 : m < l) (f : Nat → K) :
    ∑ k ∈ Finset.Icc 1 npt, bm k l * f k = 1 / al l * (f (1 + l) - f 1) := by
  rw [← sum_del (h.mem (i := 1 + l) (by omega) (by omega)) f, ← sum_del (h.mem (i := 1) (by omega) (by omega)) f, ← Finset.sum_sub_distrib, Finset.mul_sum]
  refine Finset.sum_congr rfl fun k hk => ?_
  rw [Finset.mem_Icc] at hk
  rw [h.b2 k l hk.1 hk.2 l2 l3]; ring

/-- The points. -/
theorem Axes.cases (h : Axes n m npt ka al be sg pts z bm a b) {i : Nat} (i1 : 1 ≤ i) (i2 : i ≤ npt) :
    i = 1 ∨ (∃ l, 1 ≤ l ∧ l ≤ n ∧ i = 1 + l) ∨ (∃ l, 1 ≤ l ∧ l ≤ n ∧ l ≤ m ∧ i = 1 + n + l) ∨ (∃ l, n < l ∧ l ≤ m ∧ i = 1 + n + l) := by
  have := h.hn
  by_cases c1 : i = 1
  · exact Or.inl c1
  · by_cases c2 : i ≤ n + 1
    · exact Or.inr (Or.inl ⟨i - 1, by omega, by omega, by omega⟩)
    · by_cases c3 : i ≤ 2 * n + 1
      · exact Or.inr (Or.inr (Or.inl ⟨i - 1 - n, by omega, by omega, by omega, by omega⟩))
      · exact Or.inr (Or.inr (Or.inr ⟨i - 1 - n, by omega, by omega, by omega⟩))

/-- The second derivatives of the columns of `ZMAT`. -/
theorem Axes.curv1 (h : Axes n m npt ka al be sg pts z bm a b) {l : Nat} (l1 : 1 ≤ l) (l2 : l ≤ n) (l3 : l ≤ m) (y : Nat → K) :
    ∑ k ∈ Finset.Icc 1 npt, z k l * (dot n (pts k) y * dot n (pts k) y / 2) = ka / 2 * (y l * y l) := by
  have q1 := h.al0 l l1 l2
  have q2 := h.be0 l l1 l2 l3
  have q3 := h.ab0 l l1 l2 l3
  rw [h.zsum1 l1 l2 l3, h.dot2 l1 l2, h.dot3 l1 l2 l3, h.dot1]
  field_simp
  ring

theorem Axes.curv2 (h : Axes n m npt ka al be sg pts z bm a b) {l : Nat} (l1 : n < l) (l2 : l ≤ m) (y : Nat → K) :
    ∑ k ∈ Finset.Icc 1 npt, z k l * (dot n (pts k) y * dot n (pts k) y / 2) = sg l * (al (a l) * y (a l) * (al (b l) * y (b l))) := by
  obtain ⟨a1, a2⟩ := h.ha l l1 l2
  obtain ⟨b1, b2⟩ := h.hb l l1 l2
  rw [h.zsum2 l1 l2, h.dot4 l1 l2, h.dot1, h.dot2 a1 a2, h.dot2 b1 b2]; ring

/-- The Lagrange functions without the products of different components. -/
def ellA (n m : Nat) (ka : K) (z bm : Nat → Nat → K) (t : Nat) (y : Nat → K) : K :=
  ∑ l ∈ Finset.Icc 1 (min n m), z t l * (ka / 2 * (y l * y l)) + dot n (bm t) y

theorem ellA_axis {t l : Nat} (l1 : 1 ≤ l) (l2 : l ≤ n) {e : K} {y : Nat → K} (hy : ∀ j, 1 ≤ j → j ≤ n → y j = e * del j l) :
    ellA n m ka z bm t y = (if l ≤ m then z t l * (ka / 2 * (e * e)) else 0) + e * bm t l := by
  unfold ellA
  have hd : dot n (bm t) y = e * bm t l := by
    unfold dot
    rw [← sum_del (Finset.mem_Icc.mpr ⟨l1, l2⟩) (fun j => bm t j), Finset.mul_sum]
    refine Finset.sum_congr rfl fun j hj => ?_
    rw [Finset.mem_Icc] at hj
    rw [hy j hj.1 hj.2]; ring
  have hs : ∑ l' ∈ Finset.Icc 1 (min n m), z t l' * (ka / 2 * (y l' * y l')) = if l ≤ m then z t l * (ka / 2 * (e * e)) else 0 := by
    split_ifs with c
    · rw [Finset.sum_eq_single l]
      · rw [hy l l1 l2, del_self]; ring
      · intro j hj hjl
        rw [Finset.mem_Icc] at hj
        rw [hy j hj.1 (by omega), del_ne hjl]; ring
      · intro hn
        exact absurd (Finset.mem_Icc.mpr ⟨l1, by omega⟩) hn
    · refine Finset.sum_eq_zero fun j hj => ?_
      rw [Finset.mem_Icc] at hj
      rw [hy j hj.1 (by omega), del_ne (by omega)]; ring
  rw [hd, hs]

theorem Axes.ell2 (h : Axes n m npt ka al be sg pts z bm a b) {t l : Nat} (t1 : 1 ≤ t) (t2 : t ≤ npt) (l1 : 1 ≤ l) (l2 : l ≤ n) :
    ellA n m ka z bm t (pts (1 + l)) = del t (1 + l) - del t 1 := by
  have q1 := h.al0 l l1 l2
  rw [ellA_axis l1 l2 (fun j j1 j2 => h.p2 l j l1 l2 j1 j2)]
  split_ifs with c
  · have q2 := h.be0 l l1 l2 c
    have q3 := h.ab0 l l1 l2 c
    have hk := h.hk
    rw [h.z1 t l t1 t2 l1 l2 c, h.b1 t l t1 t2 l1 l2 c]
    have e : ∀ w : K, ka * w * (ka / 2 * (al l * al l)) = w * (al l * al l) := by intro w; linear_combination w * (al l * al l) / 2 * hk
    rw [e]
    field_simp
    ring
  · rw [h.b2 t l t1 t2 l2 (by omega)]
    field_simp
    ring

theorem Axes.ell3 (h : Axes n m npt ka al be sg pts z bm a b) {t l : Nat} (t1 : 1 ≤ t) (t2 : t ≤ npt) (l1 : 1 ≤ l) (l2 : l ≤ n) (c : l ≤ m) :
    ellA n m ka z bm t (pts (1 + n + l)) = del t (1 + n + l) - del t 1 := by
  have q1 := h.al0 l l1 l2
  rw [ellA_axis l1 l2 (fun j j1 j2 => h.p3 l j l1 l2 c j1 j2), if_pos c]
  have q2 := h.be0 l l1 l2 c
  have q3 := h.ab0 l l1 l2 c
  have hk := h.hk
  rw [h.z1 t l t1 t2 l1 l2 c, h.b1 t l t1 t2 l1 l2 c]
  have e : ∀ w : K, ka * w * (ka / 2 * (be l * be l)) = w * (be l * be l) := by intro w; linear_combination w * (be l * be l) / 2 * hk
  rw [e]
  field_simp
  ring

/-- The Lagrange functions at the points. -/
theorem Axes.lagrange (h : Axes n m npt ka al be sg pts z bm a b) {t i : Nat} (t1 : 1 ≤ t) (t2 : t ≤ npt) (i1 : 1 ≤ i) (i2 : i ≤ npt) :
    del t 1 + ∑ k ∈ Finset.Icc 1 npt, (∑ l ∈ Finset.Icc 1 m, z k l * z t l) * (dot n (pts k) (pts i) * dot n (pts k) (pts i) / 2) + dot n (bm t) (pts i) = del i t := by
  -- the sum over the columns
  have e1 : ∑ k ∈ Finset.Icc 1 npt, (∑ l ∈ Finset.Icc 1 m, z k l * z t l) * (dot n (pts k) (pts i) * dot n (pts k) (pts i) / 2)
      = ∑ l ∈ Finset.Icc 1 m, z t l * ∑ k ∈ Finset.Icc 1 npt, z k l * (dot n (pts k) (pts i) * dot n (pts k) (pts i) / 2) := by
    simp only [Finset.sum_mul, Finset.mul_sum]
    rw [Finset.sum_comm]
    exact Finset.sum_congr rfl fun l _ => Finset.sum_congr rfl fun k _ => by ring
  have e2 : ∑ l ∈ Finset.Icc 1 m, z t l * ∑ k ∈ Finset.Icc 1 npt, z k l * (dot n (pts k) (pts i) * dot n (pts k) (pts i) / 2)
      = ∑ l ∈ Finset.Icc 1 (min n m), z t l * (ka / 2 * (pts i l * pts i l))
        + ∑ l ∈ Finset.Ioc n m, z t l * (sg l * (al (a l) * al (b l) * (al (a l) * al (b l))) * del i (1 + n + l)) := by
    have split : Finset.Icc 1 m = Finset.Icc 1 (min n m) ∪ Finset.Ioc n m := by
      ext x; simp only [Finset.mem_union, Finset.mem_Icc, Finset.mem_Ioc]; omega
    rw [split, Finset.sum_union (by
      rw [Finset.disjoint_left]; intro x hx hx'; rw [Finset.mem_Icc] at hx; rw [Finset.mem_Ioc] at hx'; omega)]
    congr 1
    · refine Finset.sum_congr rfl fun l hl => ?_
      rw [Finset.mem_Icc] at hl
      rw [h.curv1 hl.1 (by omega) (by omega)]
    · refine Finset.sum_congr rfl fun l hl => ?_
      rw [Finset.mem_Ioc] at hl
      rw [h.curv2 hl.1 hl.2]
      linear_combination z t l * sg l * al (a l) * al (b l) * h.key l i hl.1 hl.2 i1 i2
  rw [e1, e2]
  have e3 : ∀ v : K, del t 1 + (∑ l ∈ Finset.Icc 1 (min n m), z t l * (ka / 2 * (pts i l * pts i l)) + v) + dot n (bm t) (pts i)
      = del t 1 + ellA n m ka z bm t (pts i) + v := by intro v; unfold ellA; ring
  rw [e3]
  have none : (∀ l, n < l → i ≠ 1 + n + l) → ∑ l ∈ Finset.Ioc n m, z t l * (sg l * (al (a l) * al (b l) * (al (a l) * al (b l))) * del i (1 + n + l)) = 0 := by
    intro hne
    refine Finset.sum_eq_zero fun l hl => ?_
    rw [Finset.mem_Ioc] at hl
    rw [del_ne (hne l hl.1)]; ring
  rcases h.cases i1 i2 with c | ⟨l, l1, l2, c⟩ | ⟨l, l1, l2, l3, c⟩ | ⟨l, l1, l2, c⟩
  · rw [none (by omega), c]
    have : ellA n m ka z bm t (pts 1) = 0 := by
      unfold ellA
      rw [dot_comm, h.dot1, add_zero]
      refine Finset.sum_eq_zero fun l hl => ?_
      rw [Finset.mem_Icc] at hl
      rw [h.p1 l hl.1 (by omega)]; ring
    rw [this, del_comm]; ring
  · rw [none (by omega), c, h.ell2 t1 t2 l1 l2, del_comm (1 + l) t]; ring
  · rw [none (by omega), c, h.ell3 t1 t2 l1 l2 l3, del_comm (1 + n + l) t]; ring
  · obtain ⟨a1, a2⟩ := h.ha l l1 l2
    obtain ⟨b1, b2⟩ := h.hb l l1 l2
    have hn := h.hn
    have sum : ellA n m ka z bm t (pts i) = ellA n m ka z bm t (pts (1 + a l)) + ellA n m ka z bm t (pts (1 + b l)) := by
      unfold ellA
      have d : dot n (bm t) (pts i) = dot n (bm t) (pts (1 + a l)) + dot n (bm t) (pts (1 + b l)) := by
        rw [dot_comm, c, h.dot4 l1 l2, dot_comm, dot_comm n (pts (1 + b l))]
      have s : ∑ l' ∈ Finset.Icc 1 (min n m), z t l' * (ka / 2 * (pts i l' * pts i l')) = ∑ l' ∈ Finset.Icc 1 (min n m), z t l' * (ka / 2 * (pts (1 + a l) l' * pts (1 + a l) l'))
          + ∑ l' ∈ Finset.Icc 1 (min n m), z t l' * (ka / 2 * (pts (1 + b l) l' * pts (1 + b l) l')) := by
        rw [← Finset.sum_add_distrib]
        refine Finset.sum_congr rfl fun j hj => ?_
        rw [Finset.mem_Icc] at hj
        have : pts (1 + a l) j * pts (1 + b l) j = 0 := by
          rw [h.p2 _ j a1 a2 hj.1 (by omega), h.p2 _ j b1 b2 hj.1 (by omega)]
          by_cases e : j = a l
          · rw [del_ne (show j ≠ b l from fun e' => h.ne l l1 l2 (e.symm.trans e'))]; ring
          · rw [del_ne e]; ring
        rw [c, h.p4 l j l1 l2 hj.1 (by omega)]
        linear_combination z t j * ka * this
      rw [d, s]; ring
    have last : ∑ l' ∈ Finset.Ioc n m, z t l' * (sg l' * (al (a l') * al (b l') * (al (a l') * al (b l'))) * del i (1 + n + l'))
        = z t l * (sg l * (al (a l) * al (b l) * (al (a l) * al (b l)))) := by
      rw [Finset.sum_eq_single l]
      · rw [c, del_self, mul_one]
      · intro l' _ hne
        rw [del_ne (by omega)]; ring
      · intro hno
        exact absurd (Finset.mem_Ioc.mpr ⟨l1, l2⟩) hno
    rw [sum, last, h.ell2 t1 t2 a1 a2, h.ell2 t1 t2 b1 b2, h.z2 t l t1 t2 l1 l2, ← c, del_comm i t]
    linear_combination (del t 1 + del t i - del t (1 + a l) - del t (1 + b l)) * h.hs l l1 l2

/-- The first arrays hold the inverse matrix. -/
theorem Axes.good (h : Axes n m npt ka al be sg pts z bm a b) : Good n npt pts (fun i j => ∑ k ∈ Finset.Icc 1 m, z i k * z j k) bm (fun i => del i 1) := by
  have hn := h.hn
  refine ⟨fun i j => Finset.sum_congr rfl fun _ _ => mul_comm _ _, fun i j i1 i2 j1 j2 => ?_, fun i hi j hj => ?_⟩
  · rw [h.b3 i j i1 i2 j1 j2, h.b3 j i j1 j2 i1 i2]
    by_cases c : i = j
    · rw [c]
    · rw [del_ne c, del_ne (Ne.symm c)]; split_ifs <;> ring
  · show _ = del i j
    rw [sum_idx]
    rcases idx_cases hj with rfl | ⟨j1, j2⟩ | ⟨j, rfl, j1, j2⟩
    · -- the first column
      have e0 : Hm npt (fun i => (del i 1 : K)) (fun i j => ∑ k ∈ Finset.Icc 1 m, z i k * z j k) bm 0 0 = 0 := rfl
      have e1 : ∀ k, 1 ≤ k → Hm npt (fun i => (del i 1 : K)) (fun i j => ∑ k ∈ Finset.Icc 1 m, z i k * z j k) bm k 0 = del k 1 := by
        intro k k1; unfold Hm; rw [if_neg (by omega), if_pos rfl]
      have s1 : ∑ k ∈ Finset.Icc 1 npt, Wm n npt pts i k * Hm npt (fun i => (del i 1 : K)) (fun i j => ∑ k ∈ Finset.Icc 1 m, z i k * z j k) bm k 0 = Wm n npt pts i 1 := by
        rw [← sum_del (h.mem (i := 1) (by omega) (by omega)) (fun k => Wm n npt pts i k)]
        refine Finset.sum_congr rfl fun k hk => ?_
        rw [Finset.mem_Icc] at hk
        rw [e1 k hk.1, mul_comm]
      have s2 : ∑ k ∈ Finset.Icc 1 n, Wm n npt pts i (npt + k) * Hm npt (fun i => (del i 1 : K)) (fun i j => ∑ k ∈ Finset.Icc 1 m, z i k * z j k) bm (npt + k) 0 = 0 := by
        refine Finset.sum_eq_zero fun k hk => ?_
        rw [Finset.mem_Icc] at hk
        rw [e1 _ (by omega), del_ne (by omega), mul_zero]
      rw [e0, s1, s2, mul_zero, zero_add, add_zero, Wm_pt (le_refl 1) (by omega)]
      rcases idx_cases hi with rfl | ⟨i1, i2⟩ | ⟨i', rfl, i1, i2⟩
      · rw [col_zero]; rfl
      · rw [Powell.col_pt i1 i2, dot_comm, h.dot1, del_ne (by omega)]; ring
      · rw [col_grad i1, h.p1 i' i1 i2, del_ne (by omega)]
    · -- the columns of the points
      have e0 : Hm npt (fun i => (del i 1 : K)) (fun i j => ∑ k ∈ Finset.Icc 1 m, z i k * z j k) bm 0 j = del j 1 := rfl
      rcases idx_cases hi with rfl | ⟨i1, i2⟩ | ⟨i', rfl, i1, i2⟩
      · have s2 : ∑ k ∈ Finset.Icc 1 n, Wm n npt pts 0 (npt + k) * Hm npt (fun i => (del i 1 : K)) (fun i j => ∑ k ∈ Finset.Icc 1 m, z i k * z j k) bm (npt + k) j = 0 := by
          refine Finset.sum_eq_zero fun k hk => ?_
          rw [Finset.mem_Icc] at hk
          rw [Wm_out (by omega) (by omega), zero_mul]
        have s1 : ∑ k ∈ Finset.Icc 1 npt, Wm n npt pts 0 k * Hm npt (fun i => (del i 1 : K)) (fun i j => ∑ k ∈ Finset.Icc 1 m, z i k * z j k) bm k j = ∑ l ∈ Finset.Icc 1 m, z j l * ∑ k ∈ Finset.Icc 1 npt, z k l * 1 := by
          simp only [Finset.mul_sum]
          rw [Finset.sum_comm]
          refine Finset.sum_congr rfl fun k hk => ?_
          rw [Finset.mem_Icc] at hk
          rw [Wm_pt hk.1 hk.2, col_zero, one_mul, Hm_pp hk.1 hk.2 j1 j2]
          exact Finset.sum_congr rfl fun l _ => by ring
        rw [s1, s2, Wm_out (by omega) (by omega), zero_mul, zero_add, add_zero, del_ne (by omega)]
        refine Finset.sum_eq_zero fun l hl => ?_
        rw [Finset.mem_Icc] at hl
        by_cases c : l ≤ n
        · have q1 := h.al0 _ hl.1 c; have q2 := h.be0 _ hl.1 c hl.2; have q3 := h.ab0 _ hl.1 c hl.2; rw [h.zsum1 hl.1 c hl.2 (fun _ => 1)]; field_simp; ring
        · rw [h.zsum2 (by omega) hl.2 (fun _ => 1)]; ring
      · rw [e0, ← h.lagrange j1 j2 i1 i2, Wm_pt' i1 i2, col_zero, one_mul]
        congr 1
        · congr 1
          refine Finset.sum_congr rfl fun k hk => ?_
          rw [Finset.mem_Icc] at hk
          rw [Wm_pt' i1 i2, Powell.col_pt hk.1 hk.2, Hm_pp hk.1 hk.2 j1 j2, mul_comm]
        · refine Finset.sum_congr rfl fun l hl => ?_
          rw [Finset.mem_Icc] at hl
          rw [Wm_pt' i1 i2, col_grad hl.1, Hm_gp hl.1 j1 j2, mul_comm]
      · have s2 : ∑ k ∈ Finset.Icc 1 n, Wm n npt pts (npt + i') (npt + k) * Hm npt (fun i => (del i 1 : K)) (fun i j => ∑ k ∈ Finset.Icc 1 m, z i k * z j k) bm (npt + k) j = 0 := by
          refine Finset.sum_eq_zero fun k hk => ?_
          rw [Finset.mem_Icc] at hk
          rw [Wm_out (by omega) (by omega), zero_mul]
        have s1 : ∑ k ∈ Finset.Icc 1 npt, Wm n npt pts (npt + i') k * Hm npt (fun i => (del i 1 : K)) (fun i j => ∑ k ∈ Finset.Icc 1 m, z i k * z j k) bm k j = ∑ l ∈ Finset.Icc 1 m, z j l * ∑ k ∈ Finset.Icc 1 npt, z k l * pts k i' := by
          simp only [Finset.mul_sum]
          rw [Finset.sum_comm]
          refine Finset.sum_congr rfl fun k hk => ?_
          rw [Finset.mem_Icc] at hk
          rw [Wm_pt hk.1 hk.2, col_grad i1, Hm_pp hk.1 hk.2 j1 j2, Finset.mul_sum]
          exact Finset.sum_congr rfl fun l _ => by ring
        rw [s1, s2, Wm_out (by omega) (by omega), zero_mul, zero_add, add_zero, del_ne (by omega)]
        refine Finset.sum_eq_zero fun l hl => ?_
        rw [Finset.mem_Icc] at hl
        by_cases c : l ≤ n
        · have q1 := h.al0 _ hl.1 c; have q2 := h.be0 _ hl.1 c hl.2; have q3 := h.ab0 _ hl.1 c hl.2; rw [h.zsum1 hl.1 c hl.2 (fun k => pts k i'), h.p2 l i' hl.1 c i1 i2, h.p3 l i' hl.1 c hl.2 i1 i2, h.p1 i' i1 i2]; field_simp; ring
        · rw [h.zsum2 (by omega) hl.2 (fun k => pts k i'), h.p4 l i' (by omega) hl.2 i1 i2, h.p1 i' i1 i2]; ring
    · -- the columns of the gradient
      have e0 : Hm npt (fun i => (del i 1 : K)) (fun i j => ∑ k ∈ Finset.Icc 1 m, z i k * z j k) bm 0 (npt + j) = 0 := by
        show (del (npt + j) 1 : K) = 0
        exact del_ne (by omega)
      rw [e0, mul_zero, zero_add]
      rcases idx_cases hi with rfl | ⟨i1, i2⟩ | ⟨i', rfl, i1, i2⟩
      · have s2 : ∑ k ∈ Finset.Icc 1 n, Wm n npt pts 0 (npt + k) * Hm npt (fun i => (del i 1 : K)) (fun i j => ∑ k ∈ Finset.Icc 1 m, z i k * z j k) bm (npt + k) (npt + j) = 0 := by
          refine Finset.sum_eq_zero fun k hk => ?_
          rw [Finset.mem_Icc] at hk
          rw [Wm_out (by omega) (by omega), zero_mul]
        have s1 : ∑ k ∈ Finset.Icc 1 npt, Wm n npt pts 0 k * Hm npt (fun i => (del i 1 : K)) (fun i j => ∑ k ∈ Finset.Icc 1 m, z i k * z j k) bm k (npt + j) = ∑ k ∈ Finset.Icc 1 npt, bm k j * 1 := by
          refine Finset.sum_congr rfl fun k hk => ?_
          rw [Finset.mem_Icc] at hk
          rw [Wm_pt hk.1 hk.2, col_zero, Hm_pg hk.1 hk.2 j1, mul_comm]
        rw [s1, s2, add_zero, del_ne (by omega)]
        by_cases c : j ≤ m
        · have q1 := h.al0 _ j1 j2; have q2 := h.be0 _ j1 j2 c; have q3 := h.ab0 _ j1 j2 c; rw [h.bsum1 j1 j2 c (fun _ => 1)]; field_simp; ring
        · rw [h.bsum2 j2 (by omega) (fun _ => 1)]; ring
      · have s2 : ∑ k ∈ Finset.Icc 1 n, Wm n npt pts i (npt + k) * Hm npt (fun i => (del i 1 : K)) (fun i j => ∑ k ∈ Finset.Icc 1 m, z i k * z j k) bm (npt + k) (npt + j)
            = if m < j then -(al j * al j) / 2 * pts i j else 0 := by
          have : ∀ k ∈ Finset.Icc 1 n, Wm n npt pts i (npt + k) * Hm npt (fun i => (del i 1 : K)) (fun i j => ∑ k ∈ Finset.Icc 1 m, z i k * z j k) bm (npt + k) (npt + j)
              = del k j * (if m < j then -(al j * al j) / 2 * pts i k else 0) := by
            intro k hk
            rw [Finset.mem_Icc] at hk
            rw [Wm_pt' i1 i2, col_grad hk.1, Hm_gg hk.1 j1, h.b3 k j hk.1 hk.2 j1 j2]
            split_ifs <;> ring
          rw [Finset.sum_congr rfl this, sum_del (Finset.mem_Icc.mpr ⟨j1, j2⟩)]
        have s1 : ∑ k ∈ Finset.Icc 1 npt, Wm n npt pts i k * Hm npt (fun i => (del i 1 : K)) (fun i j => ∑ k ∈ Finset.Icc 1 m, z i k * z j k) bm k (npt + j)
            = ∑ k ∈ Finset.Icc 1 npt, bm k j * (dot n (pts k) (pts i) * dot n (pts k) (pts i) / 2) := by
          refine Finset.sum_congr rfl fun k hk => ?_
          rw [Finset.mem_Icc] at hk
          rw [Wm_pt' i1 i2, Powell.col_pt hk.1 hk.2, Hm_pg hk.1 hk.2 j1, mul_comm]
        rw [s1, s2, del_ne (by omega)]
        by_cases c : j ≤ m
        · have q1 := h.al0 _ j1 j2; have q2 := h.be0 _ j1 j2 c; have q3 := h.ab0 _ j1 j2 c; rw [h.bsum1 j1 j2 c, h.dot2 j1 j2, h.dot3 j1 j2 c, h.dot1, if_neg (by omega)]; field_simp; ring
        · rw [h.bsum2 j2 (by omega), h.dot2 j1 j2, h.dot1, if_pos (by omega)]
          have q1 := h.al0 _ j1 j2
          have x01 : pts i j * pts i j = al j * pts i j := by
            rcases h.cases i1 i2 with c' | ⟨l, l1, l2, c'⟩ | ⟨l, l1, l2, l3, c'⟩ | ⟨l, l1, l2, c'⟩
            · rw [c', h.p1 j j1 j2]; ring
            · rw [c', h.p2 l j l1 l2 j1 j2]
              by_cases e : j = l
              · rw [e, del_self]; ring
              · rw [del_ne e]; ring
            · rw [c', h.p3 l j l1 l2 l3 j1 j2, del_ne (by omega)]; ring
            · omega
          have e : 1 / al j * (al j * pts i j * (al j * pts i j) / 2 - 0 * 0 / 2) = al j * (pts i j * pts i j) / 2 := by
            rw [zero_mul, zero_div, sub_zero]; field_simp
          rw [e]
          linear_combination al j / 2 * x01
      · have s2 : ∑ k ∈ Finset.Icc 1 n, Wm n npt pts (npt + i') (npt + k) * Hm npt (fun i => (del i 1 : K)) (fun i j => ∑ k ∈ Finset.Icc 1 m, z i k * z j k) bm (npt + k) (npt + j) = 0 := by
          refine Finset.sum_eq_zero fun k hk => ?_
          rw [Finset.mem_Icc] at hk
          rw [Wm_out (by omega) (by omega), zero_mul]
        have s1 : ∑ k ∈ Finset.Icc 1 npt, Wm n npt pts (npt + i') k * Hm npt (fun i => (del i 1 : K)) (fun i j => ∑ k ∈ Finset.Icc 1 m, z i k * z j k) bm k (npt + j) = ∑ k ∈ Finset.Icc 1 npt, bm k j * pts k i' := by
          refine Finset.sum_congr rfl fun k hk => ?_
          rw [Finset.mem_Icc] at hk
          rw [Wm_pt hk.1 hk.2, col_grad i1, Hm_pg hk.1 hk.2 j1, mul_comm]
        rw [s1, s2, add_zero]
        have dd : (del (npt + i') (npt + j) : K) = del i' j := by unfold del; simp
        rw [dd]
        by_cases c : j ≤ m
        · have q1 := h.al0 _ j1 j2; have q2 := h.be0 _ j1 j2 c; have q3 := h.ab0 _ j1 j2 c; rw [h.bsum1 j1 j2 c (fun k => pts k i'), h.p2 j i' j1 j2 i1 i2, h.p3 j i' j1 j2 c i1 i2, h.p1 i' i1 i2]; field_simp; ring
        · have q1 := h.al0 _ j1 j2; rw [h.bsum2 j2 (by omega) (fun k => pts k i'), h.p2 j i' j1 j2 i1 i2, h.p1 i' i1 i2]; field_simp; ring

end Opk.Powell
