import Verif.Powell.Change
import Mathlib.Tactic.FieldSimp

/-!
# The first inverse matrix of NEWUOA

The first points are the origin, one or two points on each axis, and sums of two points on different axes.
-/
namespace Opk.Powell

variable {K : Type} [Field K] [LinearOrder K] [IsStrictOrderedRing K]

/-- `1` if the indices are equal, `0` otherwise. -/
def del (i j : Nat) : K := if i = j then 1 else 0

/-- The first points and the first arrays, with `m` columns in `ZMAT`. -/
structure Cfg (n m npt : Nat) (r q : K) (pts z bm : Nat → Nat → K) (a b : Nat → Nat) : Prop where
  hn : npt = m + n + 1
  hr : r ≠ 0
  hq : 2 * (q * q) * (r * r * (r * r)) = 1
  p1 : ∀ j, 1 ≤ j → j ≤ n → pts 1 j = 0
  p2 : ∀ l j, 1 ≤ l → l ≤ n → 1 ≤ j → j ≤ n → pts (1 + l) j = r * del j l
  p3 : ∀ l j, 1 ≤ l → l ≤ n → l ≤ m → 1 ≤ j → j ≤ n → pts (1 + n + l) j = -r * del j l
  p4 : ∀ l j, n < l → l ≤ m → 1 ≤ j → j ≤ n → pts (1 + n + l) j = pts (a l) j + pts (b l) j
  ha : ∀ l, n < l → l ≤ m → 2 ≤ a l ∧ a l ≤ 2 * n + 1
  hb : ∀ l, n < l → l ≤ m → 2 ≤ b l ∧ b l ≤ 2 * n + 1
  dis : ∀ l j, n < l → l ≤ m → 1 ≤ j → j ≤ n → pts (a l) j * pts (b l) j = 0
  key : ∀ l i, n < l → l ≤ m → 1 ≤ i → i ≤ npt → dot n (pts (a l)) (pts i) * dot n (pts (b l)) (pts i) = r * r * (r * r) * del i (1 + n + l)
  z1 : ∀ k l, 1 ≤ k → k ≤ npt → 1 ≤ l → l ≤ n → l ≤ m → z k l = q * (del k (1 + l) + del k (1 + n + l) - 2 * del k 1)
  z2 : ∀ k l, 1 ≤ k → k ≤ npt → n < l → l ≤ m → z k l = 1 / (r * r) * (del k 1 + del k (1 + n + l) - del k (a l) - del k (b l))
  b1 : ∀ k l, 1 ≤ k → k ≤ npt → 1 ≤ l → l ≤ n → l ≤ m → bm k l = 1 / (2 * r) * (del k (1 + l) - del k (1 + n + l))
  b2 : ∀ k l, 1 ≤ k → k ≤ npt → l ≤ n → m < l → bm k l = 1 / r * (del k (1 + l) - del k 1)
  b3 : ∀ i l, 1 ≤ i → i ≤ n → 1 ≤ l → l ≤ n → bm (npt + i) l = if m < l then -(r * r) / 2 * del i l else 0

theorem sum_del {S : Finset Nat} {i : Nat} (h : i ∈ S) (f : Nat → K) : ∑ k ∈ S, del k i * f k = f i := by
  unfold del
  rw [← sum_delta h f]
  refine Finset.sum_congr rfl fun k _ => ?_
  by_cases q : k = i
  · rw [if_pos q, if_pos q.symm]
  · rw [if_neg q, if_neg (Ne.symm q)]

theorem del_self (i : Nat) : (del i i : K) = 1 := if_pos rfl

theorem del_ne {i j : Nat} (h : i ≠ j) : (del i j : K) = 0 := if_neg h

theorem del_comm (i j : Nat) : (del i j : K) = del j i := by unfold del; simp [eq_comm]

variable {n m npt : Nat} {r q : K} {pts z bm : Nat → Nat → K} {a b : Nat → Nat}

/-- The product of a point on an axis by a vector. -/
theorem Cfg.dot2 (h : Cfg n m npt r q pts z bm a b) {l : Nat} (l1 : 1 ≤ l) (l2 : l ≤ n) (y : Nat → K) : dot n (pts (1 + l)) y = r * y l := by
  unfold dot
  rw [← sum_del (Finset.mem_Icc.mpr ⟨l1, l2⟩) y, Finset.mul_sum]
  refine Finset.sum_congr rfl fun j hj => ?_
  rw [Finset.mem_Icc] at hj
  rw [h.p2 l j l1 l2 hj.1 hj.2, mul_assoc]

theorem Cfg.dot3 (h : Cfg n m npt r q pts z bm a b) {l : Nat} (l1 : 1 ≤ l) (l2 : l ≤ n) (l3 : l ≤ m) (y : Nat → K) : dot n (pts (1 + n + l)) y = -r * y l := by
  unfold dot
  rw [← sum_del (Finset.mem_Icc.mpr ⟨l1, l2⟩) y, Finset.mul_sum]
  refine Finset.sum_congr rfl fun j hj => ?_
  rw [Finset.mem_Icc] at hj
  rw [h.p3 l j l1 l2 l3 hj.1 hj.2, mul_assoc]

theorem Cfg.dot1 (h : Cfg n m npt r q pts z bm a b) (y : Nat → K) : dot n (pts 1) y = 0 := by
  refine Finset.sum_eq_zero fun j hj => ?_
  rw [Finset.mem_Icc] at hj
  rw [h.p1 j hj.1 hj.2, zero_mul]

theorem Cfg.dot4 (h : Cfg n m npt r q pts z bm a b) {l : Nat} (l1 : n < l) (l2 : l ≤ m) (y : Nat → K) :
    dot n (pts (1 + n + l)) y = dot n (pts (a l)) y + dot n (pts (b l)) y := by
  unfold dot
  rw [← Finset.sum_add_distrib]
  refine Finset.sum_congr rfl fun j hj => ?_
  rw [Finset.mem_Icc] at hj
  rw [h.p4 l j l1 l2 hj.1 hj.2, add_mul]

theorem Cfg.mem (h : Cfg n m npt r q pts z bm a b) {i : Nat} (i1 : 1 ≤ i) (i2 : i ≤ m + n + 1) : i ∈ Finset.Icc 1 npt := by
  rw [Finset.mem_Icc, h.hn]; exact ⟨i1, i2⟩

/-- The sum over the points with the weights of a column of `ZMAT`. -/
theorem Cfg.zsum1 (h : Cfg n m npt r q pts z bm a b) {l : Nat} (l1 : 1 ≤ l) (l2 : l ≤ n) (l3 : l ≤ m) (f : Nat → K) :
    ∑ k ∈ Finset.Icc 1 npt, z k l * f k = q * (f (1 + l) + f (1 + n + l) - 2 * f 1) := by
  rw [← sum_del (h.mem (i := 1 + l) (by omega) (by omega)) f, ← sum_del (h.mem (i := 1 + n + l) (by omega) (by omega)) f, ← sum_del (h.mem (i := 1) (by omega) (by omega)) f,
    Finset.mul_sum, ← Finset.sum_add_distrib, ← Finset.sum_sub_distrib, Finset.mul_sum]
  refine Finset.sum_congr rfl fun k hk => ?_
  rw [Finset.mem_Icc] at hk
  rw [h.z1 k l hk.1 hk.2 l1 l2 l3]; ring

theorem Cfg.zsum2 (h : Cfg n m npt r q pts z bm a b) {l : Nat} (l1 : n < l) (l2 : l ≤ m) (f : Nat → K) :
    ∑ k ∈ Finset.Icc 1 npt, z k l * f k = 1 / (r * r) * (f 1 + f (1 + n + l) - f (a l) - f (b l)) := by
  obtain ⟨a1, a2⟩ := h.ha l l1 l2
  obtain ⟨b1, b2⟩ := h.hb l l1 l2
  rw [← sum_del (h.mem (i := 1) (by omega) (by omega)) f, ← sum_del (h.mem (i := 1 + n + l) (by omega) (by omega)) f, ← sum_del (h.mem (i := a l) (by omega) (by omega)) f,
    ← sum_del (h.mem (i := b l) (by omega) (by omega)) f, ← Finset.sum_add_distrib, ← Finset.sum_sub_distrib, ← Finset.sum_sub_distrib, Finset.mul_sum]
  refine Finset.sum_congr rfl fun k hk => ?_
  rw [Finset.mem_Icc] at hk
  rw [h.z2 k l hk.1 hk.2 l1 l2]; ring

/-- The sum over the points with the weights of a column of `BMAT`. -/
theorem Cfg.bsum1 (h : Cfg n m npt r q pts z bm a b) {l : Nat} (l1 : 1 ≤ l) (l2 : l ≤ n) (l3 : l ≤ m) (f : Nat → K) :
    ∑ k ∈ Finset.Icc 1 npt, bm k l * f k = 1 / (2 * r) * (f (1 + l) - f (1 + n + l)) := by
  rw [← sum_del (h.mem (i := 1 + l) (by omega) (by omega)) f, ← sum_del (h.mem (i := 1 + n + l) (by omega) (by omega)) f, ← Finset.sum_sub_distrib, Finset.mul_sum]
  refine Finset.sum_congr rfl fun k hk => ?_
  rw [Finset.mem_Icc] at hk
  rw [h.b1 k l hk.1 hk.2 l1 l2 l3]; ring

theorem Cfg.bsum2 (h : Cfg n m npt r q pts z bm a b) {l : Nat} (l2 : l ≤ n) (l3 : m < l) (f : Nat → K) :
    ∑ k ∈ Finset.Icc 1 npt, bm k l * f k = 1 / r * (f (1 + l) - f 1) := by
  rw [← sum_del (h.mem (i := 1 + l) (by omega) (by omega)) f, ← sum_del (h.mem (i := 1) (by omega) (by omega)) f, ← Finset.sum_sub_distrib, Finset.mul_sum]
  refine Finset.sum_congr rfl fun k hk => ?_
  rw [Finset.mem_Icc] at hk
  rw [h.b2 k l hk.1 hk.2 l2 l3]; ring

/-- The points. -/
theorem Cfg.cases (h : Cfg n m npt r q pts z bm a b) {i : Nat} (i1 : 1 ≤ i) (i2 : i ≤ npt) :
    i = 1 ∨ (∃ l, 1 ≤ l ∧ l ≤ n ∧ i = 1 + l) ∨ (∃ l, 1 ≤ l ∧ l ≤ n ∧ l ≤ m ∧ i = 1 + n + l) ∨ (∃ l, n < l ∧ l ≤ m ∧ i = 1 + n + l) := by
  have := h.hn
  by_cases c1 : i = 1
  · exact Or.inl c1
  · by_cases c2 : i ≤ n + 1
    · exact Or.inr (Or.inl ⟨i - 1, by omega, by omega, by omega⟩)
    · by_cases c3 : i ≤ 2 * n + 1
      · exact Or.inr (Or.inr (Or.inl ⟨i - 1 - n, by omega, by omega, by omega, by omega⟩))
      · exact Or.inr (Or.inr (Or.inr ⟨i - 1 - n, by omega, by omega, by omega⟩))

/-- The second derivatives of the columns of `ZMAT`. -/
theorem Cfg.curv1 (h : Cfg n m npt r q pts z bm a b) {l : Nat} (l1 : 1 ≤ l) (l2 : l ≤ n) (l3 : l ≤ m) (y : Nat → K) :
    ∑ k ∈ Finset.Icc 1 npt, z k l * (dot n (pts k) y * dot n (pts k) y / 2) = q * (r * r) * (y l * y l) := by
  rw [h.zsum1 l1 l2 l3, h.dot2 l1 l2, h.dot3 l1 l2 l3, h.dot1]; ring

theorem Cfg.curv2 (h : Cfg n m npt r q pts z bm a b) {l : Nat} (l1 : n < l) (l2 : l ≤ m) (y : Nat → K) :
    ∑ k ∈ Finset.Icc 1 npt, z k l * (dot n (pts k) y * dot n (pts k) y / 2) = 1 / (r * r) * (dot n (pts (a l)) y * dot n (pts (b l)) y) := by
  rw [h.zsum2 l1 l2, h.dot4 l1 l2, h.dot1]; ring

/-- The Lagrange functions at the points on the axes: the second derivatives along the axes and the gradients. -/
def ell (n m : Nat) (q r : K) (z bm : Nat → Nat → K) (t : Nat) (y : Nat → K) : K :=
  ∑ l ∈ Finset.Icc 1 (min n m), z t l * (q * (r * r) * (y l * y l)) + dot n (bm t) y

theorem Cfg.ell2 (h : Cfg n m npt r q pts z bm a b) {t l : Nat} (t1 : 1 ≤ t) (t2 : t ≤ npt) (l1 : 1 ≤ l) (l2 : l ≤ n) {e : K} (he : e * e = 1)
    (hm : m < l → e = 1) {y : Nat → K} (hy : ∀ j, 1 ≤ j → j ≤ n → y j = e * r * del j l) :
    ell n m q r z bm t y = (if l ≤ m then (1 + e) / 2 * del t (1 + l) + (1 - e) / 2 * del t (1 + n + l) else del t (1 + l)) - del t 1 := by
  unfold ell
  have hd : dot n (bm t) y = e * r * bm t l := by
    unfold dot
    rw [← sum_del (Finset.mem_Icc.mpr ⟨l1, l2⟩) (fun j => bm t j), Finset.mul_sum]
    refine Finset.sum_congr rfl fun j hj => ?_
    rw [Finset.mem_Icc] at hj
    rw [hy j hj.1 hj.2]; ring
  have hs : ∑ l' ∈ Finset.Icc 1 (min n m), z t l' * (q * (r * r) * (y l' * y l')) = if l ≤ m then z t l * (q * (r * r) * (r * r)) else 0 := by
    split_ifs with c
    · rw [Finset.sum_eq_single l]
      · rw [hy l l1 l2, del_self]
        linear_combination z t l * q * r^2 * r^2 * he
      · intro j hj hjl
        rw [Finset.mem_Icc] at hj
        rw [hy j hj.1 (by omega), del_ne hjl]; ring
      · intro hn
        exact absurd (Finset.mem_Icc.mpr ⟨l1, by omega⟩) hn
    · refine Finset.sum_eq_zero fun j hj => ?_
      rw [Finset.mem_Icc] at hj
      rw [hy j hj.1 (by omega), del_ne (by omega)]; ring
  have hr := h.hr
  rw [hd, hs]
  split_ifs with c
  · rw [h.z1 t l t1 t2 l1 l2 c, h.b1 t l t1 t2 l1 l2 c]
    have hq := h.hq
    have er : e * r * (1 / (2 * r)) = e / 2 := by field_simp
    linear_combination (del t (1 + l) + del t (1 + n + l) - 2 * del t 1) / 2 * hq + (del t (1 + l) - del t (1 + n + l)) * er
  · rw [h.b2 t l t1 t2 l2 (by omega), hm (by omega)]
    field_simp
    ring

/-- The Lagrange functions at the points. -/
theorem Cfg.lagrange (h : Cfg n m npt r q pts z bm a b) {t i : Nat} (t1 : 1 ≤ t) (t2 : t ≤ npt) (i1 : 1 ≤ i) (i2 : i ≤ npt) :
    del t 1 + ∑ k ∈ Finset.Icc 1 npt, (∑ l ∈ Finset.Icc 1 m, z k l * z t l) * (dot n (pts k) (pts i) * dot n (pts k) (pts i) / 2) + dot n (bm t) (pts i) = del i t := by
  -- the sum over the columns
  have e1 : ∑ k ∈ Finset.Icc 1 npt, (∑ l ∈ Finset.Icc 1 m, z k l * z t l) * (dot n (pts k) (pts i) * dot n (pts k) (pts i) / 2)
      = ∑ l ∈ Finset.Icc 1 m, z t l * ∑ k ∈ Finset.Icc 1 npt, z k l * (dot n (pts k) (pts i) * dot n (pts k) (pts i) / 2) := by
    simp only [Finset.sum_mul, Finset.mul_sum]
    rw [Finset.sum_comm]
    exact Finset.sum_congr rfl fun l _ => Finset.sum_congr rfl fun k _ => by ring
  have e2 : ∑ l ∈ Finset.Icc 1 m, z t l * ∑ k ∈ Finset.Icc 1 npt, z k l * (dot n (pts k) (pts i) * dot n (pts k) (pts i) / 2)
      = ∑ l ∈ Finset.Icc 1 (min n m), z t l * (q * (r * r) * (pts i l * pts i l)) + ∑ l ∈ Finset.Ioc n m, z t l * (r * r * del i (1 + n + l)) := by
    have split : Finset.Icc 1 m = Finset.Icc 1 (min n m) ∪ Finset.Ioc n m := by
      ext x; simp only [Finset.mem_union, Finset.mem_Icc, Finset.mem_Ioc]; omega
    rw [split, Finset.sum_union (by
      rw [Finset.disjoint_left]; intro x hx hx'; rw [Finset.mem_Icc] at hx; rw [Finset.mem_Ioc] at hx'; omega)]
    congr 1
    · refine Finset.sum_congr rfl fun l hl => ?_
      rw [Finset.mem_Icc] at hl
      rw [h.curv1 hl.1 (by omega) (by omega)]
    · refine Finset.sum_congr rfl fun l hl => ?_
      rw [Finset.mem_Ioc] at hl
      rw [h.curv2 hl.1 hl.2, h.key l i hl.1 hl.2 i1 i2]
      have hr := h.hr
      field_simp
  rw [e1, e2]
  have e3 : del t 1 + (∑ l ∈ Finset.Icc 1 (min n m), z t l * (q * (r * r) * (pts i l * pts i l)) + ∑ l ∈ Finset.Ioc n m, z t l * (r * r * del i (1 + n + l))) + dot n (bm t) (pts i)
      = del t 1 + ell n m q r z bm t (pts i) + ∑ l ∈ Finset.Ioc n m, z t l * (r * r * del i (1 + n + l)) := by unfold ell; ring
  rw [e3]
  have none : (∀ l, n < l → i ≠ 1 + n + l) → ∑ l ∈ Finset.Ioc n m, z t l * (r * r * del i (1 + n + l)) = 0 := by
    intro hne
    refine Finset.sum_eq_zero fun l hl => ?_
    rw [Finset.mem_Ioc] at hl
    rw [del_ne (hne l hl.1)]; ring
  -- the points on the axes
  have axis : ∀ i', 2 ≤ i' → i' ≤ 2 * n + 1 → i' ≤ npt → ell n m q r z bm t (pts i') = del t i' - del t 1 := by
    intro i' j1 j2 j3
    rcases h.cases (show 1 ≤ i' by omega) j3 with c | ⟨l, l1, l2, c⟩ | ⟨l, l1, l2, l3, c⟩ | ⟨l, l1, l2, c⟩
    · omega
    · rw [c, h.ell2 t1 t2 l1 l2 (e := 1) (by ring) (fun _ => rfl) (fun j q1 q2 => by rw [h.p2 l j l1 l2 q1 q2, one_mul])]
      split_ifs <;> ring
    · rw [c, h.ell2 t1 t2 l1 l2 (e := -1) (by ring) (fun q => by omega) (fun j q1 q2 => by rw [h.p3 l j l1 l2 l3 q1 q2]; ring), if_pos l3]
      ring
    · omega
  rcases h.cases i1 i2 with c | ⟨l, l1, l2, c⟩ | ⟨l, l1, l2, l3, c⟩ | ⟨l, l1, l2, c⟩
  · rw [none (by omega), c]
    have : ell n m q r z bm t (pts 1) = 0 := by
      unfold ell
      rw [dot_comm, h.dot1, add_zero]
      refine Finset.sum_eq_zero fun l hl => ?_
      rw [Finset.mem_Icc] at hl
      rw [h.p1 l hl.1 (by omega)]; ring
    rw [this, del_comm]; ring
  · rw [none (by omega), axis i (by omega) (by omega) i2, del_comm i t]; ring
  · rw [none (by omega), axis i (by omega) (by omega) i2, del_comm i t]; ring
  · obtain ⟨a1, a2⟩ := h.ha l l1 l2
    obtain ⟨b1, b2⟩ := h.hb l l1 l2
    have hn := h.hn
    have sum : ell n m q r z bm t (pts i) = ell n m q r z bm t (pts (a l)) + ell n m q r z bm t (pts (b l)) := by
      unfold ell
      have d : dot n (bm t) (pts i) = dot n (bm t) (pts (a l)) + dot n (bm t) (pts (b l)) := by
        rw [dot_comm, c, h.dot4 l1 l2, dot_comm, dot_comm n (pts (b l))]
      have s : ∑ l' ∈ Finset.Icc 1 (min n m), z t l' * (q * (r * r) * (pts i l' * pts i l')) = ∑ l' ∈ Finset.Icc 1 (min n m), z t l' * (q * (r * r) * (pts (a l) l' * pts (a l) l'))
          + ∑ l' ∈ Finset.Icc 1 (min n m), z t l' * (q * (r * r) * (pts (b l) l' * pts (b l) l')) := by
        rw [← Finset.sum_add_distrib]
        refine Finset.sum_congr rfl fun j hj => ?_
        rw [Finset.mem_Icc] at hj
        have := h.dis l j l1 l2 hj.1 (by omega)
        rw [c, h.p4 l j l1 l2 hj.1 (by omega)]
        linear_combination 2 * z t j * q * r * r * this
      rw [d, s]; ring
    have last : ∑ l' ∈ Finset.Ioc n m, z t l' * (r * r * del i (1 + n + l')) = z t l * (r * r) := by
      rw [Finset.sum_eq_single l]
      · rw [c, del_self, mul_one]
      · intro l' _ hne
        rw [del_ne (by omega)]; ring
      · intro hno
        exact absurd (Finset.mem_Ioc.mpr ⟨l1, l2⟩) hno
    rw [sum, last, axis (a l) a1 a2 (by omega), axis (b l) b1 b2 (by omega), h.z2 t l t1 t2 l1 l2, ← c, del_comm i t]
    have hr := h.hr
    field_simp
    ring

/-- The first arrays hold the inverse matrix. -/
theorem Cfg.good (h : Cfg n m npt r q pts z bm a b) : Good n npt pts (fun i j => ∑ k ∈ Finset.Icc 1 m, z i k * z j k) bm (fun i => del i 1) := by
  have hn := h.hn
  have hr := h.hr
  refine ⟨fun i j => Finset.sum_congr rfl fun _ _ => mul_comm _ _, fun i j i1 i2 j1 j2 => ?_, fun i hi j hj => ?_⟩
  · rw [h.b3 i j i1 i2 j1 j2, h.b3 j i j1 j2 i1 i2]
    by_cases c : i = j
    · rw [c]
    · rw [del_ne c, del_ne (Ne.symm c)]; split_ifs <;> ring
  · show _ = del i j
    rw [sum_idx]
    rcases idx_cases hj with rfl | ⟨j1, j2⟩ | ⟨j, rfl, j1, j2⟩
    · -- the first column
      have e0 : Hm npt (fun i => (del i 1 : K)) (fun i j => ∑ k ∈ Finset.Icc 1 m, z i k * z j k) bm 0 0 = 0 := rfl
      have e1 : ∀ k, 1 ≤ k → Hm npt (fun i => (del i 1 : K)) (fun i j => ∑ k ∈ Finset.Icc 1 m, z i k * z j k) bm k 0 = del k 1 := by
        intro k k1; unfold Hm; rw [if_neg (by omega), if_pos rfl]
      have s1 : ∑ k ∈ Finset.Icc 1 npt, Wm n npt pts i k * Hm npt (fun i => (del i 1 : K)) (fun i j => ∑ k ∈ Finset.Icc 1 m, z i k * z j k) bm k 0 = Wm n npt pts i 1 := by
        rw [← sum_del (h.mem (i := 1) (by omega) (by omega)) (fun k => Wm n npt pts i k)]
        refine Finset.sum_congr rfl fun k hk => ?_
        rw [Finset.mem_Icc] at hk
        rw [e1 k hk.1, mul_comm]
      have s2 : ∑ k ∈ Finset.Icc 1 n, Wm n npt pts i (npt + k) * Hm npt (fun i => (del i 1 : K)) (fun i j => ∑ k ∈ Finset.Icc 1 m, z i k * z j k) bm (npt + k) 0 = 0 := by
        refine Finset.sum_eq_zero fun k hk => ?_
        rw [Finset.mem_Icc] at hk
        rw [e1 _ (by omega), del_ne (by omega), mul_zero]
      rw [e0, s1, s2, mul_zero, zero_add, add_zero, Wm_pt (le_refl 1) (by omega)]
      rcases idx_cases hi with rfl | ⟨i1, i2⟩ | ⟨i', rfl, i1, i2⟩
      · rw [col_zero]; rfl
      · rw [Powell.col_pt i1 i2, dot_comm, h.dot1, del_ne (by omega)]; ring
      · rw [col_grad i1, h.p1 i' i1 i2, del_ne (by omega)]
    · -- the columns of the points
      have e0 : Hm npt (fun i => (del i 1 : K)) (fun i j => ∑ k ∈ Finset.Icc 1 m, z i k * z j k) bm 0 j = del j 1 := rfl
      rcases idx_cases hi with rfl | ⟨i1, i2⟩ | ⟨i', rfl, i1, i2⟩
      · have s2 : ∑ k ∈ Finset.Icc 1 n, Wm n npt pts 0 (npt + k) * Hm npt (fun i => (del i 1 : K)) (fun i j => ∑ k ∈ Finset.Icc 1 m, z i k * z j k) bm (npt + k) j = 0 := by
          refine Finset.sum_eq_zero fun k hk => ?_
          rw [Finset.mem_Icc] at hk
          rw [Wm_out (by omega) (by omega), zero_mul]
        have s1 : ∑ k ∈ Finset.Icc 1 npt, Wm n npt pts 0 k * Hm npt (fun i => (del i 1 : K)) (fun i j => ∑ k ∈ Finset.Icc 1 m, z i k * z j k) bm k j = ∑ l ∈ Finset.Icc 1 m, z j l * ∑ k ∈ Finset.Icc 1 npt, z k l * 1 := by
          simp only [Finset.mul_sum]
          rw [Finset.sum_comm]
          refine Finset.sum_congr rfl fun k hk => ?_
          rw [Finset.mem_Icc] at hk
          rw [Wm_pt hk.1 hk.2, col_zero, one_mul, Hm_pp hk.1 hk.2 j1 j2]
          exact Finset.sum_congr rfl fun l _ => by ring
        rw [s1, s2, Wm_out (by omega) (by omega), zero_mul, zero_add, add_zero, del_ne (by omega)]
        refine Finset.sum_eq_zero fun l hl => ?_
        rw [Finset.mem_Icc] at hl
        by_cases c : l ≤ n
        · rw [h.zsum1 hl.1 c hl.2 (fun _ => 1)]; ring
        · rw [h.zsum2 (by omega) hl.2 (fun _ => 1)]; ring
      · rw [e0, ← h.lagrange j1 j2 i1 i2, Wm_pt' i1 i2, col_zero, one_mul]
        congr 1
        · congr 1
          refine Finset.sum_congr rfl fun k hk => ?_
          rw [Finset.mem_Icc] at hk
          rw [Wm_pt' i1 i2, Powell.col_pt hk.1 hk.2, Hm_pp hk.1 hk.2 j1 j2, mul_comm]
        · refine Finset.sum_congr rfl fun l hl => ?_
          rw [Finset.mem_Icc] at hl
          rw [Wm_pt' i1 i2, col_grad hl.1, Hm_gp hl.1 j1 j2, mul_comm]
      · have s2 : ∑ k ∈ Finset.Icc 1 n, Wm n npt pts (npt + i') (npt + k) * Hm npt (fun i => (del i 1 : K)) (fun i j => ∑ k ∈ Finset.Icc 1 m, z i k * z j k) bm (npt + k) j = 0 := by
          refine Finset.sum_eq_zero fun k hk => ?_
          rw [Finset.mem_Icc] at hk
          rw [Wm_out (by omega) (by omega), zero_mul]
        have s1 : ∑ k ∈ Finset.Icc 1 npt, Wm n npt pts (npt + i') k * Hm npt (fun i => (del i 1 : K)) (fun i j => ∑ k ∈ Finset.Icc 1 m, z i k * z j k) bm k j = ∑ l ∈ Finset.Icc 1 m, z j l * ∑ k ∈ Finset.Icc 1 npt, z k l * pts k i' := by
          simp only [Finset.mul_sum]
          rw [Finset.sum_comm]
          refine Finset.sum_congr rfl fun k hk => ?_
          rw [Finset.mem_Icc] at hk
          rw [Wm_pt hk.1 hk.2, col_grad i1, Hm_pp hk.1 hk.2 j1 j2, Finset.mul_sum]
          exact Finset.sum_congr rfl fun l _ => by ring
        rw [s1, s2, Wm_out (by omega) (by omega), zero_mul, zero_add, add_zero, del_ne (by omega)]
        refine Finset.sum_eq_zero fun l hl => ?_
        rw [Finset.mem_Icc] at hl
        by_cases c : l ≤ n
        · rw [h.zsum1 hl.1 c hl.2 (fun k => pts k i'), h.p2 l i' hl.1 c i1 i2, h.p3 l i' hl.1 c hl.2 i1 i2, h.p1 i' i1 i2]; ring
        · rw [h.zsum2 (by omega) hl.2 (fun k => pts k i'), h.p4 l i' (by omega) hl.2 i1 i2, h.p1 i' i1 i2]; ring
    · -- the columns of the gradient
      have e0 : Hm npt (fun i => (del i 1 : K)) (fun i j => ∑ k ∈ Finset.Icc 1 m, z i k * z j k) bm 0 (npt + j) = 0 := by
        show (del (npt + j) 1 : K) = 0
        exact del_ne (by omega)
      rw [e0, mul_zero, zero_add]
      rcases idx_cases hi with rfl | ⟨i1, i2⟩ | ⟨i', rfl, i1, i2⟩
      · have s2 : ∑ k ∈ Finset.Icc 1 n, Wm n npt pts 0 (npt + k) * Hm npt (fun i => (del i 1 : K)) (fun i j => ∑ k ∈ Finset.Icc 1 m, z i k * z j k) bm (npt + k) (npt + j) = 0 := by
          refine Finset.sum_eq_zero fun k hk => ?_
          rw [Finset.mem_Icc] at hk
          rw [Wm_out (by omega) (by omega), zero_mul]
        have s1 : ∑ k ∈ Finset.Icc 1 npt, Wm n npt pts 0 k * Hm npt (fun i => (del i 1 : K)) (fun i j => ∑ k ∈ Finset.Icc 1 m, z i k * z j k) bm k (npt + j) = ∑ k ∈ Finset.Icc 1 npt, bm k j * 1 := by
          refine Finset.sum_congr rfl fun k hk => ?_
          rw [Finset.mem_Icc] at hk
          rw [Wm_pt hk.1 hk.2, col_zero, Hm_pg hk.1 hk.2 j1, mul_comm]
        rw [s1, s2, add_zero, del_ne (by omega)]
        by_cases c : j ≤ m
        · rw [h.bsum1 j1 j2 c (fun _ => 1)]; ring
        · rw [h.bsum2 j2 (by omega) (fun _ => 1)]; ring
      · have s2 : ∑ k ∈ Finset.Icc 1 n, Wm n npt pts i (npt + k) * Hm npt (fun i => (del i 1 : K)) (fun i j => ∑ k ∈ Finset.Icc 1 m, z i k * z j k) bm (npt + k) (npt + j)
            = if m < j then -(r * r) / 2 * pts i j else 0 := by
          have : ∀ k ∈ Finset.Icc 1 n, Wm n npt pts i (npt + k) * Hm npt (fun i => (del i 1 : K)) (fun i j => ∑ k ∈ Finset.Icc 1 m, z i k * z j k) bm (npt + k) (npt + j)
              = del k j * (if m < j then -(r * r) / 2 * pts i k else 0) := by
            intro k hk
            rw [Finset.mem_Icc] at hk
            rw [Wm_pt' i1 i2, col_grad hk.1, Hm_gg hk.1 j1, h.b3 k j hk.1 hk.2 j1 j2]
            split_ifs <;> ring
          rw [Finset.sum_congr rfl this, sum_del (Finset.mem_Icc.mpr ⟨j1, j2⟩)]
        have s1 : ∑ k ∈ Finset.Icc 1 npt, Wm n npt pts i k * Hm npt (fun i => (del i 1 : K)) (fun i j => ∑ k ∈ Finset.Icc 1 m, z i k * z j k) bm k (npt + j)
            = ∑ k ∈ Finset.Icc 1 npt, bm k j * (dot n (pts k) (pts i) * dot n (pts k) (pts i) / 2) := by
          refine Finset.sum_congr rfl fun k hk => ?_
          rw [Finset.mem_Icc] at hk
          rw [Wm_pt' i1 i2, Powell.col_pt hk.1 hk.2, Hm_pg hk.1 hk.2 j1, mul_comm]
        rw [s1, s2, del_ne (by omega)]
        by_cases c : j ≤ m
        · rw [h.bsum1 j1 j2 c, h.dot2 j1 j2, h.dot3 j1 j2 c, if_neg (by omega)]; ring
        · rw [h.bsum2 j2 (by omega), h.dot2 j1 j2, h.dot1, if_pos (by omega)]
          have x01 : pts i j * pts i j = r * pts i j := by
            rcases h.cases i1 i2 with c' | ⟨l, l1, l2, c'⟩ | ⟨l, l1, l2, l3, c'⟩ | ⟨l, l1, l2, c'⟩
            · rw [c', h.p1 j j1 j2]; ring
            · rw [c', h.p2 l j l1 l2 j1 j2]
              by_cases e : j = l
              · rw [e, del_self]; ring
              · rw [del_ne e]; ring
            · rw [c', h.p3 l j l1 l2 l3 j1 j2, del_ne (by omega)]; ring
            · omega
          have e : 1 / r * (r * pts i j * (r * pts i j) / 2 - 0 * 0 / 2) = r * (pts i j * pts i j) / 2 := by
            rw [zero_mul, zero_div, sub_zero]; field_simp
          rw [e]
          linear_combination r / 2 * x01
      · have s2 : ∑ k ∈ Finset.Icc 1 n, Wm n npt pts (npt + i') (npt + k) * Hm npt (fun i => (del i 1 : K)) (fun i j => ∑ k ∈ Finset.Icc 1 m, z i k * z j k) bm (npt + k) (npt + j) = 0 := by
          refine Finset.sum_eq_zero fun k hk => ?_
          rw [Finset.mem_Icc] at hk
          rw [Wm_out (by omega) (by omega), zero_mul]
        have s1 : ∑ k ∈ Finset.Icc 1 npt, Wm n npt pts (npt + i') k * Hm npt (fun i => (del i 1 : K)) (fun i j => ∑ k ∈ Finset.Icc 1 m, z i k * z j k) bm k (npt + j) = ∑ k ∈ Finset.Icc 1 npt, bm k j * pts k i' := by
          refine Finset.sum_congr rfl fun k hk => ?_
          rw [Finset.mem_Icc] at hk
          rw [Wm_pt hk.1 hk.2, col_grad i1, Hm_pg hk.1 hk.2 j1, mul_comm]
        rw [s1, s2, add_zero]
        have dd : (del (npt + i') (npt + j) : K) = del i' j := by unfold del; simp
        rw [dd]
        by_cases c : j ≤ m
        · rw [h.bsum1 j1 j2 c (fun k => pts k i'), h.p2 j i' j1 j2 i1 i2, h.p3 j i' j1 j2 c i1 i2]; field_simp; ring
        · rw [h.bsum2 j2 (by omega) (fun k => pts k i'), h.p2 j i' j1 j2 i1 i2, h.p1 i' i1 i2]; field_simp; ring

end Opk.Powell
