import Verif.Newuoa.Update

/-!
# The quadratic model of NEWUOA, in exact arithmetic

The quadratic function defined by the arrays `GQ`, `HQ`, `PQ` and `XPT`, its values and its changes.
-/
namespace Opk.Newuoa
open Linalg CMath Cobyla Powell

set_option linter.unusedSectionVars false

variable {K : Type} [Field K] [LinearOrder K] [IsStrictOrderedRing K] [CMath K] [ExactMath K]

/-- Half of the quadratic form whose upper triangle is `HQ`. -/
def hform (n : Nat) (hq : Nat → Nat → K) (y : Nat → K) : K :=
  ∑ j ∈ Finset.Icc 1 n, ∑ i ∈ Finset.Icc 1 j, (if i = j then 1 / 2 else 1) * hq i j * (y i * y j)

/-- The quadratic model, without its constant term, at the displacement `y` from `XBASE`. -/
def qval (n npt : Nat) (pts : Nat → Nat → K) (gq : Nat → K) (hq : Nat → Nat → K) (pq : Nat → K) (y : Nat → K) : K :=
  dot n gq y + hform n hq y + (∑ k ∈ Finset.Icc 1 npt, pq k * (dot n (pts k) y * dot n (pts k) y)) / 2

/-- The quadratic model of a state. -/
def St.quad (p : Par K) (s : St K) (y : Nat → K) : K := qval p.n p.npt s.xpt s.gq s.hq s.pq y

theorem lit_half : (lit 1 2 : K) = 1 / 2 := by rw [ExactMath.lit_eq]; norm_num

theorem lit_quarter : (lit 1 4 : K) = 1 / 4 := by rw [ExactMath.lit_eq]; norm_num

theorem acc_eq (n : Nat) (f : Nat → K) (a : K) : acc n f a = a + ∑ j ∈ Finset.Icc 1 n, f j := up_sum n f a

theorem acc_zero (n : Nat) (f : Nat → K) : acc n f 0 = ∑ j ∈ Finset.Icc 1 n, f j := by rw [acc_eq, zero_add]

theorem acc_dot (n : Nat) (x y : Nat → K) : acc n (fun j => x j * y j) 0 = dot n x y := acc_zero n _

theorem dot_congr {n : Nat} {x y x' y' : Nat → K} (h : ∀ i, 1 ≤ i → i ≤ n → x i = x' i) (h' : ∀ i, 1 ≤ i → i ≤ n → y i = y' i) : dot n x y = dot n x' y' :=
  Finset.sum_congr rfl fun i hi => by rw [Finset.mem_Icc] at hi; rw [h i hi.1 hi.2, h' i hi.1 hi.2]

theorem hform_congr {n : Nat} {hq hq' : Nat → Nat → K} {x y : Nat → K} (hh : ∀ i j, 1 ≤ i → i ≤ j → j ≤ n → hq i j = hq' i j)
    (h : ∀ i, 1 ≤ i → i ≤ n → x i = y i) : hform n hq x = hform n hq' y := by
  refine Finset.sum_congr rfl fun j hj => Finset.sum_congr rfl fun i hi => ?_
  rw [Finset.mem_Icc] at hi hj
  rw [h i hi.1 (by omega), h j hj.1 hj.2, hh i j hi.1 hi.2 hj.2]

theorem qval_congr {n npt : Nat} {pts pts' : Nat → Nat → K} {gq pq : Nat → K} {hq : Nat → Nat → K} {x y : Nat → K}
    (hp : ∀ k j, 1 ≤ k → k ≤ npt → 1 ≤ j → j ≤ n → pts k j = pts' k j) (h : ∀ i, 1 ≤ i → i ≤ n → x i = y i) :
    qval n npt pts gq hq pq x = qval n npt pts' gq hq pq y := by
  unfold qval
  have e : ∑ k ∈ Finset.Icc 1 npt, pq k * (dot n (pts k) x * dot n (pts k) x) = ∑ k ∈ Finset.Icc 1 npt, pq k * (dot n (pts' k) y * dot n (pts' k) y) := by
    refine Finset.sum_congr rfl fun k hk => ?_
    rw [Finset.mem_Icc] at hk
    rw [dot_congr (fun j j1 j2 => hp k j hk.1 hk.2 j1 j2) h]
  rw [dot_congr (fun _ _ _ => rfl) h, hform_congr (fun _ _ _ _ _ => rfl) h, e]

/-- A sum over a triangle. -/
theorem tri (n : Nat) (A : Nat → Nat → K) :
    ∑ j ∈ Finset.Icc 1 n, ∑ i ∈ Finset.Icc 1 j, (if i = j then 1 / 2 else 1) * (A i j + A j i) = ∑ i ∈ Finset.Icc 1 n, ∑ j ∈ Finset.Icc 1 n, A i j := by
  induction n with
  | zero => simp
  | succ m ih =>
    rw [Finset.sum_Icc_succ_top (by omega), Finset.sum_Icc_succ_top (by omega), ih, Finset.sum_Icc_succ_top (by omega), Finset.sum_Icc_succ_top (by omega),
      if_pos rfl]
    rw [Finset.sum_congr rfl (fun i _ => Finset.sum_Icc_succ_top (show 1 ≤ m + 1 by omega) (fun j => A i j)), Finset.sum_add_distrib]
    have e : ∑ i ∈ Finset.Icc 1 m, (if i = m + 1 then 1 / 2 else 1) * (A i (m + 1) + A (m + 1) i) = ∑ i ∈ Finset.Icc 1 m, (A i (m + 1) + A (m + 1) i) := by
      refine Finset.sum_congr rfl fun i hi => ?_
      rw [Finset.mem_Icc] at hi
      rw [if_neg (show ¬(i = m + 1) by omega), one_mul]
    rw [e, Finset.sum_add_distrib]
    ring

theorem hform_outer (n : Nat) (hq : Nat → Nat → K) (a b y : Nat → K) :
    hform n (fun i j => hq i j + a i * b j + b i * a j) y = hform n hq y + dot n a y * dot n b y := by
  have : dot n a y * dot n b y = ∑ j ∈ Finset.Icc 1 n, ∑ i ∈ Finset.Icc 1 j, (if i = j then 1 / 2 else 1) * (a i * b j + b i * a j) * (y i * y j) := by
    have e := tri n (fun i j => (a i * y i) * (b j * y j))
    rw [show dot n a y * dot n b y = ∑ i ∈ Finset.Icc 1 n, ∑ j ∈ Finset.Icc 1 n, (a i * y i) * (b j * y j) from Finset.sum_mul_sum _ _ _ _, ← e]
    exact Finset.sum_congr rfl fun j _ => Finset.sum_congr rfl fun i _ => by ring
  rw [this]
  unfold hform
  rw [← Finset.sum_add_distrib]
  refine Finset.sum_congr rfl fun j _ => ?_
  rw [← Finset.sum_add_distrib]
  exact Finset.sum_congr rfl fun i _ => by ring

/-! ### The predicted change -/

theorem predicted_eq (p : Par K) (s : St K) (hw : ∀ k, 1 ≤ k → k ≤ p.npt → s.w k = wcheck p s k) (hx : ∀ i, 1 ≤ i → i ≤ p.n → s.xnew i = s.xopt i + s.d i) :
    predicted p s = s.quad p s.xnew - s.quad p s.xopt := by
  unfold predicted
  dsimp only
  rw [acc_eq]
  have e1 : up p.n (fun j t => up j (fun i t =>
      t + (if i = j then lit 1 2 * (s.d i * s.xnew j + s.d j * s.xopt i) else s.d i * s.xnew j + s.d j * s.xopt i) * s.hq i j) (t + s.d j * s.gq j)) (0 : K)
      = (dot p.n s.gq s.xnew - dot p.n s.gq s.xopt) + (hform p.n s.hq s.xnew - hform p.n s.hq s.xopt) := by
    have e2 : (fun (j : Nat) (t : K) => up j (fun i t =>
        t + (if i = j then lit 1 2 * (s.d i * s.xnew j + s.d j * s.xopt i) else s.d i * s.xnew j + s.d j * s.xopt i) * s.hq i j) (t + s.d j * s.gq j))
        = fun j t => t + (s.d j * s.gq j + ∑ i ∈ Finset.Icc 1 j, (if i = j then lit 1 2 * (s.d i * s.xnew j + s.d j * s.xopt i) else s.d i * s.xnew j + s.d j * s.xopt i) * s.hq i j) := by
      funext j t; rw [up_sum]; ring
    rw [e2, up_sum, zero_add, Finset.sum_add_distrib]
    congr 1
    · unfold Powell.dot
      rw [← Finset.sum_sub_distrib]
      refine Finset.sum_congr rfl fun j hj => ?_
      rw [Finset.mem_Icc] at hj
      rw [hx j hj.1 hj.2]; ring
    · unfold hform
      rw [← Finset.sum_sub_distrib]
      refine Finset.sum_congr rfl fun j hj => ?_
      rw [← Finset.sum_sub_distrib]
      refine Finset.sum_congr rfl fun i hi => ?_
      rw [Finset.mem_Icc] at hi hj
      rw [hx j hj.1 hj.2, hx i hi.1 (by omega), lit_half]
      split_ifs <;> ring
  rw [e1]
  have e3 : ∑ k ∈ Finset.Icc 1 p.npt, s.pq k * s.w k = (∑ k ∈ Finset.Icc 1 p.npt, s.pq k * (dot p.n (s.xpt k) s.xnew * dot p.n (s.xpt k) s.xnew)) / 2
      - (∑ k ∈ Finset.Icc 1 p.npt, s.pq k * (dot p.n (s.xpt k) s.xopt * dot p.n (s.xpt k) s.xopt)) / 2 := by
    rw [Finset.sum_div, Finset.sum_div, ← Finset.sum_sub_distrib]
    refine Finset.sum_congr rfl fun k hk => ?_
    rw [Finset.mem_Icc] at hk
    rw [hw k hk.1 hk.2]
    unfold wcheck
    dsimp only
    rw [acc_dot, acc_dot, lit_half, dot_congr (x' := s.xpt k) (y' := fun i => s.xopt i + s.d i) (fun _ _ _ => rfl) hx, dot_add]
    ring
  rw [e3]
  unfold St.quad qval
  ring

/-! ### The origin is moved -/

theorem dot_set1 {n a : Nat} (h1 : 1 ≤ a) (h2 : a ≤ n) (g y : Nat → K) (v : K) : dot n (set1 g a v) y = dot n g y + (v - g a) * y a := by
  unfold Powell.dot
  have m : a ∈ Finset.Icc 1 n := Finset.mem_Icc.mpr ⟨h1, h2⟩
  rw [← Finset.add_sum_erase _ _ m, ← Finset.add_sum_erase _ (fun i => g i * y i) m]
  rw [Finset.sum_congr rfl (fun i hi => by rw [show set1 g a v i = g i from if_neg (Finset.ne_of_mem_erase hi)]), show set1 g a v a = v from if_pos rfl]
  ring

/-- The gradient at the new origin. -/
theorem shiftG_dot (p : Par K) (s : St K) (gq y : Nat → K) :
    dot p.n (shiftG p s gq) y = dot p.n gq y + (hform p.n s.hq (fun i => y i + s.xopt i) - hform p.n s.hq y - hform p.n s.hq s.xopt) := by
  have e : hform p.n s.hq (fun i => y i + s.xopt i) - hform p.n s.hq y - hform p.n s.hq s.xopt
      = ∑ j ∈ Finset.Icc 1 p.n, ∑ i ∈ Finset.Icc 1 j, ((if i < j then s.hq i j * s.xopt i * y j else 0) + s.hq i j * s.xopt j * y i) := by
    unfold hform
    rw [← Finset.sum_sub_distrib, ← Finset.sum_sub_distrib]
    refine Finset.sum_congr rfl fun j _ => ?_
    rw [← Finset.sum_sub_distrib, ← Finset.sum_sub_distrib]
    refine Finset.sum_congr rfl fun i hi => ?_
    rw [Finset.mem_Icc] at hi
    by_cases c : i = j
    · subst c
      rw [if_pos rfl, if_neg (lt_irrefl _)]; ring
    · rw [if_neg c, if_pos (by omega)]; ring
  rw [e]
  unfold shiftG
  refine up_inv (fun m g => dot p.n g y = dot p.n gq y + ∑ j ∈ Finset.Icc 1 m, ∑ i ∈ Finset.Icc 1 j, ((if i < j then s.hq i j * s.xopt i * y j else 0) + s.hq i j * s.xopt j * y i))
    p.n (by simp) ?_
  intro m hm g hg
  rw [Finset.sum_Icc_succ_top (by omega), ← add_assoc, ← hg]
  refine up_inv (fun l g' => dot p.n g' y = dot p.n g y + ∑ i ∈ Finset.Icc 1 l, ((if i < m + 1 then s.hq i (m + 1) * s.xopt i * y (m + 1) else 0) + s.hq i (m + 1) * s.xopt (m + 1) * y i))
    (m + 1) (by simp) ?_
  intro l hl g' hg'
  rw [Finset.sum_Icc_succ_top (by omega), ← add_assoc, ← hg']
  dsimp only
  by_cases c : l + 1 < m + 1
  · rw [if_pos c, if_pos c, dot_set1 (by omega) (by omega), dot_set1 (by omega) (by omega)]
    have : set1 g' (m + 1) (g' (m + 1) + s.hq (l + 1) (m + 1) * s.xopt (l + 1)) (l + 1) = g' (l + 1) := if_neg (by omega)
    rw [this]
    ring
  · rw [if_neg c, if_neg c, dot_set1 (by omega) (by omega)]
    ring

/-- The components of the first loop of the shift. -/
theorem shiftA_spec (p : Par K) (s : St K) :
    (∀ i, (shiftA p s).1 i = s.gq i + ∑ k ∈ Finset.Icc 1 p.npt, s.pq k * dot p.n (s.xpt k) s.xopt * s.xpt k i) ∧
    (∀ a i, 1 ≤ a → a ≤ p.npt → (shiftA p s).2.1 a i = s.xpt a i - 1 / 2 * s.xopt i) ∧
    (∀ a j, a ≤ p.npt → (shiftA p s).2.2.1 a j = s.bmat a j) ∧
    (∀ i j, 1 ≤ i → j ≤ i → (shiftA p s).2.2.1 (p.npt + i) j = s.bmat (p.npt + i) j + ∑ k ∈ Finset.Icc 1 p.npt,
      (s.bmat k i * ((dot p.n (s.xpt k) s.xopt - 1 / 2 * s.xoptsq) * (s.xpt k j - 1 / 2 * s.xopt j) + s.xoptsq * (1 / 4) * s.xopt j)
        + ((dot p.n (s.xpt k) s.xopt - 1 / 2 * s.xoptsq) * (s.xpt k i - 1 / 2 * s.xopt i) + s.xoptsq * (1 / 4) * s.xopt i) * s.bmat k j)) ∧
    (∀ k, 1 ≤ k → k ≤ p.npt → (shiftA p s).2.2.2 k = dot p.n (s.xpt k) s.xopt - 1 / 2 * s.xoptsq) := by
  have := up_inv (fun m (t : (Nat → K) × (Nat → Nat → K) × (Nat → Nat → K) × (Nat → K)) =>
      (∀ i, t.1 i = s.gq i + ∑ k ∈ Finset.Icc 1 m, s.pq k * dot p.n (s.xpt k) s.xopt * s.xpt k i) ∧
      (∀ a i, 1 ≤ a → a ≤ m → t.2.1 a i = s.xpt a i - 1 / 2 * s.xopt i) ∧
      (∀ a j, a ≤ p.npt → t.2.2.1 a j = s.bmat a j) ∧
      (∀ i j, 1 ≤ i → j ≤ i → t.2.2.1 (p.npt + i) j = s.bmat (p.npt + i) j + ∑ k ∈ Finset.Icc 1 m,
        (s.bmat k i * ((dot p.n (s.xpt k) s.xopt - 1 / 2 * s.xoptsq) * (s.xpt k j - 1 / 2 * s.xopt j) + s.xoptsq * (1 / 4) * s.xopt j)
          + ((dot p.n (s.xpt k) s.xopt - 1 / 2 * s.xoptsq) * (s.xpt k i - 1 / 2 * s.xopt i) + s.xoptsq * (1 / 4) * s.xopt i) * s.bmat k j)) ∧
      (∀ k, 1 ≤ k → k ≤ m → t.2.2.2 k = dot p.n (s.xpt k) s.xopt - 1 / 2 * s.xoptsq)) p.npt
    (body := fun k (t : (Nat → K) × (Nat → Nat → K) × (Nat → Nat → K) × (Nat → K)) =>
      let sum := acc p.n (fun i => s.xpt k i * s.xopt i) 0
      let temp := s.pq k * sum
      let sum := sum - lit 1 2 * s.xoptsq
      let half := fun i => s.xpt k i - lit 1 2 * s.xopt i
      let wk := fun i => sum * half i + s.xoptsq * lit 1 4 * s.xopt i
      (fun i => t.1 i + temp * s.xpt k i,
       fun a i => if a = k then half i else t.2.1 a i,
       fun a j => if p.npt < a ∧ j ≤ a - p.npt then t.2.2.1 a j + t.2.2.1 k (a - p.npt) * wk j + wk (a - p.npt) * t.2.2.1 k j else t.2.2.1 a j,
       set1 t.2.2.2 k sum)) (s := (s.gq, s.xpt, s.bmat, s.w))
    ⟨fun i => by simp, fun a i a1 a2 => by omega, fun _ _ _ => rfl, fun i j _ _ => by simp, fun k k1 k2 => by omega⟩ (by
      rintro k hk ⟨g, x, b, u⟩ ⟨q1, q2, q3, q4, q5⟩
      dsimp only at q1 q2 q3 q4 q5 ⊢
      rw [acc_dot, lit_half, lit_quarter]
      refine ⟨fun i => ?_, fun a i a1 a2 => ?_, fun a j ha => ?_, fun i j i1 ij => ?_, fun a a1 a2 => ?_⟩
      · rw [q1, Finset.sum_Icc_succ_top (by omega), add_assoc]
      · by_cases c : a = k + 1
        · rw [if_pos c, c]
        · rw [if_neg c]; exact q2 a i a1 (by omega)
      · rw [if_neg (by omega)]; exact q3 a j ha
      · rw [if_pos (by omega), Nat.add_sub_cancel_left, q4 i j i1 ij, q3 (k + 1) i (by omega), q3 (k + 1) j (by omega), Finset.sum_Icc_succ_top (by omega)]
        ring
      · unfold set1
        by_cases c : a = k + 1
        · rw [if_pos c, c]
        · rw [if_neg c]; exact q5 a a1 (by omega))
  exact this

/-- The matrix `BMAT` after the second loop of the shift. -/
theorem shiftB_spec (p : Par K) (s : St K) (hid : s.idz = 1) (x : Nat → Nat → K) (u : Nat → K) (b : Nat → Nat → K) :
    (∀ a j, a ≤ p.npt → shiftB p s x u b a j = b a j + ∑ k ∈ Finset.Icc 1 p.nptm,
      (∑ i ∈ Finset.Icc 1 p.npt, s.zmat i k * (u i * x i j + s.xoptsq * (1 / 4) * s.xopt j)) * s.zmat a k) ∧
    (∀ i j, 1 ≤ i → j ≤ i → shiftB p s x u b (p.npt + i) j = b (p.npt + i) j + ∑ k ∈ Finset.Icc 1 p.nptm,
      (∑ l ∈ Finset.Icc 1 p.npt, s.zmat l k * (u l * x l i + s.xoptsq * (1 / 4) * s.xopt i)) *
      (∑ l ∈ Finset.Icc 1 p.npt, s.zmat l k * (u l * x l j + s.xoptsq * (1 / 4) * s.xopt j))) := by
  unfold shiftB
  have vl : ∀ k j, acc p.npt (fun i => u i * s.zmat i k * x i j) (s.xoptsq * lit 1 4 * acc p.npt (fun i => s.zmat i k) 0 * s.xopt j)
      = ∑ i ∈ Finset.Icc 1 p.npt, s.zmat i k * (u i * x i j + s.xoptsq * (1 / 4) * s.xopt j) := by
    intro k j
    rw [acc_eq, acc_zero, lit_quarter, Finset.mul_sum, Finset.sum_mul, ← Finset.sum_add_distrib]
    exact Finset.sum_congr rfl fun i _ => by ring
  have sg : ∀ k (a : K), 1 ≤ k → signed s.idz k a = a := fun k a h => by unfold signed; rw [hid, if_neg (by omega)]
  refine up_inv (fun m (t : Nat → Nat → K) => (∀ a j, a ≤ p.npt → t a j = b a j + ∑ k ∈ Finset.Icc 1 m,
      (∑ i ∈ Finset.Icc 1 p.npt, s.zmat i k * (u i * x i j + s.xoptsq * (1 / 4) * s.xopt j)) * s.zmat a k) ∧
    (∀ i j, 1 ≤ i → j ≤ i → t (p.npt + i) j = b (p.npt + i) j + ∑ k ∈ Finset.Icc 1 m,
      (∑ l ∈ Finset.Icc 1 p.npt, s.zmat l k * (u l * x l i + s.xoptsq * (1 / 4) * s.xopt i)) *
      (∑ l ∈ Finset.Icc 1 p.npt, s.zmat l k * (u l * x l j + s.xoptsq * (1 / 4) * s.xopt j)))) p.nptm ⟨fun _ _ _ => by simp, fun _ _ _ _ => by simp⟩ ?_
  rintro k hk t ⟨q1, q2⟩
  dsimp only
  refine ⟨fun a j ha => ?_, fun i j i1 ij => ?_⟩
  · rw [if_pos ha, sg _ _ (by omega), vl, q1 a j ha, Finset.sum_Icc_succ_top (by omega), add_assoc]
  · rw [if_neg (by omega), Nat.add_sub_cancel_left, if_pos ij, sg _ _ (by omega), vl, vl, q2 i j i1 ij, Finset.sum_Icc_succ_top (by omega), add_assoc]

theorem shift_xpt (p : Par K) (s : St K) (k j : Nat) (k1 : 1 ≤ k) (k2 : k ≤ p.npt) : (shift p s).xpt k j = s.xpt k j - s.xopt j := by
  show (shiftA p s).2.1 k j - lit 1 2 * s.xopt j = _
  rw [(shiftA_spec p s).2.1 k j k1 k2, lit_half]; ring

/-- The model is the same function after the shift. -/
theorem shift_quad (p : Par K) (s : St K) (y : Nat → K) : (shift p s).quad p y = s.quad p (fun i => y i + s.xopt i) - s.quad p s.xopt := by
  obtain ⟨a1, a2, -, -, -⟩ := shiftA_spec p s
  unfold St.quad qval
  -- the gradient
  have g : dot p.n (shift p s).gq y = dot p.n s.gq y + (∑ k ∈ Finset.Icc 1 p.npt, s.pq k * dot p.n (s.xpt k) s.xopt * dot p.n (s.xpt k) y)
      + (hform p.n s.hq (fun i => y i + s.xopt i) - hform p.n s.hq y - hform p.n s.hq s.xopt) := by
    show dot p.n (shiftG p s (shiftA p s).1) y = _
    rw [shiftG_dot]
    congr 1
    unfold Powell.dot
    rw [Finset.sum_congr rfl (fun i _ => by rw [a1 i, add_mul]), Finset.sum_add_distrib]
    congr 1
    rw [Finset.sum_congr rfl (fun i _ => by rw [Finset.sum_mul]), Finset.sum_comm]
    refine Finset.sum_congr rfl fun k _ => ?_
    rw [Finset.mul_sum]
    exact Finset.sum_congr rfl fun i _ => mul_assoc _ _ _
  -- the explicit second derivatives
  have hh : hform p.n (shift p s).hq y = hform p.n s.hq y
      + dot p.n (fun j => ∑ k ∈ Finset.Icc 1 p.npt, s.pq k * (s.xpt k j - 1 / 2 * s.xopt j)) y * dot p.n s.xopt y := by
    rw [← hform_outer]
    refine hform_congr (fun i j i1 ij _ => ?_) (fun _ _ _ => rfl)
    have w : ∀ j, acc p.npt (fun k => s.pq k * (shiftA p s).2.1 k j) 0 = ∑ k ∈ Finset.Icc 1 p.npt, s.pq k * (s.xpt k j - 1 / 2 * s.xopt j) := by
      intro j
      rw [acc_zero]
      exact Finset.sum_congr rfl fun k hk => by rw [Finset.mem_Icc] at hk; rw [a2 k j hk.1 hk.2]
    show (if i ≤ j then s.hq i j + acc p.npt (fun k => s.pq k * (shiftA p s).2.1 k i) 0 * s.xopt j + s.xopt i * acc p.npt (fun k => s.pq k * (shiftA p s).2.1 k j) 0 else s.hq i j) = _
    rw [if_pos ij, w, w]
  have w2 : dot p.n (fun j => ∑ k ∈ Finset.Icc 1 p.npt, s.pq k * (s.xpt k j - 1 / 2 * s.xopt j)) y
      = ∑ k ∈ Finset.Icc 1 p.npt, s.pq k * (dot p.n (s.xpt k) y - 1 / 2 * dot p.n s.xopt y) := by
    unfold Powell.dot
    rw [Finset.sum_congr rfl (fun i _ => by rw [Finset.sum_mul]), Finset.sum_comm]
    refine Finset.sum_congr rfl fun k _ => ?_
    rw [Finset.mul_sum, ← Finset.sum_sub_distrib, Finset.mul_sum]
    exact Finset.sum_congr rfl fun i _ => by ring
  -- the implicit second derivatives
  have dx : ∀ k ∈ Finset.Icc 1 p.npt, dot p.n ((shift p s).xpt k) y = dot p.n (s.xpt k) y - dot p.n s.xopt y := by
    intro k hk
    rw [Finset.mem_Icc] at hk
    unfold Powell.dot
    rw [← Finset.sum_sub_distrib]
    exact Finset.sum_congr rfl fun j _ => by rw [shift_xpt p s k j hk.1 hk.2]; ring
  have i1 : ∑ k ∈ Finset.Icc 1 p.npt, (shift p s).pq k * (dot p.n ((shift p s).xpt k) y * dot p.n ((shift p s).xpt k) y)
      = ∑ k ∈ Finset.Icc 1 p.npt, s.pq k * ((dot p.n (s.xpt k) y - dot p.n s.xopt y) * (dot p.n (s.xpt k) y - dot p.n s.xopt y)) :=
    Finset.sum_congr rfl fun k hk => by rw [dx k hk]; rfl
  have i2 : ∑ k ∈ Finset.Icc 1 p.npt, s.pq k * (dot p.n (s.xpt k) (fun i => y i + s.xopt i) * dot p.n (s.xpt k) (fun i => y i + s.xopt i))
      = ∑ k ∈ Finset.Icc 1 p.npt, s.pq k * ((dot p.n (s.xpt k) y + dot p.n (s.xpt k) s.xopt) * (dot p.n (s.xpt k) y + dot p.n (s.xpt k) s.xopt)) :=
    Finset.sum_congr rfl fun k _ => by rw [dot_add]
  rw [g, hh, w2, i1, i2, dot_add]
  have fin : (∑ k ∈ Finset.Icc 1 p.npt, s.pq k * dot p.n (s.xpt k) s.xopt * dot p.n (s.xpt k) y)
      + (∑ k ∈ Finset.Icc 1 p.npt, s.pq k * (dot p.n (s.xpt k) y - 1 / 2 * dot p.n s.xopt y)) * dot p.n s.xopt y
      + (∑ k ∈ Finset.Icc 1 p.npt, s.pq k * ((dot p.n (s.xpt k) y - dot p.n s.xopt y) * (dot p.n (s.xpt k) y - dot p.n s.xopt y))) / 2
      = (∑ k ∈ Finset.Icc 1 p.npt, s.pq k * ((dot p.n (s.xpt k) y + dot p.n (s.xpt k) s.xopt) * (dot p.n (s.xpt k) y + dot p.n (s.xpt k) s.xopt))) / 2
        - (∑ k ∈ Finset.Icc 1 p.npt, s.pq k * (dot p.n (s.xpt k) s.xopt * dot p.n (s.xpt k) s.xopt)) / 2 := by
    simp only [Finset.sum_mul, Finset.sum_div]
    rw [← Finset.sum_add_distrib, ← Finset.sum_add_distrib, ← Finset.sum_sub_distrib]
    exact Finset.sum_congr rfl fun k _ => by ring
  linear_combination fin

/-- The inverse matrix after the shift. -/
theorem shift_good (p : Par K) (s : St K) (hid : s.idz = 1) (hx : s.xoptsq = dot p.n s.xopt s.xopt) {c : Nat → K}
    (h : Good p.n p.npt s.xpt (omega p.nptm s.zmat) s.bmat c) :
    ∃ c', Good p.n p.npt (shift p s).xpt (omega p.nptm (shift p s).zmat) (shift p s).bmat c' := by
  obtain ⟨-, a2, a3, a4, a5⟩ := shiftA_spec p s
  obtain ⟨b1, b2⟩ := shiftB_spec p s hid (shiftA p s).2.1 (shiftA p s).2.2.2 (shiftA p s).2.2.1
  have v : ∀ k j, ∑ i ∈ Finset.Icc 1 p.npt, s.zmat i k * ((shiftA p s).2.2.2 i * (shiftA p s).2.1 i j + s.xoptsq * (1 / 4) * s.xopt j)
      = ∑ i ∈ Finset.Icc 1 p.npt, s.zmat i k * shiftVec p.n s.xpt s.xopt i j := by
    intro k j
    refine Finset.sum_congr rfl fun i hi => ?_
    rw [Finset.mem_Icc] at hi
    rw [a5 i hi.1 hi.2, a2 i j hi.1 hi.2, hx]
    unfold shiftVec
    ring
  have e2 : ∀ i j, 1 ≤ i → i ≤ p.npt → (shift p s).bmat i j = s.bmat i j + ∑ k ∈ Finset.Icc 1 p.npt, omega p.nptm s.zmat i k * shiftVec p.n s.xpt s.xopt k j := by
    intro i j i1 i2
    show (if p.npt < i ∧ i - p.npt ≤ j then _ else shiftB p s (shiftA p s).2.1 (shiftA p s).2.2.2 (shiftA p s).2.2.1 i j) = _
    rw [if_neg (by omega), b1 i j i2, a3 i j i2]
    congr 1
    simp only [v, omega, Finset.sum_mul]
    rw [Finset.sum_comm]
    exact Finset.sum_congr rfl fun k _ => Finset.sum_congr rfl fun l _ => by ring
  have low : ∀ i j, 1 ≤ i → i ≤ p.n → 1 ≤ j → j ≤ i → shiftB p s (shiftA p s).2.1 (shiftA p s).2.2.2 (shiftA p s).2.2.1 (p.npt + i) j = s.bmat (p.npt + i) j
      + ∑ k ∈ Finset.Icc 1 p.npt, (s.bmat k i * shiftVec p.n s.xpt s.xopt k j + shiftVec p.n s.xpt s.xopt k i * s.bmat k j)
      + ∑ k ∈ Finset.Icc 1 p.npt, ∑ l ∈ Finset.Icc 1 p.npt, shiftVec p.n s.xpt s.xopt k i * omega p.nptm s.zmat k l * shiftVec p.n s.xpt s.xopt l j := by
    intro i j i1 i2 j1 ij
    rw [b2 i j i1 ij, a4 i j i1 ij]
    congr 1
    · congr 1
      refine Finset.sum_congr rfl fun k _ => ?_
      rw [hx]
      unfold shiftVec
      ring
    · simp only [v, Finset.sum_mul_sum]
      rw [Finset.sum_comm]
      refine Finset.sum_congr rfl fun k _ => ?_
      rw [Finset.sum_comm]
      refine Finset.sum_congr rfl fun l _ => ?_
      unfold omega
      rw [Finset.mul_sum, Finset.sum_mul]
      exact Finset.sum_congr rfl fun m _ => by ring
  have e3 : ∀ i j, 1 ≤ i → i ≤ p.n → 1 ≤ j → j ≤ p.n → (shift p s).bmat (p.npt + i) j = s.bmat (p.npt + i) j
      + ∑ k ∈ Finset.Icc 1 p.npt, (s.bmat k i * shiftVec p.n s.xpt s.xopt k j + shiftVec p.n s.xpt s.xopt k i * s.bmat k j)
      + ∑ k ∈ Finset.Icc 1 p.npt, ∑ l ∈ Finset.Icc 1 p.npt, shiftVec p.n s.xpt s.xopt k i * omega p.nptm s.zmat k l * shiftVec p.n s.xpt s.xopt l j := by
    intro i j i1 i2 j1 j2
    show (if p.npt < p.npt + i ∧ p.npt + i - p.npt ≤ j then shiftB p s (shiftA p s).2.1 (shiftA p s).2.2.2 (shiftA p s).2.2.1 (p.npt + j) (p.npt + i - p.npt)
      else shiftB p s (shiftA p s).2.1 (shiftA p s).2.2.2 (shiftA p s).2.2.1 (p.npt + i) j) = _
    rw [Nat.add_sub_cancel_left]
    by_cases q : i ≤ j
    · rw [if_pos ⟨by omega, q⟩, low j i j1 j2 i1 q, h.bsym i j i1 i2 j1 j2]
      congr 1
      · congr 1
        exact Finset.sum_congr rfl fun k _ => by ring
      · rw [Finset.sum_comm]
        refine Finset.sum_congr rfl fun k _ => Finset.sum_congr rfl fun l _ => ?_
        rw [omega_sym]; ring
    · rw [if_neg (by omega)]
      exact low i j i1 i2 j1 (by omega)
  obtain ⟨c', g⟩ := Good.shift (pts' := fun k j => s.xpt k j - s.xopt j) (bm' := (shift p s).bmat) (s := s.xopt) h (fun _ _ _ _ => rfl) (fun i j i1 i2 _ _ => e2 i j i1 i2) e3
  exact ⟨c', Good.congr g fun k j k1 k2 _ _ => shift_xpt p s k j k1 k2⟩

end Opk.Newuoa
