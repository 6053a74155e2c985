import Verif.Bobyqa.Trsbox
import Verif.Bobyqa.Best
/-!
# BOBYQA: the step of `trsbox`

In exact arithmetic: the step is within the bounds and the trust region, and the quadratic model decreases.
-/
set_option linter.unusedSectionVars false
namespace Opk.Bobyqa
open Linalg CMath Cobyla

section
variable {K : Type} [Field K] [LinearOrder K] [IsStrictOrderedRing K] [CMath K] [ExactMath K]

/-! ### Scalar products -/

/-- The scalar product of vectors with indices from 1 to `n`. -/
def dot (n : Nat) (u v : Nat → K) : K := ∑ i ∈ Finset.Icc 1 n, u i * v i

theorem dot_comm (n : Nat) (u v : Nat → K) : dot n u v = dot n v u :=
  Finset.sum_congr rfl fun i _ => mul_comm _ _

theorem dot_congr {n : Nat} {u u' v v' : Nat → K} (h1 : ∀ i, 1 ≤ i → i ≤ n → u i = u' i) (h2 : ∀ i, 1 ≤ i → i ≤ n → v i = v' i) :
    dot n u v = dot n u' v' := by
  refine Finset.sum_congr rfl fun i hi => ?_
  obtain ⟨a, b⟩ := Finset.mem_Icc.mp hi
  rw [h1 i a b, h2 i a b]

theorem dot_add_left (n : Nat) (u v w : Nat → K) : dot n (fun i => u i + v i) w = dot n u w + dot n v w := by
  unfold dot; rw [← Finset.sum_add_distrib]; exact Finset.sum_congr rfl fun i _ => add_mul _ _ _

theorem dot_smul_left (n : Nat) (a : K) (u v : Nat → K) : dot n (fun i => a * u i) v = a * dot n u v := by
  unfold dot; rw [Finset.mul_sum]; exact Finset.sum_congr rfl fun i _ => mul_assoc _ _ _

theorem dot_add_right (n : Nat) (u v w : Nat → K) : dot n u (fun i => v i + w i) = dot n u v + dot n u w := by
  rw [dot_comm, dot_add_left, dot_comm n v, dot_comm n w]

theorem dot_smul_right (n : Nat) (a : K) (u v : Nat → K) : dot n u (fun i => a * v i) = a * dot n u v := by
  rw [dot_comm, dot_smul_left, dot_comm]

theorem dot_nonneg (n : Nat) (u : Nat → K) : 0 ≤ dot n u u := Finset.sum_nonneg fun i _ => mul_self_nonneg _

theorem dot_self_eq {n : Nat} {u : Nat → K} (h : dot n u u = 0) : ∀ i, 1 ≤ i → i ≤ n → u i = 0 := by
  intro i h1 h2
  have := (Finset.sum_eq_zero_iff_of_nonneg fun i _ => mul_self_nonneg (u i)).mp h i (Finset.mem_Icc.mpr ⟨h1, h2⟩)
  exact mul_self_eq_zero.mp this

theorem sq_le_dot {n : Nat} (u : Nat → K) {i : Nat} (h1 : 1 ≤ i) (h2 : i ≤ n) : u i * u i ≤ dot n u u :=
  Finset.single_le_sum (f := fun i => u i * u i) (fun i _ => mul_self_nonneg (u i)) (Finset.mem_Icc.mpr ⟨h1, h2⟩)

theorem dot_zero_left (n : Nat) (v : Nat → K) : dot n (fun _ => 0) v = 0 :=
  Finset.sum_eq_zero fun i _ => zero_mul _

theorem acc_dot (n : Nat) (u v : Nat → K) : acc n (fun i => u i * v i) 0 = dot n u v := by rw [acc_eq, zero_add]; rfl

/-- The components of the free variables. -/
def mask (xbdi u : Nat → K) : Nat → K := fun i => if xbdi i = 0 then u i else 0

theorem accF_eq (n : Nat) (xbdi f : Nat → K) (a : K) : accF n xbdi f a = a + ∑ i ∈ Finset.Icc 1 n, if xbdi i = 0 then f i else 0 := by
  unfold accF
  rw [← up_sum]
  refine up_congr fun i _ _ t => ?_
  split_ifs
  · rfl
  · rw [add_zero]

theorem accF_dot (n : Nat) (xbdi u v : Nat → K) : accF n xbdi (fun i => u i * v i) 0 = dot n (mask xbdi u) v := by
  rw [accF_eq, zero_add]
  refine Finset.sum_congr rfl fun i _ => ?_
  unfold mask
  split_ifs
  · rfl
  · rw [zero_mul]

theorem dot_mask (n : Nat) (xbdi u v : Nat → K) : dot n (mask xbdi u) v = dot n u (mask xbdi v) := by
  refine Finset.sum_congr rfl fun i _ => ?_
  unfold mask
  split_ifs
  · rfl
  · rw [zero_mul, mul_zero]

/-- A vector which is zero for the fixed variables. -/
def Free (n : Nat) (xbdi u : Nat → K) : Prop := ∀ i, 1 ≤ i → i ≤ n → xbdi i ≠ 0 → u i = 0

theorem Free.mask {n : Nat} {xbdi u : Nat → K} (h : Free n xbdi u) : ∀ i, 1 ≤ i → i ≤ n → mask xbdi u i = u i := by
  intro i h1 h2
  unfold Bobyqa.mask
  split_ifs with c
  · rfl
  · exact (h i h1 h2 c).symm

theorem mask_free (n : Nat) (xbdi u : Nat → K) : Free n xbdi (mask xbdi u) := by
  intro i _ _ h
  unfold mask
  rw [if_neg h]

theorem dot_mask_free {n : Nat} {xbdi u : Nat → K} (h : Free n xbdi u) (v : Nat → K) : dot n (mask xbdi u) v = dot n u v :=
  dot_congr h.mask fun _ _ _ => rfl

/-- A variable becomes fixed. -/
theorem dot_mask_set {n : Nat} {xbdi : Nat → K} {i : Nat} {v : K} (h1 : 1 ≤ i) (h2 : i ≤ n) (h0 : xbdi i = 0) (hv : v ≠ 0) (u w : Nat → K) :
    dot n (mask (set1 xbdi i v) u) w = dot n (mask xbdi u) w - u i * w i := by
  unfold dot
  rw [← Finset.add_sum_erase _ _ (Finset.mem_Icc.mpr ⟨h1, h2⟩), ← Finset.add_sum_erase _ (fun i => mask xbdi u i * w i) (Finset.mem_Icc.mpr ⟨h1, h2⟩)]
  have e : ∑ j ∈ (Finset.Icc 1 n).erase i, mask (set1 xbdi i v) u j * w j = ∑ j ∈ (Finset.Icc 1 n).erase i, mask xbdi u j * w j := by
    refine Finset.sum_congr rfl fun j hj => ?_
    have hne := Finset.ne_of_mem_erase hj
    unfold mask set1
    rw [if_neg hne]
  rw [e]
  have e1 : mask (set1 xbdi i v) u i = 0 := by unfold mask set1; rw [if_pos rfl, if_neg hv]
  have e2 : mask xbdi u i = u i := by unfold mask; rw [if_pos h0]
  rw [e1, e2]; ring

/-! ### The quadratic model -/

/-- The product of a vector by the second derivatives of the model: `HQ` is a symmetric matrix given by its upper
triangle, the other part is the sum of the `PQ(k)*XPT(k,.)*XPT(k,.)'`. -/
def Box.hess (b : Box K) (v : Nat → K) (i : Nat) : K :=
  ∑ j ∈ Finset.Icc 1 b.n, b.hq (min i j) (max i j) * v j + ∑ k ∈ Finset.Icc 1 b.npt, b.pq k * dot b.n (b.xpt k) v * b.xpt k i

/-- The change of the model for the step `d`. -/
def Box.quad (b : Box K) (d : Nat → K) : K := dot b.n b.gopt d + 1 / 2 * dot b.n d (b.hess d)

/-- The gradient of the model after the step `d`. -/
def Box.grad (b : Box K) (d : Nat → K) (i : Nat) : K := b.gopt i + b.hess d i

theorem hess_congr {b : Box K} {u v : Nat → K} (h : ∀ i, 1 ≤ i → i ≤ b.n → u i = v i) (i : Nat) : b.hess u i = b.hess v i := by
  unfold Box.hess
  congr 1
  · refine Finset.sum_congr rfl fun j hj => ?_
    obtain ⟨h1, h2⟩ := Finset.mem_Icc.mp hj
    rw [h j h1 h2]
  · refine Finset.sum_congr rfl fun k _ => ?_
    rw [dot_congr (fun _ _ _ => rfl) h]

theorem hess_add (b : Box K) (u v : Nat → K) (i : Nat) : b.hess (fun j => u j + v j) i = b.hess u i + b.hess v i := by
  unfold Box.hess
  simp only [dot_add_right, mul_add, add_mul, Finset.sum_add_distrib]
  ring

theorem hess_smul (b : Box K) (a : K) (u : Nat → K) (i : Nat) : b.hess (fun j => a * u j) i = a * b.hess u i := by
  unfold Box.hess
  simp only [dot_smul_right, mul_add, Finset.mul_sum]
  congr 1
  · exact Finset.sum_congr rfl fun _ _ => by ring
  · exact Finset.sum_congr rfl fun _ _ => by ring

theorem hess_zero (b : Box K) (i : Nat) : b.hess (fun _ => 0) i = 0 := by
  have := hess_smul b 0 (fun _ => 0) i
  rw [zero_mul] at this
  simpa using this

theorem hess_symm (b : Box K) (u v : Nat → K) : dot b.n u (b.hess v) = dot b.n v (b.hess u) := by
  have key : ∀ u v : Nat → K, dot b.n u (b.hess v) =
      ∑ i ∈ Finset.Icc 1 b.n, ∑ j ∈ Finset.Icc 1 b.n, b.hq (min i j) (max i j) * (u i * v j) +
      ∑ k ∈ Finset.Icc 1 b.npt, b.pq k * (dot b.n (b.xpt k) v * dot b.n (b.xpt k) u) := by
    intro u v
    unfold Box.hess
    rw [dot_add_right]
    congr 1
    · unfold dot
      refine Finset.sum_congr rfl fun i _ => ?_
      rw [Finset.mul_sum]
      exact Finset.sum_congr rfl fun j _ => by ring
    · unfold dot
      simp only [Finset.mul_sum]
      rw [Finset.sum_comm]
      refine Finset.sum_congr rfl fun k _ => ?_
      refine Finset.sum_congr rfl fun i _ => ?_
      rw [Finset.sum_mul]
      simp only [Finset.mul_sum, Finset.sum_mul]
      exact Finset.sum_congr rfl fun j _ => by ring
  rw [key u v, key v u]
  congr 1
  · rw [Finset.sum_comm]
    refine Finset.sum_congr rfl fun i _ => Finset.sum_congr rfl fun j _ => ?_
    rw [min_comm, max_comm]; ring
  · exact Finset.sum_congr rfl fun k _ => by ring

/-- The change of the model for a second step. -/
theorem quad_add (b : Box K) (d v : Nat → K) :
    b.quad (fun i => d i + v i) = b.quad d + dot b.n (b.grad d) v + 1 / 2 * dot b.n v (b.hess v) := by
  have e : dot b.n (fun i => d i + v i) (b.hess fun i => d i + v i) =
      dot b.n d (b.hess d) + 2 * dot b.n v (b.hess d) + dot b.n v (b.hess v) := by
    have : dot b.n (fun i => d i + v i) (b.hess fun i => d i + v i) = dot b.n (fun i => d i + v i) (fun i => b.hess d i + b.hess v i) :=
      dot_congr (fun _ _ _ => rfl) fun i _ _ => hess_add b d v i
    rw [this, dot_add_left, dot_add_right, dot_add_right, hess_symm b d v]; ring
  have e2 : dot b.n (b.grad d) v = dot b.n b.gopt v + dot b.n v (b.hess d) := by
    rw [dot_comm b.n v]
    exact dot_add_left _ _ _ _
  unfold Box.quad
  rw [e, e2, dot_add_right]; ring

theorem addHess_eq (n : Nat) (hq : Nat → Nat → K) (v g : Nat → K) (i : Nat) (h1 : 1 ≤ i) (h2 : i ≤ n) :
    addHess n hq v g i = g i + ∑ j ∈ Finset.Icc 1 n, hq (min i j) (max i j) * v j := by
  unfold addHess
  have key := up_inv (s := g) (body := fun j g => up j (fun i g =>
    let g := if i < j then set1 g j (g j + hq i j * v i) else g
    set1 g i (g i + hq i j * v j)) g)
    (fun m (w : Nat → K) => ∀ i, 1 ≤ i → w i = g i + if i ≤ m then ∑ j ∈ Finset.Icc 1 m, hq (min i j) (max i j) * v j else 0) n
    (fun i hi => by rw [if_neg (by omega), add_zero]) ?_
  · rw [key i h1, if_pos h2]
  · intro m hm w hw
    have inner := up_inv (s := w) (body := fun i (g : Nat → K) =>
      let g := if i < m + 1 then set1 g (m + 1) (g (m + 1) + hq i (m + 1) * v i) else g
      set1 g i (g i + hq i (m + 1) * v (m + 1)))
      (fun r (z : Nat → K) => ∀ i, 1 ≤ i → z i =
        if i = m + 1 then w i + ∑ j ∈ Finset.Icc 1 r, hq (min (m + 1) j) (max (m + 1) j) * v j
        else if i ≤ r then w i + hq i (m + 1) * v (m + 1) else w i) (m + 1)
      (fun i hi => by
        by_cases c : i = m + 1
        · rw [if_pos c]; simp
        · rw [if_neg c, if_neg (by omega)]) ?_
    · intro i hi
      rw [inner i hi, hw i hi]
      by_cases c : i = m + 1
      · subst c
        rw [if_pos rfl, if_neg (by omega), if_pos le_rfl, add_zero]
      · rw [if_neg c]
        by_cases c2 : i ≤ m
        · rw [if_pos (by omega), if_pos c2, if_pos (by omega), Finset.sum_Icc_succ_top (by omega), min_eq_left (by omega), max_eq_right (by omega)]
          ring
        · rw [if_neg (by omega), if_neg c2, if_neg (by omega)]
    · intro r hr z hz i hi
      dsimp only
      have hz' := hz i hi
      by_cases cr : r + 1 < m + 1
      · rw [if_pos cr]
        by_cases c : i = m + 1
        · subst c
          rw [if_pos rfl] at hz' ⊢
          rw [Finset.sum_Icc_succ_top (by omega), ← add_assoc, ← hz']
          unfold set1
          rw [if_neg (by omega), if_pos rfl, min_eq_right (by omega), max_eq_left (by omega)]
        · rw [if_neg c] at hz' ⊢
          by_cases ci : i = r + 1
          · subst ci
            rw [if_neg (by omega)] at hz'
            unfold set1
            rw [if_pos rfl, if_neg (by omega), if_pos le_rfl, hz']
          · unfold set1
            rw [if_neg ci, if_neg c, hz']
            by_cases c3 : i ≤ r
            · rw [if_pos c3, if_pos (by omega)]
            · rw [if_neg c3, if_neg (by omega)]
      · have er : r = m := by omega
        subst er
        rw [if_neg cr]
        by_cases c : i = r + 1
        · subst c
          rw [if_pos rfl] at hz' ⊢
          unfold set1
          rw [if_pos rfl, hz', Finset.sum_Icc_succ_top (by omega), min_self, max_self]
          ring
        · rw [if_neg c] at hz' ⊢
          unfold set1
          rw [if_neg c, hz']
          by_cases c3 : i ≤ r
          · rw [if_pos c3, if_pos (by omega)]
          · rw [if_neg c3, if_neg (by omega)]

theorem mulHess_eq (b : Box K) (s : Nat → K) (i : Nat) (h1 : 1 ≤ i) (h2 : i ≤ b.n) : mulHess b s i = b.hess s i := by
  unfold mulHess Box.hess
  rw [← zero_add (∑ j ∈ Finset.Icc 1 b.n, _), ← addHess_eq b.n b.hq s (fun _ => 0) i h1 h2]
  generalize addHess b.n b.hq s (fun _ => 0) = g
  refine up_inv (fun m (w : Nat → K) => w i = g i + ∑ k ∈ Finset.Icc 1 m, b.pq k * dot b.n (b.xpt k) s * b.xpt k i) b.npt (by simp) ?_
  intro m _ w hw
  rw [Finset.sum_Icc_succ_top (by omega)]
  dsimp only
  split_ifs with c
  · dsimp only
    rw [hw, acc_dot]; ring
  · rw [not_not] at c
    rw [hw, c]; ring


/-! ### The properties of the states of `trsbox` -/

/-- The number of fixed variables. -/
def fixedCount (n : Nat) (xbdi : Nat → K) : Nat := ((Finset.Icc 1 n).filter fun i => xbdi i ≠ 0).card

/-- True at each label. -/
structure TBase (b : Box K) (t : Tb K) : Prop where
  grad : ∀ i, 1 ≤ i → i ≤ b.n → t.gnew i = b.grad t.d i
  red : t.qred = -b.quad t.d
  pos : 0 < t.qred ∨ t.qred = 0 ∧ ∀ i, 1 ≤ i → i ≤ b.n → t.d i = 0
  inside : ∀ i, 1 ≤ i → i ≤ b.n → b.sl i ≤ b.xopt i + t.d i ∧ b.xopt i + t.d i ≤ b.su i
  bound : ∀ i, 1 ≤ i → i ≤ b.n → t.xbdi i = 0 ∨ t.xbdi i = -1 ∧ b.xopt i + t.d i = b.sl i ∨ t.xbdi i = 1 ∧ b.xopt i + t.d i = b.su i
  norm : dot b.n t.d t.d ≤ b.delta * b.delta
  count : t.nact = fixedCount b.n t.xbdi

/-- True before the alternative iterations. -/
structure TCg (b : Box K) (t : Tb K) : Prop where
  base : TBase b t
  delsq : t.delsq = b.delta * b.delta - (dot b.n t.d t.d - dot b.n (mask t.xbdi t.d) t.d)
  crvmin : t.crvmin = -1 ∨ 0 < t.crvmin

/-- At the label 30. -/
structure T30 (b : Box K) (t : Tb K) : Prop where
  cg : TCg b t
  conj : t.beta = 0 ∨ (t.gredsq ≠ 0 ∧ t.gredsq = dot b.n (mask t.xbdi t.gnew) t.gnew ∧ Free b.n t.xbdi t.s ∧ dot b.n t.s t.gnew = 0 ∧
    (t.iterc : Int) < t.itermax)

/-- At the label 50. -/
structure T50 (b : Box K) (t : Tb K) : Prop where
  cg : TCg b t
  free : Free b.n t.xbdi t.s
  stepsq : t.stepsq = dot b.n t.s t.s
  pos : 0 < t.stepsq
  hs : ∀ i, 1 ≤ i → i ≤ b.n → t.hs i = b.hess t.s i
  slope : dot b.n t.s t.gnew = -t.gredsq
  gredsq : 0 < t.gredsq
  iter : (t.iterc : Int) < t.itermax

/-- At the label 100. -/
structure T100 (b : Box K) (t : Tb K) : Prop where
  base : TBase b t
  crvmin : t.crvmin = 0

/-- At the label 120. -/
structure T120 (b : Box K) (t : Tb K) : Prop where
  base : TBase b t
  crvmin : t.crvmin = 0
  dredsq : t.dredsq = dot b.n (mask t.xbdi t.d) t.d
  dredg : t.dredg = dot b.n (mask t.xbdi t.d) t.gnew
  gredsq : t.gredsq = dot b.n (mask t.xbdi t.gnew) t.gnew
  hred : ∀ i, 1 ≤ i → i ≤ b.n → t.hred i = b.hess (mask t.xbdi t.d) i
  iter : t.itcsav ≤ t.iterc

/-- The cosine of the angle. -/
def cosine (a : K) : K := (1 - a * a) / (1 + a * a)

/-- The sine of the angle. -/
def sine (a : K) : K := (a + a) / (1 + a * a)

/-- A free variable after a rotation. -/
def turned (b : Box K) (t : Tb K) (a : K) (i : Nat) : K := b.xopt i + (cosine a * t.d i + sine a * t.s i)

/-- At the label 150. -/
structure T150 (b : Box K) (t : Tb K) : Prop where
  base : TBase b t
  crvmin : t.crvmin = 0
  dredsq : t.dredsq = dot b.n (mask t.xbdi t.d) t.d
  dredg : t.dredg = dot b.n (mask t.xbdi t.d) t.gnew
  hred : ∀ i, 1 ≤ i → i ≤ b.n → t.hred i = b.hess (mask t.xbdi t.d) i
  iter : t.itcsav ≤ t.iterc
  free : Free b.n t.xbdi t.s
  hs : ∀ i, 1 ≤ i → i ≤ b.n → t.hs i = b.hess t.s i
  orth : dot b.n t.s t.d = 0
  length : dot b.n t.s t.s = t.dredsq
  sredg : dot b.n t.s t.gnew = t.sredg
  angbd : 0 < t.angbd
  angle : ∀ i, 1 ≤ i → i ≤ b.n → t.xbdi i = 0 → ∀ a, 0 ≤ a → a ≤ t.angbd → b.sl i ≤ turned b t a i ∧ turned b t a i ≤ b.su i
  iact : t.iact = 0 ∨ 1 ≤ t.iact ∧ t.iact ≤ b.n ∧ t.xbdi t.iact = 0 ∧
    (t.xsav = -1 ∧ turned b t t.angbd t.iact = b.sl t.iact ∨ t.xsav = 1 ∧ turned b t t.angbd t.iact = b.su t.iact)

/-- What is true at each label. -/
def TOk (b : Box K) : TLab → Tb K → Prop
  | .t20, t => TCg b t
  | .t30, t => T30 b t
  | .t50, t => T50 b t
  | .t90, t => TBase b t
  | .t100, t => T100 b t
  | .t120, t => T120 b t
  | .t150, t => T150 b t
  | .t190, t => TBase b t

theorem TBase.same {b : Box K} {t t' : Tb K} (h : TBase b t)
    (e : t'.d = t.d ∧ t'.gnew = t.gnew ∧ t'.qred = t.qred ∧ t'.xbdi = t.xbdi ∧ t'.nact = t.nact) : TBase b t' := by
  obtain ⟨e1, e2, e3, e4, e5⟩ := e
  refine ⟨?_, ?_, ?_, ?_, ?_, ?_, ?_⟩
  · rw [e1, e2]; exact h.grad
  · rw [e1, e3]; exact h.red
  · rw [e1, e3]; exact h.pos
  · rw [e1]; exact h.inside
  · rw [e1, e4]; exact h.bound
  · rw [e1]; exact h.norm
  · rw [e4, e5]; exact h.count

theorem TCg.same {b : Box K} {t t' : Tb K} (h : TCg b t)
    (e : t'.d = t.d ∧ t'.gnew = t.gnew ∧ t'.qred = t.qred ∧ t'.xbdi = t.xbdi ∧ t'.nact = t.nact ∧ t'.delsq = t.delsq ∧ t'.crvmin = t.crvmin) :
    TCg b t' := by
  obtain ⟨e1, e2, e3, e4, e5, e6, e7⟩ := e
  refine ⟨h.base.same ⟨e1, e2, e3, e4, e5⟩, ?_, ?_⟩
  · rw [e1, e4, e6]; exact h.delsq
  · rw [e7]; exact h.crvmin

theorem TCg.crvmin_ne {b : Box K} {t : Tb K} (h : TCg b t) : t.crvmin ≠ 0 := by
  rcases h.crvmin with h | h
  · rw [h]; norm_num
  · exact h.ne'

theorem TBase.qred_nonneg {b : Box K} {t : Tb K} (h : TBase b t) : 0 ≤ t.qred := by
  rcases h.pos with h | ⟨h, -⟩
  · exact h.le
  · exact h.ge

theorem count_init (n : Nat) (f : Nat → K) : up n (fun i m => if f i ≠ 0 then m + 1 else m) 0 = fixedCount n f := by
  refine up_inv (fun m (c : Nat) => c = fixedCount m f) n (by simp [fixedCount]) ?_
  rintro m _ c rfl
  unfold fixedCount
  have e : Finset.Icc 1 (m + 1) = insert (m + 1) (Finset.Icc 1 m) := by
    ext j; simp only [Finset.mem_insert, Finset.mem_Icc]; omega
  rw [e, Finset.filter_insert]
  split_ifs with h
  · rw [Finset.card_insert_of_notMem]
    simp
  · rfl

theorem count_set {n : Nat} {xbdi : Nat → K} {i : Nat} {v : K} (h1 : 1 ≤ i) (h2 : i ≤ n) (h0 : xbdi i = 0) (hv : v ≠ 0) :
    fixedCount n (set1 xbdi i v) = fixedCount n xbdi + 1 := by
  unfold fixedCount
  have e : (Finset.Icc 1 n).filter (fun j => set1 xbdi i v j ≠ 0) = insert i ((Finset.Icc 1 n).filter fun j => xbdi j ≠ 0) := by
    ext j
    rw [Finset.mem_filter, Finset.mem_insert, Finset.mem_filter, Finset.mem_Icc]
    unfold set1
    by_cases c : j = i
    · subst c; simp [h1, h2, hv]
    · simp [c]
  rw [e, Finset.card_insert_of_notMem]
  simp [h0]

theorem count_le (n : Nat) (xbdi : Nat → K) : fixedCount n xbdi ≤ n := by
  unfold fixedCount
  refine (Finset.card_filter_le _ _).trans ?_
  simp

theorem count_lt {n : Nat} {xbdi : Nat → K} {i : Nat} (h1 : 1 ≤ i) (h2 : i ≤ n) (h0 : xbdi i = 0) : fixedCount n xbdi < n := by
  have := count_set (v := 1) h1 h2 h0 one_ne_zero
  have := count_le n (set1 xbdi i 1)
  omega

theorem tInit_ok {b : Box K} (hb : ∀ i, 1 ≤ i → i ≤ b.n → b.sl i ≤ b.xopt i ∧ b.xopt i ≤ b.su i) (t : Tb K) :
    TOk b (tInit b t).1 (tInit b t).2 := by
  refine (⟨⟨?_, ?_, ?_, ?_, ?_, ?_, ?_⟩, ?_, ?_⟩ : TCg b _)
  · intro i _ _
    show b.gopt i = b.gopt i + b.hess (fun _ => 0) i
    rw [hess_zero, add_zero]
  · show (0 : K) = -b.quad fun _ => 0
    unfold Box.quad
    rw [dot_comm, dot_zero_left, dot_zero_left]; ring
  · exact Or.inr ⟨rfl, fun _ _ _ => rfl⟩
  · intro i h1 h2
    show b.sl i ≤ b.xopt i + 0 ∧ b.xopt i + 0 ≤ b.su i
    rw [add_zero]; exact hb i h1 h2
  · intro i h1 h2
    show fixed0 b i = 0 ∨ fixed0 b i = -1 ∧ b.xopt i + 0 = b.sl i ∨ fixed0 b i = 1 ∧ b.xopt i + 0 = b.su i
    rw [add_zero]
    obtain ⟨g1, g2⟩ := hb i h1 h2
    unfold fixed0
    split_ifs with c1 c2 c3 c4
    · exact Or.inr (Or.inl ⟨rfl, le_antisymm c1 g1⟩)
    · exact Or.inl rfl
    · exact Or.inr (Or.inr ⟨rfl, le_antisymm g2 c3⟩)
    · exact Or.inl rfl
    · exact Or.inl rfl
  · show dot b.n (fun _ => 0) (fun _ => 0) ≤ b.delta * b.delta
    rw [dot_zero_left]; exact mul_self_nonneg _
  · exact count_init b.n (fixed0 b)
  · show b.delta * b.delta = b.delta * b.delta - (dot b.n (fun _ => 0) (fun _ => 0) - dot b.n (mask _ fun _ => 0) fun _ => 0)
    rw [dot_mask, dot_zero_left, dot_zero_left]; ring
  · exact Or.inl rfl

/-! ### The conjugate gradient iterations -/

theorem t30_ok {b : Box K} {t : Tb K} (h : T30 b t) : TOk b (t30 b t).1 (t30 b t).2 := by
  unfold t30
  obtain ⟨s, hs⟩ : ∃ s : Nat → K, s = fun i => if t.xbdi i ≠ 0 then 0 else if t.beta = 0 then -t.gnew i else t.beta * t.s i - t.gnew i := ⟨_, rfl⟩
  rw [← hs]
  dsimp only
  rw [acc_dot]
  have hfree : Free b.n t.xbdi s := by
    intro i _ _ hi
    rw [hs]; dsimp only; rw [if_pos hi]
  by_cases c0 : dot b.n s s = 0
  · rw [if_pos c0]
    exact h.cg.base.same ⟨rfl, rfl, rfl, rfl, rfl⟩
  rw [if_neg c0]
  have hpos : 0 < dot b.n s s := lt_of_le_of_ne (dot_nonneg _ _) (Ne.symm c0)
  have hcount : t.nact < b.n := by
    rw [h.cg.base.count]
    by_contra hc
    apply c0
    refine Finset.sum_eq_zero fun i hi => ?_
    obtain ⟨i1, i2⟩ := Finset.mem_Icc.mp hi
    have : t.xbdi i ≠ 0 := fun h0 => hc (count_lt i1 i2 h0)
    rw [hfree i i1 i2 this, zero_mul]
  by_cases cb : t.beta = 0
  · rw [if_pos cb]
    dsimp only
    split_ifs with c1
    · exact h.cg.base.same ⟨rfl, rfl, rfl, rfl, rfl⟩
    · have hne : t.crvmin ≠ 0 := h.cg.crvmin_ne
      unfold t210
      dsimp only
      rw [if_pos hne]
      refine T50.mk (b := b) (t := { t with s := s, stepsq := dot b.n s s, gredsq := dot b.n s s, itermax := (t.iterc : Int) + b.n - t.nact, hs := mulHess b s }) (h.cg.same ⟨rfl, rfl, rfl, rfl, rfl, rfl, rfl⟩) hfree rfl hpos (fun i h1 h2 => mulHess_eq b s i h1 h2) ?_ hpos ?_
      · show dot b.n s t.gnew = -dot b.n s s
        have e : ∀ i, 1 ≤ i → i ≤ b.n → s i = -1 * mask t.xbdi t.gnew i := by
          intro i _ _
          rw [hs]; unfold mask; dsimp only
          by_cases c : t.xbdi i = 0
          · rw [if_neg (not_not.mpr c), if_pos cb, if_pos c]; ring
          · rw [if_pos c, if_neg c]; ring
        rw [dot_congr e (fun _ _ _ => rfl), dot_congr e e, dot_smul_left, dot_smul_left, dot_smul_right, ← dot_mask, dot_mask_free (mask_free _ _ _), dot_mask]
        ring
      · show (t.iterc : Int) < (t.iterc : Int) + b.n - t.nact
        omega
  · rw [if_neg cb]
    obtain ⟨g1, g2, g3, g4, g5⟩ := h.conj.resolve_left cb
    dsimp only
    split_ifs with c1
    · exact h.cg.base.same ⟨rfl, rfl, rfl, rfl, rfl⟩
    · have hne : t.crvmin ≠ 0 := h.cg.crvmin_ne
      unfold t210
      dsimp only
      rw [if_pos hne]
      refine T50.mk (b := b) (t := { t with s := s, stepsq := dot b.n s s, hs := mulHess b s }) (h.cg.same ⟨rfl, rfl, rfl, rfl, rfl, rfl, rfl⟩) hfree rfl hpos (fun i h1 h2 => mulHess_eq b s i h1 h2) ?_ ?_ g5
      · show dot b.n s t.gnew = -t.gredsq
        have e : ∀ i, 1 ≤ i → i ≤ b.n → s i = t.beta * t.s i + -1 * mask t.xbdi t.gnew i := by
          intro i i1 i2
          rw [hs]; unfold mask; dsimp only
          by_cases c : t.xbdi i = 0
          · rw [if_neg (not_not.mpr c), if_neg cb, if_pos c]; ring
          · rw [if_pos c, if_neg c, g3 i i1 i2 c]; ring
        rw [dot_congr e (fun _ _ _ => rfl), dot_add_left, dot_smul_left, dot_smul_left, g4, g2]; ring
      · show 0 < t.gredsq
        refine lt_of_le_of_ne ?_ (Ne.symm g1)
        rw [g2, ← dot_mask_free (mask_free b.n t.xbdi t.gnew), dot_mask]
        exact dot_nonneg _ _

/-- `BLEN` is positive, and shorter steps stay in the trust region. -/
theorem boundary_spec (hsqrt : ∀ a : K, 0 ≤ a → 0 ≤ CMath.sqrt a ∧ CMath.sqrt a * CMath.sqrt a = a) {stepsq resid ds : K}
    (h1 : 0 < stepsq) (h2 : 0 < resid) :
    0 < boundary stepsq resid ds ∧ ∀ a, 0 ≤ a → a ≤ boundary stepsq resid ds → stepsq * (a * a) + 2 * a * ds ≤ resid := by
  have hp : 0 < stepsq * resid := mul_pos h1 h2
  have hd := mul_self_nonneg ds
  obtain ⟨w1, w2⟩ := hsqrt (stepsq * resid + ds * ds) (by linarith)
  obtain ⟨w, hw⟩ : ∃ w, w = CMath.sqrt (stepsq * resid + ds * ds) := ⟨_, rfl⟩
  rw [← hw] at w1 w2
  have k1 : 0 < w - ds := by
    by_contra hc
    have : w * w ≤ ds * ds := mul_le_mul (by linarith) (by linarith) w1 (by linarith)
    linarith
  have k2 : 0 < w + ds := by
    by_contra hc
    have : w * w ≤ (-ds) * (-ds) := mul_le_mul (by linarith) (by linarith) w1 (by linarith)
    linarith [neg_mul_neg ds ds]
  have e : boundary stepsq resid ds = (w - ds) / stepsq := by
    unfold boundary
    rw [← hw]
    dsimp only
    split_ifs with c
    · rfl
    · rw [div_eq_div_iff k2.ne' h1.ne']; linarith
  rw [e]
  refine ⟨div_pos k1 h1, fun a ha hle => ?_⟩
  rw [le_div_iff₀ h1] at hle
  have k3 : a * (stepsq * a + 2 * ds) ≤ a * (w + ds) := mul_le_mul_of_nonneg_left (by linarith) ha
  have k4 : (a * stepsq) * (w + ds) ≤ (w - ds) * (w + ds) := mul_le_mul_of_nonneg_right hle k2.le
  have k5 : stepsq * (a * (w + ds)) ≤ stepsq * resid := by nlinarith
  have k6 := le_of_mul_le_mul_left k5 h1
  linarith

/-- The step limited by the bounds. -/
theorem limited_spec {b : Box K} {t : Tb K} (hin : ∀ i, 1 ≤ i → i ≤ b.n → b.sl i ≤ b.xopt i + t.d i ∧ b.xopt i + t.d i ≤ b.su i)
    {st : K} (hst : 0 < st) :
    0 ≤ (limited b t st).1 ∧ (limited b t st).1 ≤ st ∧
    (∀ i, 1 ≤ i → i ≤ b.n → (0 < t.s i → (limited b t st).1 * t.s i ≤ b.su i - (b.xopt i + t.d i)) ∧
      (t.s i < 0 → b.sl i - (b.xopt i + t.d i) ≤ (limited b t st).1 * t.s i)) ∧
    ((limited b t st).2 = 0 → (limited b t st).1 = st) ∧
    ((limited b t st).2 ≠ 0 → 1 ≤ (limited b t st).2 ∧ (limited b t st).2 ≤ b.n ∧ t.s (limited b t st).2 ≠ 0 ∧
      b.xopt (limited b t st).2 + (t.d (limited b t st).2 + (limited b t st).1 * t.s (limited b t st).2) =
        if t.s (limited b t st).2 < 0 then b.sl (limited b t st).2 else b.su (limited b t st).2) := by
  unfold limited
  have key := up_inv (s := ((st, 0) : K × Nat)) (body := fun i (r : K × Nat) =>
    if t.s i ≠ 0 then
      let xsum := b.xopt i + t.d i
      let temp := if t.s i > 0 then (b.su i - xsum) / t.s i else (b.sl i - xsum) / t.s i
      if temp < r.1 then (temp, i) else r
    else r)
    (fun m (r : K × Nat) => 0 ≤ r.1 ∧ r.1 ≤ st ∧
      (∀ i, 1 ≤ i → i ≤ m → (0 < t.s i → r.1 * t.s i ≤ b.su i - (b.xopt i + t.d i)) ∧ (t.s i < 0 → b.sl i - (b.xopt i + t.d i) ≤ r.1 * t.s i)) ∧
      (r.2 = 0 → r.1 = st) ∧
      (r.2 ≠ 0 → 1 ≤ r.2 ∧ r.2 ≤ m ∧ t.s r.2 ≠ 0 ∧ b.xopt r.2 + (t.d r.2 + r.1 * t.s r.2) = if t.s r.2 < 0 then b.sl r.2 else b.su r.2)) b.n
    ⟨hst.le, le_rfl, fun i h1 h2 => by omega, fun _ => rfl, fun h => absurd rfl h⟩ ?_
  · exact key
  · rintro m hm r ⟨q1, q2, q3, q4, q5⟩
    dsimp only
    obtain ⟨g1, g2⟩ := hin (m + 1) (by omega) (by omega)
    by_cases c0 : t.s (m + 1) = 0
    · rw [if_neg (not_not.mpr c0)]
      refine ⟨q1, q2, fun i h1 h2 => ?_, q4, fun h => ?_⟩
      · by_cases c : i = m + 1
        · subst c; rw [c0]; exact ⟨fun h => absurd h (lt_irrefl _), fun h => absurd h (lt_irrefl _)⟩
        · exact q3 i h1 (by omega)
      · obtain ⟨a1, a2, a3, a4⟩ := q5 h
        exact ⟨a1, by omega, a3, a4⟩
    · rw [if_pos c0]
      obtain ⟨w, hw⟩ : ∃ w, w = if t.s (m + 1) > 0 then (b.su (m + 1) - (b.xopt (m + 1) + t.d (m + 1))) / t.s (m + 1)
          else (b.sl (m + 1) - (b.xopt (m + 1) + t.d (m + 1))) / t.s (m + 1) := ⟨_, rfl⟩
      rw [← hw]
      have hw0 : 0 ≤ w := by
        rw [hw]
        split_ifs with c
        · exact div_nonneg (by linarith) c.le
        · exact div_nonneg_of_nonpos (by linarith) (not_lt.mp c)
      have hwe : w * t.s (m + 1) = if t.s (m + 1) > 0 then b.su (m + 1) - (b.xopt (m + 1) + t.d (m + 1)) else b.sl (m + 1) - (b.xopt (m + 1) + t.d (m + 1)) := by
        rw [hw]
        split_ifs <;> field_simp
      have mono : ∀ r', 0 ≤ r' → r' ≤ w → (0 < t.s (m + 1) → r' * t.s (m + 1) ≤ b.su (m + 1) - (b.xopt (m + 1) + t.d (m + 1))) ∧
          (t.s (m + 1) < 0 → b.sl (m + 1) - (b.xopt (m + 1) + t.d (m + 1)) ≤ r' * t.s (m + 1)) := by
        intro r' _ hle
        constructor
        · intro c
          rw [if_pos c] at hwe
          rw [← hwe]; exact mul_le_mul_of_nonneg_right hle c.le
        · intro c
          rw [if_neg (not_lt.mpr c.le)] at hwe
          rw [← hwe]; exact mul_le_mul_of_nonpos_right hle c.le
      by_cases c1 : w < r.1
      · rw [if_pos c1]
        refine ⟨hw0, c1.le.trans q2, fun i h1 h2 => ?_, fun h => absurd h (by simp), fun _ => ⟨by omega, le_rfl, c0, ?_⟩⟩
        · by_cases c : i = m + 1
          · subst c; exact mono w hw0 le_rfl
          · obtain ⟨a1, a2⟩ := q3 i h1 (by omega)
            exact ⟨fun h => (mul_le_mul_of_nonneg_right c1.le h.le).trans (a1 h), fun h => (a2 h).trans (mul_le_mul_of_nonpos_right c1.le h.le)⟩
        · show b.xopt (m + 1) + (t.d (m + 1) + w * t.s (m + 1)) = _
          rw [hwe]
          by_cases c : t.s (m + 1) > 0
          · rw [if_pos c, if_neg (not_lt.mpr c.le)]; ring
          · rw [if_neg c, if_pos (lt_of_le_of_ne (not_lt.mp c) c0)]; ring
      · rw [if_neg c1]
        refine ⟨q1, q2, fun i h1 h2 => ?_, q4, fun h => ?_⟩
        · by_cases c : i = m + 1
          · subst c; exact mono r.1 q1 (not_lt.mp c1)
          · exact q3 i h1 (by omega)
        · obtain ⟨a1, a2, a3, a4⟩ := q5 h
          exact ⟨a1, by omega, a3, a4⟩

end
end Opk.Bobyqa
