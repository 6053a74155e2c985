import Verif.Cobyla.Trstlp
import Verif.Cobyla.Loops
import Mathlib.LinearAlgebra.Matrix.NonsingularInverse
/-! # COBYLA: the active constraints of `trstlp` in exact arithmetic -/
set_option linter.unusedSectionVars false
set_option linter.unusedSimpArgs false
namespace Opk.Cobyla
open Linalg CMath Finset

variable {K : Type} [Field K] [LinearOrder K] [IsStrictOrderedRing K] [CMath K] [ExactMath K]

/-- The columns of `Z` are orthonormal. -/
def Orth (n : Nat) (z : Nat → Nat → K) : Prop :=
  ∀ j k, 1 ≤ j → j ≤ n → 1 ≤ k → k ≤ n → ∑ i ∈ Icc 1 n, z i j * z i k = if j = k then 1 else 0

/-- The inner product of the column `k` of `Z` and of the gradient of the constraint `c`. -/
def zd (q : Lp K) (z : Nat → Nat → K) (k c : Nat) : K := ∑ i ∈ Icc 1 q.n, z i k * q.a i c

/-- Two columns are replaced by combinations. -/
def rot (n p r : Nat) (a b c d : K) (z : Nat → Nat → K) : Nat → Nat → K := fun i l =>
  if 1 ≤ i ∧ i ≤ n then if l = p then a * z i p + b * z i r else if l = r then c * z i p + d * z i r else z i l
  else z i l

theorem up_rot (n p r : Nat) (hpr : p ≠ r) (h1 h2 : K → K → K) (z : Nat → Nat → K) :
    up n (fun i z => set2 (set2 z i r (h2 (z i p) (z i r))) i p (h1 (z i p) (z i r))) z = fun i l =>
      if 1 ≤ i ∧ i ≤ n then if l = p then h1 (z i p) (z i r) else if l = r then h2 (z i p) (z i r) else z i l
      else z i l := by
  refine up_inv (fun q (w : Nat → Nat → K) => w = fun i l =>
    if 1 ≤ i ∧ i ≤ q then if l = p then h1 (z i p) (z i r) else if l = r then h2 (z i p) (z i r) else z i l
      else z i l) n ?_ ?_
  · funext i l; rw [if_neg (by omega)]
  · rintro j _ w rfl
    funext i l
    simp only [set2]
    by_cases hi : i = j + 1
    · subst hi
      have h0 : ¬ (1 ≤ j + 1 ∧ j + 1 ≤ j) := by omega
      have h3 : 1 ≤ j + 1 ∧ j + 1 ≤ j + 1 := by omega
      simp only [if_neg h0, if_pos h3, true_and]
    · by_cases h3 : 1 ≤ i ∧ i ≤ j
      · have h4 : 1 ≤ i ∧ i ≤ j + 1 := by omega
        simp only [hi, false_and, if_false, if_pos h3, if_pos h4]
      · have h4 : ¬ (1 ≤ i ∧ i ≤ j + 1) := by omega
        simp only [hi, false_and, if_false, if_neg h3, if_neg h4]

section
variable {n p r : Nat} {a b c d : K} {z : Nat → Nat → K}

theorem rot_p (g : Nat → K) :
    ∑ i ∈ Icc 1 n, rot n p r a b c d z i p * g i = a * ∑ i ∈ Icc 1 n, z i p * g i + b * ∑ i ∈ Icc 1 n, z i r * g i := by
  rw [mul_sum, mul_sum, ← sum_add_distrib]
  refine sum_congr rfl fun i hi => ?_
  rw [rot, if_pos (mem_Icc.1 hi), if_pos rfl]
  ring

theorem rot_r (hpr : p ≠ r) (g : Nat → K) :
    ∑ i ∈ Icc 1 n, rot n p r a b c d z i r * g i = c * ∑ i ∈ Icc 1 n, z i p * g i + d * ∑ i ∈ Icc 1 n, z i r * g i := by
  rw [mul_sum, mul_sum, ← sum_add_distrib]
  refine sum_congr rfl fun i hi => ?_
  rw [rot, if_pos (mem_Icc.1 hi), if_neg (Ne.symm hpr), if_pos rfl]
  ring

theorem rot_other {l : Nat} (h1 : l ≠ p) (h2 : l ≠ r) : (fun i => rot n p r a b c d z i l) = fun i => z i l := by
  funext i
  rw [rot, if_neg h1, if_neg h2, ite_self]

theorem rot_other' {l : Nat} (h1 : l ≠ p) (h2 : l ≠ r) (i : Nat) : rot n p r a b c d z i l = z i l :=
  congrFun (rot_other h1 h2) i

theorem orth_rot (hpr : p ≠ r) (hp : 1 ≤ p) (hpn : p ≤ n) (hr : 1 ≤ r) (hrn : r ≤ n) (h1 : a * a + b * b = 1)
    (h2 : c * c + d * d = 1) (h3 : a * c + b * d = 0) (hz : Orth n z) : Orth n (rot n p r a b c d z) := by
  have hpp := hz p p hp hpn hp hpn
  have hrr := hz r r hr hrn hr hrn
  have hprs := hz p r hp hpn hr hrn
  have hrps := hz r p hr hrn hp hpn
  rw [if_pos rfl] at hpp hrr
  rw [if_neg hpr] at hprs
  rw [if_neg (Ne.symm hpr)] at hrps
  have comm : ∀ u v : Nat → K, ∑ i ∈ Icc 1 n, u i * v i = ∑ i ∈ Icc 1 n, v i * u i :=
    fun u v => sum_congr rfl fun i _ => mul_comm _ _
  have hsym : ∀ j k, ∑ i ∈ Icc 1 n, rot n p r a b c d z i j * rot n p r a b c d z i k = ∑ i ∈ Icc 1 n, rot n p r a b c d z i k * rot n p r a b c d z i j :=
    fun j k => comm _ _
  have other : ∀ k, 1 ≤ k → k ≤ n → k ≠ p → k ≠ r → ∀ j, 1 ≤ j → j ≤ n →
      ∑ i ∈ Icc 1 n, rot n p r a b c d z i j * rot n p r a b c d z i k = if j = k then 1 else 0 := by
    intro k hk hkn hkp hkr j hj hjn
    have e : ∑ i ∈ Icc 1 n, rot n p r a b c d z i j * rot n p r a b c d z i k = ∑ i ∈ Icc 1 n, rot n p r a b c d z i j * z i k :=
      sum_congr rfl fun i _ => by rw [rot_other' hkp hkr]
    rw [e]
    by_cases hjp : j = p
    · subst hjp
      rw [rot_p (fun i => z i k), hz j k hj hjn hk hkn, hz r k hr hrn hk hkn, if_neg (Ne.symm hkp), if_neg (Ne.symm hkr)]
      ring
    · by_cases hjr : j = r
      · subst hjr
        rw [rot_r hpr (fun i => z i k), hz p k hp hpn hk hkn, hz j k hj hjn hk hkn, if_neg (Ne.symm hkp), if_neg (Ne.symm hkr)]
        ring
      · rw [← hz j k hj hjn hk hkn]
        exact sum_congr rfl fun i _ => by rw [rot_other' hjp hjr]
  have e1 : ∑ i ∈ Icc 1 n, z i p * rot n p r a b c d z i p = a := by
    rw [comm, rot_p (fun i => z i p), hpp, hrps]; ring
  have e2 : ∑ i ∈ Icc 1 n, z i r * rot n p r a b c d z i p = b := by
    rw [comm, rot_p (fun i => z i r), hrr, hprs]; ring
  have e3 : ∑ i ∈ Icc 1 n, z i p * rot n p r a b c d z i r = c := by
    rw [comm, rot_r hpr (fun i => z i p), hpp, hrps]; ring
  have e4 : ∑ i ∈ Icc 1 n, z i r * rot n p r a b c d z i r = d := by
    rw [comm, rot_r hpr (fun i => z i r), hrr, hprs]; ring
  intro j k hj hjn hk hkn
  by_cases hkp : k = p
  · subst hkp
    by_cases hjp : j = k
    · subst hjp
      rw [rot_p (fun i => rot n j r a b c d z i j), e1, e2, if_pos rfl, h1]
    · by_cases hjr : j = r
      · subst hjr
        rw [rot_r hpr (fun i => rot n k j a b c d z i k), e1, e2, if_neg hjp]
        linear_combination h3
      · rw [hsym, other j hj hjn hjp hjr k hk hkn, if_neg (Ne.symm hjp), if_neg hjp]
  · by_cases hkr : k = r
    · subst hkr
      by_cases hjp : j = p
      · subst hjp
        rw [rot_p (fun i => rot n j k a b c d z i k), e3, e4, if_neg hpr, h3]
      · by_cases hjr : j = k
        · subst hjr
          rw [rot_r hpr (fun i => rot n p j a b c d z i j), e3, e4, if_pos rfl, h2]
        · rw [hsym, other j hj hjn hjp hjr k hk hkn, if_neg (Ne.symm hjr), if_neg hjr]
    · exact other k hk hkn hkp hkr j hj hjn

theorem orth_unit (z : Nat → Nat → K) (h : ∀ i j, 1 ≤ i → i ≤ n → 1 ≤ j → j ≤ n → z i j = if i = j then 1 else 0) :
    Orth n z := by
  intro j k hj hjn hk hkn
  have e : ∀ i ∈ Icc 1 n, z i j * z i k = if i = j then (if j = k then 1 else 0) else 0 := by
    intro i hi
    rw [mem_Icc] at hi
    rw [h i j hi.1 hi.2 hj hjn, h i k hi.1 hi.2 hk hkn]
    by_cases hij : i = j
    · subst hij; simp
    · simp [hij]
  rw [sum_congr rfl e, sum_ite_eq' (Icc 1 n) j, if_pos (mem_Icc.2 ⟨hj, hjn⟩)]

/-- A vector which is orthogonal to all the columns is zero. -/
theorem Orth.zero (hz : Orth n z) (g : Nat → K) (h : ∀ k, 1 ≤ k → k ≤ n → ∑ i ∈ Icc 1 n, z i k * g i = 0) :
    ∀ i, 1 ≤ i → i ≤ n → g i = 0 := by
  have hm : (Matrix.of fun (k i : Fin n) => z (i + 1) (k + 1)) * (Matrix.of fun (i k : Fin n) => z (i + 1) (k + 1)) = 1 := by
    ext j k
    rw [Matrix.mul_apply, Matrix.one_apply]
    simp only [Matrix.of_apply]
    have := hz (j + 1) (k + 1) (by omega) (by omega) (by omega) (by omega)
    rw [Finset.sum_fin_eq_sum_range]
    have e : ∑ i ∈ Icc 1 n, z i (j + 1) * z i (k + 1) = ∑ i ∈ Finset.range n, z (i + 1) (j + 1) * z (i + 1) (k + 1) := by
      rw [show Icc 1 n = Ico 1 (n + 1) from rfl, sum_Ico_eq_sum_range]
      exact sum_congr (by simp) fun i _ => by rw [add_comm 1 i]
    rw [e] at this
    rw [sum_congr rfl (g := fun i => z (i + 1) (j + 1) * z (i + 1) (k + 1)) (fun i hi => by rw [dif_pos (mem_range.1 hi)]), this]
    simp only [Fin.ext_iff, Nat.add_right_cancel_iff]
  have hm' := mul_eq_one_comm.1 hm
  intro i hi hin
  have hv : (Matrix.of fun (k i : Fin n) => z (i + 1) (k + 1)).mulVec (fun i : Fin n => g (i + 1)) = 0 := by
    funext k
    rw [Matrix.mulVec, dotProduct, Finset.sum_fin_eq_sum_range]
    have := h (k + 1) (by omega) (by omega)
    have e : ∑ i ∈ Icc 1 n, z i (k + 1) * g i = ∑ i ∈ Finset.range n, z (i + 1) (k + 1) * g (i + 1) := by
      rw [show Icc 1 n = Ico 1 (n + 1) from rfl, sum_Ico_eq_sum_range]
      exact sum_congr (by simp) fun i _ => by rw [add_comm 1 i]
    rw [e] at this
    rw [sum_congr rfl (g := fun i => z (i + 1) (k + 1) * g (i + 1)) (fun i hi => by rw [dif_pos (mem_range.1 hi)]; rfl), this]
    rfl
  have h0 : (fun i : Fin n => g (i + 1)) = 0 := by
    rw [← Matrix.one_mulVec (fun i : Fin n => g (i + 1)), ← hm', ← Matrix.mulVec_mulVec, hv, Matrix.mulVec_zero]
  have := congrFun h0 ⟨i - 1, by omega⟩
  simp only [Pi.zero_apply] at this
  rwa [show i - 1 + 1 = i from by omega] at this

end

theorem zd_congr (q : Lp K) {z z' : Nat → Nat → K} {k : Nat} (h : ∀ i, z i k = z' i k) (c : Nat) : zd q z k c = zd q z' k c :=
  sum_congr rfl fun i _ => by rw [h]

/-- The active constraints: their number, their list, and the factorization. -/
structure Act (q : Lp K) (nact mcon : Nat) (iact : Nat → Nat) (z : Nat → Nat → K) (zdota : Nat → K) : Prop where
  hn : nact ≤ q.n
  hm : nact ≤ mcon
  range : ∀ k, 1 ≤ k → k ≤ mcon → 1 ≤ iact k ∧ iact k ≤ mcon
  sur : ∀ c, 1 ≤ c → c ≤ mcon → ∃ k, 1 ≤ k ∧ k ≤ mcon ∧ iact k = c
  orth : Orth q.n z
  diag : ∀ k, 1 ≤ k → k ≤ nact → zdota k = zd q z k (iact k)
  ne : ∀ k, 1 ≤ k → k ≤ nact → zdota k ≠ 0
  tail : ∀ k, 1 ≤ k → k ≤ nact → ∀ j, k < j → j ≤ q.n → zd q z j (iact k) = 0

theorem orth_pair {x y t : K} (ht : t * t = x * x + y * y) (h0 : t ≠ 0) :
    (x / t) * (x / t) + (y / t) * (y / t) = 1 := by
  field_simp
  rw [sq, sq, sq, ht]

/-- Two consecutive active constraints are exchanged. -/
theorem Act.swap {q : Lp K} {nact mcon : Nat} {iact : Nat → Nat} {z : Nat → Nat → K} {zdota : Nat → K}
    (h : Act q nact mcon iact z zdota) {k : Nat} (hk : 1 ≤ k) (hk' : k + 1 ≤ nact) {t : K}
    (ht : t * t = zd q z k (iact (k + 1)) * zd q z k (iact (k + 1)) + zdota (k + 1) * zdota (k + 1)) (h0 : t ≠ 0) :
    Act q nact mcon (set1 (set1 iact (k + 1) (iact k)) k (iact (k + 1)))
      (rot q.n k (k + 1) (zd q z k (iact (k + 1)) / t) (zdota (k + 1) / t) (zdota (k + 1) / t) (-(zd q z k (iact (k + 1)) / t)) z)
      (set1 (set1 zdota (k + 1) (zdota (k + 1) / t * zdota k)) k t) := by
  have hn := h.hn
  have hm := h.hm
  have hkk : k ≠ k + 1 := by omega
  set sp := zd q z k (iact (k + 1)) with hsp
  set ze := zdota (k + 1) with hze
  have hP := orth_pair ht h0
  have iact1 : set1 (set1 iact (k + 1) (iact k)) k (iact (k + 1)) (k + 1) = iact k := by
    rw [set1, if_neg (Ne.symm hkk), set1, if_pos rfl]
  have iact0 : set1 (set1 iact (k + 1) (iact k)) k (iact (k + 1)) k = iact (k + 1) := by
    rw [set1, if_pos rfl]
  have iactO : ∀ j, j ≠ k → j ≠ k + 1 → set1 (set1 iact (k + 1) (iact k)) k (iact (k + 1)) j = iact j := by
    intro j h1 h2
    rw [set1, if_neg h1, set1, if_neg h2]
  have zd0 : ∀ c, zd q (rot q.n k (k + 1) (sp / t) (ze / t) (ze / t) (-(sp / t)) z) k c = sp / t * zd q z k c + ze / t * zd q z (k + 1) c :=
    fun c => rot_p fun i => q.a i c
  have zd1 : ∀ c, zd q (rot q.n k (k + 1) (sp / t) (ze / t) (ze / t) (-(sp / t)) z) (k + 1) c = ze / t * zd q z k c + -(sp / t) * zd q z (k + 1) c :=
    fun c => rot_r hkk fun i => q.a i c
  have zdO : ∀ j, j ≠ k → j ≠ k + 1 → ∀ c, zd q (rot q.n k (k + 1) (sp / t) (ze / t) (ze / t) (-(sp / t)) z) j c = zd q z j c :=
    fun j h1 h2 c => zd_congr q (fun i => rot_other' h1 h2 i) c
  have dk := h.diag k hk (by omega)
  have dk1 := h.diag (k + 1) (by omega) hk'
  rw [← hze] at dk1
  refine ⟨hn, hm, ?_, ?_, ?_, ?_, ?_, ?_⟩
  · intro j hj hjm
    by_cases h1 : j = k
    · subst h1; rw [iact0]; exact h.range _ (by omega) (by omega)
    · by_cases h2 : j = k + 1
      · subst h2; rw [iact1]; exact h.range _ (by omega) (by omega)
      · rw [iactO j h1 h2]; exact h.range _ hj hjm
  · intro c hc hcm
    obtain ⟨j, hj, hjm, e⟩ := h.sur c hc hcm
    by_cases h1 : j = k
    · subst h1; exact ⟨j + 1, by omega, by omega, by rw [iact1, e]⟩
    · by_cases h2 : j = k + 1
      · subst h2; exact ⟨k, by omega, by omega, by rw [iact0, e]⟩
      · exact ⟨j, hj, hjm, by rw [iactO j h1 h2, e]⟩
  · refine orth_rot hkk hk (by omega) (by omega) (by omega) hP ?_ ?_ h.orth
    · linear_combination hP
    · ring
  · intro j hj hjn
    by_cases h1 : j = k
    · subst h1
      rw [iact0, zd0, set1, if_pos rfl, ← hsp, ← dk1]
      field_simp
      rw [sq, sq, sq, ht]
    · by_cases h2 : j = k + 1
      · subst h2
        rw [iact1, zd1, set1, if_neg h1, set1, if_pos rfl, ← dk, h.tail k hk (by omega) (k + 1) (by omega) (by omega)]
        ring
      · rw [iactO j h1 h2, zdO j h1 h2, set1, if_neg h1, set1, if_neg h2]
        exact h.diag j hj hjn
  · intro j hj hjn
    by_cases h1 : j = k
    · subst h1; rw [set1, if_pos rfl]; exact h0
    · by_cases h2 : j = k + 1
      · subst h2
        rw [set1, if_neg h1, set1, if_pos rfl]
        exact mul_ne_zero (div_ne_zero (h.ne _ (by omega) hk') h0) (h.ne k hk (by omega))
      · rw [set1, if_neg h1, set1, if_neg h2]; exact h.ne j hj hjn
  · intro j hj hjn l hl hln
    by_cases h1 : j = k
    · subst h1
      rw [iact0]
      by_cases h3 : l = j + 1
      · subst h3
        rw [zd1, ← hsp, ← dk1]
        ring
      · rw [zdO l (by omega) h3]
        exact h.tail (j + 1) (by omega) hk' l (by omega) hln
    · by_cases h2 : j = k + 1
      · subst h2
        rw [iact1, zdO l (by omega) (by omega)]
        exact h.tail k hk (by omega) l (by omega) hln
      · rw [iactO j h1 h2]
        by_cases h3 : l = k
        · subst h3
          rw [zd0, h.tail j hj hjn l hl hln, h.tail j hj hjn (l + 1) (by omega) (by omega)]
          ring
        · by_cases h4 : l = k + 1
          · subst h4
            rw [zd1, h.tail j hj hjn k (by omega) (by omega), h.tail j hj hjn (k + 1) hl hln]
            ring
          · rw [zdO l h3 h4]
            exact h.tail j hj hjn l hl hln

theorem swap_ne (hsqrt : ∀ a : K, 0 ≤ a → 0 ≤ sqrt a ∧ sqrt a * sqrt a = a) {x y : K} (hy : y ≠ 0) :
    sqrt (x * x + y * y) * sqrt (x * x + y * y) = x * x + y * y ∧ sqrt (x * x + y * y) ≠ 0 := by
  have h0 : 0 < x * x + y * y := by
    have := mul_self_nonneg x
    have := mul_self_pos.2 hy
    linarith
  refine ⟨(hsqrt _ h0.le).2, fun h => ?_⟩
  have := (hsqrt _ h0.le).2
  rw [h] at this
  rw [← this] at h0
  simp at h0

/-! ## The rotations for a new constraint -/

theorem negligible_iff {a v : K} (hv : 0 ≤ v) : negligible a v ↔ v = 0 := by
  unfold negligible
  rw [ExactMath.lit_eq, ExactMath.lit_eq]
  norm_num
  constructor
  · rintro (h | h) <;> linarith
  · rintro rfl; simp

theorem up_two (n : Nat) (g : Nat → K) (t u : K) :
    (up n (fun i (s : K × K) => (s.1 + g i, s.2 + fabs (g i))) (t, u)) = (t + ∑ i ∈ Icc 1 n, g i, u + ∑ i ∈ Icc 1 n, |g i|) := by
  refine up_inv (fun n (s : K × K) => s = (t + ∑ i ∈ Icc 1 n, g i, u + ∑ i ∈ Icc 1 n, |g i|)) n (by simp) ?_
  rintro k _ s rfl
  rw [Finset.sum_Icc_succ_top (by omega), Finset.sum_Icc_succ_top (by omega), ExactMath.fabs_eq]
  simp only [add_assoc]

theorem not_negligible {a s : K} : (if negligible a (fabs s) then 0 else s) = s := by
  split_ifs with h
  · rw [negligible_iff (by rw [ExactMath.fabs_eq]; exact abs_nonneg _), ExactMath.fabs_eq, abs_eq_zero] at h
    exact h.symm
  · rfl

/-- What the rotations do. -/
structure Rotated (n nact : Nat) (g : Nat → K) (z z' : Nat → Nat → K) (tot : K) : Prop where
  orth : Orth n z'
  same : ∀ l, l ≤ nact → ∀ i, z' i l = z i l
  zero : tot = 0 → z' = z ∧ ∀ l, nact < l → l ≤ n → ∑ i ∈ Icc 1 n, z i l * g i = 0
  one : tot ≠ 0 → nact < n ∧ ∑ i ∈ Icc 1 n, z' i (nact + 1) * g i = tot
  tail : tot ≠ 0 → ∀ l, nact + 1 < l → l ≤ n → ∑ i ∈ Icc 1 n, z' i l * g i = 0
  keep : ∀ v : Nat → K, (∀ l, nact < l → l ≤ n → ∑ i ∈ Icc 1 n, z i l * v i = 0) →
    ∀ l, nact < l → l ≤ n → ∑ i ∈ Icc 1 n, z' i l * v i = 0

/-- The invariant of the loop of the rotations. -/
def RotInv (n nact : Nat) (g : Nat → K) (z : Nat → Nat → K) (q : Nat) (st : K × (Nat → Nat → K)) : Prop :=
  Orth n st.2 ∧ (∀ l, l ≤ n - q → ∀ i, st.2 i l = z i l) ∧
  (st.1 = 0 → st.2 = z ∧ ∀ l, n - q < l → l ≤ n → ∑ i ∈ Icc 1 n, z i l * g i = 0) ∧
  (st.1 ≠ 0 → 0 < q ∧ ∑ i ∈ Icc 1 n, st.2 i (n - q + 1) * g i = st.1) ∧
  (st.1 ≠ 0 → ∀ l, n - q + 1 < l → l ≤ n → ∑ i ∈ Icc 1 n, st.2 i l * g i = 0) ∧
  (∀ v : Nat → K, (∀ l, nact < l → l ≤ n → ∑ i ∈ Icc 1 n, z i l * v i = 0) →
    ∀ l, nact < l → l ≤ n → ∑ i ∈ Icc 1 n, st.2 i l * v i = 0)

theorem rotated (hsqrt : ∀ a : K, 0 ≤ a → 0 ≤ sqrt a ∧ sqrt a * sqrt a = a) {n nact : Nat} (hn : nact ≤ n)
    (g : Nat → K) {z : Nat → Nat → K} (hz : Orth n z) :
    Rotated n nact g z (lpRotate n nact g z).2 (lpRotate n nact g z).1 := by
  have key : ∀ q, q ≤ n - nact → RotInv n nact g z q
      (loop (fun j (st : K × (Nat → Nat → K)) =>
        let k := n - j
        let s := up n (fun i (s : K × K) => (s.1 + st.2 i k * g i, s.2 + fabs (st.2 i k * g i))) (0, 0)
        let sp := if negligible s.2 (fabs s.1) then 0 else s.1
        if st.1 = 0 then (sp, st.2)
        else
          let temp := sqrt (sp * sp + st.1 * st.1)
          let alpha := sp / temp
          let beta := st.1 / temp
          (temp, up n (fun i z =>
            let temp := alpha * z i k + beta * z i (k + 1)
            let z := set2 z i (k + 1) (alpha * z i (k + 1) - beta * z i k)
            set2 z i k temp) st.2)) q (0, z)) := by
    intro q hq
    refine loop_inv (RotInv n nact g z) q ⟨hz, fun _ _ _ => rfl, fun _ => ⟨rfl, fun l h1 h2 => by omega⟩, fun h => absurd rfl h, fun h => absurd rfl h, fun v hv => hv⟩ ?_
    rintro j hj ⟨tot, w⟩ ⟨i1, i2, i3, i4, i5, i6⟩
    dsimp only at i1 i2 i3 i4 i5 i6
    unfold RotInv
    dsimp only
    rw [up_two, not_negligible]
    dsimp only
    rw [zero_add]
    obtain ⟨k, hk⟩ : ∃ k, n - j = k + 1 := ⟨n - j - 1, by omega⟩
    have e1 : n - (j + 1) = k := by omega
    rw [hk] at i2 i3 i4 i5 ⊢
    rw [e1]
    set sp := ∑ i ∈ Icc 1 n, w i (k + 1) * g i with hsp
    by_cases ht : tot = 0
    · rw [if_pos ht]
      obtain ⟨rfl, hz0⟩ := i3 ht
      dsimp only
      refine ⟨hz, fun _ _ _ => rfl, fun h => ⟨rfl, fun l h1 h2 => ?_⟩, fun h => ⟨by omega, rfl⟩, fun h l h1 h2 => hz0 l (by omega) h2, i6⟩
      by_cases hl : l = k + 1
      · subst hl; exact h
      · exact hz0 l (by omega) h2
    · rw [if_neg ht]
      obtain ⟨hs1, hs2⟩ := swap_ne hsqrt (x := sp) ht
      obtain ⟨i40, i4⟩ := i4 ht
      set t := sqrt (sp * sp + tot * tot) with htdef
      have hkk : k + 1 ≠ k + 1 + 1 := by omega
      have hrot := up_rot n (k + 1) (k + 1 + 1) hkk (fun a b => sp / t * a + tot / t * b) (fun a b => sp / t * b - tot / t * a) w
      have hrot' : (fun i l => if 1 ≤ i ∧ i ≤ n then if l = k + 1 then sp / t * w i (k + 1) + tot / t * w i (k + 1 + 1)
          else if l = k + 1 + 1 then sp / t * w i (k + 1 + 1) - tot / t * w i (k + 1) else w i l else w i l) =
          rot n (k + 1) (k + 1 + 1) (sp / t) (tot / t) (-(tot / t)) (sp / t) w := by
        funext i l
        unfold rot
        split_ifs <;> ring
      dsimp only at hrot ⊢
      rw [hrot, hrot']
      have hP := orth_pair hs1 hs2
      have hkn : k + 1 + 1 ≤ n := by omega
      refine ⟨orth_rot hkk (by omega) (by omega) (by omega) hkn hP (by linear_combination hP) (by ring) i1, ?_, fun h => absurd h hs2, fun _ => ⟨by omega, ?_⟩, fun _ => ?_, ?_⟩
      · intro l hl i
        rw [rot_other' (by omega) (by omega)]
        exact i2 l (by omega) i
      · rw [rot_p g, ← hsp, i4]
        field_simp
        rw [sq, sq, sq, hs1]
      · intro l h1 h2
        by_cases h3 : l = k + 1 + 1
        · subst h3
          rw [rot_r hkk g, ← hsp, i4]
          ring
        · rw [rot_other (by omega) h3 |> fun e => sum_congr rfl fun i _ => by rw [congrFun e i]]
          exact i5 ht l (by omega) h2
      · intro v hv l h1 h2
        by_cases h3 : l = k + 1
        · subst h3
          rw [rot_p v, i6 v hv _ (by omega) (by omega), i6 v hv _ (by omega) (by omega)]; ring
        · by_cases h4 : l = k + 1 + 1
          · subst h4
            rw [rot_r hkk v, i6 v hv _ (by omega) (by omega), i6 v hv _ (by omega) (by omega)]; ring
          · rw [rot_other h3 h4 |> fun e => sum_congr rfl fun i _ => by rw [congrFun e i]]
            exact i6 v hv l h1 h2
  obtain ⟨i1, i2, i3, i4, i5, i6⟩ := key (n - nact) le_rfl
  have e : n - (n - nact) = nact := by omega
  rw [e] at i2 i3 i4 i5
  exact ⟨i1, i2, i3, fun h => ⟨by have := (i4 h).1; omega, (i4 h).2⟩, i5, i6⟩

end Opk.Cobyla
