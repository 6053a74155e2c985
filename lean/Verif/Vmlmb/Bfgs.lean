import Verif.Vmlmb.Memory
import Mathlib.Data.Matrix.Mul
import Mathlib.LinearAlgebra.Matrix.Symmetric
import Mathlib.LinearAlgebra.Matrix.DotProduct
import Mathlib.Algebra.Order.Field.Basic
import Mathlib.Tactic.Ring
import Mathlib.Tactic.Abel
import Mathlib.Tactic.FieldSimp
import Mathlib.Tactic.Linarith
import Mathlib.Tactic.Positivity
/-! # C24: the direction of the variable metric optimizer is the BFGS direction -/
set_option linter.unusedSectionVars false
set_option linter.unusedSimpArgs false
namespace Opk.Vmlmb
open Opk.Optim Matrix

/-! ## The list of the saved steps -/

section any
variable {F M V : Type} [Add F] [Sub F] [Mul F] [Div F] [Neg F] [Zero F] [One F]
  [LinearOrder F] [BEq F] [CMath F]

/-- Specification: the differences of the successive points of a list, the most recent first. -/
def steps (vs : Vs F V) (vis : List (V × V)) : List (V × V) :=
  List.zipWith (fun a b => (diff vs a.1 b.1, diff vs a.2 b.2)) vis vis.tail

theorem steps_get (vs : Vs F V) (vis : List (V × V)) (i : Nat) (a b : V × V) (ha : vis[i]? = some a)
    (hb : vis[i + 1]? = some b) : (steps vs vis)[i]? = some (diff vs a.1 b.1, diff vs a.2 b.2) := by
  unfold steps
  rw [List.getElem?_zipWith, ha, List.getElem?_tail, hb]

theorem steps_length (vs : Vs F V) (vis : List (V × V)) : (steps vs vis).length = vis.length - 1 := by
  unfold steps; simp

theorem pairsOf_eq (par : Par F V) (o : Opt F M V) (vis : List (V × V)) (n : Nat) (hv : par.method ≠ .vmlmb)
    (h : ∀ j : Nat, 1 ≤ j → j ≤ n → PairOk par o vis j) :
    pairsOf par o n = ((steps par.vs vis).take n).map fun p => (p.1, p.2, factor par.vs p.1 p.2) := by
  apply List.ext_getElem?
  intro i
  unfold pairsOf
  rcases Nat.lt_or_ge i n with hi | hi
  · obtain ⟨a, b, p1, p2, p3, p4, p5⟩ := h (i + 1) (by omega) (by omega)
    rw [List.getElem?_map, List.getElem?_map, List.getElem?_take_of_lt hi,
      steps_get par.vs vis i a b p1 p2, List.getElem?_range hi]
    simp only [Option.map_some, pairAt]
    rw [p3, p4, p5 hv]
  · rw [List.getElem?_eq_none (by simpa using hi), List.getElem?_eq_none (by simp; omega)]

theorem rawPairs_eq (par : Par F V) (o : Opt F M V) (vis : List (V × V)) (n : Nat)
    (h : ∀ j : Nat, 1 ≤ j → j ≤ n → PairOk par o vis j) :
    rawPairs par o n = (steps par.vs vis).take n := by
  apply List.ext_getElem?
  intro i
  unfold rawPairs
  rcases Nat.lt_or_ge i n with hi | hi
  · obtain ⟨a, b, p1, p2, p3, p4, -⟩ := h (i + 1) (by omega) (by omega)
    rw [List.getElem?_map, List.getElem?_take_of_lt hi,
      steps_get par.vs vis i a b p1 p2, List.getElem?_range hi]
    simp only [Option.map_some]
    rw [p3, p4]
  · rw [List.getElem?_eq_none (by simpa using hi), List.getElem?_eq_none (by simp; omega)]

end any

/-! ## Specification: BFGS updates -/

section exact
variable {K ι : Type} [Field K] [LinearOrder K] [IsStrictOrderedRing K] [CMath K] [Fintype ι] [DecidableEq ι]

/-- The operations on vectors, in exact arithmetic. -/
def exactVs : Vs K (ι → K) where
  axpby a x b y := a • x + b • y
  axpbypcz a x b y c z := a • x + b • y + c • z
  scale a x := a • x
  product x y := x * y
  dot x y := x ⬝ᵥ y
  dot3 w x y := ∑ i, w i * x i * y i
  norm2 x := CMath.sqrt (x ⬝ᵥ x)

/-- BFGS update of the approximation `H` of the inverse Hessian, for the step `s` and the change of
gradient `y`: `(1 - s yᵀ/(sᵀ y)) H (1 - y sᵀ/(sᵀ y)) + s sᵀ/(sᵀ y)`. -/
def bfgs (H : Matrix ι ι K) (s y : ι → K) : Matrix ι ι K :=
  (1 - (1 / (s ⬝ᵥ y)) • vecMulVec s y) * H * (1 - (1 / (s ⬝ᵥ y)) • vecMulVec y s) +
    (1 / (s ⬝ᵥ y)) • vecMulVec s s

/-- Scaling factor: that of the most recent step of positive curvature. -/
def firstScale : List ((ι → K) × (ι → K)) → K
  | [] => 1
  | p :: l => if 0 < p.1 ⬝ᵥ p.2 then (p.1 ⬝ᵥ p.2) / (p.2 ⬝ᵥ p.2) else firstScale l

/-- BFGS updates, with the steps of positive curvature, of a multiple of the identity. -/
def metricFrom (γ : K) : List ((ι → K) × (ι → K)) → Matrix ι ι K
  | [] => γ • 1
  | p :: l => if 0 < p.1 ⬝ᵥ p.2 then bfgs (metricFrom γ l) p.1 p.2 else metricFrom γ l

/-- The limited memory BFGS approximation of the inverse Hessian. -/
def metric (l : List ((ι → K) × (ι → K))) : Matrix ι ι K := metricFrom (firstScale l) l

/-- The steps restricted to the variables selected by `w`. -/
def restrict (w : ι → K) (l : List ((ι → K) × (ι → K))) : List ((ι → K) × (ι → K)) :=
  l.map fun p => (w * p.1, w * p.2)

/-! ## Properties of the specification -/

theorem bfgs_mulVec (H : Matrix ι ι K) (s y q : ι → K) :
    bfgs H s y *ᵥ q =
      (let α := 1 / (s ⬝ᵥ y) * (q ⬝ᵥ s)
       let r := H *ᵥ (q - α • y)
       r + (α - 1 / (s ⬝ᵥ y) * (r ⬝ᵥ y)) • s) := by
  dsimp only
  unfold bfgs
  generalize 1 / (s ⬝ᵥ y) = ρ
  rw [add_mulVec, ← mulVec_mulVec, ← mulVec_mulVec, sub_mulVec, one_mulVec]
  simp only [sub_mulVec, one_mulVec, smul_mulVec, vecMulVec_mulVec, op_smul_eq_smul]
  rw [dotProduct_comm s q, dotProduct_comm y]
  rw [smul_smul, smul_smul, smul_smul, sub_smul]
  abel

/-- The update is symmetric. -/
theorem bfgs_symm (H : Matrix ι ι K) (h : Hᵀ = H) (s y : ι → K) : (bfgs H s y)ᵀ = bfgs H s y := by
  unfold bfgs
  simp only [transpose_add, transpose_mul, transpose_sub, transpose_one, transpose_smul, transpose_vecMulVec, h]
  rw [Matrix.mul_assoc]

/-- The secant equation. -/
theorem bfgs_secant (H : Matrix ι ι K) (s y : ι → K) (h : 0 < s ⬝ᵥ y) : bfgs H s y *ᵥ y = s := by
  rw [bfgs_mulVec]
  dsimp only
  have e : 1 / (s ⬝ᵥ y) * (y ⬝ᵥ s) = 1 := by rw [dotProduct_comm y s]; field_simp
  rw [e, one_smul, sub_self, mulVec_zero, zero_dotProduct, mul_zero, sub_zero, one_smul, zero_add]

theorem dot_self_pos (v : ι → K) (h : v ≠ 0) : 0 < v ⬝ᵥ v := by
  have h0 : 0 ≤ v ⬝ᵥ v := Finset.sum_nonneg fun i _ => mul_self_nonneg _
  rcases h0.lt_or_eq with h1 | h1
  · exact h1
  · exact absurd (dotProduct_self_eq_zero.1 h1.symm) h

/-- The update keeps the matrix positive definite. -/
theorem bfgs_pos (H : Matrix ι ι K) (h : ∀ v, v ≠ 0 → 0 < v ⬝ᵥ (H *ᵥ v)) (s y : ι → K) (hs : 0 < s ⬝ᵥ y)
    (v : ι → K) (hv : v ≠ 0) : 0 < v ⬝ᵥ (bfgs H s y *ᵥ v) := by
  rw [bfgs_mulVec]
  dsimp only
  generalize hα : 1 / (s ⬝ᵥ y) * (v ⬝ᵥ s) = α
  have hρ : 0 < 1 / (s ⬝ᵥ y) := by positivity
  have e1 : v ⬝ᵥ s = α * (s ⬝ᵥ y) := by rw [← hα]; field_simp
  -- the value is `uᵀ H u + α² sᵀ y`, with `u = v - α y`
  have key : v ⬝ᵥ (H *ᵥ (v - α • y) + (α - 1 / (s ⬝ᵥ y) * (H *ᵥ (v - α • y) ⬝ᵥ y)) • s) =
      (v - α • y) ⬝ᵥ (H *ᵥ (v - α • y)) + α * α * (s ⬝ᵥ y) := by
    generalize H *ᵥ (v - α • y) = r
    rw [dotProduct_add, sub_dotProduct, dotProduct_smul, smul_dotProduct, e1, dotProduct_comm y r,
      smul_eq_mul, smul_eq_mul]
    field_simp
    ring
  rw [key]
  by_cases h0 : v - α • y = 0
  · have h1 : α ≠ 0 := by
      rintro rfl
      rw [zero_smul, sub_zero] at h0; exact hv h0
    have h2 : 0 < α * α := mul_self_pos.2 h1
    rw [h0, zero_dotProduct, zero_add]; positivity
  · have h1 := h _ h0
    have h2 : 0 ≤ α * α * (s ⬝ᵥ y) := mul_nonneg (mul_self_nonneg _) hs.le
    linarith

theorem metricFrom_symm (γ : K) (l : List ((ι → K) × (ι → K))) : (metricFrom γ l)ᵀ = metricFrom γ l := by
  induction l with
  | nil => simp [metricFrom]
  | cons p l ih =>
    unfold metricFrom
    split_ifs
    · exact bfgs_symm _ ih _ _
    · exact ih

theorem metricFrom_pos (γ : K) (hγ : 0 < γ) (l : List ((ι → K) × (ι → K))) (v : ι → K) (hv : v ≠ 0) :
    0 < v ⬝ᵥ (metricFrom γ l *ᵥ v) := by
  induction l generalizing v with
  | nil =>
    simp only [metricFrom, smul_mulVec, one_mulVec, dotProduct_smul, smul_eq_mul]
    exact mul_pos hγ (dot_self_pos v hv)
  | cons p l ih =>
    unfold metricFrom
    split_ifs with h
    · exact bfgs_pos _ ih _ _ h v hv
    · exact ih v hv

theorem firstScale_pos (l : List ((ι → K) × (ι → K))) : 0 < firstScale l := by
  induction l with
  | nil => exact one_pos
  | cons p l ih =>
    unfold firstScale
    split_ifs with h
    · refine div_pos h (dot_self_pos _ ?_)
      intro h0; rw [h0, dotProduct_zero] at h; exact lt_irrefl _ h
    · exact ih

/-- The limited memory BFGS matrix is symmetric. -/
theorem metric_symm (l : List ((ι → K) × (ι → K))) : (metric l)ᵀ = metric l := metricFrom_symm _ l

/-- The limited memory BFGS matrix is positive definite. -/
theorem metric_pos (l : List ((ι → K) × (ι → K))) (v : ι → K) (hv : v ≠ 0) : 0 < v ⬝ᵥ (metric l *ᵥ v) :=
  metricFrom_pos _ (firstScale_pos l) l v hv

/-- The limited memory BFGS matrix satisfies the secant equation for the most recent step. -/
theorem metric_secant (s y : ι → K) (l : List ((ι → K) × (ι → K))) (h : 0 < s ⬝ᵥ y) :
    metric ((s, y) :: l) *ᵥ y = s := by
  unfold metric metricFrom
  rw [if_pos h]; exact bfgs_secant _ _ _ h

/-! ## The recursions -/

theorem scaling_eq (γ : K) (q : ι → K) : scaling exactVs γ q = γ • q := by
  unfold scaling exactVs
  by_cases h : γ = 1
  · simp [h]
  · simp [h]

theorem recur_eq (γ : K) (l : List ((ι → K) × (ι → K))) (q : ι → K) :
    recur exactVs (scaling exactVs γ) (l.map fun p => (p.1, p.2, factor exactVs p.1 p.2)) q =
      metricFrom γ l *ᵥ q := by
  induction l generalizing q with
  | nil => simp [recur, metricFrom, scaling_eq, smul_mulVec]
  | cons p l ih =>
    rw [List.map_cons]
    unfold recur metricFrom
    by_cases h : 0 < p.1 ⬝ᵥ p.2
    · have hf : factor exactVs p.1 p.2 = 1 / (p.1 ⬝ᵥ p.2) := by
        unfold factor exactVs; dsimp only; rw [if_neg (not_le.2 h)]
      have hp : 0 < 1 / (p.1 ⬝ᵥ p.2) := by positivity
      dsimp only
      rw [hf, if_pos hp, if_pos h, bfgs_mulVec, ih]
      simp only [exactVs, one_smul, neg_smul, ← sub_eq_add_neg]
    · have hf : factor exactVs p.1 p.2 = 0 := by
        unfold factor exactVs; dsimp only; rw [if_pos (not_lt.1 h)]
      dsimp only
      rw [hf, if_neg (lt_irrefl _), if_neg h, ih]

theorem dot3_eq (w x y : ι → K) (hw : w * w = w) : (exactVs : Vs K (ι → K)).dot3 w x y = (w * x) ⬝ᵥ (w * y) := by
  unfold exactVs dotProduct
  dsimp only
  refine Finset.sum_congr rfl fun i _ => ?_
  have : w i * w i = w i := congrFun hw i
  simp only [Pi.mul_apply]
  calc w i * x i * y i = (w i * w i) * x i * y i := by rw [this]
    _ = _ := by ring

theorem wrecur_eq (w : ι → K) (hw : w * w = w) (l : List ((ι → K) × (ι → K))) :
    ∀ (γ : K) (q : ι → K), γ ≠ 0 ∨ (∃ p ∈ restrict w l, 0 < p.1 ⬝ᵥ p.2) →
    w * wrecur exactVs w (scaling exactVs) l γ q =
      metricFrom (if γ = 0 then firstScale (restrict w l) else γ) (restrict w l) *ᵥ (w * q) := by
  induction l with
  | nil =>
    intro γ q h
    have h0 : γ ≠ 0 := by
      rcases h with h | ⟨p, hp, -⟩
      · exact h
      · simp [restrict] at hp
    rw [if_neg h0]
    simp [wrecur, metricFrom, restrict, scaling_eq, smul_mulVec]
  | cons p l ih =>
    intro γ q h
    rw [show restrict w (p :: l) = (w * p.1, w * p.2) :: restrict w l from rfl] at h ⊢
    unfold wrecur metricFrom
    simp only [dot3_eq _ _ _ hw]
    have hc : (w * p.2) ⬝ᵥ (w * p.1) = (w * p.1) ⬝ᵥ (w * p.2) := dotProduct_comm _ _
    rw [hc]
    by_cases hp : 0 < (w * p.1) ⬝ᵥ (w * p.2)
    · rw [if_neg (not_le.2 hp), if_pos hp, if_pos (by positivity), bfgs_mulVec]
      have hyy : 0 < (w * p.2) ⬝ᵥ (w * p.2) := by
        refine dot_self_pos _ ?_
        intro h0; rw [h0, dotProduct_zero] at hp; exact lt_irrefl _ hp
      have hγ : (if γ == 0 then (w * p.1) ⬝ᵥ (w * p.2) / (w * p.2) ⬝ᵥ (w * p.2) else γ) ≠ 0 := by
        by_cases h0 : γ = 0
        · simp only [h0, beq_self_eq_true, if_true]; exact (div_pos hp hyy).ne'
        · simp [h0]
      have e : (if γ = 0 then firstScale ((w * p.1, w * p.2) :: restrict w l) else γ) =
          (if γ == 0 then (w * p.1) ⬝ᵥ (w * p.2) / (w * p.2) ⬝ᵥ (w * p.2) else γ) := by
        unfold firstScale
        by_cases h0 : γ = 0
        · simp [h0, hp]
        · simp [h0]
      rw [e]
      generalize (if γ == 0 then (w * p.1) ⬝ᵥ (w * p.2) / (w * p.2) ⬝ᵥ (w * p.2) else γ) = γ' at hγ ⊢
      have ih' := fun q => ih γ' q (Or.inl hγ)
      rw [if_neg hγ] at ih'
      generalize hα : 1 / (w * p.1) ⬝ᵥ (w * p.2) * (w * q) ⬝ᵥ (w * p.1) = α
      dsimp only
      have e2 : w * q - α • (w * p.2) = w * (q - α • p.2) := by
        ext i; simp; ring
      have e3 : (exactVs : Vs K (ι → K)).axpby 1 q (-α) p.2 = q - α • p.2 := by
        simp [exactVs, sub_eq_add_neg]
      rw [e2, ← ih', e3]
      generalize wrecur exactVs w (scaling exactVs) l γ' (q - α • p.2) = r
      ext i; simp [exactVs]; ring
    · rw [if_pos (not_lt.1 hp), if_neg hp]
      have e : firstScale ((w * p.1, w * p.2) :: restrict w l) = firstScale (restrict w l) := by
        conv_lhs => unfold firstScale
        rw [if_neg hp]
      rw [e]
      refine ih γ q ?_
      rcases h with h | ⟨p', hp', h⟩
      · exact Or.inl h
      · rcases List.mem_cons.1 hp' with rfl | hm
        · exact absurd h hp
        · exact Or.inr ⟨p', hm, h⟩

end exact

end Opk.Vmlmb
