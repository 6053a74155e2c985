import Mathlib.Data.Matrix.Mul
import Mathlib.LinearAlgebra.FiniteDimensional.Lemmas
import Mathlib.Algebra.Order.Field.Basic
import Mathlib.Tactic.Linarith
import Mathlib.Tactic.Ring
import Mathlib.Tactic.FieldSimp
import Mathlib.Tactic.Abel
/-!
# Algebra of the (preconditioned) conjugate gradients

Nothing here depends on the model: `A` and `Q` are symmetric linear operators, the vectors are
those of the algorithm between two calls.
-/
set_option linter.unusedSectionVars false
namespace Opk.Lcg
open Module Submodule

variable {K : Type} [Field K] [LinearOrder K] [IsStrictOrderedRing K] {n : ℕ}

/-- The operator is symmetric. -/
def Symmetric (A : (Fin n → K) →ₗ[K] (Fin n → K)) : Prop := ∀ u v, u ⬝ᵥ A v = A u ⬝ᵥ v

/-- The operator is positive definite. -/
def Positive (A : (Fin n → K) →ₗ[K] (Fin n → K)) : Prop := ∀ u, u ≠ 0 → 0 < u ⬝ᵥ A u

/-- The Krylov space of dimension at most `k`: spanned by `v`, `B v`, ..., `B^(k-1) v`. -/
def krylov (B : (Fin n → K) →ₗ[K] (Fin n → K)) (v : Fin n → K) (k : ℕ) : Submodule K (Fin n → K) :=
  span K {w | ∃ i < k, w = (B ^ i) v}

theorem krylov_mono (B : (Fin n → K) →ₗ[K] (Fin n → K)) (v : Fin n → K) {k l : ℕ} (h : k ≤ l) : krylov B v k ≤ krylov B v l :=
  span_mono fun _ ⟨i, hi, hw⟩ => ⟨i, by omega, hw⟩

theorem krylov_succ (B : (Fin n → K) →ₗ[K] (Fin n → K)) (v : Fin n → K) (k : ℕ) {u : Fin n → K} (h : u ∈ krylov B v k) :
    B u ∈ krylov B v (k + 1) := by
  have : krylov B v k ≤ (krylov B v (k + 1)).comap B := by
    refine span_le.2 ?_
    rintro w ⟨i, hi, rfl⟩
    refine subset_span ⟨i + 1, by omega, ?_⟩
    rw [pow_succ', Module.End.mul_apply]
  exact this h

theorem krylov_base (B : (Fin n → K) →ₗ[K] (Fin n → K)) (v : Fin n → K) {k : ℕ} (h : 0 < k) : v ∈ krylov B v k :=
  subset_span ⟨0, h, by simp⟩

theorem krylov_finrank (B : (Fin n → K) →ₗ[K] (Fin n → K)) (v : Fin n → K) (k : ℕ) : finrank K (krylov B v k) ≤ k := by
  have : {w | ∃ i < k, w = (B ^ i) v} = (((Finset.range k).image fun i => (B ^ i) v : Finset (Fin n → K)) : Set (Fin n → K)) := by
    ext w
    simp [eq_comm]
  unfold krylov
  rw [this]
  exact (finrank_span_finset_le_card _).trans (Finset.card_image_le.trans (by simp))

theorem mem_sup_line {S : Submodule K (Fin n → K)} {p u : Fin n → K} : u ∈ S ⊔ span K {p} ↔ ∃ v ∈ S, ∃ c : K, u = v + c • p := by
  rw [mem_sup]
  constructor
  · rintro ⟨v, hv, w, hw, rfl⟩
    obtain ⟨c, rfl⟩ := mem_span_singleton.1 hw
    exact ⟨v, hv, c, rfl⟩
  · rintro ⟨v, hv, c, rfl⟩
    exact ⟨v, hv, c • p, mem_span_singleton.2 ⟨c, rfl⟩, rfl⟩

theorem mem_line (S : Submodule K (Fin n → K)) (p : Fin n → K) : p ∈ S ⊔ span K {p} :=
  mem_sup_line.2 ⟨0, S.zero_mem, 1, by simp⟩

theorem finrank_line {S : Submodule K (Fin n → K)} {p : Fin n → K} (h : p ∉ S) : finrank K ↥(S ⊔ span K {p}) = finrank K S + 1 := by
  have h1 := finrank_add_le_finrank_add_finrank S (span K {p})
  have h2 : finrank K ↥(span K {p}) ≤ 1 := by
    simpa using finrank_span_le_card (R := K) ({p} : Set (Fin n → K))
  have h3 : S < S ⊔ span K {p} := lt_of_le_of_ne le_sup_left fun he => h (he ▸ mem_line S p)
  have := finrank_lt_finrank_of_lt h3
  omega

/-- What is known when a new iterate is available, after `k` steps from `x0`: the space `S` explored so
far contains the former directions `D` and the former preconditioned residuals `R`. -/
structure AtNew (A Q : (Fin n → K) →ₗ[K] (Fin n → K)) (b x0 : Fin n → K) (k : ℕ) (D R : Set (Fin n → K))
    (S : Submodule K (Fin n → K)) (x r p : Fin n → K) (rho0 : K) : Prop where
  res : r = b - A x
  mem : x - x0 ∈ S
  orth : ∀ u ∈ S, r ⬝ᵥ u = 0
  rank : finrank K S = k
  kry : S ≤ krylov (Q ∘ₗ A) (Q (b - A x0)) k
  dirs : ∀ d ∈ D, d ∈ S
  resid : ∀ e ∈ R, Q e ∈ S
  last : (k = 0 ∧ rho0 = 0) ∨ (0 < rho0 ∧ ∃ S' : Submodule K (Fin n → K), S = S' ⊔ span K {p} ∧ (∀ u ∈ S', p ⬝ᵥ A u = 0) ∧
    (∀ u ∈ S', Q (A u) ∈ S) ∧ ∃ α : K, 0 < α ∧ α * (p ⬝ᵥ A p) = rho0 ∧ Q r + α • Q (A p) ∈ S)

/-- What is known when a new direction `p` is available. -/
structure AtStep (A Q : (Fin n → K) →ₗ[K] (Fin n → K)) (b x0 : Fin n → K) (k : ℕ) (D R : Set (Fin n → K))
    (S : Submodule K (Fin n → K)) (x r p : Fin n → K) (rho1 : K) : Prop where
  res : r = b - A x
  mem : x - x0 ∈ S
  orth : ∀ u ∈ S, r ⬝ᵥ u = 0
  rank : finrank K S = k
  kry0 : S ≤ krylov (Q ∘ₗ A) (Q (b - A x0)) k
  kry : S ⊔ span K {p} ≤ krylov (Q ∘ₗ A) (Q (b - A x0)) (k + 1)
  dirs : ∀ d ∈ D, d ∈ S
  resid : ∀ e ∈ R, Q e ∈ S
  conj : ∀ u ∈ S, p ⬝ᵥ A u = 0
  inv : ∀ u ∈ S, Q (A u) ∈ S ⊔ span K {p}
  rho : rho1 = r ⬝ᵥ Q r
  pos : 0 < rho1
  rp : r ⬝ᵥ p = rho1
  qr : Q r ∈ S ⊔ span K {p}

section lemmas
variable {A Q : (Fin n → K) →ₗ[K] (Fin n → K)} {b x0 : Fin n → K} {k : ℕ} {D R : Set (Fin n → K)}
  {S : Submodule K (Fin n → K)} {x r p : Fin n → K} {rho0 rho1 : K}

theorem AtNew.start (A Q : (Fin n → K) →ₗ[K] (Fin n → K)) (b x0 p : Fin n → K) : AtNew A Q b x0 0 ∅ ∅ ⊥ x0 (b - A x0) p 0 where
  res := rfl
  mem := by simp
  orth := by rintro u hu; rw [(mem_bot K).1 hu]; simp
  rank := finrank_bot K _
  kry := bot_le
  dirs := by simp
  resid := by simp
  last := Or.inl ⟨rfl, rfl⟩

/-- The residuals differ from the initial ones by the image of the explored space, so the preconditioned residuals are
in the next Krylov space. -/
theorem AtNew.z_kry (h : AtNew A Q b x0 k D R S x r p rho0) : Q r ∈ krylov (Q ∘ₗ A) (Q (b - A x0)) (k + 1) := by
  have e : Q r = Q (b - A x0) - (Q ∘ₗ A) (x - x0) := by
    rw [h.res, LinearMap.comp_apply, ← map_sub, map_sub A]
    congr 1
    abel
  rw [e]
  exact sub_mem (krylov_base _ _ (by omega)) (krylov_succ _ _ _ (h.kry h.mem))

theorem AtNew.direction (hA : Symmetric A) (hQ : Symmetric Q) (h : AtNew A Q b x0 k D R S x r p rho0)
    (hrho : rho1 = r ⬝ᵥ Q r) (hpos : 0 < rho1) {p' : Fin n → K}
    (hp' : p' = if rho0 > 0 then Q r + (rho1 / rho0) • p else Q r) : AtStep A Q b x0 k D R S x r p' rho1 := by
  have sup_eq : Q r ∈ S ⊔ span K {p'} → S ⊔ span K {p'} ≤ krylov (Q ∘ₗ A) (Q (b - A x0)) (k + 1) := by
    intro _
    refine sup_le (h.kry.trans (krylov_mono _ _ (by omega))) ?_
    rw [span_singleton_le_iff_mem, hp']
    split_ifs with h0
    · refine add_mem h.z_kry (smul_mem _ _ ?_)
      rcases h.last with hl | ⟨-, S', hS, -⟩
      · exact absurd hl.2 h0.ne'
      · exact krylov_mono _ _ (by omega) (h.kry (hS ▸ mem_line S' p))
    · exact h.z_kry
  have main : (∀ u ∈ S, p' ⬝ᵥ A u = 0) ∧ (∀ u ∈ S, Q (A u) ∈ S ⊔ span K {p'}) ∧ r ⬝ᵥ p' = rho1 ∧ Q r ∈ S ⊔ span K {p'} := by
    rcases h.last with ⟨hk, h0⟩ | ⟨h0, S', hS, hc, hi, α, hα, hpa, hq⟩
    · have hb : S = ⊥ := by rw [← finrank_eq_zero (R := K), h.rank, hk]
      rw [if_neg (by rw [h0]; exact lt_irrefl _)] at hp'
      subst hp'
      refine ⟨fun u hu => ?_, fun u hu => ?_, hrho.symm, mem_line _ _⟩
      · rw [hb, mem_bot] at hu; simp [hu]
      · rw [hb, mem_bot] at hu; simp [hu]
    · rw [if_pos h0] at hp'
      have hpS : p ∈ S := hS ▸ mem_line S' p
      have hz : Q r ∈ S ⊔ span K {p'} := by
        refine mem_sup_line.2 ⟨-((rho1 / rho0) • p), neg_mem (smul_mem _ _ hpS), 1, ?_⟩
        rw [hp', one_smul]; abel
      have hrq : r ⬝ᵥ Q (A p) = -(rho1 / α) := by
        have := h.orth _ hq
        rw [dotProduct_add, dotProduct_smul, ← hrho, smul_eq_mul] at this
        field_simp
        linarith
      refine ⟨fun u hu => ?_, fun u hu => ?_, ?_, hz⟩
      · rw [hS] at hu
        obtain ⟨v, hv, c, rfl⟩ := mem_sup_line.1 hu
        rw [hp', add_dotProduct, map_add, map_smul, dotProduct_add, dotProduct_add, dotProduct_smul, dotProduct_smul,
          smul_dotProduct, smul_dotProduct, hc v hv, ← hQ, ← hQ, h.orth _ (hi v hv), hrq]
        have hpp : p ⬝ᵥ A p = rho0 / α := by rw [eq_div_iff hα.ne', mul_comm]; exact hpa
        rw [hpp]
        simp only [smul_eq_mul, mul_zero, add_zero, zero_add]
        field_simp
        ring
      · rw [hS] at hu
        obtain ⟨v, hv, c, rfl⟩ := mem_sup_line.1 hu
        have h1 : Q (A p) = α⁻¹ • ((Q r + α • Q (A p)) - Q r) := by
          rw [add_sub_cancel_left, smul_smul, inv_mul_cancel₀ hα.ne', one_smul]
        rw [map_add, map_add, map_smul, map_smul]
        refine add_mem (mem_sup_left (hi v hv)) (smul_mem _ _ ?_)
        rw [h1]
        exact smul_mem _ _ (sub_mem (mem_sup_left hq) hz)
      · rw [hp', dotProduct_add, dotProduct_smul, h.orth p hpS, ← hrho]; simp
  exact ⟨h.res, h.mem, h.orth, h.rank, h.kry, sup_eq main.2.2.2, h.dirs, h.resid, main.1, main.2.1, hrho, hpos, main.2.2.1, main.2.2.2⟩

theorem AtStep.not_mem (h : AtStep A Q b x0 k D R S x r p rho1) : p ∉ S := fun hp =>
  h.pos.ne' (h.rp ▸ h.orth p hp)

theorem AtStep.ne_zero (h : AtStep A Q b x0 k D R S x r p rho1) : p ≠ 0 := fun hp => h.not_mem (hp ▸ S.zero_mem)

/-- No more than `n` steps can be taken. -/
theorem AtStep.lt (h : AtStep A Q b x0 k D R S x r p rho1) : k < n := by
  have := finrank_line h.not_mem
  have h2 := finrank_le (S ⊔ span K {p})
  rw [this, h.rank, finrank_fin_fun] at h2
  omega

theorem AtStep.step (hA : Symmetric A) (h : AtStep A Q b x0 k D R S x r p rho1) (hpq : 0 < p ⬝ᵥ A p) {α : K}
    (hα : α = rho1 / (p ⬝ᵥ A p)) :
    AtNew A Q b x0 (k + 1) (insert p D) (insert r R) (S ⊔ span K {p}) (x + α • p) (r - α • A p) p rho1 where
  res := by rw [h.res, map_add, map_smul]; abel
  mem := mem_sup_line.2 ⟨x - x0, h.mem, α, by abel⟩
  orth := by
    intro u hu
    obtain ⟨v, hv, c, rfl⟩ := mem_sup_line.1 hu
    rw [sub_dotProduct, dotProduct_add, h.orth v hv, smul_dotProduct, dotProduct_add, ← hA, ← hA, h.conj v hv,
      dotProduct_smul, map_smul, dotProduct_smul, h.rp, hα]
    simp only [smul_eq_mul, zero_add]
    field_simp
    ring
  rank := by rw [finrank_line h.not_mem, h.rank]
  kry := h.kry
  dirs := by
    rintro d (rfl | hd)
    · exact mem_line _ _
    · exact mem_sup_left (h.dirs d hd)
  resid := by
    rintro d (rfl | hd)
    · exact h.qr
    · exact mem_sup_left (h.resid d hd)
  last := by
    refine Or.inr ⟨h.pos, S, rfl, h.conj, h.inv, α, hα ▸ div_pos h.pos hpq, ?_, ?_⟩
    · rw [hα, div_mul_cancel₀ _ hpq.ne']
    · rw [map_sub, map_smul, sub_add_cancel]
      exact h.qr

/-- The quadratic that the conjugate gradients minimize. -/
def quad (A : (Fin n → K) →ₗ[K] (Fin n → K)) (b x : Fin n → K) : K := x ⬝ᵥ A x / 2 - b ⬝ᵥ x

theorem quad_add (hA : Symmetric A) (b x d : Fin n → K) :
    quad A b (x + d) = quad A b x - (b - A x) ⬝ᵥ d + d ⬝ᵥ A d / 2 := by
  unfold quad
  rw [map_add, dotProduct_add, add_dotProduct, add_dotProduct, dotProduct_add, sub_dotProduct, ← hA x d, hA d x, dotProduct_comm (A d) x]
  ring

/-- The explored space is the Krylov space. -/
theorem AtNew.krylov_eq (h : AtNew A Q b x0 k D R S x r p rho0) : S = krylov (Q ∘ₗ A) (Q (b - A x0)) k :=
  eq_of_le_of_finrank_le h.kry (by rw [h.rank]; exact krylov_finrank _ _ _)

/-- If the residuals are orthogonal to `S`, the iterate minimizes the quadratic over `x0 + S`. -/
theorem minimizes (hA : Symmetric A) (hP : ∀ u, 0 ≤ u ⬝ᵥ A u) (hr : r = b - A x) (hm : x - x0 ∈ S)
    (ho : ∀ u ∈ S, r ⬝ᵥ u = 0) (y : Fin n → K) (hy : y - x0 ∈ S) : quad A b x ≤ quad A b y := by
  have hd : y - x ∈ S := by simpa using sub_mem hy hm
  have : y = x + (y - x) := by abel
  rw [this, quad_add hA, ← hr, ho _ hd]
  have := hP (y - x)
  linarith

theorem Positive.nonneg (h : Positive A) (u : Fin n → K) : 0 ≤ u ⬝ᵥ A u := by
  by_cases hu : u = 0
  · rw [hu]; simp
  · exact (h u hu).le

end lemmas
end Opk.Lcg
