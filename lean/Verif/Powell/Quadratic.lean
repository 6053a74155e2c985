import Verif.Powell.Inverse
import Mathlib.Data.Real.Basic
import Mathlib.Data.Sym.Card
import Mathlib.LinearAlgebra.Dimension.Constructions
import Mathlib.LinearAlgebra.FiniteDimensional.Lemmas

/-!
# Quadratic functions

With `(n+1)(n+2)/2` points, a quadratic function is given by its values at the points.
-/
namespace Opk.Powell

/-- A quadratic function of the variables 1 to `n`. -/
def IsQuadratic (n : Nat) (f : (Nat → ℝ) → ℝ) : Prop :=
  ∃ (c : ℝ) (g : Nat → ℝ) (h : Nat → Nat → ℝ),
    ∀ x, f x = c + ∑ i ∈ Finset.Icc 1 n, g i * x i + ∑ i ∈ Finset.Icc 1 n, ∑ j ∈ Finset.Icc 1 n, h i j * (x i * x j)

/-! ### The coefficients -/

/-- One, and the variables. -/
def hom (n : Nat) (x : Nat → ℝ) (i : Fin (n + 1)) : ℝ := if i.val = 0 then 1 else x i.val

/-- The products of two of them. -/
def mono (n : Nat) (x : Nat → ℝ) (z : Sym2 (Fin (n + 1))) : ℝ :=
  Sym2.lift ⟨fun i j => hom n x i * hom n x j, fun _ _ => mul_comm _ _⟩ z

/-- The function with given coefficients. -/
def poly (n : Nat) : (Sym2 (Fin (n + 1)) → ℝ) →ₗ[ℝ] ((Nat → ℝ) → ℝ) where
  toFun a := fun x => ∑ z, a z * mono n x z
  map_add' a b := by
    funext x
    simp only [Pi.add_apply, add_mul, Finset.sum_add_distrib]
  map_smul' c a := by
    funext x
    simp only [Pi.smul_apply, smul_eq_mul, RingHom.id_apply, Finset.mul_sum, mul_assoc]

theorem hom_range (n : Nat) (i j : Fin (n + 1)) : (fun x => hom n x i * hom n x j) ∈ LinearMap.range (poly n) := by
  classical
  refine ⟨Pi.single s(i, j) 1, funext fun x => ?_⟩
  show ∑ z, (Pi.single s(i, j) (1 : ℝ) : Sym2 (Fin (n + 1)) → ℝ) z * mono n x z = _
  rw [Finset.sum_eq_single s(i, j)]
  · rw [Pi.single_eq_same, one_mul]; rfl
  · intro z _ hz; rw [Pi.single_eq_of_ne hz, zero_mul]
  · intro h; exact absurd (Finset.mem_univ _) h

theorem const_range (n : Nat) (c : ℝ) : (fun _ => c) ∈ LinearMap.range (poly n) := by
  have := Submodule.smul_mem _ c (hom_range n 0 0)
  refine (congrArg (· ∈ LinearMap.range (poly n)) (funext fun x => ?_)).mp this
  simp [hom]

theorem coord_range {n i : Nat} (h1 : 1 ≤ i) (h2 : i ≤ n) : (fun x => x i) ∈ LinearMap.range (poly n) := by
  have := hom_range n 0 ⟨i, by omega⟩
  refine (congrArg (· ∈ LinearMap.range (poly n)) (funext fun x => ?_)).mp this
  have : i ≠ 0 := by omega
  simp [hom, this]

theorem prod_range {n i j : Nat} (h1 : 1 ≤ i) (h2 : i ≤ n) (h3 : 1 ≤ j) (h4 : j ≤ n) : (fun x => x i * x j) ∈ LinearMap.range (poly n) := by
  have := hom_range n ⟨i, by omega⟩ ⟨j, by omega⟩
  refine (congrArg (· ∈ LinearMap.range (poly n)) (funext fun x => ?_)).mp this
  have : i ≠ 0 := by omega
  have : j ≠ 0 := by omega
  simp [hom, *]

theorem IsQuadratic.range {n : Nat} {f : (Nat → ℝ) → ℝ} (h : IsQuadratic n f) : f ∈ LinearMap.range (poly n) := by
  obtain ⟨c, g, h, e⟩ := h
  have e' : f = (fun _ => c) + (∑ i ∈ Finset.Icc 1 n, g i • fun x : Nat → ℝ => x i) + ∑ i ∈ Finset.Icc 1 n, ∑ j ∈ Finset.Icc 1 n, h i j • fun x : Nat → ℝ => x i * x j := by
    funext x
    rw [e]
    simp only [Pi.add_apply, Finset.sum_apply, Pi.smul_apply, smul_eq_mul]
  rw [e']
  refine Submodule.add_mem _ (Submodule.add_mem _ (const_range n c) (Submodule.sum_mem _ fun i hi => ?_)) (Submodule.sum_mem _ fun i hi => Submodule.sum_mem _ fun j hj => ?_)
  · rw [Finset.mem_Icc] at hi
    exact Submodule.smul_mem _ _ (coord_range hi.1 hi.2)
  · rw [Finset.mem_Icc] at hi hj
    exact Submodule.smul_mem _ _ (prod_range hi.1 hi.2 hj.1 hj.2)

/-! ### Closure -/

theorem IsQuadratic.add {n : Nat} {f f' : (Nat → ℝ) → ℝ} (h : IsQuadratic n f) (h' : IsQuadratic n f') : IsQuadratic n (fun x => f x + f' x) := by
  obtain ⟨c, g, h, e⟩ := h
  obtain ⟨c', g', h', e'⟩ := h'
  refine ⟨c + c', fun i => g i + g' i, fun i j => h i j + h' i j, fun x => ?_⟩
  simp only [e, e', add_mul, Finset.sum_add_distrib]
  ring

theorem IsQuadratic.mul {n : Nat} {f : (Nat → ℝ) → ℝ} (h : IsQuadratic n f) (a : ℝ) : IsQuadratic n (fun x => a * f x) := by
  obtain ⟨c, g, h, e⟩ := h
  refine ⟨a * c, fun i => a * g i, fun i j => a * h i j, fun x => ?_⟩
  simp only [e, mul_add, mul_assoc, Finset.mul_sum]

theorem IsQuadratic.sum {n : Nat} {ι : Type} (t : Finset ι) {f : ι → (Nat → ℝ) → ℝ} (h : ∀ k ∈ t, IsQuadratic n (f k)) : IsQuadratic n (fun x => ∑ k ∈ t, f k x) := by
  classical
  induction t using Finset.induction_on with
  | empty => exact ⟨0, fun _ => 0, fun _ _ => 0, fun x => by simp⟩
  | insert a t ha ih =>
    have := (h a (Finset.mem_insert_self a t)).add (ih fun k hk => h k (Finset.mem_insert_of_mem hk))
    simpa only [Finset.sum_insert ha] using this

theorem isQuadratic_const (n : Nat) (c : ℝ) : IsQuadratic n (fun _ => c) := ⟨c, fun _ => 0, fun _ _ => 0, fun x => by simp⟩

theorem isQuadratic_dot (n : Nat) (g : Nat → ℝ) : IsQuadratic n (fun x => dot n g x) := ⟨0, g, fun _ _ => 0, fun x => by simp [Powell.dot]⟩

theorem isQuadratic_prod (n : Nat) (u v : Nat → ℝ) : IsQuadratic n (fun x => dot n u x * dot n v x) := by
  refine ⟨0, fun _ => 0, fun i j => u i * v j, fun x => ?_⟩
  dsimp only
  unfold Powell.dot
  rw [Finset.sum_mul_sum]
  simp only [zero_mul, Finset.sum_const_zero, zero_add]
  exact Finset.sum_congr rfl fun i _ => Finset.sum_congr rfl fun j _ => by ring

theorem isQuadratic_mono {n i j : Nat} (h1 : 1 ≤ i) (h2 : i ≤ n) (h3 : 1 ≤ j) (h4 : j ≤ n) : IsQuadratic n (fun x => x i * x j) := by
  have := isQuadratic_prod n (fun l => if l = i then 1 else 0) (fun l => if l = j then 1 else 0)
  refine (congrArg (IsQuadratic n) (funext fun x => ?_)).mp this
  have e : ∀ i, 1 ≤ i → i ≤ n → dot n (fun l => if l = i then 1 else 0) x = x i := by
    intro i h1 h2
    unfold Powell.dot
    rw [Finset.sum_eq_single i]
    · simp
    · intro l _ hl; simp [hl]
    · intro q; exact absurd (Finset.mem_Icc.mpr ⟨h1, h2⟩) q
  rw [e i h1 h2, e j h3 h4]

/-- The origin may be moved. -/
theorem IsQuadratic.shift {n : Nat} {f : (Nat → ℝ) → ℝ} (h : IsQuadratic n f) (b : Nat → ℝ) : IsQuadratic n (fun x => f fun j => x j + b j) := by
  obtain ⟨c, g, h, e⟩ := h
  refine ⟨c + ∑ i ∈ Finset.Icc 1 n, g i * b i + ∑ i ∈ Finset.Icc 1 n, ∑ j ∈ Finset.Icc 1 n, h i j * (b i * b j),
    fun i => g i + ∑ j ∈ Finset.Icc 1 n, (h i j + h j i) * b j, h, fun x => ?_⟩
  dsimp only
  rw [e]
  have e1 : ∑ i ∈ Finset.Icc 1 n, ∑ j ∈ Finset.Icc 1 n, h i j * ((x i + b i) * (x j + b j)) =
      ∑ i ∈ Finset.Icc 1 n, ∑ j ∈ Finset.Icc 1 n, h i j * (x i * x j) + ∑ i ∈ Finset.Icc 1 n, ∑ j ∈ Finset.Icc 1 n, h i j * b j * x i
      + ∑ i ∈ Finset.Icc 1 n, ∑ j ∈ Finset.Icc 1 n, h j i * b j * x i + ∑ i ∈ Finset.Icc 1 n, ∑ j ∈ Finset.Icc 1 n, h i j * (b i * b j) := by
    rw [show ∑ i ∈ Finset.Icc 1 n, ∑ j ∈ Finset.Icc 1 n, h j i * b j * x i = ∑ i ∈ Finset.Icc 1 n, ∑ j ∈ Finset.Icc 1 n, h i j * b i * x j from Finset.sum_comm]
    simp only [← Finset.sum_add_distrib]
    exact Finset.sum_congr rfl fun i _ => Finset.sum_congr rfl fun j _ => by ring
  have e2 : ∑ i ∈ Finset.Icc 1 n, (g i + ∑ j ∈ Finset.Icc 1 n, (h i j + h j i) * b j) * x i =
      ∑ i ∈ Finset.Icc 1 n, g i * x i + ∑ i ∈ Finset.Icc 1 n, ∑ j ∈ Finset.Icc 1 n, h i j * b j * x i + ∑ i ∈ Finset.Icc 1 n, ∑ j ∈ Finset.Icc 1 n, h j i * b j * x i := by
    simp only [← Finset.sum_add_distrib]
    refine Finset.sum_congr rfl fun i _ => ?_
    rw [add_mul, Finset.sum_mul, add_assoc, ← Finset.sum_add_distrib]
    exact congrArg (g i * x i + ·) (Finset.sum_congr rfl fun j _ => by ring)
  rw [e1, e2]
  simp only [mul_add, Finset.sum_add_distrib]
  ring

/-! ### Uniqueness -/

/-- Functions which are one at a point and zero at the others make the values at the points determine a quadratic
function, if the number of points is that of the coefficients. -/
theorem quadratic_unique {n m : Nat} (hm : 2 * m = (n + 1) * (n + 2)) (pts : Nat → Nat → ℝ) (L : Nat → (Nat → ℝ) → ℝ)
    (hL : ∀ t, 1 ≤ t → t ≤ m → IsQuadratic n (L t)) (hd : ∀ t k, 1 ≤ t → t ≤ m → 1 ≤ k → k ≤ m → L t (pts k) = if k = t then 1 else 0)
    {f : (Nat → ℝ) → ℝ} (hf : IsQuadratic n f) (h0 : ∀ k, 1 ≤ k → k ≤ m → f (pts k) = 0) (x : Nat → ℝ) : f x = 0 := by
  classical
  let E : (Sym2 (Fin (n + 1)) → ℝ) →ₗ[ℝ] (Fin m → ℝ) := (LinearMap.funLeft ℝ ℝ fun k : Fin m => pts (k.val + 1)) ∘ₗ poly n
  have hE : ∀ a k, E a k = poly n a (pts (k.val + 1)) := fun _ _ => rfl
  have card : Fintype.card (Sym2 (Fin (n + 1))) = m := by
    rw [Sym2.card, Fintype.card_fin, Nat.choose_two_right]
    have : (n + 1 + 1) * (n + 1 + 1 - 1) = 2 * m := by rw [hm, Nat.add_sub_cancel]; ring
    rw [this]; omega
  have dim : Module.finrank ℝ (Sym2 (Fin (n + 1)) → ℝ) = Module.finrank ℝ (Fin m → ℝ) := by
    rw [Module.finrank_fintype_fun_eq_card, Module.finrank_fintype_fun_eq_card, card, Fintype.card_fin]
  have surj : Function.Surjective E := by
    intro v
    have : ∀ t : Fin m, ∃ a, poly n a = L (t.val + 1) := fun t => (hL (t.val + 1) (by omega) (by omega)).range
    choose a ha using this
    refine ⟨∑ t, v t • a t, funext fun k => ?_⟩
    rw [hE, map_sum]
    simp only [map_smul, Finset.sum_apply, Pi.smul_apply, ha, smul_eq_mul]
    rw [Finset.sum_eq_single k]
    · rw [hd _ _ (by omega) (by omega) (by omega) (by omega), if_pos rfl, mul_one]
    · intro t _ ht
      rw [hd _ _ (by omega) (by omega) (by omega) (by omega), if_neg, mul_zero]
      intro w
      exact ht (Fin.ext (by omega))
    · intro w; exact absurd (Finset.mem_univ _) w
  have inj := (LinearMap.injective_iff_surjective_of_finrank_eq_finrank dim).mpr surj
  obtain ⟨a, ha⟩ := hf.range
  have : a = 0 := by
    apply inj
    rw [map_zero]
    funext k
    rw [hE, ha]
    exact h0 _ (by omega) (by omega)
  rw [← ha, this, map_zero]
  rfl

end Opk.Powell
