import Verif.Powell.Quadratic

/-!
# Second derivatives of quadratic functions, and the least Frobenius norm
-/
namespace Opk.Powell

/-- `q` is quadratic and `G` is the matrix of its second derivatives. -/
def HasHess (n : Nat) (q : (Nat → ℝ) → ℝ) (G : Nat → Nat → ℝ) : Prop :=
  (∀ i j, 1 ≤ i → i ≤ n → 1 ≤ j → j ≤ n → G i j = G j i) ∧
  ∃ (c : ℝ) (g : Nat → ℝ), ∀ x, q x = c + ∑ i ∈ Finset.Icc 1 n, g i * x i + (∑ i ∈ Finset.Icc 1 n, ∑ j ∈ Finset.Icc 1 n, G i j * (x i * x j)) / 2

/-- The square of the Frobenius norm. -/
def frob (n : Nat) (G : Nat → Nat → ℝ) : ℝ := ∑ i ∈ Finset.Icc 1 n, ∑ j ∈ Finset.Icc 1 n, G i j ^ 2

theorem HasHess.add {n : Nat} {q q' : (Nat → ℝ) → ℝ} {G G' : Nat → Nat → ℝ} (h : HasHess n q G) (h' : HasHess n q' G') :
    HasHess n (fun x => q x + q' x) (fun i j => G i j + G' i j) := by
  obtain ⟨h, c, g, e⟩ := h
  obtain ⟨h', c', g', e'⟩ := h'
  refine ⟨fun i j i1 i2 j1 j2 => by dsimp only; rw [h i j i1 i2 j1 j2, h' i j i1 i2 j1 j2], c + c', fun i => g i + g' i, fun x => ?_⟩
  simp only [e, e', add_mul, Finset.sum_add_distrib]
  ring

theorem HasHess.mul {n : Nat} {q : (Nat → ℝ) → ℝ} {G : Nat → Nat → ℝ} (h : HasHess n q G) (a : ℝ) : HasHess n (fun x => a * q x) (fun i j => a * G i j) := by
  obtain ⟨h, c, g, e⟩ := h
  refine ⟨fun i j i1 i2 j1 j2 => by dsimp only; rw [h i j i1 i2 j1 j2], a * c, fun i => a * g i, fun x => ?_⟩
  simp only [e, mul_add, mul_assoc, ← Finset.mul_sum]
  ring

theorem hasHess_const (n : Nat) (c : ℝ) : HasHess n (fun _ => c) (fun _ _ => 0) :=
  ⟨fun _ _ _ _ _ _ => rfl, c, fun _ => 0, fun x => by simp⟩

theorem hasHess_dot (n : Nat) (g : Nat → ℝ) : HasHess n (fun x => dot n g x) (fun _ _ => 0) :=
  ⟨fun _ _ _ _ _ _ => rfl, 0, g, fun x => by simp [Powell.dot]⟩

theorem hasHess_sq (n : Nat) (u : Nat → ℝ) : HasHess n (fun x => dot n u x * dot n u x / 2) (fun i j => u i * u j) := by
  refine ⟨fun _ _ _ _ _ _ => mul_comm _ _, 0, fun _ => 0, fun x => ?_⟩
  dsimp only
  unfold Powell.dot
  rw [Finset.sum_mul_sum]
  simp only [zero_mul, Finset.sum_const_zero, zero_add]
  congr 1
  exact Finset.sum_congr rfl fun i _ => Finset.sum_congr rfl fun j _ => by ring

theorem hasHess_sum {n : Nat} {ι : Type} (t : Finset ι) {q : ι → (Nat → ℝ) → ℝ} {G : ι → Nat → Nat → ℝ} (h : ∀ k ∈ t, HasHess n (q k) (G k)) :
    HasHess n (fun x => ∑ k ∈ t, q k x) (fun i j => ∑ k ∈ t, G k i j) := by
  classical
  induction t using Finset.induction_on with
  | empty => simpa only [Finset.sum_empty] using hasHess_const n 0
  | insert a t ha ih =>
    have := (h a (Finset.mem_insert_self a t)).add (ih fun k hk => h k (Finset.mem_insert_of_mem hk))
    simpa only [Finset.sum_insert ha] using this

/-- The origin may be moved. -/
theorem HasHess.shift {n : Nat} {q : (Nat → ℝ) → ℝ} {G : Nat → Nat → ℝ} (h : HasHess n q G) (b : Nat → ℝ) : HasHess n (fun x => q fun j => x j + b j) G := by
  obtain ⟨h, c, g, e⟩ := h
  refine ⟨h, c + ∑ i ∈ Finset.Icc 1 n, g i * b i + (∑ i ∈ Finset.Icc 1 n, ∑ j ∈ Finset.Icc 1 n, G i j * (b i * b j)) / 2,
    fun i => g i + ∑ j ∈ Finset.Icc 1 n, G i j * b j, fun x => ?_⟩
  dsimp only
  rw [e]
  have e1 : ∑ i ∈ Finset.Icc 1 n, ∑ j ∈ Finset.Icc 1 n, G i j * ((x i + b i) * (x j + b j)) =
      ∑ i ∈ Finset.Icc 1 n, ∑ j ∈ Finset.Icc 1 n, G i j * (x i * x j) + ∑ i ∈ Finset.Icc 1 n, ∑ j ∈ Finset.Icc 1 n, G i j * b j * x i
      + ∑ i ∈ Finset.Icc 1 n, ∑ j ∈ Finset.Icc 1 n, G j i * b j * x i + ∑ i ∈ Finset.Icc 1 n, ∑ j ∈ Finset.Icc 1 n, G i j * (b i * b j) := by
    rw [show ∑ i ∈ Finset.Icc 1 n, ∑ j ∈ Finset.Icc 1 n, G j i * b j * x i = ∑ i ∈ Finset.Icc 1 n, ∑ j ∈ Finset.Icc 1 n, G i j * b i * x j from Finset.sum_comm]
    simp only [← Finset.sum_add_distrib]
    exact Finset.sum_congr rfl fun i _ => Finset.sum_congr rfl fun j _ => by ring
  have e3 : ∑ i ∈ Finset.Icc 1 n, ∑ j ∈ Finset.Icc 1 n, G j i * b j * x i = ∑ i ∈ Finset.Icc 1 n, ∑ j ∈ Finset.Icc 1 n, G i j * b j * x i :=
    Finset.sum_congr rfl fun i hi => Finset.sum_congr rfl fun j hj => by
      rw [Finset.mem_Icc] at hi hj
      rw [h i j hi.1 hi.2 hj.1 hj.2]
  have e2 : ∑ i ∈ Finset.Icc 1 n, (g i + ∑ j ∈ Finset.Icc 1 n, G i j * b j) * x i =
      ∑ i ∈ Finset.Icc 1 n, g i * x i + ∑ i ∈ Finset.Icc 1 n, ∑ j ∈ Finset.Icc 1 n, G i j * b j * x i := by
    simp only [← Finset.sum_add_distrib]
    refine Finset.sum_congr rfl fun i _ => ?_
    rw [add_mul, Finset.sum_mul]
  rw [e1, e2, e3]
  simp only [mul_add, Finset.sum_add_distrib]
  ring

theorem delta_sum {n i : Nat} (h1 : 1 ≤ i) (h2 : i ≤ n) (f : Nat → ℝ) : ∑ l ∈ Finset.Icc 1 n, f l * (if l = i then 1 else 0) = f i := by
  rw [Finset.sum_eq_single i]
  · simp
  · intro l _ hl; simp [hl]
  · intro q; exact absurd (Finset.mem_Icc.mpr ⟨h1, h2⟩) q

/-- The second derivatives are differences of values: hence there is one matrix. -/
theorem HasHess.eq {n : Nat} {q : (Nat → ℝ) → ℝ} {G : Nat → Nat → ℝ} (h : HasHess n q G) {i j : Nat} (i1 : 1 ≤ i) (i2 : i ≤ n) (j1 : 1 ≤ j) (j2 : j ≤ n) :
    G i j = q (fun l => (if l = i then 1 else 0) + if l = j then 1 else 0) - q (fun l => if l = i then 1 else 0) - q (fun l => if l = j then 1 else 0) + q (fun _ => 0) := by
  obtain ⟨h, c, g, e⟩ := h
  have two : ∀ a b, 1 ≤ a → a ≤ n → 1 ≤ b → b ≤ n → ∑ i ∈ Finset.Icc 1 n, ∑ j ∈ Finset.Icc 1 n, G i j * ((if i = a then (1 : ℝ) else 0) * if j = b then 1 else 0) = G a b := by
    intro a b a1 a2 b1 b2
    have : ∀ i ∈ Finset.Icc 1 n, ∑ j ∈ Finset.Icc 1 n, G i j * ((if i = a then (1 : ℝ) else 0) * if j = b then 1 else 0) = G i b * if i = a then 1 else 0 := by
      intro i _
      rw [← delta_sum b1 b2 (fun j => G i j), Finset.sum_mul]
      exact Finset.sum_congr rfl fun j _ => by ring
    rw [Finset.sum_congr rfl this, delta_sum a1 a2 (fun i => G i b)]
  rw [e, e, e, e]
  simp only [add_mul, mul_add, Finset.sum_add_distrib, delta_sum i1 i2, delta_sum j1 j2, two i i i1 i2 i1 i2, two i j i1 i2 j1 j2, two j i j1 j2 i1 i2, two j j j1 j2 j1 j2]
  rw [h j i j1 j2 i1 i2]
  simp
  ring

/-- The differences of the values at four points. -/
theorem HasHess.cross {n : Nat} {q : (Nat → ℝ) → ℝ} {G : Nat → Nat → ℝ} (h : HasHess n q G) {i j : Nat} (i1 : 1 ≤ i) (i2 : i ≤ n) (j1 : 1 ≤ j) (j2 : j ≤ n) (α β : ℝ) :
    G i j * (α * β) = q (fun l => α * (if l = i then 1 else 0) + β * if l = j then 1 else 0) - q (fun l => α * if l = i then 1 else 0) - q (fun l => β * if l = j then 1 else 0)
      + q (fun _ => 0) := by
  obtain ⟨h, c, g, e⟩ := h
  have two : ∀ a b (γ δ : ℝ), 1 ≤ a → a ≤ n → 1 ≤ b → b ≤ n →
      ∑ i ∈ Finset.Icc 1 n, ∑ j ∈ Finset.Icc 1 n, G i j * ((γ * if i = a then (1 : ℝ) else 0) * (δ * if j = b then 1 else 0)) = G a b * (γ * δ) := by
    intro a b γ δ a1 a2 b1 b2
    have : ∀ i ∈ Finset.Icc 1 n, ∑ j ∈ Finset.Icc 1 n, G i j * ((γ * if i = a then (1 : ℝ) else 0) * (δ * if j = b then 1 else 0)) = G i b * γ * δ * if i = a then 1 else 0 := by
      intro i _
      rw [show ∑ j ∈ Finset.Icc 1 n, G i j * ((γ * if i = a then (1 : ℝ) else 0) * (δ * if j = b then 1 else 0)) = (γ * δ * if i = a then (1 : ℝ) else 0) * ∑ j ∈ Finset.Icc 1 n, G i j * if j = b then 1 else 0 by
        rw [Finset.mul_sum]; exact Finset.sum_congr rfl fun j _ => by ring, delta_sum b1 b2 (fun j => G i j)]
      ring
    rw [Finset.sum_congr rfl this, delta_sum a1 a2 (fun i => G i b * γ * δ)]
    ring
  have one : ∀ a (γ : ℝ), 1 ≤ a → a ≤ n → ∑ i ∈ Finset.Icc 1 n, g i * (γ * if i = a then (1 : ℝ) else 0) = γ * g a := by
    intro a γ a1 a2
    rw [← delta_sum a1 a2 g, Finset.mul_sum]
    exact Finset.sum_congr rfl fun i _ => by ring
  rw [e, e, e, e]
  simp only [add_mul, mul_add, Finset.sum_add_distrib, one i _ i1 i2, one j _ j1 j2, two i i _ _ i1 i2 i1 i2, two i j _ _ i1 i2 j1 j2, two j i _ _ j1 j2 i1 i2, two j j _ _ j1 j2 j1 j2]
  rw [h j i j1 j2 i1 i2]
  simp
  ring

/-- A quadratic function has second derivatives. -/
theorem IsQuadratic.hess {n : Nat} {q : (Nat → ℝ) → ℝ} (h : IsQuadratic n q) : ∃ G, HasHess n q G := by
  obtain ⟨c, g, h, e⟩ := h
  refine ⟨fun i j => h i j + h j i, fun i j _ _ _ _ => add_comm _ _, c, g, fun x => ?_⟩
  rw [e]
  have : ∑ i ∈ Finset.Icc 1 n, ∑ j ∈ Finset.Icc 1 n, h j i * (x i * x j) = ∑ i ∈ Finset.Icc 1 n, ∑ j ∈ Finset.Icc 1 n, h i j * (x i * x j) := by
    rw [Finset.sum_comm]
    exact Finset.sum_congr rfl fun i _ => Finset.sum_congr rfl fun j _ => by ring
  simp only [add_mul, Finset.sum_add_distrib, this]
  ring

/-- **Least Frobenius norm.**  Let the matrix of `d` be `∑ₖ λₖ xₖ xₖᵀ` where `∑ₖ λₖ = 0` and `∑ₖ λₖ xₖ = 0`.  No quadratic function
which takes the values of `d` at the points `xₖ`, up to a constant, has second derivatives with a smaller Frobenius norm. -/
theorem least_frobenius {n m : Nat} {pts : Nat → Nat → ℝ} {lam : Nat → ℝ} (h0 : ∑ k ∈ Finset.Icc 1 m, lam k = 0)
    (h1 : ∀ j, 1 ≤ j → j ≤ n → ∑ k ∈ Finset.Icc 1 m, lam k * pts k j = 0) {e d : (Nat → ℝ) → ℝ} {E D : Nat → Nat → ℝ} (he : HasHess n e E) (hd : HasHess n d D)
    (hD : ∀ i j, 1 ≤ i → i ≤ n → 1 ≤ j → j ≤ n → D i j = ∑ k ∈ Finset.Icc 1 m, lam k * (pts k i * pts k j))
    {a : ℝ} (hv : ∀ k, 1 ≤ k → k ≤ m → e (pts k) = d (pts k) + a) : frob n D ≤ frob n E := by
  have hN := he.add (hd.mul (-1))
  obtain ⟨-, c, g, eq⟩ := hN
  have cross : ∑ i ∈ Finset.Icc 1 n, ∑ j ∈ Finset.Icc 1 n, D i j * (E i j + -1 * D i j) = 0 := by
    have r1 : ∑ i ∈ Finset.Icc 1 n, ∑ j ∈ Finset.Icc 1 n, D i j * (E i j + -1 * D i j) =
        ∑ k ∈ Finset.Icc 1 m, lam k * ∑ i ∈ Finset.Icc 1 n, ∑ j ∈ Finset.Icc 1 n, (E i j + -1 * D i j) * (pts k i * pts k j) := by
      have : ∀ i ∈ Finset.Icc 1 n, ∀ j ∈ Finset.Icc 1 n, D i j * (E i j + -1 * D i j) = ∑ k ∈ Finset.Icc 1 m, lam k * ((E i j + -1 * D i j) * (pts k i * pts k j)) := by
        intro i hi j hj
        rw [Finset.mem_Icc] at hi hj
        generalize E i j + -1 * D i j = z
        rw [hD i j hi.1 hi.2 hj.1 hj.2, Finset.sum_mul]
        exact Finset.sum_congr rfl fun k _ => by ring
      rw [Finset.sum_congr rfl fun i hi => Finset.sum_congr rfl fun j hj => this i hi j hj]
      simp only [Finset.mul_sum]
      rw [Finset.sum_congr rfl fun i _ => Finset.sum_comm, Finset.sum_comm]
    rw [r1]
    have r2 : ∀ k ∈ Finset.Icc 1 m, lam k * ∑ i ∈ Finset.Icc 1 n, ∑ j ∈ Finset.Icc 1 n, (E i j + -1 * D i j) * (pts k i * pts k j) =
        2 * (a - c) * lam k - 2 * ∑ i ∈ Finset.Icc 1 n, g i * (lam k * pts k i) := by
      intro k hk
      rw [Finset.mem_Icc] at hk
      have w := eq (pts k)
      dsimp only at w
      rw [hv k hk.1 hk.2] at w
      have s : ∑ i ∈ Finset.Icc 1 n, g i * (lam k * pts k i) = lam k * ∑ i ∈ Finset.Icc 1 n, g i * pts k i := by
        rw [Finset.mul_sum]; exact Finset.sum_congr rfl fun i _ => by ring
      rw [s]
      linear_combination (-2 * lam k) * w
    rw [Finset.sum_congr rfl r2, Finset.sum_sub_distrib, ← Finset.mul_sum, h0, mul_zero, ← Finset.mul_sum, Finset.sum_comm]
    rw [Finset.sum_eq_zero]
    · ring
    · intro i hi
      rw [Finset.mem_Icc] at hi
      rw [← Finset.mul_sum, h1 i hi.1 hi.2, mul_zero]
  have split : frob n E = frob n D + 2 * (∑ i ∈ Finset.Icc 1 n, ∑ j ∈ Finset.Icc 1 n, D i j * (E i j + -1 * D i j)) + frob n (fun i j => E i j + -1 * D i j) := by
    unfold frob
    simp only [Finset.mul_sum, ← Finset.sum_add_distrib]
    exact Finset.sum_congr rfl fun i _ => Finset.sum_congr rfl fun j _ => by ring
  have pos : 0 ≤ frob n (fun i j => E i j + -1 * D i j) := Finset.sum_nonneg fun i _ => Finset.sum_nonneg fun j _ => sq_nonneg _
  rw [split, cross]
  linarith

end Opk.Powell
