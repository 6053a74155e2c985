import Verif.Gqt.Frame
/-!
# The estimate of the smallest singular value

In exact arithmetic the vector returned by `estsv` has norm 1 and its image by the triangular matrix has the returned norm, whatever the matrix.
-/
set_option linter.unusedSectionVars false
set_option linter.unusedSimpArgs false
set_option linter.unusedTactic false
namespace Opk.Gqt
open Linalg CMath Finset

section
variable {K : Type} [Field K] [LinearOrder K] [IsStrictOrderedRing K] [CMath K] [ExactMath K]

theorem axpy_one {m x incx y : Int} {s : K} (hxy : ∀ i k : Nat, i < k → k < m → y + i ≠ slot x m incx k) (mem : Mem K) :
    (∀ k : Nat, k < m → axpy m s x incx y 1 mem (y + k) = s * mem (slot x m incx k) + mem (y + k)) ∧
    ∀ p, (∀ k : Nat, k < m → p ≠ y + k) → axpy m s x incx y 1 mem p = mem p := by
  have := axpy_spec (n := m) (a := s) (x := x) (incx := incx) (y := y) (incy := 1) (by decide) (by simpa only [slot_one] using hxy) mem
  simpa only [slot_one] using this

theorem scal_one (n : Nat) (s : K) (x : Int) (mem : Mem K) : ∀ k < n, scal (n : Int) s x 1 mem (x + k) = s * mem (x + k) := by
  intro k hk
  have := (scal_spec (n := (n : Int)) (a := s) (x := x) (incx := 1) le_rfl mem).1 k (by omega)
  simpa only [slot_one] using this

/-- The vector stored at `v`. -/
def at1 (mem : Mem K) (v : Int) (k : Nat) : K := mem (v + k)

/-- The sum of the squares of `n` elements. -/
def sq (n : Nat) (v : Nat → K) : K := ∑ k ∈ range n, v k * v k

theorem nrm2_one (hsqrt : ∀ a : K, 0 ≤ a → 0 ≤ CMath.sqrt a ∧ CMath.sqrt a * CMath.sqrt a = a) (n : Nat) (x : Int) (mem : Mem K) :
    0 ≤ nrm2 (n : Int) x 1 mem ∧ nrm2 (n : Int) x 1 mem * nrm2 (n : Int) x 1 mem = sq n (at1 mem x) := by
  have := nrm2_spec hsqrt (n := (n : Int)) (x := x) (incx := 1) le_rfl mem
  simp only [slot_one, Int.toNat_natCast] at this
  exact this

theorem sq_nonneg' (n : Nat) (v : Nat → K) : 0 ≤ sq n v := sum_nonneg fun _ _ => mul_self_nonneg _

theorem sq_eq_zero {n : Nat} {v : Nat → K} (h : sq n v = 0) : ∀ k < n, v k = 0 := by
  intro k hk
  have := (sum_eq_zero_iff_of_nonneg (fun i _ => mul_self_nonneg (v i))).1 h k (mem_range.2 hk)
  exact mul_self_eq_zero.1 this

theorem sq_congr {n : Nat} {v w : Nat → K} (h : ∀ k < n, v k = w k) : sq n v = sq n w :=
  sum_congr rfl fun k hk => by rw [h k (mem_range.1 hk)]

theorem sq_smul (n : Nat) (s : K) (v : Nat → K) : sq n (fun k => s * v k) = s * s * sq n v := by
  unfold sq
  rw [mul_sum]
  exact sum_congr rfl fun k _ => by ring

/-- The image by the upper triangle of `R`. -/
def image (R : Nat → Nat → K) (n : Nat) (v : Nat → K) (k : Nat) : K := ∑ i ∈ range n, above R k i * v i

/-- The reduction of the vector: a factor, and the tests of the code. -/
theorem factor_cases {r d : K} (h : |r| < |d|) : let t := if |r / d| > (1 / 100 : K) then (1 / 100 : K) else |r / d|
    0 ≤ t ∧ (t = 0 ↔ r = 0) := by
  intro t
  have hd : d ≠ 0 := by
    rintro rfl
    rw [abs_zero] at h
    exact absurd h (not_lt.2 (abs_nonneg r))
  have ht : t = if |r / d| > (1 / 100 : K) then (1 / 100 : K) else |r / d| := rfl
  clear_value t
  split at ht
  · rename_i h1
    subst ht
    refine ⟨by norm_num, ⟨fun h => absurd h (by norm_num), fun h0 => ?_⟩⟩
    rw [h0, zero_div, abs_zero] at h1
    exact absurd h1 (by norm_num)
  · subst ht
    refine ⟨abs_nonneg _, ?_⟩
    rw [abs_eq_zero, div_eq_zero_iff]
    exact ⟨fun h => h.resolve_right hd, fun h => Or.inl h⟩

theorem lit_hundredth : (lit 1 100 : K) = 1 / 100 := by rw [ExactMath.lit_eq]; norm_num

/-- The reduction multiplies the vector and the scalar by a factor which is zero only if the diagonal element is. -/
theorem reduce_spec (n : Nat) (z : Int) (r d : K) (st : K × Mem K) :
    ∃ t : K, 0 ≤ t ∧ (t = 0 → r = 0) ∧ (estsvReduce n z r d st).1 = st.1 * t ∧ (∀ k < n, (estsvReduce n z r d st).2 (z + k) = t * st.2 (z + k)) ∧
      (r = 0 → d = 0 ∨ t = 0) ∧ (|d| ≤ |r| → t = 1) := by
  unfold estsvReduce
  dsimp only
  simp only [ExactMath.fabs_eq, lit_hundredth]
  split
  · rename_i h
    obtain ⟨h1, h2⟩ := factor_cases h
    exact ⟨_, h1, h2.1, rfl, scal_one n _ z st.2, fun hr => Or.inr (h2.2 hr), fun hle => absurd hle (not_le.2 h)⟩
  · rename_i h
    refine ⟨1, zero_le_one, fun h => absurd h one_ne_zero, (mul_one _).symm, fun k _ => (one_mul _).symm, fun hr => Or.inl ?_, fun _ => rfl⟩
    rw [hr, abs_zero, not_lt] at h
    exact abs_eq_zero.1 (le_antisymm h (abs_nonneg d))

theorem pick {P : K → Prop} {c : Prop} {_ : Decidable c} {a b : K} {X Y : Mem K} (ha : P a) (hb : P b) : P (if c then (a, X) else (b, Y)).1 := by
  split
  · exact ha
  · exact hb

/-- The elements stored by the forward substitution. -/
theorem advance_spec {n : Nat} (r ldr z : Int) {i : Nat} (hi : i < n) (st : K × Mem K) :
    (∀ k < i, (estsvAdvance n r ldr z (i + 1) st).2 (z + k) = st.2 (z + k)) ∧
    (st.2 (elem r ldr i i) = 0 → (estsvAdvance n r ldr z (i + 1) st).2 (z + i) = 1) ∧
    (st.2 (z + i) = 0 → st.1 ≠ 0 → (estsvAdvance n r ldr z (i + 1) st).2 (z + i) ≠ 0) := by
  obtain ⟨e, mem⟩ := st
  have ezi : z + ((i : Int) + 1 - 1) = z + i := by ring
  have hax : ∀ (m : Mem K) (w : K) x inc, ∀ k ≤ i, axpy ((n : Int) - (i + 1)) w x inc (z + ((i : Int) + 1 + 1 - 1)) 1 m (z + k) = m (z + k) := by
    intro m w x inc k hk
    apply axpy_frame
    intro l hl h
    rw [slot_one] at h
    omega
  refine ⟨?_, ?_, ?_⟩
  · intro k hk
    unfold estsvAdvance
    dsimp only
    rw [put_other _ _ (by omega)]
    repeat' split
    all_goals simp only [hax _ _ _ _ k hk.le]
  · intro h0
    unfold estsvAdvance
    dsimp only at h0 ⊢
    rw [show z + (i : Int) = z + ((i : Int) + 1 - 1) by ring, put_same, at2_elem r ldr i i rfl rfl, if_pos h0]
    exact pick (P := fun v => v = 1) rfl rfl
  · intro hz he
    unfold estsvAdvance
    dsimp only at hz he ⊢
    rw [show z + (i : Int) = z + ((i : Int) + 1 - 1) by ring] at hz ⊢
    rw [put_same, at2_elem r ldr i i rfl rfl, hz]
    by_cases h : mem (elem r ldr i i) = 0
    · rw [if_pos h]
      exact pick (P := fun v => v ≠ 0) one_ne_zero one_ne_zero
    · rw [if_neg h]
      refine pick (P := fun v => v ≠ 0) ?_ ?_
      · dsimp only
        rw [add_zero]
        exact div_ne_zero (neg_ne_zero.2 he) h
      · dsimp only
        rw [sub_zero]
        exact div_ne_zero he h

theorem sign_ne {e : K} (y : K) (h : e ≠ 0) : sign e y ≠ 0 := by
  unfold sign
  split
  · exact h
  · exact neg_ne_zero.2 h

/-- The right hand side is not zero. -/
theorem forward_ne {n : Nat} (r ldr z : Int) (hs : ∀ i j, i ≤ j → j < n → ¬vec z n (elem r ldr i j)) {i : Nat} (hi : i < n) (st : K × Mem K)
    (h : (∃ k < i, st.2 (z + k) ≠ 0) ∨ (i = 0 ∧ st.1 ≠ 0 ∧ st.2 z = 0)) :
    ∃ k < i + 1, (estsvForward n r ldr z (i + 1) st).2 (z + k) ≠ 0 := by
  unfold estsvForward
  dsimp only
  obtain ⟨t, h0, ht, h1, hk, -, -⟩ := reduce_spec n z (st.2 (at2 r ldr (i + 1) (i + 1))) (sign st.1 (-st.2 (z + ((i : Int) + 1 - 1))) - st.2 (z + ((i : Int) + 1 - 1)))
    (sign st.1 (-st.2 (z + ((i : Int) + 1 - 1))), st.2)
  have hf := reduce_frame z (st.2 (at2 r ldr (i + 1) (i + 1))) (sign st.1 (-st.2 (z + ((i : Int) + 1 - 1))) - st.2 (z + ((i : Int) + 1 - 1)))
    (sign st.1 (-st.2 (z + ((i : Int) + 1 - 1))), st.2) (hs i i le_rfl hi)
  revert h1 hk hf
  generalize (estsvReduce (n : Int) z _ _ _ : K × Mem K) = s
  intro h1 hk hf
  obtain ⟨a1, a2, a3⟩ := advance_spec r ldr z hi s
  dsimp only at hf h1 hk
  rw [at2_elem r ldr i i rfl rfl] at ht
  by_cases hd : st.2 (elem r ldr i i) = 0
  · exact ⟨i, by omega, by rw [a2 (hf.trans hd)]; exact one_ne_zero⟩
  have htn : t ≠ 0 := fun h => hd (ht h)
  rcases h with ⟨k, hki, hne⟩ | ⟨rfl, he, hz⟩
  · refine ⟨k, by omega, ?_⟩
    rw [a1 k hki, hk k (by omega)]
    exact mul_ne_zero htn hne
  · refine ⟨0, by omega, a3 ?_ ?_⟩
    · rw [hk 0 hi, show z + ((0 : Nat) : Int) = z by simp, hz, mul_zero]
    · rw [h1]
      exact mul_ne_zero (sign_ne _ he) htn

/-- The state of the back substitution when the rows from `c` have been solved: `s` is the product of the factors. -/
structure Back (R : Nat → Nat → K) (Y : Nat → K) (N : K) (n c : Nat) (z : Int) (st : K × Mem K) (s : K) : Prop where
  nonneg : 0 ≤ s
  norm : st.1 = N * s
  solved : ∀ k < n, c ≤ k → ∑ l ∈ range (n - k), R k (k + l) * st.2 (z + (k + l : Nat)) = s * Y k
  rest : ∀ k < c, st.2 (z + k) + ∑ l ∈ range (n - c), R k (c + l) * st.2 (z + (c + l : Nat)) = s * Y k

/-- The vector is not zero, or it has not been multiplied by zero. -/
def Alive (n c : Nat) (z : Int) (st : K × Mem K) (s : K) : Prop := 0 < s ∨ ∃ k < n, c ≤ k ∧ st.2 (z + k) ≠ 0

theorem reduce_back {R : Nat → Nat → K} {Y : Nat → K} {N : K} {n c : Nat} {z : Int} {st : K × Mem K} {s : K} (hc : c + 1 ≤ n) (h : Back R Y N n (c + 1) z st s)
    (ha : Alive n (c + 1) z st s) :
    let r := estsvReduce n z (R c c) (st.2 (z + c)) st
    ∃ s', Back R Y N n (c + 1) z r s' ∧ (R c c = 0 → r.2 (z + c) = 0) ∧ (R c c = 0 ∨ Alive n (c + 1) z r s') := by
  intro r
  have hr : r = estsvReduce n z (R c c) (st.2 (z + c)) st := rfl
  obtain ⟨t, h0, ht, h1, hk, hz, -⟩ := reduce_spec n z (R c c) (st.2 (z + c)) st
  rw [← hr] at h1 hk
  clear_value r
  refine ⟨t * s, ⟨mul_nonneg h0 h.nonneg, ?_, ?_, ?_⟩, ?_, ?_⟩
  · rw [h1, h.norm]
    ring
  · intro k hkn hck
    rw [mul_assoc, ← h.solved k hkn hck, mul_sum]
    apply sum_congr rfl
    intro l hl
    rw [mem_range] at hl
    rw [hk (k + l) (by omega)]
    ring
  · intro k hkc
    rw [mul_assoc, ← h.rest k hkc, mul_add, mul_sum]
    congr 1
    · exact hk k (by omega)
    · apply sum_congr rfl
      intro l hl
      rw [mem_range] at hl
      rw [hk (c + 1 + l) (by omega)]
      ring
  · intro hR
    rw [hk c (by omega)]
    rcases hz hR with h | h
    · rw [h, mul_zero]
    · rw [h, zero_mul]
  · by_cases ht0 : t = 0
    · exact Or.inl (ht ht0)
    · have htp : 0 < t := lt_of_le_of_ne h0 (Ne.symm ht0)
      right
      rcases ha with hne | ⟨k, hkn, hck, hne⟩
      · exact Or.inl (mul_pos htp hne)
      · refine Or.inr ⟨k, hkn, hck, ?_⟩
        rw [hk k hkn]
        exact mul_ne_zero ht0 hne

theorem retreat_back {R : Nat → Nat → K} {Y : Nat → K} {N : K} {n c : Nat} {r ldr z : Int} {st : K × Mem K} {s : K} (hc : c + 1 ≤ n) (hl : (n : Int) ≤ ldr)
    (hs : ∀ i j, i ≤ j → j < n → ¬vec z n (elem r ldr i j)) (hR : ∀ k ≤ c, st.2 (elem r ldr k c) = R k c) (h : Back R Y N n (c + 1) z st s)
    (hz : R c c = 0 → st.2 (z + c) = 0) (ha : R c c = 0 ∨ Alive n (c + 1) z st s) :
    Back R Y N n c z (estsvRetreat n r ldr z (c + 1) st) s ∧ Alive n c z (estsvRetreat n r ldr z (c + 1) st) s := by
  obtain ⟨ynorm, mem⟩ := st
  dsimp only at hR hz
  let v : K := if R c c = 0 then 1 else mem (z + c) / R c c
  have hv : R c c * v = mem (z + c) := by
    show R c c * (if R c c = 0 then 1 else mem (z + c) / R c c) = _
    split
    · rename_i h0
      rw [h0, zero_mul, hz h0]
    · rename_i h0
      rw [mul_div_cancel₀ _ h0]
  have e0 : estsvRetreat n r ldr z (c + 1) (ynorm, mem) = (ynorm, axpy ((c : Int) + 1 - 1) (-v) (elem r ldr 0 c) 1 (z + (1 - 1)) 1 (put mem (z + c) v)) := by
    unfold estsvRetreat
    dsimp only
    rw [at2_elem r ldr c c rfl rfl, at2_elem r ldr 0 c (by norm_num) rfl, hR c le_rfl, show z + ((c : Int) + 1 - 1) = z + c by ring]
    have : (if R c c = 0 then put mem (z + c) 1 else put mem (z + c) (mem (z + c) / R c c)) = put mem (z + c) v := by
      show _ = put mem (z + c) (if R c c = 0 then 1 else mem (z + c) / R c c)
      split
      · rfl
      · rfl
    rw [this, put_same]
  rw [e0]
  have hx := axpy_one (m := (c : Int) + 1 - 1) (x := elem r ldr 0 c) (incx := 1) (y := z + (1 - 1)) (s := -v) (by
    intro i k hik hk h
    rw [slot_one] at h
    refine hs k c (by omega) (by omega) ⟨i, by omega, ?_⟩
    rw [show z + (i : Int) = z + (1 - 1) + i by ring, h]
    unfold elem
    push_cast
    ring) (put mem (z + c) v)
  simp only [sub_self, add_zero, slot_one] at hx ⊢
  generalize hm : axpy ((c : Int) + 1 - 1) (-v) (elem r ldr 0 c) 1 z 1 (put mem (z + c) v) = m at hx
  have hlo : ∀ k < c, m (z + k) = -v * R k c + mem (z + k) := by
    intro k hk
    have e : elem r ldr 0 c + (k : Int) = elem r ldr k c := by
      unfold elem
      push_cast
      ring
    rw [hx.1 k (by omega), e, put_other (p := elem r ldr k c), put_other _ _ (by omega), hR k hk.le]
    intro h
    exact hs k c hk.le (by omega) ⟨c, by omega, h⟩
  have hcc : m (z + c) = v := by
    rw [hx.2 _ fun k hk => by omega, put_same]
  have hhi : ∀ k, c < k → m (z + k) = mem (z + k) := by
    intro k hk
    rw [hx.2 _ fun i hi => by omega, put_other _ _ (by omega)]
  have hsum : ∀ k, ∑ l ∈ range (n - c), R k (c + l) * m (z + (c + l : Nat)) = R k c * v + ∑ l ∈ range (n - (c + 1)), R k (c + 1 + l) * mem (z + (c + 1 + l : Nat)) := by
    intro k
    rw [show n - c = n - (c + 1) + 1 by omega, sum_range_succ', add_comm]
    congr 1
    · rw [add_zero, hcc]
    · apply sum_congr rfl
      intro l hl
      rw [show c + (l + 1) = c + 1 + l by ring, hhi _ (by omega)]
  refine ⟨⟨h.nonneg, h.norm, ?_, ?_⟩, ?_⟩
  · intro k hkn hck
    dsimp only
    rcases Nat.lt_or_ge c k with hlt | hge
    · rw [← h.solved k hkn (by omega)]
      apply sum_congr rfl
      intro l hl
      rw [hhi _ (by omega)]
    · obtain rfl : k = c := by omega
      rw [hsum, hv]
      exact h.rest k (by omega)
  · intro k hk
    dsimp only
    rw [hsum, hlo k hk, ← h.rest k (by omega)]
    dsimp only
    ring
  · rcases ha with h0 | h0 | ⟨k, hkn, hck, hne⟩
    · refine Or.inr ⟨c, by omega, le_rfl, ?_⟩
      dsimp only
      rw [hcc]
      show (if R c c = 0 then (1 : K) else mem (z + c) / R c c) ≠ 0
      rw [if_pos h0]
      exact one_ne_zero
    · exact Or.inl h0
    · refine Or.inr ⟨k, hkn, by omega, ?_⟩
      dsimp only
      rw [hhi k (by omega)]
      exact hne

theorem image_eq (R : Nat → Nat → K) {n k : Nat} (hk : k < n) (v : Nat → K) : image R n v k = ∑ l ∈ range (n - k), R k (k + l) * v (k + l) := by
  unfold image
  obtain ⟨m, rfl⟩ : ∃ m, n = k + m := ⟨n - k, by omega⟩
  rw [sum_range_add, sum_eq_zero, zero_add, Nat.add_sub_cancel_left]
  · apply sum_congr rfl
    intro l hl
    unfold above
    rw [if_pos (by omega)]
  · intro l hl
    rw [mem_range] at hl
    unfold above
    rw [if_neg (by omega), zero_mul]

/-- The vector returned by `estsv` has norm 1 and its image by the upper triangular matrix has the returned norm, in exact arithmetic, whatever the matrix (even if it is singular). -/
theorem estsv_spec (hsqrt : ∀ a : K, 0 ≤ a → 0 ≤ CMath.sqrt a ∧ CMath.sqrt a * CMath.sqrt a = a) {n : Nat} (hn : 1 ≤ n) {r ldr z : Int} (hl : (n : Int) ≤ ldr)
    (hs : ∀ i j, i ≤ j → j < n → ¬vec z n (elem r ldr i j)) (mem : Mem K) :
    let R := fun i j => mem (elem r ldr i j)
    let res := estsv n r ldr z mem
    0 ≤ res.1 ∧ sq n (at1 res.2 z) = 1 ∧ sq n (image R n (at1 res.2 z)) = res.1 * res.1 := by
  intro R res
  have hr : res = estsv n r ldr z mem := rfl
  clear_value res
  unfold estsv at hr
  dsimp only at hr
  rw [if_pos (show (n : Int) > 0 by omega), at2_elem r ldr 0 0 (by norm_num) (by norm_num), sub_self, add_zero] at hr
  generalize hm0 : forUp 0 (n : Int) 1 (fun k mem => put mem (z + k) 0) mem = m0 at hr
  have hz0 : ∀ k < n, m0 (z + k) = 0 := by
    intro k hk
    rw [← hm0, forUp_one]
    obtain ⟨h1, -⟩ := loop_store (fun k => z + (k : Int)) (fun _ _ => (0 : K)) (fun _ => 0) (n : Int).toNat mem (fun i k hik _ => by omega) (fun k hk m' hm => rfl)
    exact h1 k (by omega)
  have hf0 : ∀ p, ¬vec z n p → m0 p = mem p := by
    intro p hp
    rw [← hm0, forUp_one]
    exact loop_frame (fun k => z + k) (fun _ _ => 0) _ _ _ fun k hk h => hp ⟨k, by omega, h⟩
  have e00 : m0 (elem r ldr 0 0) = R 0 0 := hf0 _ (hs 0 0 le_rfl (by omega))
  rw [e00, ExactMath.fabs_eq] at hr
  by_cases hR : R 0 0 = 0
  · rw [if_pos (abs_eq_zero.2 hR)] at hr
    subst hr
    have hv : ∀ k < n, at1 (put m0 z 1) z k = if k = 0 then 1 else 0 := by
      intro k hk
      unfold at1
      split
      · rename_i h; subst h; rw [show z + ((0 : Nat) : Int) = z by simp, put_same]
      · rw [put_other _ _ (by omega), hz0 k hk]
    refine ⟨le_rfl, ?_, ?_⟩
    · rw [sq_congr hv]
      unfold sq
      rw [sum_eq_single_of_mem 0 (mem_range.2 (by omega))]
      · simp
      · intro b _ hb
        dsimp only
        rw [if_neg hb, zero_mul]
    · rw [mul_zero]
      unfold sq
      apply sum_eq_zero
      intro k hk
      rw [mem_range] at hk
      have : image R n (at1 (put m0 z 1) z) k = 0 := by
        unfold image
        apply sum_eq_zero
        intro l hl
        rw [hv l (mem_range.1 hl)]
        split
        · rename_i h0
          subst h0
          unfold above
          split
          · rename_i hk0
            obtain rfl : k = 0 := by omega
            rw [hR, zero_mul]
          · rw [zero_mul]
        · rw [mul_zero]
      rw [this, zero_mul]
  rw [if_neg (fun h => hR (abs_eq_zero.1 h))] at hr
  -- forward substitution
  generalize hfw : forUp 1 ((n : Int) + 1) 1 (estsvForward n r ldr z) (|R 0 0|, m0) = fw at hr
  have hF : (∃ k < n, fw.2 (z + k) ≠ 0) ∧ ∀ p, ¬vec z n p → fw.2 p = mem p := by
    rw [← hfw, forUp_nat]
    have key := loop_inv (f := fun (k : Nat) (st : K × Mem K) => estsvForward n r ldr z (1 + k) st) (s := (|R 0 0|, m0))
      (fun (i : Nat) (st : K × Mem K) => ((∃ k < i, st.2 (z + k) ≠ 0) ∨ (i = 0 ∧ st.1 ≠ 0 ∧ st.2 z = 0)) ∧ ∀ p, ¬vec z n p → st.2 p = mem p)
      ((n : Int) + 1 - 1).toNat ⟨Or.inr ⟨rfl, fun h => hR (abs_eq_zero.1 h), by have := hz0 0 (by omega); simpa using this⟩, hf0⟩ (by
        intro i hi st ⟨h1, h2⟩
        rw [show (1 : Int) + i = i + 1 by ring]
        refine ⟨Or.inl (forward_ne r ldr z hs (by omega) st h1), fun p hp => ?_⟩
        rw [forward_frame r ldr z (by omega) st hp, h2 p hp])
    refine ⟨?_, key.2⟩
    rcases key.1 with ⟨k, hk, h⟩ | ⟨h, -⟩
    · exact ⟨k, by omega, h⟩
    · omega
  obtain ⟨hN0, hN⟩ := nrm2_one hsqrt n z fw.2
  generalize hNe : nrm2 (n : Int) z 1 fw.2 = N at hr hN0 hN
  -- back substitution
  generalize hbw : forDown (n : Int) 0 (estsvBackward n r ldr z) (N, fw.2) = bw at hr
  have hB : (∃ s, Back R (at1 fw.2 z) N n 0 z bw s ∧ Alive n 0 z bw s) := by
    rw [← hbw]
    unfold forDown
    have key := loop_inv (f := fun (k : Nat) (st : K × Mem K) => estsvBackward n r ldr z ((n : Int) - k) st) (s := (N, fw.2))
      (fun (i : Nat) (st : K × Mem K) => (∃ s, Back R (at1 fw.2 z) N n (n - i) z st s ∧ Alive n (n - i) z st s) ∧ ∀ p, ¬vec z n p → st.2 p = mem p)
      ((n : Int) - 0).toNat ⟨⟨1, ⟨zero_le_one, (mul_one N).symm, fun k h1 h2 => by omega, fun k hk => by rw [Nat.sub_zero, Nat.sub_self, sum_range_zero, add_zero, one_mul]; rfl⟩, Or.inl one_pos⟩, hF.2⟩ (by
        intro i hi st ⟨⟨s, h1, h1'⟩, h2⟩
        obtain ⟨c, hc⟩ : ∃ c, n = c + 1 + i := ⟨n - 1 - i, by omega⟩
        rw [show (n : Int) - i = (c : Int) + 1 by omega, show n - (i + 1) = c by omega]
        rw [show n - i = c + 1 by omega] at h1 h1'
        refine ⟨?_, fun p hp => by rw [backward_frame r ldr z (by omega) st hp, h2 p hp]⟩
        have ec : st.2 (elem r ldr c c) = R c c := h2 _ (hs c c le_rfl (by omega))
        unfold estsvBackward
        rw [at2_elem r ldr c c rfl rfl, show z + ((c : Int) + 1 - 1) = z + c by ring, ec]
        obtain ⟨s', b1, b2, b3⟩ := reduce_back (by omega) h1 h1'
        refine ⟨s', retreat_back (by omega) hl hs ?_ b1 b2 b3⟩
        intro k hk
        have hv := hs k c hk (by omega)
        rw [reduce_frame z _ _ _ hv, h2 _ hv])
    have := key.1
    rw [show n - ((n : Int) - 0).toNat = 0 by omega] at this
    exact this
  obtain ⟨s, hB, hA⟩ := hB
  have himg : ∀ k < n, image R n (at1 bw.2 z) k = s * at1 fw.2 z k := by
    intro k hk
    rw [image_eq R hk]
    exact hB.solved k hk (by omega)
  have hnz : ∃ k < n, bw.2 (z + k) ≠ 0 := by
    rcases hA with hpos | ⟨k, hk, -, h⟩
    · obtain ⟨k, hk, hY⟩ := hF.1
      by_contra hall
      push Not at hall
      have := himg k hk
      unfold image at this
      rw [sum_eq_zero] at this
      · exact mul_ne_zero hpos.ne' hY this.symm
      · intro l hl
        unfold at1
        rw [hall l (mem_range.1 hl), mul_zero]
    · exact ⟨k, hk, h⟩
  obtain ⟨hZ0, hZ⟩ := nrm2_one hsqrt n z bw.2
  generalize hZe : nrm2 (n : Int) z 1 bw.2 = Z at hr hZ0 hZ
  have hZn : Z ≠ 0 := by
    intro h
    rw [h, mul_zero] at hZ
    obtain ⟨k, hk, hne⟩ := hnz
    exact hne (sq_eq_zero hZ.symm k hk)
  subst hr
  have hv : ∀ k < n, at1 (scal (n : Int) (1 / Z) z 1 bw.2) z k = 1 / Z * at1 bw.2 z k := scal_one n _ z bw.2
  dsimp only
  refine ⟨?_, ?_, ?_⟩
  · rw [hB.norm]
    exact mul_nonneg (mul_nonneg hN0 hB.nonneg) (by positivity)
  · rw [sq_congr hv, sq_smul, ← hZ]
    field_simp
  · have : ∀ k < n, image R n (at1 (scal (n : Int) (1 / Z) z 1 bw.2) z) k = (1 / Z * s) * at1 fw.2 z k := by
      intro k hk
      rw [mul_assoc, ← himg k hk]
      unfold image
      rw [mul_sum]
      apply sum_congr rfl
      intro l hl
      rw [hv l (mem_range.1 hl)]
      ring
    rw [sq_congr this, sq_smul, ← hN, hB.norm]
    ring

end
end Opk.Gqt
