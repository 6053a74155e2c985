import Verif.Linalg.Gemm
import Verif.Linalg.Trmv
import Verif.Linalg.Gram
/-!
# Cholesky factorization

What `potf2` computes: it succeeds exactly for the positive definite matrices and then yields the factor.
-/
set_option linter.unusedSectionVars false
set_option linter.unusedSimpArgs false
set_option linter.constructorNameAsVariable false
set_option linter.unusedTactic false
namespace Opk.Linalg
open Finset

/-- Address of the element of the factor which is (for `i ≤ j`) at row `i` and column `j` of `U`, or at row `j` and column `i` of `L`. -/
def half (uplo : Uplo) (a lda : Int) (i j : Nat) : Int := if uplo = .upper then elem a lda i j else elem a lda j i

theorem half_ne {uplo : Uplo} {a lda : Int} {i j i' j' : Nat} (hi : (i : Int) < lda) (hi' : (i' : Int) < lda) (hj : (j : Int) < lda) (hj' : (j' : Int) < lda)
    (h : i ≠ i' ∨ j ≠ j') : half uplo a lda i j ≠ half uplo a lda i' j' := by
  unfold half
  split
  · exact elem_ne hi hi' h
  · exact elem_ne hj hj' h.symm

/-- One iteration of `potf2`. -/
def potf2Body {F : Type} [Add F] [Sub F] [Mul F] [Div F] [Neg F] [Zero F] [One F] [DecidableEq F] [LE F] [DecidableLE F] [CMath F]
    (uplo : Uplo) (n a lda : Int) (j : Int) (mem : Mem F) : (Int × Mem F) ⊕ Mem F :=
  if uplo = .upper then potf2Upper n a lda j mem else potf2Lower n a lda j mem

section any
variable {F : Type} [Add F] [Sub F] [Mul F] [Div F] [Neg F] [Zero F] [One F] [DecidableEq F]

theorem scal_frame (n : Int) (a : F) (x : Int) {incx : Int} (mem : Mem F) (p : Int) (hp : ∀ k : Nat, k < n → p ≠ slot x n incx k) :
    scal n a x incx mem p = mem p := by
  unfold scal
  dsimp only
  by_cases h0 : n ≤ 0 ∨ a = 1
  · rw [if_pos h0]
  rw [if_neg h0]
  have hn : 0 ≤ n := by by_contra h; exact h0 (Or.inl (by omega))
  have gen : ∀ f : Nat → Mem F → F, loop (fun k m => put m (slot x n incx k) (f k m)) n.toNat mem p = mem p :=
    fun f => loop_frame _ _ _ _ _ fun k hk => hp k (by omega)
  by_cases h1 : incx = 1
  · subst h1
    simp only [if_true, unroll8a_eq hn]
    simp only [slot_one] at gen
    split
    · exact gen fun _ _ => 0
    split
    · exact gen fun k m => -m (x + k)
    · exact gen fun k m => m (x + k) * a
  · rw [if_neg h1]
    by_cases h2 : incx > 0
    · simp only [if_pos h2, forUp_mul h2]
      simp only [slot_nonneg (show 0 ≤ incx by omega)] at gen
      split
      · exact gen fun _ _ => 0
      split
      · exact gen fun k m => -m (x + k * incx)
      · exact gen fun k m => m (x + k * incx) * a
    · rw [if_neg h2]

variable [LE F] [DecidableLE F] [CMath F]

theorem corner (a lda : Int) (i j : Nat) : a + ((i : Int) + 1 - 1 + lda * ((j : Int) + 1 - 1)) = elem a lda i j := by
  unfold elem; ring

theorem slot_row (a : Int) {lda : Int} (hl : 1 ≤ lda) (n : Int) (i j k : Nat) : slot (elem a lda i j) n lda k = elem a lda i (j + k) := by
  rw [slot_nonneg (by omega)]
  unfold elem
  push_cast
  ring

theorem slot_col (a lda : Int) (n : Int) (i j k : Nat) : slot (elem a lda i j) n 1 k = elem a lda (i + k) j := by
  rw [slot_one]
  unfold elem
  push_cast
  ring

theorem elem_elem (a lda : Int) (i j i' j' : Nat) : elem (elem a lda i j) lda i' j' = elem a lda (i + i') (j + j') := by
  unfold elem
  push_cast
  ring

/-- An iteration only modifies the elements of a row of `U` (or a column of `L`), in any arithmetic. -/
theorem potf2Body_frame (uplo : Uplo) {n c : Nat} (a lda : Int) (hl : 1 ≤ lda) (mem : Mem F) (hc : c < n) (p : Int)
    (hp : ∀ j, c ≤ j → j < n → p ≠ half uplo a lda c j) :
    match potf2Body uplo n a lda (c + 1) mem with
    | .inl r => r.2 p = mem p
    | .inr m => m p = mem p := by
  have put_ne : ∀ (m : Mem F) (v : F), put m (half uplo a lda c c) v p = m p := by
    intro m v; unfold put; rw [if_neg (hp c le_rfl hc)]
  unfold potf2Body
  by_cases hu : uplo = .upper
  · simp only [if_pos hu]
    have e0 : half uplo a lda c c = elem a lda c c := by unfold half; rw [if_pos hu]
    rw [e0] at put_ne
    unfold potf2Upper
    simp only [corner]
    split
    · rename_i heq
      split_ifs at heq with h1 h2
      · cases heq
        exact put_ne _ _
    · rename_i heq
      split_ifs at heq with h1 h2
      · cases heq
        have e1 : a + ((c : Int) + 1 - 1 + lda * ((c : Int) + 1 + 1 - 1)) = elem a lda c (c + 1) := by unfold elem; push_cast; ring
        rw [e1, scal_frame, gemv_frame, put_ne]
        · intro k hk
          have hk' : (k : Int) < n - (c + 1) := hk
          rw [slot_row a hl]
          have := hp (c + 1 + k) (by omega) (by omega)
          unfold half at this
          rwa [if_pos hu] at this
        · intro k hk
          rw [slot_row a hl]
          have := hp (c + 1 + k) (by omega) (by omega)
          unfold half at this
          rwa [if_pos hu] at this
      · cases heq
        exact put_ne _ _
  · simp only [if_neg hu]
    have e0 : half uplo a lda c c = elem a lda c c := by unfold half; rw [if_neg hu]
    rw [e0] at put_ne
    unfold potf2Lower
    simp only [corner]
    split
    · rename_i heq
      split_ifs at heq with h1 h2
      · cases heq
        exact put_ne _ _
    · rename_i heq
      split_ifs at heq with h1 h2
      · cases heq
        have e1 : a + ((c : Int) + 1 + 1 - 1 + lda * ((c : Int) + 1 - 1)) = elem a lda (c + 1) c := by unfold elem; push_cast; ring
        rw [e1, scal_frame, gemv_frame, put_ne]
        · intro k hk
          have hk' : (k : Int) < n - (c + 1) := hk
          rw [slot_col]
          have := hp (c + 1 + k) (by omega) (by omega)
          unfold half at this
          rwa [if_neg hu] at this
        · intro k hk
          rw [slot_col]
          have := hp (c + 1 + k) (by omega) (by omega)
          unfold half at this
          rwa [if_neg hu] at this
      · cases heq
        exact put_ne _ _

/-- The code is the number of the iteration. -/
theorem potf2Body_code (uplo : Uplo) (n a lda j : Int) (mem : Mem F) {r : Int × Mem F} (h : potf2Body uplo n a lda j mem = .inl r) : r.1 = j := by
  unfold potf2Body potf2Upper potf2Lower at h
  dsimp only at h
  split_ifs at h <;> (cases h; rfl)

/-- The loop with `return`: an invariant. -/
theorem forReturn_inv {body : Int → Mem F → (Int × Mem F) ⊕ Mem F} {n : Nat} {mem : Mem F} (P : Nat → Mem F → Prop) (Q : Int × Mem F → Prop) (h0 : P 0 mem)
    (hs : ∀ c < n, ∀ m, P c m → match body (c + 1) m with | .inl r => Q r | .inr m' => P (c + 1) m') :
    Q (forReturn body 1 n mem) ∨ ∃ m, forReturn body 1 n mem = (0, m) ∧ P n m := by
  unfold forReturn
  rw [show ((n : Int) + 1 - 1).toNat = n by omega]
  have key := loop_inv (f := fun k (st : (Int × Mem F) ⊕ Mem F) => match st with | .inl r => .inl r | .inr mem => body (1 + k) mem) (s := .inr mem)
    (fun c st => match st with | .inl r => Q r | .inr m => P c m) n h0 (by
      intro c hc st hst
      cases st with
      | inl r => exact hst
      | inr m =>
        have := hs c hc m hst
        rw [add_comm] at this
        exact this)
  revert key
  generalize loop (fun k (st : (Int × Mem F) ⊕ Mem F) => match st with | .inl r => .inl r | .inr mem => body (1 + k) mem) n (.inr mem) = st
  intro key
  cases st with
  | inl r => exact Or.inl key
  | inr m => exact Or.inr ⟨m, rfl, key⟩

/-- C46: the returned code for illegal arguments; then nothing is modified.  With `n = 0` the first argument is not checked. -/
theorem potf2_code (uplo : Uplo) (n a lda : Int) (mem : Mem F) :
    (n < 0 → potf2 uplo n a lda mem = (-2, mem)) ∧ (0 ≤ n → lda < max 1 n → potf2 uplo n a lda mem = (-4, mem)) ∧
    (n = 0 → 1 ≤ lda → potf2 uplo n a lda mem = (0, mem)) ∧ (0 < n → n ≤ lda → ¬uplo.valid → potf2 uplo n a lda mem = (-1, mem)) := by
  unfold potf2
  refine ⟨fun h => by rw [if_pos h], fun h1 h2 => by rw [if_neg (by omega), if_pos (by omega)],
    fun h1 h2 => by rw [if_neg (by omega), if_neg (by omega), if_pos h1], fun h1 h2 h3 => ?_⟩
  rw [if_neg (by omega), if_neg (by omega), if_neg (by omega)]
  unfold Uplo.valid at h3
  split at h3
  · rfl
  · exact absurd trivial h3

theorem potf2_body {uplo : Uplo} (hu : uplo.valid) {n : Nat} (hn : 0 < n) (a : Int) {lda : Int} (hl : (n : Int) ≤ lda) (mem : Mem F) :
    potf2 uplo n a lda mem = forReturn (potf2Body uplo n a lda) 1 n mem := by
  unfold potf2 potf2Body
  rw [if_neg (by omega), if_neg (by omega), if_neg (by omega)]
  cases uplo with
  | upper => rfl
  | lower => rfl
  | other v => exact hu.elim

/-- C46: only the elements of one triangle are modified, and the code is between 0 and `n`, in any arithmetic. -/
theorem potf2_frame {uplo : Uplo} (hu : uplo.valid) {n : Nat} (a : Int) {lda : Int} (hl : max 1 (n : Int) ≤ lda) (mem : Mem F) :
    0 ≤ (potf2 uplo n a lda mem).1 ∧ (potf2 uplo n a lda mem).1 ≤ n ∧
    ∀ p, (∀ i j : Nat, i < n → j < n → (if uplo = .upper then i ≤ j else j ≤ i) → p ≠ elem a lda i j) → (potf2 uplo n a lda mem).2 p = mem p := by
  rcases Nat.eq_zero_or_pos n with h0 | hn
  · subst h0
    rw [(potf2_code uplo ((0 : Nat) : Int) a lda mem).2.2.1 rfl (by omega)]
    exact ⟨le_rfl, le_rfl, fun _ _ => rfl⟩
  rw [potf2_body hu hn a (by omega)]
  have hp' : ∀ p, (∀ i j : Nat, i < n → j < n → (if uplo = .upper then i ≤ j else j ≤ i) → p ≠ elem a lda i j) →
      ∀ c j, c ≤ j → j < n → p ≠ half uplo a lda c j := by
    intro p hp c j h1 h2
    unfold half
    split
    · rename_i h
      exact hp c j (by omega) h2 (by rw [if_pos h]; exact h1)
    · rename_i h
      exact hp j c h2 (by omega) (by rw [if_neg h]; exact h1)
  have key := forReturn_inv (body := potf2Body uplo n a lda) (n := n) (mem := mem)
    (fun c m => ∀ p, (∀ i j : Nat, i < n → j < n → (if uplo = .upper then i ≤ j else j ≤ i) → p ≠ elem a lda i j) → m p = mem p)
    (fun r => 0 ≤ r.1 ∧ r.1 ≤ n ∧ ∀ p, (∀ i j : Nat, i < n → j < n → (if uplo = .upper then i ≤ j else j ≤ i) → p ≠ elem a lda i j) → r.2 p = mem p)
    (fun _ _ => rfl) (by
      intro c hc m hm
      have hf := fun p hp => potf2Body_frame uplo a lda (by omega) m hc p hp
      have hcode := fun r => potf2Body_code uplo n a lda (c + 1) m (r := r)
      revert hf hcode
      generalize potf2Body uplo n a lda (c + 1) m = st
      intro hf hcode
      cases st with
      | inl r =>
        refine ⟨?_, ?_, ?_⟩
        · rw [hcode r rfl]; omega
        · rw [hcode r rfl]; omega
        · intro p hp
          rw [hf p fun j h1 h2 => hp' p hp c j h1 h2, hm p hp]
      | inr m' =>
        intro p hp
        rw [hf p fun j h1 h2 => hp' p hp c j h1 h2, hm p hp])
  rcases key with h | ⟨m, h1, h2⟩
  · exact h
  · rw [h1]
    exact ⟨le_rfl, by omega, h2⟩

end any

section exact
variable {K : Type} [Field K] [LinearOrder K] [IsStrictOrderedRing K] [CMath K]

/-- One iteration: the pivot, then the row of `U` (or the column of `L`). -/
theorem potf2Body_spec {uplo : Uplo} {n c : Nat} (a : Int) {lda : Int} (hl : max 1 (n : Int) ≤ lda) (mem : Mem K) (hc : c < n) :
    let P := half uplo a lda
    let d := mem (P c c) - ∑ l ∈ range c, mem (P l c) * mem (P l c)
    if d ≤ 0 then potf2Body uplo n a lda (c + 1) mem = .inl (c + 1, put mem (P c c) d)
    else ∃ m, potf2Body uplo n a lda (c + 1) mem = .inr m ∧ m (P c c) = CMath.sqrt d ∧
      ∀ j, c < j → j < n → m (P c j) = 1 / CMath.sqrt d * (mem (P c j) - ∑ l ∈ range c, mem (P l j) * mem (P l c)) := by
  intro P d
  have hl1 : 1 ≤ lda := by omega
  unfold potf2Body
  by_cases hu : uplo = .upper
  · rw [if_pos hu]
    have hP : ∀ i j, P i j = elem a lda i j := fun i j => by show half uplo a lda i j = _; unfold half; rw [if_pos hu]
    have hd : d = mem (elem a lda c c) - ∑ l ∈ range c, mem (elem a lda l c) * mem (elem a lda l c) := by
      show mem (P c c) - ∑ l ∈ range c, mem (P l c) * mem (P l c) = _
      simp only [hP]
    have e1 : a + ((1 : Int) - 1 + lda * ((c : Int) + 1 - 1)) = elem a lda 0 c := by unfold elem; push_cast; ring
    have e2 : a + ((1 : Int) - 1 + lda * ((c : Int) + 1 + 1 - 1)) = elem a lda 0 (c + 1) := by unfold elem; push_cast; ring
    have e3 : a + ((c : Int) + 1 - 1 + lda * ((c : Int) + 1 + 1 - 1)) = elem a lda c (c + 1) := by unfold elem; push_cast; ring
    have hdot : mem (elem a lda c c) - dot ((c : Int) + 1 - 1) (elem a lda 0 c) 1 (elem a lda 0 c) 1 mem = d := by
      rw [dot_spec, hd]
      simp only [slot_col, zero_add, add_sub_cancel_right, Int.toNat_natCast]
    unfold potf2Upper
    simp only [corner, e1, e2, e3, hdot, hP]
    split
    · rfl
    · by_cases hj : (c : Int) + 1 < n
      · rw [if_pos hj]
        refine ⟨_, rfl, ?_, ?_⟩
        · rw [scal_frame, gemv_frame, put_self]
          · intro k hk
            rw [slot_row a hl1]
            exact elem_ne (by omega) (by omega) (Or.inr (by omega))
          · intro k hk
            rw [slot_row a hl1]
            exact elem_ne (by omega) (by omega) (Or.inr (by omega))
        · intro j hj1 hj2
          obtain ⟨k, rfl⟩ : ∃ k, j = c + 1 + k := ⟨j - (c + 1), by omega⟩
          have hk : ((k : Nat) : Int) < n - (c + 1) := by omega
          have := (scal_spec (n := (n : Int) - (c + 1)) (a := 1 / CMath.sqrt d) (x := elem a lda c (c + 1)) hl1
            (gemv .trans ((c : Int) + 1 - 1) (n - (c + 1)) (-1) (elem a lda 0 (c + 1)) lda (elem a lda 0 c) 1 1 (elem a lda c (c + 1)) lda (put mem (elem a lda c c) (CMath.sqrt d))).2).1 k hk
          rw [slot_row a hl1] at this
          rw [this]
          congr 1
          rcases Nat.eq_zero_or_pos c with h0 | hpos
          · rw [gemv_empty (Or.inl (by omega)), put_ne _ _ (elem_ne (by omega) (by omega) (Or.inr (by omega))), h0, sum_range_zero, sub_zero]
          · have hr : rows .trans ((c : Int) + 1 - 1) (n - (c + 1)) = n - (c + 1) := rfl
            have hcl : cols .trans ((c : Int) + 1 - 1) (n - (c + 1)) = c := by unfold cols; rw [if_neg (by decide)]; ring
            have g := gemv_spec (trans := .trans) (m := (c : Int) + 1 - 1) (n := n - (c + 1)) (lda := lda) (incx := 1) (incy := lda) trivial (by omega) (by omega) (by omega)
              (by decide) (by omega) (-1 : K) 1 (elem a lda 0 (c + 1)) (elem a lda 0 c) (elem a lda c (c + 1)) (put mem (elem a lda c c) (CMath.sqrt d))
              (by
                intro i k hi hk
                rw [hcl] at hi
                rw [hr] at hk
                rw [slot_row a hl1, slot_col]
                exact elem_ne (by omega) (by omega) (Or.inl (by omega)))
              (by
                intro i j k hi hj hk
                rw [hr] at hk
                rw [slot_row a hl1, elem_elem]
                exact elem_ne (by omega) (by omega) (Or.inl (by omega))) (k := k) (by rw [hr]; exact hk)
            rw [slot_row a hl1] at g
            rw [g, hcl, Int.toNat_natCast, put_ne _ _ (elem_ne (by omega) (by omega) (Or.inr (by omega))), sub_eq_neg_add, one_mul, neg_one_mul]
            congr 2
            apply sum_congr rfl
            intro l hl'
            rw [mem_range] at hl'
            unfold opElem
            rw [if_neg (by decide), elem_elem, slot_col, put_ne _ _ (elem_ne (by omega) (by omega) (Or.inl (by omega))),
              put_ne _ _ (elem_ne (by omega) (by omega) (Or.inl (by omega))), zero_add]
      · rw [if_neg hj]
        exact ⟨_, rfl, put_self _ _ _, fun j h1 h2 => absurd h2 (by omega)⟩
  · rw [if_neg hu]
    have hP : ∀ i j, P i j = elem a lda j i := fun i j => by show half uplo a lda i j = _; unfold half; rw [if_neg hu]
    have hd : d = mem (elem a lda c c) - ∑ l ∈ range c, mem (elem a lda c l) * mem (elem a lda c l) := by
      show mem (P c c) - ∑ l ∈ range c, mem (P l c) * mem (P l c) = _
      simp only [hP]
    have e1 : a + ((c : Int) + 1 - 1 + lda * ((1 : Int) - 1)) = elem a lda c 0 := by unfold elem; push_cast; ring
    have e2 : a + ((c : Int) + 1 + 1 - 1 + lda * ((1 : Int) - 1)) = elem a lda (c + 1) 0 := by unfold elem; push_cast; ring
    have e3 : a + ((c : Int) + 1 + 1 - 1 + lda * ((c : Int) + 1 - 1)) = elem a lda (c + 1) c := by unfold elem; push_cast; ring
    have hdot : mem (elem a lda c c) - dot ((c : Int) + 1 - 1) (elem a lda c 0) lda (elem a lda c 0) lda mem = d := by
      rw [dot_spec, hd]
      simp only [slot_row a hl1, zero_add, add_sub_cancel_right, Int.toNat_natCast]
    unfold potf2Lower
    simp only [corner, e1, e2, e3, hdot, hP]
    split
    · rfl
    · by_cases hj : (c : Int) + 1 < n
      · rw [if_pos hj]
        refine ⟨_, rfl, ?_, ?_⟩
        · rw [scal_frame, gemv_frame, put_self]
          · intro k hk
            rw [slot_col]
            exact elem_ne (by omega) (by have : (k : Int) < n - (c + 1) := hk; omega) (Or.inl (by omega))
          · intro k hk
            rw [slot_col]
            exact elem_ne (by omega) (by omega) (Or.inl (by omega))
        · intro j hj1 hj2
          obtain ⟨k, rfl⟩ : ∃ k, j = c + 1 + k := ⟨j - (c + 1), by omega⟩
          have hk : ((k : Nat) : Int) < n - (c + 1) := by omega
          have := (scal_spec (n := (n : Int) - (c + 1)) (a := 1 / CMath.sqrt d) (x := elem a lda (c + 1) c) (incx := 1) le_rfl
            (gemv .noTrans (n - (c + 1)) ((c : Int) + 1 - 1) (-1) (elem a lda (c + 1) 0) lda (elem a lda c 0) lda 1 (elem a lda (c + 1) c) 1 (put mem (elem a lda c c) (CMath.sqrt d))).2).1 k hk
          rw [slot_col] at this
          rw [this]
          congr 1
          rcases Nat.eq_zero_or_pos c with h0 | hpos
          · rw [gemv_empty (Or.inr (by omega)), put_ne _ _ (elem_ne (by omega) (by omega) (Or.inl (by omega))), h0, sum_range_zero, sub_zero]
          · have hr : rows .noTrans ((n : Int) - (c + 1)) ((c : Int) + 1 - 1) = n - (c + 1) := rfl
            have hcl : cols .noTrans ((n : Int) - (c + 1)) ((c : Int) + 1 - 1) = c := by unfold cols; rw [if_pos rfl]; ring
            have g := gemv_spec (trans := .noTrans) (m := (n : Int) - (c + 1)) (n := (c : Int) + 1 - 1) (lda := lda) (incx := lda) (incy := 1) trivial (by omega) (by omega) (by omega)
              (by omega) (by decide) (-1 : K) 1 (elem a lda (c + 1) 0) (elem a lda c 0) (elem a lda (c + 1) c) (put mem (elem a lda c c) (CMath.sqrt d))
              (by
                intro i k hi hk
                rw [hcl] at hi
                rw [hr] at hk
                rw [slot_row a hl1, slot_col]
                exact elem_ne (by omega) (by omega) (Or.inr (by omega)))
              (by
                intro i j k hi hj hk
                rw [hr] at hk
                rw [slot_col, elem_elem]
                exact elem_ne (by omega) (by omega) (Or.inr (by omega))) (k := k) (by rw [hr]; exact hk)
            rw [slot_col] at g
            rw [g, hcl, Int.toNat_natCast, put_ne _ _ (elem_ne (by omega) (by omega) (Or.inl (by omega))), sub_eq_neg_add, one_mul, neg_one_mul]
            congr 2
            apply sum_congr rfl
            intro l hl'
            rw [mem_range] at hl'
            unfold opElem
            rw [if_pos rfl, elem_elem, slot_row a hl1, put_ne _ _ (elem_ne (by omega) (by omega) (Or.inr (by omega))),
              put_ne _ _ (elem_ne (by omega) (by omega) (Or.inr (by omega))), zero_add]
      · rw [if_neg hj]
        exact ⟨_, rfl, put_self _ _ _, fun j h1 h2 => absurd h2 (by omega)⟩

/-- The matrix whose triangle is stored at address `a`. -/
def stored (uplo : Uplo) (a lda : Int) (mem : Mem K) (i j : Nat) : K := mem (half uplo a lda i j)

/-- What the factorization yields: either it stops at a non positive pivot, or it ends with the factor. -/
theorem potf2_run (hsqrt : ∀ a : K, 0 ≤ a → 0 ≤ CMath.sqrt a ∧ CMath.sqrt a * CMath.sqrt a = a) {uplo : Uplo} (hu : uplo.valid) {n : Nat} (a : Int) {lda : Int}
    (hl : max 1 (n : Int) ≤ lda) (mem : Mem K) :
    let r := potf2 uplo n a lda mem
    (r.1 = 0 ∧ Factored (stored uplo a lda r.2) (stored uplo a lda mem) n n) ∨
    ∃ c < n, r.1 = c + 1 ∧ Factored (stored uplo a lda r.2) (stored uplo a lda mem) c n ∧
      stored uplo a lda r.2 c c = stored uplo a lda mem c c - ∑ l ∈ range c, stored uplo a lda r.2 l c * stored uplo a lda r.2 l c ∧ stored uplo a lda r.2 c c ≤ 0 := by
  intro r
  have hr : r = potf2 uplo n a lda mem := rfl
  clear_value r
  rcases Nat.eq_zero_or_pos n with h0 | hn
  · subst h0
    rw [(potf2_code uplo ((0 : Nat) : Int) a lda mem).2.2.1 rfl (by omega)] at hr
    subst hr
    exact Or.inl ⟨rfl, fun i j h => absurd h (by omega), fun i h => absurd h (by omega)⟩
  rw [potf2_body hu hn a (by omega)] at hr
  have key := forReturn_inv (body := potf2Body uplo n a lda) (n := n) (mem := mem)
    (fun c m => Factored (stored uplo a lda m) (stored uplo a lda mem) c n ∧ ∀ i j, c ≤ i → i ≤ j → j < n → m (half uplo a lda i j) = mem (half uplo a lda i j))
    (fun r => ∃ c < n, r.1 = c + 1 ∧ Factored (stored uplo a lda r.2) (stored uplo a lda mem) c n ∧
      stored uplo a lda r.2 c c = stored uplo a lda mem c c - ∑ l ∈ range c, stored uplo a lda r.2 l c * stored uplo a lda r.2 l c ∧ stored uplo a lda r.2 c c ≤ 0)
    ⟨⟨fun i j h => absurd h (by omega), fun i h => absurd h (by omega)⟩, fun _ _ _ _ _ => rfl⟩
    (by
      intro c hc m ⟨hF, hm⟩
      have hf := fun p => potf2Body_frame uplo a lda (by omega) m hc p
      have hb := potf2Body_spec (uplo := uplo) a hl m hc
      dsimp only at hb
      by_cases hd : m (half uplo a lda c c) - ∑ l ∈ range c, m (half uplo a lda l c) * m (half uplo a lda l c) ≤ 0
      · rw [if_pos hd] at hb
        rw [hb]
        have agree : ∀ i j, i < c → j < n → stored uplo a lda (put m (half uplo a lda c c) (m (half uplo a lda c c) - ∑ l ∈ range c, m (half uplo a lda l c) * m (half uplo a lda l c))) i j
            = stored uplo a lda m i j := fun i j hi hj => put_ne _ _ (half_ne (by omega) (by omega) (by omega) (by omega) (Or.inl (by omega)))
        refine ⟨c, hc, rfl, ⟨?_, ?_⟩, ?_, ?_⟩
        · intro i j hi hij hj
          rw [← hF.1 i j hi hij hj]
          apply sum_congr rfl
          intro l hl'
          rw [mem_range] at hl'
          rw [agree l i (by omega) (by omega), agree l j (by omega) (by omega)]
        · intro i hi
          rw [agree i i hi (by omega)]
          exact hF.2 i hi
        · have : ∑ l ∈ range c, stored uplo a lda (put m (half uplo a lda c c) (m (half uplo a lda c c) - ∑ l ∈ range c, m (half uplo a lda l c) * m (half uplo a lda l c))) l c *
              stored uplo a lda (put m (half uplo a lda c c) (m (half uplo a lda c c) - ∑ l ∈ range c, m (half uplo a lda l c) * m (half uplo a lda l c))) l c
              = ∑ l ∈ range c, m (half uplo a lda l c) * m (half uplo a lda l c) := by
            apply sum_congr rfl
            intro l hl'
            rw [mem_range] at hl'
            rw [agree l c hl' hc]
            rfl
          rw [this]
          refine (put_self _ _ _).trans ?_
          rw [hm c c le_rfl le_rfl hc]
          rfl
        · exact (put_self _ _ _).trans_le hd
      · rw [if_neg hd] at hb
        obtain ⟨m', e, hdiag, hrow⟩ := hb
        simp only [e] at hf
        rw [e]
        have agree : ∀ i j, i ≠ c → i < n → j < n → m' (half uplo a lda i j) = m (half uplo a lda i j) := by
          intro i j hi hi' hj
          exact hf _ fun k h1 h2 => half_ne (by omega) (by omega) (by omega) (by omega) (Or.inl hi)
        generalize hdd : m (half uplo a lda c c) - ∑ l ∈ range c, m (half uplo a lda l c) * m (half uplo a lda l c) = d at hd hdiag hrow
        have hd0 : 0 < d := not_le.1 hd
        obtain ⟨hs0, hs2⟩ := hsqrt d hd0.le
        have hsp : 0 < CMath.sqrt d := by
          rcases hs0.lt_or_eq with h | h
          · exact h
          · rw [← h, mul_zero] at hs2
            exact absurd hs2 hd0.ne
        refine ⟨⟨?_, ?_⟩, ?_⟩
        · intro i j hi hij hj
          rcases Nat.lt_or_ge i c with hic | hic
          · rw [← hF.1 i j hic hij hj]
            apply sum_congr rfl
            intro l hl'
            rw [mem_range] at hl'
            unfold stored
            rw [agree l i (by omega) (by omega) (by omega), agree l j (by omega) (by omega) (by omega)]
          · obtain rfl : i = c := by omega
            rw [sum_range_succ]
            have : ∑ l ∈ range i, stored uplo a lda m' l i * stored uplo a lda m' l j = ∑ l ∈ range i, m (half uplo a lda l j) * m (half uplo a lda l i) := by
              apply sum_congr rfl
              intro l hl'
              rw [mem_range] at hl'
              unfold stored
              rw [agree l i (by omega) (by omega) (by omega), agree l j (by omega) (by omega) (by omega), mul_comm]
            rw [this]
            have hd' : stored uplo a lda m' i i = CMath.sqrt d := hdiag
            rw [hd']
            rcases Nat.lt_or_ge i j with hij' | hij'
            · have hj' : stored uplo a lda m' i j = _ := hrow j hij' hj
              rw [hj', hm i j le_rfl hij hj]
              have := hsp.ne'
              show _ = mem (half uplo a lda i j)
              field_simp
              ring
            · obtain rfl : j = i := by omega
              rw [hd', hs2, ← hdd, hm j j le_rfl le_rfl hj]
              show _ = mem (half uplo a lda j j)
              ring
        · intro i hi
          rcases Nat.lt_or_ge i c with hic | hic
          · have := hF.2 i hic
            unfold stored at this ⊢
            rwa [agree i i (by omega) (by omega) (by omega)]
          · obtain rfl : i = c := by omega
            have hd' : stored uplo a lda m' i i = CMath.sqrt d := hdiag
            rw [hd']
            exact hsp
        · intro i j hi hij hj
          rw [agree i j (by omega) (by omega) hj]
          exact hm i j (by omega) hij hj)
  rw [← hr] at key
  rcases key with ⟨c, h⟩ | ⟨m, e, h⟩
  · exact Or.inr ⟨c, h⟩
  · left
    rw [e]
    exact ⟨rfl, h.1⟩

/-- C46: when the returned code is 0 the triangle holds the factor, whose diagonal is positive, and no other matrix is such a factor. -/
theorem potf2_factor (hsqrt : ∀ a : K, 0 ≤ a → 0 ≤ CMath.sqrt a ∧ CMath.sqrt a * CMath.sqrt a = a) {uplo : Uplo} (hu : uplo.valid) {n : Nat} (a : Int) {lda : Int}
    (hl : max 1 (n : Int) ≤ lda) (mem : Mem K) (h : (potf2 uplo n a lda mem).1 = 0) :
    let U := stored uplo a lda (potf2 uplo n a lda mem).2
    (∀ i j, i ≤ j → j < n → ∑ l ∈ range (i + 1), U l i * U l j = stored uplo a lda mem i j) ∧ (∀ i < n, 0 < U i i) ∧
    ∀ V, Factored V (stored uplo a lda mem) n n → ∀ i j, i ≤ j → j < n → U i j = V i j := by
  intro U
  rcases potf2_run hsqrt hu a hl mem with ⟨_, hF⟩ | ⟨c, _, h', _⟩
  · exact ⟨fun i j hij hj => hF.1 i j (by omega) hij hj, hF.2, fun V hV i j hij hj => hF.unique hV i (by omega) j hij hj⟩
  · omega

/-- C46: the returned code is 0 if and only if the matrix is positive definite, and `c + 1` if and only if the order of the first leading block which is not positive definite is `c + 1`. -/
theorem potf2_posDef (hsqrt : ∀ a : K, 0 ≤ a → 0 ≤ CMath.sqrt a ∧ CMath.sqrt a * CMath.sqrt a = a) {uplo : Uplo} (hu : uplo.valid) {n : Nat} (a : Int) {lda : Int}
    (hl : max 1 (n : Int) ≤ lda) (mem : Mem K) :
    ((potf2 uplo n a lda mem).1 = 0 ↔ PosDef (stored uplo a lda mem) n) ∧
    ∀ c : Nat, c < n → ((potf2 uplo n a lda mem).1 = c + 1 ↔ PosDef (stored uplo a lda mem) c ∧ ¬PosDef (stored uplo a lda mem) (c + 1)) := by
  rcases potf2_run hsqrt hu a hl mem with ⟨h0, hF⟩ | ⟨c, hc, h0, hF, hd, hd0⟩
  · have hP := hF.posDef le_rfl
    refine ⟨iff_of_true h0 hP, fun c hc => iff_of_false (by omega) fun h => h.2 (hP.mono (by omega))⟩
  · have hP := hF.posDef hc.le
    have hN : ¬PosDef (stored uplo a lda mem) (c + 1) := by
      intro h
      obtain ⟨v, hv, hq⟩ := hF.pivot hc
      have := h v ⟨c, by omega, by rw [hv]; exact one_ne_zero⟩
      rw [hq, ← hd] at this
      exact absurd hd0 (not_le.2 this)
    refine ⟨iff_of_false (by omega) fun h => hN (h.mono (by omega)), fun c' hc' => ?_⟩
    constructor
    · intro h
      obtain rfl : c' = c := by omega
      exact ⟨hP, hN⟩
    · intro ⟨h1, h2⟩
      rcases Nat.lt_trichotomy c' c with h | h | h
      · exact absurd (hP.mono (by omega)) h2
      · rw [h0, h]
      · exact absurd (h1.mono (by omega)) hN

/-- C46: the returned code is 0 if and only if all the leading minors are positive, and otherwise it is the order of the first one which is not. -/
theorem potf2_minor (hsqrt : ∀ a : K, 0 ≤ a → 0 ≤ CMath.sqrt a ∧ CMath.sqrt a * CMath.sqrt a = a) {uplo : Uplo} (hu : uplo.valid) {n : Nat} (a : Int) {lda : Int}
    (hl : max 1 (n : Int) ≤ lda) (mem : Mem K) :
    ((potf2 uplo n a lda mem).1 = 0 ↔ ∀ k ≤ n, 0 < minor (stored uplo a lda mem) k) ∧
    ∀ c : Nat, c < n → ((potf2 uplo n a lda mem).1 = c + 1 ↔ (∀ k ≤ c, 0 < minor (stored uplo a lda mem) k) ∧ minor (stored uplo a lda mem) (c + 1) ≤ 0) := by
  rcases potf2_run hsqrt hu a hl mem with ⟨h0, hF⟩ | ⟨c, hc, h0, hF, hd, hd0⟩
  · have hP := hF.minor_pos le_rfl
    exact ⟨iff_of_true h0 hP, fun c hc => iff_of_false (by omega) fun h => absurd h.2 (not_le.2 (hP _ (by omega)))⟩
  · have hP := hF.minor_pos hc.le
    have hN : minor (stored uplo a lda mem) (c + 1) ≤ 0 := by
      rw [hF.minor_succ hc, ← hd]
      exact mul_nonpos_of_nonneg_of_nonpos (sq_nonneg _) hd0
    refine ⟨iff_of_false (by omega) fun h => absurd hN (not_le.2 (h _ (by omega))), fun c' hc' => ?_⟩
    constructor
    · intro h
      obtain rfl : c' = c := by omega
      exact ⟨hP, hN⟩
    · intro ⟨h1, h2⟩
      rcases Nat.lt_trichotomy c' c with h | h | h
      · exact absurd h2 (not_le.2 (hP _ (by omega)))
      · rw [h0, h]
      · exact absurd hN (not_le.2 (h1 _ (by omega)))

end exact

/-! ### Examples -/
section examples

/-- A 3×3 matrix of leading dimension 4 at address 0: only its upper triangle is meaningful. -/
def cholMem : Mem ℚ := fun p =>
  match p with
  | 0 => 4 | 4 => 2 | 5 => 10 | 8 => -2 | 9 => 5 | 10 => 9 | _ => 99

/-- The factor is (2 1 -1; 0 3 2; 0 0 2), the other elements are unchanged. -/
example : (potf2 .upper 3 0 4 cholMem).1 = 0 ∧
    (List.range 12).map (fun p : Nat => (potf2 .upper 3 0 4 cholMem).2 p) = [2, 99, 99, 99, 1, 3, 99, 99, -1, 2, 2, 99] := by decide +kernel

/-- With the other triangle the leading block of order 2 (4 99; 99 10) is not positive definite: the code is 2. -/
example : (potf2 .lower 3 0 4 cholMem).1 = 2 := by decide +kernel

/-- The hypotheses of the theorems hold in real arithmetic. -/
example (n : Nat) (uplo : Uplo) (hu : uplo.valid) (mem : Mem ℝ) : (potf2 uplo n 0 (n + 1) mem).1 = 0 ↔ PosDef (stored uplo 0 (n + 1) mem) n :=
  (potf2_posDef (fun a ha => ⟨Real.sqrt_nonneg a, Real.mul_self_sqrt ha⟩) hu 0 (by omega) mem).1

end examples
end Opk.Linalg
