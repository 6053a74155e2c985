import Verif.Linalg.Gemv
import Mathlib.Algebra.BigOperators.Intervals
/-!
# Triangular matrices: loops

The sixteen loops of each of `trmv` and `trsv` are four loops on an upper triangular matrix:
those for a lower triangular matrix are the same with all indices reversed.
-/
set_option linter.unusedSectionVars false
set_option linter.unusedSimpArgs false
set_option linter.constructorNameAsVariable false
set_option linter.unusedTactic false
namespace Opk.Linalg
open Finset

section any
variable {F : Type} [Add F] [Sub F] [Mul F] [Div F] [Neg F] [Zero F] [One F] [DecidableEq F]

/-- `x := U*x`, the elements of `x` being at `X i` and those of `U` at `T i j`. -/
def mulN (X : Nat → Int) (T : Nat → Nat → Int) (nounit : Bool) (n : Nat) (mem : Mem F) : Mem F :=
  loop (fun j mem =>
    if mem (X j) ≠ 0 then
      let mem' := loop (fun i mem' => put mem' (X i) (mem' (X i) + mem (X j) * mem' (T i j))) j mem
      if nounit then put mem' (X j) (mem' (X j) * mem' (T j j)) else mem'
    else mem) n mem

/-- `x := U'*x`. -/
def mulT (X : Nat → Int) (T : Nat → Nat → Int) (nounit : Bool) (n : Nat) (mem : Mem F) : Mem F :=
  loop (fun k mem =>
    put mem (X (n - 1 - k)) (loop (fun l temp => temp + mem (T (n - 1 - k - 1 - l) (n - 1 - k)) * mem (X (n - 1 - k - 1 - l))) (n - 1 - k)
      (if nounit then mem (X (n - 1 - k)) * mem (T (n - 1 - k) (n - 1 - k)) else mem (X (n - 1 - k))))) n mem

/-- `x := inv(U)*x`. -/
def solN (X : Nat → Int) (T : Nat → Nat → Int) (nounit : Bool) (n : Nat) (mem : Mem F) : Mem F :=
  loop (fun k mem =>
    if mem (X (n - 1 - k)) ≠ 0 then
      let mem := if nounit then put mem (X (n - 1 - k)) (mem (X (n - 1 - k)) / mem (T (n - 1 - k) (n - 1 - k))) else mem
      loop (fun l mem' => put mem' (X (n - 1 - k - 1 - l)) (mem' (X (n - 1 - k - 1 - l)) - mem (X (n - 1 - k)) * mem' (T (n - 1 - k - 1 - l) (n - 1 - k))))
        (n - 1 - k) mem
    else mem) n mem

/-- `x := inv(U')*x`. -/
def solT (X : Nat → Int) (T : Nat → Nat → Int) (nounit : Bool) (n : Nat) (mem : Mem F) : Mem F :=
  loop (fun j mem =>
    let temp := loop (fun i temp => temp - mem (T i j) * mem (X i)) j (mem (X j))
    put mem (X j) (if nounit then temp / mem (T j j) else temp)) n mem

/-- Indices in the order of an upper triangular matrix. -/
def flip (upper : Bool) (n : Nat) (i : Nat) : Nat := if upper then i else n - 1 - i

theorem flip_flip {upper : Bool} {n i : Nat} (h : i < n) : flip upper n (flip upper n i) = i := by
  unfold flip; split <;> omega

theorem flip_lt {upper : Bool} {n i : Nat} (h : i < n) : flip upper n i < n := by
  unfold flip; split <;> omega

theorem forUp_nat {α : Type} (lo : Int) (hi : Int) (body : Int → α → α) (s : α) :
    forUp lo hi 1 body s = loop (fun k => body (lo + k)) (hi - lo).toNat s := by
  unfold forUp
  rw [trips_one]
  simp only [mul_one]

theorem trmvN_eq (upper nounit : Bool) {n : Nat} (hn : 0 < n) (a lda x incx : Int) (mem : Mem F) :
    trmvN upper nounit n a lda x (start0 n incx) incx mem
      = mulN (fun i => slot x n incx (flip upper n i)) (fun i j => elem a lda (flip upper n i) (flip upper n j)) nounit n mem := by
  unfold trmvN mulN flip elem
  cases upper with
  | true =>
    by_cases h : incx = 1
    · subst h
      simp only [if_true, forUp_nat, slot_one, sub_zero, zero_add, Int.toNat_natCast]
    · simp only [if_true, if_neg h, walkUp_loop, start_slot, sub_zero, zero_add, Int.toNat_natCast]
  | false =>
    have hc : ∀ k, k < n → ((n : Int) - 1 - k) = ((n - 1 - k : Nat) : Int) := by intro k hk; omega
    by_cases h : incx = 1
    · subst h
      simp only [if_true, forDown, slot_one, Bool.false_eq_true, if_false]
      rw [show ((n : Int) - 1 - -1).toNat = n by omega]
      apply loop_congr
      intro k hk m
      rw [hc k hk]
      split
      · have hb : ((n : Int) - 1 - ((n - 1 - k : Nat) : Int)).toNat = k := by omega
        rw [hb, loop_congr (g := fun (i : Nat) (mem' : Mem F) => put mem' (x + ((n - 1 - i : Nat) : Int)) (mem' (x + ((n - 1 - i : Nat) : Int)) + m (x + ((n - 1 - k : Nat) : Int)) * mem' (a + (((n - 1 - k : Nat) : Int) * lda + ((n - 1 - i : Nat) : Int)))))
          (fun i hi s => by rw [hc i (by omega)])]
      · rfl
    · simp only [if_neg h, walkDown_loop, Bool.false_eq_true, if_false]
      rw [show ((n : Int) - 1 - -1).toNat = n by omega]
      apply loop_congr
      intro k hk m
      have hs : ∀ k, k < n → x + (start0 n incx + (n - 1) * incx - k * incx) = slot x n incx (n - 1 - k) := by
        intro k hk
        rw [← start_slot, ← hc k hk]
        ring
      rw [hc k hk, hs k hk]
      split
      · have hb : ((n : Int) - 1 - ((n - 1 - k : Nat) : Int)).toNat = k := by omega
        rw [hb, loop_congr (g := fun (i : Nat) (mem' : Mem F) => put mem' (slot x n incx (n - 1 - i)) (mem' (slot x n incx (n - 1 - i)) + m (slot x n incx (n - 1 - k)) * mem' (a + (((n - 1 - k : Nat) : Int) * lda + ((n - 1 - i : Nat) : Int)))))
          (fun i hi s => by rw [hc i (by omega), hs i (by omega)])]
      · rfl

theorem trmvT_eq (upper nounit : Bool) {n : Nat} (hn : 0 < n) (a lda x incx : Int) (mem : Mem F) :
    trmvT upper nounit n a lda x (start0 n incx) incx mem
      = mulT (fun i => slot x n incx (flip upper n i)) (fun i j => elem a lda (flip upper n i) (flip upper n j)) nounit n mem := by
  unfold trmvT mulT flip elem
  have hc : ∀ k, k < n → ((n : Int) - 1 - k) = ((n - 1 - k : Nat) : Int) := by intro k hk; omega
  have hs : ∀ k, k < n → x + (start0 n incx + (n - 1) * incx - k * incx) = slot x n incx (n - 1 - k) := by
    intro k hk
    rw [← start_slot, ← hc k hk]
    ring
  cases upper with
  | true =>
    have hi : ∀ k l, k < n → l < n - 1 - k → ((n - 1 - k : Nat) : Int) - 1 - l = ((n - 1 - k - 1 - l : Nat) : Int) := by intro k l h1 h2; omega
    by_cases h : incx = 1
    · subst h
      simp only [if_true, forDown, slot_one]
      rw [show ((n : Int) - 1 - -1).toNat = n by omega]
      apply loop_congr
      intro k hk m
      have hb : (((n - 1 - k : Nat) : Int) - 1 - -1).toNat = n - 1 - k := by omega
      rw [hc k hk, hb]
      congr 1
      apply loop_congr
      intro l hl s
      rw [hi k l hk hl]
    · simp only [if_true, if_neg h, walkDown_loop, stepDown_loop]
      rw [show ((n : Int) - 1 - -1).toNat = n by omega]
      apply loop_congr
      intro k hk m
      have hb : (((n - 1 - k : Nat) : Int) - 1 - -1).toNat = n - 1 - k := by omega
      rw [hc k hk, hb, hs k hk]
      congr 1
      apply loop_congr
      intro l hl s
      rw [hi k l hk hl, ← start_slot x n incx (n - 1 - k - 1 - l), ← hi k l hk hl, ← hc k hk]
      rw [show start0 n incx + ((n : Int) - 1) * incx - k * incx - (l + 1) * incx = start0 n incx + ((n : Int) - 1 - k - 1 - l) * incx by ring]
  | false =>
    have hr : ∀ k, k < n → n - 1 - (n - 1 - k) = k := by intro k hk; omega
    have hi : ∀ k l, k < n → l < n - 1 - k → n - 1 - (n - 1 - k - 1 - l) = k + 1 + l := by intro k l h1 h2; omega
    by_cases h : incx = 1
    · subst h
      simp only [if_true, forUp_nat, slot_one, Bool.false_eq_true, if_false, sub_zero, zero_add, Int.toNat_natCast]
      apply loop_congr
      intro k hk m
      have hb : ((n : Int) - (k + 1)).toNat = n - 1 - k := by omega
      rw [hr k hk, hb]
      congr 1
      apply loop_congr
      intro l hl s
      rw [hi k l hk hl]
      norm_cast
    · simp only [if_neg h, walkUp_loop, stepUp_loop, start_slot, Bool.false_eq_true, if_false, sub_zero, zero_add, Int.toNat_natCast]
      apply loop_congr
      intro k hk m
      have hb : ((n : Int) - (k + 1)).toNat = n - 1 - k := by omega
      rw [hr k hk, hb]
      congr 1
      apply loop_congr
      intro l hl s
      rw [hi k l hk hl, ← start_slot x n incx (k + 1 + l)]
      rw [show start0 n incx + (k : Int) * incx + (l + 1) * incx = start0 n incx + ((k + 1 + l : Nat) : Int) * incx by push_cast; ring]
      norm_cast

theorem trsvN_eq (upper nounit : Bool) {n : Nat} (hn : 0 < n) (a lda x incx : Int) (mem : Mem F) :
    trsvN upper nounit n a lda x (1 + start0 n incx) incx mem
      = solN (fun i => slot x n incx (flip upper n i)) (fun i j => elem a lda (flip upper n i) (flip upper n j)) nounit n mem := by
  unfold trsvN solN flip elem
  cases upper with
  | true =>
    have hc : ∀ k, k < n → ((n : Int) - k - 1) = ((n - 1 - k : Nat) : Int) := by intro k hk; omega
    have hi : ∀ k l, k < n → l < n - 1 - k → (n : Int) - k - 1 - l - 1 = ((n - 1 - k - 1 - l : Nat) : Int) := by intro k l h1 h2; omega
    by_cases h : incx = 1
    · subst h
      simp only [if_true, forDown, slot_one]
      rw [show ((n : Int) - 0).toNat = n by omega]
      apply loop_congr
      intro k hk m
      have hb : ((n : Int) - k - 1 - 0).toNat = n - 1 - k := by omega
      rw [hb, hc k hk]
      split
      · rw [show lda * ((n - 1 - k : Nat) : Int) = ((n - 1 - k : Nat) : Int) * lda by ring,
          show ((n - 1 - k : Nat) : Int) + ((n - 1 - k : Nat) : Int) * lda = ((n - 1 - k : Nat) : Int) * lda + ((n - 1 - k : Nat) : Int) by ring]
        apply loop_congr
        intro l hl s
        rw [← hc k hk, hi k l hk hl, hc k hk, add_comm ((n - 1 - k - 1 - l : Nat) : Int)]
      · rfl
    · simp only [if_true, if_neg h, walkDown_loop, stepDown_loop]
      rw [show ((n : Int) - 0).toNat = n by omega]
      apply loop_congr
      intro k hk m
      have hb : ((n : Int) - k - 1 - 0).toNat = n - 1 - k := by omega
      have hs : x + (1 + start0 n incx + (n - 1) * incx - k * incx - 1) = slot x n incx (n - 1 - k) := by
        rw [← start_slot, ← hc k hk]
        ring
      rw [hb, hs, hc k hk]
      split
      · rw [show lda * ((n - 1 - k : Nat) : Int) = ((n - 1 - k : Nat) : Int) * lda by ring,
          show ((n - 1 - k : Nat) : Int) + ((n - 1 - k : Nat) : Int) * lda = ((n - 1 - k : Nat) : Int) * lda + ((n - 1 - k : Nat) : Int) by ring]
        apply loop_congr
        intro l hl s
        have hs' : x + (1 + start0 n incx + (n - 1) * incx - k * incx - (l + 1) * incx - 1) = slot x n incx (n - 1 - k - 1 - l) := by
          rw [← start_slot, ← hi k l hk hl]
          ring
        rw [← hc k hk, hi k l hk hl, hc k hk, hs', add_comm ((n - 1 - k - 1 - l : Nat) : Int)]
      · rfl
  | false =>
    have hr : ∀ k, k < n → n - 1 - (n - 1 - k) = k := by intro k hk; omega
    have hi : ∀ k l, k < n → l < n - 1 - k → n - 1 - (n - 1 - k - 1 - l) = k + 1 + l := by intro k l h1 h2; omega
    by_cases h : incx = 1
    · subst h
      simp only [if_true, forUp_nat, slot_one, Bool.false_eq_true, if_false, add_sub_cancel_left]
      rw [show ((n : Int) + 1 - 1).toNat = n by omega]
      apply loop_congr
      intro k hk m
      have hb : ((n : Int) + 1 - (1 + k + 1)).toNat = n - 1 - k := by omega
      rw [hr k hk, hb, show lda * (k : Int) = k * lda by ring, add_comm (k : Int) (k * lda)]
      split
      · apply loop_congr
        intro l hl s
        rw [hi k l hk hl, show (1 : Int) + k + 1 + l - 1 = ((k + 1 + l : Nat) : Int) by push_cast; ring, add_comm ((k + 1 + l : Nat) : Int)]
      · rfl
    · simp only [if_neg h, walkUp_loop, stepUp_loop, Bool.false_eq_true, if_false, add_sub_cancel_left]
      rw [show ((n : Int) + 1 - 1).toNat = n by omega]
      apply loop_congr
      intro k hk m
      have hb : ((n : Int) + 1 - (1 + k + 1)).toNat = n - 1 - k := by omega
      have hs : x + (1 + start0 n incx + k * incx - 1) = slot x n incx k := by
        rw [← start_slot]
        ring
      rw [hr k hk, hb, hs, show lda * (k : Int) = k * lda by ring, add_comm (k : Int) (k * lda)]
      split
      · apply loop_congr
        intro l hl s
        have hs' : x + (1 + start0 n incx + k * incx + (l + 1) * incx - 1) = slot x n incx (k + 1 + l) := by
          rw [← start_slot]
          push_cast
          ring
        rw [hi k l hk hl, hs', show (1 : Int) + k + 1 + l - 1 = ((k + 1 + l : Nat) : Int) by push_cast; ring, add_comm ((k + 1 + l : Nat) : Int)]
      · rfl

theorem trsvT_eq (upper nounit : Bool) {n : Nat} (hn : 0 < n) (a lda x incx : Int) (mem : Mem F) :
    trsvT upper nounit n a lda x (1 + start0 n incx) incx mem
      = solT (fun i => slot x n incx (flip upper n i)) (fun i j => elem a lda (flip upper n i) (flip upper n j)) nounit n mem := by
  unfold trsvT solT flip elem
  cases upper with
  | true =>
    have hs : ∀ k : Nat, x + (1 + start0 n incx + k * incx - 1) = slot x n incx k := by
      intro k
      rw [← start_slot]
      ring
    have he : ∀ i j : Int, i + lda * j = j * lda + i := by intro i j; ring
    by_cases h : incx = 1
    · subst h
      simp only [if_true, forUp_nat, slot_one, add_sub_cancel_left, Int.toNat_natCast, add_sub_cancel_right, he]
    · simp only [if_true, if_neg h, walkUp_loop, hs, add_sub_cancel_left, add_sub_cancel_right, Int.toNat_natCast, he]
  | false =>
    have hc : ∀ k, k < n → ((n : Int) - k - 1) = ((n - 1 - k : Nat) : Int) := by intro k hk; omega
    have he : ∀ i j : Int, i + lda * j = j * lda + i := by intro i j; ring
    by_cases h : incx = 1
    · subst h
      simp only [if_true, forDown, slot_one, Bool.false_eq_true, if_false, he]
      rw [show ((n : Int) - 0).toNat = n by omega]
      apply loop_congr
      intro k hk m
      have hb : ((n : Int) - (n - k)).toNat = k := by omega
      rw [hb, hc k hk]
      rw [loop_congr (g := fun (i : Nat) (temp : F) => temp - m (a + (((n - 1 - k : Nat) : Int) * lda + ((n - 1 - i : Nat) : Int))) * m (x + ((n - 1 - i : Nat) : Int)))
        (fun i hi s => by rw [hc i (by omega)])]
    · simp only [if_neg h, walkDown_loop, Bool.false_eq_true, if_false, he]
      rw [show ((n : Int) - 0).toNat = n by omega]
      apply loop_congr
      intro k hk m
      have hb : ((n : Int) - (n - k)).toNat = k := by omega
      have hs : ∀ k, k < n → x + (1 + start0 n incx + (n - 1) * incx - k * incx - 1) = slot x n incx (n - 1 - k) := by
        intro k hk
        rw [← start_slot, ← hc k hk]
        ring
      rw [hb, hc k hk, hs k hk]
      rw [loop_congr (g := fun (i : Nat) (temp : F) => temp - m (a + (((n - 1 - k : Nat) : Int) * lda + ((n - 1 - i : Nat) : Int))) * m (slot x n incx (n - 1 - i)))
        (fun i hi s => by rw [hc i (by omega), hs i (by omega)])]

end any
end Opk.Linalg
