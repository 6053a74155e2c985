import Verif.Linalg.Model
import Mathlib.Algebra.BigOperators.Group.Finset.Basic
import Mathlib.Algebra.BigOperators.Ring.Finset
import Mathlib.Algebra.Order.Field.Basic
import Mathlib.Data.Int.Basic
import Mathlib.Tactic.Ring
import Mathlib.Tactic.Abel
import Mathlib.Tactic.Linarith
/-!
# Loops of the linear algebra routines

The loops of the model are those of C, unrolled loops are plain loops, and what loops which
store one element per iteration do to the memory.
-/
set_option linter.unusedSectionVars false
set_option linter.unusedSimpArgs false
namespace Opk.Linalg

variable {α β F : Type}

theorem loop_congr {f g : Nat → α → α} {n : Nat} {s : α} (h : ∀ k < n, ∀ s, f k s = g k s) :
    loop f n s = loop g n s := by
  induction n with
  | zero => rfl
  | succ n ih =>
    show f n (loop f n s) = g n (loop g n s)
    rw [ih fun k hk => h k (by omega), h n (by omega)]

theorem loop_inv {f : Nat → α → α} {s : α} (P : Nat → α → Prop) (n : Nat) (h0 : P 0 s)
    (hs : ∀ k < n, ∀ s, P k s → P (k + 1) (f k s)) : P n (loop f n s) := by
  induction n with
  | zero => exact h0
  | succ n ih => exact hs n (by omega) _ (ih fun k hk => hs k (by omega))

/-- Two loops keep a relation kept by their bodies. -/
theorem loop_rel {f : Nat → α → α} {g : Nat → β → β} (R : α → β → Prop) (n : Nat) {s : α} {t : β}
    (h0 : R s t) (hs : ∀ k < n, ∀ s t, R s t → R (f k s) (g k t)) : R (loop f n s) (loop g n t) := by
  induction n with
  | zero => exact h0
  | succ n ih => exact hs n (by omega) _ _ (ih fun k hk => hs k (by omega))

theorem loop_front (f : Nat → α → α) (n : Nat) (s : α) :
    loop f (n + 1) s = loop (fun k => f (k + 1)) n (f 0 s) := by
  induction n with
  | zero => rfl
  | succ n ih =>
    show f (n + 1) (loop f (n + 1) s) = f (n + 1) (loop (fun k => f (k + 1)) n (f 0 s))
    rw [ih]

theorem loop_add (f : Nat → α → α) (a b : Nat) (s : α) :
    loop f (a + b) s = loop (fun k => f (a + k)) b (loop f a s) := by
  induction b with
  | zero => rfl
  | succ b ih =>
    show f (a + b) (loop f (a + b) s) = f (a + b) (loop (fun k => f (a + k)) b (loop f a s))
    rw [ih]

/-- A loop by blocks of `w` iterations. -/
theorem loop_block (f : Nat → α → α) (w q : Nat) (s : α) :
    loop (fun j s => loop (fun k => f (j * w + k)) w s) q s = loop f (q * w) s := by
  induction q with
  | zero => simp [loop]
  | succ q ih =>
    show loop (fun k => f (q * w + k)) w (loop (fun j s => loop (fun k => f (j * w + k)) w s) q s) = _
    rw [ih, Nat.succ_mul, loop_add]

/-- `forUp` is the `for` loop of C: test, body, increment. -/
theorem forUp_unfold {lo hi step : Int} (h : 0 < step) (body : Int → α → α) (s : α) :
    forUp lo hi step body s = if lo < hi then forUp (lo + step) hi step body (body lo s) else s := by
  unfold forUp
  by_cases hlt : lo < hi
  · rw [if_pos hlt]
    have h1 : trips lo hi step = trips (lo + step) hi step + 1 := by
      unfold trips
      have h2 : (hi - lo + step - 1) / step = (hi - (lo + step) + step - 1) / step + 1 := by
        rw [show hi - lo + step - 1 = (hi - (lo + step) + step - 1) + 1 * step by ring, Int.add_mul_ediv_right _ _ (by omega : step ≠ 0)]
      have h3 : 0 ≤ (hi - (lo + step) + step - 1) / step := Int.ediv_nonneg (by omega) (by omega)
      rw [h2]
      omega
    rw [h1, loop_front]
    simp only [Nat.cast_zero, zero_mul, add_zero, Nat.cast_add, Nat.cast_one]
    apply loop_congr
    intro k _ s
    rw [show lo + ((k : Int) + 1) * step = lo + step + k * step by ring]
  · rw [if_neg hlt]
    have h1 : trips lo hi step = 0 := by
      unfold trips
      have : (hi - lo + step - 1) / step < 1 := Int.ediv_lt_of_lt_mul h (by omega)
      omega
    rw [h1]
    rfl

/-- `forDown` is the `for` loop of C: test, body, decrement. -/
theorem forDown_unfold (hi lo : Int) (body : Int → α → α) (s : α) :
    forDown hi lo body s = if hi > lo then forDown (hi - 1) lo body (body hi s) else s := by
  unfold forDown
  by_cases h : hi > lo
  · rw [if_pos h, show (hi - lo).toNat = (hi - 1 - lo).toNat + 1 by omega, loop_front]
    simp only [Nat.cast_zero, sub_zero, Nat.cast_add, Nat.cast_one]
    apply loop_congr
    intro k _ s
    rw [show hi - ((k : Int) + 1) = hi - 1 - k by ring]
  · rw [if_neg h, show (hi - lo).toNat = 0 by omega]
    rfl

theorem trips_one (lo hi : Int) : trips lo hi 1 = (hi - lo).toNat := by
  unfold trips
  rw [Int.ediv_one]
  congr 1
  ring

theorem trips_mul {n inc : Int} (h : 0 < inc) : trips 0 (n * inc) inc = n.toNat := by
  unfold trips
  congr 1
  rw [show n * inc - 0 + inc - 1 = (inc - 1) + n * inc by ring, Int.add_mul_ediv_right _ _ (by omega),
    Int.ediv_eq_zero_of_lt (by omega) (by omega), zero_add]

theorem trips_mul' {n inc : Int} (h : 0 < inc) : trips inc (n * inc) inc = (n - 1).toNat := by
  unfold trips
  congr 1
  rw [show n * inc - inc + inc - 1 = (inc - 1) + (n - 1) * inc by ring, Int.add_mul_ediv_right _ _ (by omega),
    Int.ediv_eq_zero_of_lt (by omega) (by omega), zero_add]

/-- A loop `for (i = 0; i < n; ++i)`. -/
theorem forUp_one (n : Int) (body : Int → α → α) (s : α) :
    forUp 0 n 1 body s = loop (fun k => body k) n.toNat s := by
  unfold forUp
  rw [trips_one]
  simp only [sub_zero, zero_add, mul_one]

/-- A loop `for (i = 0; i < n*inc; i += inc)`. -/
theorem forUp_mul {n inc : Int} (h : 0 < inc) (body : Int → α → α) (s : α) :
    forUp 0 (n * inc) inc body s = loop (fun k => body (k * inc)) n.toNat s := by
  unfold forUp
  rw [trips_mul h]
  simp only [zero_add]

theorem trips_unroll {n w : Int} (h : 0 < w) : trips (n % w) n w = (n / w).toNat := by
  unfold trips
  congr 1
  have h1 : n - n % w = (n / w) * w := by have := Int.emod_add_mul_ediv n w; linarith
  rw [h1, show n / w * w + w - 1 = (w - 1) + n / w * w by ring, Int.add_mul_ediv_right _ _ (by omega),
    Int.ediv_eq_zero_of_lt (by omega) (by omega), zero_add]

theorem unroll4a_eq {n : Int} (hn : 0 ≤ n) (op : Int → α → α) (s : α) :
    unroll4a n op s = loop (fun k => op k) n.toNat s := by
  unfold unroll4a
  simp only [forUp_one]
  unfold forUp
  rw [trips_unroll (by omega)]
  have h1 : n.toNat = (n % 4).toNat + (n / 4).toNat * 4 := by omega
  rw [h1, loop_add, ← loop_block]
  apply loop_congr
  intro k _ s
  have h2 : ((n % 4).toNat : Int) = n % 4 := by omega
  simp only [loop, Nat.cast_add, Nat.cast_mul, Nat.cast_ofNat, Nat.cast_zero, Nat.cast_one, h2, add_zero, add_assoc]

theorem unroll8a_eq {n : Int} (hn : 0 ≤ n) (op : Int → α → α) (s : α) :
    unroll8a n op s = loop (fun k => op k) n.toNat s := by
  unfold unroll8a
  simp only [forUp_one]
  unfold forUp
  rw [trips_unroll (by omega)]
  have h1 : n.toNat = (n % 8).toNat + (n / 8).toNat * 8 := by omega
  rw [h1, loop_add, ← loop_block]
  apply loop_congr
  intro k _ s
  have h2 : ((n % 8).toNat : Int) = n % 8 := by omega
  simp only [loop, Nat.cast_add, Nat.cast_mul, Nat.cast_ofNat, Nat.cast_zero, Nat.cast_one, h2, add_zero, add_assoc]

/-- The sum of the temporary variables. -/
def T4.total [Add F] (t : T4 F) : F := (t.t0 + t.t1) + (t.t2 + t.t3)

open Finset in
theorem unroll4b_total [AddCommMonoid F] {n : Int} (hn : 0 ≤ n) (term : Int → F) (t : T4 F) :
    (unroll4b n term t).total = t.total + ∑ k ∈ range n.toNat, term k := by
  have h1 : n.toNat = (n % 4).toNat + (n / 4).toNat * 4 := by omega
  have h2 : ((n % 4).toNat : Int) = n % 4 := by omega
  unfold unroll4b
  simp only [forUp_one]
  have e1 : (loop (fun (k : Nat) (t : T4 F) => ({ t with t0 := t.t0 + term k } : T4 F)) (n % 4).toNat t).total
      = t.total + ∑ k ∈ range (n % 4).toNat, term k := by
    refine loop_inv (fun k (s : T4 F) => s.total = t.total + ∑ k ∈ range k, term k) _ (by simp) ?_
    intro k _ s hs
    rw [sum_range_succ, ← add_assoc, ← hs]
    simp only [T4.total]
    abel
  generalize loop (fun (k : Nat) (t : T4 F) => ({ t with t0 := t.t0 + term k } : T4 F)) (n % 4).toNat t = u at e1
  unfold forUp
  rw [trips_unroll (by omega), h1]
  refine loop_inv (fun k (s : T4 F) => s.total = t.total + ∑ j ∈ range ((n % 4).toNat + k * 4), term j) _ (by simpa using e1) ?_
  intro k _ s hs
  rw [show (n % 4).toNat + (k + 1) * 4 = (n % 4).toNat + k * 4 + 1 + 1 + 1 + 1 by ring, sum_range_succ,
    sum_range_succ, sum_range_succ, sum_range_succ, ← add_assoc, ← add_assoc, ← add_assoc, ← add_assoc, ← hs]
  simp only [T4.total, Nat.cast_add, Nat.cast_mul, Nat.cast_ofNat, Nat.cast_one, h2, add_assoc]
  norm_num
  abel

theorem loop_pair (f : Nat → Int → α → α) (n : Nat) (i d : Int) (s : α) :
    loop (fun k (p : Int × α) => (p.1 + d, f k p.1 p.2)) n (i, s) = (i + n * d, loop (fun k => f k (i + k * d)) n s) := by
  induction n with
  | zero => simp [loop]
  | succ n ih =>
    simp only [loop] at ih ⊢
    rw [ih]
    simp only [Nat.cast_add, Nat.cast_one]
    congr 1
    ring

theorem loop_triple (f : Nat → Int → Int → α → α) (n : Nat) (i d j e : Int) (s : α) :
    loop (fun k (p : Int × Int × α) => (p.1 + d, p.2.1 + e, f k p.1 p.2.1 p.2.2)) n (i, j, s)
      = (i + n * d, j + n * e, loop (fun k => f k (i + k * d) (j + k * e)) n s) := by
  induction n with
  | zero => simp [loop]
  | succ n ih =>
    simp only [loop] at ih ⊢
    rw [ih]
    simp only [Nat.cast_add, Nat.cast_one, Prod.mk.injEq, and_true]
    constructor <;> ring

/-- A loop which stores one element per iteration: `A k` is the address of the element stored
at iteration `k`, and `v k` the value of the expression stored, if it only depends on elements
which have not yet been modified. -/
theorem loop_store (A : Nat → Int) (g : Nat → Mem F → F) (v : Nat → F) (n : Nat) (m : Mem F)
    (hA : ∀ i k, i < k → k < n → A i ≠ A k)
    (hg : ∀ k < n, ∀ m', (∀ p, (∀ i < k, p ≠ A i) → m' p = m p) → g k m' = v k) :
    (∀ k < n, loop (fun k m => put m (A k) (g k m)) n m (A k) = v k) ∧
    ∀ p, (∀ k < n, p ≠ A k) → loop (fun k m => put m (A k) (g k m)) n m p = m p := by
  refine loop_inv (fun j (m' : Mem F) => (∀ k < j, m' (A k) = v k) ∧ ∀ p, (∀ k < j, p ≠ A k) → m' p = m p) n ?_ ?_
  · exact ⟨fun k h => absurd h (by omega), fun _ _ => rfl⟩
  · rintro j hj m' ⟨h1, h2⟩
    have hv := hg j hj m' h2
    constructor
    · intro k hk
      unfold put
      rcases Nat.lt_succ_iff_lt_or_eq.1 hk with h | h
      · rw [if_neg (hA k j h hj), h1 k h]
      · subst h; rw [if_pos rfl, hv]
    · intro p hp
      unfold put
      rw [if_neg (hp j (by omega)), h2 p fun k hk => hp k (by omega)]

/-- Whatever is stored, the other elements are unchanged. -/
theorem loop_frame (A : Nat → Int) (g : Nat → Mem F → F) (n : Nat) (m : Mem F) (p : Int) (hp : ∀ k < n, p ≠ A k) :
    loop (fun k m => put m (A k) (g k m)) n m p = m p := by
  refine loop_inv (fun _ (m' : Mem F) => m' p = m p) n rfl ?_
  intro k hk m' h
  unfold put
  rw [if_neg (hp k hk), h]

open Finset in
/-- A loop of additions is a sum. -/
theorem loop_sum [AddCommMonoid F] (g : Nat → F) (n : Nat) (s : F) :
    loop (fun k t => t + g k) n s = s + ∑ k ∈ range n, g k := by
  induction n with
  | zero => simp [loop]
  | succ n ih =>
    simp only [loop] at ih ⊢
    rw [ih, sum_range_succ, add_assoc]

end Opk.Linalg
