import Verif.Linalg.Loops
import Verif.Arith.Exact
import Mathlib.Algebra.BigOperators.Field
/-!
# C42: level 1 routines on strided vectors

The `n` elements of a vector `x` with increment `inc` are at addresses `slot x n inc k`,
`k = 0, .., n - 1`: with a negative increment, they are taken in reverse order.
-/
set_option linter.unusedSectionVars false
set_option linter.unusedSimpArgs false
namespace Opk.Linalg
open Finset

/-- Address of the `k`-th element (from 0) of a vector of `n` elements starting at `x` with
increment `inc`: `x[k*inc]`, or `x[(n - 1 - k)*|inc|]` if the increment is negative. -/
def slot (x n inc : Int) (k : Nat) : Int := if 0 ≤ inc then x + k * inc else x + (n - 1 - k) * |inc|

theorem slot_one (x n : Int) (k : Nat) : slot x n 1 k = x + k := by
  unfold slot; rw [if_pos (by omega), mul_one]

theorem slot_nonneg {inc : Int} (h : 0 ≤ inc) (x n : Int) (k : Nat) : slot x n inc k = x + k * inc := by
  unfold slot; rw [if_pos h]

theorem start_slot (x n inc : Int) (k : Nat) : x + (start0 n inc + k * inc) = slot x n inc k := by
  unfold slot start0
  by_cases h : 0 ≤ inc
  · rw [if_pos h, if_pos h, zero_add]
  · rw [if_neg h, if_neg h, abs_of_neg (by omega)]; ring

theorem slot_ne {inc : Int} (h : inc ≠ 0) (x n : Int) {i k : Nat} (hik : i ≠ k) : slot x n inc i ≠ slot x n inc k := by
  rw [← start_slot, ← start_slot]
  intro he
  have h1 : (i : Int) * inc = k * inc := by linarith
  have := Int.eq_of_mul_eq_mul_right h h1
  omega

/-- The elements of a vector are the same if the vector is read backwards. -/
theorem slot_neg {inc : Int} (h : 0 < inc) (x n : Int) {k : Nat} (hk : (k : Int) < n) :
    slot x n (-inc) k = slot x n inc (n - 1 - k).toNat := by
  unfold slot
  rw [if_neg (by omega), if_pos (by omega), abs_neg, abs_of_pos h]
  have : ((n - 1 - (k : Int)).toNat : Int) = n - 1 - k := by omega
  rw [this]

section any
variable {F : Type} [Add F] [Sub F] [Mul F] [Div F] [Neg F] [Zero F] [One F] [DecidableEq F]
variable [LT F] [LE F] [DecidableLT F] [DecidableLE F]

theorem strided_eq (n : Int) (op : Int → Int → Mem F → Mem F) (ix dx iy dy : Int) (mem : Mem F) :
    strided n op ix dx iy dy mem = loop (fun k => op (ix + k * dx) (iy + k * dy)) n.toNat mem := by
  unfold strided
  rw [forUp_one]
  exact congrArg (fun p => p.2.2) (loop_triple (fun _ i j m => op i j m) n.toNat ix dx iy dy mem)

/-- The four variants of a loop over two vectors are the same loop. -/
theorem axpyLoops_eq {n : Int} (hn : 0 ≤ n) (x incx y incy : Int) (op : Int → Int → Mem F → Mem F) (mem : Mem F) :
    axpyLoops (fun ix iy => op (x + ix) (y + iy)) n incx incy mem
      = loop (fun k => op (slot x n incx k) (slot y n incy k)) n.toNat mem := by
  unfold axpyLoops
  by_cases hx : incx = 1
  · by_cases hy : incy = 1
    · rw [if_pos hx, if_pos hy, unroll4a_eq hn]
      subst hx; subst hy
      simp only [slot_one]
    · rw [if_pos hx, if_neg hy, strided_eq]
      subst hx
      simp only [zero_add, mul_one, slot_one, start_slot]
  · by_cases hy : incy = 1
    · rw [if_neg hx, if_pos hy, strided_eq]
      subst hy
      simp only [zero_add, mul_one, slot_one, start_slot]
    · rw [if_neg hx, if_neg hy, strided_eq]
      simp only [start_slot]

/-- C42: `copy` in any arithmetic.  The elements of `y` become those that `x` had, provided that
no element of `x` is overwritten before it is read (in particular if the vectors do not
overlap), and nothing else is modified. -/
theorem copy_spec {n x incx y incy : Int} (hn : 0 ≤ n) (hy : incy ≠ 0)
    (hxy : ∀ i k : Nat, i < k → k < n → slot y n incy i ≠ slot x n incx k) (mem : Mem F) :
    (∀ k : Nat, k < n → copy n x incx y incy mem (slot y n incy k) = mem (slot x n incx k)) ∧
    ∀ p, (∀ k : Nat, k < n → p ≠ slot y n incy k) → copy n x incx y incy mem p = mem p := by
  by_cases h0 : n ≤ 0 ∨ (incx = incy ∧ x = y)
  · have hc : copy n x incx y incy mem = mem := by unfold copy; rw [if_pos h0]
    rw [hc]
    refine ⟨fun k hk => ?_, fun _ _ => rfl⟩
    rcases h0 with h | ⟨h1, h2⟩
    · omega
    · rw [h1, h2]
  · have hc : copy n x incx y incy mem
        = loop (fun k m => put m (slot y n incy k) (m (slot x n incx k))) n.toNat mem := by
      have h1 := axpyLoops_eq hn x incx y incy (fun a b (m : Mem F) => put m b (m a)) mem
      rw [← h1]
      unfold copy axpyLoops
      rw [if_neg h0]
      by_cases hx : incx = 1
      · by_cases hy : incy = 1
        · simp only [if_pos hx, if_pos hy, unroll8a_eq hn, unroll4a_eq hn]
        · simp only [if_pos hx, if_neg hy]
      · by_cases hy : incy = 1
        · simp only [if_neg hx, if_pos hy]
        · simp only [if_neg hx, if_neg hy]
    rw [hc]
    obtain ⟨h1, h2⟩ := loop_store (fun k => slot y n incy k) (fun k m => m (slot x n incx k))
      (fun k => mem (slot x n incx k)) n.toNat mem (fun i k hik _ => slot_ne hy y n (by omega))
      (fun k hk m' hm => hm _ fun i hi => (hxy i k hi (by omega)).symm)
    exact ⟨fun k hk => h1 k (by omega), fun p hp => h2 p fun k hk => hp k (by omega)⟩

theorem swap_loop {n x incx y incy : Int} (hn : 0 < n) (hxy : x ≠ y) (mem : Mem F) :
    swap n x incx y incy mem
      = loop (fun k m => swapAt m (slot x n incx k) (slot y n incy k)) n.toNat mem := by
  unfold swap
  rw [if_neg (by omega)]
  by_cases he : incx = incy
  · rw [if_pos he]
    subst he
    by_cases h1 : incx = 1
    · subst h1
      simp only [if_true, unroll4a_eq (show (0 : Int) ≤ n by omega), slot_one]
    · rw [if_neg h1, forUp_one]
      refine (congrArg (fun p => p.2) (loop_pair (fun _ i m => swapAt m (x + i) (y + i)) n.toNat _ incx mem)).trans ?_
      simp only [start_slot]
  · rw [if_neg he]
    by_cases h1 : incx = 1
    · rw [if_pos h1, forUp_one]
      refine (congrArg (fun p => p.2) (loop_pair (fun k i m => swapAt m (x + k) (y + i)) n.toNat _ incy mem)).trans ?_
      subst h1
      simp only [start_slot, slot_one]
    · rw [if_neg h1]
      by_cases h2 : incy = 1
      · rw [if_pos h2, forUp_one]
        refine (congrArg (fun p => p.2) (loop_pair (fun k i m => swapAt m (x + i) (y + k)) n.toNat _ incx mem)).trans ?_
        subst h2
        simp only [start_slot, slot_one]
      · rw [if_neg h2, forUp_one]
        refine (congrArg (fun p => p.2.2) (loop_triple (fun _ i j m => swapAt m (x + i) (y + j)) n.toNat _ incx _ incy mem)).trans ?_
        simp only [start_slot]

/-- C42: `swap` in any arithmetic: the contents of the two vectors are exchanged if they do not
overlap; nothing else is modified. -/
theorem swap_spec {n x incx y incy : Int} (hx : incx ≠ 0) (hy : incy ≠ 0)
    (hxy : ∀ i k : Nat, i < n → k < n → slot x n incx i ≠ slot y n incy k) (mem : Mem F) :
    (∀ k : Nat, k < n → swap n x incx y incy mem (slot y n incy k) = mem (slot x n incx k)) ∧
    (∀ k : Nat, k < n → swap n x incx y incy mem (slot x n incx k) = mem (slot y n incy k)) ∧
    ∀ p, (∀ k : Nat, k < n → p ≠ slot x n incx k ∧ p ≠ slot y n incy k) → swap n x incx y incy mem p = mem p := by
  by_cases hn : n ≤ 0
  · have hs : swap n x incx y incy mem = mem := by unfold swap; rw [if_pos (Or.inl hn)]
    rw [hs]
    exact ⟨fun k hk => by omega, fun k hk => by omega, fun _ _ => rfl⟩
  have hne : x ≠ y := by
    rintro rfl
    by_cases h : 0 ≤ incx
    · by_cases h' : 0 ≤ incy
      · exact hxy 0 0 (by omega) (by omega) (by rw [slot_nonneg h, slot_nonneg h']; simp)
      · refine hxy 0 (n - 1).toNat (by omega) (by omega) ?_
        rw [slot_nonneg h]
        unfold slot
        rw [if_neg h', show ((n - 1).toNat : Int) = n - 1 by omega]
        simp
    · by_cases h' : 0 ≤ incy
      · refine hxy (n - 1).toNat 0 (by omega) (by omega) ?_
        rw [slot_nonneg h']
        unfold slot
        rw [if_neg h, show ((n - 1).toNat : Int) = n - 1 by omega]
        simp
      · refine hxy (n - 1).toNat (n - 1).toNat (by omega) (by omega) ?_
        unfold slot
        rw [if_neg h, if_neg h', show ((n - 1).toNat : Int) = n - 1 by omega]
        simp
  rw [swap_loop (by omega) hne]
  have key := loop_inv (f := fun k m => swapAt m (slot x n incx k) (slot y n incy k)) (s := mem)
    (fun j (m : Mem F) => (∀ k < j, m (slot y n incy k) = mem (slot x n incx k)) ∧
      (∀ k < j, m (slot x n incx k) = mem (slot y n incy k)) ∧
      ∀ p, (∀ k < j, p ≠ slot x n incx k ∧ p ≠ slot y n incy k) → m p = mem p) n.toNat
    ⟨fun k h => absurd h (by omega), fun k h => absurd h (by omega), fun _ _ => rfl⟩ ?_
  · obtain ⟨h1, h2, h3⟩ := key
    exact ⟨fun k hk => h1 k (by omega), fun k hk => h2 k (by omega), fun p hp => h3 p fun k hk => hp k (by omega)⟩
  rintro j hj m ⟨h1, h2, h3⟩
  have ex : m (slot x n incx j) = mem (slot x n incx j) :=
    h3 _ fun k hk => ⟨slot_ne hx x n (by omega), hxy j k (by omega) (by omega)⟩
  have ey : m (slot y n incy j) = mem (slot y n incy j) :=
    h3 _ fun k hk => ⟨(hxy k j (by omega) (by omega)).symm, slot_ne hy y n (by omega)⟩
  refine ⟨fun k hk => ?_, fun k hk => ?_, fun p hp => ?_⟩
  · unfold swapAt put
    rcases Nat.lt_succ_iff_lt_or_eq.1 hk with h | h
    · rw [if_neg (slot_ne hy y n (by omega)), if_neg (hxy j k (by omega) (by omega)).symm, h1 k h]
    · subst h; rw [if_pos rfl, ex]
  · unfold swapAt put
    rcases Nat.lt_succ_iff_lt_or_eq.1 hk with h | h
    · rw [if_neg (hxy k j (by omega) (by omega)), if_neg (slot_ne hx x n (by omega)), h2 k h]
    · subst h; rw [if_neg (hxy k k (by omega) (by omega)), if_pos rfl, ey]
  · unfold swapAt put
    rw [if_neg (hp j (by omega)).2, if_neg (hp j (by omega)).1, h3 p fun k hk => hp k (by omega)]

/-- C42: `zero` in any arithmetic. -/
theorem zero_spec {n x incx : Int} (hx : 1 ≤ incx) (mem : Mem F) :
    (∀ k : Nat, k < n → zero n x incx mem (slot x n incx k) = 0) ∧
    ∀ p, (∀ k : Nat, k < n → p ≠ slot x n incx k) → zero n x incx mem p = mem p := by
  by_cases hn : n ≥ 1
  · have hc : zero n x incx mem = loop (fun k m => put m (slot x n incx k) 0) n.toNat mem := by
      unfold zero
      rw [if_pos hn]
      by_cases h1 : incx = 1
      · subst h1
        rw [if_pos rfl, unroll8a_eq (by omega)]
        simp only [slot_one]
      · rw [if_neg h1, if_pos (by omega)]
        dsimp only
        rw [forUp_mul (by omega)]
        simp only [slot_nonneg (show 0 ≤ incx by omega)]
    rw [hc]
    obtain ⟨h1, h2⟩ := loop_store (fun k => slot x n incx k) (fun _ _ => (0 : F)) (fun _ => 0) n.toNat mem
      (fun i k hik _ => slot_ne (by omega) x n (by omega)) (fun _ _ _ _ => rfl)
    exact ⟨fun k hk => h1 k (by omega), fun p hp => h2 p fun k hk => hp k (by omega)⟩
  · have hc : zero n x incx mem = mem := by unfold zero; rw [if_neg hn]
    rw [hc]
    exact ⟨fun k hk => by omega, fun _ _ => rfl⟩

/-- C42: nothing is done by `zero` and `scal`, and the other functions return 0, if there are no elements or if the increment
is less than one. -/
theorem nothing {n incx : Int} (h : n < 1 ∨ incx < 1) [CMath F] (a : F) (x : Int) (mem : Mem F) :
    zero n x incx mem = mem ∧ scal n a x incx mem = mem ∧ amax n x incx mem = 0 ∧ asum n x incx mem = 0 ∧
    sum n x incx mem = 0 ∧ nrm2 n x incx mem = 0 ∧ iamax n x incx mem = 0 := by
  refine ⟨?_, ?_, ?_, ?_, ?_, ?_, ?_⟩
  · unfold zero
    by_cases hn : n ≥ 1
    · rw [if_pos hn, if_neg (by omega), if_neg (by omega)]
    · rw [if_neg hn]
  · unfold scal
    by_cases hn : n ≤ 0 ∨ a = 1
    · rw [if_pos hn]
    · have : incx < 1 := by rcases h with h | h <;> [exact absurd (Or.inl (by omega)) hn; exact h]
      rw [if_neg hn, if_neg (by omega), if_neg (by omega)]
  · unfold amax; rw [if_pos h]
  · unfold asum; rw [if_pos h]
  · unfold sum; rw [if_pos h]
  · unfold nrm2; rw [if_pos h]
  · unfold iamax; rw [if_pos h]

/-! ### Frames and footprints in any arithmetic -/

/-- C42: `axpy` only modifies the elements of `y` (any arithmetic, even if the vectors overlap). -/
theorem axpy_frame (n : Int) (a : F) (x incx y incy : Int) (mem : Mem F) (p : Int)
    (hp : ∀ k : Nat, k < n → p ≠ slot y n incy k) : axpy n a x incx y incy mem p = mem p := by
  unfold axpy
  by_cases h0 : n ≤ 0 ∨ a = 0
  · rw [if_pos h0]
  have hn : 0 ≤ n := by by_contra h; exact h0 (Or.inl (by omega))
  rw [if_neg h0]
  by_cases h1 : a = 1
  · rw [if_pos h1, axpyLoops_eq hn x incx y incy (fun p q (m : Mem F) => put m q (m q + m p))]
    exact loop_frame (fun k => slot y n incy k) (fun k m => m (slot y n incy k) + m (slot x n incx k)) _ _ _
      fun k hk => hp k (by omega)
  rw [if_neg h1]
  by_cases h2 : a = -1
  · rw [if_pos h2, axpyLoops_eq hn x incx y incy (fun p q (m : Mem F) => put m q (m q - m p))]
    exact loop_frame (fun k => slot y n incy k) (fun k m => m (slot y n incy k) - m (slot x n incx k)) _ _ _
      fun k hk => hp k (by omega)
  · rw [if_neg h2, axpyLoops_eq hn x incx y incy (fun p q (m : Mem F) => put m q (m q + a * m p))]
    exact loop_frame (fun k => slot y n incy k) (fun k m => m (slot y n incy k) + a * m (slot x n incx k)) _ _ _
      fun k hk => hp k (by omega)

/-- C42: `axpy` only reads the elements of `x` and `y`: in any arithmetic, if these elements are the
same in two memories, so are they after the operation (even if the vectors overlap). -/
theorem axpy_reads (n : Int) (a : F) (x incx y incy : Int) (mem mem' : Mem F)
    (h : ∀ k : Nat, k < n → mem (slot x n incx k) = mem' (slot x n incx k) ∧ mem (slot y n incy k) = mem' (slot y n incy k))
    (k : Nat) (hk : k < n) :
    axpy n a x incx y incy mem (slot y n incy k) = axpy n a x incx y incy mem' (slot y n incy k) := by
  have hn : 0 ≤ n := by omega
  have gen : ∀ e : F → F → F, loop (fun k m => put m (slot y n incy k) (e (m (slot y n incy k)) (m (slot x n incx k)))) n.toNat mem (slot y n incy k)
      = loop (fun k m => put m (slot y n incy k) (e (m (slot y n incy k)) (m (slot x n incx k)))) n.toNat mem' (slot y n incy k) := by
    intro e
    have := loop_rel (f := fun k m => put m (slot y n incy k) (e (m (slot y n incy k)) (m (slot x n incx k))))
      (g := fun k m => put m (slot y n incy k) (e (m (slot y n incy k)) (m (slot x n incx k))))
      (fun (m m' : Mem F) => ∀ k : Nat, k < n → m (slot x n incx k) = m' (slot x n incx k) ∧ m (slot y n incy k) = m' (slot y n incy k))
      n.toNat (s := mem) (t := mem') h ?_
    · exact (this k hk).2
    · intro j hj m m' hm i hi
      obtain ⟨e1, e2⟩ := hm j (by omega)
      obtain ⟨e3, e4⟩ := hm i hi
      unfold put
      rw [e1, e2, e3, e4]
      exact ⟨rfl, rfl⟩
  unfold axpy
  by_cases h0 : n ≤ 0 ∨ a = 0
  · rw [if_pos h0, if_pos h0]; exact (h k hk).2
  rw [if_neg h0, if_neg h0]
  by_cases h1 : a = 1
  · rw [if_pos h1, if_pos h1, axpyLoops_eq hn x incx y incy (fun p q (m : Mem F) => put m q (m q + m p)),
      axpyLoops_eq hn x incx y incy (fun p q (m : Mem F) => put m q (m q + m p))]
    exact gen fun u v => u + v
  rw [if_neg h1, if_neg h1]
  by_cases h2 : a = -1
  · rw [if_pos h2, if_pos h2, axpyLoops_eq hn x incx y incy (fun p q (m : Mem F) => put m q (m q - m p)),
      axpyLoops_eq hn x incx y incy (fun p q (m : Mem F) => put m q (m q - m p))]
    exact gen fun u v => u - v
  · rw [if_neg h2, if_neg h2, axpyLoops_eq hn x incx y incy (fun p q (m : Mem F) => put m q (m q + a * m p)),
      axpyLoops_eq hn x incx y incy (fun p q (m : Mem F) => put m q (m q + a * m p))]
    exact gen fun u v => u + a * v

theorem forUp_congr {α : Type} {lo hi step : Int} {f g : Int → α → α} {s : α}
    (h : ∀ k : Nat, k < trips lo hi step → f (lo + k * step) = g (lo + k * step)) :
    forUp lo hi step f s = forUp lo hi step g s := by
  unfold forUp
  exact loop_congr fun k hk s => by rw [h k hk]

theorem unroll4b_congr {n : Int} (hn : 0 ≤ n) {f g : Int → F} (h : ∀ k : Nat, (k : Int) < n → f k = g k) (t : T4 F) :
    unroll4b n f t = unroll4b n g t := by
  unfold unroll4b
  dsimp only
  have hl : ∀ k : Nat, k < trips 0 (n % 4) 1 → f (0 + (k : Int) * 1) = g (0 + (k : Int) * 1) := by
    intro k hk
    rw [trips_one] at hk
    rw [zero_add, mul_one]
    exact h k (by omega)
  have e1 : forUp 0 (n % 4) 1 (fun i (t : T4 F) => ({ t with t0 := t.t0 + f i } : T4 F)) t
      = forUp 0 (n % 4) 1 (fun i (t : T4 F) => ({ t with t0 := t.t0 + g i } : T4 F)) t :=
    forUp_congr fun k hk => by rw [hl k hk]
  rw [e1]
  refine forUp_congr fun k hk => ?_
  rw [trips_unroll (by omega)] at hk
  have h4 : ∀ j : Nat, j < 4 → f (n % 4 + k * 4 + j) = g (n % 4 + k * 4 + j) := by
    intro j hj
    have := h (n % 4 + k * 4 + j).toNat (by omega)
    rwa [show ((n % 4 + k * 4 + j).toNat : Int) = n % 4 + k * 4 + j by omega] at this
  have a0 := h4 0 (by omega)
  have a1 := h4 1 (by omega)
  have a2 := h4 2 (by omega)
  have a3 := h4 3 (by omega)
  simp only [Nat.cast_zero, add_zero, Nat.cast_one, Nat.cast_ofNat] at a0 a1 a2 a3
  funext t
  rw [a0, a1, a2, a3]

/-- The element `k` of the vector read by a loop with step `incx`. -/
theorem reads_slot {n x incx : Int} (hx : 1 ≤ incx) {mem mem' : Mem F}
    (h : ∀ k : Nat, k < n → mem (slot x n incx k) = mem' (slot x n incx k)) (k : Nat) (hk : k < n) :
    mem (x + k * incx) = mem' (x + k * incx) := by
  have := h k hk
  rwa [slot_nonneg (by omega)] at this

/-- C42: `dot` only reads the elements of `x` and `y` (any arithmetic). -/
theorem dot_reads (n x incx y incy : Int) (mem mem' : Mem F)
    (h : ∀ k : Nat, k < n → mem (slot x n incx k) = mem' (slot x n incx k) ∧ mem (slot y n incy k) = mem' (slot y n incy k)) :
    dot n x incx y incy mem = dot n x incx y incy mem' := by
  have gen : ∀ ix iy dx dy, (∀ k : Nat, k < n → mem (x + (ix + k * dx)) = mem' (x + (ix + k * dx)) ∧ mem (y + (iy + k * dy)) = mem' (y + (iy + k * dy))) →
      dotStrided n x ix dx y iy dy mem 0 = dotStrided n x ix dx y iy dy mem' 0 := by
    intro ix iy dx dy hg
    unfold dotStrided
    rw [forUp_one, forUp_one]
    have e1 := loop_triple (fun _ i j (t : F) => t + mem (x + i) * mem (y + j)) n.toNat ix dx iy dy 0
    have e2 := loop_triple (fun _ i j (t : F) => t + mem' (x + i) * mem' (y + j)) n.toNat ix dx iy dy 0
    refine (congrArg (fun p => p.2.2) e1).trans (Eq.trans ?_ (congrArg (fun p => p.2.2) e2).symm)
    refine loop_congr fun k hk s => ?_
    rw [(hg k (by omega)).1, (hg k (by omega)).2]
  unfold dot
  dsimp only
  by_cases hn : n ≤ 0
  · rw [if_pos hn, if_pos hn]
  rw [if_neg hn, if_neg hn]
  by_cases h1 : incx = 1
  · by_cases h2 : incy = 1
    · rw [if_pos h1, if_pos h1, if_pos h2, if_pos h2]
      have : unroll4b n (fun i => mem (x + i) * mem (y + i)) ⟨0, 0, 0, 0⟩ = unroll4b n (fun i => mem' (x + i) * mem' (y + i)) ⟨0, 0, 0, 0⟩ := by
        refine unroll4b_congr (by omega) (fun k hk => ?_) _
        have := h k hk
        subst h1; subst h2
        simp only [slot_one] at this
        rw [this.1, this.2]
      rw [this]
    · rw [if_pos h1, if_pos h1, if_neg h2, if_neg h2]
      subst h1
      refine gen _ _ _ _ fun k hk => ?_
      have := h k hk
      rw [slot_one] at this
      rw [zero_add, mul_one, start_slot]
      exact this
  · by_cases h2 : incy = 1
    · rw [if_neg h1, if_neg h1, if_pos h2, if_pos h2]
      subst h2
      refine gen _ _ _ _ fun k hk => ?_
      have := h k hk
      rw [slot_one] at this
      rw [zero_add, mul_one, start_slot]
      exact this
    · rw [if_neg h1, if_neg h1, if_neg h2, if_neg h2]
      refine gen _ _ _ _ fun k hk => ?_
      rw [start_slot, start_slot]
      exact h k hk

theorem minmax_congr {n x incx lo : Int} {mem mem' : Mem F} (hn : 1 ≤ n) (hx : 1 ≤ incx)
    (h : ∀ k : Nat, k < n → mem (slot x n incx k) = mem' (slot x n incx k)) (hlo : lo = 0 ∨ lo = incx) {α : Type}
    (f : F → α → α) (s : α) :
    forUp lo (n * incx) incx (fun i => f (mem (x + i))) s = forUp lo (n * incx) incx (fun i => f (mem' (x + i))) s := by
  refine forUp_congr fun k hk => ?_
  have hr := reads_slot hx h
  rcases hlo with rfl | rfl
  · rw [trips_mul (by omega)] at hk
    rw [zero_add, hr k (by omega)]
  · rw [trips_mul' (by omega)] at hk
    have := hr (k + 1) (by omega)
    rw [show ((k + 1 : Nat) : Int) * lo = lo + k * lo by push_cast; ring] at this
    rw [this]

theorem iamax_loop [CMath F] {n x incx : Int} {mem : Mem F} (h0 : ¬(n < 1 ∨ incx < 1)) (h1 : ¬n = 1) :
    iamax n x incx mem = (loop (fun k (s : F × Int) => if CMath.fabs (mem (slot x n incx (k + 1))) > s.1
      then (CMath.fabs (mem (slot x n incx (k + 1))), ((k + 1 : Nat) : Int)) else s) (n - 1).toNat (CMath.fabs (mem x), 0)).2 + 1 := by
  unfold iamax
  dsimp only
  rw [if_neg h0, if_neg h1]
  congr 1
  have hs := fun k => slot_nonneg (show 0 ≤ incx by omega) x n (k + 1)
  by_cases hi : incx = 1
  · rw [if_pos hi]
    unfold forUp
    rw [trips_one]
    congr 1
    refine loop_congr fun k hk s => ?_
    dsimp only
    rw [hs, hi, show x + (1 + (k : Int) * 1) = x + ((k + 1 : Nat) : Int) * 1 by push_cast; ring,
      show 1 + (k : Int) * 1 = ((k + 1 : Nat) : Int) by push_cast; ring]
  · rw [if_neg hi]
    unfold forUp
    rw [trips_one]
    have e : (fun (k : Nat) (s : Int × F × Int) => if CMath.fabs (mem (x + s.1)) > s.2.1
          then (s.1 + incx, CMath.fabs (mem (x + s.1)), 1 + (k : Int) * 1) else (s.1 + incx, s.2.1, s.2.2))
        = fun (k : Nat) (s : Int × F × Int) => (s.1 + incx, (fun (k : Nat) i (s : F × Int) => if CMath.fabs (mem (x + i)) > s.1
          then (CMath.fabs (mem (x + i)), ((k + 1 : Nat) : Int)) else s) k s.1 s.2) := by
      funext k s
      dsimp only
      rw [show 1 + (k : Int) * 1 = ((k + 1 : Nat) : Int) by push_cast; ring]
      by_cases hc : CMath.fabs (mem (x + s.1)) > s.2.1
      · rw [if_pos hc, if_pos hc]
      · rw [if_neg hc, if_neg hc]
    have e2 := loop_pair (fun (k : Nat) i (s : F × Int) => if CMath.fabs (mem (x + i)) > s.1
          then (CMath.fabs (mem (x + i)), ((k + 1 : Nat) : Int)) else s) (n - 1).toNat incx incx (CMath.fabs (mem x), (0 : Int))
    rw [← e] at e2
    refine (congrArg (fun p => p.2.2) e2).trans ?_
    dsimp only
    congr 1
    refine loop_congr fun k hk s => ?_
    rw [hs, show incx + (k : Int) * incx = ((k + 1 : Nat) : Int) * incx by push_cast; ring]

/-- C42: the functions of a single vector only read its elements (any arithmetic). -/
theorem reads_one [CMath F] (n x incx : Int) (mem mem' : Mem F)
    (h : ∀ k : Nat, k < n → mem (slot x n incx k) = mem' (slot x n incx k)) :
    amax n x incx mem = amax n x incx mem' ∧ asum n x incx mem = asum n x incx mem' ∧
    sum n x incx mem = sum n x incx mem' ∧ nrm2 n x incx mem = nrm2 n x incx mem' ∧
    iamax n x incx mem = iamax n x incx mem' := by
  by_cases h0 : n < 1 ∨ incx < 1
  · obtain ⟨-, -, a3, a4, a5, a6, a7⟩ := nothing h0 (0 : F) x mem
    obtain ⟨-, -, b3, b4, b5, b6, b7⟩ := nothing h0 (0 : F) x mem'
    exact ⟨a3.trans b3.symm, a4.trans b4.symm, a5.trans b5.symm, a6.trans b6.symm, a7.trans b7.symm⟩
  have hn : 1 ≤ n := by omega
  have hx : 1 ≤ incx := by omega
  have hr := reads_slot hx h
  have key : ∀ {α : Type} (f : F → α → α) (s : α), forUp 0 (n * incx) incx (fun i => f (mem (x + i))) s
      = forUp 0 (n * incx) incx (fun i => f (mem' (x + i))) s := fun f s => minmax_congr hn hx h (Or.inl rfl) f s
  have key1 : incx = 1 → ∀ {α : Type} (f : F → α → α) (s : α), forUp 0 n 1 (fun i => f (mem (x + i))) s
      = forUp 0 n 1 (fun i => f (mem' (x + i))) s := by
    intro h1 α f s
    have := key f s
    rwa [h1, mul_one] at this
  have u4 : incx = 1 → ∀ (f : F → F) (t : T4 F), unroll4b n (fun i => f (mem (x + i))) t = unroll4b n (fun i => f (mem' (x + i))) t := by
    intro h1 f t
    refine unroll4b_congr (by omega) (fun k hk => ?_) t
    have := hr k hk
    rw [h1, mul_one] at this
    rw [this]
  refine ⟨?_, ?_, ?_, ?_, ?_⟩
  · unfold amax
    dsimp only
    rw [if_neg h0, if_neg h0]
    by_cases h1 : incx = 1
    · rw [if_pos h1, if_pos h1, key1 h1 (fun v (p : F × F) => (if v < p.1 then v else p.1, if v > p.2 then v else p.2))]
    · rw [if_neg h1, if_neg h1, key (fun v (p : F × F) => (if v < p.1 then v else p.1, if v > p.2 then v else p.2))]
  · unfold asum
    dsimp only
    rw [if_neg h0, if_neg h0]
    by_cases h1 : incx = 1
    · rw [if_pos h1, if_pos h1, u4 h1]
    · rw [if_neg h1, if_neg h1, key (fun v t => t + CMath.fabs v)]
  · unfold sum
    dsimp only
    rw [if_neg h0, if_neg h0]
    by_cases h1 : incx = 1
    · rw [if_pos h1, if_pos h1, u4 h1 (fun v => v)]
    · rw [if_neg h1, if_neg h1, key (fun v t => t + v)]
  · unfold nrm2
    dsimp only
    rw [if_neg h0, if_neg h0]
    have e0 : mem x = mem' x := by have := hr 0 (by omega); simpa using this
    by_cases h1 : incx = 1
    · have := fun s => minmax_congr hn hx h (Or.inr rfl) (fun v (p : F × F) => (if v < p.1 then v else p.1, if v > p.2 then v else p.2)) s
      rw [h1, mul_one] at this
      simp only [if_pos h1, this, e0]
      generalize forUp 1 n 1 (fun i (p : F × F) => (if mem' (x + i) < p.1 then mem' (x + i) else p.1, if mem' (x + i) > p.2 then mem' (x + i) else p.2)) (mem' x, mem' x) = u
      obtain ⟨a, b⟩ := u
      dsimp only
      rw [key1 h1 (fun v s => s + (1 / (if -a < b then b else -a)) * v * ((1 / (if -a < b then b else -a)) * v))]
    · have := fun s => minmax_congr hn hx h (Or.inr rfl) (fun v (p : F × F) => (if v < p.1 then v else p.1, if v > p.2 then v else p.2)) s
      simp only [if_neg h1, this, e0]
      generalize forUp incx (n * incx) incx (fun i (p : F × F) => (if mem' (x + i) < p.1 then mem' (x + i) else p.1, if mem' (x + i) > p.2 then mem' (x + i) else p.2)) (mem' x, mem' x) = u
      obtain ⟨a, b⟩ := u
      dsimp only
      rw [key (fun v s => s + (1 / (if -a < b then b else -a)) * v * ((1 / (if -a < b then b else -a)) * v))]
  · unfold iamax
    dsimp only
    rw [if_neg h0, if_neg h0]
    by_cases hn1 : n = 1
    · rw [if_pos hn1, if_pos hn1]
    rw [if_neg hn1, if_neg hn1]
    have e0 : mem x = mem' x := by have := hr 0 (by omega); simpa using this
    have e1 := iamax_loop h0 hn1 (x := x) (mem := mem)
    have e2 := iamax_loop h0 hn1 (x := x) (mem := mem')
    unfold iamax at e1 e2
    dsimp only at e1 e2
    rw [if_neg h0, if_neg hn1] at e1 e2
    rw [e1, e2, e0]
    congr 2
    refine loop_congr fun k hk s => ?_
    rw [h (k + 1) (by omega)]

end any

/-! ### Results in exact arithmetic -/
section exact
variable {K : Type} [Field K] [LinearOrder K] [IsStrictOrderedRing K]

/-- C42: `axpy` computes `y := a*x + y` (provided that no element of `x` is overwritten before
being used: `x` and `y` do not overlap, or are the same). -/
theorem axpy_spec {n : Int} {a : K} {x incx y incy : Int} (hy : incy ≠ 0)
    (hxy : ∀ i k : Nat, i < k → k < n → slot y n incy i ≠ slot x n incx k) (mem : Mem K) :
    (∀ k : Nat, k < n → axpy n a x incx y incy mem (slot y n incy k) = a * mem (slot x n incx k) + mem (slot y n incy k)) ∧
    ∀ p, (∀ k : Nat, k < n → p ≠ slot y n incy k) → axpy n a x incx y incy mem p = mem p := by
  refine ⟨fun k hk => ?_, fun p hp => axpy_frame n a x incx y incy mem p hp⟩
  have hn : 0 ≤ n := by omega
  have gen : ∀ e : K → K → K, loop (fun k m => put m (slot y n incy k) (e (m (slot y n incy k)) (m (slot x n incx k)))) n.toNat mem (slot y n incy k)
      = e (mem (slot y n incy k)) (mem (slot x n incx k)) := by
    intro e
    obtain ⟨h1, -⟩ := loop_store (fun k => slot y n incy k) (fun k m => e (m (slot y n incy k)) (m (slot x n incx k)))
      (fun k => e (mem (slot y n incy k)) (mem (slot x n incx k))) n.toNat mem (fun i k hik _ => slot_ne hy y n (by omega))
      (fun k hk m' hm => by
        show e _ _ = e _ _
        rw [hm _ fun i hi => slot_ne hy y n (by omega), hm _ fun i hi => (hxy i k hi (by omega)).symm])
    exact h1 k (by omega)
  unfold axpy
  by_cases h0 : n ≤ 0 ∨ a = 0
  · rw [if_pos h0]
    rcases h0 with h | h
    · omega
    · rw [h, zero_mul, zero_add]
  rw [if_neg h0]
  by_cases h1 : a = 1
  · rw [if_pos h1, axpyLoops_eq hn x incx y incy (fun p q (m : Mem K) => put m q (m q + m p)), gen fun u v => u + v, h1]
    ring
  rw [if_neg h1]
  by_cases h2 : a = -1
  · rw [if_pos h2, axpyLoops_eq hn x incx y incy (fun p q (m : Mem K) => put m q (m q - m p)), gen fun u v => u - v, h2]
    ring
  · rw [if_neg h2, axpyLoops_eq hn x incx y incy (fun p q (m : Mem K) => put m q (m q + a * m p)), gen fun u v => u + a * v]
    ring

/-- C42: `scal` multiplies the elements by `a` and modifies nothing else. -/
theorem scal_spec {n : Int} {a : K} {x incx : Int} (hx : 1 ≤ incx) (mem : Mem K) :
    (∀ k : Nat, k < n → scal n a x incx mem (slot x n incx k) = a * mem (slot x n incx k)) ∧
    ∀ p, (∀ k : Nat, k < n → p ≠ slot x n incx k) → scal n a x incx mem p = mem p := by
  have gen : ∀ e : K → K, (∀ v, e v = a * v) → 0 ≤ n →
      (∀ k : Nat, k < n → loop (fun k m => put m (slot x n incx k) (e (m (slot x n incx k)))) n.toNat mem (slot x n incx k) = a * mem (slot x n incx k)) ∧
      ∀ p, (∀ k : Nat, k < n → p ≠ slot x n incx k) → loop (fun k m => put m (slot x n incx k) (e (m (slot x n incx k)))) n.toNat mem p = mem p := by
    intro e he hn
    obtain ⟨h1, h2⟩ := loop_store (fun k => slot x n incx k) (fun k m => e (m (slot x n incx k)))
      (fun k => a * mem (slot x n incx k)) n.toNat mem (fun i k hik _ => slot_ne (by omega) x n (by omega))
      (fun k hk m' hm => by
        show e _ = _
        rw [hm _ fun i hi => slot_ne (by omega) x n (by omega), he])
    exact ⟨fun k hk => h1 k (by omega), fun p hp => h2 p fun k hk => hp k (by omega)⟩
  by_cases h0 : n ≤ 0 ∨ a = 1
  · have hs : scal n a x incx mem = mem := by unfold scal; rw [if_pos h0]
    rw [hs]
    refine ⟨fun k hk => ?_, fun _ _ => rfl⟩
    rcases h0 with h | h
    · omega
    · rw [h, one_mul]
  have hn : 0 ≤ n := by by_contra h; exact h0 (Or.inl (by omega))
  have he : scal n a x incx mem = loop (fun k m => put m (slot x n incx k)
      ((fun v => if a = 0 then 0 else if a = -1 then -v else v * a) (m (slot x n incx k)))) n.toNat mem := by
    unfold scal
    rw [if_neg h0]
    dsimp only
    by_cases h1 : incx = 1
    · subst h1
      simp only [if_true, unroll8a_eq hn, slot_one]
      by_cases h2 : a = 0
      · simp only [if_pos h2]
      · by_cases h3 : a = -1
        · simp only [if_neg h2, if_pos h3]
        · simp only [if_neg h2, if_neg h3]
    · rw [if_neg h1, if_pos (by omega)]
      simp only [forUp_mul (show 0 < incx by omega), slot_nonneg (show 0 ≤ incx by omega)]
      by_cases h2 : a = 0
      · simp only [if_pos h2]
      · by_cases h3 : a = -1
        · simp only [if_neg h2, if_pos h3]
        · simp only [if_neg h2, if_neg h3]
  rw [he]
  refine gen (fun v => if a = 0 then 0 else if a = -1 then -v else v * a) (fun v => ?_) hn
  by_cases h2 : a = 0
  · rw [if_pos h2, h2, zero_mul]
  · by_cases h3 : a = -1
    · rw [if_neg h2, if_pos h3, h3]; ring
    · rw [if_neg h2, if_neg h3]; ring

/-- C42: `dot` is the inner product. -/
theorem dot_spec (n x incx y incy : Int) (mem : Mem K) :
    dot n x incx y incy mem = ∑ k ∈ range n.toNat, mem (slot x n incx k) * mem (slot y n incy k) := by
  have gen : ∀ ix iy dx dy, dotStrided n x ix dx y iy dy mem 0 = ∑ k ∈ range n.toNat, mem (x + (ix + k * dx)) * mem (y + (iy + k * dy)) := by
    intro ix iy dx dy
    unfold dotStrided
    rw [forUp_one]
    refine (congrArg (fun p => p.2.2) (loop_triple (fun _ i j (t : K) => t + mem (x + i) * mem (y + j)) n.toNat ix dx iy dy 0)).trans ?_
    dsimp only
    rw [loop_sum (fun k => mem (x + (ix + k * dx)) * mem (y + (iy + k * dy))), zero_add]
  unfold dot
  dsimp only
  by_cases hn : n ≤ 0
  · rw [if_pos hn, show n.toNat = 0 by omega, sum_range_zero]
  rw [if_neg hn]
  by_cases h1 : incx = 1
  · subst h1
    by_cases h2 : incy = 1
    · subst h2
      simp only [if_true, slot_one]
      have := unroll4b_total (show 0 ≤ n by omega) (fun i => mem (x + i) * mem (y + i)) ⟨0, 0, 0, 0⟩
      unfold T4.total at this
      rw [this]
      simp
    · simp only [if_true, if_neg h2, gen, zero_add, mul_one, slot_one, start_slot]
  · by_cases h2 : incy = 1
    · subst h2
      simp only [if_true, if_neg h1, gen, zero_add, mul_one, slot_one, start_slot]
    · simp only [if_neg h1, if_neg h2, gen, start_slot]

/-- C42: `sum` is the sum of the elements. -/
theorem sum_spec {n x incx : Int} (hx : 1 ≤ incx) (mem : Mem K) :
    sum n x incx mem = ∑ k ∈ range n.toNat, mem (slot x n incx k) := by
  unfold sum
  dsimp only
  by_cases hn : n < 1
  · rw [if_pos (Or.inl hn), show n.toNat = 0 by omega, sum_range_zero]
  rw [if_neg (by omega)]
  by_cases h1 : incx = 1
  · subst h1
    simp only [if_true, slot_one]
    have := unroll4b_total (show 0 ≤ n by omega) (fun i => mem (x + i)) ⟨0, 0, 0, 0⟩
    unfold T4.total at this
    rw [this]
    simp
  · rw [if_neg h1, forUp_mul (by omega), loop_sum (fun k => mem (x + k * incx)), zero_add]
    simp only [slot_nonneg (show 0 ≤ incx by omega)]

/-- C42: `asum` is the sum of the absolute values of the elements. -/
theorem asum_spec [CMath K] [ExactMath K] {n x incx : Int} (hx : 1 ≤ incx) (mem : Mem K) :
    asum n x incx mem = ∑ k ∈ range n.toNat, |mem (slot x n incx k)| := by
  unfold asum
  dsimp only
  by_cases hn : n < 1
  · rw [if_pos (Or.inl hn), show n.toNat = 0 by omega, sum_range_zero]
  rw [if_neg (by omega)]
  simp only [ExactMath.fabs_eq]
  by_cases h1 : incx = 1
  · subst h1
    simp only [if_true, slot_one]
    have := unroll4b_total (show 0 ≤ n by omega) (fun i => |mem (x + i)|) ⟨0, 0, 0, 0⟩
    unfold T4.total at this
    rw [this]
    simp
  · rw [if_neg h1, forUp_mul (by omega), loop_sum (fun k => |mem (x + k * incx)|), zero_add]
    simp only [slot_nonneg (show 0 ≤ incx by omega)]

/-- The loop which computes the extreme values of the elements `v 0, .., v (n - 1)` and of the
initial values `a` and `b`. -/
theorem minmax_spec (v : Nat → K) (n : Nat) (a b : K) :
    let r := loop (fun k (p : K × K) => (if v k < p.1 then v k else p.1, if v k > p.2 then v k else p.2)) n (a, b)
    (r.1 ≤ a ∧ b ≤ r.2) ∧ (∀ k < n, r.1 ≤ v k ∧ v k ≤ r.2) ∧ (r.1 = a ∨ ∃ k < n, r.1 = v k) ∧ (r.2 = b ∨ ∃ k < n, r.2 = v k) := by
  intro r
  refine loop_inv (fun j (r : K × K) => (r.1 ≤ a ∧ b ≤ r.2) ∧ (∀ k < j, r.1 ≤ v k ∧ v k ≤ r.2) ∧
    (r.1 = a ∨ ∃ k < j, r.1 = v k) ∧ (r.2 = b ∨ ∃ k < j, r.2 = v k)) n ?_ ?_
  · exact ⟨⟨le_rfl, le_rfl⟩, fun k h => absurd h (by omega), Or.inl rfl, Or.inl rfl⟩
  · rintro j hj ⟨u, w⟩ ⟨⟨h1, h2⟩, h3, h4, h5⟩
    dsimp only at *
    have e1 : (if v j < u then v j else u) = min u (v j) := by
      by_cases h : v j < u
      · rw [if_pos h, min_eq_right h.le]
      · rw [if_neg h, min_eq_left (not_lt.1 h)]
    have e2 : (if v j > w then v j else w) = max w (v j) := by
      by_cases h : v j > w
      · rw [if_pos h, max_eq_right (le_of_lt h)]
      · rw [if_neg h, max_eq_left (not_lt.1 h)]
    rw [e1, e2]
    refine ⟨⟨(min_le_left _ _).trans h1, h2.trans (le_max_left _ _)⟩, fun k hk => ?_, ?_, ?_⟩
    · rcases Nat.lt_succ_iff_lt_or_eq.1 hk with h | h
      · exact ⟨(min_le_left _ _).trans (h3 k h).1, (h3 k h).2.trans (le_max_left _ _)⟩
      · subst h; exact ⟨min_le_right _ _, le_max_right _ _⟩
    · rcases min_choice u (v j) with h | h
      · rw [h]
        rcases h4 with h4 | ⟨k, hk, h4⟩
        · exact Or.inl h4
        · exact Or.inr ⟨k, by omega, h4⟩
      · exact Or.inr ⟨j, by omega, h⟩
    · rcases max_choice w (v j) with h | h
      · rw [h]
        rcases h5 with h5 | ⟨k, hk, h5⟩
        · exact Or.inl h5
        · exact Or.inr ⟨k, by omega, h5⟩
      · exact Or.inr ⟨j, by omega, h⟩

/-- C42: `amax` is the largest absolute value. -/
theorem amax_spec {n x incx : Int} (hn : 1 ≤ n) (hx : 1 ≤ incx) (mem : Mem K) :
    (∀ k : Nat, k < n → |mem (slot x n incx k)| ≤ amax n x incx mem) ∧
    ∃ k : Nat, k < n ∧ amax n x incx mem = |mem (slot x n incx k)| := by
  have he : amax n x incx mem = (fun p : K × K => if -p.1 ≥ p.2 then -p.1 else p.2)
      (loop (fun k (p : K × K) => (if mem (slot x n incx k) < p.1 then mem (slot x n incx k) else p.1,
        if mem (slot x n incx k) > p.2 then mem (slot x n incx k) else p.2)) n.toNat (0, 0)) := by
    unfold amax
    dsimp only
    rw [if_neg (by omega)]
    by_cases h1 : incx = 1
    · subst h1
      simp only [if_true, forUp_one, slot_one]
    · simp only [if_neg h1, forUp_mul (show 0 < incx by omega), slot_nonneg (show 0 ≤ incx by omega)]
  rw [he]
  obtain ⟨⟨h1, h2⟩, h3, h4, h5⟩ := minmax_spec (fun k => mem (slot x n incx k)) n.toNat (0 : K) 0
  generalize loop (fun k (p : K × K) => (if mem (slot x n incx k) < p.1 then mem (slot x n incx k) else p.1,
        if mem (slot x n incx k) > p.2 then mem (slot x n incx k) else p.2)) n.toNat (0, 0) = r at *
  obtain ⟨a, b⟩ := r
  dsimp only at *
  have em : (if -a ≥ b then -a else b) = max (-a) b := by
    by_cases h : -a ≥ b
    · rw [if_pos h, max_eq_left h]
    · rw [if_neg h, max_eq_right (le_of_lt (not_le.1 h))]
  rw [em]
  have hb : ∀ k : Nat, (k : Int) < n → |mem (slot x n incx k)| ≤ max (-a) b := by
    intro k hk
    obtain ⟨u1, u2⟩ := h3 k (by omega)
    refine abs_le.2 ⟨?_, u2.trans (le_max_right _ _)⟩
    have := le_max_left (-a) b
    linarith
  refine ⟨hb, ?_⟩
  have hz : ∀ {r : K}, r = 0 → r ≥ 0 → max (-a) b = r → ∃ k : Nat, (k : Int) < n ∧ r = |mem (slot x n incx k)| := by
    intro r hr _ hm
    refine ⟨0, by omega, ?_⟩
    have := hb 0 (by omega)
    rw [hm, hr] at this
    rw [hr, le_antisymm this (abs_nonneg _)]
  rcases max_choice (-a) b with h | h
  · rcases h4 with h4 | ⟨k, hk, h4⟩
    · rw [h]; exact hz (by rw [h4, neg_zero]) (by rw [h4, neg_zero]) h
    · refine ⟨k, by omega, ?_⟩
      rw [h, h4, abs_of_nonpos (by linarith)]
  · rcases h5 with h5 | ⟨k, hk, h5⟩
    · rw [h]; exact hz h5 (by rw [h5]) h
    · refine ⟨k, by omega, ?_⟩
      rw [h, h5, abs_of_nonneg (by linarith)]

/-- C42: `iamax` is the index (from 1) of the first element of largest absolute value. -/
theorem iamax_spec [CMath K] [ExactMath K] {n x incx : Int} (hn : 1 ≤ n) (hx : 1 ≤ incx) (mem : Mem K) :
    ∃ j : Nat, (j : Int) < n ∧ iamax n x incx mem = j + 1 ∧
      (∀ k : Nat, k < n → |mem (slot x n incx k)| ≤ |mem (slot x n incx j)|) ∧
      ∀ k : Nat, k < j → |mem (slot x n incx k)| < |mem (slot x n incx j)| := by
  by_cases h1 : n = 1
  · refine ⟨0, by omega, ?_, ?_, fun k h => absurd h (by omega)⟩
    · unfold iamax; rw [if_neg (by omega), if_pos h1]; simp
    · intro k hk
      rw [show k = 0 by omega]
  rw [iamax_loop (by omega) h1]
  have h0 : slot x n incx 0 = x := by rw [slot_nonneg (by omega)]; simp
  simp only [ExactMath.fabs_eq]
  have key := loop_inv (f := fun k (s : K × Int) => if |mem (slot x n incx (k + 1))| > s.1
      then (|mem (slot x n incx (k + 1))|, ((k + 1 : Nat) : Int)) else s) (s := (|mem x|, 0))
    (fun i (s : K × Int) => ∃ j : Nat, j ≤ i ∧ s = (|mem (slot x n incx j)|, (j : Int)) ∧
      (∀ k : Nat, k ≤ i → |mem (slot x n incx k)| ≤ |mem (slot x n incx j)|) ∧
      ∀ k : Nat, k < j → |mem (slot x n incx k)| < |mem (slot x n incx j)|) (n - 1).toNat ?_ ?_
  · obtain ⟨j, hj, e, h2, h3⟩ := key
    exact ⟨j, by omega, by rw [e], fun k hk => h2 k (by omega), h3⟩
  · refine ⟨0, le_rfl, by rw [h0]; rfl, fun k hk => ?_, fun k h => absurd h (by omega)⟩
    rw [show k = 0 by omega]
  · rintro i hi s ⟨j, hj, rfl, h2, h3⟩
    dsimp only
    by_cases hc : |mem (slot x n incx (i + 1))| > |mem (slot x n incx j)|
    · rw [if_pos hc]
      refine ⟨i + 1, le_rfl, rfl, fun k hk => ?_, fun k hk => ?_⟩
      · rcases Nat.lt_or_ge k (i + 1) with h | h
        · exact (h2 k (by omega)).trans (le_of_lt hc)
        · rw [show k = i + 1 by omega]
      · exact lt_of_le_of_lt (h2 k (by omega)) hc
    · rw [if_neg hc]
      refine ⟨j, by omega, rfl, fun k hk => ?_, h3⟩
      rcases Nat.lt_or_ge k (i + 1) with h | h
      · exact h2 k (by omega)
      · rw [show k = i + 1 by omega]; exact not_lt.1 hc

/-- C42: `nrm2` is the Euclidean norm: non-negative and of square the sum of the squares.
(The scaling by the largest absolute value has no effect in exact arithmetic.) -/
theorem nrm2_spec [CMath K] (hsqrt : ∀ a : K, 0 ≤ a → 0 ≤ CMath.sqrt a ∧ CMath.sqrt a * CMath.sqrt a = a)
    {n x incx : Int} (hx : 1 ≤ incx) (mem : Mem K) :
    0 ≤ nrm2 n x incx mem ∧
    nrm2 n x incx mem * nrm2 n x incx mem = ∑ k ∈ range n.toNat, mem (slot x n incx k) * mem (slot x n incx k) := by
  by_cases hn : n < 1
  · have : nrm2 n x incx mem = 0 := by unfold nrm2; rw [if_pos (Or.inl hn)]
    rw [this, show n.toNat = 0 by omega]
    simp
  have h0 : slot x n incx 0 = x := by rw [slot_nonneg (by omega)]; simp
  have he : nrm2 n x incx mem = (fun p : K × K => if (if -p.1 < p.2 then p.2 else -p.1) ≤ 0 then 0 else
      (if -p.1 < p.2 then p.2 else -p.1) * CMath.sqrt (loop (fun k s => s + (1 / (if -p.1 < p.2 then p.2 else -p.1) * mem (slot x n incx k))
        * (1 / (if -p.1 < p.2 then p.2 else -p.1) * mem (slot x n incx k))) n.toNat 0))
      (loop (fun k (p : K × K) => (if mem (slot x n incx (k + 1)) < p.1 then mem (slot x n incx (k + 1)) else p.1,
        if mem (slot x n incx (k + 1)) > p.2 then mem (slot x n incx (k + 1)) else p.2)) (n - 1).toNat (mem x, mem x)) := by
    have hs := fun k : Nat => slot_nonneg (show 0 ≤ incx by omega) x n k
    unfold nrm2
    dsimp only
    rw [if_neg (by omega)]
    by_cases h1 : incx = 1
    · rw [if_pos h1]
      have : forUp 1 n 1 (fun i (p : K × K) => (if mem (x + i) < p.1 then mem (x + i) else p.1, if mem (x + i) > p.2 then mem (x + i) else p.2)) (mem x, mem x)
          = loop (fun k (p : K × K) => (if mem (slot x n incx (k + 1)) < p.1 then mem (slot x n incx (k + 1)) else p.1,
            if mem (slot x n incx (k + 1)) > p.2 then mem (slot x n incx (k + 1)) else p.2)) (n - 1).toNat (mem x, mem x) := by
        unfold forUp
        rw [trips_one]
        refine loop_congr fun k hk s => ?_
        dsimp only
        rw [hs, h1, show x + (1 + (k : Int) * 1) = x + ((k + 1 : Nat) : Int) * 1 by push_cast; ring]
      simp only [this]
      generalize loop (fun k (p : K × K) => (if mem (slot x n incx (k + 1)) < p.1 then mem (slot x n incx (k + 1)) else p.1,
            if mem (slot x n incx (k + 1)) > p.2 then mem (slot x n incx (k + 1)) else p.2)) (n - 1).toNat (mem x, mem x) = r
      subst h1
      simp only [if_true, forUp_one, slot_one]
    · rw [if_neg h1]
      have : forUp incx (n * incx) incx (fun i (p : K × K) => (if mem (x + i) < p.1 then mem (x + i) else p.1, if mem (x + i) > p.2 then mem (x + i) else p.2)) (mem x, mem x)
          = loop (fun k (p : K × K) => (if mem (slot x n incx (k + 1)) < p.1 then mem (slot x n incx (k + 1)) else p.1,
            if mem (slot x n incx (k + 1)) > p.2 then mem (slot x n incx (k + 1)) else p.2)) (n - 1).toNat (mem x, mem x) := by
        unfold forUp
        rw [trips_mul' (by omega)]
        refine loop_congr fun k hk s => ?_
        dsimp only
        rw [hs, show x + (incx + (k : Int) * incx) = x + ((k + 1 : Nat) : Int) * incx by push_cast; ring]
      simp only [this]
      simp only [if_neg h1, forUp_mul (show 0 < incx by omega), hs]
  rw [he]
  obtain ⟨⟨h1, h2⟩, h3, -, -⟩ := minmax_spec (fun k => mem (slot x n incx (k + 1))) (n - 1).toNat (mem x) (mem x)
  generalize loop (fun k (p : K × K) => (if mem (slot x n incx (k + 1)) < p.1 then mem (slot x n incx (k + 1)) else p.1,
        if mem (slot x n incx (k + 1)) > p.2 then mem (slot x n incx (k + 1)) else p.2)) (n - 1).toNat (mem x, mem x) = r at *
  obtain ⟨a, b⟩ := r
  dsimp only at *
  have hall : ∀ k : Nat, k < n.toNat → a ≤ mem (slot x n incx k) ∧ mem (slot x n incx k) ≤ b := by
    intro k hk
    rcases k with _ | k
    · rw [h0]; exact ⟨h1, h2⟩
    · exact h3 k (by omega)
  have em : (if -a < b then b else -a) = max (-a) b := by
    by_cases h : -a < b
    · rw [if_pos h, max_eq_right h.le]
    · rw [if_neg h, max_eq_left (not_lt.1 h)]
  rw [em]
  have hc1 := le_max_left (-a) b
  have hc2 := le_max_right (-a) b
  generalize max (-a) b = c at *
  by_cases hc : c ≤ 0
  · rw [if_pos hc]
    refine ⟨le_rfl, ?_⟩
    rw [mul_zero]
    symm
    refine sum_eq_zero fun k hk => ?_
    obtain ⟨u1, u2⟩ := hall k (mem_range.1 hk)
    have : mem (slot x n incx k) = 0 := le_antisymm (by linarith) (by linarith)
    rw [this, mul_zero]
  · rw [if_neg hc]
    have hc' : 0 < c := not_le.1 hc
    rw [loop_sum (fun k => 1 / c * mem (slot x n incx k) * (1 / c * mem (slot x n incx k))), zero_add]
    have e1 : ∑ k ∈ range n.toNat, 1 / c * mem (slot x n incx k) * (1 / c * mem (slot x n incx k))
        = (∑ k ∈ range n.toNat, mem (slot x n incx k) * mem (slot x n incx k)) / (c * c) := by
      rw [sum_div]
      refine sum_congr rfl fun k _ => ?_
      field_simp
    have hs0 : 0 ≤ ∑ k ∈ range n.toNat, mem (slot x n incx k) * mem (slot x n incx k) :=
      sum_nonneg fun k _ => mul_self_nonneg _
    rw [e1]
    obtain ⟨p1, p2⟩ := hsqrt _ (div_nonneg hs0 (mul_self_nonneg c))
    refine ⟨mul_nonneg hc'.le p1, ?_⟩
    rw [mul_mul_mul_comm, p2]
    field_simp

end exact

/-! ### Examples -/

/-- A vector of 5 elements read backwards with increment -2, a contiguous one; nothing is shared. -/
example : let mem : Mem ℚ := fun p => p
    let r := axpy 5 (3 : ℚ) 100 (-2) 0 1 mem
    ((List.range 12).map fun i => r (i : Int)) = [324, 319, 314, 309, 304, 5, 6, 7, 8, 9, 10, 11] := by
  decide +kernel

/-- All the remainders of the unrolled loops are met by sizes 1 to 11. -/
example : ((List.range 12).map fun i : Nat => dot (i : Int) 0 1 0 1 (fun p : Int => (p : ℚ)))
    = [0, 0, 1, 5, 14, 30, 55, 91, 140, 204, 285, 385] := by
  decide +kernel

/-- The norm of (3,.,4,.,12): 13; first of the largest absolute values. -/
example : nrm2 3 0 2 (fun p : Int => if p = 0 then (3 : ℚ) else if p = 2 then -4 else if p = 4 then -12 else 1000) = 13 ∧
    iamax 3 0 2 (fun p : Int => if p = 0 then (3 : ℚ) else if p = 2 then -12 else if p = 4 then 12 else 1000) = 2 ∧
    amax 3 0 2 (fun p : Int => if p = 0 then (3 : ℚ) else if p = 2 then -12 else if p = 4 then 12 else 1000) = 12 := by
  decide +kernel

/-- The hypotheses of `copy_spec` and `axpy_spec` hold for vectors which do not overlap, and also for a
vector and itself, or for a shift towards lower addresses. -/
example : (∀ i k : Nat, i < k → (k : Int) < 7 → slot 0 7 1 i ≠ slot 0 7 1 k) ∧
    (∀ i k : Nat, i < k → (k : Int) < 7 → slot 0 7 1 i ≠ slot 3 7 1 k) ∧
    ∀ i k : Nat, i < k → (k : Int) < 7 → slot 20 7 (-2) i ≠ slot 3 7 2 k := by
  refine ⟨fun i k h1 h2 => ?_, fun i k h1 h2 => ?_, fun i k h1 h2 => ?_⟩
  · simp only [slot_one]; omega
  · simp only [slot_one]; omega
  · unfold slot; simp; omega

/-- A shift towards higher addresses does not satisfy the hypothesis, and then `copy` repeats
the first elements. -/
example : ((List.range 6).map fun i : Nat => copy 4 0 1 2 1 (fun p : Int => (p : ℚ)) (i : Int)) = [0, 1, 0, 1, 0, 1] := by
  decide +kernel

end Opk.Linalg
