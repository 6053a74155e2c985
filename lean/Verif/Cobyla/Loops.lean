import Verif.Cobyla.Model
import Verif.Linalg.Loops
import Verif.Arith.Exact
import Mathlib.Algebra.BigOperators.Intervals
import Mathlib.Algebra.BigOperators.Field
import Mathlib.Tactic.LinearCombination
import Mathlib.Tactic.FieldSimp
import Mathlib.Tactic.Push
/-! # Loops of COBYLA -/
set_option linter.unusedSectionVars false
set_option linter.unusedSimpArgs false
namespace Opk.Cobyla
open Linalg CMath

section
variable {α F : Type}

theorem up_zero (body : Nat → α → α) (s : α) : up 0 body s = s := rfl

theorem up_succ (n : Nat) (body : Nat → α → α) (s : α) : up (n + 1) body s = body (n + 1) (up n body s) := rfl

theorem up_inv {body : Nat → α → α} {s : α} (P : Nat → α → Prop) (n : Nat) (h0 : P 0 s)
    (hs : ∀ k, k < n → ∀ s, P k s → P (k + 1) (body (k + 1) s)) : P n (up n body s) :=
  loop_inv P n h0 hs

theorem up_congr {f g : Nat → α → α} {n : Nat} {s : α} (h : ∀ k, 1 ≤ k → k ≤ n → ∀ s, f k s = g k s) :
    up n f s = up n g s := loop_congr fun k hk s => h (k + 1) (by omega) (by omega) s

theorem up_set1 (n : Nat) (h : Nat → F → F) (v : Nat → F) :
    up n (fun i v => set1 v i (h i (v i))) v = fun k => if 1 ≤ k ∧ k ≤ n then h k (v k) else v k := by
  refine up_inv (fun n (w : Nat → F) => w = fun k => if 1 ≤ k ∧ k ≤ n then h k (v k) else v k) n ?_ ?_
  · funext k; rw [if_neg (by omega)]
  · rintro j _ w rfl
    funext k
    simp only [set1]
    by_cases hk : k = j + 1
    · subst hk
      rw [if_pos rfl, if_neg (by omega), if_pos (by omega)]
    · rw [if_neg hk]
      by_cases h1 : 1 ≤ k ∧ k ≤ j
      · rw [if_pos h1, if_pos (by omega)]
      · rw [if_neg h1, if_neg (by omega)]

/-- A loop over the rows of the column `j`. -/
theorem up_col (n j : Nat) (h : Nat → F → F) (d : Nat → Nat → F) :
    up n (fun i d => set2 d i j (h i (d i j))) d =
      fun k l => if (1 ≤ k ∧ k ≤ n) ∧ l = j then h k (d k j) else d k l := by
  refine up_inv (fun n (w : Nat → Nat → F) => w = fun k l => if (1 ≤ k ∧ k ≤ n) ∧ l = j then h k (d k j) else d k l) n ?_ ?_
  · funext k l; rw [if_neg (by omega)]
  · rintro i _ w rfl
    funext k l
    simp only [set2]
    by_cases hk : k = i + 1 ∧ l = j
    · obtain ⟨rfl, rfl⟩ := hk
      rw [if_pos ⟨rfl, rfl⟩, if_neg (by omega), if_pos (by omega)]
    · rw [if_neg hk]
      by_cases h1 : (1 ≤ k ∧ k ≤ i) ∧ l = j
      · rw [if_pos h1, if_pos (by omega)]
      · rw [if_neg h1, if_neg (by omega)]

/-- A loop over the columns of the row `j`. -/
theorem up_row (n j : Nat) (h : Nat → F → F) (d : Nat → Nat → F) :
    up n (fun i d => set2 d j i (h i (d j i))) d =
      fun k l => if k = j ∧ 1 ≤ l ∧ l ≤ n then h l (d j l) else d k l := by
  refine up_inv (fun n (w : Nat → Nat → F) => w = fun k l => if k = j ∧ 1 ≤ l ∧ l ≤ n then h l (d j l) else d k l) n ?_ ?_
  · funext k l; rw [if_neg (by omega)]
  · rintro i _ w rfl
    funext k l
    simp only [set2]
    by_cases hk : k = j ∧ l = i + 1
    · obtain ⟨rfl, rfl⟩ := hk
      rw [if_pos ⟨rfl, rfl⟩, if_neg (by omega), if_pos (by omega)]
    · rw [if_neg hk]
      by_cases h1 : k = j ∧ 1 ≤ l ∧ l ≤ i
      · rw [if_pos h1, if_pos (by omega)]
      · rw [if_neg h1, if_neg (by omega)]

theorem store_eq (mpp : Nat) (con : Nat → F) (j : Nat) (d : Nat → Nat → F) :
    store mpp con j d = fun k l => if (1 ≤ k ∧ k ≤ mpp) ∧ l = j then con k else d k l :=
  up_col mpp j (fun k _ => con k) d

end

section
variable {K : Type} [Field K] [LinearOrder K] [IsStrictOrderedRing K] [CMath K] [ExactMath K]

theorem up_sum (n : Nat) (g : Nat → K) (t : K) :
    up n (fun i t => t + g i) t = t + ∑ i ∈ Finset.Icc 1 n, g i := by
  refine up_inv (fun n (s : K) => s = t + ∑ i ∈ Finset.Icc 1 n, g i) n (by simp) ?_
  rintro k _ s rfl
  rw [Finset.sum_Icc_succ_top (by omega)]
  ring

theorem up_sub (n : Nat) (g : Nat → K) (t : K) :
    up n (fun i t => t - g i) t = t - ∑ i ∈ Finset.Icc 1 n, g i := by
  refine up_inv (fun n (s : K) => s = t - ∑ i ∈ Finset.Icc 1 n, g i) n (by simp) ?_
  rintro k _ s rfl
  rw [Finset.sum_Icc_succ_top (by omega)]
  ring

theorem inner_eq (n : Nat) (simi : Nat → Nat → K) (dx : Nat → K) (j : Nat) :
    inner n simi dx j = ∑ i ∈ Finset.Icc 1 n, simi j i * dx i := by
  unfold inner
  rw [up_sum, zero_add]

/-- `SIMI` is the inverse of `SIM`. -/
def Inv (n : Nat) (sim simi : Nat → Nat → K) : Prop :=
  ∀ i j, 1 ≤ i → i ≤ n → 1 ≤ j → j ≤ n →
    ∑ k ∈ Finset.Icc 1 n, simi i k * sim k j = if i = j then 1 else 0

/-- What `replace` computes. -/
theorem replace_sim (n jd : Nat) (dx : Nat → K) (sim simi : Nat → Nat → K) :
    (replace n jd dx (sim, simi)).1 = fun k l => if (1 ≤ k ∧ k ≤ n) ∧ l = jd then dx k else sim k l :=
  up_col n jd (fun k _ => dx k) sim

theorem replace_simi (n jd : Nat) (dx : Nat → K) (sim simi : Nat → Nat → K) :
    (replace n jd dx (sim, simi)).2 = fun j i =>
      if (1 ≤ i ∧ i ≤ n) then
        if j = jd then simi jd i / inner n simi dx jd
        else if 1 ≤ j ∧ j ≤ n then simi j i - inner n simi dx j * (simi jd i / inner n simi dx jd)
        else simi j i
      else simi j i := by
  unfold replace
  dsimp only
  rw [up_row n jd (fun i v => v / inner n simi dx jd) simi]
  refine up_inv (fun q (w : Nat → Nat → K) => w = fun j i =>
      if (1 ≤ i ∧ i ≤ n) then
        if j = jd then simi jd i / inner n simi dx jd
        else if 1 ≤ j ∧ j ≤ q then simi j i - inner n simi dx j * (simi jd i / inner n simi dx jd)
        else simi j i
      else simi j i) n ?_ ?_
  · funext j i
    by_cases h1 : 1 ≤ i ∧ i ≤ n
    · by_cases h2 : j = jd
      · rw [if_pos ⟨h2, h1⟩, if_pos h1, if_pos h2]
      · rw [if_neg (by tauto), if_pos h1, if_neg h2, if_neg (by omega)]
    · rw [if_neg (by tauto), if_neg h1]
  · rintro q _ w rfl
    by_cases hq : q + 1 = jd
    · rw [if_neg (by simpa using hq)]
      funext j i
      by_cases h1 : 1 ≤ i ∧ i ≤ n
      · rw [if_pos h1, if_pos h1]
        by_cases h2 : j = jd
        · rw [if_pos h2, if_pos h2]
        · rw [if_neg h2, if_neg h2]
          by_cases h3 : 1 ≤ j ∧ j ≤ q
          · rw [if_pos h3, if_pos (by omega)]
          · rw [if_neg h3, if_neg (by omega)]
      · rw [if_neg h1, if_neg h1]
    · rw [if_pos hq]
      have hin : inner n (fun j i => if (1 ≤ i ∧ i ≤ n) then
            if j = jd then simi jd i / inner n simi dx jd
            else if 1 ≤ j ∧ j ≤ q then simi j i - inner n simi dx j * (simi jd i / inner n simi dx jd)
            else simi j i
          else simi j i) dx (q + 1) = inner n simi dx (q + 1) := by
        generalize inner n simi dx jd = t
        rw [inner_eq n simi, inner_eq]
        apply Finset.sum_congr rfl
        intro i hi
        rw [Finset.mem_Icc] at hi
        rw [if_pos hi, if_neg hq, if_neg (by omega)]
      rw [hin]
      generalize hW : (fun j i => if (1 ≤ i ∧ i ≤ n) then
            if j = jd then simi jd i / inner n simi dx jd
            else if 1 ≤ j ∧ j ≤ q then simi j i - inner n simi dx j * (simi jd i / inner n simi dx jd)
            else simi j i
          else simi j i) = W
      refine up_inv (fun r (w : Nat → Nat → K) => w = fun j i =>
        if j = q + 1 ∧ 1 ≤ i ∧ i ≤ r then W (q + 1) i - inner n simi dx (q + 1) * W jd i else W j i) n ?_ ?_ |>.trans ?_
      · funext j i; rw [if_neg (by omega)]
      · rintro r _ w rfl
        funext j i
        simp only [set2]
        by_cases h1 : j = q + 1 ∧ i = r + 1
        · obtain ⟨rfl, rfl⟩ := h1
          rw [if_pos ⟨rfl, rfl⟩, if_neg (by omega), if_neg (by omega), if_pos (by omega)]
        · rw [if_neg h1]
          by_cases h2 : j = q + 1 ∧ 1 ≤ i ∧ i ≤ r
          · rw [if_pos h2, if_pos (by omega)]
          · rw [if_neg h2, if_neg (by omega)]
      · funext j i
        rw [← hW]
        dsimp only
        by_cases h1 : 1 ≤ i ∧ i ≤ n
        · simp only [if_pos h1]
          by_cases h2 : j = q + 1
          · rw [if_pos ⟨h2, h1⟩, if_neg hq, if_neg (by omega), if_pos trivial, h2, if_neg hq, if_pos (by omega)]
          · rw [if_neg (by tauto)]
            by_cases h3 : j = jd
            · rw [if_pos h3, if_pos h3]
            · rw [if_neg h3, if_neg h3]
              by_cases h4 : 1 ≤ j ∧ j ≤ q
              · rw [if_pos h4, if_pos (by omega)]
              · rw [if_neg h4, if_neg (by omega)]
        · simp only [if_neg h1]
          rw [if_neg (by tauto)]

/-- Replacing a column of `SIM` keeps the inverse if the divisor is not zero. -/
theorem Inv.replace {n jd : Nat} {dx : Nat → K} {sim simi : Nat → Nat → K} (h : Inv n sim simi)
    (h1 : 1 ≤ jd) (h2 : jd ≤ n) (ht : inner n simi dx jd ≠ 0) :
    Inv n (replace n jd dx (sim, simi)).1 (replace n jd dx (sim, simi)).2 := by
  intro i j hi hi' hj hj'
  rw [replace_sim, replace_simi]
  set t := inner n simi dx jd with htd
  have hsim : ∀ i, 1 ≤ i → i ≤ n → ∑ k ∈ Finset.Icc 1 n, simi i k * (if (1 ≤ k ∧ k ≤ n) ∧ j = jd then dx k else sim k j) =
      if j = jd then inner n simi dx i else if i = j then 1 else 0 := by
    intro i hi hi'
    by_cases hjd : j = jd
    · rw [if_pos hjd, inner_eq]
      apply Finset.sum_congr rfl
      intro k hk
      rw [Finset.mem_Icc] at hk
      rw [if_pos ⟨hk, hjd⟩]
    · rw [if_neg hjd, ← h i j hi hi' hj hj']
      apply Finset.sum_congr rfl
      intro k hk
      rw [if_neg (by tauto)]
  by_cases hid : i = jd
  · have : ∀ k ∈ Finset.Icc 1 n, (if 1 ≤ k ∧ k ≤ n then
        if i = jd then simi jd k / t
        else if 1 ≤ i ∧ i ≤ n then simi i k - inner n simi dx i * (simi jd k / t) else simi i k
        else simi i k) * (if (1 ≤ k ∧ k ≤ n) ∧ j = jd then dx k else sim k j) =
        (simi jd k * (if (1 ≤ k ∧ k ≤ n) ∧ j = jd then dx k else sim k j)) / t := by
      intro k hk
      rw [Finset.mem_Icc] at hk
      rw [if_pos hk, if_pos hid]
      ring
    rw [Finset.sum_congr rfl this, ← Finset.sum_div, hsim jd h1 h2, hid]
    by_cases hjd : j = jd
    · rw [if_pos hjd, if_pos hjd.symm, ← htd, div_self ht]
    · rw [if_neg hjd, if_neg (Ne.symm hjd), zero_div]
  · have : ∀ k ∈ Finset.Icc 1 n, (if 1 ≤ k ∧ k ≤ n then
        if i = jd then simi jd k / t
        else if 1 ≤ i ∧ i ≤ n then simi i k - inner n simi dx i * (simi jd k / t) else simi i k
        else simi i k) * (if (1 ≤ k ∧ k ≤ n) ∧ j = jd then dx k else sim k j) =
        simi i k * (if (1 ≤ k ∧ k ≤ n) ∧ j = jd then dx k else sim k j) -
          inner n simi dx i / t * (simi jd k * (if (1 ≤ k ∧ k ≤ n) ∧ j = jd then dx k else sim k j)) := by
      intro k hk
      rw [Finset.mem_Icc] at hk
      rw [if_pos hk, if_neg hid, if_pos ⟨hi, hi'⟩]
      ring
    rw [Finset.sum_congr rfl this, Finset.sum_sub_distrib, ← Finset.mul_sum, hsim i hi hi', hsim jd h1 h2]
    by_cases hjd : j = jd
    · rw [if_pos hjd, if_pos hjd, if_neg (by rw [hjd]; exact hid), ← htd]
      field_simp
      ring
    · rw [if_neg hjd, if_neg hjd, if_neg (Ne.symm hjd), mul_zero, sub_zero]

/-- The effect on the inverse of taking another vertex as the origin. -/
theorem Inv.pole {n b : Nat} {sim simi sim' simi' : Nat → Nat → K} (h : Inv n sim simi) (q : Nat)
    (h1 : 1 ≤ b) (hb : b ≤ q) (hq : q ≤ n)
    (hs : ∀ k j, 1 ≤ k → k ≤ n → 1 ≤ j → j ≤ n →
      sim' k j = if j = b then -sim k b else if j ≤ q then sim k j - sim k b else sim k j)
    (hi : ∀ i k, 1 ≤ i → i ≤ n → 1 ≤ k → k ≤ n →
      simi' i k = if i = b then -∑ l ∈ Finset.Icc 1 q, simi l k else simi i k) :
    Inv n sim' simi' := by
  intro i j hi1 hi2 hj1 hj2
  -- scalar products of the rows of `simi` and of the columns of `sim'`
  have hrow : ∀ i, 1 ≤ i → i ≤ n → ∑ k ∈ Finset.Icc 1 n, simi i k * sim' k j =
      if j = b then (if i = b then -1 else 0)
      else (if i = j then 1 else 0) - (if j ≤ q then (if i = b then 1 else 0) else 0) := by
    intro i hi1 hi2
    by_cases hjb : j = b
    · rw [if_pos hjb]
      have : ∀ k ∈ Finset.Icc 1 n, simi i k * sim' k j = -(simi i k * sim k b) := by
        intro k hk
        rw [Finset.mem_Icc] at hk
        rw [hs k j hk.1 hk.2 hj1 hj2, if_pos hjb]
        ring
      rw [Finset.sum_congr rfl this, Finset.sum_neg_distrib, h i b hi1 hi2 h1 (by omega)]
      split_ifs <;> simp
    · rw [if_neg hjb]
      by_cases hjq : j ≤ q
      · have : ∀ k ∈ Finset.Icc 1 n, simi i k * sim' k j = simi i k * sim k j - simi i k * sim k b := by
          intro k hk
          rw [Finset.mem_Icc] at hk
          rw [hs k j hk.1 hk.2 hj1 hj2, if_neg hjb, if_pos hjq]
          ring
        rw [Finset.sum_congr rfl this, Finset.sum_sub_distrib, h i b hi1 hi2 h1 (by omega), h i j hi1 hi2 hj1 hj2, if_pos hjq]
      · have : ∀ k ∈ Finset.Icc 1 n, simi i k * sim' k j = simi i k * sim k j := by
          intro k hk
          rw [Finset.mem_Icc] at hk
          rw [hs k j hk.1 hk.2 hj1 hj2, if_neg hjb, if_neg hjq]
        rw [Finset.sum_congr rfl this, h i j hi1 hi2 hj1 hj2, if_neg hjq, sub_zero]
  by_cases hib : i = b
  · have : ∀ k ∈ Finset.Icc 1 n, simi' i k * sim' k j = -∑ l ∈ Finset.Icc 1 q, simi l k * sim' k j := by
      intro k hk
      rw [Finset.mem_Icc] at hk
      rw [hi i k hi1 hi2 hk.1 hk.2, if_pos hib, neg_mul, Finset.sum_mul]
    rw [Finset.sum_congr rfl this, Finset.sum_neg_distrib, Finset.sum_comm]
    have h3 : ∀ l ∈ Finset.Icc 1 q, ∑ k ∈ Finset.Icc 1 n, simi l k * sim' k j =
        if j = b then (if l = b then -1 else 0)
        else (if l = j then 1 else 0) - (if j ≤ q then (if l = b then 1 else 0) else 0) := by
      intro l hl
      rw [Finset.mem_Icc] at hl
      exact hrow l hl.1 (by omega)
    rw [Finset.sum_congr rfl h3]
    by_cases hjb : j = b
    · simp only [if_pos hjb]
      rw [Finset.sum_ite_eq' , if_pos (Finset.mem_Icc.mpr ⟨h1, hb⟩), if_pos (by omega), neg_neg]
    · simp only [if_neg hjb]
      rw [Finset.sum_sub_distrib, Finset.sum_ite_eq', if_neg (by omega : ¬ i = j)]
      by_cases hjq : j ≤ q
      · simp only [if_pos hjq]
        rw [Finset.sum_ite_eq', if_pos (Finset.mem_Icc.mpr ⟨h1, hb⟩), if_pos (Finset.mem_Icc.mpr ⟨hj1, hjq⟩), sub_self, neg_zero]
      · simp only [if_neg hjq]
        rw [if_neg (by rw [Finset.mem_Icc]; omega)]
        simp
  · have : ∀ k ∈ Finset.Icc 1 n, simi' i k * sim' k j = simi i k * sim' k j := by
      intro k hk
      rw [Finset.mem_Icc] at hk
      rw [hi i k hi1 hi2 hk.1 hk.2, if_neg hib]
    rw [Finset.sum_congr rfl this, hrow i hi1 hi2]
    by_cases hjb : j = b
    · rw [if_pos hjb, if_neg hib, if_neg (by omega)]
    · rw [if_neg hjb, if_neg hib, ite_self, sub_zero]

/-- What `switchSim` computes. -/
theorem switchSim_eq (n b : Nat) (h1 : 1 ≤ b) (hb : b ≤ n) (sim simi : Nat → Nat → K) :
    (∀ k j, 1 ≤ k → k ≤ n → 1 ≤ j → j ≤ n →
      (switchSim n b (sim, simi)).1 k j = if j = b then -sim k b else sim k j - sim k b) ∧
    (∀ k, 1 ≤ k → k ≤ n → (switchSim n b (sim, simi)).1 k (n + 1) = sim k (n + 1) + sim k b) ∧
    (∀ i k, 1 ≤ i → i ≤ n → 1 ≤ k → k ≤ n →
      (switchSim n b (sim, simi)).2 i k = if i = b then -∑ l ∈ Finset.Icc 1 n, simi l k else simi i k) := by
  have key : (switchSim n b (sim, simi)) = (fun k j =>
      if 1 ≤ k ∧ k ≤ n then (if j = b then -sim k b else if 1 ≤ j ∧ j ≤ n then sim k j - sim k b else if j = n + 1 then sim k (n + 1) + sim k b else sim k j) else sim k j,
      fun i k => if 1 ≤ k ∧ k ≤ n then (if i = b then -∑ l ∈ Finset.Icc 1 n, simi l k else simi i k) else simi i k) := by
    unfold switchSim
    refine up_inv (fun q (ss : (Nat → Nat → K) × (Nat → Nat → K)) => ss = (fun k j =>
      if 1 ≤ k ∧ k ≤ q then (if j = b then -sim k b else if 1 ≤ j ∧ j ≤ n then sim k j - sim k b else if j = n + 1 then sim k (n + 1) + sim k b else sim k j) else sim k j,
      fun i k => if 1 ≤ k ∧ k ≤ q then (if i = b then -∑ l ∈ Finset.Icc 1 n, simi l k else simi i k) else simi i k)) n ?_ ?_
    · ext
      · dsimp only; rw [if_neg (by omega)]
      · dsimp only; rw [if_neg (by omega)]
    · rintro q _ ss rfl
      dsimp only
      have hi0 : ∀ l, (if 1 ≤ q + 1 ∧ q + 1 ≤ q then (if l = b then -∑ l ∈ Finset.Icc 1 n, simi l (q + 1) else simi l (q + 1)) else simi l (q + 1)) = simi l (q + 1) := fun l => if_neg (by omega)
      simp only [hi0]
      rw [if_neg (by omega : ¬ (1 ≤ q + 1 ∧ q + 1 ≤ q))]
      generalize hA : (fun k j => if 1 ≤ k ∧ k ≤ q then (if j = b then -sim k b else if 1 ≤ j ∧ j ≤ n then sim k j - sim k b else if j = n + 1 then sim k (n + 1) + sim k b else sim k j) else sim k j) = A
      have hAq : ∀ j, A (q + 1) j = sim (q + 1) j := by
        intro j; rw [← hA]; exact if_neg (by omega)
      have hAr : ∀ k j, ¬ k = q + 1 → A k j = if 1 ≤ k ∧ k ≤ q + 1 then (if j = b then -sim k b else if 1 ≤ j ∧ j ≤ n then sim k j - sim k b else if j = n + 1 then sim k (n + 1) + sim k b else sim k j) else sim k j := by
        intro k j hk
        rw [← hA]
        dsimp only
        by_cases h : 1 ≤ k ∧ k ≤ q
        · rw [if_pos h, if_pos (show 1 ≤ k ∧ k ≤ q + 1 by omega)]
        · rw [if_neg h, if_neg (by omega)]
      generalize hB : set2 (set2 A (q + 1) b 0) (q + 1) (n + 1) (set2 A (q + 1) b 0 (q + 1) (n + 1) + sim (q + 1) b) = B
      have hB1 : ∀ j, B (q + 1) j = if j = b then 0 else if j = n + 1 then sim (q + 1) (n + 1) + sim (q + 1) b else sim (q + 1) j := by
        intro j
        rw [← hB]
        simp only [set2]
        by_cases hj : j = n + 1
        · subst hj
          rw [if_pos ⟨trivial, rfl⟩, if_neg (by omega), if_neg (by omega), if_pos rfl, hAq]
        · rw [if_neg (by tauto)]
          by_cases hj2 : j = b
          · rw [if_pos ⟨trivial, hj2⟩, if_pos hj2]
          · rw [if_neg (by tauto), if_neg hj2, if_neg hj, hAq]
      have hB2 : ∀ k j, ¬ k = q + 1 → B k j = A k j := by
        intro k j hk
        rw [← hB]
        simp only [set2]
        rw [if_neg (by tauto), if_neg (by tauto)]
      have hloop : up n (fun k (st : (Nat → Nat → K) × K) => (set2 st.1 (q + 1) k (st.1 (q + 1) k - sim (q + 1) b), st.2 - simi k (q + 1))) (B, 0) =
          (fun k l => if k = q + 1 ∧ 1 ≤ l ∧ l ≤ n then B (q + 1) l - sim (q + 1) b else B k l, -∑ l ∈ Finset.Icc 1 n, simi l (q + 1)) := by
        refine up_inv (fun r (st : (Nat → Nat → K) × K) => st = (fun k l => if k = q + 1 ∧ 1 ≤ l ∧ l ≤ r then B (q + 1) l - sim (q + 1) b else B k l, -∑ l ∈ Finset.Icc 1 r, simi l (q + 1))) n ?_ ?_
        · ext
          · dsimp only; rw [if_neg (by omega)]
          · simp
        · rintro r _ st rfl
          refine Prod.ext ?_ ?_
          · funext k l
            simp only [set2]
            by_cases h1 : k = q + 1 ∧ l = r + 1
            · obtain ⟨rfl, rfl⟩ := h1
              rw [if_pos ⟨rfl, rfl⟩, if_neg (by omega), if_pos (by omega)]
            · rw [if_neg h1]
              by_cases h2 : k = q + 1 ∧ 1 ≤ l ∧ l ≤ r
              · rw [if_pos h2, if_pos (by omega)]
              · rw [if_neg h2, if_neg (by omega)]
          · dsimp only
            rw [Finset.sum_Icc_succ_top (by omega)]
            ring
      rw [hloop]
      refine Prod.ext ?_ ?_
      · funext k l
        dsimp only
        by_cases hk : k = q + 1
        · subst hk
          rw [if_pos (by omega : 1 ≤ q + 1 ∧ q + 1 ≤ q + 1), hB1]
          by_cases hl : 1 ≤ l ∧ l ≤ n
          · rw [if_pos ⟨rfl, hl⟩]
            by_cases hlb : l = b
            · rw [if_pos hlb, if_pos hlb, zero_sub]
            · rw [if_neg hlb, if_neg hlb, if_neg (by omega), if_pos hl]
          · rw [if_neg (by tauto), if_neg (by omega : ¬ l = b), if_neg (by omega : ¬ l = b), if_neg hl]
        · rw [if_neg (by tauto), hB2 k l hk, hAr k l hk]
      · funext i k
        simp only [set2]
        by_cases hk : k = q + 1
        · subst hk
          rw [if_pos (by omega : 1 ≤ q + 1 ∧ q + 1 ≤ q + 1)]
          by_cases hi : i = b
          · rw [if_pos ⟨hi, rfl⟩, if_pos hi]
          · rw [if_neg (by tauto), if_neg hi, if_neg (by omega)]
        · rw [if_neg (by tauto)]
          by_cases h : 1 ≤ k ∧ k ≤ q
          · rw [if_pos h, if_pos (show 1 ≤ k ∧ k ≤ q + 1 by omega)]
          · rw [if_neg h, if_neg (by omega)]
  rw [key]
  refine ⟨fun k j hk hk' hj hj' => ?_, fun k hk hk' => ?_, fun i k hi hi' hk hk' => ?_⟩
  · dsimp only
    rw [if_pos ⟨hk, hk'⟩, if_pos (⟨hj, hj'⟩ : 1 ≤ j ∧ j ≤ n)]
  · dsimp only
    rw [if_pos ⟨hk, hk'⟩, if_neg (by omega), if_neg (by omega), if_pos rfl]
  · dsimp only
    rw [if_pos ⟨hk, hk'⟩]

theorem Inv.switchSim {n b : Nat} (h1 : 1 ≤ b) (hb : b ≤ n) {sim simi : Nat → Nat → K} (h : Inv n sim simi) :
    Inv n (switchSim n b (sim, simi)).1 (switchSim n b (sim, simi)).2 := by
  obtain ⟨e1, -, e3⟩ := switchSim_eq n b h1 hb sim simi
  refine h.pole n h1 hb le_rfl (fun k j hk hk' hj hj' => ?_) e3
  rw [e1 k j hk hk' hj hj', if_pos hj']

/-- What `exchangeRow` computes. -/
theorem exchangeRow_eq (jd : Nat) (rho : K) (sim simi : Nat → Nat → K) :
    exchangeRow jd rho (sim, simi) =
      (fun k l => if k = jd ∧ 1 ≤ l ∧ l ≤ jd then -rho else sim k l,
       fun k l => if k = jd ∧ 1 ≤ l ∧ l ≤ jd then -∑ i ∈ Finset.Icc l jd, simi i l else simi k l) := by
  unfold exchangeRow
  refine up_inv (fun q (ss : (Nat → Nat → K) × (Nat → Nat → K)) => ss = (fun k l => if k = jd ∧ 1 ≤ l ∧ l ≤ q then -rho else sim k l,
       fun k l => if k = jd ∧ 1 ≤ l ∧ l ≤ q then -∑ i ∈ Finset.Icc l jd, simi i l else simi k l)) jd ?_ ?_
  · ext
    · dsimp only; rw [if_neg (by omega)]
    · dsimp only; rw [if_neg (by omega)]
  · rintro q hq ss rfl
    refine Prod.ext ?_ ?_
    · funext k l
      simp only [set2]
      by_cases h1 : k = jd ∧ l = q + 1
      · rw [if_pos h1, if_pos (by omega)]
      · rw [if_neg h1]
        by_cases h2 : k = jd ∧ 1 ≤ l ∧ l ≤ q
        · rw [if_pos h2, if_pos (by omega)]
        · rw [if_neg h2, if_neg (by omega)]
    · funext k l
      simp only [set2]
      by_cases h1 : k = jd ∧ l = q + 1
      · rw [if_pos h1, if_pos (by omega)]
        obtain ⟨rfl, rfl⟩ := h1
        have : ∀ r, loop (fun i t => t - if q + 1 + i = k ∧ 1 ≤ q + 1 ∧ q + 1 ≤ q then -∑ i ∈ Finset.Icc (q + 1) k, simi i (q + 1) else simi (q + 1 + i) (q + 1)) r 0 =
            -∑ i ∈ Finset.Ico (q + 1) (q + 1 + r), simi i (q + 1) := by
          intro r
          induction r with
          | zero => simp [loop]
          | succ r ih =>
            show loop _ r 0 - _ = _
            rw [ih, if_neg (by omega), ← Nat.add_assoc, Finset.sum_Ico_succ_top (by omega)]
            ring
        rw [this]
        congr 1
        apply Finset.sum_congr ?_ fun _ _ => rfl
        ext i
        rw [Finset.mem_Ico, Finset.mem_Icc]
        omega
      · rw [if_neg h1]
        by_cases h2 : k = jd ∧ 1 ≤ l ∧ l ≤ q
        · rw [if_pos h2, if_pos (by omega)]
        · rw [if_neg h2, if_neg (by omega)]

/-- What `initSimplex` computes. -/
theorem initSimplex_eq (n : Nat) (rho : K) (x : Nat → K) (sim simi : Nat → Nat → K) :
    (∀ k j, 1 ≤ k → k ≤ n → 1 ≤ j → j ≤ n → (initSimplex n rho x (sim, simi)).1 k j = if k = j then rho else 0) ∧
    (∀ k, 1 ≤ k → k ≤ n → (initSimplex n rho x (sim, simi)).1 k (n + 1) = x k) ∧
    (∀ k j, 1 ≤ k → k ≤ n → 1 ≤ j → j ≤ n → (initSimplex n rho x (sim, simi)).2 k j = if k = j then 1 / rho else 0) := by
  have key := up_inv (s := (sim, simi)) (body := fun i ss =>
    let ss := (set2 ss.1 i (n + 1) (x i), ss.2)
    let ss := up n (fun j (ss : (Nat → Nat → K) × (Nat → Nat → K)) => (set2 ss.1 i j 0, set2 ss.2 i j 0)) ss
    (set2 ss.1 i i rho, set2 ss.2 i i (1 / rho)))
    (fun q (ss : (Nat → Nat → K) × (Nat → Nat → K)) =>
      (∀ k j, 1 ≤ k → k ≤ q → 1 ≤ j → j ≤ n → ss.1 k j = if k = j then rho else 0) ∧
      (∀ k, 1 ≤ k → k ≤ q → ss.1 k (n + 1) = x k) ∧
      (∀ k j, 1 ≤ k → k ≤ q → 1 ≤ j → j ≤ n → ss.2 k j = if k = j then 1 / rho else 0)) n
    ⟨by intros; omega, by intros; omega, by intros; omega⟩ ?_
  · exact key
  · rintro q hq ⟨A, B⟩ ⟨ha, hx, hb⟩
    dsimp only at ha hx hb ⊢
    have hrow : up n (fun j (ss : (Nat → Nat → K) × (Nat → Nat → K)) => (set2 ss.1 (q + 1) j 0, set2 ss.2 (q + 1) j 0)) (set2 A (q + 1) (n + 1) (x (q + 1)), B) =
        (fun k l => if k = q + 1 ∧ 1 ≤ l ∧ l ≤ n then 0 else set2 A (q + 1) (n + 1) (x (q + 1)) k l, fun k l => if k = q + 1 ∧ 1 ≤ l ∧ l ≤ n then 0 else B k l) := by
      refine up_inv (fun r (ss : (Nat → Nat → K) × (Nat → Nat → K)) => ss =
        (fun k l => if k = q + 1 ∧ 1 ≤ l ∧ l ≤ r then 0 else set2 A (q + 1) (n + 1) (x (q + 1)) k l, fun k l => if k = q + 1 ∧ 1 ≤ l ∧ l ≤ r then 0 else B k l)) n ?_ ?_
      · ext
        · dsimp only; rw [if_neg (by omega)]
        · dsimp only; rw [if_neg (by omega)]
      · rintro r _ ss rfl
        refine Prod.ext ?_ ?_
        all_goals
          funext k l
          dsimp only
          rw [set2]
          by_cases h1 : k = q + 1 ∧ l = r + 1
          · rw [if_pos h1, if_pos (by omega)]
          · rw [if_neg h1]
            by_cases h2 : k = q + 1 ∧ 1 ≤ l ∧ l ≤ r
            · rw [if_pos h2, if_pos (by omega)]
            · rw [if_neg h2, if_neg (by omega)]
    rw [hrow]
    dsimp only
    refine ⟨fun k j hk hk' hj hj' => ?_, fun k hk hk' => ?_, fun k j hk hk' hj hj' => ?_⟩
    · simp only [set2]
      by_cases h1 : k = q + 1
      · by_cases h2 : j = q + 1
        · rw [if_pos ⟨h1, h2⟩, if_pos (by omega)]
        · rw [if_neg (by tauto), if_pos ⟨h1, hj, hj'⟩, if_neg (by omega)]
      · rw [if_neg (by tauto), if_neg (by tauto), if_neg (by tauto), ha k j hk (by omega) hj hj']
    · simp only [set2]
      by_cases h1 : k = q + 1
      · rw [if_neg (by omega), if_neg (by omega), if_pos ⟨h1, trivial⟩, h1]
      · rw [if_neg (by tauto), if_neg (by tauto), if_neg (by tauto), hx k hk (by omega)]
    · simp only [set2]
      by_cases h1 : k = q + 1
      · by_cases h2 : j = q + 1
        · rw [if_pos ⟨h1, h2⟩, if_pos (by omega)]
        · rw [if_neg (by tauto), if_pos ⟨h1, hj, hj'⟩, if_neg (by omega)]
      · rw [if_neg (by tauto), if_neg (by tauto), hb k j hk (by omega) hj hj']

/-- The error of the inverse is zero. -/
theorem inverseError_eq {n : Nat} {sim simi : Nat → Nat → K} (h : Inv n sim simi) : inverseError n sim simi = 0 := by
  unfold inverseError
  refine up_inv (fun _ (e : K) => e = 0) n rfl ?_
  rintro i hi e rfl
  refine up_inv (fun _ (e : K) => e = 0) n rfl ?_
  rintro j hj e rfl
  dsimp only
  rw [up_sum, h (i + 1) (j + 1) (by omega) (by omega) (by omega) (by omega)]
  have : (if i + 1 = j + 1 then (-1 : K) else 0) + (if i + 1 = j + 1 then 1 else 0) = 0 := by split_ifs <;> simp
  rw [this, ExactMath.fabs_eq, abs_zero]
  simp [cmax]

end
end Opk.Cobyla
