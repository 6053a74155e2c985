import Verif.Linalg.Model3
import Verif.Linalg.Gemv
import Mathlib.Tactic.NormNum
/-!
# Matrix-matrix products and symmetric updates

What `gemm` and `syrk` compute.
-/
set_option linter.unusedSectionVars false
set_option linter.unusedSimpArgs false
set_option linter.constructorNameAsVariable false
set_option linter.unusedTactic false
namespace Opk.Linalg
open Finset

/-- Distinct rows and columns are at distinct addresses. -/
theorem elem_ne {c ldc : Int} {i j i' j' : Nat} (hi : (i : Int) < ldc) (hi' : (i' : Int) < ldc) (h : i ≠ i' ∨ j ≠ j') :
    elem c ldc i j ≠ elem c ldc i' j' := by
  intro e
  unfold elem at e
  have e1 : (j : Int) * ldc + i = j' * ldc + i' := by linarith
  have hpos : 0 < ldc := by omega
  have e2 : (j : Int) = j' := by
    have := congrArg (· / ldc) e1
    beta_reduce at this
    rw [show (j : Int) * ldc + i = i + j * ldc by ring, show (j' : Int) * ldc + i' = i' + j' * ldc by ring, Int.add_mul_ediv_right _ _ (by omega),
      Int.add_mul_ediv_right _ _ (by omega), Int.ediv_eq_zero_of_lt (by omega) hi, Int.ediv_eq_zero_of_lt (by omega) hi'] at this
    omega
  rw [e2] at e1
  omega

section any
variable {F : Type} [Add F] [Sub F] [Mul F] [Div F] [Neg F] [Zero F] [One F] [DecidableEq F]

theorem forUp_range {α : Type} (lo hi : Nat) (body : Int → α → α) (s : α) :
    forUp lo hi 1 body s = loop (fun k => body ((lo + k : Nat) : Int)) (hi - lo) s := by
  unfold forUp
  rw [trips_one, show ((hi : Int) - lo).toNat = hi - lo by omega]
  simp only [mul_one, Nat.cast_add]

/-- Columns treated one after the other: `C i j` for `lo j ≤ i < hi j` are the elements of the column `j`. -/
theorem cols_spec (C : Nat → Nat → Int) (lo hi : Nat → Nat) (body : Nat → Mem F → Mem F) (v : Nat → Nat → F) (n : Nat) (mem : Mem F)
    (hC : ∀ i j i' j', lo j ≤ i → i < hi j → lo j' ≤ i' → i' < hi j' → j < j' → j' < n → C i j ≠ C i' j')
    (hb : ∀ j < n, ∀ m, (∀ p, (∀ i j', j' < j → lo j' ≤ i → i < hi j' → p ≠ C i j') → m p = mem p) →
      (∀ i, lo j ≤ i → i < hi j → body j m (C i j) = v i j) ∧ ∀ p, (∀ i, lo j ≤ i → i < hi j → p ≠ C i j) → body j m p = m p) :
    (∀ j < n, ∀ i, lo j ≤ i → i < hi j → loop body n mem (C i j) = v i j) ∧
    ∀ p, (∀ i j, j < n → lo j ≤ i → i < hi j → p ≠ C i j) → loop body n mem p = mem p := by
  refine loop_inv (fun c (m : Mem F) => (∀ j < c, ∀ i, lo j ≤ i → i < hi j → m (C i j) = v i j) ∧
    ∀ p, (∀ i j, j < c → lo j ≤ i → i < hi j → p ≠ C i j) → m p = mem p) n ⟨fun j h => absurd h (by omega), fun _ _ => rfl⟩ ?_
  rintro c hc m ⟨h1, h2⟩
  obtain ⟨b1, b2⟩ := hb c hc m h2
  constructor
  · intro j hj i hi1 hi2
    rcases Nat.lt_succ_iff_lt_or_eq.1 hj with h | h
    · rw [b2 _ fun i' hi'1 hi'2 => hC i j i' c hi1 hi2 hi'1 hi'2 h hc, h1 j h i hi1 hi2]
    · subst h
      exact b1 i hi1 hi2
  · intro p hp
    rw [b2 p fun i h1 h2 => hp i c (by omega) h1 h2, h2 p fun i j hj h1 h2 => hp i j (by omega) h1 h2]

theorem combineCol_eq (lo hi : Nat) (k : Int) (alpha beta : F) (A : Int → Int → Int) (B : Int → Int) (C : Int → Int) (mem : Mem F) :
    combineCol lo hi k alpha beta A B C mem = loop (fun (l : Nat) (m : Mem F) =>
      if m (B l) ≠ 0 then
        loop (fun r m' => put m' (C ((lo + r : Nat) : Int)) (m' (C ((lo + r : Nat) : Int)) + alpha * m (B l) * m' (A ((lo + r : Nat) : Int) l))) (hi - lo) m
      else m) k.toNat (scaleCol lo hi beta C mem) := by
  unfold combineCol
  dsimp only
  rw [forUp_one]
  simp only [forUp_range]

/-- The columns only modify their own elements, in any arithmetic. -/
theorem cols_frame (lo hi : Nat) (k : Int) (alpha beta : F) (A : Int → Int → Int) (B : Int → Int) (C : Int → Int) (mem : Mem F) (p : Int)
    (hp : ∀ i : Nat, lo ≤ i → i < hi → p ≠ C i) :
    combineCol lo hi k alpha beta A B C mem p = mem p ∧ productCol lo hi k alpha beta A B C mem p = mem p ∧ scaleCol lo hi beta C mem p = mem p := by
  have put_ne : ∀ (m : Mem F) (l : Nat) (v : F), l < hi - lo → put m (C ((lo + l : Nat) : Int)) v p = m p := by
    intro m l v hl
    unfold put
    rw [if_neg (hp _ (by omega) (by omega))]
  have hs : scaleCol lo hi beta C mem p = mem p := by
    unfold scaleCol
    rw [forUp_range, forUp_range]
    split
    · exact loop_frame' fun l hl m => put_ne m l _ hl
    split
    · exact loop_frame' fun l hl m => put_ne m l _ hl
    · rfl
  refine ⟨?_, ?_, hs⟩
  · rw [combineCol_eq]
    refine (loop_frame' ?_).trans hs
    intro l hl m
    beta_reduce
    split
    · exact loop_frame' fun l hl m => put_ne m l _ hl
    · rfl
  · unfold productCol
    rw [forUp_range]
    refine loop_frame' fun l hl m => ?_
    show (if beta = 0 then _ else _ : Mem F) p = _
    split
    · exact put_ne m l _ hl
    · exact put_ne m l _ hl

/-- One of the two kinds of updates of a column. -/
def updateCol (combine : Bool) (lo hi k : Int) (alpha beta : F) (A : Int → Int → Int) (B : Int → Int) (C : Int → Int) (mem : Mem F) : Mem F :=
  if combine then combineCol lo hi k alpha beta A B C mem else productCol lo hi k alpha beta A B C mem

/-- All the columns. -/
def update (combine : Bool) (n : Nat) (lo hi : Nat → Nat) (k : Int) (alpha beta : F) (A B C : Int → Int → Int) (mem : Mem F) : Mem F :=
  loop (fun j mem => updateCol combine (lo j) (hi j) k alpha beta A (fun l => B l j) (fun i => C i j) mem) n mem

theorem update_frame (combine : Bool) (n : Nat) (lo hi : Nat → Nat) (k : Int) (alpha beta : F) (A B C : Int → Int → Int) (mem : Mem F) (p : Int)
    (hp : ∀ i j : Nat, j < n → lo j ≤ i → i < hi j → p ≠ C i j) : update combine n lo hi k alpha beta A B C mem p = mem p := by
  refine loop_frame' ?_
  intro j hj m
  have := cols_frame (lo j) (hi j) k alpha beta A (fun l => B l j) (fun i => C i j) m p fun i h1 h2 => hp i j hj h1 h2
  unfold updateCol
  split
  · exact this.1
  · exact this.2.1

theorem scaleAll_eq (n : Nat) (lo hi : Nat → Nat) (lo' hi' : Int → Int) (hlo : ∀ j : Nat, j < n → lo' j = lo j) (hhi : ∀ j : Nat, j < n → hi' j = hi j)
    (beta : F) (C : Int → Int → Int) (mem : Mem F) :
    scaleAll n lo' hi' beta C mem = loop (fun (j : Nat) mem =>
      loop (fun (r : Nat) mem => put mem (C ((lo j + r : Nat) : Int) j) (if beta = 0 then 0 else mem (C ((lo j + r : Nat) : Int) j) * beta)) (hi j - lo j) mem) n mem := by
  unfold scaleAll
  by_cases h : beta = 0
  · simp only [if_pos h, forUp_one, Int.toNat_natCast]
    apply loop_congr
    intro j hj m
    rw [hlo j hj, hhi j hj, forUp_range]
  · simp only [if_neg h, forUp_one, Int.toNat_natCast]
    apply loop_congr
    intro j hj m
    rw [hlo j hj, hhi j hj, forUp_range]

theorem scaleAll_frame (n : Nat) (lo hi : Nat → Nat) (lo' hi' : Int → Int) (hlo : ∀ j : Nat, j < n → lo' j = lo j) (hhi : ∀ j : Nat, j < n → hi' j = hi j)
    (beta : F) (C : Int → Int → Int) (mem : Mem F) (p : Int) (hp : ∀ i j : Nat, j < n → lo j ≤ i → i < hi j → p ≠ C i j) :
    scaleAll n lo' hi' beta C mem p = mem p := by
  rw [scaleAll_eq n lo hi lo' hi' hlo hhi]
  exact loop_frame' fun j hj m => loop_frame _ _ _ _ _ fun r hr => hp _ j hj (by omega) (by omega)

/-- C45: the returned code and the operations of `gemm`.  For an illegal second argument, the code is 1, not 2. -/
theorem gemm_body (transa transb : Trans) (m n k : Int) (alpha : F) (a lda b ldb : Int) (beta : F) (c ldc : Int) (mem : Mem F) :
    gemm transa transb m n k alpha a lda b ldb beta c ldc mem =
      if ¬transa.valid then (1, mem) else if ¬transb.valid then (1, mem) else if m < 0 then (3, mem) else if n < 0 then (4, mem)
      else if k < 0 then (5, mem) else if lda < max 1 (rows transa m k) then (8, mem) else if ldb < max 1 (rows transb k n) then (10, mem)
      else if ldc < max 1 m then (13, mem)
      else if m = 0 ∨ n = 0 ∨ (beta = 1 ∧ (alpha = 0 ∨ k = 0)) then (0, mem)
      else if alpha = 0 then (0, scaleAll n (fun _ => 0) (fun _ => m) beta (fun i j => c + (i + ldc * j)) mem)
      else (0, update (transa = .noTrans) n.toNat (fun _ => 0) (fun _ => m.toNat) k alpha beta (fun i j => a + (i + lda * j))
        (fun l j => if transb = .noTrans then b + (l + ldb * j) else b + (j + ldb * l)) (fun i j => c + (i + ldc * j)) mem) := by
  have h8 : ∀ u v : Int, (u < 1 ∨ u < v) ↔ u < max 1 v := by intro u v; omega
  have hcol : ¬m < 0 → ∀ (nota notb : Bool), forUp 0 n 1 (fun j mem =>
        if notb then
          if nota then combineCol 0 m k alpha beta (fun i j => a + (i + lda * j)) (fun l => b + (l + ldb * j)) (fun i => c + (i + ldc * j)) mem
          else productCol 0 m k alpha beta (fun i j => a + (i + lda * j)) (fun l => b + (l + ldb * j)) (fun i => c + (i + ldc * j)) mem
        else
          if nota then combineCol 0 m k alpha beta (fun i j => a + (i + lda * j)) (fun l => b + (j + ldb * l)) (fun i => c + (i + ldc * j)) mem
          else productCol 0 m k alpha beta (fun i j => a + (i + lda * j)) (fun l => b + (j + ldb * l)) (fun i => c + (i + ldc * j)) mem) mem
      = update nota n.toNat (fun _ => 0) (fun _ => m.toNat) k alpha beta (fun i j => a + (i + lda * j))
        (fun l j => if notb then b + (l + ldb * j) else b + (j + ldb * l)) (fun i j => c + (i + ldc * j)) mem := by
    intro hm nota notb
    unfold update updateCol
    rw [forUp_one]
    have e1 : ((m.toNat : Nat) : Int) = m := by omega
    simp only [e1, Nat.cast_zero]
    cases nota <;> cases notb <;> rfl
  unfold gemm Trans.valid rows
  simp only [h8]
  by_cases hm : m < 0
  · cases transa <;> cases transb <;> simp [hm]
  · have u1 := hcol hm true true
    have u2 := hcol hm true false
    have u3 := hcol hm false true
    have u4 := hcol hm false false
    simp only [if_true, Bool.false_eq_true, if_false] at u1 u2 u3 u4
    cases transa <;> cases transb <;> simp [u1, u2, u3, u4]

/-- C45: only the elements of `C` are modified, in any arithmetic. -/
theorem gemm_frame (transa transb : Trans) (m n k : Int) (alpha : F) (a lda b ldb : Int) (beta : F) (c ldc : Int) (mem : Mem F) (p : Int)
    (hp : ∀ i j : Nat, i < m → j < n → p ≠ elem c ldc i j) : (gemm transa transb m n k alpha a lda b ldb beta c ldc mem).2 p = mem p := by
  rw [gemm_body]
  have hp' : ∀ i j : Nat, j < n.toNat → 0 ≤ i → i < m.toNat → p ≠ c + ((i : Int) + ldc * (j : Int)) := by
    intro i j hj _ hi
    have := hp i j (by omega) (by omega)
    unfold elem at this
    rwa [show (i : Int) + ldc * (j : Int) = (j : Int) * ldc + i by ring]
  by_cases hm : m < 0
  · rw [if_pos hm]
    iterate 2 (split; · rfl)
    rfl
  by_cases hn : n < 0
  · rw [if_pos hn]
    iterate 2 (split; · rfl)
    rfl
  have hs : scaleAll n (fun _ => 0) (fun _ => m) beta (fun i j => c + (i + ldc * j)) mem p = mem p := by
    have := scaleAll_frame n.toNat (fun _ => 0) (fun _ => m.toNat) (fun _ => 0) (fun _ => m) (by simp) (by intro j _; show m = ((m.toNat : Nat) : Int); omega)
      beta (fun i j => c + (i + ldc * j)) mem p hp'
    rwa [show ((n.toNat : Nat) : Int) = n by omega] at this
  have hu := update_frame (transa = .noTrans) n.toNat (fun _ => 0) (fun _ => m.toNat) k alpha beta (fun i j => a + (i + lda * j))
        (fun l j => if transb = .noTrans then b + (l + ldb * j) else b + (j + ldb * l)) (fun i j => c + (i + ldc * j)) mem p hp'
  iterate 7 (split; · rfl)
  split
  · exact hs
  · exact hu

/-- The rows of the column `j` of a triangle. -/
def triLo (uplo : Uplo) (j : Nat) : Nat := if uplo = .upper then 0 else j
def triHi (uplo : Uplo) (n j : Nat) : Nat := if uplo = .upper then j + 1 else n

/-- C45: the returned code and the operations of `syrk`. -/
theorem syrk_body {uplo : Uplo} {trans : Trans} (n k : Int) (alpha : F) (a lda : Int) (beta : F) (c ldc : Int) (mem : Mem F) :
    syrk uplo trans n k alpha a lda beta c ldc mem =
      if ¬uplo.valid then (1, mem) else if ¬trans.valid then (2, mem) else if n < 0 then (3, mem) else if k < 0 then (4, mem)
      else if lda < max 1 (rows trans n k) then (7, mem) else if ldc < max 1 n then (10, mem)
      else if n = 0 ∨ (beta = 1 ∧ (alpha = 0 ∨ k = 0)) then (0, mem)
      else if alpha = 0 then (0, scaleAll n (fun j => triLo uplo j.toNat) (fun j => triHi uplo n.toNat j.toNat) beta (fun i j => c + (j * ldc + i)) mem)
      else (0, update (trans = .noTrans) n.toNat (triLo uplo) (triHi uplo n.toNat) k alpha beta (fun i j => a + (j * ldc + i))
        (fun l j => if trans = .noTrans then a + (l * ldc + j) else a + (j * ldc + l)) (fun i j => c + (j * ldc + i)) mem) := by
  have h8 : ∀ u v : Int, (u < 1 ∨ u < v) ↔ u < max 1 v := by intro u v; omega
  have hsc : ∀ (lo hi lo' hi' : Int → Int), (∀ j : Nat, j < n → lo j = lo' j) → (∀ j : Nat, j < n → hi j = hi' j) →
      scaleAll n lo hi beta (fun i j => c + (j * ldc + i)) mem = scaleAll n lo' hi' beta (fun i j => c + (j * ldc + i)) mem := by
    intro lo hi lo' hi' h1 h2
    unfold scaleAll
    simp only [forUp_one]
    split <;>
    · apply loop_congr
      intro j hj m
      rw [h1 j (by omega), h2 j (by omega)]
  have hup : ∀ (combine : Bool) (B : Int → Int → Int) (lo hi : Int → Int) (lo' hi' : Nat → Nat), (∀ j : Nat, j < n → lo j = lo' j) → (∀ j : Nat, j < n → hi j = hi' j) →
      forUp 0 n 1 (fun j mem => updateCol combine (lo j) (hi j) k alpha beta (fun i j => a + (j * ldc + i)) (fun l => B l j) (fun i => c + (j * ldc + i)) mem) mem
      = update combine n.toNat lo' hi' k alpha beta (fun i j => a + (j * ldc + i)) B (fun i j => c + (j * ldc + i)) mem := by
    intro combine B lo hi lo' hi' h1 h2
    unfold update
    rw [forUp_one]
    apply loop_congr
    intro j hj m
    rw [h1 j (by omega), h2 j (by omega)]
  unfold syrk Trans.valid Uplo.valid rows
  simp only [h8]
  rcases uplo with _ | _ | w
  · have s1 := hsc (fun _ => 0) (fun j => j + 1) (fun j => triLo .upper j.toNat) (fun j => triHi .upper n.toNat j.toNat) (by intro j hj; simp [triLo]) (by intro j hj; simp [triHi])
    have u1 := hup true (fun l j => a + (l * ldc + j)) (fun _ => 0) (fun j => j + 1) (triLo .upper) (triHi .upper n.toNat) (by intro j hj; simp [triLo]) (by intro j hj; simp [triHi])
    have u2 := hup false (fun l j => a + (j * ldc + l)) (fun _ => 0) (fun j => j + 1) (triLo .upper) (triHi .upper n.toNat) (by intro j hj; simp [triLo]) (by intro j hj; simp [triHi])
    unfold updateCol at u1 u2
    simp only [if_true, Bool.false_eq_true, if_false] at u1 u2
    cases trans <;> simp [s1, u1, u2]
  · have s1 := hsc (fun j => j) (fun _ => n) (fun j => triLo .lower j.toNat) (fun j => triHi .lower n.toNat j.toNat) (by intro j hj; simp [triLo]) (by intro j hj; simp [triHi]; omega)
    have u1 := hup true (fun l j => a + (l * ldc + j)) (fun j => j) (fun _ => n) (triLo .lower) (triHi .lower n.toNat) (by intro j hj; simp [triLo]) (by intro j hj; simp [triHi]; omega)
    have u2 := hup false (fun l j => a + (j * ldc + l)) (fun j => j) (fun _ => n) (triLo .lower) (triHi .lower n.toNat) (by intro j hj; simp [triLo]) (by intro j hj; simp [triHi]; omega)
    unfold updateCol at u1 u2
    simp only [if_true, Bool.false_eq_true, if_false] at u1 u2
    cases trans <;> simp [s1, u1, u2]
  · simp

/-- C45: only the elements of one triangle of `C` are modified, in any arithmetic. -/
theorem syrk_frame {uplo : Uplo} {trans : Trans} (n k : Int) (alpha : F) (a lda : Int) (beta : F) (c ldc : Int) (mem : Mem F) (p : Int)
    (hp : ∀ i j : Nat, i < n → j < n → (if uplo = .upper then i ≤ j else j ≤ i) → p ≠ elem c ldc i j) :
    (syrk uplo trans n k alpha a lda beta c ldc mem).2 p = mem p := by
  rw [syrk_body]
  by_cases hn : n < 0
  · rw [if_pos hn]
    iterate 2 (split; · rfl)
    rfl
  have hp' : ∀ i j : Nat, j < n.toNat → triLo uplo j ≤ i → i < triHi uplo n.toNat j → p ≠ c + ((j : Int) * ldc + (i : Int)) := by
    intro i j hj h1 h2
    unfold triLo at h1
    unfold triHi at h2
    refine hp i j ?_ (by omega) ?_
    · split_ifs at h2 <;> omega
    · split_ifs at h1 h2 ⊢ <;> omega
  have hs : scaleAll n (fun j => triLo uplo j.toNat) (fun j => triHi uplo n.toNat j.toNat) beta (fun i j => c + (j * ldc + i)) mem p = mem p := by
    have := scaleAll_frame n.toNat (triLo uplo) (triHi uplo n.toNat) (fun j => triLo uplo j.toNat) (fun j => triHi uplo n.toNat j.toNat) (by simp) (by simp)
      beta (fun i j => c + (j * ldc + i)) mem p hp'
    rwa [show ((n.toNat : Nat) : Int) = n by omega] at this
  have hu := update_frame (trans = .noTrans) n.toNat (triLo uplo) (triHi uplo n.toNat) k alpha beta (fun i j => a + (j * ldc + i))
        (fun l j => if trans = .noTrans then a + (l * ldc + j) else a + (j * ldc + l)) (fun i j => c + (j * ldc + i)) mem p hp'
  iterate 6 (split; · rfl)
  split
  · exact hs
  · exact hu

end any

section exact
variable {K : Type} [Field K] [DecidableEq K]

/-- One column, updated by a combination of columns or by inner products. -/
theorem col_spec {lo hi k : Nat} (alpha beta : K) {A : Int → Int → Int} {B : Int → Int} {C : Int → Int} (mem : Mem K)
    (hC : ∀ i i' : Nat, lo ≤ i → i < hi → lo ≤ i' → i' < hi → i ≠ i' → C i ≠ C i')
    (hA : ∀ i l r : Nat, lo ≤ i → i < hi → l < k → lo ≤ r → r < hi → C r ≠ A i l)
    (hB : ∀ l r : Nat, l < k → lo ≤ r → r < hi → C r ≠ B l) :
    ∀ i : Nat, lo ≤ i → i < hi → combineCol lo hi k alpha beta A B C mem (C i) = alpha * ∑ l ∈ range k, mem (A i l) * mem (B l) + beta * mem (C i) := by
  have h0 : ∀ i : Nat, lo ≤ i → i < hi → scaleCol lo hi beta C mem (C i) = beta * mem (C i) := by
    intro i hi1 hi2
    have gen : ∀ e : K → K, (∀ v, e v = beta * v) → loop (fun l m => put m (C ((lo + l : Nat) : Int)) (e (m (C ((lo + l : Nat) : Int))))) (hi - lo) mem (C i) = beta * mem (C i) := by
      intro e he
      obtain ⟨g1, -⟩ := loop_store (fun l => C ((lo + l : Nat) : Int)) (fun l m => e (m (C ((lo + l : Nat) : Int)))) (fun l => beta * mem (C ((lo + l : Nat) : Int))) (hi - lo) mem
        (fun i l hil hl => hC _ _ (by omega) (by omega) (by omega) (by omega) (by omega))
        (fun l hl m' hm => by
          beta_reduce
          rw [hm _ fun i hi => hC _ _ (by omega) (by omega) (by omega) (by omega) (by omega), he])
      have := g1 (i - lo) (by omega)
      beta_reduce at this
      rw [show lo + (i - lo) = i by omega] at this
      exact this
    unfold scaleCol
    rw [forUp_range, forUp_range]
    split
    · rename_i hb
      exact gen (fun _ => 0) fun v => by rw [hb, zero_mul]
    split
    · exact gen (fun v => v * beta) fun v => mul_comm _ _
    · rename_i _ hb
      rw [not_not] at hb
      rw [hb, one_mul]
  have hf : ∀ p, (∀ r : Nat, lo ≤ r → r < hi → p ≠ C r) → scaleCol lo hi beta C mem p = mem p := fun p hp =>
    (cols_frame lo hi k alpha beta A B C mem p hp).2.2
  have key := loop_inv (f := fun (l : Nat) (m : Mem K) =>
      if m (B l) ≠ 0 then
        loop (fun r m' => put m' (C ((lo + r : Nat) : Int)) (m' (C ((lo + r : Nat) : Int)) + alpha * m (B l) * m' (A ((lo + r : Nat) : Int) l))) (hi - lo) m
      else m) (s := scaleCol lo hi beta C mem)
    (fun c (m : Mem K) => (∀ i : Nat, lo ≤ i → i < hi → m (C i) = alpha * ∑ l ∈ range c, mem (A i l) * mem (B l) + beta * mem (C i)) ∧
      ∀ p, (∀ r : Nat, lo ≤ r → r < hi → p ≠ C r) → m p = mem p) k ⟨fun i h1 h2 => by rw [h0 i h1 h2, sum_range_zero]; ring, hf⟩ ?_
  · intro i hi1 hi2
    rw [combineCol_eq, Int.toNat_natCast]
    exact key.1 i hi1 hi2
  rintro c hc m ⟨h1, h2⟩
  have hBc : m (B c) = mem (B c) := h2 _ fun r hr1 hr2 => (hB c r hc hr1 hr2).symm
  beta_reduce
  rw [hBc]
  by_cases hz : mem (B c) ≠ 0
  · rw [if_pos hz]
    obtain ⟨g1, g2⟩ := loop_store (fun r => C ((lo + r : Nat) : Int)) (fun r m' => m' (C ((lo + r : Nat) : Int)) + alpha * mem (B c) * m' (A ((lo + r : Nat) : Int) c))
      (fun r => m (C ((lo + r : Nat) : Int)) + alpha * mem (B c) * mem (A ((lo + r : Nat) : Int) c)) (hi - lo) m
      (fun i l hil hl => hC _ _ (by omega) (by omega) (by omega) (by omega) (by omega))
      (fun r hr m' hm => by
        beta_reduce
        rw [hm _ fun i hi => hC _ _ (by omega) (by omega) (by omega) (by omega) (by omega),
          hm _ fun i hi => (hA _ c _ (by omega) (by omega) hc (by omega) (by omega)).symm,
          h2 _ fun i hi1 hi2 => (hA _ c _ (by omega) (by omega) hc hi1 hi2).symm])
    constructor
    · intro i hi1 hi2
      have := g1 (i - lo) (by omega)
      beta_reduce at this
      rw [show lo + (i - lo) = i by omega] at this
      rw [this, h1 i hi1 hi2, sum_range_succ]
      ring
    · intro p hp
      rw [g2 p fun r hr => hp _ (by omega) (by omega), h2 p hp]
  · rw [if_neg hz]
    refine ⟨fun i hi1 hi2 => ?_, h2⟩
    rw [h1 i hi1 hi2, sum_range_succ, not_not.1 hz, mul_zero, add_zero]

theorem col_spec' {lo hi k : Nat} (alpha beta : K) {A : Int → Int → Int} {B : Int → Int} {C : Int → Int} (mem : Mem K)
    (hC : ∀ i i' : Nat, lo ≤ i → i < hi → lo ≤ i' → i' < hi → i ≠ i' → C i ≠ C i')
    (hA : ∀ i l r : Nat, lo ≤ i → i < hi → l < k → lo ≤ r → r < hi → C r ≠ A l i)
    (hB : ∀ l r : Nat, l < k → lo ≤ r → r < hi → C r ≠ B l) :
    ∀ i : Nat, lo ≤ i → i < hi → productCol lo hi k alpha beta A B C mem (C i) = alpha * ∑ l ∈ range k, mem (A l i) * mem (B l) + beta * mem (C i) := by
  intro i hi1 hi2
  obtain ⟨g1, -⟩ := loop_store (fun r => C ((lo + r : Nat) : Int))
    (fun r m => if beta = 0 then alpha * loop (fun l temp => temp + m (A l ((lo + r : Nat) : Int)) * m (B l)) k 0
      else alpha * loop (fun l temp => temp + m (A l ((lo + r : Nat) : Int)) * m (B l)) k 0 + beta * m (C ((lo + r : Nat) : Int)))
    (fun r => alpha * ∑ l ∈ range k, mem (A l ((lo + r : Nat) : Int)) * mem (B l) + beta * mem (C ((lo + r : Nat) : Int))) (hi - lo) mem
    (fun i l hil hl => hC _ _ (by omega) (by omega) (by omega) (by omega) (by omega))
    (fun r hr m' hm => by
      beta_reduce
      have e : loop (fun (l : Nat) temp => temp + m' (A l ((lo + r : Nat) : Int)) * m' (B l)) k 0 = ∑ l ∈ range k, mem (A l ((lo + r : Nat) : Int)) * mem (B l) := by
        rw [loop_sum, zero_add]
        apply sum_congr rfl
        intro l hl
        rw [mem_range] at hl
        rw [hm _ fun i hi => (hA _ l _ (by omega) (by omega) hl (by omega) (by omega)).symm, hm _ fun i hi => (hB l _ hl (by omega) (by omega)).symm]
      rw [e, hm _ fun i hi => hC _ _ (by omega) (by omega) (by omega) (by omega) (by omega)]
      split
      · rename_i hb
        rw [hb, zero_mul, add_zero]
      · rfl)
  have e : productCol lo hi k alpha beta A B C mem = loop (fun (r : Nat) m => put m (C ((lo + r : Nat) : Int))
      (if beta = 0 then alpha * loop (fun (l : Nat) temp => temp + m (A l ((lo + r : Nat) : Int)) * m (B l)) k 0
      else alpha * loop (fun (l : Nat) temp => temp + m (A l ((lo + r : Nat) : Int)) * m (B l)) k 0 + beta * m (C ((lo + r : Nat) : Int)))) (hi - lo) mem := by
    unfold productCol
    rw [forUp_range]
    simp only [forUp_one, Int.toNat_natCast]
    apply loop_congr
    intro r hr m
    split <;> rfl
  rw [e]
  have := g1 (i - lo) (by omega)
  beta_reduce at this
  rw [show lo + (i - lo) = i by omega] at this
  exact this

/-- All the columns, for both kinds of updates. -/
theorem update_spec (combine : Bool) {n k : Nat} {lo hi : Nat → Nat} (alpha beta : K) {A B C : Int → Int → Int} (mem : Mem K)
    (hC : ∀ i j i' j' : Nat, j < n → lo j ≤ i → i < hi j → j' < n → lo j' ≤ i' → i' < hi j' → (i ≠ i' ∨ j ≠ j') → C i j ≠ C i' j')
    (hA : ∀ i j l i' j' : Nat, j < n → lo j ≤ i → i < hi j → l < k → j' < n → lo j' ≤ i' → i' < hi j' → C i' j' ≠ if combine then A i l else A l i)
    (hB : ∀ l j i' j' : Nat, l < k → j < n → j' < n → lo j' ≤ i' → i' < hi j' → C i' j' ≠ B l j)
    {i j : Nat} (hj : j < n) (hi1 : lo j ≤ i) (hi2 : i < hi j) :
    update combine n lo hi k alpha beta A B C mem (C i j)
      = alpha * ∑ l ∈ range k, mem (if combine then A i l else A l i) * mem (B l j) + beta * mem (C i j) := by
  refine (cols_spec (fun i j => C i j) lo hi _ (fun i j => alpha * ∑ l ∈ range k, mem (if combine then A i l else A l i) * mem (B l j) + beta * mem (C i j)) n mem
    (fun i j i' j' h1 h2 h3 h4 h5 h6 => hC i j i' j' (by omega) h1 h2 h6 h3 h4 (Or.inr (by omega))) ?_).1 j hj i hi1 hi2
  intro j hj m hm
  refine ⟨?_, ?_⟩
  · intro i hi1 hi2
    have e1 : m (C i j) = mem (C i j) := hm _ fun i' j' h1 h2 h3 => hC i j i' j' hj hi1 hi2 (by omega) h2 h3 (Or.inr (by omega))
    have e2 : ∀ l < k, m (B l j) = mem (B l j) := fun l hl => hm _ fun i' j' h1 h2 h3 => (hB l j i' j' hl hj (by omega) h2 h3).symm
    have e3 : ∀ l < k, m (if combine then A i l else A l i) = mem (if combine then A i l else A l i) :=
      fun l hl => hm _ fun i' j' h1 h2 h3 => (hA i j l i' j' hj hi1 hi2 hl (by omega) h2 h3).symm
    have fin : alpha * ∑ l ∈ range k, m (if combine then A i l else A l i) * m (B l j) + beta * m (C i j)
        = alpha * ∑ l ∈ range k, mem (if combine then A i l else A l i) * mem (B l j) + beta * mem (C i j) := by
      rw [e1]
      congr 2
      apply sum_congr rfl
      intro l hl
      rw [mem_range] at hl
      rw [e2 l hl, e3 l hl]
    rw [← fin]
    unfold updateCol
    cases combine with
    | true =>
      exact col_spec (lo := lo j) (hi := hi j) alpha beta (A := A) (B := fun l => B l j) (C := fun i => C i j) m
        (fun i i' h1 h2 h3 h4 h5 => hC i j i' j hj h1 h2 hj h3 h4 (Or.inl h5))
        (fun i l r h1 h2 h3 h4 h5 => hA i j l r j hj h1 h2 h3 hj h4 h5)
        (fun l r h1 h2 h3 => hB l j r j h1 hj hj h2 h3) i hi1 hi2
    | false =>
      exact col_spec' (lo := lo j) (hi := hi j) alpha beta (A := A) (B := fun l => B l j) (C := fun i => C i j) m
        (fun i i' h1 h2 h3 h4 h5 => hC i j i' j hj h1 h2 hj h3 h4 (Or.inl h5))
        (fun i l r h1 h2 h3 h4 h5 => hA i j l r j hj h1 h2 h3 hj h4 h5)
        (fun l r h1 h2 h3 => hB l j r j h1 hj hj h2 h3) i hi1 hi2
  · intro p hp
    have := cols_frame (lo j) (hi j) k alpha beta A (fun l => B l j) (fun i => C i j) m p hp
    unfold updateCol
    split
    · exact this.1
    · exact this.2.1

theorem scaleAll_spec (n : Nat) (lo hi : Nat → Nat) (lo' hi' : Int → Int) (hlo : ∀ j : Nat, j < n → lo' j = lo j) (hhi : ∀ j : Nat, j < n → hi' j = hi j)
    (beta : K) (C : Int → Int → Int) (mem : Mem K)
    (hC : ∀ i j i' j' : Nat, j < n → lo j ≤ i → i < hi j → j' < n → lo j' ≤ i' → i' < hi j' → (i ≠ i' ∨ j ≠ j') → C i j ≠ C i' j')
    {i j : Nat} (hj : j < n) (hi1 : lo j ≤ i) (hi2 : i < hi j) :
    scaleAll n lo' hi' beta C mem (C i j) = beta * mem (C i j) := by
  rw [scaleAll_eq n lo hi lo' hi' hlo hhi]
  refine (cols_spec (fun i j => C i j) lo hi _ (fun i j => beta * mem (C i j)) n mem
    (fun i j i' j' h1 h2 h3 h4 h5 h6 => hC i j i' j' (by omega) h1 h2 h6 h3 h4 (Or.inr (by omega))) ?_).1 j hj i hi1 hi2
  intro j hj m hm
  obtain ⟨g1, g2⟩ := loop_store (fun r => C ((lo j + r : Nat) : Int) j) (fun r m => if beta = 0 then 0 else m (C ((lo j + r : Nat) : Int) j) * beta)
    (fun r => beta * mem (C ((lo j + r : Nat) : Int) j)) (hi j - lo j) m
    (fun i l hil hl => hC _ j _ j hj (by omega) (by omega) hj (by omega) (by omega) (Or.inl (by omega)))
    (fun r hr m' hm' => by
      beta_reduce
      rw [hm' _ fun i hi => hC _ j _ j hj (by omega) (by omega) hj (by omega) (by omega) (Or.inl (by omega)),
        hm _ fun i' j' h1 h2 h3 => hC _ j i' j' hj (by omega) (by omega) (by omega) h2 h3 (Or.inr (by omega))]
      split
      · rename_i h; rw [h, zero_mul]
      · ring)
  constructor
  · intro i h1 h2
    have := g1 (i - lo j) (by omega)
    beta_reduce at this
    rw [show lo j + (i - lo j) = i by omega] at this
    exact this
  · intro p hp
    exact g2 p fun r hr => hp _ (by omega) (by omega)

/-- C45: `gemm` computes `alpha*op(A)*op(B) + beta*C` for all the transpositions, sizes, leading
dimensions and coefficients, provided that no element of `C` is one of `A` nor of `B`. -/
theorem gemm_spec {transa transb : Trans} (hta : transa.valid) (htb : transb.valid) {m n k : Nat} {lda ldb ldc : Int}
    (hla : max 1 (rows transa m k) ≤ lda) (hlb : max 1 (rows transb k n) ≤ ldb) (hlc : max 1 (m : Int) ≤ ldc) (alpha beta : K) (a b c : Int) (mem : Mem K)
    (hA : ∀ i l i' j' : Nat, i < m → l < k → i' < m → j' < n → elem c ldc i' j' ≠ opElem transa a lda i l)
    (hB : ∀ l j i' j' : Nat, l < k → j < n → i' < m → j' < n → elem c ldc i' j' ≠ opElem transb b ldb l j) {i j : Nat} (hi : i < m) (hj : j < n) :
    gemm transa transb m n k alpha a lda b ldb beta c ldc mem = (0, (gemm transa transb m n k alpha a lda b ldb beta c ldc mem).2) ∧
    (gemm transa transb m n k alpha a lda b ldb beta c ldc mem).2 (elem c ldc i j)
      = alpha * ∑ l ∈ range k, mem (opElem transa a lda i l) * mem (opElem transb b ldb l j) + beta * mem (elem c ldc i j) := by
  have hc : ∀ i j : Nat, c + ((i : Int) + ldc * (j : Int)) = elem c ldc i j := by intro i j; unfold elem; ring
  have hCC : ∀ i j i' j' : Nat, j < n → 0 ≤ i → i < m → j' < n → 0 ≤ i' → i' < m → (i ≠ i' ∨ j ≠ j') →
      c + ((i : Int) + ldc * (j : Int)) ≠ c + ((i' : Int) + ldc * (j' : Int)) := by
    intro i j i' j' _ _ h1 _ _ h2 h
    rw [hc, hc]
    exact elem_ne (by omega) (by omega) h
  rw [gemm_body, if_neg (not_not.2 hta), if_neg (not_not.2 htb), if_neg (by omega), if_neg (by omega), if_neg (by omega), if_neg (by omega), if_neg (by omega),
    if_neg (by omega)]
  by_cases h1 : (m : Int) = 0 ∨ (n : Int) = 0 ∨ (beta = 1 ∧ (alpha = 0 ∨ (k : Int) = 0))
  · rw [if_pos h1]
    refine ⟨rfl, ?_⟩
    rcases h1 with h | h | ⟨h, h'⟩
    · omega
    · omega
    · show mem _ = _
      rw [h, one_mul]
      rcases h' with h' | h'
      · rw [h', zero_mul, zero_add]
      · rw [show k = 0 by omega, sum_range_zero, mul_zero, zero_add]
  rw [if_neg h1]
  by_cases h2 : alpha = 0
  · rw [if_pos h2]
    refine ⟨rfl, ?_⟩
    have := scaleAll_spec n (fun _ => 0) (fun _ => m) (fun _ => 0) (fun _ => m) (by simp) (by simp) beta (fun i j => c + (i + ldc * j)) mem hCC (i := i) hj (Nat.zero_le i) hi
    beta_reduce at this
    rw [hc] at this
    show scaleAll n (fun _ => 0) (fun _ => m) beta (fun i j => c + (i + ldc * j)) mem _ = _
    rw [this, h2, zero_mul, zero_add]
  · rw [if_neg h2]
    refine ⟨rfl, ?_⟩
    have hAe : ∀ i l : Nat, (if transa = .noTrans then a + ((i : Int) + lda * (l : Int)) else a + ((l : Int) + lda * (i : Int))) = opElem transa a lda i l := by
      intro i l; unfold opElem elem; split <;> ring
    have hBe : ∀ l j : Nat, (if transb = .noTrans then b + ((l : Int) + ldb * (j : Int)) else b + ((j : Int) + ldb * (l : Int))) = opElem transb b ldb l j := by
      intro l j; unfold opElem elem; split <;> ring
    have := update_spec (transa = .noTrans) (n := n) (k := k) (lo := fun _ => 0) (hi := fun _ => m) alpha beta (A := fun i j => a + (i + lda * j))
        (B := fun l j => if transb = .noTrans then b + (l + ldb * j) else b + (j + ldb * l)) (C := fun i j => c + (i + ldc * j)) mem hCC
        (fun i j l i' j' hj _ hi hl hj' _ hi' => by
          simp only [decide_eq_true_eq]
          rw [hc, hAe]; exact hA i l i' j' hi hl hi' hj')
        (fun l j i' j' hl hj hj' _ hi' => by
          rw [hc, hBe]; exact hB l j i' j' hl hj hi' hj') hj (Nat.zero_le i) hi
    simp only [decide_eq_true_eq, hc, hAe, hBe] at this
    exact this

/-- What `syrk` computes: `alpha*op(A)*op(A)' + beta*C` where the elements of `A` are taken with the leading dimension of `C`. -/
theorem syrk_actual {uplo : Uplo} {trans : Trans} (hu : uplo.valid) (ht : trans.valid) {n k : Nat} {lda ldc : Int}
    (hla : max 1 (rows trans n k) ≤ lda) (hlc : max 1 (n : Int) ≤ ldc) (alpha beta : K) (a c : Int) (mem : Mem K)
    (hA : ∀ i l i' j' : Nat, i < n → l < k → i' < n → j' < n → (if uplo = .upper then i' ≤ j' else j' ≤ i') → elem c ldc i' j' ≠ opElem trans a ldc i l)
    {i j : Nat} (hi : i < n) (hj : j < n) (hij : if uplo = .upper then i ≤ j else j ≤ i) :
    syrk uplo trans n k alpha a lda beta c ldc mem = (0, (syrk uplo trans n k alpha a lda beta c ldc mem).2) ∧
    (syrk uplo trans n k alpha a lda beta c ldc mem).2 (elem c ldc i j)
      = alpha * ∑ l ∈ range k, mem (opElem trans a ldc i l) * mem (opElem trans a ldc j l) + beta * mem (elem c ldc i j) := by
  have hc : ∀ i j : Nat, c + ((j : Int) * ldc + (i : Int)) = elem c ldc i j := by intro i j; rfl
  have hIn : ∀ i j : Nat, j < n → triLo uplo j ≤ i → i < triHi uplo n j → i < n ∧ (if uplo = .upper then i ≤ j else j ≤ i) := by
    intro i j hj h1 h2
    unfold triLo at h1
    unfold triHi at h2
    split_ifs at h1 h2 ⊢ <;> omega
  have hIn' : triLo uplo j ≤ i ∧ i < triHi uplo n j := by
    unfold triLo triHi
    split_ifs at hij ⊢ <;> omega
  have hCC : ∀ i j i' j' : Nat, j < n → triLo uplo j ≤ i → i < triHi uplo n j → j' < n → triLo uplo j' ≤ i' → i' < triHi uplo n j' → (i ≠ i' ∨ j ≠ j') →
      c + ((j : Int) * ldc + (i : Int)) ≠ c + ((j' : Int) * ldc + (i' : Int)) := by
    intro i j i' j' hj h1 h1' hj' h2 h2' h
    have q1 := (hIn i j hj h1 h1').1
    have q2 := (hIn i' j' hj' h2 h2').1
    exact elem_ne (c := c) (ldc := ldc) (by omega) (by omega) h
  rw [syrk_body, if_neg (not_not.2 hu), if_neg (not_not.2 ht), if_neg (by omega), if_neg (by omega), if_neg (by omega), if_neg (by omega)]
  by_cases h1 : (n : Int) = 0 ∨ (beta = 1 ∧ (alpha = 0 ∨ (k : Int) = 0))
  · rw [if_pos h1]
    refine ⟨rfl, ?_⟩
    rcases h1 with h | ⟨h, h'⟩
    · omega
    · show mem _ = _
      rw [h, one_mul]
      rcases h' with h' | h'
      · rw [h', zero_mul, zero_add]
      · rw [show k = 0 by omega, sum_range_zero, mul_zero, zero_add]
  rw [if_neg h1, Int.toNat_natCast]
  by_cases h2 : alpha = 0
  · rw [if_pos h2]
    refine ⟨rfl, ?_⟩
    have := scaleAll_spec n (triLo uplo) (triHi uplo n) (fun j => triLo uplo j.toNat) (fun j => triHi uplo n j.toNat) (by simp) (by simp)
      beta (fun i j => c + (j * ldc + i)) mem hCC (i := i) hj hIn'.1 hIn'.2
    beta_reduce at this
    rw [hc] at this
    show scaleAll n (fun j => triLo uplo j.toNat) (fun j => triHi uplo n j.toNat) beta (fun i j => c + (j * ldc + i)) mem _ = _
    rw [this, h2, zero_mul, zero_add]
  · rw [if_neg h2]
    refine ⟨rfl, ?_⟩
    have hAe : ∀ i l : Nat, (if trans = .noTrans then a + ((l : Int) * ldc + (i : Int)) else a + ((i : Int) * ldc + (l : Int))) = opElem trans a ldc i l := by
      intro i l; unfold opElem elem; split <;> rfl
    have := update_spec (trans = .noTrans) (n := n) (k := k) (lo := triLo uplo) (hi := triHi uplo n) alpha beta (A := fun i j => a + (j * ldc + i))
        (B := fun l j => if trans = .noTrans then a + (l * ldc + j) else a + (j * ldc + l)) (C := fun i j => c + (j * ldc + i)) mem hCC
        (fun i j l i' j' hj h1 h2 hl hj' h3 h4 => by
          simp only [decide_eq_true_eq]
          rw [hc, hAe]
          have q := hIn i' j' hj' h3 h4
          exact hA i l i' j' (hIn i j hj h1 h2).1 hl q.1 hj' q.2)
        (fun l j i' j' hl hj hj' h3 h4 => by
          rw [hc, hAe]
          have q := hIn i' j' hj' h3 h4
          exact hA j l i' j' hj hl q.1 hj' q.2) hj hIn'.1 hIn'.2
    simp only [decide_eq_true_eq, hc, hAe] at this
    exact this

/-- C45, the part which holds: `syrk` computes the triangle of `alpha*op(A)*op(A)' + beta*C` when the leading dimensions are equal
(or if `A` has a single column, so that its leading dimension does not matter). -/
theorem syrk_spec_partial {uplo : Uplo} {trans : Trans} (hu : uplo.valid) (ht : trans.valid) {n k : Nat} {lda ldc : Int}
    (hla : max 1 (rows trans n k) ≤ lda) (hlc : max 1 (n : Int) ≤ ldc) (hsame : lda = ldc ∨ cols trans n k ≤ 1) (alpha beta : K) (a c : Int) (mem : Mem K)
    (hA : ∀ i l i' j' : Nat, i < n → l < k → i' < n → j' < n → (if uplo = .upper then i' ≤ j' else j' ≤ i') → elem c ldc i' j' ≠ opElem trans a lda i l)
    {i j : Nat} (hi : i < n) (hj : j < n) (hij : if uplo = .upper then i ≤ j else j ≤ i) :
    syrk uplo trans n k alpha a lda beta c ldc mem = (0, (syrk uplo trans n k alpha a lda beta c ldc mem).2) ∧
    (syrk uplo trans n k alpha a lda beta c ldc mem).2 (elem c ldc i j)
      = alpha * ∑ l ∈ range k, mem (opElem trans a lda i l) * mem (opElem trans a lda j l) + beta * mem (elem c ldc i j) := by
  have e : ∀ i l : Nat, i < n → l < k → opElem trans a lda i l = opElem trans a ldc i l := by
    intro i l hi hl
    rcases hsame with h | h
    · rw [h]
    · unfold cols at h
      unfold opElem elem
      split_ifs at h ⊢
      · rw [show l = 0 by omega]; simp
      · rw [show i = 0 by omega]; simp
  have := syrk_actual hu ht (k := k) hla hlc alpha beta a c mem (fun i l i' j' h1 h2 h3 h4 h5 => by rw [← e i l h1 h2]; exact hA i l i' j' h1 h2 h3 h4 h5) hi hj hij
  refine ⟨this.1, ?_⟩
  rw [this.2]
  congr 2
  apply sum_congr rfl
  intro l hl
  rw [mem_range] at hl
  rw [e i l hi hl, e j l hj hl]

end exact

/-! ### The leading dimension of `syrk`, and examples -/
section examples

/-- C45, the full statement for `syrk` (rational numbers): whatever the leading dimensions. -/
def SyrkCorrect : Prop :=
  ∀ (uplo : Uplo) (trans : Trans), uplo.valid → trans.valid → ∀ (n k : Nat) (lda ldc : Int), max 1 (rows trans n k) ≤ lda → max 1 (n : Int) ≤ ldc →
    ∀ (alpha beta : ℚ) (a c : Int) (mem : Mem ℚ),
    (∀ i l i' j' : Nat, i < n → l < k → i' < n → j' < n → (if uplo = .upper then i' ≤ j' else j' ≤ i') → elem c ldc i' j' ≠ opElem trans a lda i l) →
    ∀ i j : Nat, i < n → j < n → (if uplo = .upper then i ≤ j else j ≤ i) →
    (syrk uplo trans n k alpha a lda beta c ldc mem).2 (elem c ldc i j)
      = alpha * ∑ l ∈ range k, mem (opElem trans a lda i l) * mem (opElem trans a lda j l) + beta * mem (elem c ldc i j)

/-- C45 does not hold for `syrk`: with a 1×2 matrix `A = (3 4)` of leading dimension 1 and `C` of leading dimension 2, the
result is not `3*3 + 4*4`, since the second element of `A` is read past the end of the array. -/
theorem syrk_incorrect : ¬SyrkCorrect := by
  intro h
  have := h .upper .noTrans trivial trivial 1 2 1 2 (by decide) (by decide) 1 0 0 10 (fun p => if p = 0 then 3 else if p = 1 then 4 else 5)
    (by
      intro i l i' j' hi hl hi' hj' _
      unfold opElem elem
      rw [if_pos rfl]
      omega) 0 0 (by decide) (by decide) (by decide)
  revert this
  decide +kernel

/-- A 2×3 matrix of leading dimension 2 at 0, a 3×2 matrix of leading dimension 4 at 10, a 2×2 matrix of leading dimension 3 at 30. -/
def matMem : Mem ℚ := fun p =>
  match p with
  | 0 => 1 | 1 => 2 | 2 => 3 | 3 => 4 | 4 => 5 | 5 => 6
  | 10 => 1 | 11 => -1 | 12 => 2 | 14 => 0 | 15 => 7 | 16 => -3
  | 30 => 100 | 31 => 200 | 33 => 300 | 34 => 400 | _ => 99

/-- `C := 2*A*B - C`. -/
example : (gemm .noTrans .noTrans 2 2 3 2 0 2 10 4 (-1) 30 3 matMem).2 (elem 30 3 1 0) = 2 * (2 * 1 + 4 * (-1) + 6 * 2) - 200 := by decide +kernel

/-- `C := B'*A'`. -/
example : (gemm .trans .conjTrans 2 2 3 1 10 4 0 2 0 30 3 matMem).2 (elem 30 3 0 1) = 1 * 2 + (-1) * 4 + 2 * 6 := by decide +kernel

/-- The lower triangle of `C := A*A' + C` with equal leading dimensions. -/
example : (syrk .lower .noTrans 2 3 1 0 2 1 30 2 matMem).2 (elem 30 2 1 0) = (1 * 2 + 3 * 4 + 5 * 6) + 200 := by decide +kernel

/-- The hypotheses of `gemm_spec` hold. -/
example : (gemm .noTrans .noTrans 2 2 3 2 0 2 10 4 (-1) 30 3 matMem).2 (elem 30 3 1 1)
    = 2 * ∑ l ∈ range 3, matMem (opElem .noTrans 0 2 1 l) * matMem (opElem .noTrans 10 4 l 1) + -1 * matMem (elem 30 3 1 1) := by
  refine (gemm_spec (transa := .noTrans) (transb := .noTrans) (m := 2) (n := 2) (k := 3) trivial trivial (by decide) (by decide) (by decide) 2 (-1) 0 10 30 matMem ?_ ?_ (by decide) (by decide)).2
  · intro i l i' j' h1 h2 h3 h4
    unfold opElem elem
    rw [if_pos rfl]
    omega
  · intro i l i' j' h1 h2 h3 h4
    unfold opElem elem
    rw [if_pos rfl]
    omega

end examples
end Opk.Linalg
