import Verif.Linalg.Level2
/-!
# `trmv` and `trsv`

The properties of the routines, and examples.
-/
set_option linter.unusedSectionVars false
set_option linter.unusedSimpArgs false
set_option linter.constructorNameAsVariable false
set_option linter.unusedTactic false
namespace Opk.Linalg
open Finset

/-- The element is strictly in the triangle. -/
def strict (uplo : Uplo) (i j : Nat) : Prop := if uplo = .upper then i < j else j < i

instance (uplo : Uplo) (i j : Nat) : Decidable (strict uplo i j) := by unfold strict; infer_instance

/-- The element is used: it is strictly in the triangle, or it is on the diagonal and the diagonal is not assumed to be one. -/
def used (uplo : Uplo) (diag : Diag) (i j : Nat) : Prop := strict uplo i j ∨ (i = j ∧ diag ≠ .unit)

/-- The elements of the triangular matrix of which `A` has the elements of one triangle. -/
def triangular {K : Type} [Zero K] [One K] (uplo : Uplo) (diag : Diag) (A : Nat → Nat → K) (i j : Nat) : K :=
  if i = j then (if diag = .unit then 1 else A i i) else if strict uplo i j then A i j else 0

/-- The elements of `op(T)`. -/
def transposed {K : Type} (trans : Trans) (T : Nat → Nat → K) (i j : Nat) : K := if trans = .noTrans then T i j else T j i

/-- No element of `x` is a used element of the matrix. -/
def Separate (uplo : Uplo) (diag : Diag) (n : Nat) (a lda x incx : Int) : Prop :=
  ∀ i j k : Nat, i < n → j < n → k < n → used uplo diag i j → slot x n incx k ≠ elem a lda i j

section any
variable {F : Type} [Add F] [Sub F] [Mul F] [Div F] [Neg F] [Zero F] [One F] [DecidableEq F]

theorem triArgs_code (uplo : Uplo) (trans : Trans) (diag : Diag) (n lda incx : Int) :
    triArgs uplo trans diag n lda incx =
      if ¬uplo.valid then .error 1 else if ¬trans.valid then .error 2 else if ¬diag.valid then .error 3
      else if n < 0 then .error 4 else if lda < max 1 n then .error 6 else if incx = 0 then .error 8 else if n = 0 then .error 0
      else .ok (decide (uplo = .upper), decide (trans = .noTrans), decide (diag ≠ .unit)) := by
  have h6 : (lda < n ∨ lda < 1) ↔ lda < max 1 n := by omega
  unfold triArgs Uplo.valid Trans.valid Diag.valid
  simp only [h6]
  rcases uplo with _ | _ | v
  · rcases trans with _ | _ | _ | w
    · rcases diag with _ | _ | z <;> rfl
    · rcases diag with _ | _ | z <;> rfl
    · rcases diag with _ | _ | z <;> rfl
    · rfl
  · rcases trans with _ | _ | _ | w
    · rcases diag with _ | _ | z <;> rfl
    · rcases diag with _ | _ | z <;> rfl
    · rcases diag with _ | _ | z <;> rfl
    · rfl
  · rfl

/-- C44: the returned code is the rank of the first illegal argument (the checks of `OPK_TRMV` and
`OPK_TRSV` are the same) and then nothing is modified. -/
theorem tri_code (uplo : Uplo) (trans : Trans) (diag : Diag) (n a lda x incx : Int) (mem : Mem F) :
    (trmv uplo trans diag n a lda x incx mem).1 =
      (if ¬uplo.valid then 1 else if ¬trans.valid then 2 else if ¬diag.valid then 3 else if n < 0 then 4
        else if lda < max 1 n then 6 else if incx = 0 then 8 else 0) ∧
    (trsv uplo trans diag n a lda x incx mem).1 = (trmv uplo trans diag n a lda x incx mem).1 ∧
    ((trmv uplo trans diag n a lda x incx mem).1 ≠ 0 →
      (trmv uplo trans diag n a lda x incx mem).2 = mem ∧ (trsv uplo trans diag n a lda x incx mem).2 = mem) := by
  unfold trmv trsv
  rw [triArgs_code]
  have hif : ∀ (b : Bool) (u v : Mem F), (if b then ((0 : Int), u) else (0, v)).1 = 0 := by intro b u v; cases b <;> rfl
  split_ifs <;> first | exact ⟨rfl, rfl, fun _ => ⟨rfl, rfl⟩⟩ | exact ⟨hif _ _ _, (hif _ _ _).trans (hif _ _ _).symm, fun h => absurd (hif _ _ _) h⟩

/-- The kind of operations for legal arguments. -/
theorem tri_body {uplo : Uplo} {trans : Trans} {diag : Diag} {n : Nat} {lda incx : Int} (hu : uplo.valid) (ht : trans.valid) (hd : diag.valid)
    (hl : max 1 (n : Int) ≤ lda) (hx : incx ≠ 0) (a x : Int) (mem : Mem F) :
    (trmv uplo trans diag n a lda x incx mem).2
      = (if trans = .noTrans then mulN else mulT) (fun i => slot x n incx (flip (uplo = .upper) n i))
          (fun i j => elem a lda (flip (uplo = .upper) n i) (flip (uplo = .upper) n j)) (diag ≠ .unit) n mem ∧
    (trsv uplo trans diag n a lda x incx mem).2
      = (if trans = .noTrans then solN else solT) (fun i => slot x n incx (flip (uplo = .upper) n i))
          (fun i j => elem a lda (flip (uplo = .upper) n i) (flip (uplo = .upper) n j)) (diag ≠ .unit) n mem := by
  have h4 : ¬(n : Int) < 0 := by omega
  have h6 : ¬lda < max 1 (n : Int) := by omega
  unfold trmv trsv
  rw [triArgs_code, if_neg (not_not.2 hu), if_neg (not_not.2 ht), if_neg (not_not.2 hd), if_neg h4, if_neg h6, if_neg hx]
  by_cases h0 : n = 0
  · subst h0
    rw [if_pos (by rfl)]
    by_cases h : trans = .noTrans
    · simp only [if_pos h]; exact ⟨rfl, rfl⟩
    · simp only [if_neg h]; exact ⟨rfl, rfl⟩
  · rw [if_neg (by omega)]
    have hk : (if incx ≥ 0 then (1 : Int) else 1 + (1 - (n : Int)) * incx) = 1 + start0 n incx := by
      unfold start0; split <;> ring
    simp only [hk]
    have hn : 0 < n := by omega
    constructor
    · by_cases h : trans = .noTrans
      · simp only [h, decide_true, if_true]
        exact trmvN_eq _ _ hn a lda x incx mem
      · simp only [h, decide_false, if_false, Bool.false_eq_true]
        exact trmvT_eq _ _ hn a lda x incx mem
    · by_cases h : trans = .noTrans
      · simp only [h, decide_true, if_true]
        exact trsvN_eq _ _ hn a lda x incx mem
      · simp only [h, decide_false, if_false, Bool.false_eq_true]
        exact trsvT_eq _ _ hn a lda x incx mem

/-- C44: only the elements of `x` are modified, in any arithmetic. -/
theorem tri_frame (uplo : Uplo) (trans : Trans) (diag : Diag) (n a lda x incx : Int) (mem : Mem F) {p : Int}
    (hp : ∀ k : Nat, k < n → p ≠ slot x n incx k) :
    (trmv uplo trans diag n a lda x incx mem).2 p = mem p ∧ (trsv uplo trans diag n a lda x incx mem).2 p = mem p := by
  obtain ⟨hc, -, hz⟩ := tri_code uplo trans diag n a lda x incx mem
  by_cases h0 : (trmv uplo trans diag n a lda x incx mem).1 ≠ 0
  · rw [(hz h0).1, (hz h0).2]; exact ⟨rfl, rfl⟩
  rw [hc] at h0
  have hv : uplo.valid ∧ trans.valid ∧ diag.valid ∧ 0 ≤ n ∧ max 1 n ≤ lda ∧ incx ≠ 0 := by
    split_ifs at h0 <;> first | omega | skip
    rename_i h1 h2 h3 h4 h5 h6
    exact ⟨h1, h2, h3, by omega, by omega, h6⟩
  obtain ⟨hu, ht, hd, hn, hl, hx⟩ := hv
  obtain ⟨N, rfl⟩ : ∃ N : Nat, n = N := ⟨n.toNat, by omega⟩
  obtain ⟨b1, b2⟩ := tri_body (n := N) hu ht hd hl hx a x mem
  rw [b1, b2]
  have hf := canon_frame (fun i => slot x N incx (flip (uplo = .upper) N i)) (fun i j => elem a lda (flip (uplo = .upper) N i) (flip (uplo = .upper) N j))
    (diag ≠ .unit) N mem p fun k hk => hp _ (by have := flip_lt (upper := decide (uplo = .upper)) hk; omega)
  obtain ⟨f1, f2, f3, f4⟩ := hf
  by_cases h : trans = .noTrans
  · simp only [if_pos h]; exact ⟨f1, f3⟩
  · simp only [if_neg h]; exact ⟨f2, f4⟩

theorem flip_strict {uplo : Uplo} (hu : uplo.valid) {n i j : Nat} (hi : i < n) (hj : j < n) :
    flip (uplo = .upper) n i < flip (uplo = .upper) n j ↔ strict uplo i j := by
  unfold flip strict
  rcases uplo with _ | _ | v
  · simp
  · simp; omega
  · exact hu.elim

/-- C44: only the used elements of the matrix matter (in particular the other triangle may hold
anything), in any arithmetic. -/
theorem tri_reads {uplo : Uplo} {trans : Trans} {diag : Diag} {n : Nat} {lda incx : Int} (hu : uplo.valid) (ht : trans.valid) (hd : diag.valid)
    (hl : max 1 (n : Int) ≤ lda) (hx : incx ≠ 0) (a x : Int) (mem mem' : Mem F)
    (hX : ∀ k < n, mem (slot x n incx k) = mem' (slot x n incx k))
    (hA : ∀ i j, i < n → j < n → used uplo diag i j → mem (elem a lda i j) = mem' (elem a lda i j)) {k : Nat} (hk : k < n) :
    (trmv uplo trans diag n a lda x incx mem).2 (slot x n incx k) = (trmv uplo trans diag n a lda x incx mem').2 (slot x n incx k) ∧
    (trsv uplo trans diag n a lda x incx mem).2 (slot x n incx k) = (trsv uplo trans diag n a lda x incx mem').2 (slot x n incx k) := by
  obtain ⟨b1, b2⟩ := tri_body hu ht hd hl hx a x mem
  obtain ⟨c1, c2⟩ := tri_body hu ht hd hl hx a x mem'
  rw [b1, b2, c1, c2]
  have hf := canon_reads (fun i => slot x n incx (flip (uplo = .upper) n i)) (fun i j => elem a lda (flip (uplo = .upper) n i) (flip (uplo = .upper) n j))
    (diag ≠ .unit) n (fun p => (∃ k, k < n ∧ p = slot x n incx k) ∨ ∃ i j, i < n ∧ j < n ∧ used uplo diag i j ∧ p = elem a lda i j) mem mem'
    (fun k hk => Or.inl ⟨_, flip_lt hk, rfl⟩)
    (fun i j hij hj => Or.inr ⟨_, _, flip_lt (by omega), flip_lt hj, Or.inl ((flip_strict hu (flip_lt (by omega)) (flip_lt hj)).1 (by
      rw [flip_flip (by omega), flip_flip hj]; exact hij)), rfl⟩)
    (fun hd j hj => Or.inr ⟨_, _, flip_lt hj, flip_lt hj, Or.inr ⟨rfl, of_decide_eq_true hd⟩, rfl⟩)
    (by
      rintro p (⟨k, hk, rfl⟩ | ⟨i, j, hi, hj, hij, rfl⟩)
      · exact hX k hk
      · exact hA i j hi hj hij)
  obtain ⟨f1, f2, f3, f4⟩ := hf
  by_cases h : trans = .noTrans
  · simp only [if_pos h]; exact ⟨f1 _ (Or.inl ⟨k, hk, rfl⟩), f3 _ (Or.inl ⟨k, hk, rfl⟩)⟩
  · simp only [if_neg h]; exact ⟨f2 _ (Or.inl ⟨k, hk, rfl⟩), f4 _ (Or.inl ⟨k, hk, rfl⟩)⟩

theorem separate_tri {uplo : Uplo} {diag : Diag} {n : Nat} {a lda x incx : Int} (hu : uplo.valid) (hx : incx ≠ 0) (h : Separate uplo diag n a lda x incx) :
    Tri (fun i => slot x n incx (flip (uplo = .upper) n i)) (fun i j => elem a lda (flip (uplo = .upper) n i) (flip (uplo = .upper) n j)) (diag ≠ .unit) n where
  inj i k hi hk hne := slot_ne hx x n (by
    intro e
    have := congrArg (flip (uplo = .upper) n) e
    rw [flip_flip hi, flip_flip hk] at this
    exact hne this)
  off i j k hij hj hk := h _ _ _ (flip_lt (by omega)) (flip_lt hj) (flip_lt hk) (Or.inl ((flip_strict hu (flip_lt (by omega)) (flip_lt hj)).1 (by
      rw [flip_flip (by omega), flip_flip hj]; exact hij)))
  diag hd j k hj hk := h _ _ _ (flip_lt hj) (flip_lt hj) (flip_lt hk) (Or.inr ⟨rfl, of_decide_eq_true hd⟩)

end any

section exact
variable {K : Type} [Field K] [DecidableEq K]

theorem sum_flip (upper : Bool) (n : Nat) (f : Nat → K) : ∑ l ∈ range n, f (flip upper n l) = ∑ l ∈ range n, f l := by
  cases upper with
  | true => exact sum_congr rfl fun l _ => by unfold flip; rfl
  | false => exact sum_desc f n

theorem up_flip {uplo : Uplo} (hu : uplo.valid) (diag : Diag) {n : Nat} (a lda : Int) (mem : Mem K) {i j : Nat} (hi : i < n) (hj : j < n) :
    up (fun i j => elem a lda (flip (uplo = .upper) n i) (flip (uplo = .upper) n j)) (diag ≠ .unit) mem (flip (uplo = .upper) n i) (flip (uplo = .upper) n j)
      = triangular uplo diag (fun i j => mem (elem a lda i j)) i j := by
  unfold up triangular
  beta_reduce
  rw [flip_flip hi, flip_flip hj]
  have h1 : (flip (uplo = .upper) n i = flip (uplo = .upper) n j) ↔ i = j := by
    constructor
    · intro e
      have := congrArg (flip (uplo = .upper) n) e
      rwa [flip_flip hi, flip_flip hj] at this
    · rintro rfl; rfl
  simp only [h1, flip_strict hu hi hj]
  by_cases hd : diag = .unit <;> simp [hd]

/-- C44: `trmv` computes `x := op(T)*x`. -/
theorem trmv_spec {uplo : Uplo} {trans : Trans} {diag : Diag} {n : Nat} {a lda x incx : Int} (hu : uplo.valid) (ht : trans.valid) (hd : diag.valid)
    (hl : max 1 (n : Int) ≤ lda) (hx : incx ≠ 0) (hs : Separate uplo diag n a lda x incx) (mem : Mem K) {i : Nat} (hi : i < n) :
    (trmv uplo trans diag n a lda x incx mem).2 (slot x n incx i)
      = ∑ j ∈ range n, transposed trans (triangular uplo diag fun i j => mem (elem a lda i j)) i j * mem (slot x n incx j) := by
  rw [(tri_body hu ht hd hl hx a x mem).1]
  have hT := separate_tri hu hx hs
  have e : slot x n incx i = (fun i => slot x n incx (flip (uplo = .upper) n i)) (flip (uplo = .upper) n i) := by
    show _ = slot x n incx _
    rw [flip_flip hi]
  rw [← sum_flip (decide (uplo = .upper))]
  unfold transposed
  by_cases h : trans = .noTrans
  · rw [if_pos h, e, mulN_spec hT mem (flip_lt hi)]
    apply sum_congr rfl
    intro l hl
    rw [mem_range] at hl
    rw [if_pos h, ← up_flip hu diag a lda mem hi (flip_lt hl), flip_flip hl]
  · rw [if_neg h, e, mulT_spec hT mem (flip_lt hi)]
    apply sum_congr rfl
    intro l hl
    rw [mem_range] at hl
    rw [if_neg h, ← up_flip hu diag a lda mem (flip_lt hl) hi, flip_flip hl]

/-- C44: `trsv` computes the solution of `op(T)*x = b`, if the diagonal has no zero. -/
theorem trsv_spec {uplo : Uplo} {trans : Trans} {diag : Diag} {n : Nat} {a lda x incx : Int} (hu : uplo.valid) (ht : trans.valid) (hd : diag.valid)
    (hl : max 1 (n : Int) ≤ lda) (hx : incx ≠ 0) (hs : Separate uplo diag n a lda x incx) (mem : Mem K)
    (hr : diag ≠ .unit → ∀ j < n, mem (elem a lda j j) ≠ 0) {i : Nat} (hi : i < n) :
    ∑ j ∈ range n, transposed trans (triangular uplo diag fun i j => mem (elem a lda i j)) i j * (trsv uplo trans diag n a lda x incx mem).2 (slot x n incx j)
      = mem (slot x n incx i) := by
  rw [(tri_body hu ht hd hl hx a x mem).2]
  have hT := separate_tri hu hx hs
  have hR : Regular (fun i j => elem a lda (flip (uplo = .upper) n i) (flip (uplo = .upper) n j)) (diag ≠ .unit) n mem :=
    fun hd j hj => hr (of_decide_eq_true hd) _ (flip_lt hj)
  have e : slot x n incx i = (fun i => slot x n incx (flip (uplo = .upper) n i)) (flip (uplo = .upper) n i) := by
    show _ = slot x n incx _
    rw [flip_flip hi]
  rw [← sum_flip (decide (uplo = .upper))]
  unfold transposed
  by_cases h : trans = .noTrans
  · rw [if_pos h, e, ← solN_spec hT mem hR (flip_lt hi)]
    apply sum_congr rfl
    intro l hl
    rw [mem_range] at hl
    rw [if_pos h, ← up_flip hu diag a lda mem hi (flip_lt hl), flip_flip hl]
  · rw [if_neg h, e, ← solT_spec hT mem hR (flip_lt hi)]
    apply sum_congr rfl
    intro l hl
    rw [mem_range] at hl
    rw [if_neg h, ← up_flip hu diag a lda mem (flip_lt hl) hi, flip_flip hl]

/-- The matrix is not changed by the operations on `x`. -/
theorem triangular_congr {uplo : Uplo} {diag : Diag} {n : Nat} {a lda : Int} {mem mem' : Mem K}
    (h : ∀ i j, i < n → j < n → used uplo diag i j → mem' (elem a lda i j) = mem (elem a lda i j)) {i j : Nat} (hi : i < n) (hj : j < n) :
    triangular uplo diag (fun i j => mem' (elem a lda i j)) i j = triangular uplo diag (fun i j => mem (elem a lda i j)) i j := by
  unfold triangular
  split
  · rename_i e
    subst e
    split
    · rfl
    · rename_i hd
      exact h i i hi hj (Or.inr ⟨rfl, hd⟩)
  · split
    · rename_i hs
      exact h i j hi hj (Or.inl hs)
    · rfl

/-- A triangular system has at most one solution. -/
theorem triangular_unique {uplo : Uplo} (hu : uplo.valid) (trans : Trans) (diag : Diag) {n : Nat} {A : Nat → Nat → K}
    (hr : diag ≠ .unit → ∀ j < n, A j j ≠ 0) {u v : Nat → K}
    (h : ∀ i < n, ∑ j ∈ range n, transposed trans (triangular uplo diag A) i j * u j = ∑ j ∈ range n, transposed trans (triangular uplo diag A) i j * v j) :
    ∀ i < n, u i = v i := by
  -- the matrix is upper or lower triangular
  have hd : ∀ i < n, transposed trans (triangular uplo diag A) i i ≠ 0 := by
    intro i hi
    unfold transposed triangular
    simp only [if_true, ite_self]
    split
    · exact one_ne_zero
    · rename_i h'
      exact hr h' i hi
  have hz : (∀ i j, j < i → transposed trans (triangular uplo diag A) i j = 0) ∨ (∀ i j, i < j → transposed trans (triangular uplo diag A) i j = 0) := by
    unfold transposed triangular strict
    rcases uplo with _ | _ | w
    · by_cases ht : trans = .noTrans
      · left; intro i j hij
        simp only [if_pos ht, if_true]
        rw [if_neg (by omega), if_neg (by omega)]
      · right; intro i j hij
        simp only [if_neg ht, if_true]
        rw [if_neg (by omega), if_neg (by omega)]
    · by_cases ht : trans = .noTrans
      · right; intro i j hij
        simp only [if_pos ht, if_true, reduceCtorEq, if_false]
        rw [if_neg (by omega), if_neg (by omega)]
      · left; intro i j hij
        simp only [if_neg ht, if_true, reduceCtorEq, if_false]
        rw [if_neg (by omega), if_neg (by omega)]
    · exact hu.elim
  generalize transposed trans (triangular uplo diag A) = M at h hd hz
  have hsub : ∀ i < n, ∑ j ∈ range n, M i j * (u j - v j) = 0 := by
    intro i hi
    simp only [mul_sub, sum_sub_distrib]
    rw [h i hi, sub_self]
  rcases hz with hz | hz
  · have hrec : ∀ d, ∀ i, i < n → n - 1 - i = d → u i = v i := by
      intro d
      induction d using Nat.strong_induction_on with
      | _ d ih =>
        intro i hi hd'
        have e := hsub i hi
        rw [sum_eq_single i] at e
        · rcases mul_eq_zero.1 e with e | e
          · exact absurd e (hd i hi)
          · exact sub_eq_zero.1 e
        · intro j hj hne
          rw [mem_range] at hj
          rcases lt_or_gt_of_ne hne with h' | h'
          · rw [hz i j h', zero_mul]
          · rw [ih (n - 1 - j) (by omega) j hj rfl, sub_self, mul_zero]
        · intro hn
          exact absurd (mem_range.2 hi) hn
    exact fun i hi => hrec _ i hi rfl
  · intro i
    induction i using Nat.strong_induction_on with
    | _ i ih =>
      intro hi
      have e := hsub i hi
      rw [sum_eq_single i] at e
      · rcases mul_eq_zero.1 e with e | e
        · exact absurd e (hd i hi)
        · exact sub_eq_zero.1 e
      · intro j hj hne
        rw [mem_range] at hj
        rcases lt_or_gt_of_ne hne with h' | h'
        · rw [ih j h' (by omega), sub_self, mul_zero]
        · rw [hz i j h', zero_mul]
      · intro hn
        exact absurd (mem_range.2 hi) hn

/-- C44: the product and the solution are inverse of each other. -/
theorem trmv_trsv {uplo : Uplo} {trans : Trans} {diag : Diag} {n : Nat} {a lda x incx : Int} (hu : uplo.valid) (ht : trans.valid) (hd : diag.valid)
    (hl : max 1 (n : Int) ≤ lda) (hx : incx ≠ 0) (hs : Separate uplo diag n a lda x incx) (mem : Mem K)
    (hr : diag ≠ .unit → ∀ j < n, mem (elem a lda j j) ≠ 0) :
    (trmv uplo trans diag n a lda x incx (trsv uplo trans diag n a lda x incx mem).2).2 = mem ∧
    (trsv uplo trans diag n a lda x incx (trmv uplo trans diag n a lda x incx mem).2).2 = mem := by
  have hfS := fun p hp => (tri_frame uplo trans diag n a lda x incx mem (p := p) hp).2
  have hfM := fun p hp => (tri_frame uplo trans diag n a lda x incx mem (p := p) hp).1
  have hAS : ∀ i j, i < n → j < n → used uplo diag i j → (trsv uplo trans diag n a lda x incx mem).2 (elem a lda i j) = mem (elem a lda i j) :=
    fun i j hi hj hij => hfS _ fun k hk => (hs i j k hi hj (by omega) hij).symm
  have hAM : ∀ i j, i < n → j < n → used uplo diag i j → (trmv uplo trans diag n a lda x incx mem).2 (elem a lda i j) = mem (elem a lda i j) :=
    fun i j hi hj hij => hfM _ fun k hk => (hs i j k hi hj (by omega) hij).symm
  have cong : ∀ (mem' : Mem K), (∀ i j, i < n → j < n → used uplo diag i j → mem' (elem a lda i j) = mem (elem a lda i j)) → ∀ i j, i < n → j < n →
      transposed trans (triangular uplo diag fun i j => mem' (elem a lda i j)) i j = transposed trans (triangular uplo diag fun i j => mem (elem a lda i j)) i j := by
    intro mem' h i j hi hj
    unfold transposed
    split
    · exact triangular_congr h hi hj
    · exact triangular_congr h hj hi
  constructor
  · funext p
    by_cases hp : ∀ k : Nat, (k : Int) < n → p ≠ slot x n incx k
    · rw [(tri_frame uplo trans diag n a lda x incx _ hp).1, hfS p hp]
    · push Not at hp
      obtain ⟨k, hk, rfl⟩ := hp
      rw [trmv_spec hu ht hd hl hx hs _ (by omega : k < n), ← trsv_spec hu ht hd hl hx hs mem hr (i := k) (by omega)]
      apply sum_congr rfl
      intro j hj
      rw [mem_range] at hj
      rw [cong _ hAS k j (by omega) hj]
  · funext p
    by_cases hp : ∀ k : Nat, (k : Int) < n → p ≠ slot x n incx k
    · rw [(tri_frame uplo trans diag n a lda x incx _ hp).2, hfM p hp]
    · push Not at hp
      obtain ⟨k, hk, rfl⟩ := hp
      refine triangular_unique (n := n) (A := fun i j => mem (elem a lda i j)) hu trans diag hr (u := fun k => (trsv uplo trans diag n a lda x incx (trmv uplo trans diag n a lda x incx mem).2).2 (slot x n incx k))
        (v := fun k => mem (slot x n incx k)) ?_ k (by exact_mod_cast hk)
      intro i hi
      rw [← trmv_spec hu ht hd hl hx hs mem hi, ← trsv_spec hu ht hd hl hx hs (trmv uplo trans diag n a lda x incx mem).2 ?_ hi]
      · apply sum_congr rfl
        intro j hj
        rw [mem_range] at hj
        rw [cong _ hAM i j hi hj]
      · intro hd' j hj
        rw [hAM j j hj hj (Or.inr ⟨rfl, hd'⟩)]
        exact hr hd' j hj

end exact

/-! ### Examples -/
section examples

/-- A memory with a 3×3 matrix of leading dimension 4 at address 0 and a vector at address 20 with increment -2. -/
def triMem : Mem ℚ := fun p =>
  match p with
  | 0 => 2 | 1 => 1 | 2 => -1 | 4 => 3 | 5 => -1 | 6 => 4 | 8 => 5 | 9 => 2 | 10 => 7
  | 20 => 1 | 22 => -2 | 24 => 3 | _ => 99

theorem triMem_separate (uplo : Uplo) (diag : Diag) : Separate uplo diag 3 0 4 20 (-2) := by
  intro i j k hi hj hk _
  have hi' : i = 0 ∨ i = 1 ∨ i = 2 := by omega
  have hj' : j = 0 ∨ j = 1 ∨ j = 2 := by omega
  have hk' : k = 0 ∨ k = 1 ∨ k = 2 := by omega
  unfold slot elem
  rcases hi' with rfl | rfl | rfl <;> rcases hj' with rfl | rfl | rfl <;> rcases hk' with rfl | rfl | rfl <;> decide

/-- Upper triangle: `x = (3, -2, 1)`, first row `(2, 3, 5)`. -/
example : (trmv .upper .noTrans .nonUnit 3 0 4 20 (-2) triMem).2 (slot 20 3 (-2) 0) = 2 * 3 + 3 * (-2) + 5 * 1 := by decide +kernel

/-- Lower unit triangle, transposed: first row `(1, 1, -1)`. -/
example : (trmv .lower .trans .unit 3 0 4 20 (-2) triMem).2 (slot 20 3 (-2) 0) = 1 * 3 + 1 * (-2) + (-1) * 1 := by decide +kernel

/-- Solution and product. -/
example : (trmv .lower .trans .nonUnit 3 0 4 20 (-2) (trsv .lower .trans .nonUnit 3 0 4 20 (-2) triMem).2).2 = triMem := by
  refine (trmv_trsv (by trivial) (by trivial) (by trivial) (by decide) (by decide) (triMem_separate _ _) triMem ?_).1
  intro _ j hj
  have hj' : j = 0 ∨ j = 1 ∨ j = 2 := by omega
  rcases hj' with rfl | rfl | rfl <;> (unfold elem triMem; decide +kernel)

/-- `y := 2*A'*x - y` with the same matrix. -/
example : (gemv .trans 3 3 2 0 4 20 (-2) (-1) 40 1 triMem).2 41 = 2 * (3 * 3 + (-1) * (-2) + 4 * 1) - 99 := by decide +kernel

/-- With no column, `y` is not multiplied by `beta`. -/
example : (gemv .noTrans 3 0 2 0 4 20 (-2) (-1) 40 1 triMem) = (0, triMem) := by
  exact Prod.ext (gemv_code _ _ _ _ _ _ _ _ _ _ _ _).1 (gemv_empty (Or.inr rfl) _ _ _ _ _ _)

end examples
end Opk.Linalg
