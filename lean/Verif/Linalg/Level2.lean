import Verif.Linalg.Triangular
/-!
# Triangular matrices: products and systems

What `trmv` and `trsv` compute, read and write; they are inverse of each other.
-/
set_option linter.unusedSectionVars false
set_option linter.unusedSimpArgs false
set_option linter.constructorNameAsVariable false
set_option linter.unusedTactic false
namespace Opk.Linalg
open Finset

section any
variable {F : Type} [Add F] [Sub F] [Mul F] [Div F] [Neg F] [Zero F] [One F] [DecidableEq F]

/-- The positions are those of distinct elements, none of which is used in the matrix. -/
structure Tri (X : Nat → Int) (T : Nat → Nat → Int) (nounit : Bool) (n : Nat) : Prop where
  inj : ∀ i k, i < n → k < n → i ≠ k → X i ≠ X k
  off : ∀ i j k, i < j → j < n → k < n → X k ≠ T i j
  diag : nounit = true → ∀ j k, j < n → k < n → X k ≠ T j j

/-- Which elements are modified. -/
theorem canon_frame (X : Nat → Int) (T : Nat → Nat → Int) (nounit : Bool) (n : Nat) (mem : Mem F) (p : Int) (hp : ∀ k < n, p ≠ X k) :
    mulN X T nounit n mem p = mem p ∧ mulT X T nounit n mem p = mem p ∧ solN X T nounit n mem p = mem p ∧ solT X T nounit n mem p = mem p := by
  have put_ne : ∀ (m : Mem F) (k : Nat) (v : F), k < n → put m (X k) v p = m p := by
    intro m k v hk
    unfold put
    rw [if_neg (hp k hk)]
  refine ⟨loop_frame' ?_, loop_frame' ?_, loop_frame' ?_, loop_frame' ?_⟩
  · intro j hj m
    beta_reduce
    split
    · have hl : loop (fun i mem' => put mem' (X i) (mem' (X i) + m (X j) * mem' (T i j))) j m p = m p :=
        loop_frame' fun k hk m' => put_ne _ _ _ (by omega)
      show (if nounit then _ else _ : Mem F) p = _
      split
      · rw [put_ne _ _ _ hj, hl]
      · exact hl
    · rfl
  · intro k hk m
    exact put_ne _ _ _ (by omega)
  · intro k hk m
    beta_reduce
    split
    · refine (loop_frame' fun l hl m' => put_ne _ _ _ (by omega)).trans ?_
      split
      · exact put_ne _ _ _ (by omega)
      · rfl
    · rfl
  · intro j hj m
    exact put_ne _ _ _ hj

/-- Which elements are read: `S` contains those of `x` and the used part of the matrix. -/
theorem canon_reads (X : Nat → Int) (T : Nat → Nat → Int) (nounit : Bool) (n : Nat) (S : Int → Prop) (mem mem' : Mem F)
    (hX : ∀ k < n, S (X k)) (hT : ∀ i j, i < j → j < n → S (T i j)) (hD : nounit = true → ∀ j < n, S (T j j))
    (h : ∀ p, S p → mem p = mem' p) :
    (∀ p, S p → mulN X T nounit n mem p = mulN X T nounit n mem' p) ∧ (∀ p, S p → mulT X T nounit n mem p = mulT X T nounit n mem' p) ∧
    (∀ p, S p → solN X T nounit n mem p = solN X T nounit n mem' p) ∧ (∀ p, S p → solT X T nounit n mem p = solT X T nounit n mem' p) := by
  have hput : ∀ {q q' : Mem F} {b : Int} {v v' : F}, (∀ p, S p → q p = q' p) → v = v' → ∀ p, S p → put q b v p = put q' b v' p :=
    fun h hv p hp => agree_put h hv p (Or.inl hp)
  refine ⟨?_, ?_, ?_, ?_⟩
  · refine loop_rel (fun (q q' : Mem F) => ∀ p, S p → q p = q' p) _ h ?_
    intro j hj q q' hq
    beta_reduce
    rw [hq _ (hX j hj)]
    split
    · have hl := loop_rel (f := fun i (m : Mem F) => put m (X i) (m (X i) + q' (X j) * m (T i j))) (g := fun i (m : Mem F) => put m (X i) (m (X i) + q' (X j) * m (T i j)))
        (fun (q q' : Mem F) => ∀ p, S p → q p = q' p) j hq (fun i hi r r' hr => hput hr (by rw [hr _ (hX i (by omega)), hr _ (hT i j hi hj)]))
      show ∀ p, S p → (if nounit then _ else _ : Mem F) p = (if nounit then _ else _ : Mem F) p
      split
      · rename_i hd
        exact hput hl (by rw [hl _ (hX j hj), hl _ (hD hd j hj)])
      · exact hl
    · exact hq
  · refine loop_rel (fun (q q' : Mem F) => ∀ p, S p → q p = q' p) _ h ?_
    intro k hk q q' hq
    refine hput hq ?_
    have e1 : (if nounit then q (X (n - 1 - k)) * q (T (n - 1 - k) (n - 1 - k)) else q (X (n - 1 - k)))
        = (if nounit then q' (X (n - 1 - k)) * q' (T (n - 1 - k) (n - 1 - k)) else q' (X (n - 1 - k))) := by
      split
      · rename_i hd
        rw [hq _ (hX _ (by omega)), hq _ (hD hd _ (by omega))]
      · rw [hq _ (hX _ (by omega))]
    rw [e1]
    apply loop_congr
    intro l hl s
    rw [hq _ (hX _ (by omega)), hq _ (hT _ _ (by omega) (by omega))]
  · refine loop_rel (fun (q q' : Mem F) => ∀ p, S p → q p = q' p) _ h ?_
    intro k hk q q' hq
    beta_reduce
    rw [hq _ (hX _ (by omega : n - 1 - k < n))]
    split
    · have hd : ∀ p, S p → (if nounit then put q (X (n - 1 - k)) (q' (X (n - 1 - k)) / q (T (n - 1 - k) (n - 1 - k))) else q) p
          = (if nounit then put q' (X (n - 1 - k)) (q' (X (n - 1 - k)) / q' (T (n - 1 - k) (n - 1 - k))) else q') p := by
        split
        · rename_i hd
          exact hput hq (by rw [hq _ (hD hd _ (by omega))])
        · exact hq
      refine loop_rel (fun (q q' : Mem F) => ∀ p, S p → q p = q' p) _ hd ?_
      intro l hl r r' hr
      refine hput hr ?_
      rw [hr _ (hX _ (by omega)), hr _ (hT _ _ (by omega) (by omega)), hd _ (hX _ (by omega))]
    · exact hq
  · refine loop_rel (fun (q q' : Mem F) => ∀ p, S p → q p = q' p) _ h ?_
    intro j hj q q' hq
    refine hput hq ?_
    have e1 : loop (fun i temp => temp - q (T i j) * q (X i)) j (q (X j)) = loop (fun i temp => temp - q' (T i j) * q' (X i)) j (q' (X j)) := by
      rw [hq _ (hX j hj)]
      apply loop_congr
      intro i hi s
      rw [hq _ (hX i (by omega)), hq _ (hT i j hi hj)]
    rw [e1]
    split
    · rename_i hd
      rw [hq _ (hD hd j hj)]
    · rfl

end any

section exact
variable {K : Type} [Field K] [DecidableEq K]

/-- The upper triangular matrix whose elements are at `T i j`. -/
def up (T : Nat → Nat → Int) (nounit : Bool) (mem : Mem K) (i j : Nat) : K :=
  if i = j then (if nounit then mem (T i i) else 1) else if i < j then mem (T i j) else 0

theorem up_diag (T : Nat → Nat → Int) (nounit : Bool) (mem : Mem K) (i : Nat) : up T nounit mem i i = if nounit then mem (T i i) else 1 := by
  unfold up; rw [if_pos rfl]

theorem up_above (T : Nat → Nat → Int) (nounit : Bool) (mem : Mem K) {i j : Nat} (h : i < j) : up T nounit mem i j = mem (T i j) := by
  unfold up; rw [if_neg (by omega), if_pos h]

theorem up_below (T : Nat → Nat → Int) (nounit : Bool) (mem : Mem K) {i j : Nat} (h : j < i) : up T nounit mem i j = 0 := by
  unfold up; rw [if_neg (by omega), if_neg (by omega)]

/-- Sum along a column. -/
theorem up_col (T : Nat → Nat → Int) (nounit : Bool) (mem : Mem K) (f : Nat → K) {n j : Nat} (h : j < n) :
    ∑ l ∈ range n, up T nounit mem l j * f l = up T nounit mem j j * f j + ∑ l ∈ range j, mem (T l j) * f l := by
  obtain ⟨d, rfl⟩ : ∃ d, n = j + 1 + d := ⟨n - (j + 1), by omega⟩
  rw [sum_range_add, sum_range_succ, sum_eq_zero (s := range d), add_zero, add_comm]
  · congr 1
    apply sum_congr rfl
    intro l hl
    rw [up_above T nounit mem (mem_range.1 hl)]
  · intro l _
    rw [up_below T nounit mem (by omega), zero_mul]

variable {X : Nat → Int} {T : Nat → Nat → Int} {nounit : Bool} {n : Nat}

theorem put_self (m : Mem K) (a : Int) (v : K) : put m a v a = v := by unfold put; rw [if_pos rfl]
theorem put_ne (m : Mem K) {a p : Int} (v : K) (h : p ≠ a) : put m a v p = m p := by unfold put; rw [if_neg h]

theorem mulN_spec (h : Tri X T nounit n) (mem : Mem K) {i : Nat} (hi : i < n) :
    mulN X T nounit n mem (X i) = ∑ l ∈ range n, up T nounit mem i l * mem (X l) := by
  have key := loop_inv (f := fun j (mem : Mem K) =>
      if mem (X j) ≠ 0 then
        let mem' := loop (fun i mem' => put mem' (X i) (mem' (X i) + mem (X j) * mem' (T i j))) j mem
        if nounit then put mem' (X j) (mem' (X j) * mem' (T j j)) else mem'
      else mem) (s := mem)
    (fun j (m : Mem K) => (∀ i < j, m (X i) = ∑ l ∈ range j, up T nounit mem i l * mem (X l)) ∧ (∀ i, j ≤ i → i < n → m (X i) = mem (X i)) ∧
      ∀ p, (∀ k < n, p ≠ X k) → m p = mem p) n ⟨fun i hi => absurd hi (by omega), fun _ _ _ => rfl, fun _ _ => rfl⟩ ?_
  · exact key.1 i hi
  rintro j hj m ⟨h1, h2, h3⟩
  have hxj : m (X j) = mem (X j) := h2 j le_rfl hj
  beta_reduce
  rw [hxj]
  have hrow : ∑ l ∈ range (j + 1), up T nounit mem j l * mem (X l) = up T nounit mem j j * mem (X j) := by
    rw [sum_range_succ, sum_eq_zero (s := range j), zero_add]
    intro l hl
    rw [up_below T nounit mem (mem_range.1 hl), zero_mul]
  by_cases h0 : mem (X j) ≠ 0
  · rw [if_pos h0]
    obtain ⟨g1, g2⟩ := loop_store (fun i => X i) (fun i m' => m' (X i) + mem (X j) * m' (T i j)) (fun i => m (X i) + mem (X j) * mem (T i j)) j m
      (fun i k hik hk => h.inj i k (by omega) (by omega) (by omega))
      (fun i hi m' hm => by
        beta_reduce
        rw [hm _ fun k hk => h.inj i k (by omega) (by omega) (by omega), hm _ fun k hk => (h.off i j k hi hj (by omega)).symm,
          h3 _ fun k hk => (h.off i j k hi hj (by omega)).symm])
    generalize loop (fun i mem' => put mem' (X i) (mem' (X i) + mem (X j) * mem' (T i j))) j m = m' at g1 g2
    have gj : m' (X j) = mem (X j) := (g2 _ fun k hk => h.inj j k hj (by omega) (by omega)).trans hxj
    refine ⟨?_, ?_, ?_⟩
    · intro i hi
      rcases Nat.lt_succ_iff_lt_or_eq.1 hi with h' | h'
      · have e1 : m' (X i) = ∑ l ∈ range (j + 1), up T nounit mem i l * mem (X l) := by
          rw [g1 i h', h1 i h', sum_range_succ, up_above T nounit mem h']
          ring
        show (if nounit then _ else _ : Mem K) (X i) = _
        split
        · rw [put_ne _ _ (h.inj i j (by omega) hj (by omega)), e1]
        · exact e1
      · subst h'
        show (if nounit then _ else _ : Mem K) (X i) = _
        rw [hrow, up_diag]
        split
        · rename_i hd
          rw [put_self, gj, g2 _ fun k hk => (h.diag hd i k hj (by omega)).symm, h3 _ fun k hk => (h.diag hd i k hj (by omega)).symm]
          ring
        · rw [gj, one_mul]
    · intro i hi1 hi2
      have e1 : m' (X i) = mem (X i) := by rw [g2 _ fun k hk => h.inj i k hi2 (by omega) (by omega), h2 i (by omega) hi2]
      show (if nounit then _ else _ : Mem K) (X i) = _
      split
      · rw [put_ne _ _ (h.inj i j hi2 hj (by omega)), e1]
      · exact e1
    · intro p hp
      have e1 : m' p = mem p := by rw [g2 _ fun k hk => hp k (by omega), h3 p hp]
      show (if nounit then _ else _ : Mem K) p = _
      split
      · rw [put_ne _ _ (hp j hj), e1]
      · exact e1
  · rw [if_neg h0]
    rw [not_not] at h0
    refine ⟨?_, fun i hi1 hi2 => h2 i (by omega) hi2, h3⟩
    intro i hi
    rcases Nat.lt_succ_iff_lt_or_eq.1 hi with h' | h'
    · rw [h1 i h', sum_range_succ, h0, mul_zero, add_zero]
    · subst h'
      rw [hrow, hxj, h0, mul_zero]

theorem sum_desc (g : Nat → K) (j : Nat) : ∑ l ∈ range j, g (j - 1 - l) = ∑ l ∈ range j, g l := sum_range_reflect g j

theorem mulT_spec (h : Tri X T nounit n) (mem : Mem K) {i : Nat} (hi : i < n) :
    mulT X T nounit n mem (X i) = ∑ l ∈ range n, up T nounit mem l i * mem (X l) := by
  obtain ⟨g1, -⟩ := loop_store (fun k => X (n - 1 - k)) (fun k m => loop (fun l temp => temp + m (T (n - 1 - k - 1 - l) (n - 1 - k)) * m (X (n - 1 - k - 1 - l))) (n - 1 - k)
      (if nounit then m (X (n - 1 - k)) * m (T (n - 1 - k) (n - 1 - k)) else m (X (n - 1 - k))))
    (fun k => ∑ l ∈ range n, up T nounit mem l (n - 1 - k) * mem (X l)) n mem
    (fun i k hik hk => h.inj _ _ (by omega) (by omega) (by omega))
    (fun k hk m hm => by
      beta_reduce
      have hx : ∀ i, i < n - k → m (X i) = mem (X i) := fun i hi => hm _ fun l hl => h.inj _ _ (by omega) (by omega) (by omega)
      have ht : ∀ i j, i < j → j < n → m (T i j) = mem (T i j) := fun i j hi hj => hm _ fun l hl => (h.off i j _ hi hj (by omega)).symm
      rw [loop_sum (fun l => m (T (n - 1 - k - 1 - l) (n - 1 - k)) * m (X (n - 1 - k - 1 - l))),
        sum_desc (fun i => m (T i (n - 1 - k)) * m (X i)) (n - 1 - k), up_col T nounit mem _ (by omega : n - 1 - k < n), up_diag]
      congr 1
      · split
        · rename_i hd
          rw [hx _ (by omega), hm (T _ _) fun l hl => (h.diag hd _ _ (by omega) (by omega)).symm, mul_comm]
        · rw [hx _ (by omega), one_mul]
      · apply sum_congr rfl
        intro l hl
        rw [mem_range] at hl
        rw [hx _ (by omega), ht _ _ hl (by omega)])
  have := g1 (n - 1 - i) (by omega)
  rw [show n - 1 - (n - 1 - i) = i by omega] at this
  exact this

/-- The diagonal has no zero. -/
def Regular (T : Nat → Nat → Int) (nounit : Bool) (n : Nat) (mem : Mem K) : Prop := nounit = true → ∀ j < n, mem (T j j) ≠ 0

theorem solT_spec (h : Tri X T nounit n) (mem : Mem K) (hr : Regular T nounit n mem) {i : Nat} (hi : i < n) :
    ∑ l ∈ range n, up T nounit mem l i * solT X T nounit n mem (X l) = mem (X i) := by
  have key := loop_inv (f := fun j (mem : Mem K) =>
      let temp := loop (fun i temp => temp - mem (T i j) * mem (X i)) j (mem (X j))
      put mem (X j) (if nounit then temp / mem (T j j) else temp)) (s := mem)
    (fun j (m : Mem K) => (∀ i < j, up T nounit mem i i * m (X i) + ∑ l ∈ range i, mem (T l i) * m (X l) = mem (X i)) ∧ (∀ i, j ≤ i → i < n → m (X i) = mem (X i)) ∧
      ∀ p, (∀ k < n, p ≠ X k) → m p = mem p) n ⟨fun i hi => absurd hi (by omega), fun _ _ _ => rfl, fun _ _ => rfl⟩ ?_
  · rw [up_col T nounit mem _ hi]
    exact key.1 i hi
  rintro j hj m ⟨h1, h2, h3⟩
  have hl : ∀ c, loop (fun i temp => temp - m (T i j) * m (X i)) j c = c - ∑ l ∈ range j, m (T l j) * m (X l) := by
    intro c
    have := loop_sum (fun i => -(m (T i j) * m (X i))) j c
    simp only [← sub_eq_add_neg] at this
    rw [this, sum_neg_distrib, sub_eq_add_neg]
  have ht : ∀ i < j, m (T i j) = mem (T i j) := fun i hi => h3 _ fun k hk => (h.off i j k hi hj hk).symm
  refine ⟨?_, ?_, ?_⟩
  · intro i hi
    rcases Nat.lt_succ_iff_lt_or_eq.1 hi with h' | h'
    · rw [← h1 i h']
      beta_reduce
      rw [put_ne _ _ (h.inj i j (by omega) hj (by omega))]
      congr 1
      apply sum_congr rfl
      intro l hl
      rw [mem_range] at hl
      rw [put_ne _ _ (h.inj l j (by omega) hj (by omega))]
    · subst h'
      beta_reduce
      have e : ∑ l ∈ range i, mem (T l i) * put m (X i) (if nounit then loop (fun j temp => temp - m (T j i) * m (X j)) i (m (X i)) / m (T i i)
          else loop (fun j temp => temp - m (T j i) * m (X j)) i (m (X i))) (X l) = ∑ l ∈ range i, m (T l i) * m (X l) := by
        apply sum_congr rfl
        intro l hl
        rw [mem_range] at hl
        rw [put_ne _ _ (h.inj l i (by omega) hj (by omega)), ht l hl]
      show up T nounit mem i i * put m (X i) (if nounit then loop (fun j temp => temp - m (T j i) * m (X j)) i (m (X i)) / m (T i i)
          else loop (fun j temp => temp - m (T j i) * m (X j)) i (m (X i))) (X i) + _ = _
      rw [e, put_self, hl, up_diag, h2 i le_rfl hj]
      split
      · rename_i hd
        rw [h3 (T i i) fun k hk => (h.diag hd i k hj hk).symm]
        have := hr hd i hj
        field_simp
        ring
      · ring
  · intro i hi1 hi2
    beta_reduce
    rw [put_ne _ _ (h.inj i j hi2 hj (by omega)), h2 i (by omega) hi2]
  · intro p hp
    beta_reduce
    rw [put_ne _ _ (hp j hj), h3 p hp]

theorem solN_spec (h : Tri X T nounit n) (mem : Mem K) (hr : Regular T nounit n mem) {i : Nat} (hi : i < n) :
    ∑ l ∈ range n, up T nounit mem i l * solN X T nounit n mem (X l) = mem (X i) := by
  have key := loop_inv (f := fun k (mem : Mem K) =>
      if mem (X (n - 1 - k)) ≠ 0 then
        let mem := if nounit then put mem (X (n - 1 - k)) (mem (X (n - 1 - k)) / mem (T (n - 1 - k) (n - 1 - k))) else mem
        loop (fun l mem' => put mem' (X (n - 1 - k - 1 - l)) (mem' (X (n - 1 - k - 1 - l)) - mem (X (n - 1 - k)) * mem' (T (n - 1 - k - 1 - l) (n - 1 - k))))
          (n - 1 - k) mem
      else mem) (s := mem)
    (fun k (m : Mem K) => (∀ i < n, (if n - k ≤ i then 0 else m (X i)) + ∑ l ∈ range n, (if n - k ≤ l then up T nounit mem i l * m (X l) else 0) = mem (X i)) ∧
      ∀ p, (∀ k < n, p ≠ X k) → m p = mem p) n ⟨fun i hi => ?_, fun _ _ => rfl⟩ ?_
  · have := key.1 i hi
    simp only [Nat.sub_self, Nat.zero_le, if_true, zero_add] at this
    exact this
  · rw [if_neg (by omega), sum_eq_zero, add_zero]
    intro l hl
    rw [mem_range] at hl
    rw [if_neg (by omega)]
  rintro k hk m ⟨h1, h3⟩
  obtain ⟨j, hj⟩ : ∃ j, j = n - 1 - k := ⟨_, rfl⟩
  have hjn : j < n := by omega
  have e1 : n - k = j + 1 := by omega
  have e2 : n - (k + 1) = j := by omega
  beta_reduce
  rw [e2]
  rw [e1] at h1
  simp only [← hj]
  -- it suffices to know the new values
  have suff : ∀ m' : Mem K, (∀ i, j < i → i < n → m' (X i) = m (X i)) → up T nounit mem j j * m' (X j) = m (X j) →
      (∀ i < j, m' (X i) = m (X i) - m' (X j) * mem (T i j)) →
      ∀ i < n, (if j ≤ i then 0 else m' (X i)) + ∑ l ∈ range n, (if j ≤ l then up T nounit mem i l * m' (X l) else 0) = mem (X i) := by
    intro m' q1 q2 q3 i hi
    have hsum : ∑ l ∈ range n, (if j ≤ l then up T nounit mem i l * m' (X l) else 0)
        = ∑ l ∈ range n, (if j + 1 ≤ l then up T nounit mem i l * m (X l) else 0) + up T nounit mem i j * m' (X j) := by
      have : ∀ l ∈ range n, (if j ≤ l then up T nounit mem i l * m' (X l) else 0)
          = (if j + 1 ≤ l then up T nounit mem i l * m (X l) else 0) + (if l = j then up T nounit mem i j * m' (X j) else 0) := by
        intro l hl
        rw [mem_range] at hl
        rcases lt_trichotomy l j with h' | h' | h'
        · rw [if_neg (by omega), if_neg (by omega), if_neg (by omega), add_zero]
        · subst h'
          rw [if_pos le_rfl, if_neg (by omega), if_pos rfl, zero_add]
        · rw [if_pos (by omega), if_pos (by omega), if_neg (by omega), add_zero, q1 l h' hl]
      rw [sum_congr rfl this, sum_add_distrib, sum_ite_eq' (range n) j, if_pos (mem_range.2 hjn)]
    rw [hsum]
    have hp := h1 i hi
    rcases lt_trichotomy i j with h' | h' | h'
    · rw [if_neg (by omega)] at hp ⊢
      rw [q3 i h', up_above T nounit mem h', ← hp]
      ring
    · subst h'
      rw [if_neg (by omega)] at hp
      rw [if_pos le_rfl, q2, ← hp]
      ring
    · rw [if_pos (by omega)] at hp ⊢
      rw [up_below T nounit mem h', ← hp]
      ring
  by_cases h0 : m (X j) ≠ 0
  · rw [if_pos h0]
    obtain ⟨v, hv⟩ : ∃ v : Mem K, v = if nounit then put m (X j) (m (X j) / m (T j j)) else m := ⟨_, rfl⟩
    rw [← hv]
    have v1 : up T nounit mem j j * v (X j) = m (X j) := by
      rw [hv, up_diag]
      split
      · rename_i hd
        rw [put_self, h3 (T j j) fun k hk => (h.diag hd j k hjn hk).symm]
        have := hr hd j hjn
        field_simp
      · rw [one_mul]
    have v2 : ∀ p, p ≠ X j → v p = m p := by
      intro p hp
      rw [hv]
      split
      · rw [put_ne _ _ hp]
      · rfl
    obtain ⟨g1, g2⟩ := loop_store (fun l => X (j - 1 - l)) (fun l m' => m' (X (j - 1 - l)) - v (X j) * m' (T (j - 1 - l) j))
      (fun l => m (X (j - 1 - l)) - v (X j) * mem (T (j - 1 - l) j)) j v
      (fun i k hik hk => h.inj _ _ (by omega) (by omega) (by omega))
      (fun l hl m' hm => by
        beta_reduce
        rw [hm _ fun k hk => h.inj _ _ (by omega) (by omega) (by omega), hm _ fun k hk => (h.off _ j _ (by omega) hjn (by omega)).symm,
          v2 _ (h.inj _ _ (by omega) (by omega) (by omega)), v2 _ (h.off _ j _ (by omega) hjn (by omega)).symm,
          h3 _ fun k hk => (h.off _ j _ (by omega) hjn (by omega)).symm])
    refine ⟨suff _ ?_ ?_ ?_, ?_⟩
    · intro i hi1 hi2
      rw [g2 _ fun k hk => h.inj _ _ (by omega) (by omega) (by omega), v2 _ (h.inj _ _ (by omega) (by omega) (by omega))]
    · rw [g2 _ fun k hk => h.inj _ _ (by omega) (by omega) (by omega), v1]
    · intro i hi
      have := g1 (j - 1 - i) (by omega)
      rw [show j - 1 - (j - 1 - i) = i by omega] at this
      rw [this, g2 _ fun k hk => h.inj j (j - 1 - k) (by omega) (by omega) (by omega)]
    · intro p hp
      rw [g2 p fun k hk => hp _ (by omega), v2 p (hp j hjn), h3 p hp]
  · rw [if_neg h0]
    rw [not_not] at h0
    refine ⟨suff m (fun _ _ _ => rfl) (by rw [h0, mul_zero]) (fun i _ => by rw [h0, zero_mul, sub_zero]), h3⟩

end exact
end Opk.Linalg
