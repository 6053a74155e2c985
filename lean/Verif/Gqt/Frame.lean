import Verif.Gqt.Model
import Verif.Linalg.Cholesky
/-!
# What `gqt` modifies

In any arithmetic: the iterations only write into the upper triangle of `A` and the work arrays, the matrix is restored on exit, the loop ends.
-/
set_option linter.unusedSectionVars false
set_option linter.unusedSimpArgs false
set_option linter.unusedTactic false
namespace Opk.Gqt
open Linalg CMath

section
variable {F : Type} [Add F] [Sub F] [Mul F] [Div F] [Neg F] [Zero F] [One F] [DecidableEq F]
variable [LT F] [LE F] [DecidableLT F] [DecidableLE F]

theorem put_same (m : Mem F) (a : Int) (v : F) : put m a v a = v := by unfold put; rw [if_pos rfl]
theorem put_other (m : Mem F) {a p : Int} (v : F) (h : p ≠ a) : put m a v p = m p := by unfold put; rw [if_neg h]

theorem at2_elem (a lda : Int) (i j : Nat) {I J : Int} (hi : I = i + 1) (hj : J = j + 1) : at2 a lda I J = elem a lda i j := by
  subst hi; subst hj; unfold at2; exact corner a lda i j

/-- The vector `v` of `n` elements. -/
def vec (v : Int) (n : Nat) (p : Int) : Prop := ∃ k : Nat, k < n ∧ p = v + k

theorem copy_frame (n x incx y incy : Int) (mem : Mem F) {p : Int}
    (hp : ∀ k : Nat, k < n → p ≠ slot y n incy k) : copy n x incx y incy mem p = mem p := by
  unfold copy
  by_cases h0 : n ≤ 0 ∨ (incx = incy ∧ x = y)
  · rw [if_pos h0]
  have hn : 0 ≤ n := by by_contra h; exact h0 (Or.inl (by omega))
  have h1 := axpyLoops_eq hn x incx y incy (fun a b (m : Mem F) => put m b (m a)) mem
  have h2 := loop_frame (fun k => slot y n incy k) (fun k m => m (slot x n incx k)) n.toNat mem p fun k hk => hp k (by omega)
  rw [← h1] at h2
  unfold axpyLoops at h2
  rw [if_neg h0]
  by_cases hx : incx = 1
  · by_cases hy : incy = 1
    · simp only [if_pos hx, if_pos hy, unroll8a_eq hn, unroll4a_eq hn] at h2 ⊢
      exact h2
    · simp only [if_pos hx, if_neg hy] at h2 ⊢
      exact h2
  · by_cases hy : incy = 1
    · simp only [if_neg hx, if_pos hy] at h2 ⊢
      exact h2
    · simp only [if_neg hx, if_neg hy] at h2 ⊢
      exact h2

theorem copy_vec {n : Nat} (m x incx y : Int) (mem : Mem F) {p : Int} (hm : m ≤ n) (hp : ¬vec y n p) : copy m x incx y 1 mem p = mem p := by
  apply copy_frame
  intro k hk h
  rw [slot_one] at h
  exact hp ⟨k, by omega, h⟩

theorem scal_vec {n : Nat} (m : Int) (s : F) (x : Int) (mem : Mem F) {p : Int} (hm : m ≤ n) (hp : ¬vec x n p) : scal m s x 1 mem p = mem p := by
  apply scal_frame
  intro k hk h
  rw [slot_one] at h
  exact hp ⟨k, by omega, h⟩

theorem axpy_vec {n : Nat} (m : Int) (s : F) (x incx y : Int) (mem : Mem F) {p : Int} (hp : ∀ k : Nat, k < m → p ≠ y + k) : axpy m s x incx y 1 mem p = mem p := by
  apply axpy_frame
  intro k hk h
  rw [slot_one] at h
  exact hp k (by omega) h

theorem trsv_vec {n : Nat} (uplo : Uplo) (trans : Trans) (diag : Diag) (m a lda x : Int) (mem : Mem F) {p : Int} (hm : m ≤ n) (hp : ¬vec x n p) :
    (trsv uplo trans diag m a lda x 1 mem).2 p = mem p := by
  apply (tri_frame uplo trans diag m a lda x 1 mem _).2
  intro k hk h
  rw [slot_one] at h
  exact hp ⟨k, by omega, h⟩

/-- The copy of the strict upper triangle into the lower one. -/
theorem saveUpper_spec {n : Nat} (a : Int) {lda : Int} (hl : (n : Int) ≤ lda) (mem : Mem F) :
    (∀ i j, i < j → j < n → saveUpper n a lda mem (elem a lda j i) = mem (elem a lda i j)) ∧
    ∀ p, (∀ i j, i < j → j < n → p ≠ elem a lda j i) → saveUpper n a lda mem p = mem p := by
  unfold saveUpper
  rw [forUp_nat]
  have key := loop_inv (f := fun (k : Nat) (mem : Mem F) => copy ((n : Int) - (1 + k)) (at2 a lda (1 + k) (1 + k + 1)) lda (at2 a lda (1 + k + 1) (1 + k)) 1 mem) (s := mem)
    (fun (c : Nat) (m : Mem F) => (∀ i j, i < c → i < j → j < n → m (elem a lda j i) = mem (elem a lda i j)) ∧ ∀ p, (∀ i j, i < c → i < j → j < n → p ≠ elem a lda j i) → m p = mem p)
    ((n : Int) - 1).toNat ⟨fun i j h => absurd h (by omega), fun _ _ => rfl⟩ (by
      intro c hc m ⟨h1, h2⟩
      have hl1 : 1 ≤ lda := by omega
      rw [at2_elem a lda c (c + 1) (by omega) (by push_cast; omega), at2_elem a lda (c + 1) c (by push_cast; omega) (by omega)]
      have hs := copy_spec (n := (n : Int) - (1 + c)) (x := elem a lda c (c + 1)) (incx := lda) (y := elem a lda (c + 1) c) (incy := 1) (by omega) (by decide)
        (by
          intro i k hik hk
          rw [slot_col, slot_row a hl1]
          exact elem_ne (by omega) (by omega) (Or.inl (by omega))) m
      refine ⟨?_, ?_⟩
      · intro i j hi hij hj
        rcases Nat.lt_or_ge i c with hic | hic
        · rw [hs.2, h1 i j hic hij hj]
          intro k hk
          rw [slot_col]
          exact elem_ne (by omega) (by omega) (Or.inr (by omega))
        · obtain rfl : i = c := by omega
          obtain ⟨k, rfl⟩ : ∃ k, j = i + 1 + k := ⟨j - (i + 1), by omega⟩
          have := hs.1 k (by omega)
          rw [slot_col, slot_row a hl1] at this
          rw [this]
          apply h2
          intro i' j' hi' hij' hj'
          exact elem_ne (by omega) (by omega) (by omega)
      · intro p hp
        rw [hs.2, h2 p fun i j hi hij hj => hp i j (by omega) hij hj]
        intro k hk
        rw [slot_col]
        exact hp c (c + 1 + k) (by omega) (by omega) (by omega))
  refine ⟨fun i j hij hj => key.1 i j (by omega) hij hj, fun p hp => key.2 p fun i j _ hij hj => hp i j hij hj⟩

/-- The copy of the strict lower triangle into the upper one. -/
theorem restoreUpper_spec {n : Nat} (a : Int) {lda : Int} (hl : (n : Int) ≤ lda) (mem : Mem F) :
    (∀ i j, i < j → j < n → restoreUpper n a lda mem (elem a lda i j) = mem (elem a lda j i)) ∧
    ∀ p, (∀ i j, i < j → j < n → p ≠ elem a lda i j) → restoreUpper n a lda mem p = mem p := by
  unfold restoreUpper
  rw [forUp_nat]
  have key := loop_inv (f := fun (k : Nat) (mem : Mem F) => copy ((n : Int) - (1 + k)) (at2 a lda (1 + k + 1) (1 + k)) 1 (at2 a lda (1 + k) (1 + k + 1)) lda mem) (s := mem)
    (fun (c : Nat) (m : Mem F) => (∀ i j, i < c → i < j → j < n → m (elem a lda i j) = mem (elem a lda j i)) ∧ ∀ p, (∀ i j, i < c → i < j → j < n → p ≠ elem a lda i j) → m p = mem p)
    ((n : Int) - 1).toNat ⟨fun i j h => absurd h (by omega), fun _ _ => rfl⟩ (by
      intro c hc m ⟨h1, h2⟩
      have hl1 : 1 ≤ lda := by omega
      rw [at2_elem a lda (c + 1) c (by push_cast; omega) (by omega), at2_elem a lda c (c + 1) (by omega) (by push_cast; omega)]
      have hs := copy_spec (n := (n : Int) - (1 + c)) (x := elem a lda (c + 1) c) (incx := 1) (y := elem a lda c (c + 1)) (incy := lda) (by omega) (by omega)
        (by
          intro i k hik hk
          rw [slot_col, slot_row a hl1]
          exact elem_ne (by omega) (by omega) (Or.inl (by omega))) m
      refine ⟨?_, ?_⟩
      · intro i j hi hij hj
        rcases Nat.lt_or_ge i c with hic | hic
        · rw [hs.2, h1 i j hic hij hj]
          intro k hk
          rw [slot_row a hl1]
          exact elem_ne (by omega) (by omega) (Or.inl (by omega))
        · obtain rfl : i = c := by omega
          obtain ⟨k, rfl⟩ : ∃ k, j = i + 1 + k := ⟨j - (i + 1), by omega⟩
          have := hs.1 k (by omega)
          rw [slot_col, slot_row a hl1] at this
          rw [this]
          apply h2
          intro i' j' hi' hij' hj'
          exact elem_ne (by omega) (by omega) (by omega)
      · intro p hp
        rw [hs.2, h2 p fun i j hi hij hj => hp i j (by omega) hij hj]
        intro k hk
        rw [slot_row a hl1]
        exact hp c (c + 1 + k) (by omega) (by omega) (by omega))
  refine ⟨fun i j hij hj => key.1 i j (by omega) hij hj, fun p hp => key.2 p fun i j _ hij hj => hp i j hij hj⟩

variable [CMath F]

theorem reduce_frame {n : Nat} (z : Int) (r d : F) (st : F × Mem F) {p : Int} (hp : ¬vec z n p) : (estsvReduce n z r d st).2 p = st.2 p := by
  unfold estsvReduce
  dsimp only
  split
  · exact scal_vec _ _ _ _ le_rfl hp
  · rfl

theorem advance_frame {n : Nat} (r ldr z : Int) {i : Nat} (hi : i < n) (st : F × Mem F) {p : Int} (hp : ¬vec z n p) :
    (estsvAdvance n r ldr z (i + 1) st).2 p = st.2 p := by
  obtain ⟨e, mem⟩ := st
  have hput : ∀ (m : Mem F) v, put m (z + ((i : Int) + 1 - 1)) v p = m p := fun m v => put_other _ _ fun h => hp ⟨i, hi, by omega⟩
  have hax : ∀ (m : Mem F) (w : F) x inc, axpy ((n : Int) - (i + 1)) w x inc (z + ((i : Int) + 1 + 1 - 1)) 1 m p = m p := by
    intro m w x inc
    apply axpy_frame
    intro k hk h
    rw [slot_one] at h
    exact hp ⟨i + 1 + k, by omega, by push_cast; omega⟩
  unfold estsvAdvance
  dsimp only
  rw [hput]
  repeat' split
  all_goals simp only [hax]

theorem forward_frame {n : Nat} (r ldr z : Int) {i : Nat} (hi : i < n) (st : F × Mem F) {p : Int} (hp : ¬vec z n p) :
    (estsvForward n r ldr z (i + 1) st).2 p = st.2 p := by
  unfold estsvForward
  dsimp only
  rw [advance_frame r ldr z hi _ hp, reduce_frame z _ _ _ hp]

theorem retreat_frame {n : Nat} (r ldr z : Int) {j : Nat} (hj : j < n) (st : F × Mem F) {p : Int} (hp : ¬vec z n p) :
    (estsvRetreat n r ldr z (j + 1) st).2 p = st.2 p := by
  obtain ⟨e, mem⟩ := st
  have hput : ∀ (m : Mem F) v, put m (z + ((j : Int) + 1 - 1)) v p = m p := fun m v => put_other _ _ fun h => hp ⟨j, hj, by omega⟩
  have hax : ∀ (m : Mem F) (w : F) x inc, axpy ((j : Int) + 1 - 1) w x inc (z + (1 - 1)) 1 m p = m p := by
    intro m w x inc
    apply axpy_frame
    intro k hk h
    rw [slot_one] at h
    exact hp ⟨k, by omega, by omega⟩
  unfold estsvRetreat
  dsimp only
  rw [hax]
  split
  · rw [hput]
  · rw [hput]

theorem backward_frame {n : Nat} (r ldr z : Int) {j : Nat} (hj : j < n) (st : F × Mem F) {p : Int} (hp : ¬vec z n p) :
    (estsvBackward n r ldr z (j + 1) st).2 p = st.2 p := by
  unfold estsvBackward
  rw [retreat_frame r ldr z hj _ hp, reduce_frame z _ _ _ hp]

/-- `estsv` only modifies `z`, in any arithmetic. -/
theorem estsv_frame {n : Nat} (hn : 1 ≤ n) (r ldr z : Int) (mem : Mem F) {p : Int} (hp : ¬vec z n p) : (estsv n r ldr z mem).2 p = mem p := by
  unfold estsv
  dsimp only
  rw [if_pos (show (n : Int) > 0 by omega)]
  have h0 : forUp 0 (n : Int) 1 (fun k (mem : Mem F) => put mem (z + k) 0) mem p = mem p := by
    rw [forUp_one]
    exact loop_frame (fun k => z + k) (fun _ _ => 0) _ _ _ fun k hk h => hp ⟨k, by omega, h⟩
  split
  · dsimp only
    rw [put_other _ _ fun h => hp ⟨0, by omega, by omega⟩, h0]
  · dsimp only
    rw [scal_vec (n := n) _ _ _ _ le_rfl (by rwa [sub_self, add_zero])]
    unfold forDown
    refine (loop_inv (fun _ (st : F × Mem F) => st.2 p = mem p) _ ?_ ?_)
    · rw [forUp_nat]
      refine (loop_inv (fun _ (st : F × Mem F) => st.2 p = mem p) _ h0 ?_)
      intro k hk st hst
      rw [show (1 : Int) + k = k + 1 by ring, forward_frame r ldr z (by omega) st hp, hst]
    · intro k hk st hst
      rw [show (n : Int) - k = ((n - 1 - k : Nat) : Int) + 1 by omega, backward_frame r ldr z (by omega) st hp, hst]

/-- The arrays are separate from each other, and the sizes are those required by the documentation. -/
structure Layout (g : Args F) (n : Nat) : Prop where
  size : g.n = n
  pos : 1 ≤ n
  lead : (n : Int) ≤ g.lda
  ab : ∀ i j, i < n → j < n → ¬vec g.b n (elem g.a g.lda i j)
  ax : ∀ i j, i < n → j < n → ¬vec g.x n (elem g.a g.lda i j)
  az : ∀ i j, i < n → j < n → ¬vec g.z n (elem g.a g.lda i j)
  a1 : ∀ i j, i < n → j < n → ¬vec g.wa1 n (elem g.a g.lda i j)
  a2 : ∀ i j, i < n → j < n → ¬vec g.wa2 n (elem g.a g.lda i j)
  bx : ∀ p, vec g.b n p → ¬vec g.x n p
  bz : ∀ p, vec g.b n p → ¬vec g.z n p
  b1 : ∀ p, vec g.b n p → ¬vec g.wa1 n p
  b2 : ∀ p, vec g.b n p → ¬vec g.wa2 n p
  xz : ∀ p, vec g.x n p → ¬vec g.z n p
  x1 : ∀ p, vec g.x n p → ¬vec g.wa1 n p
  x2 : ∀ p, vec g.x n p → ¬vec g.wa2 n p
  z1 : ∀ p, vec g.z n p → ¬vec g.wa1 n p
  z2 : ∀ p, vec g.z n p → ¬vec g.wa2 n p
  w12 : ∀ p, vec g.wa1 n p → ¬vec g.wa2 n p

/-- The upper triangle of `A`. -/
def upper (g : Args F) (n : Nat) (p : Int) : Prop := ∃ i j, i ≤ j ∧ j < n ∧ p = elem g.a g.lda i j

/-- What the iterations modify. -/
def scratch (g : Args F) (n : Nat) (p : Int) : Prop := upper g n p ∨ vec g.x n p ∨ vec g.z n p ∨ vec g.wa2 n p

/-- The upper triangle has been saved into the lower one, the diagonal into `wa1`; nothing else than `A` and the work arrays has been modified. -/
structure Saved (g : Args F) (n : Nat) (mem0 mem : Mem F) : Prop where
  low : ∀ i j, i < j → j < n → mem (elem g.a g.lda j i) = mem0 (elem g.a g.lda i j)
  diag : ∀ k, k < n → mem (g.wa1 + k) = mem0 (elem g.a g.lda k k)
  rest : ∀ p, (∀ i j, i < n → j < n → p ≠ elem g.a g.lda i j) → ¬vec g.x n p → ¬vec g.z n p → ¬vec g.wa1 n p → ¬vec g.wa2 n p → mem p = mem0 p

variable {g : Args F} {n : Nat}

theorem low_not_scratch (L : Layout g n) {i j : Nat} (hij : i < j) (hj : j < n) : ¬scratch g n (elem g.a g.lda j i) := by
  have := L.lead
  rintro (⟨i', j', h1, h2, h3⟩ | h | h | h)
  · exact elem_ne (by omega) (by omega) (by omega) h3
  · exact L.ax j i hj (by omega) h
  · exact L.az j i hj (by omega) h
  · exact L.a2 j i hj (by omega) h

theorem wa1_not_scratch (L : Layout g n) {k : Nat} (hk : k < n) : ¬scratch g n (g.wa1 + k) := by
  have hv : vec g.wa1 n (g.wa1 + k) := ⟨k, hk, rfl⟩
  rintro (⟨i', j', h1, h2, h3⟩ | h | h | h)
  · exact L.a1 i' j' (by omega) h2 (h3 ▸ hv)
  · exact L.x1 _ h hv
  · exact L.z1 _ h hv
  · exact L.w12 _ hv h

theorem b_not_scratch (L : Layout g n) {k : Nat} (hk : k < n) : ¬scratch g n (g.b + k) := by
  have hv : vec g.b n (g.b + k) := ⟨k, hk, rfl⟩
  rintro (⟨i', j', h1, h2, h3⟩ | h | h | h)
  · exact L.ab i' j' (by omega) h2 (h3 ▸ hv)
  · exact L.bx _ hv h
  · exact L.bz _ hv h
  · exact L.b2 _ hv h

theorem Saved.mono {mem0 mem mem' : Mem F} (L : Layout g n) (h : Saved g n mem0 mem) (hf : ∀ p, ¬scratch g n p → mem' p = mem p) : Saved g n mem0 mem' := by
  refine ⟨fun i j hij hj => ?_, fun k hk => ?_, fun p hA hx hz h1 h2 => ?_⟩
  · rw [hf _ (low_not_scratch L hij hj), h.low i j hij hj]
  · rw [hf _ (wa1_not_scratch L hk), h.diag k hk]
  · rw [hf p, h.rest p hA hx hz h1 h2]
    rintro (⟨i', j', h1', h2', h3⟩ | h | h | h)
    · exact hA i' j' (by omega) h2' h3
    · exact hx h
    · exact hz h
    · exact h2 h

theorem Saved.b {mem0 mem : Mem F} (L : Layout g n) (h : Saved g n mem0 mem) {k : Nat} (hk : k < n) : mem (g.b + k) = mem0 (g.b + k) := by
  have hv : vec g.b n (g.b + k) := ⟨k, hk, rfl⟩
  exact h.rest _ (fun i j hi hj he => L.ab i j hi hj (he ▸ hv)) (L.bx _ hv) (L.bz _ hv) (L.b1 _ hv) (L.b2 _ hv)

theorem start_saved (L : Layout g n) (mem : Mem F) : Saved g n mem (start g mem).mem := by
  have hl := L.lead
  have hl1 : 1 ≤ g.lda := by have := L.pos; omega
  -- clearing x and z
  let m1 := forUp 1 (g.n + 1) 1 (fun j mem => put (put mem (g.x + (j - 1)) 0) (g.z + (j - 1)) 0) mem
  have h1 : ∀ p, ¬vec g.x n p → ¬vec g.z n p → m1 p = mem p := by
    intro p hx hz
    show forUp 1 (g.n + 1) 1 (fun j mem => put (put mem (g.x + (j - 1)) 0) (g.z + (j - 1)) 0) mem p = mem p
    rw [forUp_nat]
    apply loop_frame'
    intro k hk m
    have := L.size
    rw [put_other _ _ fun h => hz ⟨k, by omega, by omega⟩, put_other _ _ fun h => hx ⟨k, by omega, by omega⟩]
  let m2 := copy g.n g.a (g.lda + 1) g.wa1 1 m1
  have h2 : (∀ k < n, m2 (g.wa1 + k) = m1 (elem g.a g.lda k k)) ∧ ∀ p, ¬vec g.wa1 n p → m2 p = m1 p := by
    have hc := copy_spec (n := g.n) (x := g.a) (incx := g.lda + 1) (y := g.wa1) (incy := 1) (by rw [L.size]; omega) (by decide)
      (by
        intro i k hik hk h
        rw [slot_one, slot_nonneg (by omega)] at h
        have := L.size
        exact L.a1 k k (by omega) (by omega) ⟨i, by omega, by rw [h]; unfold elem; ring⟩) m1
    refine ⟨fun k hk => ?_, fun p hp => copy_vec _ _ _ _ _ (by rw [L.size]) hp⟩
    have := hc.1 k (by rw [L.size]; omega)
    rw [slot_one, slot_nonneg (by omega)] at this
    show copy g.n g.a (g.lda + 1) g.wa1 1 m1 _ = _
    rw [this]
    congr 1
    unfold elem
    ring
  let m3 := saveUpper g.n g.a g.lda m2
  have h3 := saveUpper_spec g.a hl m2
  rw [← L.size] at h3
  change (∀ i j, i < j → j < n → m3 _ = _) ∧ ∀ p, _ → m3 p = _ at h3
  have h4 : ∀ p, ¬vec g.wa2 n p → (rowSums g m3).2 p = m3 p := by
    intro p hp
    unfold rowSums
    rw [forUp_nat]
    refine (loop_inv (fun _ (st : F × Mem F) => st.2 p = m3 p) _ rfl ?_)
    intro k hk st hst
    dsimp only
    have := L.size
    rw [put_other _ _ fun h => hp ⟨k, by omega, by omega⟩, hst]
  have e : (start g mem).mem = (rowSums g m3).2 := rfl
  rw [e]
  refine ⟨fun i j hij hj => ?_, fun k hk => ?_, fun p hA hx hz hw1 hw2 => ?_⟩
  · rw [h4 _ (L.a2 j i hj (by omega)), h3.1 i j hij hj, h2.2 _ (L.a1 i j (by omega) hj), h1 _ (L.ax i j (by omega) hj) (L.az i j (by omega) hj)]
  · have hv : vec g.wa1 n (g.wa1 + k) := ⟨k, hk, rfl⟩
    rw [h4 _ (L.w12 _ hv), h3.2, h2.1 k hk, h1 _ (L.ax k k hk hk) (L.az k k hk hk)]
    intro i j hij hj he
    exact L.a1 j i hj (by omega) (he ▸ hv)
  · rw [h4 _ hw2, h3.2, h2.2 _ hw1, h1 _ hx hz]
    intro i j hij hj
    exact hA j i hj (by omega)

theorem shift_frame (L : Layout g n) (st : St F) {p : Int} (hp : ¬upper g n p) : (shift g st).mem p = st.mem p := by
  unfold shift
  dsimp only
  have hs := restoreUpper_spec g.a L.lead st.mem
  have hsz := L.size
  rw [forUp_nat, loop_frame', hsz, hs.2]
  · intro i j hij hj h
    exact hp ⟨i, j, by omega, hj, h⟩
  · intro k hk m
    apply put_other
    intro h
    exact hp ⟨k, k, le_rfl, by omega, by rw [h]; exact at2_elem _ _ k k (by ring) (by ring)⟩

theorem solve_frame (L : Layout g n) (st : St F) {p : Int} (hx : ¬vec g.x n p) (h2 : ¬vec g.wa2 n p) : (solve g st).mem p = st.mem p := by
  unfold solve
  have := L.size
  dsimp only
  rw [scal_vec _ _ _ _ (by omega) hx, copy_vec _ _ _ _ _ (by omega) hx, trsv_vec _ _ _ _ _ _ _ _ (by omega) h2, trsv_vec _ _ _ _ _ _ _ _ (by omega) h2,
    copy_vec _ _ _ _ _ (by omega) h2]

theorem curvature_frame (L : Layout g n) (st : St F) {p : Int} (hz : ¬vec g.z n p) : (curvature g st).mem p = st.mem p := by
  unfold curvature
  dsimp only
  rw [L.size]
  exact estsv_frame L.pos _ _ _ _ hz

theorem negative_mem (g : Args F) (st : St F) : (negative g st).mem = st.mem := by
  unfold negative
  split <;> rfl

theorem correction_frame (L : Layout g n) (st : St F) {p : Int} (h2 : ¬vec g.wa2 n p) : (correction g st).mem p = st.mem p := by
  unfold correction
  have := L.size
  dsimp only
  split
  · rfl
  · dsimp only
    rw [trsv_vec _ _ _ _ _ _ _ _ (by omega) h2, scal_vec _ _ _ _ (by omega) h2, copy_vec _ _ _ _ _ (by omega) h2]

theorem indefinite_frame (L : Layout g n) {indef : Int} (h1 : 1 ≤ indef) (hn : indef ≤ n) (st : St F) {p : Int} (hu : ¬upper g n p) (h2 : ¬vec g.wa2 n p) :
    (indefinite g indef st).mem p = st.mem p := by
  unfold indefinite
  dsimp only
  obtain ⟨c, rfl⟩ : ∃ c : Nat, indef = c + 1 := ⟨(indef - 1).toNat, by omega⟩
  rw [put_other _ _ fun h => h2 ⟨c, by omega, by omega⟩]
  have hd : p ≠ at2 g.a g.lda (c + 1) (c + 1) := fun h => hu ⟨c, c, le_rfl, by omega, by rw [h]; exact at2_elem _ _ c c rfl rfl⟩
  split
  · rw [trsv_vec _ _ _ _ _ _ _ _ (by omega) h2, put_other _ _ hd, trsv_vec _ _ _ _ _ _ _ _ (by omega) h2, copy_vec _ _ _ _ _ (by omega) h2, put_other _ _ hd, copy_frame]
    intro k hk h
    rw [at2_elem _ _ 0 c (by norm_num) rfl, slot_col] at h
    exact hu ⟨0 + k, c, by omega, by omega, h⟩
  · rfl

/-- The iterations only modify the upper triangle of `A`, `x`, `z` and `wa2`. -/
theorem examine_frame (L : Layout g n) (st : St F) {p : Int} (hp : ¬scratch g n p) : (examine g st).mem p = st.mem p := by
  unfold scratch at hp
  push Not at hp
  obtain ⟨hu, hx, hz, h2⟩ := hp
  have hpot := potf2_frame (uplo := .upper) (n := n) trivial g.a (lda := g.lda) (by have := L.lead; have := L.pos; omega) st.mem
  rw [← L.size] at hpot
  have hm : (potf2 .upper g.n g.a g.lda st.mem).2 p = st.mem p := by
    apply hpot.2.2
    intro i j hi hj hij h
    rw [if_pos rfl] at hij
    exact hu ⟨i, j, hij, hj, h⟩
  unfold examine
  dsimp only
  split
  · rw [correction_frame L _ h2, negative_mem, curvature_frame L _ hz, solve_frame L _ hx h2]
    exact hm
  · rw [indefinite_frame L (by omega) (by rw [← L.size]; omega) _ hu h2]
    exact hm

theorem Saved.examine {mem0 : Mem F} (L : Layout g n) {st : St F} (h : Saved g n mem0 st.mem) : Saved g n mem0 (terminate g (Gqt.examine g (shift g st))).mem := by
  apply h.mono L
  intro p hp
  show (Gqt.examine g (shift g st)).mem p = _
  rw [examine_frame L _ hp, shift_frame L _ fun hu => hp (Or.inl hu)]

theorem examine_info (g : Args F) (st : St F) (h : st.info = 0) : (examine g st).info = 0 ∨ (examine g st).info = 1 ∨ (examine g st).info = 2 := by
  unfold examine
  dsimp only
  split
  · have e : ∀ s : St F, (correction g s).info = s.info := fun s => rfl
    rw [e]
    unfold negative
    split
    · dsimp only
      have hc : ∀ s : St F, (curvature g s).info = 1 ∨ (curvature g s).info = s.info := by
        intro s
        unfold curvature
        dsimp only
        split
        · exact Or.inl rfl
        · exact Or.inr rfl
      split
      · exact Or.inr (Or.inl rfl)
      split
      · exact Or.inr (Or.inr rfl)
      split
      · exact Or.inr (Or.inl rfl)
      · rcases hc (solve g { st with mem := (potf2 .upper g.n g.a g.lda st.mem).2 }) with h' | h'
        · exact Or.inr (Or.inl h')
        · exact Or.inl (h'.trans h)
    · dsimp only
      unfold curvature
      dsimp only
      split
      · exact Or.inr (Or.inl rfl)
      · exact Or.inl h
  · exact Or.inl h

theorem examine_iter (g : Args F) (st : St F) : (examine g st).iter = st.iter := by
  unfold examine
  dsimp only
  split
  · unfold correction negative
    dsimp only
    split <;> rfl
  · rfl

/-- One iteration: the loop ends with one of the documented codes, or the counter is incremented and is still less than `itmax`. -/
theorem step_cases (g : Args F) (st : St F) (h : st.info = 0) :
    (∃ r, step g st = .inl r ∧ r.iter = st.iter + 1 ∧ (r.info = 1 ∨ r.info = 2 ∨ r.info = 3 ∨ r.info = 4) ∧
      r = finish g (terminate g (examine g (shift g st)))) ∨
    ∃ st', step g st = .inr st' ∧ st'.info = 0 ∧ st'.iter = st.iter + 1 ∧ st.iter + 1 < g.itmax ∧ st'.mem = (terminate g (examine g (shift g st))).mem := by
  have hi : (terminate g (examine g (shift g st))).iter = st.iter + 1 := by
    show (examine g (shift g st)).iter + 1 = _
    rw [examine_iter]
    rfl
  have hc := examine_info g (shift g st) h
  have ht : (terminate g (examine g (shift g st))).info = 0 ∧ st.iter + 1 < g.itmax ∨
      ((terminate g (examine g (shift g st))).info = 1 ∨ (terminate g (examine g (shift g st))).info = 2 ∨
      (terminate g (examine g (shift g st))).info = 3 ∨ (terminate g (examine g (shift g st))).info = 4) := by
    have hi' : (examine g (shift g st)).iter = st.iter := by rw [examine_iter]; rfl
    unfold terminate
    dsimp only
    split
    · split
      · exact Or.inr (Or.inr (Or.inl rfl))
      split
      · exact Or.inr (Or.inr (Or.inr (Or.inl rfl)))
      split
      · exact Or.inr (Or.inr (Or.inr (Or.inr rfl)))
      · exact Or.inl ⟨rfl, by omega⟩
    · rcases hc with h' | h' | h'
      · contradiction
      · exact Or.inr (Or.inl h')
      · exact Or.inr (Or.inr (Or.inl h'))
  unfold step
  dsimp only
  split
  · left
    rename_i h0
    refine ⟨_, rfl, ?_, ?_, rfl⟩
    · show (terminate g (examine g (shift g st))).iter = _
      exact hi
    · rcases ht with h' | h'
      · exact absurd h'.1 h0
      · exact h'
  · right
    rename_i h0
    push Not at h0
    refine ⟨_, rfl, h0, hi, ?_, rfl⟩
    rcases ht with h' | h' | h' | h' | h'
    · exact h'.2
    all_goals (rw [h'] at h0; exact absurd h0 (by decide))

/-- C47: the loop ends, after at most `itmax` iterations (one if `itmax` is less than one), with a documented code, in any arithmetic. -/
theorem gqt_terminates (g : Args F) (mem : Mem F) :
    ∃ r, (∀ fuel, max 1 g.itmax.toNat ≤ fuel → gqt g fuel mem = some r) ∧ 1 ≤ r.iter ∧ r.iter ≤ max 1 g.itmax ∧
      (r.info = 1 ∨ r.info = 2 ∨ r.info = 3 ∨ r.info = 4) := by
  have key : ∀ k : Nat, ∀ st : St F, st.info = 0 → 0 ≤ st.iter → (max 1 g.itmax - st.iter).toNat = k → 1 ≤ k →
      ∃ r, (∀ fuel, k ≤ fuel → iterate g fuel st = some r) ∧ 1 ≤ r.iter ∧ r.iter ≤ max 1 g.itmax ∧ (r.info = 1 ∨ r.info = 2 ∨ r.info = 3 ∨ r.info = 4) := by
    intro k
    induction k with
    | zero => intro st _ _ _ h; omega
    | succ k ih =>
      intro st hinfo hiter hk _
      rcases step_cases g st hinfo with ⟨r, hs, hr, hc, _⟩ | ⟨st', hs, h0, hi, hlt, _⟩
      · refine ⟨r, fun fuel hf => ?_, by omega, by omega, hc⟩
        obtain ⟨f, rfl⟩ : ∃ f, fuel = f + 1 := ⟨fuel - 1, by omega⟩
        unfold iterate
        rw [hs]
      · obtain ⟨r, hr, hrest⟩ := ih st' h0 (by omega) (by omega) (by omega)
        refine ⟨r, fun fuel hf => ?_, hrest⟩
        obtain ⟨f, rfl⟩ : ∃ f, fuel = f + 1 := ⟨fuel - 1, by omega⟩
        unfold iterate
        rw [hs]
        exact hr f (by omega)
  obtain ⟨r, hr, h⟩ := key (max 1 g.itmax.toNat) (start g mem) rfl le_rfl (by show (max 1 g.itmax - 0).toNat = _; omega) (by omega)
  exact ⟨r, hr, h⟩

/-- An invariant of the states at the beginning of the iterations, and what it implies on exit. -/
theorem gqt_inv {mem : Mem F} (P : St F → Prop) (Q : Result F → Prop) (h0 : P (start g mem)) (hI : ∀ st, P st → st.info = 0)
    (hs : ∀ st, P st → match step g st with | .inl r => Q r | .inr st' => P st') {fuel : Nat} {r : Result F} (hr : gqt g fuel mem = some r) : Q r := by
  unfold gqt at hr
  revert h0 hr
  generalize start g mem = st
  intro h0 hr
  induction fuel generalizing st with
  | zero => unfold iterate at hr; cases hr
  | succ f ih =>
    unfold iterate at hr
    have := hs st h0
    revert this hr
    generalize step g st = s
    intro hr this
    cases s with
    | inl r' =>
      dsimp only at hr this
      cases hr
      exact this
    | inr st' => exact ih st' this hr

/-- C47: on exit `A` is the full symmetric matrix whose upper triangle was given, `b` is unchanged, and nothing else than `A`, `x` and the work arrays is modified, in any arithmetic. -/
theorem gqt_restores (L : Layout g n) {mem : Mem F} {fuel : Nat} {r : Result F} (hr : gqt g fuel mem = some r) :
    (∀ i j, i < n → j < n → r.mem (elem g.a g.lda i j) = if i ≤ j then mem (elem g.a g.lda i j) else mem (elem g.a g.lda j i)) ∧
    (∀ k, k < n → r.mem (g.b + k) = mem (g.b + k)) ∧
    ∀ p, (∀ i j, i < n → j < n → p ≠ elem g.a g.lda i j) → ¬vec g.x n p → ¬vec g.z n p → ¬vec g.wa1 n p → ¬vec g.wa2 n p → r.mem p = mem p := by
  have hl := L.lead
  have hl1 : 1 ≤ g.lda := by have := L.pos; omega
  have hsz := L.size
  refine gqt_inv (fun st => st.info = 0 ∧ Saved g n mem st.mem)
    (fun r => (∀ i j, i < n → j < n → r.mem (elem g.a g.lda i j) = if i ≤ j then mem (elem g.a g.lda i j) else mem (elem g.a g.lda j i)) ∧
      (∀ k, k < n → r.mem (g.b + k) = mem (g.b + k)) ∧
      ∀ p, (∀ i j, i < n → j < n → p ≠ elem g.a g.lda i j) → ¬vec g.x n p → ¬vec g.z n p → ¬vec g.wa1 n p → ¬vec g.wa2 n p → r.mem p = mem p)
    ⟨rfl, start_saved L mem⟩ (fun st h => h.1) ?_ hr
  intro st ⟨hinfo, hS⟩
  have hS' := hS.examine L
  rcases step_cases g st hinfo with ⟨r, hs, _, _, hfin⟩ | ⟨st', hs, h0, _, _, hm⟩
  · rw [hs]
    dsimp only
    rw [hfin]
    clear hs hfin hS
    generalize terminate g (examine g (shift g st)) = t at hS'
    -- before the restoration
    obtain ⟨m, hm, hmem⟩ : ∃ m : Mem F, Saved g n mem m ∧ (finish g t).mem = copy g.n g.wa1 1 g.a (g.lda + 1) (restoreUpper g.n g.a g.lda m) := by
      unfold finish
      dsimp only
      split
      · refine ⟨_, hS'.mono L ?_, rfl⟩
        intro p hp
        apply axpy_frame
        intro k hk h
        rw [slot_one] at h
        exact hp (Or.inr (Or.inl ⟨k, by omega, h⟩))
      · exact ⟨_, hS', rfl⟩
    have hU := restoreUpper_spec g.a hl m
    rw [← hsz] at hU
    have hC := copy_spec (n := g.n) (x := g.wa1) (incx := 1) (y := g.a) (incy := g.lda + 1) (by omega) (by omega)
      (by
        intro i k hik hk h
        rw [slot_one, slot_nonneg (by omega)] at h
        exact L.a1 i i (by omega) (by omega) ⟨k, by omega, by rw [← h]; unfold elem; ring⟩) (restoreUpper g.n g.a g.lda m)
    have hslot : ∀ k : Nat, slot g.a g.n (g.lda + 1) k = elem g.a g.lda k k := by
      intro k
      rw [slot_nonneg (by omega)]
      unfold elem
      ring
    rw [hmem]
    refine ⟨?_, ?_, ?_⟩
    · intro i j hi hj
      rcases Nat.lt_trichotomy i j with hij | hij | hij
      · rw [if_pos (by omega), hC.2, hU.1 i j hij hj, hm.low i j hij hj]
        intro k hk
        rw [hslot]
        exact elem_ne (by omega) (by omega) (by omega)
      · subst hij
        rw [if_pos le_rfl]
        have := hC.1 i (by omega)
        rw [hslot, slot_one] at this
        rw [this, hU.2, hm.diag i hi]
        intro i' j' hij' hj' h
        exact L.a1 i' j' (by omega) hj' (h ▸ ⟨i, hi, rfl⟩)
      · rw [if_neg (by omega), hC.2, hU.2, hm.low j i hij hi]
        · intro i' j' hij' hj'
          exact elem_ne (by omega) (by omega) (by omega)
        · intro k hk
          rw [hslot]
          exact elem_ne (by omega) (by omega) (by omega)
    · intro k hk
      have hv : vec g.b n (g.b + k) := ⟨k, hk, rfl⟩
      rw [hC.2, hU.2, hm.b L hk]
      · intro i j hij hj h
        exact L.ab i j (by omega) hj (h ▸ hv)
      · intro i hi h
        rw [hslot] at h
        exact L.ab i i (by omega) (by omega) (h ▸ hv)
    · intro p hA hx hz h1 h2
      rw [hC.2, hU.2, hm.rest p hA hx hz h1 h2]
      · intro i j hij hj
        exact hA i j (by omega) hj
      · intro k hk
        rw [hslot]
        exact hA k k (by omega) (by omega)
  · rw [hs]
    refine ⟨h0, ?_⟩
    rw [hm]
    exact hS'

end
end Opk.Gqt
