import Verif.Linalg.Model2
import Verif.Linalg.Level1
import Mathlib.Tactic.FieldSimp
import Mathlib.Data.Rat.Defs
/-!
# Matrix-vector products

What `gemv` computes, reads and writes.
-/
set_option linter.unusedSectionVars false
set_option linter.unusedSimpArgs false
set_option linter.constructorNameAsVariable false
set_option linter.unusedTactic false
namespace Opk.Linalg
open Finset

section walks
variable {α : Type}

theorem walkUp_loop (lo hi ix dx : Int) (body : Int → Int → α → α) (s : α) :
    walkUp lo hi ix dx body s = loop (fun k => body (lo + k) (ix + k * dx)) (hi - lo).toNat s := by
  unfold walkUp forUp
  rw [trips_one]
  simp only [mul_one]
  rw [loop_pair (fun k => body (lo + k))]

theorem stepUp_loop (lo hi ix dx : Int) (body : Int → Int → α → α) (s : α) :
    stepUp lo hi ix dx body s = loop (fun k => body (lo + k) (ix + (k + 1) * dx)) (hi - lo).toNat s := by
  unfold stepUp forUp
  rw [trips_one]
  simp only [mul_one]
  rw [loop_pair (fun k i => body (lo + k) (i + dx))]
  apply loop_congr
  intro k _ s
  rw [show ix + k * dx + dx = ix + (k + 1) * dx by ring]

theorem walkDown_loop (hi lo ix dx : Int) (body : Int → Int → α → α) (s : α) :
    walkDown hi lo ix dx body s = loop (fun k => body (hi - k) (ix - k * dx)) (hi - lo).toNat s := by
  unfold walkDown forDown
  simp only [sub_eq_add_neg _ dx]
  rw [loop_pair (fun k => body (hi - k))]
  apply loop_congr
  intro k _ s
  rw [show ix + k * -dx = ix - k * dx by ring]

theorem stepDown_loop (hi lo ix dx : Int) (body : Int → Int → α → α) (s : α) :
    stepDown hi lo ix dx body s = loop (fun k => body (hi - k) (ix - (k + 1) * dx)) (hi - lo).toNat s := by
  unfold stepDown forDown
  simp only [sub_eq_add_neg _ dx]
  rw [loop_pair (fun k i => body (hi - k) (i + -dx))]
  apply loop_congr
  intro k _ s
  rw [show ix + k * -dx + -dx = ix - (k + 1) * dx by ring]

end walks

/-- Address of the element of row `i` and column `j` of a matrix stored by columns. -/
def elem (a lda : Int) (i j : Nat) : Int := a + (j * lda + i)

section any
variable {F : Type} [Add F] [Sub F] [Mul F] [Div F] [Neg F] [Zero F] [One F] [DecidableEq F]

theorem gemvScale_eq (leny : Int) (beta : F) (y incy : Int) (mem : Mem F) :
    gemvScale leny beta y (start0 leny incy) incy mem
      = if beta ≠ 1 then loop (fun k m => put m (slot y leny incy k) (if beta = 0 then 0 else m (slot y leny incy k) * beta)) leny.toNat mem
        else mem := by
  unfold gemvScale
  by_cases h1 : beta ≠ 1
  swap
  · rw [if_neg h1, if_neg h1]
  rw [if_pos h1, if_pos h1]
  by_cases h2 : incy = 1 <;> by_cases h3 : beta = 0
  · subst h2
    simp only [if_pos h3, if_pos, forUp_one, slot_one]
  · subst h2
    simp only [if_neg h3, if_pos, forUp_one, slot_one]
  · simp only [if_pos h3, if_neg h2, walkUp_loop, start_slot, sub_zero]
  · simp only [if_neg h3, if_neg h2, walkUp_loop, start_slot, sub_zero]

theorem gemvN_eq (m n : Int) (alpha : F) (a lda x incx y incy : Int) (mem : Mem F) :
    gemvN m n alpha a lda x (start0 n incx) incx y (start0 m incy) incy mem
      = loop (fun j mem =>
          if mem (slot x n incx j) ≠ 0 then
            loop (fun i mem' => put mem' (slot y m incy i) (mem' (slot y m incy i) + alpha * mem (slot x n incx j) * mem' (elem a lda i j))) m.toNat mem
          else mem) n.toNat mem := by
  unfold gemvN elem
  by_cases h2 : incy = 1
  · subst h2
    simp only [if_pos, forUp_one, walkUp_loop, slot_one, start_slot, sub_zero, zero_add]
  · simp only [if_neg h2, walkUp_loop, start_slot, sub_zero, zero_add]

theorem gemvT_eq (m n : Int) (alpha : F) (a lda x incx y incy : Int) (mem : Mem F) :
    gemvT m n alpha a lda x (start0 m incx) incx y (start0 n incy) incy mem
      = loop (fun j mem => put mem (slot y n incy j) (mem (slot y n incy j) + alpha *
          loop (fun i temp => temp + mem (elem a lda i j) * mem (slot x m incx i)) m.toNat 0)) n.toNat mem := by
  unfold gemvT elem
  by_cases h2 : incx = 1
  · subst h2
    simp only [if_pos, forUp_one, walkUp_loop, slot_one, start_slot, sub_zero, zero_add]
  · simp only [if_neg h2, walkUp_loop, start_slot, sub_zero, zero_add]

/-- The transposition is one of the enumeration. -/
def Trans.valid : Trans → Prop
  | .other _ => False
  | _ => True

instance : DecidablePred Trans.valid := fun t => by
  cases t <;> unfold Trans.valid <;> infer_instance

/-- The triangle is one of the enumeration. -/
def Uplo.valid : Uplo → Prop
  | .other _ => False
  | _ => True

/-- The kind of diagonal is one of the enumeration. -/
def Diag.valid : Diag → Prop
  | .other _ => False
  | _ => True

instance : DecidablePred Uplo.valid := fun t => by
  cases t <;> unfold Uplo.valid <;> infer_instance

instance : DecidablePred Diag.valid := fun t => by
  cases t <;> unfold Diag.valid <;> infer_instance

/-- Number of columns of `op(A)`. -/
def cols (trans : Trans) (m n : Int) : Int := if trans = .noTrans then n else m

/-- Number of rows of `op(A)`. -/
def rows (trans : Trans) (m n : Int) : Int := if trans = .noTrans then m else n

/-- Element of row `i` and column `j` of `op(A)`. -/
def opElem (trans : Trans) (a lda : Int) (i j : Nat) : Int := if trans = .noTrans then elem a lda i j else elem a lda j i

/-- C43: the returned code is the rank of the first illegal argument and then nothing is modified. -/
theorem gemv_code (trans : Trans) (m n : Int) (alpha : F) (a lda x incx : Int) (beta : F) (y incy : Int) (mem : Mem F) :
    (gemv trans m n alpha a lda x incx beta y incy mem).1 =
      (if ¬trans.valid then 1 else if m < 0 then 2 else if n < 0 then 3 else if lda < max 1 m then 6
        else if incx = 0 then 8 else if incy = 0 then 11 else 0) ∧
    ((gemv trans m n alpha a lda x incx beta y incy mem).1 ≠ 0 → (gemv trans m n alpha a lda x incx beta y incy mem).2 = mem) := by
  have key : ∀ (b : Bool) (g : Mem F) (p : Prop) [Decidable p],
      let r : Int × Mem F := (if m < 0 then (2, mem) else if n < 0 then (3, mem) else if lda < m ∨ lda < 1 then (6, mem)
        else if incx = 0 then (8, mem) else if incy = 0 then (11, mem) else if p then (0, mem) else (0, g))
      r.1 = (if m < 0 then 2 else if n < 0 then 3 else if lda < max 1 m then 6 else if incx = 0 then 8 else if incy = 0 then 11 else 0) ∧
        (r.1 ≠ 0 → r.2 = mem) := by
    intro b g p _
    have h6 : (lda < m ∨ lda < 1) ↔ lda < max 1 m := by omega
    simp only [h6]
    split_ifs <;> simp
  have pull : ∀ (c : Bool) (g : Mem F) (p : Prop) [Decidable p], (if p then (if c then ((0 : Int), g) else (0, mem)) else (0, mem))
      = (0, if p then (if c then g else mem) else mem) := by
    intro c g p _
    split_ifs <;> rfl
  unfold gemv Trans.valid
  cases trans with
  | noTrans =>
    simp only [decide_true, if_true, not_true_eq_false, if_false]
    have := key true (if alpha ≠ 0 then gemvN m n alpha a lda x (start0 n incx) incx y (start0 m incy) incy (gemvScale m beta y (start0 m incy) incy mem)
      else gemvScale m beta y (start0 m incy) incy mem) (m = 0 ∨ n = 0 ∨ alpha = 0 ∧ beta = 1)
    by_cases ha : alpha ≠ 0
    · simpa only [if_pos ha] using this
    · simpa only [if_neg ha] using this
  | other v => simp
  | trans =>
    simp only [reduceCtorEq, decide_false, Bool.false_eq_true, if_false, true_or, if_true, not_true_eq_false]
    have := key true (if alpha ≠ 0 then gemvT m n alpha a lda x (start0 m incx) incx y (start0 n incy) incy (gemvScale n beta y (start0 n incy) incy mem)
      else gemvScale n beta y (start0 n incy) incy mem) (m = 0 ∨ n = 0 ∨ alpha = 0 ∧ beta = 1)
    by_cases ha : alpha ≠ 0
    · simpa only [if_pos ha] using this
    · simpa only [if_neg ha] using this
  | conjTrans =>
    simp only [reduceCtorEq, decide_false, Bool.false_eq_true, if_false, or_true, if_true, not_true_eq_false]
    have := key true (if alpha ≠ 0 then gemvT m n alpha a lda x (start0 m incx) incx y (start0 n incy) incy (gemvScale n beta y (start0 n incy) incy mem)
      else gemvScale n beta y (start0 n incy) incy mem) (m = 0 ∨ n = 0 ∨ alpha = 0 ∧ beta = 1)
    by_cases ha : alpha ≠ 0
    · simpa only [if_pos ha] using this
    · simpa only [if_neg ha] using this

/-- With legal arguments, the operations of `gemv`. -/
theorem gemv_body {trans : Trans} {m n : Int} {lda incx incy : Int} (ht : trans.valid) (hm : 0 < m) (hn : 0 < n) (hl : m ≤ lda)
    (hx : incx ≠ 0) (hy : incy ≠ 0) (alpha beta : F) (a x y : Int) (mem : Mem F) :
    (gemv trans m n alpha a lda x incx beta y incy mem).2 =
      if alpha = 0 ∧ beta = 1 then mem
      else if alpha = 0 then gemvScale (rows trans m n) beta y (start0 (rows trans m n) incy) incy mem
      else if trans = .noTrans then
        gemvN m n alpha a lda x (start0 n incx) incx y (start0 m incy) incy (gemvScale m beta y (start0 m incy) incy mem)
      else gemvT m n alpha a lda x (start0 m incx) incx y (start0 n incy) incy (gemvScale n beta y (start0 n incy) incy mem) := by
  have h1 : ¬m < 0 := by omega
  have h2 : ¬n < 0 := by omega
  have h3 : ¬(lda < m ∨ lda < 1) := by omega
  have h4 : (m = 0 ∨ n = 0 ∨ alpha = 0 ∧ beta = 1) ↔ (alpha = 0 ∧ beta = 1) := by
    constructor
    · rintro (h | h | h)
      · omega
      · omega
      · exact h
    · exact fun h => Or.inr (Or.inr h)
  unfold gemv rows
  simp only [if_neg h1, if_neg h2, if_neg h3, if_neg hx, if_neg hy, h4]
  by_cases h5 : alpha = 0 ∧ beta = 1
  · simp only [if_pos h5]
    cases trans <;> first | (exact ht.elim) | simp
  · simp only [if_neg h5]
    by_cases h6 : alpha = 0
    · cases trans <;> first | (exact ht.elim) | simp [h6]
    · cases trans <;> first | (exact ht.elim) | simp [h6]

/-- C43: when one of the sizes is zero, nothing is done: `y` is not even multiplied by `beta`. -/
theorem gemv_empty {trans : Trans} {m n : Int} {lda incx incy : Int} (h : m = 0 ∨ n = 0) (alpha beta : F) (a x y : Int) (mem : Mem F) :
    (gemv trans m n alpha a lda x incx beta y incy mem).2 = mem := by
  have h0 : m = 0 ∨ n = 0 ∨ alpha = 0 ∧ beta = 1 := h.elim Or.inl fun h => Or.inr (Or.inl h)
  unfold gemv
  simp only [if_pos h0]
  split_ifs <;> rfl

/-- A loop which stores whatever it wants in some elements. -/
theorem loop_frame' {f : Nat → Mem F → Mem F} {n : Nat} {m : Mem F} {p : Int} (h : ∀ k < n, ∀ m, f k m p = m p) : loop f n m p = m p := by
  refine loop_inv (fun _ (m' : Mem F) => m' p = m p) n rfl ?_
  intro k hk m' h'
  rw [h k hk, h']

theorem gemvScale_frame {leny : Int} {beta : F} {y incy : Int} {mem : Mem F} {p : Int} (hp : ∀ k : Nat, k < leny → p ≠ slot y leny incy k) :
    gemvScale leny beta y (start0 leny incy) incy mem p = mem p := by
  rw [gemvScale_eq]
  split
  · exact loop_frame _ _ _ _ _ fun k hk => hp k (by omega)
  · rfl

/-- C43: only the elements of `y` are modified, in any arithmetic. -/
theorem gemv_frame {trans : Trans} {m n : Int} {lda incx incy : Int} (alpha beta : F) (a x y : Int) (mem : Mem F) {p : Int}
    (hp : ∀ k : Nat, k < rows trans m n → p ≠ slot y (rows trans m n) incy k) :
    (gemv trans m n alpha a lda x incx beta y incy mem).2 p = mem p := by
  obtain ⟨hc, hz⟩ := gemv_code trans m n alpha a lda x incx beta y incy mem
  by_cases h0 : (gemv trans m n alpha a lda x incx beta y incy mem).1 ≠ 0
  · rw [hz h0]
  rw [hc] at h0
  by_cases he : m = 0 ∨ n = 0
  · rw [gemv_empty he]
  have hv : trans.valid ∧ 0 < m ∧ 0 < n ∧ m ≤ lda ∧ incx ≠ 0 ∧ incy ≠ 0 := by
    split_ifs at h0 <;> first | omega | skip
    rename_i h1 h2 h3 h4 h5 h6
    exact ⟨h1, by omega, by omega, by omega, h5, h6⟩
  obtain ⟨ht, hm, hn, hl, hx, hy⟩ := hv
  rw [gemv_body ht hm hn hl hx hy]
  unfold rows at hp ⊢
  split
  · rfl
  split
  · exact gemvScale_frame hp
  split
  · rename_i h
    simp only [if_pos h] at hp
    rw [gemvN_eq]
    refine (loop_frame' ?_).trans (gemvScale_frame hp)
    intro j hj m'
    beta_reduce
    split
    · exact loop_frame (fun i => slot y m incy i) _ _ _ _ fun k hk => hp k (by omega)
    · rfl
  · rename_i h
    simp only [if_neg h] at hp
    rw [gemvT_eq]
    refine Eq.trans ?_ (gemvScale_frame (beta := beta) hp)
    exact loop_frame (fun j => slot y n incy j) _ _ _ _ fun k hk => hp k (by omega)

/-- Stores of same values keep the agreement of two memories, and extend it. -/
theorem agree_put {S : Int → Prop} {m m' : Mem F} {a : Int} {v v' : F} (h : ∀ p, S p → m p = m' p) (hv : v = v') :
    ∀ p, S p ∨ p = a → put m a v p = put m' a v' p := by
  intro p hp
  unfold put
  split
  · exact hv
  · rename_i hne
    exact h p (hp.elim id fun h => absurd h hne)

/-- C43: the result only depends on the elements of `A` and `x`, if `alpha` is not zero, and on
those of `y`, if `beta` is not zero: the other ones may hold anything; in any arithmetic. -/
theorem gemv_reads {trans : Trans} {m n : Int} {lda incx incy : Int} (ht : trans.valid) (hm : 0 < m) (hn : 0 < n) (hl : m ≤ lda)
    (hx : incx ≠ 0) (hy : incy ≠ 0) (h01 : (0 : F) ≠ 1) (alpha beta : F) (a x y : Int) (mem mem' : Mem F)
    (hA : alpha ≠ 0 → ∀ i j : Nat, i < m → j < n → mem (elem a lda i j) = mem' (elem a lda i j))
    (hX : alpha ≠ 0 → ∀ i : Nat, i < cols trans m n → mem (slot x (cols trans m n) incx i) = mem' (slot x (cols trans m n) incx i))
    (hY : beta ≠ 0 → ∀ i : Nat, i < rows trans m n → mem (slot y (rows trans m n) incy i) = mem' (slot y (rows trans m n) incy i))
    {k : Nat} (hk : k < rows trans m n) :
    (gemv trans m n alpha a lda x incx beta y incy mem).2 (slot y (rows trans m n) incy k)
      = (gemv trans m n alpha a lda x incx beta y incy mem').2 (slot y (rows trans m n) incy k) := by
  rw [gemv_body ht hm hn hl hx hy, gemv_body ht hm hn hl hx hy]
  have scale : ∀ S : Int → Prop, (∀ p, S p → mem p = mem' p) → ∀ p, (S p ∨ ∃ k : Nat, k < rows trans m n ∧ p = slot y (rows trans m n) incy k) →
      gemvScale (rows trans m n) beta y (start0 (rows trans m n) incy) incy mem p
        = gemvScale (rows trans m n) beta y (start0 (rows trans m n) incy) incy mem' p := by
    intro S hS
    rw [gemvScale_eq, gemvScale_eq]
    by_cases h1 : beta ≠ 1
    · rw [if_pos h1, if_pos h1]
      have key := loop_inv (f := fun k (q : Mem F × Mem F) => (put q.1 (slot y (rows trans m n) incy k) (if beta = 0 then 0 else q.1 (slot y (rows trans m n) incy k) * beta),
          put q.2 (slot y (rows trans m n) incy k) (if beta = 0 then 0 else q.2 (slot y (rows trans m n) incy k) * beta))) (s := (mem, mem'))
        (fun c (q : Mem F × Mem F) => (∀ p, (S p ∨ ∃ k : Nat, k < c ∧ p = slot y (rows trans m n) incy k) → q.1 p = q.2 p) ∧
          (beta ≠ 0 → ∀ i : Nat, i < rows trans m n → q.1 (slot y (rows trans m n) incy i) = q.2 (slot y (rows trans m n) incy i)) ∧
          q.1 = loop (fun k u => put u (slot y (rows trans m n) incy k) (if beta = 0 then 0 else u (slot y (rows trans m n) incy k) * beta)) c mem ∧
          q.2 = loop (fun k u => put u (slot y (rows trans m n) incy k) (if beta = 0 then 0 else u (slot y (rows trans m n) incy k) * beta)) c mem')
        (rows trans m n).toNat ⟨fun p hp => hp.elim (hS p) fun ⟨k, h, _⟩ => absurd h (by omega), hY, rfl, rfl⟩ ?_
      · obtain ⟨g1, -, g2, g3⟩ := key
        rw [g2, g3] at g1
        intro p hp
        apply g1
        rcases hp with h | ⟨k, h, hp⟩
        · exact Or.inl h
        · exact Or.inr ⟨k, by omega, hp⟩
      · rintro c hc ⟨q1, q2⟩ ⟨g1, g2, g3, g4⟩
        have hv : (if beta = 0 then 0 else q1 (slot y (rows trans m n) incy c) * beta) = (if beta = 0 then 0 else q2 (slot y (rows trans m n) incy c) * beta) := by
          split
          · rfl
          · rename_i hb
            exact congrArg (· * beta) (g2 hb c (by omega))
        refine ⟨?_, ?_, ?_, ?_⟩
        · intro p hp
          refine agree_put g1 hv p ?_
          rcases hp with h | ⟨k, h, hp⟩
          · exact Or.inl (Or.inl h)
          · rcases Nat.lt_succ_iff_lt_or_eq.1 h with h | h
            · exact Or.inl (Or.inr ⟨k, h, hp⟩)
            · exact Or.inr (h ▸ hp)
        · intro hb i hi
          refine agree_put (S := fun p => ∃ i : Nat, i < rows trans m n ∧ p = slot y (rows trans m n) incy i) ?_ hv _ (Or.inl ⟨i, hi, rfl⟩)
          rintro p ⟨i, hi, rfl⟩
          exact g2 hb i hi
        · rw [g3]; rfl
        · rw [g4]; rfl
    · rw [if_neg h1, if_neg h1]
      rw [not_not] at h1
      rintro p (hp | ⟨k, hk, rfl⟩)
      · exact hS p hp
      · exact hY (by rw [h1]; exact h01.symm) k hk
  by_cases h1 : alpha = 0 ∧ beta = 1
  · rw [if_pos h1, if_pos h1]
    exact hY (by rw [h1.2]; exact h01.symm) k hk
  rw [if_neg h1, if_neg h1]
  by_cases h2 : alpha = 0
  · rw [if_pos h2, if_pos h2]
    exact scale (fun _ => False) (fun _ h => h.elim) _ (Or.inr ⟨k, hk, rfl⟩)
  rw [if_neg h2, if_neg h2]
  have hS := scale (fun p => (∃ i j : Nat, i < m ∧ j < n ∧ p = elem a lda i j) ∨ ∃ i : Nat, i < cols trans m n ∧ p = slot x (cols trans m n) incx i)
    (by
      rintro p (⟨i, j, hi, hj, rfl⟩ | ⟨i, hi, rfl⟩)
      · exact hA h2 i j hi hj
      · exact hX h2 i hi)
  generalize hT : (fun p => ((∃ i j : Nat, i < m ∧ j < n ∧ p = elem a lda i j) ∨ ∃ i : Nat, i < cols trans m n ∧ p = slot x (cols trans m n) incx i) ∨
    ∃ k : Nat, k < rows trans m n ∧ p = slot y (rows trans m n) incy k) = T
  have hTA : ∀ i j : Nat, i < m → j < n → T (elem a lda i j) := fun i j hi hj => by rw [← hT]; exact Or.inl (Or.inl ⟨i, j, hi, hj, rfl⟩)
  have hTX : ∀ i : Nat, i < cols trans m n → T (slot x (cols trans m n) incx i) := fun i hi => by rw [← hT]; exact Or.inl (Or.inr ⟨i, hi, rfl⟩)
  have hTY : ∀ i : Nat, i < rows trans m n → T (slot y (rows trans m n) incy i) := fun i hi => by rw [← hT]; exact Or.inr ⟨i, hi, rfl⟩
  have hST : ∀ p, T p → gemvScale (rows trans m n) beta y (start0 (rows trans m n) incy) incy mem p
        = gemvScale (rows trans m n) beta y (start0 (rows trans m n) incy) incy mem' p := fun p hp => hS p (by rw [← hT] at hp; exact hp)
  clear hS hT
  unfold rows cols at *
  have hput : ∀ {q q' : Mem F} {b : Int} {v v' : F}, (∀ p, T p → q p = q' p) → v = v' → ∀ p, T p → put q b v p = put q' b v' p :=
    fun h hv p hp => agree_put h hv p (Or.inl hp)
  by_cases h3 : trans = .noTrans
  · simp only [if_pos h3] at *
    rw [gemvN_eq, gemvN_eq]
    refine loop_rel (fun (q q' : Mem F) => ∀ p, T p → q p = q' p) _ hST ?_ _ (hTY k hk)
    intro j hj q q' hq
    rw [hq _ (hTX j (by omega))]
    split
    · refine loop_rel (fun (q q' : Mem F) => ∀ p, T p → q p = q' p) _ hq ?_
      intro i hi r r' hr
      refine hput hr ?_
      rw [hr _ (hTY i (by omega)), hr _ (hTA i j (by omega) (by omega))]
    · exact hq
  · simp only [if_neg h3] at *
    rw [gemvT_eq, gemvT_eq]
    refine loop_rel (fun (q q' : Mem F) => ∀ p, T p → q p = q' p) _ hST ?_ _ (hTY k hk)
    intro j hj q q' hq
    refine hput hq ?_
    rw [hq _ (hTY j (by omega))]
    congr 2
    apply loop_congr
    intro i hi s
    rw [hq _ (hTA i j (by omega) (by omega)), hq _ (hTX i (by omega))]

end any

section exact
variable {K : Type} [Field K] [DecidableEq K]

theorem gemvScale_spec {leny : Int} (beta : K) (y : Int) {incy : Int} (hy : incy ≠ 0) (mem : Mem K) {k : Nat} (hk : k < leny) :
    gemvScale leny beta y (start0 leny incy) incy mem (slot y leny incy k) = beta * mem (slot y leny incy k) := by
  rw [gemvScale_eq]
  split
  · obtain ⟨h1, -⟩ := loop_store (fun k => slot y leny incy k) (fun k m => if beta = 0 then 0 else m (slot y leny incy k) * beta)
      (fun k => beta * mem (slot y leny incy k)) leny.toNat mem (fun i k hik _ => slot_ne hy y leny (by omega))
      (fun k hk m' hm => by
        beta_reduce
        rw [hm _ fun i hi => slot_ne hy y leny (by omega)]
        split
        · rename_i h; rw [h, zero_mul]
        · ring)
    exact h1 k (by omega)
  · rename_i h
    rw [not_not.1 h, one_mul]

theorem gemvN_spec {m n : Int} (alpha : K) (a lda x incx y : Int) {incy : Int} (hy : incy ≠ 0) (mem : Mem K)
    (hyx : ∀ i k : Nat, i < n → k < m → slot y m incy k ≠ slot x n incx i)
    (hya : ∀ i j k : Nat, i < m → j < n → k < m → slot y m incy k ≠ elem a lda i j) {i : Nat} (hi : i < m) :
    gemvN m n alpha a lda x (start0 n incx) incx y (start0 m incy) incy mem (slot y m incy i)
      = mem (slot y m incy i) + alpha * ∑ j ∈ range n.toNat, mem (elem a lda i j) * mem (slot x n incx j) := by
  rw [gemvN_eq]
  have key := loop_inv (f := fun j (mem : Mem K) =>
      if mem (slot x n incx j) ≠ 0 then
        loop (fun i mem' => put mem' (slot y m incy i) (mem' (slot y m incy i) + alpha * mem (slot x n incx j) * mem' (elem a lda i j))) m.toNat mem
      else mem) (s := mem)
    (fun c (m' : Mem K) => (∀ i : Nat, i < m → m' (slot y m incy i) = mem (slot y m incy i) + alpha * ∑ j ∈ range c, mem (elem a lda i j) * mem (slot x n incx j)) ∧
      ∀ p, (∀ k : Nat, k < m → p ≠ slot y m incy k) → m' p = mem p) n.toNat ⟨by simp, fun _ _ => rfl⟩ ?_
  · exact key.1 i hi
  rintro c hc m' ⟨h1, h2⟩
  have hxc : m' (slot x n incx c) = mem (slot x n incx c) := h2 _ fun k hk => (hyx c k (by omega) hk).symm
  beta_reduce
  rw [hxc]
  by_cases h0 : mem (slot x n incx c) ≠ 0
  · rw [if_pos h0]
    obtain ⟨g1, g2⟩ := loop_store (fun i => slot y m incy i) (fun i m'' => m'' (slot y m incy i) + alpha * mem (slot x n incx c) * m'' (elem a lda i c))
      (fun i => m' (slot y m incy i) + alpha * mem (slot x n incx c) * mem (elem a lda i c)) m.toNat m' (fun i k hik _ => slot_ne hy y m (by omega))
      (fun k hk m'' hm => by
        beta_reduce
        rw [hm _ fun i hi => slot_ne hy y m (by omega), hm _ fun i hi => (hya k c i (by omega) (by omega) (by omega)).symm,
          h2 _ fun i hi => (hya k c i (by omega) (by omega) (by omega)).symm])
    refine ⟨fun i hi => ?_, fun p hp => ?_⟩
    · rw [g1 i (by omega), h1 i hi, sum_range_succ]
      ring
    · rw [g2 p fun k hk => hp k (by omega), h2 p hp]
  · rw [if_neg h0]
    refine ⟨fun i hi => ?_, h2⟩
    rw [h1 i hi, sum_range_succ, not_not.1 h0, mul_zero, add_zero]

theorem gemvT_spec {m n : Int} (alpha : K) (a lda x incx y : Int) {incy : Int} (hy : incy ≠ 0) (mem : Mem K)
    (hyx : ∀ i k : Nat, i < m → k < n → slot y n incy k ≠ slot x m incx i)
    (hya : ∀ i j k : Nat, i < m → j < n → k < n → slot y n incy k ≠ elem a lda i j) {j : Nat} (hj : j < n) :
    gemvT m n alpha a lda x (start0 m incx) incx y (start0 n incy) incy mem (slot y n incy j)
      = mem (slot y n incy j) + alpha * ∑ i ∈ range m.toNat, mem (elem a lda i j) * mem (slot x m incx i) := by
  rw [gemvT_eq]
  obtain ⟨g1, -⟩ := loop_store (fun j => slot y n incy j) (fun j m' => m' (slot y n incy j) + alpha *
          loop (fun i temp => temp + m' (elem a lda i j) * m' (slot x m incx i)) m.toNat 0)
      (fun j => mem (slot y n incy j) + alpha * ∑ i ∈ range m.toNat, mem (elem a lda i j) * mem (slot x m incx i)) n.toNat mem
      (fun i k hik _ => slot_ne hy y n (by omega))
      (fun k hk m' hm => by
        beta_reduce
        rw [hm _ fun i hi => slot_ne hy y n (by omega), loop_sum, zero_add]
        congr 2
        apply sum_congr rfl
        intro i hi
        rw [mem_range] at hi
        rw [hm _ fun l hl => (hya i k l (by omega) (by omega) (by omega)).symm, hm _ fun l hl => (hyx i l (by omega) (by omega)).symm])
  exact g1 j (by omega)

/-- C43: `gemv` computes `alpha*op(A)*x + beta*y` for all the transpositions, increments and
coefficients, provided that the elements of `y` are neither those of `x` nor those of `A`. -/
theorem gemv_spec {trans : Trans} {m n : Int} {lda incx incy : Int} (ht : trans.valid) (hm : 0 < m) (hn : 0 < n) (hl : m ≤ lda)
    (hx : incx ≠ 0) (hy : incy ≠ 0) (alpha beta : K) (a x y : Int) (mem : Mem K)
    (hyx : ∀ i k : Nat, i < cols trans m n → k < rows trans m n → slot y (rows trans m n) incy k ≠ slot x (cols trans m n) incx i)
    (hya : ∀ i j k : Nat, i < m → j < n → k < rows trans m n → slot y (rows trans m n) incy k ≠ elem a lda i j)
    {k : Nat} (hk : k < rows trans m n) :
    (gemv trans m n alpha a lda x incx beta y incy mem).2 (slot y (rows trans m n) incy k)
      = alpha * ∑ i ∈ range (cols trans m n).toNat, mem (opElem trans a lda k i) * mem (slot x (cols trans m n) incx i)
        + beta * mem (slot y (rows trans m n) incy k) := by
  rw [gemv_body ht hm hn hl hx hy]
  have hS : ∀ p, (∀ k : Nat, k < rows trans m n → p ≠ slot y (rows trans m n) incy k) →
      gemvScale (rows trans m n) beta y (start0 (rows trans m n) incy) incy mem p = mem p := fun p hp => gemvScale_frame hp
  have hB := fun (k : Nat) (hk : (k : Int) < rows trans m n) => gemvScale_spec (leny := rows trans m n) beta y hy mem hk
  by_cases h1 : alpha = 0 ∧ beta = 1
  · rw [if_pos h1, h1.1, h1.2]; ring
  rw [if_neg h1]
  by_cases h2 : alpha = 0
  · rw [if_pos h2, hB k hk, h2]; ring
  rw [if_neg h2]
  by_cases h3 : trans = .noTrans
  · subst h3
    rw [if_pos rfl]
    unfold rows cols opElem at *
    simp only [if_true] at *
    rw [gemvN_spec alpha a lda x incx y hy _ (fun i k hi hk => hyx i k hi hk) (fun i j k hi hj hk => hya i j k hi hj hk) hk, hB k hk, add_comm]
    congr 2
    apply sum_congr rfl
    intro i hi
    rw [mem_range] at hi
    rw [hS _ fun l hl => (hya k i l hk (by omega) hl).symm, hS _ fun l hl => (hyx i l (by omega) hl).symm]
  · rw [if_neg h3]
    unfold rows cols opElem at *
    simp only [if_neg h3] at *
    rw [gemvT_spec alpha a lda x incx y hy _ (fun i k hi hk => hyx i k hi hk) (fun i j k hi hj hk => hya i j k hi hj hk) hk, hB k hk, add_comm]
    congr 2
    apply sum_congr rfl
    intro i hi
    rw [mem_range] at hi
    rw [hS _ fun l hl => (hya i k l (by omega) hk hl).symm, hS _ fun l hl => (hyx i l (by omega) hl).symm]

end exact
end Opk.Linalg
