import Verif.Gqt.Dual
import Mathlib.Tactic.LinearCombination
/-!
# Accuracy of the trust region step

In exact arithmetic: the returned value is `f(x)`, the codes 1 and 2 mean what the documentation says.
-/
set_option linter.unusedSectionVars false
set_option linter.unusedSimpArgs false
set_option linter.unusedTactic false
namespace Opk.Gqt
open Linalg CMath Finset

section
variable {K : Type} [Field K] [LinearOrder K] [IsStrictOrderedRing K] [CMath K] [ExactMath K]

/-- The given matrix. -/
def mat (g : Args K) (mem : Mem K) (i j : Nat) : K := mem (elem g.a g.lda i j)

/-- The matrix `A + par*I`. -/
def shifted (A : Nat → Nat → K) (par : K) (i j : Nat) : K := A i j + if i = j then par else 0

theorem quad_shifted (A : Nat → Nat → K) (par : K) (n : Nat) (v : Nat → K) : quad (shifted A par) n v = quad A n v + par * sq n v := by
  have h : ∀ i j, sym (shifted A par) i j * v i * v j = sym A i j * v i * v j + if i = j then par * (v i * v i) else 0 := by
    intro i j
    unfold sym shifted
    rcases Nat.lt_trichotomy i j with h | h | h
    · rw [if_pos h.le, if_pos h.le, if_neg h.ne, if_neg h.ne, add_zero, add_zero]
    · subst h
      rw [if_pos le_rfl, if_pos le_rfl, if_pos rfl, if_pos rfl]
      ring
    · have h1 : ¬i ≤ j := by omega
      rw [if_neg h1, if_neg h1, if_neg h.ne, if_neg h.ne', add_zero, add_zero]
  unfold quad sq
  simp only [h, sum_add_distrib]
  rw [mul_sum]
  congr 1
  refine sum_congr rfl fun i hi => ?_
  rw [sum_ite_eq, if_pos hi]

theorem sym_shifted (A : Nat → Nat → K) (par : K) (n : Nat) (v : Nat → K) {i : Nat} (hi : i < n) :
    ∑ j ∈ range n, sym (shifted A par) i j * v j = ∑ j ∈ range n, sym A i j * v j + par * v i := by
  have h : ∀ j, sym (shifted A par) i j * v j = sym A i j * v j + if i = j then par * v i else 0 := by
    intro j
    unfold sym shifted
    rcases Nat.lt_trichotomy i j with h | h | h
    · rw [if_pos h.le, if_pos h.le, if_neg h.ne, if_neg h.ne, add_zero, add_zero]
    · subst h
      rw [if_pos le_rfl, if_pos le_rfl, if_pos rfl, if_pos rfl]
      ring
    · have h1 : ¬i ≤ j := by omega
      rw [if_neg h1, if_neg h1, if_neg h.ne, if_neg h.ne', add_zero, add_zero]
  simp only [h, sum_add_distrib]
  rw [sum_ite_eq, if_pos (mem_range.2 hi)]

theorem factored_congr {U A B : Nat → Nat → K} {c n : Nat} (h : ∀ i j, i ≤ j → j < n → A i j = B i j) (hF : Factored U A c n) : Factored U B c n :=
  ⟨fun i j hi hij hj => by rw [hF.1 i j hi hij hj, h i j hij hj], hF.2⟩

theorem triangular_above (U : Nat → Nat → K) (i j : Nat) : triangular .upper .nonUnit U i j = above U i j := by
  have hs : strict .upper i j ↔ i < j := by
    unfold strict
    rw [if_pos rfl]
  unfold triangular above
  simp only [hs]
  rcases Nat.lt_trichotomy i j with h | h | h
  · rw [if_neg h.ne, if_pos h.le, if_pos h]
  · subst h
    rw [if_pos rfl, if_pos le_rfl, if_neg (by decide)]
  · rw [if_neg h.ne', if_neg (by omega), if_neg (by omega)]

section solve
variable {n : Nat} {a lda w : Int} (hn : 1 ≤ n) (hl : (n : Int) ≤ lda) (hs : ∀ i j, i < n → j < n → ¬vec w n (elem a lda i j)) (mem : Mem K)
  (hd : ∀ j < n, mem (elem a lda j j) ≠ 0)
include hn hl hs hd

theorem lower_solve : ∀ i < n, ∑ l ∈ range n, above (fun i j => mem (elem a lda i j)) l i * (trsv .upper .trans .nonUnit n a lda w 1 mem).2 (w + l) = mem (w + i) := by
  intro i hi
  have h := trsv_spec (uplo := .upper) (trans := .trans) (diag := .nonUnit) trivial trivial trivial (n := n) (a := a) (lda := lda) (x := w) (incx := 1) (by omega) (by decide)
    (fun i j k hi hj hk _ h => hs i j hi hj ⟨k, hk, by rw [← h, slot_one]⟩) mem (fun _ j hj => hd j hj) hi
  rw [slot_one] at h
  rw [← h]
  refine sum_congr rfl fun l _ => ?_
  rw [slot_one]
  unfold transposed
  rw [if_neg (by decide), triangular_above]

theorem upper_solve : ∀ i < n, ∑ l ∈ range n, above (fun i j => mem (elem a lda i j)) i l * (trsv .upper .noTrans .nonUnit n a lda w 1 mem).2 (w + l) = mem (w + i) := by
  intro i hi
  have h := trsv_spec (uplo := .upper) (trans := .noTrans) (diag := .nonUnit) trivial trivial trivial (n := n) (a := a) (lda := lda) (x := w) (incx := 1) (by omega) (by decide)
    (fun i j k hi hj hk _ h => hs i j hi hj ⟨k, hk, by rw [← h, slot_one]⟩) mem (fun _ j hj => hd j hj) hi
  rw [slot_one] at h
  rw [← h]
  refine sum_congr rfl fun l _ => ?_
  rw [slot_one]
  unfold transposed
  rw [if_pos rfl, triangular_above]

end solve

variable {g : Args K} {n : Nat}

theorem copy_one {n : Nat} {x y : Int} (h : ∀ i k : Nat, i < k → k < n → y + i ≠ x + k) (mem : Mem K) : ∀ k < n, copy (n : Int) x 1 y 1 mem (y + k) = mem (x + k) := by
  intro k hk
  have := (copy_spec (n := (n : Int)) (x := x) (incx := 1) (y := y) (incy := 1) (by omega) (by decide)
    (by intro i k hik hk; rw [slot_one, slot_one]; exact h i k hik (by omega)) mem).1 k (by omega)
  simpa only [slot_one] using this

/-- The upper triangle at the beginning of an iteration. -/
theorem shift_upper (L : Layout g n) {mem0 : Mem K} {st : St K} (hS : Saved g n mem0 st.mem) :
    ∀ i j, i ≤ j → j < n → (shift g st).mem (elem g.a g.lda i j) = shifted (mat g mem0) (shift g st).par i j := by
  have hl := L.lead
  have hsz := L.size
  have hU := restoreUpper_spec g.a hl st.mem
  rw [← hsz] at hU
  intro i j hij hj
  let par := (shift g st).par
  have e : (shift g st).mem = forUp 1 (g.n + 1) 1 (fun j mem => put mem (at2 g.a g.lda j j) (mem (g.wa1 + (j - 1)) + par)) (restoreUpper g.n g.a g.lda st.mem) := rfl
  rw [e, forUp_nat]
  have ee : ∀ k : Nat, at2 g.a g.lda (1 + k) (1 + k) = elem g.a g.lda k k := fun k => at2_elem _ _ k k (by ring) (by ring)
  have e1 : ∀ k : Nat, g.wa1 + ((1 + k : Int) - 1) = g.wa1 + k := fun k => by ring
  simp only [ee, e1]
  obtain ⟨h1, h2⟩ := loop_store (fun k => elem g.a g.lda k k) (fun k m => m (g.wa1 + k) + par) (fun k => mem0 (elem g.a g.lda k k) + par) (g.n + 1 - 1).toNat
    (restoreUpper g.n g.a g.lda st.mem) (fun i k hik hk => elem_ne (by omega) (by omega) (by omega)) (by
      intro k hk m' hm'
      show m' (g.wa1 + k) + par = _
      rw [hm', hU.2, hS.diag k (by omega)]
      · intro i j hij hj h
        exact L.a1 i j (by omega) hj (h ▸ ⟨k, by omega, rfl⟩)
      · intro i hi h
        exact L.a1 i i (by omega) (by omega) (h ▸ ⟨k, by omega, rfl⟩))
  unfold shifted mat
  rcases Nat.lt_or_ge i j with hlt | hge
  · rw [h2, hU.1 i j hlt hj, hS.low i j hlt hj, if_neg hlt.ne, add_zero]
    intro k hk
    exact elem_ne (by omega) (by omega) (by omega)
  · obtain rfl : i = j := by omega
    rw [h1 i (by omega), if_pos rfl]

/-- What the last factorization has given: `x` is the solution for the parameter `parf` and, if `rednc`, the correction along `z` has the length of the bound and a better value. -/
structure Good (g : Args K) (n : Nat) (mem0 : Mem K) (st : St K) : Prop where
  par : 0 ≤ st.parf
  psd : ∀ v, 0 ≤ quad (mat g mem0) n v + st.parf * sq n v
  pd : ∀ v, (∃ i < n, v i ≠ 0) → 0 < quad (mat g mem0) n v + st.parf * sq n v
  sol : Solves (mat g mem0) (at1 mem0 g.b) n st.parf (at1 st.mem g.x)
  xn0 : 0 ≤ st.xnorm
  xn : st.xnorm * st.xnorm = sq n (at1 st.mem g.x)
  rx : st.rxnorm * st.rxnorm = -dots n (at1 mem0 g.b) (at1 st.mem g.x)
  red : st.rednc = true → sq n (fun k => at1 st.mem g.x k + st.alpha * at1 st.mem g.z k) = g.delta * g.delta ∧
    st.rznorm * st.rznorm = st.alpha * st.alpha * (quad (mat g mem0) n (at1 st.mem g.z) + st.parf * sq n (at1 st.mem g.z)) ∧
    st.rznorm * st.rznorm ≤ st.parf * (g.delta * g.delta - st.xnorm * st.xnorm)

/-- There has been no factorization. -/
structure NoneYet (g : Args K) (n : Nat) (st : St K) : Prop where
  parf : st.parf = 0
  xnorm : st.xnorm = 0
  rxnorm : st.rxnorm = 0
  rednc : st.rednc = false
  x : ∀ k < n, at1 st.mem g.x k = 0

/-- The solution for the current parameter. -/
theorem solve_spec (hsqrt : ∀ a : K, 0 ≤ a → 0 ≤ CMath.sqrt a ∧ CMath.sqrt a * CMath.sqrt a = a) (L : Layout g n) (st : St K) {S : Nat → Nat → K}
    (hF : Factored (fun i j => st.mem (elem g.a g.lda i j)) S n n) :
    let r := solve g st
    (∀ i < n, ∑ j ∈ range n, sym S i j * at1 r.mem g.x j = -st.mem (g.b + i)) ∧ 0 ≤ r.xnorm ∧ r.xnorm * r.xnorm = sq n (at1 r.mem g.x) ∧
    r.rxnorm * r.rxnorm = -dots n (at1 st.mem g.b) (at1 r.mem g.x) := by
  intro r
  have hr : r = solve g st := rfl
  clear_value r
  have hl := L.lead
  have hn := L.pos
  have h2v : ∀ k < n, vec g.wa2 n (g.wa2 + k) := fun k hk => ⟨k, hk, rfl⟩
  unfold solve at hr
  rw [L.size] at hr
  dsimp only at hr
  generalize hm1 : copy (n : Int) g.b 1 g.wa2 1 st.mem = m1 at hr
  have c1 : ∀ k < n, m1 (g.wa2 + k) = st.mem (g.b + k) := by
    rw [← hm1]
    refine copy_one ?_ _
    intro i k hik hk h
    exact L.b2 _ ⟨k, hk, rfl⟩ (h ▸ h2v i (by omega))
  have f1 : ∀ p, ¬vec g.wa2 n p → m1 p = st.mem p := fun p hp => by rw [← hm1]; exact copy_vec _ _ _ _ _ le_rfl hp
  have d1 : ∀ j < n, m1 (elem g.a g.lda j j) ≠ 0 := fun j hj => by rw [f1 _ (L.a2 j j hj hj)]; exact (hF.2 j hj).ne'
  have s1 := lower_solve hn hl L.a2 m1 d1
  have f2 : ∀ p, ¬vec g.wa2 n p → (trsv .upper .trans .nonUnit (n : Int) g.a g.lda g.wa2 1 m1).2 p = m1 p := fun p hp => trsv_vec _ _ _ _ _ _ _ _ le_rfl hp
  generalize hm2 : (trsv .upper .trans .nonUnit (n : Int) g.a g.lda g.wa2 1 m1).2 = m2 at hr s1 f2
  have d2 : ∀ j < n, m2 (elem g.a g.lda j j) ≠ 0 := fun j hj => by rw [f2 _ (L.a2 j j hj hj)]; exact d1 j hj
  have s2 := upper_solve hn hl L.a2 m2 d2
  have f3 : ∀ p, ¬vec g.wa2 n p → (trsv .upper .noTrans .nonUnit (n : Int) g.a g.lda g.wa2 1 m2).2 p = m2 p := fun p hp => trsv_vec _ _ _ _ _ _ _ _ le_rfl hp
  generalize hm3 : (trsv .upper .noTrans .nonUnit (n : Int) g.a g.lda g.wa2 1 m2).2 = m3 at hr s2 f3
  have hx : ∀ k < n, r.mem (g.x + k) = -m3 (g.wa2 + k) := by
    intro k hk
    rw [hr]
    dsimp only
    rw [scal_one n _ g.x _ k hk, copy_one (n := n) ?_ _ k hk]
    · ring
    · intro i k hik hk h
      exact L.x2 _ ⟨i, by omega, rfl⟩ (h ▸ h2v k hk)
  -- the equations for the factor
  have ab : ∀ (m : Mem K), (∀ i j, i < n → j < n → m (elem g.a g.lda i j) = st.mem (elem g.a g.lda i j)) → ∀ i j, i < n → j < n →
      above (fun i j => m (elem g.a g.lda i j)) i j = above (fun i j => st.mem (elem g.a g.lda i j)) i j := by
    intro m h i j hi hj
    unfold above
    split
    · exact h i j hi hj
    · rfl
  have t1 : ∀ i < n, ∑ l ∈ range n, above (fun i j => st.mem (elem g.a g.lda i j)) l i * m2 (g.wa2 + l) = st.mem (g.b + i) := by
    intro i hi
    rw [← c1 i hi, ← s1 i hi]
    refine sum_congr rfl fun l hl => ?_
    rw [ab m1 (fun i j hi hj => f1 _ (L.a2 i j hi hj)) l i (mem_range.1 hl) hi]
  have t2 : ∀ i < n, ∑ l ∈ range n, above (fun i j => st.mem (elem g.a g.lda i j)) i l * m3 (g.wa2 + l) = m2 (g.wa2 + i) := by
    intro i hi
    rw [← s2 i hi]
    refine sum_congr rfl fun l hl => ?_
    rw [ab m2 (fun i j hi hj => by rw [f2 _ (L.a2 i j hi hj), f1 _ (L.a2 i j hi hj)]) i l hi (mem_range.1 hl)]
  refine ⟨?_, ?_⟩
  · intro i hi
    have h1 : ∑ j ∈ range n, sym S i j * at1 r.mem g.x j = -∑ j ∈ range n, ∑ l ∈ range n, above (fun i j => st.mem (elem g.a g.lda i j)) l i *
        (above (fun i j => st.mem (elem g.a g.lda i j)) l j * m3 (g.wa2 + j)) := by
      rw [← sum_neg_distrib]
      refine sum_congr rfl fun j hj => ?_
      rw [← gram_sym hF le_rfl hi (mem_range.1 hj), sum_mul, ← sum_neg_distrib]
      refine sum_congr rfl fun l _ => ?_
      unfold at1
      rw [hx j (mem_range.1 hj)]
      ring
    rw [h1, sum_comm, ← t1 i hi]
    congr 1
    refine sum_congr rfl fun l hl => ?_
    rw [← t2 l (mem_range.1 hl), mul_sum]
  · obtain ⟨n1, n2⟩ := nrm2_one hsqrt n g.wa2 m2
    have hxn : r.xnorm = nrm2 (n : Int) g.x 1 r.mem := by rw [hr]
    have hrx : r.rxnorm = nrm2 (n : Int) g.wa2 1 m2 := by rw [hr]
    obtain ⟨x1, x2⟩ := nrm2_one hsqrt n g.x r.mem
    rw [hxn, hrx]
    refine ⟨x1, x2, ?_⟩
    rw [n2]
    have h1 : dots n (at1 st.mem g.b) (at1 r.mem g.x) = -∑ i ∈ range n, ∑ l ∈ range n, m2 (g.wa2 + l) * (above (fun i j => st.mem (elem g.a g.lda i j)) l i * m3 (g.wa2 + i)) := by
      unfold dots
      rw [← sum_neg_distrib]
      refine sum_congr rfl fun i hi => ?_
      have := t1 i (mem_range.1 hi)
      show st.mem (g.b + i) * r.mem (g.x + i) = _
      rw [← this, hx i (mem_range.1 hi), sum_mul, ← sum_neg_distrib]
      exact sum_congr rfl fun l _ => by ring
    rw [h1, sum_comm, neg_neg]
    unfold sq
    refine sum_congr rfl fun l hl => ?_
    show m2 (g.wa2 + l) * m2 (g.wa2 + l) = _
    rw [← mul_sum, t2 l (mem_range.1 hl)]

/-- The length of the correction along `z`. -/
theorem alpha_spec (hsqrt : ∀ a : K, 0 ≤ a → 0 ≤ CMath.sqrt a ∧ CMath.sqrt a * CMath.sqrt a = a) {d xn c : K} (hd : 0 < d) (hx0 : 0 ≤ xn) (hx : xn < d) :
    let prod := c / d
    let temp := (d - xn) * ((d + xn) / d)
    let alpha := sign (temp / (|prod| + CMath.sqrt (prod * prod + temp / d))) prod
    xn * xn + 2 * alpha * c + alpha * alpha = d * d := by
  intro prod temp alpha
  have hc : c = prod * d := by show c = c / d * d; field_simp
  have ht : temp = (d * d - xn * xn) / d := by show (d - xn) * ((d + xn) / d) = _; field_simp; ring
  have hq : 0 < d * d - xn * xn := by nlinarith
  have htp : 0 < temp := by rw [ht]; positivity
  have hpos : 0 < prod * prod + temp / d := by have := mul_self_nonneg prod; positivity
  obtain ⟨s0, s1⟩ := hsqrt _ hpos.le
  have ha : alpha = sign (temp / (|prod| + CMath.sqrt (prod * prod + temp / d))) prod := rfl
  generalize CMath.sqrt (prod * prod + temp / d) = s at s0 s1 ha
  have hs : 0 < s := lt_of_le_of_ne s0 fun h => by rw [← h, mul_zero] at s1; exact hpos.ne s1
  have hden : 0 < |prod| + s := by have := abs_nonneg prod; linarith
  have habs : |prod| * |prod| = prod * prod := abs_mul_abs_self prod
  have hval : temp / (|prod| + s) = d * (s - |prod|) := by
    rw [div_eq_iff hden.ne']
    have : temp = d * (s * s - prod * prod) := by rw [s1]; field_simp; ring
    rw [this, ← habs]
    ring
  have hvp : 0 < temp / (|prod| + s) := div_pos htp hden
  clear_value alpha
  rw [hc]
  have hgoal : d * d - xn * xn = d * d * (s * s - prod * prod) := by
    rw [s1, ht]
    field_simp
    ring
  unfold sign at ha
  have hneg : ¬temp / (|prod| + s) < 0 := not_lt.2 hvp.le
  rw [hval] at ha hneg
  by_cases hp : prod < 0
  · rw [if_neg (by simp only [decide_eq_true hp, decide_eq_false hneg]; decide)] at ha
    rw [abs_of_neg hp] at ha
    rw [ha]
    linear_combination -hgoal
  · rw [if_pos (by simp only [decide_eq_false hp, decide_eq_false hneg])] at ha
    rw [abs_of_nonneg (not_lt.1 hp)] at ha
    rw [ha]
    linear_combination -hgoal

/-- The conditions of convergence (code 1). -/
def Close (g : Args K) (st : St K) : Prop :=
  |st.xnorm - g.delta| ≤ g.rtol * g.delta ∨ (st.parf = 0 ∧ st.xnorm ≤ (1 + g.rtol) * g.delta) ∨
  (st.xnorm < g.delta ∧ st.rznorm * st.rznorm ≤ g.rtol * (2 - g.rtol) * (st.parf * (g.delta * g.delta) + st.rxnorm * st.rxnorm) ∧
    (st.rednc = false → st.parf * (g.delta * g.delta - st.xnorm * st.xnorm) ≤ st.rznorm * st.rznorm)) ∨
  st.xnorm = 0

/-- The factorization succeeds. -/
theorem examine_good (hsqrt : ∀ a : K, 0 ≤ a → 0 ≤ CMath.sqrt a ∧ CMath.sqrt a * CMath.sqrt a = a) (L : Layout g n) (hd : 0 < g.delta) {mem0 : Mem K} {st : St K}
    (hS : Saved g n mem0 st.mem) (hU : ∀ i j, i ≤ j → j < n → st.mem (elem g.a g.lda i j) = shifted (mat g mem0) st.par i j) (hp : 0 ≤ st.par)
    (hi : st.info = 0) (h0 : (potf2 .upper g.n g.a g.lda st.mem).1 = 0) :
    let r := examine g st
    Good g n mem0 r ∧ r.parf = st.par ∧ (r.info = 1 → Close g r) ∧
    (r.info = 2 → r.xnorm < g.delta ∧ (r.parf * (g.delta * g.delta) + r.rxnorm * r.rxnorm) / 2 ≤ g.atol) ∧
    (r.info = 0 → ¬(st.par = 0 ∧ r.xnorm ≤ (1 + g.rtol) * g.delta)) ∧
    r.paru = (if r.xnorm < g.delta ∧ st.paru > st.par then st.par else st.paru) ∧
    r.parl = (if r.xnorm > g.delta ∧ st.parl < st.par then st.par else st.parl) ∧ r.pars ≥ st.pars := by
  intro r
  have hr : r = examine g st := rfl
  clear_value r
  have hl := L.lead
  have hn := L.pos
  have hsz := L.size
  unfold examine at hr
  dsimp only at hr
  rw [if_pos h0] at hr
  -- the factor
  have hrun := potf2_run hsqrt (uplo := .upper) trivial (n := n) g.a (lda := g.lda) (by omega) st.mem
  rw [← hsz] at hrun
  have hfr := potf2_frame (uplo := .upper) (n := n) trivial g.a (lda := g.lda) (by omega) st.mem
  rw [← hsz] at hfr
  generalize hm : potf2 .upper g.n g.a g.lda st.mem = q at hr h0 hrun hfr
  have hF : Factored (fun i j => q.2 (elem g.a g.lda i j)) (shifted (mat g mem0) st.par) n n := by
    rcases hrun with ⟨-, h⟩ | ⟨c, _, h, _⟩
    · have e1 : stored .upper g.a g.lda q.2 = fun i j => q.2 (elem g.a g.lda i j) := by funext i j; unfold stored half; rw [if_pos rfl]
      rw [e1] at h
      refine factored_congr ?_ h
      intro i j hij hj
      unfold stored half
      rw [if_pos rfl, hU i j hij hj]
    · omega
  have hqf : ∀ p, ¬upper g n p → q.2 p = st.mem p := by
    intro p hp
    apply hfr.2.2
    intro i j hi hj hij h
    rw [if_pos rfl] at hij
    exact hp ⟨i, j, hij, hj, h⟩
  have hqb : ∀ k < n, q.2 (g.b + k) = mem0 (g.b + k) := by
    intro k hk
    rw [hqf _ fun hu => b_not_scratch L hk (Or.inl hu), hS.b L hk]
  -- the solution
  obtain ⟨x1, x2, x3, x4⟩ := solve_spec hsqrt L { st with mem := q.2 } hF
  have hsp : (solve g { st with mem := q.2 }).parf = st.par ∧ (solve g { st with mem := q.2 }).par = st.par ∧ (solve g { st with mem := q.2 }).info = 0 ∧
      (solve g { st with mem := q.2 }).parl = st.parl ∧ (solve g { st with mem := q.2 }).paru = st.paru ∧ (solve g { st with mem := q.2 }).pars = st.pars :=
    ⟨rfl, rfl, hi, rfl, rfl, rfl⟩
  have hsf : ∀ i j, i < n → j < n → (solve g { st with mem := q.2 }).mem (elem g.a g.lda i j) = q.2 (elem g.a g.lda i j) :=
    fun i j hi hj => solve_frame L _ (L.ax i j hi hj) (L.a2 i j hi hj)
  generalize solve g { st with mem := q.2 } = s1 at hr x1 x2 x3 x4 hsp hsf
  obtain ⟨p1, p2, p3, p4, p5, p6⟩ := hsp
  have hsol : Solves (mat g mem0) (at1 mem0 g.b) n st.par (at1 s1.mem g.x) := by
    intro i hi
    rw [← sym_shifted (mat g mem0) st.par n _ hi, x1 i hi]
    show -q.2 (g.b + i) = -mem0 (g.b + i)
    rw [hqb i hi]
  have hrx : s1.rxnorm * s1.rxnorm = -dots n (at1 mem0 g.b) (at1 s1.mem g.x) := by
    rw [x4]
    congr 1
    refine sum_congr rfl fun k hk => ?_
    show q.2 (g.b + k) * _ = mem0 (g.b + k) * _
    rw [hqb k (mem_range.1 hk)]
  have hpsd : ∀ v, 0 ≤ quad (mat g mem0) n v + st.par * sq n v := by
    intro v
    rw [← quad_shifted, quad_squares hF le_rfl]
    exact sum_nonneg fun l _ => sq_nonneg _
  have hpd : ∀ v, (∃ i < n, v i ≠ 0) → 0 < quad (mat g mem0) n v + st.par * sq n v := by
    intro v hv
    rw [← quad_shifted]
    exact hF.posDef le_rfl v hv
  -- the direction
  obtain ⟨z1, z2, z3⟩ := estsv_spec hsqrt hn hl (fun i j hij hj => L.az i j (by omega) hj) s1.mem
  have hzx : ∀ k < n, (estsv n g.a g.lda g.z s1.mem).2 (g.x + k) = s1.mem (g.x + k) := fun k hk => estsv_frame hn _ _ _ _ (L.xz _ ⟨k, hk, rfl⟩)
  unfold curvature at hr
  dsimp only at hr
  rw [hsz] at hr
  generalize estsv n g.a g.lda g.z s1.mem = e at hr z1 z2 z3 hzx
  have hz : e.1 * e.1 = quad (mat g mem0) n (at1 e.2 g.z) + st.par * sq n (at1 e.2 g.z) := by
    rw [← z3, ← quad_shifted, quad_squares hF le_rfl]
    unfold sq
    refine sum_congr rfl fun l hl => ?_
    rw [← pow_two]
    congr 1
    refine sum_congr rfl fun i hi => ?_
    congr 1
    unfold above
    split
    · exact hsf l i (mem_range.1 hl) (mem_range.1 hi)
    · rfl
  -- correction does not modify the vectors
  have hcor : ∀ s : St K, (correction g s).parf = s.parf ∧ (correction g s).xnorm = s.xnorm ∧ (correction g s).rxnorm = s.rxnorm ∧ (correction g s).rednc = s.rednc ∧
      (correction g s).alpha = s.alpha ∧ (correction g s).rznorm = s.rznorm ∧ (correction g s).info = s.info ∧ (correction g s).pars = s.pars ∧
      (correction g s).paru = (if s.xnorm < g.delta ∧ s.paru > s.par then s.par else s.paru) ∧
      (correction g s).parl = (if s.xnorm > g.delta ∧ s.parl < s.par then s.par else s.parl) ∧
      (∀ k < n, (correction g s).mem (g.x + k) = s.mem (g.x + k)) ∧ ∀ k < n, (correction g s).mem (g.z + k) = s.mem (g.z + k) :=
    fun s => ⟨rfl, rfl, rfl, rfl, rfl, rfl, rfl, rfl, rfl, rfl, fun k hk => correction_frame L s (L.x2 _ ⟨k, hk, rfl⟩), fun k hk => correction_frame L s (L.z2 _ ⟨k, hk, rfl⟩)⟩
  have hpars : ∀ u v : K, updateMax u v ≥ u := by
    intro u v
    unfold updateMax
    split
    · rename_i h; exact le_of_lt h
    · exact le_rfl
  let i0 : Int := if fabs (s1.xnorm - g.delta) ≤ g.rtol * g.delta ∨ (s1.par = 0 ∧ s1.xnorm ≤ (1 + g.rtol) * g.delta) then 1 else s1.info
  have hi0 : i0 = if fabs (s1.xnorm - g.delta) ≤ g.rtol * g.delta ∨ (s1.par = 0 ∧ s1.xnorm ≤ (1 + g.rtol) * g.delta) then 1 else s1.info := rfl
  rw [← hi0] at hr
  clear_value i0
  rw [p2, p3, ExactMath.fabs_eq] at hi0
  have hi01 : i0 = 1 → |s1.xnorm - g.delta| ≤ g.rtol * g.delta ∨ (st.par = 0 ∧ s1.xnorm ≤ (1 + g.rtol) * g.delta) := by
    intro h
    by_contra hn
    rw [if_neg hn] at hi0
    omega
  have hi00 : i0 = 0 → ¬(st.par = 0 ∧ s1.xnorm ≤ (1 + g.rtol) * g.delta) := by
    intro h hn
    rw [if_pos (Or.inr hn)] at hi0
    omega
  have hi02 : i0 ≠ 2 := by
    intro h
    split at hi0 <;> omega
  have solves_congr : ∀ x y : Nat → K, (∀ k < n, x k = y k) → Solves (mat g mem0) (at1 mem0 g.b) n st.par y → Solves (mat g mem0) (at1 mem0 g.b) n st.par x := by
    intro x y h hy i hi
    rw [← hy i hi, h i hi]
    congr 1
    exact sum_congr rfl fun j hj => by rw [h j (mem_range.1 hj)]
  have dots_congr : ∀ u x y : Nat → K, (∀ k < n, x k = y k) → dots n u x = dots n u y := fun u x y h => sum_congr rfl fun k hk => by rw [h k (mem_range.1 hk)]
  have quad_congr : ∀ x y : Nat → K, (∀ k < n, x k = y k) → quad (mat g mem0) n x = quad (mat g mem0) n y := fun x y h =>
    sum_congr rfl fun i hi => sum_congr rfl fun j hj => by rw [h i (mem_range.1 hi), h j (mem_range.1 hj)]
  by_cases hlt : s1.xnorm < g.delta
  · unfold negative at hr
    dsimp only at hr
    rw [if_pos hlt] at hr
    generalize hs3 : St.mk _ _ _ _ _ _ _ _ _ _ _ _ _ _ = s3 at hr
    obtain ⟨c1, c2, c3, c4, c5, c6, c7, c8, c9, c10, c11, c12⟩ := hcor s3
    rw [← hr] at c1 c2 c3 c4 c5 c6 c7 c8 c9 c10 c11 c12
    have hx : ∀ k < n, at1 r.mem g.x k = at1 s1.mem g.x k := fun k hk => by
      show r.mem _ = s1.mem _
      rw [c11 k hk, ← hs3]
      exact hzx k hk
    have hzz : ∀ k < n, at1 r.mem g.z k = at1 e.2 g.z k := fun k hk => by
      show r.mem _ = e.2 _
      rw [c12 k hk, ← hs3]
    have q1 : r.parf = st.par := by rw [c1, ← hs3]; exact p1
    have q2 : r.xnorm = s1.xnorm := by rw [c2, ← hs3]
    have q3 : r.rxnorm = s1.rxnorm := by rw [c3, ← hs3]
    have hdot : dot g.n g.z 1 g.x 1 e.2 = dots n (at1 e.2 g.z) (at1 s1.mem g.x) := by
      rw [dot_spec, hsz, Int.toNat_natCast]
      refine sum_congr rfl fun k hk => ?_
      rw [slot_one, slot_one, hzx k (mem_range.1 hk)]
      rfl
    have q5 : r.alpha = sign ((g.delta - s1.xnorm) * ((g.delta + s1.xnorm) / g.delta) / (|dots n (at1 e.2 g.z) (at1 s1.mem g.x) / g.delta| +
        CMath.sqrt (dots n (at1 e.2 g.z) (at1 s1.mem g.x) / g.delta * (dots n (at1 e.2 g.z) (at1 s1.mem g.x) / g.delta) +
        (g.delta - s1.xnorm) * ((g.delta + s1.xnorm) / g.delta) / g.delta))) (dots n (at1 e.2 g.z) (at1 s1.mem g.x) / g.delta) := by
      rw [c5, ← hs3, hdot]
      simp only [ExactMath.fabs_eq]
    have ha := alpha_spec hsqrt (c := dots n (at1 e.2 g.z) (at1 s1.mem g.x)) hd x2 hlt
    dsimp only at ha
    rw [← q5] at ha
    have q6 : r.rznorm = e.1 * |r.alpha| := by
      rw [c6, q5, ← hs3, hdot]
      simp only [ExactMath.fabs_eq]
    have hrz : r.rznorm * r.rznorm = r.alpha * r.alpha * (quad (mat g mem0) n (at1 e.2 g.z) + st.par * sq n (at1 e.2 g.z)) := by
      rw [q6, ← hz, ← abs_mul_abs_self r.alpha]
      ring
    have q4 : r.rednc = decide (r.rznorm / g.delta * (r.rznorm / g.delta) + st.par * (s1.xnorm / g.delta) * (s1.xnorm / g.delta) ≤ st.par) := by
      rw [c4, c6, ← hs3]
      dsimp only
      rw [p2]
    have hdd : g.delta ≠ 0 := hd.ne'
    have hdd2 : 0 < g.delta * g.delta := mul_pos hd hd
    have hredn : r.rednc = true ↔ r.rznorm * r.rznorm ≤ st.par * (g.delta * g.delta - s1.xnorm * s1.xnorm) := by
      rw [q4, decide_eq_true_iff]
      have e1 : r.rznorm / g.delta * (r.rznorm / g.delta) + st.par * (s1.xnorm / g.delta) * (s1.xnorm / g.delta) =
          (r.rznorm * r.rznorm + st.par * (s1.xnorm * s1.xnorm)) / (g.delta * g.delta) := by field_simp
      rw [e1, div_le_iff₀ hdd2]
      constructor <;> intro h <;> linarith
    have q7 : r.info = if lit 1 2 * (r.rznorm / g.delta * (r.rznorm / g.delta)) ≤ g.rtol * (1 - lit 1 2 * g.rtol) * (st.par + s1.rxnorm / g.delta * (s1.rxnorm / g.delta)) then 1
        else if i0 = 0 ∧ lit 1 2 * (st.par + s1.rxnorm / g.delta * (s1.rxnorm / g.delta)) ≤ g.atol / g.delta / g.delta then 2
        else if s1.xnorm = 0 then 1 else i0 := by
      rw [c7, c6, ← hs3]
      dsimp only
      rw [p2]
    have hhalf : (lit 1 2 : K) = 1 / 2 := by rw [ExactMath.lit_eq]; norm_num
    rw [hhalf] at q7
    have t1 : 1 / 2 * (r.rznorm / g.delta * (r.rznorm / g.delta)) ≤ g.rtol * (1 - 1 / 2 * g.rtol) * (st.par + s1.rxnorm / g.delta * (s1.rxnorm / g.delta)) ↔
        r.rznorm * r.rznorm ≤ g.rtol * (2 - g.rtol) * (st.par * (g.delta * g.delta) + s1.rxnorm * s1.rxnorm) := by
      have e1 : 1 / 2 * (r.rznorm / g.delta * (r.rznorm / g.delta)) = r.rznorm * r.rznorm / (g.delta * g.delta * 2) := by field_simp
      have e2 : g.rtol * (1 - 1 / 2 * g.rtol) * (st.par + s1.rxnorm / g.delta * (s1.rxnorm / g.delta)) =
          g.rtol * (2 - g.rtol) * (st.par * (g.delta * g.delta) + s1.rxnorm * s1.rxnorm) / (g.delta * g.delta * 2) := by field_simp
      rw [e1, e2, div_le_div_iff_of_pos_right (by positivity)]
    have t2 : 1 / 2 * (st.par + s1.rxnorm / g.delta * (s1.rxnorm / g.delta)) ≤ g.atol / g.delta / g.delta ↔
        (st.par * (g.delta * g.delta) + s1.rxnorm * s1.rxnorm) / 2 ≤ g.atol := by
      have e1 : 1 / 2 * (st.par + s1.rxnorm / g.delta * (s1.rxnorm / g.delta)) = (st.par * (g.delta * g.delta) + s1.rxnorm * s1.rxnorm) / 2 / (g.delta * g.delta) := by field_simp
      have e2 : g.atol / g.delta / g.delta = g.atol / (g.delta * g.delta) := by field_simp
      rw [e1, e2, div_le_div_iff_of_pos_right hdd2]
    simp only [t1, t2] at q7
    have g9 : r.paru = if r.xnorm < g.delta ∧ st.paru > st.par then st.par else st.paru := by
      rw [c9, q2, ← hs3]
      dsimp only
      rw [p2, p5]
    have g10 : r.parl = if r.xnorm > g.delta ∧ st.parl < st.par then st.par else st.parl := by
      rw [c10, q2, ← hs3]
      dsimp only
      rw [p2, p4]
    have g8 : r.pars ≥ st.pars := by
      rw [c8, ← hs3]
      dsimp only
      rw [p6]
      exact hpars _ _
    refine ⟨⟨?_, ?_, ?_, ?_, ?_, ?_, ?_, ?_⟩, q1, ?_, ?_, ?_, g9, g10, g8⟩
    · rw [q1]; exact hp
    · rw [q1]; exact hpsd
    · rw [q1]; exact hpd
    · rw [q1]; exact solves_congr _ _ hx hsol
    · rw [q2]; exact x2
    · rw [q2, sq_congr hx]; exact x3
    · rw [q3, dots_congr _ _ _ hx]; exact hrx
    · intro hred
      rw [hredn] at hred
      refine ⟨?_, ?_, ?_⟩
      · rw [sq_add, sq_congr hx, sq_congr hzz, z2, mul_one, ← x3]
        have : dots n (at1 r.mem g.z) (at1 r.mem g.x) = dots n (at1 e.2 g.z) (at1 s1.mem g.x) := by
          rw [dots_congr _ _ _ hx]
          exact sum_congr rfl fun k hk => by rw [hzz k (mem_range.1 hk)]
        rw [this]
        exact ha
      · rw [q1, quad_congr _ _ hzz, sq_congr hzz]
        exact hrz
      · rw [q1, q2]
        exact hred
    · intro h1
      rw [h1] at q7
      unfold Close
      rw [q1, q2, q3]
      by_cases u1 : r.rznorm * r.rznorm ≤ g.rtol * (2 - g.rtol) * (st.par * (g.delta * g.delta) + s1.rxnorm * s1.rxnorm)
      · refine Or.inr (Or.inr (Or.inl ⟨hlt, u1, fun h => ?_⟩))
        by_contra hcon
        rw [hredn.2 (not_le.1 hcon).le] at h
        exact absurd h (by decide)
      rw [if_neg u1] at q7
      by_cases u2 : i0 = 0 ∧ (st.par * (g.delta * g.delta) + s1.rxnorm * s1.rxnorm) / 2 ≤ g.atol
      · rw [if_pos u2] at q7
        omega
      rw [if_neg u2] at q7
      by_cases u3 : s1.xnorm = 0
      · exact Or.inr (Or.inr (Or.inr u3))
      rw [if_neg u3] at q7
      rcases hi01 q7.symm with h | h
      · exact Or.inl h
      · exact Or.inr (Or.inl h)
    · intro h2
      rw [h2] at q7
      rw [q1, q2, q3]
      refine ⟨hlt, ?_⟩
      by_cases u1 : r.rznorm * r.rznorm ≤ g.rtol * (2 - g.rtol) * (st.par * (g.delta * g.delta) + s1.rxnorm * s1.rxnorm)
      · rw [if_pos u1] at q7
        omega
      rw [if_neg u1] at q7
      by_cases u2 : i0 = 0 ∧ (st.par * (g.delta * g.delta) + s1.rxnorm * s1.rxnorm) / 2 ≤ g.atol
      · exact u2.2
      rw [if_neg u2] at q7
      split at q7 <;> omega
    · intro h00
      rw [h00] at q7
      rw [q2]
      apply hi00
      split at q7
      · omega
      split at q7
      · omega
      split at q7
      · omega
      exact q7.symm
  · unfold negative at hr
    dsimp only at hr
    rw [if_neg hlt] at hr
    generalize hs3 : St.mk _ _ _ _ _ _ _ _ _ _ _ _ _ _ = s3 at hr
    obtain ⟨c1, c2, c3, c4, c5, c6, c7, c8, c9, c10, c11, c12⟩ := hcor s3
    rw [← hr] at c1 c2 c3 c4 c5 c6 c7 c8 c9 c10 c11 c12
    have hx : ∀ k < n, at1 r.mem g.x k = at1 s1.mem g.x k := fun k hk => by
      show r.mem _ = s1.mem _
      rw [c11 k hk, ← hs3]
      exact hzx k hk
    have q1 : r.parf = st.par := by rw [c1, ← hs3]; exact p1
    have q2 : r.xnorm = s1.xnorm := by rw [c2, ← hs3]
    have q3 : r.rxnorm = s1.rxnorm := by rw [c3, ← hs3]
    have q4 : r.rednc = false := by rw [c4, ← hs3]
    have q7 : r.info = i0 := by rw [c7, ← hs3]
    have g9 : r.paru = if r.xnorm < g.delta ∧ st.paru > st.par then st.par else st.paru := by
      rw [c9, q2, ← hs3]
      dsimp only
      rw [p2, p5]
    have g10 : r.parl = if r.xnorm > g.delta ∧ st.parl < st.par then st.par else st.parl := by
      rw [c10, q2, ← hs3]
      dsimp only
      rw [p2, p4]
    have g8 : r.pars ≥ st.pars := by
      rw [c8, ← hs3]
      dsimp only
      rw [p6]
      exact hpars _ _
    refine ⟨⟨?_, ?_, ?_, ?_, ?_, ?_, ?_, ?_⟩, q1, ?_, ?_, ?_, g9, g10, g8⟩
    · rw [q1]; exact hp
    · rw [q1]; exact hpsd
    · rw [q1]; exact hpd
    · rw [q1]; exact solves_congr _ _ hx hsol
    · rw [q2]; exact x2
    · rw [q2, sq_congr hx]; exact x3
    · rw [q3, dots_congr _ _ _ hx]; exact hrx
    · intro hred
      rw [q4] at hred
      exact absurd hred (by decide)
    · intro h1
      rw [q7] at h1
      unfold Close
      rw [q1, q2]
      rcases hi01 h1 with h | h
      · exact Or.inl h
      · exact Or.inr (Or.inl h)
    · intro h2
      rw [q7] at h2
      exact absurd h2 hi02
    · intro h00
      rw [q2]
      exact hi00 (q7 ▸ h00)

end
end Opk.Gqt
