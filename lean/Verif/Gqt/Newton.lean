import Verif.Gqt.Accuracy
/-!
# The solution inside the ball

If the matrix is positive definite and the minimum of the quadratic function is in the ball, it is found at the first iteration.
-/
set_option linter.unusedSectionVars false
set_option linter.unusedVariables false
namespace Opk.Gqt
open Linalg Finset

section
variable {K : Type} [Field K] [LinearOrder K] [IsStrictOrderedRing K]

/-- Gershgorin: an upper bound of the quadratic form. -/
theorem gershgorin_upper {A : Nat → Nat → K} {n : Nat} {c : K} (h : ∀ j < n, ∑ i ∈ range n, |sym A i j| - |A j j| + A j j ≤ c) (v : Nat → K) : quad A n v ≤ c * sq n v := by
  have hs : ∀ i j, sym (fun i j => -A i j) i j = -sym A i j := fun i j => by unfold sym; split <;> rfl
  have h1 := gershgorin (A := fun i j => -A i j) (n := n) (c := -c) (by
    intro j hj
    have := h j hj
    simp only [hs, abs_neg]
    linarith) v
  have e : quad (fun i j => -A i j) n v = -quad A n v := by
    unfold quad
    simp only [hs, neg_mul, sum_neg_distrib]
  rw [e] at h1
  linarith

/-- Cauchy-Schwarz inequality for a positive matrix. -/
theorem bil_sq {A : Nat → Nat → K} {n : Nat} (hA : ∀ v, 0 ≤ quad A n v) (u v : Nat → K) : bil A n u v * bil A n u v ≤ quad A n u * quad A n v := by
  have key : ∀ s : K, 0 ≤ quad A n u + 2 * s * bil A n v u + s * s * quad A n v := by
    intro s
    have := hA fun k => u k + s * v k
    rw [quad_add] at this
    exact this
  rw [bil_comm A n u v]
  rcases (hA v).eq_or_lt with h0 | hp
  · have hz : bil A n v u = 0 := by
      by_contra hne
      have := key (-(quad A n u + 1) / (2 * bil A n v u))
      rw [← h0, mul_zero, add_zero] at this
      have e : 2 * (-(quad A n u + 1) / (2 * bil A n v u)) * bil A n v u = -(quad A n u + 1) := by field_simp
      rw [e] at this
      linarith
    rw [hz, ← h0]
    simp
  · have := key (-bil A n v u / quad A n v)
    have e : quad A n u + 2 * (-bil A n v u / quad A n v) * bil A n v u + -bil A n v u / quad A n v * (-bil A n v u / quad A n v) * quad A n v =
        quad A n u - bil A n v u * bil A n v u / quad A n v := by field_simp; ring
    rw [e, sub_nonneg, div_le_iff₀ hp] at this
    exact this

/-- The norm of `A*x` when the quadratic form is between 0 and `c`. -/
theorem Solves.norm {A : Nat → Nat → K} {b : Nat → K} {n : Nat} {x : Nat → K} {c : K} (h : Solves A b n 0 x) (hA : ∀ v, 0 ≤ quad A n v) (hc : ∀ v, quad A n v ≤ c * sq n v) (h0 : 0 ≤ c) :
    sq n b ≤ c * c * sq n x := by
  have h1 := h.bil b
  have h2 := bil_sq hA b x
  have h3 := h.bil x
  rw [zero_mul, sub_zero] at h1 h3
  have hq : quad A n x ≤ c * sq n x := hc x
  have hb := hc b
  have e : dots n b b = sq n b := rfl
  have hs : 0 ≤ sq n b := sum_nonneg fun i _ => mul_self_nonneg _
  rw [h1, e] at h2
  -- (sq b)^2 <= quad b * quad x <= c * sq b * c * sq x
  have h4 : quad A n b * quad A n x ≤ c * sq n b * (c * sq n x) := mul_le_mul hb hq (hA x) (mul_nonneg h0 hs)
  rcases hs.eq_or_lt with hz | hp
  · rw [← hz]
    exact mul_nonneg (mul_nonneg h0 h0) (sum_nonneg fun i _ => mul_self_nonneg _)
  · have h5 : sq n b * sq n b ≤ c * c * sq n x * sq n b := by linarith
    exact le_of_mul_le_mul_right h5 hp

/-- The solution is unique when the matrix is positive definite. -/
theorem Solves.unique {A : Nat → Nat → K} {b : Nat → K} {n : Nat} {x y : Nat → K} (hx : Solves A b n 0 x) (hy : Solves A b n 0 y)
    (hA : ∀ v, (∃ i < n, v i ≠ 0) → 0 < quad A n v) : ∀ k < n, x k = y k := by
  by_contra h
  push Not at h
  obtain ⟨k, hk, hne⟩ := h
  have hp := hA (fun k => x k - y k) ⟨k, hk, sub_ne_zero.2 hne⟩
  have hq : quad A n (fun k => x k - y k) = 0 := by
    unfold quad
    refine sum_eq_zero fun i hi => ?_
    have h1 := hx i (mem_range.1 hi)
    have h2 := hy i (mem_range.1 hi)
    rw [zero_mul, add_zero] at h1 h2
    have e : ∀ j, sym A i j * (x i - y i) * (x j - y j) = (x i - y i) * (sym A i j * x j) - (x i - y i) * (sym A i j * y j) := fun j => by ring
    simp only [e]
    rw [sum_sub_distrib, ← mul_sum, ← mul_sum, h1, h2, sub_self]
  rw [hq] at hp
  exact lt_irrefl _ hp

end

section exact
variable {K : Type} [Field K] [LinearOrder K] [IsStrictOrderedRing K] [CMath K] [ExactMath K]
variable {g : Args K} {n : Nat}

theorem potf2_ok (hsqrt : ∀ a : K, 0 ≤ a → 0 ≤ CMath.sqrt a ∧ CMath.sqrt a * CMath.sqrt a = a) (L : Layout g n) {A : Nat → Nat → K} {mem : Mem K}
    (hU : ∀ i j, i ≤ j → j < n → mem (elem g.a g.lda i j) = A i j) (hA : ∀ v, (∃ i < n, v i ≠ 0) → 0 < quad A n v) : (potf2 .upper g.n g.a g.lda mem).1 = 0 := by
  have hl := L.lead
  have hn := L.pos
  have hP := (potf2_posDef hsqrt (uplo := .upper) trivial (n := n) g.a (lda := g.lda) (by omega) mem).1
  rw [← L.size] at hP
  rw [hP]
  intro v hv
  have e : quad (stored .upper g.a g.lda mem) n v = quad A n v := by
    have hst : ∀ i j, i ≤ j → j < n → stored .upper g.a g.lda mem i j = A i j := by
      intro i j hij hj
      unfold stored half
      rw [if_pos rfl]
      exact hU i j hij hj
    refine sum_congr rfl fun i hi => sum_congr rfl fun j hj => ?_
    rw [mem_range] at hi hj
    congr 2
    unfold sym
    split
    · exact hst i j (by assumption) hj
    · exact hst j i (by omega) hi
  rw [e]
  exact hA v hv

theorem abs_le_of_mul_self_le {u v : K} (hu : 0 ≤ u) (hv : 0 ≤ v) (h : u * u ≤ v * v) : u ≤ v := by
  by_contra hn
  push Not at hn
  nlinarith

theorem examine_one (st : St K) (h0 : (potf2 .upper g.n g.a g.lda st.mem).1 = 0) (hp : st.par = 0) (hx : (examine g st).xnorm ≤ (1 + g.rtol) * g.delta) : (examine g st).info = 1 := by
  have he : examine g st = correction g (negative g (curvature g (solve g { st with mem := (potf2 .upper g.n g.a g.lda st.mem).2 }))) := by
    unfold examine
    dsimp only
    rw [if_pos h0]
  have h1 : ∀ s : St K, (correction g s).info = s.info ∧ (correction g s).xnorm = s.xnorm := fun s => ⟨rfl, rfl⟩
  have h2 : ∀ s : St K, (negative g s).xnorm = s.xnorm ∧ (s.info = 1 → (negative g s).info = 1) := by
    intro s
    unfold negative
    split
    · dsimp only
      refine ⟨rfl, fun hs => ?_⟩
      split
      · rfl
      rw [if_neg (by rw [hs]; exact fun h => absurd h.1 (by decide))]
      split
      · rfl
      · exact hs
    · exact ⟨rfl, id⟩
  rw [he, (h1 _).2, (h2 _).1] at hx
  rw [he, (h1 _).1]
  apply (h2 _).2
  generalize hs : solve g { st with mem := (potf2 .upper g.n g.a g.lda st.mem).2 } = s at hx
  have hsp : s.par = 0 := by rw [← hs]; exact hp
  unfold curvature
  dsimp only
  exact if_pos (Or.inr ⟨hsp, hx⟩)

/-- If `A` is positive definite, the minimum of the quadratic function is in the ball and the initial parameter is not positive (or not given), then the minimum is found at the first iteration. -/
theorem gqt_newton (hsqrt : ∀ a : K, 0 ≤ a → 0 ≤ CMath.sqrt a ∧ CMath.sqrt a * CMath.sqrt a = a) (L : Layout g n) (hd : 0 < g.delta) (hr0 : 0 ≤ g.rtol)
    (hp : ∀ p, g.par = some p → p ≤ 0) {mem : Mem K} (hA : ∀ v, (∃ i < n, v i ≠ 0) → 0 < quad (mat g mem) n v) {x0 : Nat → K}
    (hx : Solves (mat g mem) (at1 mem g.b) n 0 x0) (hin : sq n x0 ≤ g.delta * g.delta) {fuel : Nat} {r : Result K} (hr : gqt g fuel mem = some r) :
    r.info = 1 ∧ r.par = 0 ∧ r.iter = 1 ∧ (∀ k < n, r.mem (g.x + k) = x0 k) ∧ ∀ v, r.fx ≤ objective (mat g mem) (at1 mem g.b) n v := by
  have hn := L.pos
  have hpsd : ∀ v, 0 ≤ quad (mat g mem) n v := by
    intro v
    by_cases h : ∃ i < n, v i ≠ 0
    · exact (hA v h).le
    · push Not at h
      apply le_of_eq
      symm
      exact sum_eq_zero fun i hi => sum_eq_zero fun j _ => by rw [h i (mem_range.1 hi)]; ring
  have hdiag : ∀ j < n, 0 < mat g mem j j := by
    intro j hj
    have := hA (fun k => if k = j then 1 else 0) ⟨j, hj, by simp⟩
    have e : quad (mat g mem) n (fun k => if k = j then 1 else 0) = mat g mem j j := by
      unfold quad
      rw [sum_eq_single j]
      · rw [sum_eq_single j]
        · unfold sym; simp
        · intro k _ hk; simp [hk]
        · intro h; exact absurd (mem_range.2 hj) h
      · intro i _ hi; simp [hi]
      · intro h; exact absurd (mem_range.2 hj) h
    rw [e] at this
    exact this
  -- the initial parameters
  obtain ⟨bn, pars, bl, bu, b1, b2, hBl, -, hps, e0, e2, e1, e3⟩ := start_data hsqrt L mem
  have hps := hps hdiag
  have hcl := gershgorin_upper hBl
  have hbl : 0 ≤ bl := by
    have h1 := hBl 0 hn
    have h2 : |sym (mat g mem) 0 0| ≤ ∑ i ∈ range n, |sym (mat g mem) i 0| := single_le_sum (f := fun i => |sym (mat g mem) i 0|) (fun i _ => abs_nonneg _) (mem_range.2 hn)
    have h3 : sym (mat g mem) 0 0 = mat g mem 0 0 := by unfold sym; rw [if_pos le_rfl]
    rw [h3] at h2
    linarith [hdiag 0 hn]
  have hbd : bn / g.delta ≤ bl := by
    rw [div_le_iff₀ hd]
    have h1 := hx.norm hpsd hcl hbl
    rw [← b2] at h1
    have h2 : bn * bn ≤ (bl * g.delta) * (bl * g.delta) := by nlinarith [mul_nonneg hbl hbl]
    exact abs_le_of_mul_self_le b1 (mul_nonneg hbl hd.le) h2
  have hparl : (start g mem).parl = 0 := by
    rw [e2]
    have : (if bn / g.delta - bl < pars then pars else bn / g.delta - bl) ≤ 0 := by
      split
      · exact hps.le
      · linarith
    generalize (if bn / g.delta - bl < pars then pars else bn / g.delta - bl) = u at this
    split
    · rfl
    · rename_i h; exact le_antisymm this (not_lt.1 h)
  have hpar : (start g mem).par = 0 := by
    rw [e1, hparl]
    obtain ⟨p0, hp0, h1⟩ : ∃ p0 : K, g.par.getD 0 = p0 ∧ p0 ≤ 0 := by
      cases h : g.par with
      | some p => exact ⟨p, rfl, hp p h⟩
      | none => exact ⟨0, rfl, le_rfl⟩
    rw [hp0]
    have h2 : (if p0 < 0 then 0 else p0) = 0 := by
      split
      · rfl
      · rename_i h; exact le_antisymm h1 (not_lt.1 h)
    rw [h2]
    generalize bn / g.delta + bu = u
    by_cases h : u < 0
    · rw [if_pos h, if_neg (lt_irrefl _)]
    · rw [if_neg h, if_neg (by simpa using h)]
  have H := start_head hsqrt L mem
  generalize hst : start g mem = st at *
  -- the first iteration
  have hsp : (shift g st).par = 0 := by
    have hno : ¬(st.par ≤ st.pars ∧ st.paru > 0) := by
      rw [hpar, e0]
      exact fun h => absurd h.1 (not_le.2 hps)
    unfold shift
    dsimp only
    rw [if_neg hno, hpar]
  have hS1 : Saved g n mem (shift g st).mem := H.saved.mono L fun p hp => shift_frame L st fun hu => hp (Or.inl hu)
  have hU := shift_upper L H.saved
  have sinfo : (shift g st).info = 0 := H.info
  have h0 : (potf2 .upper g.n g.a g.lda (shift g st).mem).1 = 0 := by
    refine potf2_ok hsqrt L hU fun v hv => ?_
    rw [quad_shifted, hsp, zero_mul, add_zero]
    exact hA v hv
  obtain ⟨k1, k2, k3, k4, k5, -⟩ := examine_good hsqrt L hd hS1 hU (by rw [hsp]) sinfo h0
  have hxs : ∀ k < n, at1 (examine g (shift g st)).mem g.x k = x0 k := by
    refine Solves.unique ?_ hx hA
    have := k1.sol
    rw [k2, hsp] at this
    exact this
  have hxn : (examine g (shift g st)).xnorm ≤ (1 + g.rtol) * g.delta := by
    have h1 := k1.xn
    rw [sq_congr hxs] at h1
    have h2 : (examine g (shift g st)).xnorm ≤ g.delta := by
      refine abs_le_of_mul_self_le k1.xn0 hd.le ?_
      rw [h1]
      exact hin
    nlinarith
  have hi1 : (examine g (shift g st)).info = 1 := examine_one _ h0 hsp hxn
  have hstep : step g st = .inl (finish g (terminate g (examine g (shift g st)))) := by
    have : (terminate g (examine g (shift g st))).info = 1 := by
      unfold terminate
      dsimp only
      rw [if_neg (by rw [hi1]; decide), hi1]
    unfold step
    dsimp only
    rw [if_pos (by rw [this]; decide)]
  have hrf : r = finish g (terminate g (examine g (shift g st))) := by
    unfold gqt at hr
    rw [hst] at hr
    cases fuel with
    | zero => unfold iterate at hr; cases hr
    | succ f =>
      unfold iterate at hr
      rw [hstep] at hr
      cases hr
      rfl
  have hiter : (examine g (shift g st)).iter = 0 := by
    rw [examine_iter, ← hst]
    rfl
  obtain ⟨-, hval⟩ := gqt_value hsqrt L hd hr0 hr
  generalize hu : examine g (shift g st) = u at *
  have hx1 : ∀ k < n, r.mem (g.x + k) = x0 k := by
    intro k hk
    have h1 := finish_x L (terminate g u) k hk
    rw [← hrf] at h1
    by_cases hred : (terminate g u).rednc = true
    · rw [if_pos hred] at h1
      obtain ⟨r1, r2, r3⟩ := k1.red hred
      have hz : u.alpha * u.alpha * quad (mat g mem) n (at1 u.mem g.z) = 0 := by
        rw [k2, hsp, zero_mul] at r3
        rw [k2, hsp, zero_mul, add_zero] at r2
        exact le_antisymm (by rw [← r2]; exact r3) (mul_nonneg (mul_self_nonneg _) (hpsd _))
      have hz' : u.alpha * u.mem (g.z + k) = 0 := by
        rcases mul_eq_zero.1 hz with h | h
        · rw [mul_self_eq_zero.1 h, zero_mul]
        · have : ¬∃ i < n, at1 u.mem g.z i ≠ 0 := fun hne => absurd (hA _ hne) (by rw [h]; exact lt_irrefl _)
          push Not at this
          have := this k hk
          unfold at1 at this
          rw [this, mul_zero]
      have e : (terminate g u).mem = u.mem := rfl
      have e' : (terminate g u).alpha = u.alpha := rfl
      rw [e, e', hz', add_zero] at h1
      exact h1.trans (hxs k hk)
    · rw [if_neg hred] at h1
      exact h1.trans (hxs k hk)
  refine ⟨?_, ?_, ?_, hx1, ?_⟩
  · rw [hrf]
    show (terminate g u).info = 1
    unfold terminate
    dsimp only
    rw [if_neg (by rw [hi1]; decide), hi1]
  · rw [hrf]
    show u.parf = 0
    rw [k2, hsp]
  · rw [hrf]
    show u.iter + 1 = 1
    rw [hiter]
    rfl
  · intro v
    have hs : Solves (mat g mem) (at1 mem g.b) n 0 (at1 r.mem g.x) := by
      intro i hi
      have hx1' : ∀ k < n, at1 r.mem g.x k = x0 k := hx1
      rw [← hx i hi, hx1' i hi]
      congr 1
      exact sum_congr rfl fun j hj => by rw [hx1' j (mem_range.1 hj)]
    have h1 := hs.bound (fun v => by rw [zero_mul, add_zero]; exact hpsd v) v
    rw [hval, hs.value]
    rw [zero_mul] at h1 ⊢
    exact h1

end exact
end Opk.Gqt
