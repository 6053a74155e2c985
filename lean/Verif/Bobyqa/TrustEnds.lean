import Verif.Bobyqa.Turn
import Mathlib.Algebra.Order.Archimedean.Basic
import Mathlib.Algebra.Order.BigOperators.Group.Finset

/-!
`trsbox`, `src/bobyqa.c:2396-2861`, ends.
-/

namespace Opk.Bobyqa
open Linalg CMath Cobyla

section
variable {K : Type} [Field K] [LinearOrder K] [IsStrictOrderedRing K] [CMath K] [ExactMath K]

/-- The label 190 is reached. -/
def TEnds (b : Box K) (x : TLab × Tb K) : Prop := ∃ fuel, (tRun b fuel x).1 = .t190

omit [IsStrictOrderedRing K] [ExactMath K] in
theorem TEnds.next {b : Box K} {x : TLab × Tb K} (h : TEnds b (tNext b x)) : TEnds b x := by
  obtain ⟨fuel, h⟩ := h
  exact ⟨fuel + 1, h⟩

omit [IsStrictOrderedRing K] [ExactMath K] in
theorem TEnds.now {b : Box K} {x : TLab × Tb K} (h : x.1 = .t190) : TEnds b x := ⟨0, h⟩

/-! ### The model is bounded in the trust region -/

omit [CMath K] [ExactMath K] in
theorem dot_bound {n : Nat} (u : Nat → K) {d : Nat → K} {c : K} (h : ∀ i, 1 ≤ i → i ≤ n → |d i| ≤ c) :
    |dot n u d| ≤ ∑ i ∈ Finset.Icc 1 n, |u i| * c := by
  refine (Finset.abs_sum_le_sum_abs _ _).trans (Finset.sum_le_sum fun i hi => ?_)
  obtain ⟨h1, h2⟩ := Finset.mem_Icc.mp hi
  rw [abs_mul]
  exact mul_le_mul_of_nonneg_left (h i h1 h2) (abs_nonneg _)

theorem quad_bound (b : Box K) (c : K) : ∃ M, ∀ d : Nat → K, (∀ i, 1 ≤ i → i ≤ b.n → |d i| ≤ c) → -b.quad d ≤ M := by
  have hh : ∃ H : Nat → K, ∀ d : Nat → K, (∀ i, 1 ≤ i → i ≤ b.n → |d i| ≤ c) → ∀ i, |b.hess d i| ≤ H i := by
    refine ⟨fun i => ∑ j ∈ Finset.Icc 1 b.n, |b.hq (min i j) (max i j)| * c +
      ∑ k ∈ Finset.Icc 1 b.npt, |b.pq k| * (∑ j ∈ Finset.Icc 1 b.n, |b.xpt k j| * c) * |b.xpt k i|, fun d hd i => ?_⟩
    unfold Box.hess
    refine (abs_add_le _ _).trans (add_le_add (dot_bound (fun j => b.hq (min i j) (max i j)) hd) ?_)
    refine (Finset.abs_sum_le_sum_abs _ _).trans (Finset.sum_le_sum fun k _ => ?_)
    rw [abs_mul, abs_mul]
    exact mul_le_mul_of_nonneg_right (mul_le_mul_of_nonneg_left (dot_bound _ hd) (abs_nonneg _)) (abs_nonneg _)
  obtain ⟨H, hH⟩ := hh
  refine ⟨∑ i ∈ Finset.Icc 1 b.n, |b.gopt i| * c + 1 / 2 * ∑ i ∈ Finset.Icc 1 b.n, |H i| * c, fun d hd => ?_⟩
  have g1 := dot_bound b.gopt hd
  have g2 := dot_bound (b.hess d) hd
  have g3 : ∑ i ∈ Finset.Icc 1 b.n, |b.hess d i| * c ≤ ∑ i ∈ Finset.Icc 1 b.n, |H i| * c := by
    refine Finset.sum_le_sum fun i hi => ?_
    obtain ⟨h1, h2⟩ := Finset.mem_Icc.mp hi
    have hc : 0 ≤ c := (abs_nonneg _).trans (hd i h1 h2)
    exact mul_le_mul_of_nonneg_right ((hH d hd i).trans (le_abs_self _)) hc
  have k1 := neg_abs_le (dot b.n b.gopt d)
  have k2 := neg_abs_le (dot b.n (b.hess d) d)
  unfold Box.quad
  rw [dot_comm b.n d (b.hess d)]
  linarith

theorem TBase.qred_le {b : Box K} {M : K} (hM : ∀ d : Nat → K, (∀ i, 1 ≤ i → i ≤ b.n → |d i| ≤ |b.delta|) → -b.quad d ≤ M) {t : Tb K}
    (h : TBase b t) : t.qred ≤ M := by
  rw [h.red]
  refine hM t.d fun i h1 h2 => ?_
  exact abs_le_iff_mul_self_le.mpr ((sq_le_dot t.d h1 h2).trans h.norm)

/-! ### The alternative iterations end -/

omit [IsStrictOrderedRing K] [CMath K] [ExactMath K] in
theorem t100_next (b : Box K) (t : Tb K) (h : t.crvmin = 0) :
    (t100 b t).1 = .t190 ∨ (t100 b t).1 = .t120 ∧ (t100 b t).2.nact = t.nact := by
  unfold t100
  split_ifs with c
  · exact Or.inl rfl
  · right
    unfold t210
    dsimp only
    rw [if_neg (not_not.mpr h), if_neg (lt_irrefl _)]
    exact ⟨rfl, rfl⟩

omit [IsStrictOrderedRing K] [ExactMath K] in
theorem t120_next {b : Box K} {t : Tb K} (h : T120 b t) :
    (t120 b t).1 = .t190 ∨ (t120 b t).1 = .t100 ∧ (t120 b t).2.nact = t.nact + 1 ∨
      (t120 b t).1 = .t150 ∧ (t120 b t).2.nact = t.nact ∧ (t120 b t).2.qred = t.qred := by
  unfold t120
  dsimp only
  split_ifs with c
  · exact Or.inl rfl
  · generalize up b.n _ (⟨1, 0, t.xsav, none⟩ : Ang K) = a
    cases hs : a.stop with
    | some iv => exact Or.inr (Or.inl ⟨rfl, rfl⟩)
    | none =>
      right; right
      unfold t210
      dsimp only
      have hit : t.iterc + 1 > t.itcsav := Nat.lt_succ_of_le h.iter
      rw [if_neg (not_not.mpr h.crvmin), if_pos hit]
      exact ⟨rfl, rfl, rfl⟩

theorem t150_next {b : Box K} {t : Tb K} (h : TBase b t) :
    (t150 b t).1 = .t190 ∨ (t150 b t).1 = .t100 ∧ (t150 b t).2.nact = t.nact + 1 ∨
      (t150 b t).1 = .t120 ∧ (t150 b t).2.nact = t.nact ∧ t.qred < (t150 b t).2.qred ∧ t.qred * (100 / 99) ≤ (t150 b t).2.qred := by
  unfold t150
  dsimp only
  generalize (scan _ _ _ : Scan K) = c
  split_ifs with c0 c1 c2 c3
  · exact Or.inl rfl
  · exact Or.inl rfl
  · exact Or.inr (Or.inl ⟨rfl, rfl⟩)
  · right; right
    refine ⟨rfl, rfl, ?_⟩
    revert c1 c3
    generalize (reduction _ _ _ _ _ : K) = sdec
    intro c1 c3
    have hl : (lit 1 100 : K) = 1 / 100 := by rw [lit_rat]; norm_num
    have c3 : sdec > (t.qred + sdec) * lit 1 100 := c3
    show t.qred < t.qred + sdec ∧ t.qred * (100 / 99) ≤ t.qred + sdec
    rw [hl] at c3
    constructor <;> linarith
  · exact Or.inl rfl

variable [Archimedean K]

theorem t100_ends (hsqrt : ∀ a : K, 0 ≤ a → 0 ≤ CMath.sqrt a ∧ CMath.sqrt a * CMath.sqrt a = a) (b : Box K) :
    ∀ (k : Nat) (t : Tb K), T100 b t → b.n - t.nact ≤ k → TEnds b (.t100, t) := by
  obtain ⟨M, hM⟩ := quad_bound b |b.delta|
  intro k
  induction k using Nat.strong_induction_on with
  | _ k ih =>
  -- a state with one more fixed variable
  have fix : ∀ t : Tb K, T100 b t → ∀ m, b.n - m ≤ k → t.nact = m + 1 → TEnds b (.t100, t) := by
    intro t ht m hm e
    have hc := ht.base.count
    have := count_le b.n t.xbdi
    rw [e] at hc
    exact ih (b.n - (m + 1)) (by omega) t ht (by omega)
  -- one alternative iteration
  have one : ∀ t : Tb K, T120 b t → b.n - t.nact ≤ k →
      (∀ t' : Tb K, T120 b t' → t'.nact = t.nact → t.qred < t'.qred → t.qred * (100 / 99) ≤ t'.qred → TEnds b (.t120, t')) → TEnds b (.t120, t) := by
    intro t ht hk hn
    apply TEnds.next
    show TEnds b (t120 b t)
    have hok := t120_ok hsqrt ht
    have hx := t120_next ht
    generalize t120 b t = x at hok hx ⊢
    obtain ⟨l, u⟩ := x
    rcases hx with e | ⟨e1, e2⟩ | ⟨e1, e2, e3⟩
    · exact TEnds.now e
    · have e1 : l = .t100 := e1
      subst e1
      exact fix u hok t.nact hk e2
    · have e1 : l = .t150 := e1
      subst e1
      have hok : T150 b u := hok
      have e2 : u.nact = t.nact := e2
      have e3 : u.qred = t.qred := e3
      apply TEnds.next
      show TEnds b (t150 b u)
      have hok2 := t150_ok hok
      have hx := t150_next hok.base
      generalize t150 b u = x at hok2 hx ⊢
      obtain ⟨l, w⟩ := x
      rcases hx with e | ⟨f1, f2⟩ | ⟨f1, f2, f3, f4⟩
      · exact TEnds.now e
      · have f1 : l = .t100 := f1
        subst f1
        exact fix w hok2 t.nact hk (by rw [← e2]; exact f2)
      · have f1 : l = .t120 := f1
        subst f1
        rw [e3] at f3 f4
        exact hn w hok2 (by rw [← e2]; exact f2) f3 f4
  -- the loop, as long as the reduction is positive
  have loop : ∀ (j : Nat) (t : Tb K), T120 b t → b.n - t.nact ≤ k → M < t.qred * (100 / 99) ^ j → TEnds b (.t120, t) := by
    intro j
    induction j with
    | zero =>
      intro t ht _ hlt
      rw [pow_zero, mul_one] at hlt
      exact absurd (ht.base.qred_le hM) (not_le.mpr hlt)
    | succ j ihj =>
      intro t ht hk hlt
      refine one t ht hk fun t' h' e _ hg => ihj t' h' (by rw [e]; exact hk) (hlt.trans_le ?_)
      rw [pow_succ, mul_comm (((100 : K) / 99) ^ j), ← mul_assoc]
      exact mul_le_mul_of_nonneg_right hg (by positivity)
  have pos : ∀ t : Tb K, T120 b t → b.n - t.nact ≤ k → 0 < t.qred → TEnds b (.t120, t) := by
    intro t ht hk hq
    obtain ⟨j, hj⟩ := pow_unbounded_of_one_lt (M / t.qred) (show (1 : K) < 100 / 99 by norm_num)
    rw [div_lt_iff₀ hq, mul_comm] at hj
    exact loop j t ht hk hj
  intro t ht hk
  apply TEnds.next
  show TEnds b (t100 b t)
  have hok := t100_ok ht
  have hx := t100_next b t ht.crvmin
  generalize t100 b t = x at hok hx ⊢
  obtain ⟨l, u⟩ := x
  rcases hx with e | ⟨e1, e2⟩
  · exact TEnds.now e
  · have e1 : l = .t120 := e1
    subst e1
    have hok : T120 b u := hok
    have e2 : u.nact = t.nact := e2
    refine one u hok (by rw [e2]; exact hk) fun t' h' e hlt _ => pos t' h' (by rw [e, e2]; exact hk) (lt_of_le_of_lt hok.base.qred_nonneg hlt)

theorem t90_ends (hsqrt : ∀ a : K, 0 ≤ a → 0 ≤ CMath.sqrt a ∧ CMath.sqrt a * CMath.sqrt a = a) (b : Box K) (t : Tb K) (h : TBase b t) :
    TEnds b (.t90, t) := by
  apply TEnds.next
  exact t100_ends hsqrt b _ _ (T100.mk (b := b) (t := { t with crvmin := 0 }) (h.same ⟨rfl, rfl, rfl, rfl, rfl⟩) rfl) le_rfl

/-! ### The conjugate gradient iterations end -/

omit [Archimedean K] in
theorem t30_next {b : Box K} {t : Tb K} (h : T30 b t) :
    (t30 b t).1 = .t190 ∨ (t30 b t).1 = .t50 ∧ (t30 b t).2.nact = t.nact ∧ (t30 b t).2.iterc = t.iterc ∧
      (t.beta ≠ 0 → (t30 b t).2.itermax = t.itermax) ∧ (t.beta = 0 → dot b.n (mask t.xbdi t.gnew) t.gnew ≠ 0) := by
  unfold t30
  obtain ⟨s, hs⟩ : ∃ s : Nat → K, s = fun i => if t.xbdi i ≠ 0 then 0 else if t.beta = 0 then -t.gnew i else t.beta * t.s i - t.gnew i := ⟨_, rfl⟩
  rw [← hs]
  dsimp only
  rw [acc_dot]
  by_cases c0 : dot b.n s s = 0
  · rw [if_pos c0]; exact Or.inl rfl
  rw [if_neg c0]
  have hne := h.cg.crvmin_ne
  by_cases cb : t.beta = 0
  · rw [if_pos cb]
    dsimp only
    split_ifs with c1
    · exact Or.inl rfl
    · unfold t210
      dsimp only
      rw [if_pos hne]
      refine Or.inr ⟨rfl, rfl, rfl, fun h => absurd cb h, fun _ hz => c0 ?_⟩
      have e : ∀ i, 1 ≤ i → i ≤ b.n → s i = -1 * mask t.xbdi t.gnew i := by
        intro i _ _
        rw [hs]; unfold mask; dsimp only
        by_cases c : t.xbdi i = 0
        · rw [if_neg (not_not.mpr c), if_pos cb, if_pos c]; ring
        · rw [if_pos c, if_neg c]; ring
      rw [dot_congr e e, dot_smul_left, dot_smul_right, ← dot_mask, dot_mask_free (mask_free _ _ _), hz]; ring
  · rw [if_neg cb]
    dsimp only
    split_ifs with c1
    · exact Or.inl rfl
    · unfold t210
      dsimp only
      rw [if_pos hne]
      exact Or.inr ⟨rfl, rfl, rfl, fun _ => rfl, fun h => absurd h cb⟩

omit [Archimedean K] in
theorem t50_next (hsqrt : ∀ a : K, 0 ≤ a → 0 ≤ CMath.sqrt a ∧ CMath.sqrt a * CMath.sqrt a = a) {b : Box K} {t : Tb K} (h : T50 b t) :
    (t50 b t).1 = .t190 ∨ (t50 b t).1 = .t90 ∨ (t50 b t).1 = .t20 ∧ (t50 b t).2.nact = t.nact + 1 ∨
      (t50 b t).1 = .t30 ∧ (t50 b t).2.nact = t.nact ∧ (t50 b t).2.iterc = t.iterc + 1 ∧ (t50 b t).2.itermax = t.itermax ∧
        ((t50 b t).2.beta = 0 → dot b.n (mask (t50 b t).2.xbdi (t50 b t).2.gnew) (t50 b t).2.gnew = 0) := by
  unfold t50
  rw [h.shs, h.resid, accF_dot, dot_mask_free h.free]
  dsimp only
  by_cases c0 : b.delta * b.delta - dot b.n t.d t.d ≤ 0
  · rw [if_pos c0]; exact Or.inr (Or.inl rfl)
  rw [if_neg c0]
  obtain ⟨B1, -⟩ := boundary_spec hsqrt (ds := dot b.n t.s t.d) h.pos (not_le.mp c0)
  generalize boundary t.stepsq (b.delta * b.delta - dot b.n t.d t.d) (dot b.n t.s t.d) = B at B1 ⊢
  obtain ⟨H, hH⟩ : ∃ H, H = dot b.n t.s (b.hess t.s) := ⟨_, rfl⟩
  obtain ⟨st0, hst0⟩ : ∃ x, x = if H > 0 then cmin B (t.gredsq / H) else B := ⟨_, rfl⟩
  rw [← hH, ← hst0]
  have g1 : 0 < st0 := by
    rw [hst0]
    split_ifs with c
    · rw [cmin_eq]; exact lt_min B1 (div_pos h.gredsq c)
    · exact B1
  obtain ⟨-, -, -, l4, -⟩ := limited_spec h.cg.base.inside g1
  generalize limited b t st0 = r at l4 ⊢
  by_cases c1 : r.2 > 0
  · rw [if_pos c1]
    have hn : (tStep b r.1 r.2 H t).1.nact = t.nact := by unfold tStep; split_ifs <;> rfl
    generalize tStep b r.1 r.2 H t = u at hn ⊢
    unfold tFix
    dsimp only
    by_cases c2 : u.1.delsq - u.1.d u.1.iact * u.1.d u.1.iact ≤ 0
    · rw [if_pos c2]; exact Or.inr (Or.inl rfl)
    · rw [if_neg c2]
      refine Or.inr (Or.inr (Or.inl ⟨rfl, ?_⟩))
      show u.1.nact + 1 = t.nact + 1
      rw [hn]
  · rw [if_neg c1]
    have hpos : r.1 > 0 := by rw [l4 (by omega)]; exact g1
    by_cases c2 : r.1 < B
    · rw [if_pos c2]
      by_cases c3 : ((tStep b r.1 r.2 H t).1.iterc : Int) = (tStep b r.1 r.2 H t).1.itermax ∨
          (tStep b r.1 r.2 H t).2 ≤ (tStep b r.1 r.2 H t).1.qred * lit 1 100
      · rw [if_pos c3]; exact Or.inl rfl
      · rw [if_neg c3]
        unfold tStep
        rw [if_pos hpos]
        refine Or.inr (Or.inr (Or.inr ⟨rfl, rfl, rfl, rfl, fun hb => ?_⟩))
        have hb : accF b.n t.xbdi (fun i => (t.gnew i + r.1 * t.hs i) * (t.gnew i + r.1 * t.hs i)) 0 / t.gredsq = 0 := hb
        have hz := (div_eq_zero_iff.mp hb).resolve_right h.gredsq.ne'
        rw [← hz]
        exact (accF_dot b.n t.xbdi (fun i => t.gnew i + r.1 * t.hs i) (fun i => t.gnew i + r.1 * t.hs i)).symm
    · rw [if_neg c2]; exact Or.inr (Or.inl rfl)

theorem t20_ends (hsqrt : ∀ a : K, 0 ≤ a → 0 ≤ CMath.sqrt a ∧ CMath.sqrt a * CMath.sqrt a = a) (b : Box K) :
    ∀ (k : Nat) (t : Tb K), TCg b t → b.n - t.nact ≤ k → TEnds b (.t20, t) := by
  intro k
  induction k using Nat.strong_induction_on with
  | _ k ih =>
  have loop : ∀ (m : Nat) (t : Tb K), T50 b t → b.n - t.nact ≤ k → t.itermax ≤ t.iterc + m → TEnds b (.t50, t) := by
    intro m
    induction m with
    | zero =>
      intro t ht _ hm
      have := ht.iter
      push_cast at hm
      omega
    | succ m ihm =>
      intro t ht hk hm
      apply TEnds.next
      show TEnds b (t50 b t)
      have hok := t50_ok hsqrt ht
      have hx := t50_next hsqrt ht
      generalize t50 b t = x at hok hx ⊢
      obtain ⟨l, u⟩ := x
      rcases hx with e | e | ⟨e1, e2⟩ | ⟨e1, e2, e3, e4, e5⟩
      · exact TEnds.now e
      · have e : l = .t90 := e
        subst e
        exact t90_ends hsqrt b u hok
      · have e1 : l = .t20 := e1
        subst e1
        have e2 : u.nact = t.nact + 1 := e2
        have hok : TCg b u := hok
        have hc := hok.base.count
        have := count_le b.n u.xbdi
        rw [e2] at hc
        exact ih (b.n - (t.nact + 1)) (by omega) u hok (by omega)
      · have e1 : l = .t30 := e1
        subst e1
        have e2 : u.nact = t.nact := e2
        have e3 : u.iterc = t.iterc + 1 := e3
        have e4 : u.itermax = t.itermax := e4
        have e5 : u.beta = 0 → dot b.n (mask u.xbdi u.gnew) u.gnew = 0 := e5
        apply TEnds.next
        show TEnds b (t30 b u)
        have hok2 := t30_ok hok
        have hx := t30_next (b := b) (t := u) hok
        generalize t30 b u = x at hok2 hx ⊢
        obtain ⟨l, w⟩ := x
        rcases hx with e | ⟨f1, f2, f3, f4, f5⟩
        · exact TEnds.now e
        · have f1 : l = .t50 := f1
          subst f1
          have f2 : w.nact = u.nact := f2
          have f3 : w.iterc = u.iterc := f3
          have hb : u.beta ≠ 0 := fun hb => f5 hb (e5 hb)
          have f4 : w.itermax = u.itermax := f4 hb
          refine ihm w hok2 (by rw [f2, e2]; exact hk) ?_
          rw [f4, f3, e3, e4]
          push_cast at hm ⊢
          omega
  intro t ht hk
  apply TEnds.next
  show TEnds b (.t30, { t with beta := 0 })
  have h30 : T30 b { t with beta := 0 } := ⟨TCg.same ht ⟨rfl, rfl, rfl, rfl, rfl, rfl, rfl⟩, Or.inl rfl⟩
  have hk : b.n - ({ t with beta := 0 } : Tb K).nact ≤ k := hk
  generalize ({ t with beta := 0 } : Tb K) = u at h30 hk ⊢
  apply TEnds.next
  show TEnds b (t30 b u)
  have hok := t30_ok h30
  have hx := t30_next h30
  generalize t30 b u = x at hok hx ⊢
  obtain ⟨l, w⟩ := x
  rcases hx with e | ⟨f1, f2, -⟩
  · exact TEnds.now e
  · have f1 : l = .t50 := f1
    subst f1
    have f2 : w.nact = u.nact := f2
    refine loop (w.itermax - w.iterc).toNat w hok (by rw [f2]; exact hk) ?_
    have := Int.self_le_toNat (w.itermax - w.iterc)
    omega

/-- **`trsbox` ends**, and its step is good. -/
theorem trsbox_ends (hsqrt : ∀ a : K, 0 ≤ a → 0 ≤ CMath.sqrt a ∧ CMath.sqrt a * CMath.sqrt a = a) {b : Box K}
    (hb : ∀ i, 1 ≤ i → i ≤ b.n → b.sl i ≤ b.xopt i ∧ b.xopt i ≤ b.su i) (t : Tb K) :
    ∃ fuel r, trsbox b t fuel = some r ∧ TrsGood b r := by
  obtain ⟨fuel, h⟩ := t20_ends hsqrt b _ (tInit b t).2 (tInit_ok hb t) le_rfl
  have h : (tRun b fuel (tInit b t)).1 = .t190 := h
  have e : trsbox b t fuel = some ⟨(tRun b fuel (tInit b t)).2.d, (tRun b fuel (tInit b t)).2.gnew, (tRun b fuel (tInit b t)).2.xbdi,
      (tRun b fuel (tInit b t)).2.crvmin⟩ := by
    unfold trsbox
    generalize tRun b fuel (tInit b t) = x at h
    obtain ⟨l, u⟩ := x
    have h : l = .t190 := h
    subst h
    rfl
  exact ⟨fuel, _, e, trsbox_good hsqrt hb e⟩

end
end Opk.Bobyqa
