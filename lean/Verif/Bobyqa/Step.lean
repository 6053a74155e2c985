import Verif.Bobyqa.Trust

/-!
The conjugate gradient iterations of `trsbox`, `src/bobyqa.c:2514-2642`, keep the properties of the states.
-/

namespace Opk.Bobyqa
open Linalg CMath Cobyla

section
variable {K : Type} [Field K] [LinearOrder K] [IsStrictOrderedRing K] [CMath K] [ExactMath K]

/-- A move of the free variables which reduces the model. -/
theorem TBase.moved {b : Box K} {t t' : Tb K} (h : TBase b t) (v : Nat → K) (hv : Free b.n t.xbdi v)
    (hd : ∀ i, 1 ≤ i → i ≤ b.n → t'.d i = t.d i + v i) (hg : ∀ i, 1 ≤ i → i ≤ b.n → t'.gnew i = t.gnew i + b.hess v i)
    (hq : t'.qred = t.qred - (dot b.n v t.gnew + 1 / 2 * dot b.n v (b.hess v))) (hlt : t.qred < t'.qred)
    (hin : ∀ i, 1 ≤ i → i ≤ b.n → b.sl i ≤ b.xopt i + t'.d i ∧ b.xopt i + t'.d i ≤ b.su i)
    (hn : dot b.n t'.d t'.d ≤ b.delta * b.delta) (hx : t'.xbdi = t.xbdi) (hc : t'.nact = t.nact) : TBase b t' := by
  have e : ∀ i, b.hess t'.d i = b.hess t.d i + b.hess v i := by
    intro i
    rw [hess_congr (v := fun j => t.d j + v j) hd i, hess_add]
  refine ⟨?_, ?_, Or.inl (lt_of_le_of_lt h.qred_nonneg hlt), hin, ?_, hn, ?_⟩
  · intro i h1 h2
    rw [hg i h1 h2, h.grad i h1 h2]
    unfold Box.grad
    rw [e]; ring
  · have e2 : b.quad t'.d = b.quad fun i => t.d i + v i := by
      unfold Box.quad
      rw [dot_congr (fun _ _ _ => rfl) hd, dot_congr hd fun i _ _ => hess_congr hd i]
    rw [e2, quad_add, hq, h.red, dot_congr (fun i h1 h2 => (h.grad i h1 h2).symm) (fun _ _ _ => rfl), dot_comm b.n t.gnew]
    ring
  · intro i h1 h2
    rw [hx]
    by_cases c : t.xbdi i = 0
    · exact Or.inl c
    · rw [hd i h1 h2, hv i h1 h2 c, add_zero]
      exact h.bound i h1 h2
  · rw [hx, hc]; exact h.count

/-- The part of the norm due to the fixed variables. -/
theorem fixed_part {n : Nat} {xbdi d d' : Nat → K} (h : ∀ i, 1 ≤ i → i ≤ n → xbdi i ≠ 0 → d' i = d i) :
    dot n d' d' - dot n (mask xbdi d') d' = dot n d d - dot n (mask xbdi d) d := by
  unfold dot
  rw [← Finset.sum_sub_distrib, ← Finset.sum_sub_distrib]
  refine Finset.sum_congr rfl fun i hi => ?_
  obtain ⟨h1, h2⟩ := Finset.mem_Icc.mp hi
  unfold mask
  by_cases c : xbdi i = 0
  · rw [if_pos c, if_pos c]; ring
  · rw [h i h1 h2 c]

/-- A variable is fixed at a bound. -/
theorem TBase.fixed {b : Box K} {t t' : Tb K} (h : TBase b t) {i : Nat} {v : K} (h1 : 1 ≤ i) (h2 : i ≤ b.n) (h0 : t.xbdi i = 0)
    (hv : v = -1 ∧ b.xopt i + t.d i = b.sl i ∨ v = 1 ∧ b.xopt i + t.d i = b.su i)
    (hd : t'.d = t.d) (hg : t'.gnew = t.gnew) (hq : t'.qred = t.qred) (hx : t'.xbdi = set1 t.xbdi i v) (hc : t'.nact = t.nact + 1) :
    TBase b t' := by
  have hv0 : v ≠ 0 := by
    rcases hv with ⟨h, -⟩ | ⟨h, -⟩ <;> rw [h] <;> norm_num
  refine ⟨?_, ?_, ?_, ?_, ?_, ?_, ?_⟩
  · rw [hd, hg]; exact h.grad
  · rw [hd, hq]; exact h.red
  · rw [hd, hq]; exact h.pos
  · rw [hd]; exact h.inside
  · rw [hd, hx]
    intro j j1 j2
    unfold set1
    by_cases c : j = i
    · subst c
      rw [if_pos rfl]; exact Or.inr hv
    · rw [if_neg c]; exact h.bound j j1 j2
  · rw [hd]; exact h.norm
  · rw [hx, hc, count_set h1 h2 h0 hv0, h.count]

theorem newCrvmin_pos {c temp : K} (h : c = -1 ∨ 0 < c) (iact : Nat) : newCrvmin c temp iact = -1 ∨ 0 < newCrvmin c temp iact := by
  unfold newCrvmin
  split_ifs with c1
  · rw [cmin_eq]
    dsimp only
    split_ifs with c2
    · exact Or.inr c1.2
    · rcases h with h | h
      · exfalso
        apply c2
        rw [h]
        exact min_eq_left (by linarith [c1.2])
      · exact Or.inr (lt_min h c1.2)
  · exact h

/-- The curvature along `s`. -/
theorem T50.shs {b : Box K} {t : Tb K} (h : T50 b t) : accF b.n t.xbdi (fun i => t.s i * t.hs i) 0 = dot b.n t.s (b.hess t.s) := by
  rw [accF_dot, dot_mask_free h.free, dot_congr (fun _ _ _ => rfl) h.hs]

theorem T50.resid {b : Box K} {t : Tb K} (h : T50 b t) :
    up b.n (fun i r => if t.xbdi i = 0 then r - t.d i * t.d i else r) t.delsq = b.delta * b.delta - dot b.n t.d t.d := by
  have e : up b.n (fun i r => if t.xbdi i = 0 then r - t.d i * t.d i else r) t.delsq = t.delsq - dot b.n (mask t.xbdi t.d) t.d := by
    have := up_sum b.n (fun i => -(mask t.xbdi t.d i * t.d i)) t.delsq
    rw [Finset.sum_neg_distrib] at this
    unfold dot
    rw [sub_eq_add_neg, ← this]
    refine up_congr fun i _ _ r => ?_
    unfold mask
    split_ifs <;> ring
  rw [e, h.cg.delsq]; ring

/-- The step of a conjugate gradient iteration. -/
theorem tStep_ok {b : Box K} {t : Tb K} (h : T50 b t) {st : K} {iact : Nat} (h0 : 0 ≤ st)
    (hdec : st * dot b.n t.s (b.hess t.s) ≤ t.gredsq)
    (hres : t.stepsq * (st * st) + 2 * st * dot b.n t.s t.d ≤ b.delta * b.delta - dot b.n t.d t.d)
    (hlim : ∀ i, 1 ≤ i → i ≤ b.n → (0 < t.s i → st * t.s i ≤ b.su i - (b.xopt i + t.d i)) ∧ (t.s i < 0 → b.sl i - (b.xopt i + t.d i) ≤ st * t.s i)) :
    TCg b (tStep b st iact (dot b.n t.s (b.hess t.s)) t).1 ∧
      (∀ i, (tStep b st iact (dot b.n t.s (b.hess t.s)) t).1.d i = t.d i + st * t.s i) := by
  unfold tStep
  by_cases c : st > 0
  · rw [if_pos c]
    refine ⟨?_, fun _ => rfl⟩
    have half : (lit 1 2 : K) = 1 / 2 := by rw [lit_rat]; norm_num
    have hpos : 0 < st * (t.gredsq - lit 1 2 * st * dot b.n t.s (b.hess t.s)) := by
      rw [half]
      apply mul_pos c
      have := h.gredsq
      nlinarith
    refine ⟨?_, ?_, newCrvmin_pos h.cg.crvmin _⟩
    · refine h.cg.base.moved (fun i => st * t.s i) (fun i h1 h2 hx => by show st * t.s i = 0; rw [h.free i h1 h2 hx, mul_zero]) (fun _ _ _ => rfl) ?_ ?_ ?_ ?_ ?_ rfl rfl
      · intro i h1 h2
        show t.gnew i + st * t.hs i = _
        rw [hess_smul, h.hs i h1 h2]
      · show t.qred + cmax (st * (t.gredsq - lit 1 2 * st * dot b.n t.s (b.hess t.s))) 0 = _
        rw [cmax_eq, max_eq_left hpos.le, half, dot_smul_left, h.slope, dot_smul_left,
          dot_congr (u := t.s) (fun _ _ _ => rfl) (fun i _ _ => hess_smul b st t.s i), dot_smul_right]
        ring
      · show t.qred < t.qred + cmax (st * (t.gredsq - lit 1 2 * st * dot b.n t.s (b.hess t.s))) 0
        rw [cmax_eq, max_eq_left hpos.le]; linarith
      · intro i h1 h2
        show b.sl i ≤ b.xopt i + (t.d i + st * t.s i) ∧ b.xopt i + (t.d i + st * t.s i) ≤ b.su i
        obtain ⟨g1, g2⟩ := h.cg.base.inside i h1 h2
        obtain ⟨l1, l2⟩ := hlim i h1 h2
        rcases lt_trichotomy (t.s i) 0 with hs | hs | hs
        · have := l2 hs
          have : st * t.s i ≤ 0 := mul_nonpos_of_nonneg_of_nonpos h0 hs.le
          constructor <;> linarith
        · rw [hs, mul_zero, add_zero]; exact ⟨g1, g2⟩
        · have := l1 hs
          have : 0 ≤ st * t.s i := mul_nonneg h0 hs.le
          constructor <;> linarith
      · show dot b.n (fun i => t.d i + st * t.s i) (fun i => t.d i + st * t.s i) ≤ _
        rw [dot_add_left, dot_add_right, dot_add_right, dot_smul_left, dot_smul_right, dot_smul_left, dot_smul_right, dot_comm b.n t.d t.s, ← h.stepsq]
        linarith
    · show t.delsq = _
      rw [h.cg.delsq, fixed_part]
      intro i h1 h2 hx
      show t.d i = t.d i + st * t.s i
      rw [h.free i h1 h2 hx, mul_zero, add_zero]
  · rw [if_neg c]
    have e : st = 0 := le_antisymm (not_lt.mp c) h0
    refine ⟨h.cg.same ⟨rfl, rfl, rfl, rfl, rfl, rfl, rfl⟩, fun i => ?_⟩
    rw [e, zero_mul, add_zero]

omit [IsStrictOrderedRing K] [ExactMath K] in
theorem tStep_frame (b : Box K) (st shs : K) (iact : Nat) (t : Tb K) :
    (tStep b st iact shs t).1.s = t.s ∧ (tStep b st iact shs t).1.xbdi = t.xbdi ∧ (tStep b st iact shs t).1.iact = iact ∧
      (tStep b st iact shs t).1.itermax = t.itermax := by
  unfold tStep
  split_ifs <;> exact ⟨rfl, rfl, rfl, rfl⟩

theorem t50_ok (hsqrt : ∀ a : K, 0 ≤ a → 0 ≤ CMath.sqrt a ∧ CMath.sqrt a * CMath.sqrt a = a) {b : Box K} {t : Tb K} (h : T50 b t) :
    TOk b (t50 b t).1 (t50 b t).2 := by
  unfold t50
  rw [h.shs, h.resid, accF_dot, dot_mask_free h.free]
  dsimp only
  by_cases c0 : b.delta * b.delta - dot b.n t.d t.d ≤ 0
  · rw [if_pos c0]; exact h.cg.base
  rw [if_neg c0]
  obtain ⟨B1, B2⟩ := boundary_spec hsqrt (ds := dot b.n t.s t.d) h.pos (not_le.mp c0)
  generalize boundary t.stepsq (b.delta * b.delta - dot b.n t.d t.d) (dot b.n t.s t.d) = B at B1 B2 ⊢
  obtain ⟨H, hH⟩ : ∃ H, H = dot b.n t.s (b.hess t.s) := ⟨_, rfl⟩
  obtain ⟨st0, hst0⟩ : ∃ x, x = if H > 0 then cmin B (t.gredsq / H) else B := ⟨_, rfl⟩
  rw [← hH, ← hst0]
  have g1 : 0 < st0 := by
    rw [hst0]
    split_ifs with c
    · rw [cmin_eq]; exact lt_min B1 (div_pos h.gredsq c)
    · exact B1
  have g2 : st0 ≤ B := by
    rw [hst0]
    split_ifs with c
    · rw [cmin_eq]; exact min_le_left _ _
    · exact le_rfl
  have g3 : ∀ a, 0 ≤ a → a ≤ st0 → a * H ≤ t.gredsq := by
    intro a ha hle
    by_cases c : H > 0
    · rw [hst0, if_pos c, cmin_eq] at hle
      have := hle.trans (min_le_right _ _)
      rwa [le_div_iff₀ c] at this
    · exact (mul_nonpos_of_nonneg_of_nonpos ha (not_lt.mp c)).trans h.gredsq.le
  have g4 : st0 < B → st0 * H = t.gredsq := by
    intro hlt
    by_cases c : H > 0
    · rw [if_pos c, cmin_eq] at hst0
      have e : st0 = t.gredsq / H := by
        rcases min_choice B (t.gredsq / H) with q | q
        · rw [hst0, q] at hlt; exact absurd hlt (lt_irrefl _)
        · rw [hst0, q]
      rw [e]; field_simp
    · rw [hst0, if_neg c] at hlt; exact absurd hlt (lt_irrefl _)
  obtain ⟨l1, l2, l3, l4, l5⟩ := limited_spec h.cg.base.inside g1
  generalize limited b t st0 = r at l1 l2 l3 l4 l5 ⊢
  obtain ⟨u1, u2⟩ := tStep_ok h (iact := r.2) l1 (by rw [← hH]; exact g3 r.1 l1 l2) (B2 r.1 l1 (l2.trans g2)) l3
  obtain ⟨f1, f2, f3, f4⟩ := tStep_frame b r.1 H r.2 t
  rw [← hH] at u1 u2
  by_cases c1 : r.2 > 0
  · rw [if_pos c1]
    obtain ⟨a1, a2, a3, a4⟩ := l5 c1.ne'
    generalize tStep b r.1 r.2 H t = u at u1 u2 f1 f2 f3 f4 ⊢
    have a0 : t.xbdi r.2 = 0 := by
      by_contra hx
      exact a3 (h.free r.2 a1 a2 hx)
    have key : TCg b { u.1 with nact := u.1.nact + 1, xbdi := set1 u.1.xbdi u.1.iact (if u.1.s u.1.iact < 0 then -1 else 1), delsq := u.1.delsq - u.1.d u.1.iact * u.1.d u.1.iact } := by
      refine ⟨?_, ?_, u1.crvmin⟩
      · refine u1.base.fixed (i := r.2) (v := if u.1.s u.1.iact < 0 then -1 else 1) a1 a2 (by rw [f2]; exact a0) ?_ rfl rfl rfl ?_ rfl
        · rw [f3, f1, u2, a4]
          split_ifs with hs
          · exact Or.inl ⟨rfl, rfl⟩
          · exact Or.inr ⟨rfl, rfl⟩
        · rw [f3]
      · show u.1.delsq - u.1.d u.1.iact * u.1.d u.1.iact = _
        have hv0 : (if u.1.s u.1.iact < 0 then -1 else 1 : K) ≠ 0 := by split_ifs <;> norm_num
        rw [dot_mask_set (by rw [f3]; exact a1) (by rw [f3]; exact a2) (by rw [f2, f3]; exact a0) hv0, u1.delsq]
        ring
    unfold tFix
    dsimp only
    by_cases c2 : u.1.delsq - u.1.d u.1.iact * u.1.d u.1.iact ≤ 0
    · rw [if_pos c2]; exact key.base
    · rw [if_neg c2]; exact key
  · rw [if_neg c1]
    have e1 : r.1 = st0 := l4 (by omega)
    by_cases c2 : r.1 < B
    · rw [if_pos c2]
      split_ifs with c3
      · exact u1.base
      · refine T30.mk (b := b) (t := { (tStep b r.1 r.2 H t).1 with beta := _ }) (u1.same ⟨rfl, rfl, rfl, rfl, rfl, rfl, rfl⟩) ?_
        have hpos : r.1 > 0 := by rw [e1]; exact g1
        by_cases cb : (tStep b r.1 r.2 H t).1.gredsq = 0
        · left
          show (tStep b r.1 r.2 H t).1.gredsq / _ = 0
          rw [cb, zero_div]
        · right
          refine ⟨cb, ?_, ?_, ?_, ?_⟩
          · unfold tStep
            rw [if_pos hpos]
            exact accF_dot b.n t.xbdi (fun i => t.gnew i + r.1 * t.hs i) (fun i => t.gnew i + r.1 * t.hs i)
          · show Free b.n (tStep b r.1 r.2 H t).1.xbdi (tStep b r.1 r.2 H t).1.s
            rw [f1, f2]; exact h.free
          · show dot b.n (tStep b r.1 r.2 H t).1.s (tStep b r.1 r.2 H t).1.gnew = 0
            rw [f1]
            unfold tStep
            rw [if_pos hpos]
            show dot b.n t.s (fun i => t.gnew i + r.1 * t.hs i) = 0
            rw [dot_add_right, dot_smul_right, h.slope, dot_congr (fun _ _ _ => rfl) h.hs, ← hH, e1, g4 (by rw [← e1]; exact c2)]
            ring
          · have c4 := (not_or.mp c3).1
            show ((tStep b r.1 r.2 H t).1.iterc : Int) < (tStep b r.1 r.2 H t).1.itermax
            rw [f4] at c4 ⊢
            have : (tStep b r.1 r.2 H t).1.iterc = t.iterc + 1 := by
              unfold tStep
              rw [if_pos hpos]
            rw [this] at c4 ⊢
            have := h.iter
            push_cast at c4 ⊢
            omega
    · rw [if_neg c2]
      exact u1.base

end
end Opk.Bobyqa
