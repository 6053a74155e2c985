import Verif.Bobyqa.Altmov

/-!
# The Cauchy step of `altmov`, in exact arithmetic

If `CAUCHY` is positive then the Lagrange function of the point to be moved is not null at the point `XALT`.
-/
set_option linter.unusedSectionVars false
namespace Opk.Bobyqa
open Linalg CMath Cobyla Powell
open Newuoa (omega hform qval hform_congr omega_sym lit_half hcolumn betaOf lfun)

section
variable {K : Type} [Field K] [LinearOrder K] [IsStrictOrderedRing K] [CMath K] [ExactMath K]

/-- What an element of `w` can be. -/
def Kind (s : St K) (g : Nat → K) (w : K) (i : Nat) : Prop :=
  (w = s.adelt + s.adelt ∧ (0 < g i ∧ s.sl i < s.xopt i ∨ g i < 0 ∧ s.xopt i < s.su i)) ∨ w = 0 ∨ (w = s.sl i - s.xopt i ∧ w < 0 ∧ 0 < g i) ∨
    (w = s.su i - s.xopt i ∧ 0 < w ∧ w < s.adelt + s.adelt ∧ g i < 0)

/-- A free component is within the bounds with the step `r`. -/
def Fits (s : St K) (g : Nat → K) (r : K) (w : K) (i : Nat) : Prop :=
  w = s.adelt + s.adelt → s.sl i ≤ s.xopt i - r * g i ∧ s.xopt i - r * g i ≤ s.su i

/-- Before a pass of the loop. -/
structure Before (p : Par K) (s : St K) (g : Nat → K) (c : Fix K) : Prop where
  kind : ∀ i, 1 ≤ i → i ≤ p.n → Kind s g (c.w i) i
  sq : 0 ≤ c.wfixsq
  gg : ∀ i, 1 ≤ i → i ≤ p.n → c.w i = s.adelt + s.adelt → g i * g i ≤ c.ggfree

theorem free_spec {p : Par K} {s : St K} {g : Nat → K} (i : Nat) :
    (cmin (s.xopt i - s.sl i) (g i) > 0 ∨ cmax (s.xopt i - s.su i) (g i) < 0) ↔ (0 < g i ∧ s.sl i < s.xopt i ∨ g i < 0 ∧ s.xopt i < s.su i) := by
  rw [cmin_eq, cmax_eq]
  constructor
  · rintro (q | q)
    · have q := lt_min_iff.mp q
      exact Or.inl ⟨q.2, by linarith [q.1]⟩
    · have q := max_lt_iff.mp q
      exact Or.inr ⟨q.2, by linarith [q.1]⟩
  · rintro (⟨a, b⟩ | ⟨a, b⟩)
    · exact Or.inl (lt_min (by linarith) a)
    · exact Or.inr (max_lt (by linarith) a)

/-- At the beginning. -/
theorem before_first {p : Par K} {s : St K} {g : Nat → K} (ha : 0 < s.adelt) : Before p s g ⟨(cauchyFree p s g).1, 0, (cauchyFree p s g).2, 0⟩ ∧ 0 ≤ (cauchyFree p s g).2 := by
  have sum : 0 ≤ (cauchyFree p s g).2 ∧ ∀ i, 1 ≤ i → i ≤ p.n → (cmin (s.xopt i - s.sl i) (g i) > 0 ∨ cmax (s.xopt i - s.su i) (g i) < 0) → g i * g i ≤ (cauchyFree p s g).2 := by
    unfold cauchyFree
    dsimp only
    refine up_inv (fun m (t : K) => 0 ≤ t ∧ ∀ i, 1 ≤ i → i ≤ m → (cmin (s.xopt i - s.sl i) (g i) > 0 ∨ cmax (s.xopt i - s.su i) (g i) < 0) → g i * g i ≤ t) p.n ⟨le_refl _, fun i i1 i2 => by omega⟩ ?_
    rintro m hm t ⟨q1, q2⟩
    have sq := mul_self_nonneg (g (m + 1))
    by_cases q : cmin (s.xopt (m + 1) - s.sl (m + 1)) (g (m + 1)) > 0 ∨ cmax (s.xopt (m + 1) - s.su (m + 1)) (g (m + 1)) < 0
    · rw [if_pos q]
      refine ⟨by linarith, fun i i1 i2 f => ?_⟩
      by_cases e : i = m + 1
      · rw [e]; linarith
      · have := q2 i i1 (by omega) f
        linarith
    · rw [if_neg q]
      refine ⟨q1, fun i i1 i2 f => ?_⟩
      by_cases e : i = m + 1
      · rw [e] at f; exact absurd f q
      · exact q2 i i1 (by omega) f
  refine ⟨⟨fun i i1 i2 => ?_, le_refl _, fun i i1 i2 e => ?_⟩, sum.1⟩
  · show Kind s g (if cmin (s.xopt i - s.sl i) (g i) > 0 ∨ cmax (s.xopt i - s.su i) (g i) < 0 then s.adelt + s.adelt else 0) i
    by_cases q : cmin (s.xopt i - s.sl i) (g i) > 0 ∨ cmax (s.xopt i - s.su i) (g i) < 0
    · rw [if_pos q]; exact Or.inl ⟨rfl, (free_spec (p := p) i).mp q⟩
    · rw [if_neg q]; exact Or.inr (Or.inl rfl)
  · have e : (if cmin (s.xopt i - s.sl i) (g i) > 0 ∨ cmax (s.xopt i - s.su i) (g i) < 0 then s.adelt + s.adelt else 0) = s.adelt + s.adelt := e
    by_cases q : cmin (s.xopt i - s.sl i) (g i) > 0 ∨ cmax (s.xopt i - s.su i) (g i) < 0
    · exact sum.2 i i1 i2 q
    · rw [if_neg q] at e
      linarith

theorem fixPass_spec (hsqrt : ∀ a : K, 0 ≤ a → 0 ≤ CMath.sqrt a ∧ CMath.sqrt a * CMath.sqrt a = a) {p : Par K} {s : St K} {g : Nat → K} (hw : Within p s s.xopt) (ha : 0 < s.adelt)
    {c : Fix K} (h : Before p s g c) (hg : 0 < c.ggfree) (hq : 0 < s.adelt * s.adelt - c.wfixsq) :
    Before p s g (fixPass p s g c) ∧ ∀ i, 1 ≤ i → i ≤ p.n → Fits s g (fixPass p s g c).step ((fixPass p s g c).w i) i := by
  obtain ⟨r1, r2⟩ := hsqrt _ (div_nonneg hq.le hg.le)
  have r3 : 0 < sqrt ((s.adelt * s.adelt - c.wfixsq) / c.ggfree) := by
    refine lt_of_le_of_ne r1 fun q => ?_
    rw [← q, mul_zero] at r2
    exact (div_pos hq hg).ne r2
  unfold fixPass
  dsimp only
  generalize sqrt ((s.adelt * s.adelt - c.wfixsq) / c.ggfree) = r at *
  have r4 : r * r * c.ggfree = s.adelt * s.adelt - c.wfixsq := by rw [r2, div_mul_cancel₀ _ hg.ne']
  have short : ∀ i, 1 ≤ i → i ≤ p.n → c.w i = s.adelt + s.adelt → -(r * g i) ≤ s.adelt := by
    intro i i1 i2 e
    by_contra q
    have q := not_le.mp q
    have e1 := mul_le_mul_of_nonneg_left (h.gg i i1 i2 e) (mul_self_nonneg r)
    have e2 : s.adelt * s.adelt < -(r * g i) * -(r * g i) := mul_self_lt_mul_self ha.le q
    have e3 : -(r * g i) * -(r * g i) = r * r * (g i * g i) := by ring
    linarith [h.sq]
  have key := up_inv (fun m (t : Fix K) => t.step = r ∧ 0 ≤ t.wfixsq ∧ 0 ≤ t.ggfree ∧ (∀ i, 1 ≤ i → i ≤ p.n → Kind s g (t.w i) i) ∧ (∀ i, m < i → t.w i = c.w i) ∧
      ∀ i, 1 ≤ i → i ≤ m → t.w i = s.adelt + s.adelt → g i * g i ≤ t.ggfree ∧ s.sl i ≤ s.xopt i - r * g i ∧ s.xopt i - r * g i ≤ s.su i) p.n
    (body := fun i (c : Fix K) =>
      if c.w i = s.adelt + s.adelt then
        if s.xopt i - r * g i ≤ s.sl i then
          { c with w := set1 c.w i (s.sl i - s.xopt i), wfixsq := c.wfixsq + (s.sl i - s.xopt i) * (s.sl i - s.xopt i) }
        else if s.xopt i - r * g i ≥ s.su i then
          { c with w := set1 c.w i (s.su i - s.xopt i), wfixsq := c.wfixsq + (s.su i - s.xopt i) * (s.su i - s.xopt i) }
        else { c with ggfree := c.ggfree + g i * g i }
      else c) (s := { c with ggfree := 0, step := r }) ⟨rfl, h.sq, le_refl _, h.kind, fun _ _ => rfl, fun i i1 i2 => by omega⟩ (by
      rintro m hm t ⟨a1, a2, a3, a4, a5, a6⟩
      obtain ⟨x1, x2⟩ := hw (m + 1) (by omega) (by omega)
      have ew := a5 (m + 1) (by omega)
      have put : ∀ v, Kind s g v (m + 1) → ∀ i, 1 ≤ i → i ≤ p.n → Kind s g (set1 t.w (m + 1) v i) i := by
        intro v hv i i1 i2
        unfold set1
        by_cases e : i = m + 1
        · rw [if_pos e, e]; exact hv
        · rw [if_neg e]; exact a4 i i1 i2
      have rest : ∀ v, v ≠ s.adelt + s.adelt → ∀ i, 1 ≤ i → i ≤ m + 1 → set1 t.w (m + 1) v i = s.adelt + s.adelt →
          g i * g i ≤ t.ggfree ∧ s.sl i ≤ s.xopt i - r * g i ∧ s.xopt i - r * g i ≤ s.su i := by
        intro v hv i i1 i2
        unfold set1
        by_cases e : i = m + 1
        · rw [if_pos e]; exact fun q => absurd q hv
        · rw [if_neg e]; exact a6 i i1 (by omega)
      have after : ∀ v : K, ∀ i, m + 1 < i → set1 t.w (m + 1) v i = c.w i := by
        intro v i hi
        unfold set1
        rw [if_neg (by omega)]
        exact a5 i (by omega)
      by_cases q : t.w (m + 1) = s.adelt + s.adelt
      · rw [if_pos q]
        have sh := short (m + 1) (by omega) (by omega) (ew.symm.trans q)
        have free : 0 < g (m + 1) ∧ s.sl (m + 1) < s.xopt (m + 1) ∨ g (m + 1) < 0 ∧ s.xopt (m + 1) < s.su (m + 1) := by
          rcases a4 (m + 1) (by omega) (by omega) with w | w | w | w
          · exact w.2
          · rw [w] at q; linarith
          · linarith [w.2.1]
          · linarith [w.2.2.1]
        by_cases q1 : s.xopt (m + 1) - r * g (m + 1) ≤ s.sl (m + 1)
        · rw [if_pos q1]
          have f : 0 < g (m + 1) ∧ s.sl (m + 1) < s.xopt (m + 1) := by
            rcases free with f | f
            · exact f
            · have := mul_neg_of_pos_of_neg r3 f.1
              linarith
          have neg : s.sl (m + 1) - s.xopt (m + 1) < 0 := by linarith [f.2]
          exact ⟨a1, add_nonneg a2 (mul_self_nonneg _), a3, put _ (Or.inr (Or.inr (Or.inl ⟨rfl, neg, f.1⟩))), after _, rest _ (by linarith)⟩
        · rw [if_neg q1]
          by_cases q2 : s.xopt (m + 1) - r * g (m + 1) ≥ s.su (m + 1)
          · rw [if_pos q2]
            have f : g (m + 1) < 0 ∧ s.xopt (m + 1) < s.su (m + 1) := by
              rcases free with f | f
              · have := mul_pos r3 f.1
                linarith
              · exact f
            have lt : s.su (m + 1) - s.xopt (m + 1) < s.adelt + s.adelt := by linarith
            exact ⟨a1, add_nonneg a2 (mul_self_nonneg _), a3, put _ (Or.inr (Or.inr (Or.inr ⟨rfl, by linarith [f.2], lt, f.1⟩))), after _, rest _ lt.ne⟩
          · rw [if_neg q2]
            have sq := mul_self_nonneg (g (m + 1))
            refine ⟨a1, a2, add_nonneg a3 sq, a4, fun i hi => a5 i (by omega), fun i i1 i2 e => ?_⟩
            dsimp only at e ⊢
            by_cases w : i = m + 1
            · rw [w]
              exact ⟨by linarith, (not_le.mp q1).le, (not_le.mp q2).le⟩
            · obtain ⟨b1, b2⟩ := a6 i i1 (by omega) e
              exact ⟨by linarith, b2⟩
      · rw [if_neg q]
        refine ⟨a1, a2, a3, a4, fun i hi => a5 i (by omega), fun i i1 i2 e => ?_⟩
        by_cases w : i = m + 1
        · rw [w] at e; exact absurd e q
        · exact a6 i i1 (by omega) e)
  obtain ⟨a1, a2, a3, a4, a5, a6⟩ := key
  refine ⟨⟨a4, a2, fun i i1 i2 e => (a6 i i1 i2 e).1⟩, fun i i1 i2 e => ?_⟩
  rw [a1]
  exact (a6 i i1 i2 e).2

theorem fixLoop_spec (hsqrt : ∀ a : K, 0 ≤ a → 0 ≤ CMath.sqrt a ∧ CMath.sqrt a * CMath.sqrt a = a) {p : Par K} {s : St K} {g : Nat → K} (hw : Within p s s.xopt) (ha : 0 < s.adelt)
    (fuel : Nat) : ∀ c : Fix K, Before p s g c → 0 < c.ggfree → (0 < fuel ∧ 0 < s.adelt * s.adelt - c.wfixsq ∨ ∀ i, 1 ≤ i → i ≤ p.n → Fits s g c.step (c.w i) i) →
    Before p s g (fixLoop p s g fuel c) ∧ ∀ i, 1 ≤ i → i ≤ p.n → Fits s g (fixLoop p s g fuel c).step ((fixLoop p s g fuel c).w i) i := by
  induction fuel with
  | zero =>
    intro c h hg hc
    rcases hc with hc | hc
    · exact absurd hc.1 (lt_irrefl _)
    · exact ⟨h, hc⟩
  | succ fuel ih =>
    intro c h hg hc
    show Before p s g (if s.adelt * s.adelt - c.wfixsq ≤ 0 then c else if (fixPass p s g c).wfixsq > c.wfixsq ∧ (fixPass p s g c).ggfree > 0 then fixLoop p s g fuel (fixPass p s g c) else fixPass p s g c) ∧
      ∀ i, 1 ≤ i → i ≤ p.n → Fits s g (if s.adelt * s.adelt - c.wfixsq ≤ 0 then c else if (fixPass p s g c).wfixsq > c.wfixsq ∧ (fixPass p s g c).ggfree > 0 then fixLoop p s g fuel (fixPass p s g c) else fixPass p s g c).step
        ((if s.adelt * s.adelt - c.wfixsq ≤ 0 then c else if (fixPass p s g c).wfixsq > c.wfixsq ∧ (fixPass p s g c).ggfree > 0 then fixLoop p s g fuel (fixPass p s g c) else fixPass p s g c).w i) i
    by_cases q : s.adelt * s.adelt - c.wfixsq ≤ 0
    · rw [if_pos q]
      rcases hc with hc | hc
      · exact absurd hc.2 (not_lt.mpr q)
      · exact ⟨h, hc⟩
    · rw [if_neg q]
      obtain ⟨b1, b2⟩ := fixPass_spec hsqrt hw ha h hg (not_le.mp q)
      by_cases w : (fixPass p s g c).wfixsq > c.wfixsq ∧ (fixPass p s g c).ggfree > 0
      · rw [if_pos w]
        exact ih _ b1 w.2 (Or.inr b2)
      · rw [if_neg w]
        exact ⟨b1, b2⟩

/-- The point at the end of the loop. -/
theorem cauchyPoint_spec {p : Par K} {s : St K} {g : Nat → K} (hw : Within p s s.xopt) (ha : 0 < s.adelt) {c : Fix K} (h : Before p s g c)
    (hf : ∀ i, 1 ≤ i → i ≤ p.n → Fits s g c.step (c.w i) i) :
    Within p s (fun i => s.xopt i + (cauchyPoint s g c).1 i) ∧ ∀ i, 1 ≤ i → i ≤ p.n → (cauchyPoint s g c).2 i = s.xopt i + (cauchyPoint s g c).1 i := by
  have both : ∀ i, 1 ≤ i → i ≤ p.n → (s.sl i ≤ s.xopt i + (cauchyPoint s g c).1 i ∧ s.xopt i + (cauchyPoint s g c).1 i ≤ s.su i) ∧ (cauchyPoint s g c).2 i = s.xopt i + (cauchyPoint s g c).1 i := by
    intro i i1 i2
    unfold cauchyPoint
    dsimp only
    obtain ⟨x1, x2⟩ := hw i i1 i2
    by_cases q : c.w i = s.adelt + s.adelt
    · rw [if_pos q, if_pos q]
      have f := hf i i1 i2 q
      have e : s.xopt i + -c.step * g i = s.xopt i - c.step * g i := by ring
      rw [e]
      exact ⟨f, clamp_id f⟩
    · rw [if_neg q, if_neg q]
      rcases h.kind i i1 i2 with w | w | w | w
      · exact absurd w.1 q
      · rw [if_pos w, w, add_zero]; exact ⟨⟨x1, x2⟩, rfl⟩
      · rw [if_neg w.2.1.ne, if_pos w.2.2, w.1]
        have e : s.xopt i + (s.sl i - s.xopt i) = s.sl i := by ring
        rw [e]
        exact ⟨⟨le_refl _, x1.trans x2⟩, rfl⟩
      · rw [if_neg w.2.1.ne', if_neg (by linarith [w.2.2.2]), w.1]
        have e : s.xopt i + (s.su i - s.xopt i) = s.su i := by ring
        rw [e]
        exact ⟨⟨x1.trans x2, le_refl _⟩, rfl⟩
  exact ⟨fun i i1 i2 => (both i i1 i2).1, fun i i1 i2 => (both i i1 i2).2⟩

/-- The value of the Lagrange function for a multiple of `w`. -/
theorem lagv_curv (p : Par K) (s : St K) (w : Nat → K) (r : K) :
    lagv p s (fun i => r * w i) = r * Powell.dot p.n (glag p s) w
      + r * r / 2 * up p.npt (fun k t => t + hcol p s k * acc p.n (fun j => s.xpt k j * w j) 0 * acc p.n (fun j => s.xpt k j * w j) 0) 0 := by
  rw [lagv_line]
  have z0 : hform p.n (fun _ _ => (0 : K)) w = 0 := by
    unfold Newuoa.hform
    exact Finset.sum_eq_zero fun j _ => Finset.sum_eq_zero fun i _ => by rw [mul_zero, zero_mul]
  have e : up p.npt (fun k t => t + hcol p s k * acc p.n (fun j => s.xpt k j * w j) 0 * acc p.n (fun j => s.xpt k j * w j) 0) 0
      = ∑ k ∈ Finset.Icc 1 p.npt, omega p.nptm s.zmat k s.knew * (Powell.dot p.n (s.xpt k) w * Powell.dot p.n (s.xpt k) w) := by
    rw [up_sum, zero_add]
    refine Finset.sum_congr rfl fun k _ => ?_
    rw [hcol_eq, acc_eq, zero_add, mul_assoc]
    rfl
  rw [e]
  unfold lagv Newuoa.qval
  rw [z0]
  ring

theorem cauchyStep_value (hsqrt : ∀ a : K, 0 ≤ a → 0 ≤ CMath.sqrt a ∧ CMath.sqrt a * CMath.sqrt a = a) {p : Par K} {s : St K} (hw : Within p s s.xopt) (ha : 0 < s.adelt)
    {b : Bool} {g : Nat → K} (hg : ∀ i, g i = if b then -glag p s i else glag p s i) {x : Nat → K} {v : K} (e : cauchyStep p s b g = some (x, v)) (hv : 0 < v) :
    lagv p s (fun i => x i - s.xopt i) ≠ 0 := by
  obtain ⟨f1, f2⟩ := before_first (p := p) (g := g) ha
  unfold cauchyStep at e
  dsimp only at e
  by_cases q : (cauchyFree p s g).2 = 0
  · rw [if_pos q] at e; exact absurd e (by simp)
  rw [if_neg q] at e
  obtain ⟨l1, l2⟩ := fixLoop_spec hsqrt hw ha (p.n + 1) _ f1 (lt_of_le_of_ne f2 (Ne.symm q)) (Or.inl ⟨Nat.succ_pos _, by
    show 0 < s.adelt * s.adelt - 0
    rw [sub_zero]; exact mul_pos ha ha⟩)
  generalize fixLoop p s g (p.n + 1) ⟨(cauchyFree p s g).1, 0, (cauchyFree p s g).2, 0⟩ = c at *
  obtain ⟨c1, c2⟩ := cauchyPoint_spec hw ha l1 l2
  generalize cauchyPoint s g c = wx at *
  obtain ⟨w, y⟩ := wx
  dsimp only at e c1 c2
  have lc := lagv_curv p s w
  have gw : acc p.n (fun i => g i * w i) 0 = if b then -Powell.dot p.n (glag p s) w else Powell.dot p.n (glag p s) w := by
    rw [acc_eq, zero_add]
    cases b
    · exact Finset.sum_congr rfl fun i _ => by rw [hg i]; rfl
    · rw [if_pos rfl]
      unfold Powell.dot
      rw [← Finset.sum_neg_distrib]
      exact Finset.sum_congr rfl fun i _ => by rw [hg i, if_pos rfl]; ring
  rw [gw] at e
  generalize up p.npt (fun k t => t + hcol p s k * acc p.n (fun j => s.xpt k j * w j) 0 * acc p.n (fun j => s.xpt k j * w j) 0) 0 = cv at *
  generalize Powell.dot p.n (glag p s) w = d at *
  obtain ⟨sg, s1, s2⟩ : ∃ sg : K, (sg = 1 ∨ sg = -1) ∧ (if b then -d else d) = sg * d ∧ (if b then -cv else cv) = sg * cv := by
    cases b
    · exact ⟨1, Or.inl rfl, (one_mul d).symm, (one_mul cv).symm⟩
    · exact ⟨-1, Or.inr rfl, (neg_one_mul d).symm, (neg_one_mul cv).symm⟩
  rw [s2.1, s2.2] at e
  have sg0 : sg ≠ 0 := by rcases s1 with s1 | s1 <;> rw [s1] <;> norm_num
  have sg2 : sg * sg = 1 := by rcases s1 with s1 | s1 <;> rw [s1] <;> norm_num
  by_cases t : sg * cv > -(sg * d) ∧ sg * cv < -(1 + sqrt (lit 2 1)) * (sg * d)
  · rw [if_pos t] at e
    simp only [Option.some.injEq, Prod.mk.injEq] at e
    obtain ⟨e1, e2⟩ := e
    have r0 := (hsqrt (lit 2 1) (by rw [ExactMath.lit_eq]; positivity)).1
    have neg : sg * d < 0 := by
      by_contra n
      have := mul_nonneg r0 (not_lt.mp n)
      have e3 : -(1 + sqrt (lit 2 1)) * (sg * d) = -(sg * d) - sqrt (lit 2 1) * (sg * d) := by ring
      linarith [t.1, t.2]
    have pos : 0 < sg * cv := by linarith [t.1]
    have u0 : 0 ≤ -(sg * d) / (sg * cv) := div_nonneg (by linarith) pos.le
    have u1 : -(sg * d) / (sg * cv) ≤ 1 := (div_le_one pos).mpr t.1.le
    have u2 : -(sg * d) / (sg * cv) * (sg * cv) = -(sg * d) := div_mul_cancel₀ _ pos.ne'
    generalize -(sg * d) / (sg * cv) = u at *
    have ex : lagv p s (fun i => x i - s.xopt i) = lagv p s (fun i => u * w i) := Newuoa.qval_congr (fun _ _ _ _ _ _ => rfl) fun i i1 i2 => by
      rw [← e1]
      dsimp only
      rw [clamp_id (shorter (hw i i1 i2) (r := 1) (r' := u) (y := w i) (by rw [one_mul]; exact c1 i i1 i2) (Or.inl ⟨u0, u1⟩))]
      ring
    rw [ex, lc]
    intro z
    have : lit 1 2 * (sg * d) * u = sg * (u * d + u * u / 2 * cv) := by rw [lit_half]; linear_combination (-u / 2) * u2
    rw [this, z, mul_zero, zero_mul] at e2
    exact hv.ne e2
  · rw [if_neg t] at e
    simp only [Option.some.injEq, Prod.mk.injEq] at e
    obtain ⟨e1, e2⟩ := e
    have ex : lagv p s (fun i => x i - s.xopt i) = lagv p s (fun i => 1 * w i) := Newuoa.qval_congr (fun _ _ _ _ _ _ => rfl) fun i i1 i2 => by
      rw [← e1, c2 i i1 i2]
      ring
    rw [ex, lc]
    intro z
    have : sg * d + lit 1 2 * (sg * cv) = sg * (1 * d + 1 * 1 / 2 * cv) := by rw [lit_half]; ring
    rw [this, z, mul_zero, zero_mul] at e2
    exact hv.ne e2

/-- The Lagrange function is not null at the point `XALT` of `altmov`, if `CAUCHY` is positive. -/
theorem altCauchy_value (hsqrt : ∀ a : K, 0 ≤ a → 0 ≤ CMath.sqrt a ∧ CMath.sqrt a * CMath.sqrt a = a) {p : Par K} {s : St K} (hw : Within p s s.xopt) (ha : 0 < s.adelt)
    (hc : 0 < (altCauchy p s).2) : lagv p s (fun i => (altCauchy p s).1 i - s.xopt i) ≠ 0 := by
  unfold altCauchy at *
  cases e1 : cauchyStep p s false (glag p s) with
  | none =>
    rw [e1] at hc
    exact absurd hc (lt_irrefl _)
  | some t1 =>
    obtain ⟨x1, c1⟩ := t1
    rw [e1] at hc
    dsimp only at hc ⊢
    cases e2 : cauchyStep p s true (fun i => -glag p s i) with
    | none =>
      rw [e2] at hc
      exact absurd hc (lt_irrefl _)
    | some t2 =>
      obtain ⟨x2, c2⟩ := t2
      rw [e2] at hc
      dsimp only at hc ⊢
      by_cases q : c1 > c2
      · rw [if_pos q] at hc ⊢
        exact cauchyStep_value hsqrt hw ha (fun i => by rfl) e1 hc
      · rw [if_neg q] at hc ⊢
        exact cauchyStep_value hsqrt hw ha (fun i => by rfl) e2 hc

end
end Opk.Bobyqa
