import Verif.Bobyqa.Moves

/-!
# The first point of `altmov`, in exact arithmetic

The Lagrange function of the point to be moved is not null at the point `XNEW`.
-/
set_option linter.unusedSectionVars false
namespace Opk.Bobyqa
open Linalg CMath Cobyla Powell
open Newuoa (omega hform qval hform_congr omega_sym lit_half hcolumn betaOf lfun)

section
variable {K : Type} [Field K] [LinearOrder K] [IsStrictOrderedRing K] [CMath K] [ExactMath K]

/-! ### The Lagrange function -/

/-- The Lagrange function of `altmov` at the displacement `z` from `XOPT`. -/
def lagv (p : Par K) (s : St K) (z : Nat → K) : K :=
  qval p.n p.npt s.xpt (glag p s) (fun _ _ => 0) (fun k => omega p.nptm s.zmat k s.knew) z

theorem hcol_eq (p : Par K) (s : St K) (k : Nat) : hcol p s k = omega p.nptm s.zmat k s.knew := by
  unfold hcol
  rw [acc_eq, zero_add, omega_sym]
  rfl

theorem lagv_lfun (p : Par K) (s : St K) (z : Nat → K) :
    lagv p s z = lfun p.nw s.nw s.knew (fun i => z i + s.xopt i) - lfun p.nw s.nw s.knew s.xopt := by
  refine lfun_recenter p s s.knew s.xopt (glag p s) (fun i _ _ => ?_) z
  unfold glag
  rw [acc_eq]
  congr 1
  refine Finset.sum_congr rfl fun k _ => ?_
  rw [acc_eq, zero_add, hcol_eq]
  rfl

/-- It is the element of the column of the new point. -/
theorem lagv_column {p : Par K} {s : St K} {c : Nat → K} (h : Good p.n p.npt s.xpt (omega p.nptm s.zmat) s.bmat c) (hx : s.xopt = s.xpt s.kopt)
    (k1 : 1 ≤ s.kopt) (k2 : s.kopt ≤ p.npt) (hk : Kn p s) (z : Nat → K) : hcolumn p.nw s.nw c (fun j => s.xopt j + z j) s.knew = lagv p s z := by
  obtain ⟨t1, t2, ne⟩ := hk
  have e := Newuoa.hcolumn_lfun p.nw s.nw c t1 t2 (fun j => s.xopt j + z j)
  have e' := Newuoa.lfun_pt (p := p.nw) (s := s.nw) h t1 t2 k1 k2
  rw [if_neg (Ne.symm ne)] at e'
  have e' : lfun p.nw s.nw s.knew (s.xpt s.kopt) = _ := e'
  rw [e, lagv_lfun, hx, e', show (fun j => s.xpt s.kopt j + z j) = fun j => z j + s.xpt s.kopt j from funext fun j => add_comm _ _]
  ring

theorem lagv_point {p : Par K} {s : St K} {c : Nat → K} (h : Good p.n p.npt s.xpt (omega p.nptm s.zmat) s.bmat c) (hx : s.xopt = s.xpt s.kopt)
    (k1 : 1 ≤ s.kopt) (k2 : s.kopt ≤ p.npt) (hk : Kn p s) {k : Nat} (q1 : 1 ≤ k) (q2 : k ≤ p.npt) :
    lagv p s (fun j => s.xpt k j - s.xopt j) = if k = s.knew then 1 else 0 := by
  obtain ⟨t1, t2, ne⟩ := hk
  have e := Newuoa.lfun_pt (p := p.nw) (s := s.nw) h t1 t2 k1 k2
  have e' := Newuoa.lfun_pt (p := p.nw) (s := s.nw) h t1 t2 q1 q2
  rw [if_neg (Ne.symm ne)] at e
  have e : lfun p.nw s.nw s.knew (s.xpt s.kopt) = _ := e
  have e' : lfun p.nw s.nw s.knew (s.xpt k) = _ := e'
  rw [lagv_lfun, show (fun i => s.xpt k i - s.xopt i + s.xopt i) = s.xpt k from funext fun i => by ring, hx, e, e']
  ring

theorem dot_smul (n : Nat) (x z : Nat → K) (t : K) : Powell.dot n x (fun i => t * z i) = t * Powell.dot n x z := by
  unfold Powell.dot
  rw [Finset.mul_sum]
  exact Finset.sum_congr rfl fun i _ => by ring

/-- The Lagrange function along a line. -/
theorem lagv_line (p : Par K) (s : St K) (z : Nat → K) (t : K) :
    lagv p s (fun i => t * z i) = t * Powell.dot p.n (glag p s) z + t * t * (lagv p s z - Powell.dot p.n (glag p s) z) := by
  have z0 : ∀ y, hform p.n (fun _ _ => (0 : K)) y = 0 := by
    intro y
    unfold Newuoa.hform
    exact Finset.sum_eq_zero fun j _ => Finset.sum_eq_zero fun i _ => by rw [mul_zero, zero_mul]
  unfold lagv Newuoa.qval
  simp only [z0, dot_smul]
  have : ∑ k ∈ Finset.Icc 1 p.npt, omega p.nptm s.zmat k s.knew * (t * Powell.dot p.n (s.xpt k) z * (t * Powell.dot p.n (s.xpt k) z))
      = t * t * ∑ k ∈ Finset.Icc 1 p.npt, omega p.nptm s.zmat k s.knew * (Powell.dot p.n (s.xpt k) z * Powell.dot p.n (s.xpt k) z) := by
    rw [Finset.mul_sum]
    exact Finset.sum_congr rfl fun k _ => by ring
  rw [this]
  ring

/-! ### The bounds on a line -/

/-- The step `r` along `z` is within the bounds of the first `m` variables, and at the bound `idx`. -/
structure Edge (p : Par K) (s : St K) (z : Nat → K) (m : Nat) (r : K) (idx : Int) : Prop where
  box : ∀ i, 1 ≤ i → i ≤ m → s.sl i ≤ s.xopt i + r * z i ∧ s.xopt i + r * z i ≤ s.su i
  lower : idx < 0 → s.xopt (-idx).toNat + r * z (-idx).toNat = s.sl (-idx).toNat
  upper : 0 < idx → s.xopt idx.toNat + r * z idx.toNat = s.su idx.toNat

/-- A shorter step remains within the bounds. -/
theorem shorter {a b x y r r' : K} (h : a ≤ x ∧ x ≤ b) (h' : a ≤ x + r * y ∧ x + r * y ≤ b) (hr : 0 ≤ r' ∧ r' ≤ r ∨ r ≤ r' ∧ r' ≤ 0) : a ≤ x + r' * y ∧ x + r' * y ≤ b := by
  obtain ⟨u, u0, u1, e⟩ : ∃ u : K, 0 ≤ u ∧ u ≤ 1 ∧ r' = u * r := by
    by_cases q : r = 0
    · exact ⟨0, le_refl _, zero_le_one, by rcases hr with hr | hr <;> linarith [hr.1, hr.2]⟩
    · rcases hr with hr | hr
      · have : 0 < r := lt_of_le_of_ne (hr.1.trans hr.2) (Ne.symm q)
        exact ⟨r' / r, div_nonneg hr.1 this.le, (div_le_one this).mpr hr.2, (div_mul_cancel₀ _ q).symm⟩
      · have : r < 0 := lt_of_le_of_ne (hr.1.trans hr.2) q
        exact ⟨r' / r, div_nonneg_of_nonpos hr.2 this.le, (div_le_one_of_neg this).mpr hr.1, (div_mul_cancel₀ _ q).symm⟩
  have e : x + r' * y = x + u * (r * y) := by rw [e]; ring
  rw [e]
  constructor <;> nlinarith [h.1, h.2, h'.1, h'.2]

theorem Edge.keep {p : Par K} {s : St K} {z : Nat → K} {m : Nat} {r : K} {idx : Int} (h : Edge p s z m r idx)
    (hb : s.sl (m + 1) ≤ s.xopt (m + 1) + r * z (m + 1) ∧ s.xopt (m + 1) + r * z (m + 1) ≤ s.su (m + 1)) : Edge p s z (m + 1) r idx := by
  refine ⟨fun i i1 i2 => ?_, h.lower, h.upper⟩
  by_cases q : i = m + 1
  · rw [q]; exact hb
  · exact h.box i i1 (by omega)

theorem Edge.cut {p : Par K} {s : St K} {z : Nat → K} {m : Nat} {r r' : K} {idx idx' : Int} (hw : Within p s s.xopt) (hm : m + 1 ≤ p.n) (h : Edge p s z m r idx)
    (hr : 0 ≤ r' ∧ r' ≤ r ∨ r ≤ r' ∧ r' ≤ 0)
    (hb : idx' = -((m + 1 : Nat) : Int) ∧ s.xopt (m + 1) + r' * z (m + 1) = s.sl (m + 1) ∨ idx' = ((m + 1 : Nat) : Int) ∧ s.xopt (m + 1) + r' * z (m + 1) = s.su (m + 1)) :
    Edge p s z (m + 1) r' idx' := by
  obtain ⟨w1, w2⟩ := hw (m + 1) (by omega) hm
  refine ⟨fun i i1 i2 => ?_, fun q => ?_, fun q => ?_⟩
  · by_cases q : i = m + 1
    · rw [q]
      rcases hb with ⟨-, hb⟩ | ⟨-, hb⟩ <;> rw [hb]
      · exact ⟨le_refl _, w1.trans w2⟩
      · exact ⟨w1.trans w2, le_refl _⟩
    · exact shorter (hw i i1 (by omega)) (h.box i i1 (by omega)) hr
  · rcases hb with ⟨rfl, hb⟩ | ⟨rfl, -⟩
    · rw [neg_neg, Int.toNat_natCast]; exact hb
    · omega
  · rcases hb with ⟨rfl, -⟩ | ⟨rfl, hb⟩
    · omega
    · rw [Int.toNat_natCast]; exact hb

theorem lineBounds_spec (hsqrt : ∀ a : K, 0 ≤ a → 0 ≤ CMath.sqrt a ∧ CMath.sqrt a * CMath.sqrt a = a) {p : Par K} {s : St K} (hw : Within p s s.xopt) {k : Nat}
    (hk : Within p s (s.xpt k)) {dsq : K} (hd : 0 < dsq) (ha : 0 < s.adelt) :
    (lineBounds p s k dsq).1.1 ≤ 0 ∧ 0 < (lineBounds p s k dsq).1.2 ∧
    Edge p s (fun j => s.xpt k j - s.xopt j) p.n (lineBounds p s k dsq).1.1 (lineBounds p s k dsq).2.1 ∧
    Edge p s (fun j => s.xpt k j - s.xopt j) p.n (lineBounds p s k dsq).1.2 (lineBounds p s k dsq).2.2 := by
  have sq : 0 < CMath.sqrt dsq := by
    obtain ⟨a, b⟩ := hsqrt dsq hd.le
    refine lt_of_le_of_ne a fun q => ?_
    rw [← q] at b
    linarith
  have s0 : 0 < s.adelt / CMath.sqrt dsq := div_pos ha sq
  unfold lineBounds
  dsimp only
  generalize s.adelt / CMath.sqrt dsq = r0 at *
  have one : cmin 1 r0 ≤ 1 := by rw [cmin_eq]; exact min_le_left _ _
  refine up_inv (fun m (t : (K × K) × (Int × Int)) => t.1.1 ≤ 0 ∧ 0 < t.1.2 ∧ Edge p s (fun j => s.xpt k j - s.xopt j) m t.1.1 t.2.1 ∧
    Edge p s (fun j => s.xpt k j - s.xopt j) m t.1.2 t.2.2) p.n ⟨by show -r0 ≤ 0; linarith, s0, ⟨fun i _ _ => by omega, fun q => absurd q (lt_irrefl _), fun q => absurd q (lt_irrefl _)⟩,
      ⟨fun i _ _ => by omega, fun q => absurd q (lt_irrefl _), fun q => absurd q (lt_irrefl _)⟩⟩ ?_
  rintro m hm ⟨⟨lo, hi⟩, ⟨il, iu⟩⟩ ⟨h1, h2, h3, h4⟩
  dsimp only at h1 h2 h3 h4 ⊢
  obtain ⟨x1, x2⟩ := hw (m + 1) (by omega) (by omega)
  obtain ⟨y1, y2⟩ := hk (m + 1) (by omega) (by omega)
  have ez : (fun j => s.xpt k j - s.xopt j) (m + 1) = s.xpt k (m + 1) - s.xopt (m + 1) := rfl
  generalize (fun j => s.xpt k j - s.xopt j) = z at h3 h4 ez ⊢
  rw [← ez]
  have y1 : s.sl (m + 1) - s.xopt (m + 1) ≤ z (m + 1) := by rw [ez]; linarith
  have y2 : z (m + 1) ≤ s.su (m + 1) - s.xopt (m + 1) := by rw [ez]; linarith
  clear ez
  by_cases c : z (m + 1) > 0
  · rw [if_pos c]
    have low : ∀ t : (K × K) × (Int × Int), t = (if lo * z (m + 1) < s.sl (m + 1) - s.xopt (m + 1) then (((s.sl (m + 1) - s.xopt (m + 1)) / z (m + 1), hi), (-((m + 1 : Nat) : Int), iu)) else ((lo, hi), (il, iu)))
        → t.1.1 ≤ 0 ∧ t.1.2 = hi ∧ t.2.2 = iu ∧ Edge p s z (m + 1) t.1.1 t.2.1 := by
      rintro t rfl
      by_cases q : lo * z (m + 1) < s.sl (m + 1) - s.xopt (m + 1)
      · rw [if_pos q]
        have n0 : (s.sl (m + 1) - s.xopt (m + 1)) / z (m + 1) ≤ 0 := div_nonpos_of_nonpos_of_nonneg (by linarith) c.le
        refine ⟨n0, rfl, rfl, h3.cut hw (by omega) (Or.inr ⟨((lt_div_iff₀ c).mpr q).le, n0⟩) (Or.inl ⟨rfl, ?_⟩)⟩
        dsimp only
        rw [div_mul_cancel₀ _ c.ne']; ring
      · rw [if_neg q]
        refine ⟨h1, rfl, rfl, h3.keep ⟨?_, ?_⟩⟩
        · linarith [not_lt.mp q]
        · linarith [mul_nonpos_of_nonpos_of_nonneg h1 c.le]
    generalize (if lo * z (m + 1) < s.sl (m + 1) - s.xopt (m + 1) then (((s.sl (m + 1) - s.xopt (m + 1)) / z (m + 1), hi), (-((m + 1 : Nat) : Int), iu)) else ((lo, hi), (il, iu))) = t at low ⊢
    obtain ⟨⟨lo', hi'⟩, ⟨il', iu'⟩⟩ := t
    obtain ⟨l1, rfl, rfl, l2⟩ := low _ rfl
    dsimp only at l1 l2 ⊢
    by_cases q : hi' * z (m + 1) > s.su (m + 1) - s.xopt (m + 1)
    · rw [if_pos q]
      have ge : 1 ≤ (s.su (m + 1) - s.xopt (m + 1)) / z (m + 1) := (one_le_div c).mpr y2
      have e : cmax ((s.su (m + 1) - s.xopt (m + 1)) / z (m + 1)) (cmin 1 r0) = (s.su (m + 1) - s.xopt (m + 1)) / z (m + 1) := by
        rw [cmax_eq]; exact max_eq_left (one.trans ge)
      dsimp only
      rw [e]
      refine ⟨l1, by linarith, l2, h4.cut hw (by omega) (Or.inl ⟨by linarith, ((div_lt_iff₀ c).mpr q).le⟩) (Or.inr ⟨rfl, ?_⟩)⟩
      rw [div_mul_cancel₀ _ c.ne']; ring
    · rw [if_neg q]
      refine ⟨l1, h2, l2, h4.keep ⟨?_, ?_⟩⟩
      · dsimp only; linarith [mul_pos h2 c]
      · dsimp only; linarith [not_lt.mp q]
  · rw [if_neg c]
    by_cases c' : z (m + 1) < 0
    · rw [if_pos c']
      have low : ∀ t : (K × K) × (Int × Int), t = (if lo * z (m + 1) > s.su (m + 1) - s.xopt (m + 1) then (((s.su (m + 1) - s.xopt (m + 1)) / z (m + 1), hi), (((m + 1 : Nat) : Int), iu)) else ((lo, hi), (il, iu)))
          → t.1.1 ≤ 0 ∧ t.1.2 = hi ∧ t.2.2 = iu ∧ Edge p s z (m + 1) t.1.1 t.2.1 := by
        rintro t rfl
        by_cases q : lo * z (m + 1) > s.su (m + 1) - s.xopt (m + 1)
        · rw [if_pos q]
          have n0 : (s.su (m + 1) - s.xopt (m + 1)) / z (m + 1) ≤ 0 := div_nonpos_of_nonneg_of_nonpos (by linarith) c'.le
          refine ⟨n0, rfl, rfl, h3.cut hw (by omega) (Or.inr ⟨((lt_div_iff_of_neg c').mpr q).le, n0⟩) (Or.inr ⟨rfl, ?_⟩)⟩
          dsimp only
          rw [div_mul_cancel₀ _ c'.ne]; ring
        · rw [if_neg q]
          refine ⟨h1, rfl, rfl, h3.keep ⟨?_, ?_⟩⟩
          · linarith [mul_nonneg_of_nonpos_of_nonpos h1 c'.le]
          · linarith [not_lt.mp q]
      generalize (if lo * z (m + 1) > s.su (m + 1) - s.xopt (m + 1) then (((s.su (m + 1) - s.xopt (m + 1)) / z (m + 1), hi), (((m + 1 : Nat) : Int), iu)) else ((lo, hi), (il, iu))) = t at low ⊢
      obtain ⟨⟨lo', hi'⟩, ⟨il', iu'⟩⟩ := t
      obtain ⟨l1, rfl, rfl, l2⟩ := low _ rfl
      dsimp only at l1 l2 ⊢
      by_cases q : hi' * z (m + 1) < s.sl (m + 1) - s.xopt (m + 1)
      · rw [if_pos q]
        have ge : 1 ≤ (s.sl (m + 1) - s.xopt (m + 1)) / z (m + 1) := (one_le_div_of_neg c').mpr y1
        have e : cmax ((s.sl (m + 1) - s.xopt (m + 1)) / z (m + 1)) (cmin 1 r0) = (s.sl (m + 1) - s.xopt (m + 1)) / z (m + 1) := by
          rw [cmax_eq]; exact max_eq_left (one.trans ge)
        dsimp only
        rw [e]
        refine ⟨l1, by linarith, l2, h4.cut hw (by omega) (Or.inl ⟨by linarith, ((div_lt_iff_of_neg c').mpr q).le⟩) (Or.inl ⟨rfl, ?_⟩)⟩
        rw [div_mul_cancel₀ _ c'.ne]; ring
      · rw [if_neg q]
        refine ⟨l1, h2, l2, h4.keep ⟨?_, ?_⟩⟩
        · dsimp only; linarith [not_lt.mp q]
        · dsimp only; linarith [mul_neg_of_pos_of_neg h2 c']
    · rw [if_neg c']
      have e : z (m + 1) = 0 := le_antisymm (not_lt.mp c) (not_lt.mp c')
      exact ⟨h1, h2, h3.keep (by rw [e, mul_zero, add_zero]; exact ⟨x1, x2⟩), h4.keep (by rw [e, mul_zero, add_zero]; exact ⟨x1, x2⟩)⟩

/-! ### The step on a line -/

/-- A step between the bounds. -/
theorem Edge.inside {p : Par K} {s : St K} {z : Nat → K} {m : Nat} {lo hi r : K} {il iu : Int} (h1 : Edge p s z m lo il) (h2 : Edge p s z m hi iu) (hr : lo ≤ r ∧ r ≤ hi) :
    Edge p s z m r 0 := by
  refine ⟨fun i i1 i2 => ?_, fun q => absurd q (lt_irrefl _), fun q => absurd q (lt_irrefl _)⟩
  obtain ⟨a1, a2⟩ := h1.box i i1 i2
  obtain ⟨b1, b2⟩ := h2.box i i1 i2
  rcases le_total 0 (z i) with q | q
  · have e1 := mul_le_mul_of_nonneg_right hr.1 q
    have e2 := mul_le_mul_of_nonneg_right hr.2 q
    constructor <;> linarith
  · have e1 := mul_le_mul_of_nonpos_right hr.1 q
    have e2 := mul_le_mul_of_nonpos_right hr.2 q
    constructor <;> linarith

theorem lineKnew_spec {p : Par K} {s : St K} {z : Nat → K} {b : (K × K) × (Int × Int)} (h0 : b.1.1 ≤ 0) (h1 : 0 < b.1.2) (h2 : Edge p s z p.n b.1.1 b.2.1)
    (h3 : Edge p s z p.n b.1.2 b.2.2) (d : K) :
    Edge p s z p.n (lineKnew b d).step (lineKnew b d).isbd ∧ (lineKnew b d).vlag = (lineKnew b d).step * (d - (lineKnew b d).step * (d - 1)) ∧ (lineKnew b d).vlag ≠ 0 := by
  obtain ⟨⟨lo, hi⟩, ⟨il, iu⟩⟩ := b
  dsimp only at h0 h1 h2 h3
  have first : ∀ l : Line K, l = (if fabs (hi * (d - hi * (d - 1))) > fabs (lo * (d - lo * (d - 1))) then ⟨hi, hi * (d - hi * (d - 1)), iu⟩ else ⟨lo, lo * (d - lo * (d - 1)), il⟩) →
      Edge p s z p.n l.step l.isbd ∧ l.vlag = l.step * (d - l.step * (d - 1)) ∧ (l.vlag = 0 → hi * (d - hi * (d - 1)) = 0) := by
    rintro l rfl
    by_cases q : fabs (hi * (d - hi * (d - 1))) > fabs (lo * (d - lo * (d - 1)))
    · rw [if_pos q]; exact ⟨h3, rfl, fun e => e⟩
    · rw [if_neg q]
      refine ⟨h2, rfl, fun e => ?_⟩
      have e : lo * (d - lo * (d - 1)) = 0 := e
      rw [e, ExactMath.fabs_eq, ExactMath.fabs_eq, abs_zero] at q
      exact abs_eq_zero.mp (le_antisymm (not_lt.mp q) (abs_nonneg _))
  unfold lineKnew
  dsimp only
  generalize (if fabs (hi * (d - hi * (d - 1))) > fabs (lo * (d - lo * (d - 1))) then (⟨hi, hi * (d - hi * (d - 1)), iu⟩ : Line K) else ⟨lo, lo * (d - lo * (d - 1)), il⟩) = l at first ⊢
  obtain ⟨f1, f2, f3⟩ := first l rfl
  rw [lit_half]
  by_cases c : (1 / 2 * d - (d - 1) * lo) * (1 / 2 * d - (d - 1) * hi) < 0
  · rw [if_pos c]
    have d0 : d - 1 ≠ 0 := by
      intro q
      rw [q, zero_mul, zero_mul, sub_zero] at c
      exact absurd c (not_lt.mpr (mul_self_nonneg _))
    by_cases q : fabs (1 / 2 * d * (1 / 2 * d) / (d - 1)) > fabs l.vlag
    · rw [if_pos q]
      refine ⟨h2.inside h3 ?_, ?_, ?_⟩
      · dsimp only
        have e : (1 / 2 * d - (d - 1) * lo) * (1 / 2 * d - (d - 1) * hi) = (d - 1) * (d - 1) * ((1 / 2 * d / (d - 1) - lo) * (1 / 2 * d / (d - 1) - hi)) := by
          field_simp
        rw [e] at c
        have pos : 0 < (d - 1) * (d - 1) := lt_of_le_of_ne (mul_self_nonneg _) (Ne.symm (mul_self_ne_zero.mpr d0))
        have c : (1 / 2 * d / (d - 1) - lo) * (1 / 2 * d / (d - 1) - hi) < 0 := by
          by_contra w
          exact absurd c (not_lt.mpr (mul_nonneg pos.le (not_lt.mp w)))
        generalize 1 / 2 * d / (d - 1) = r at c ⊢
        rcases mul_neg_iff.mp c with ⟨a, b⟩ | ⟨a, b⟩
        · exact ⟨by linarith, by linarith⟩
        · exfalso; linarith
      · dsimp only
        field_simp
        ring
      · intro w
        dsimp only at w
        rw [w, ExactMath.fabs_eq, ExactMath.fabs_eq, abs_zero] at q
        exact absurd q (not_lt.mpr (abs_nonneg _))
    · rw [if_neg q]
      refine ⟨f1, f2, fun w => q ?_⟩
      rw [w, ExactMath.fabs_eq, ExactMath.fabs_eq, abs_zero]
      refine abs_pos.mpr (div_ne_zero ?_ d0)
      have e := f3 w
      rcases mul_eq_zero.mp e with e | e
      · exact absurd e h1.ne'
      · have : d = hi * (d - 1) := by linarith
        refine mul_self_ne_zero.mpr fun w => ?_
        have : d = 0 := by linarith
        rw [this] at e
        have : hi = 0 := by linarith
        exact h1.ne' this
  · rw [if_neg c]
    refine ⟨f1, f2, fun w => c ?_⟩
    have e := f3 w
    rcases mul_eq_zero.mp e with e | e
    · exact absurd e h1.ne'
    · have e : d = hi * (d - 1) := by linarith
      have d0 : d - 1 ≠ 0 := fun q => by rw [q, mul_zero] at e; linarith
      have pos : 0 < (d - 1) * (d - 1) := lt_of_le_of_ne (mul_self_nonneg _) (Ne.symm (mul_self_ne_zero.mpr d0))
      have f : (1 / 2 * d - (d - 1) * lo) * (1 / 2 * d - (d - 1) * hi) = -((d - 1) * (d - 1) * ((hi / 2 - lo) * (hi / 2))) := by
        generalize d - 1 = e' at e
        rw [e]; ring
      rw [f]
      have : 0 < (hi / 2 - lo) * (hi / 2) := mul_pos (by linarith) (by linarith)
      have := mul_pos pos this
      linarith

theorem lineOther_spec {p : Par K} {s : St K} {z : Nat → K} {b : (K × K) × (Int × Int)} (h0 : b.1.1 ≤ 0) (h2 : Edge p s z p.n b.1.1 b.2.1)
    (h3 : Edge p s z p.n b.1.2 b.2.2) (d : K) :
    Edge p s z p.n (lineOther b d).step (lineOther b d).isbd ∧ (lineOther b d).vlag = (lineOther b d).step * (1 - (lineOther b d).step) * d := by
  obtain ⟨⟨lo, hi⟩, ⟨il, iu⟩⟩ := b
  dsimp only at h0 h2 h3
  have first : ∀ l : Line K, l = (if fabs (hi * (1 - hi)) > fabs (lo * (1 - lo)) then ⟨hi, hi * (1 - hi), iu⟩ else ⟨lo, lo * (1 - lo), il⟩) →
      Edge p s z p.n l.step l.isbd ∧ l.vlag = l.step * (1 - l.step) := by
    rintro l rfl
    by_cases q : fabs (hi * (1 - hi)) > fabs (lo * (1 - lo))
    · rw [if_pos q]; exact ⟨h3, rfl⟩
    · rw [if_neg q]; exact ⟨h2, rfl⟩
  unfold lineOther
  dsimp only
  generalize (if fabs (hi * (1 - hi)) > fabs (lo * (1 - lo)) then (⟨hi, hi * (1 - hi), iu⟩ : Line K) else ⟨lo, lo * (1 - lo), il⟩) = l at first ⊢
  obtain ⟨f1, f2⟩ := first l rfl
  by_cases c : hi > lit 1 2
  · rw [if_pos c]
    by_cases q : fabs l.vlag < lit 1 4
    · rw [if_pos q]
      rw [lit_half] at c ⊢
      refine ⟨h2.inside h3 ⟨?_, c.le⟩, ?_⟩
      · dsimp only
        exact h0.trans (by norm_num)
      · dsimp only
        rw [Newuoa.lit_quarter]; ring
    · rw [if_neg q]
      exact ⟨f1, by rw [← f2]⟩
  · rw [if_neg c]
    exact ⟨f1, by rw [← f2]⟩

/-! ### The best line -/

/-- The points of the inverse matrix differ. -/
theorem Inverse.distance {p : Par K} {s : St K} (h : Inverse p s) {k l : Nat} (k1 : 1 ≤ k) (k2 : k ≤ p.npt) (l1 : 1 ≤ l) (l2 : l ≤ p.npt) (ne : k ≠ l) :
    0 < Powell.dot p.n (fun j => s.xpt k j - s.xpt l j) (fun j => s.xpt k j - s.xpt l j) := by
  refine lt_of_le_of_ne (Finset.sum_nonneg fun _ _ => mul_self_nonneg _) fun q => ?_
  have q := (Finset.sum_eq_zero_iff_of_nonneg fun _ _ => mul_self_nonneg _).mp q.symm
  obtain ⟨c, hg⟩ := h
  have e1 := hg.lagrange k1 k2 k1 k2
  have e2 := hg.lagrange k1 k2 l1 l2
  rw [if_pos rfl] at e1
  rw [if_neg (Ne.symm ne)] at e2
  have : ∀ x, Powell.dot p.n x (s.xpt k) = Powell.dot p.n x (s.xpt l) := fun x => Newuoa.dot_congr (fun _ _ _ => rfl) fun i i1 i2 => by
    have := q i (Finset.mem_Icc.mpr ⟨i1, i2⟩)
    have := mul_self_eq_zero.mp this
    linarith
  simp only [this] at e1
  linarith

/-- The line and the step are those of a point within the bounds where the Lagrange function is not null. -/
structure Choice (p : Par K) (s : St K) (k : Nat) (r : K) (idx : Int) : Prop where
  k1 : 1 ≤ k
  k2 : k ≤ p.npt
  edge : Edge p s (fun j => s.xpt k j - s.xopt j) p.n r idx
  value : lagv p s (fun j => r * (s.xpt k j - s.xopt j)) ≠ 0

set_option maxHeartbeats 1000000 in
theorem lineSearch_spec (hsqrt : ∀ a : K, 0 ≤ a → 0 ≤ CMath.sqrt a ∧ CMath.sqrt a * CMath.sqrt a = a) {p : Par K} {s : St K} (h : Core p s) (hf : Full p s) (hk : Kn p s)
    (ha : 0 < s.adelt) : Choice p s (lineSearch p s).2.1 (lineSearch p s).2.2.1 (lineSearch p s).2.2.2 := by
  obtain ⟨c, hg⟩ := h.inv
  have hw : Within p s s.xopt := by rw [h.xo]; exact hf.within _ hf.kopt1 hf.koptn
  have ha' : 0 ≤ lit 1 2 * hcol p s s.knew := by
    rw [lit_half, hcol_eq]
    have := Newuoa.omega_nonneg p.nptm s.zmat s.knew
    linarith
  have key : 0 ≤ (lineSearch p s).1 ∧ (0 < (lineSearch p s).1 → Choice p s (lineSearch p s).2.1 (lineSearch p s).2.2.1 (lineSearch p s).2.2.2) ∧ (s.knew ≤ p.npt → 0 < (lineSearch p s).1) := by
    unfold lineSearch
    dsimp only
    generalize lit 1 2 * hcol p s s.knew = ha at ha'
    refine up_inv (fun m (t : K × Nat × K × Int) => 0 ≤ t.1 ∧ (0 < t.1 → Choice p s t.2.1 t.2.2.1 t.2.2.2) ∧ (s.knew ≤ m → 0 < t.1)) p.npt
      ⟨le_refl _, fun q => absurd q (lt_irrefl _), fun q => by have := hk.1; omega⟩ ?_
    rintro m hm ⟨pre, t⟩ ⟨i1, i2, i3⟩
    dsimp only at i1 i2 i3 ⊢
    by_cases e : m + 1 = s.kopt
    · rw [if_pos e]
      exact ⟨i1, i2, fun q => i3 (by have := hk.2.2; omega)⟩
    rw [if_neg e]
    have dist := h.inv.distance (k := m + 1) (l := s.kopt) (by omega) (by omega) hf.kopt1 hf.koptn e
    rw [← h.xo] at dist
    have e1 : acc p.n (fun i => (s.xpt (m + 1) i - s.xopt i) * (s.xpt (m + 1) i - s.xopt i)) 0 = Powell.dot p.n (fun j => s.xpt (m + 1) j - s.xopt j) (fun j => s.xpt (m + 1) j - s.xopt j) := by
      rw [acc_eq, zero_add]; rfl
    have e2 : acc p.n (fun i => glag p s i * (s.xpt (m + 1) i - s.xopt i)) 0 = Powell.dot p.n (glag p s) (fun j => s.xpt (m + 1) j - s.xopt j) := by
      rw [acc_eq, zero_add]; rfl
    rw [e1, e2]
    generalize Powell.dot p.n (fun j => s.xpt (m + 1) j - s.xopt j) (fun j => s.xpt (m + 1) j - s.xopt j) = dsq at dist ⊢
    obtain ⟨b1, b2, b3, b4⟩ := lineBounds_spec hsqrt hw (hf.within (m + 1) (by omega) (by omega)) dist ‹0 < s.adelt›
    generalize lineBounds p s (m + 1) dsq = b at *
    have pt := lagv_point hg h.xo hf.kopt1 hf.koptn hk (k := m + 1) (by omega) (by omega)
    have ln := lagv_line p s (fun j => s.xpt (m + 1) j - s.xopt j)
    rw [pt] at ln
    generalize hd : Powell.dot p.n (glag p s) (fun j => s.xpt (m + 1) j - s.xopt j) = d at *
    have good : ∀ l : Line K, l = (if m + 1 = s.knew then lineKnew b d else lineOther b d) →
        Edge p s (fun j => s.xpt (m + 1) j - s.xopt j) p.n l.step l.isbd ∧ l.vlag = lagv p s (fun j => l.step * (s.xpt (m + 1) j - s.xopt j)) ∧ (m + 1 = s.knew → l.vlag ≠ 0) := by
      rintro l rfl
      by_cases q : m + 1 = s.knew
      · rw [if_pos q]
        obtain ⟨r1, r2, r3⟩ := lineKnew_spec b1 b2 b3 b4 d
        refine ⟨r1, ?_, fun _ => r3⟩
        rw [r2, ln, if_pos q]; ring
      · rw [if_neg q]
        obtain ⟨r1, r2⟩ := lineOther_spec b1 b3 b4 d
        refine ⟨r1, ?_, fun w => absurd w q⟩
        rw [r2, ln, if_neg q]; ring
    generalize (if m + 1 = s.knew then lineKnew b d else lineOther b d) = l at good ⊢
    obtain ⟨g1, g2, g3⟩ := good l rfl
    have sq : 0 ≤ ha * (l.step * (1 - l.step) * dsq) * (l.step * (1 - l.step) * dsq) := by
      rw [mul_assoc]; exact mul_nonneg ha' (mul_self_nonneg _)
    have v0 := mul_self_nonneg l.vlag
    by_cases q : l.vlag * l.vlag * (l.vlag * l.vlag + ha * (l.step * (1 - l.step) * dsq) * (l.step * (1 - l.step) * dsq)) > pre
    · rw [if_pos q]
      have pos := lt_of_le_of_lt i1 q
      refine ⟨pos.le, fun _ => ⟨Nat.le_add_left _ _, hm, g1, ?_⟩, fun _ => pos⟩
      rw [← g2]
      intro w
      rw [w, zero_mul, zero_mul] at pos
      exact lt_irrefl _ pos
    · rw [if_neg q]
      refine ⟨i1, i2, fun w => ?_⟩
      by_cases w' : m + 1 = s.knew
      · have v := g3 w'
        have v' : 0 < l.vlag * l.vlag := lt_of_le_of_ne v0 (Ne.symm (mul_self_ne_zero.mpr v))
        have : 0 < l.vlag * l.vlag * (l.vlag * l.vlag + ha * (l.step * (1 - l.step) * dsq) * (l.step * (1 - l.step) * dsq)) := mul_pos v' (by linarith)
        exact lt_of_lt_of_le this (not_lt.mp q)
      · exact i3 (by omega)
  exact key.2.1 (key.2.2 hk.2.1)

theorem clamp_id {x lo hi : K} (h : lo ≤ x ∧ x ≤ hi) : clamp x lo hi = x := by
  unfold clamp
  by_cases a : x ≥ hi
  · rw [if_pos a]; exact le_antisymm a h.2
  · rw [if_neg a]
    by_cases b : x ≤ lo
    · rw [if_pos b]; exact le_antisymm h.1 b
    · rw [if_neg b]

/-- The Lagrange function is not null at the point `XNEW` of `altmov`. -/
theorem altNew_value (hsqrt : ∀ a : K, 0 ≤ a → 0 ≤ CMath.sqrt a ∧ CMath.sqrt a * CMath.sqrt a = a) {p : Par K} {s : St K} (h : Core p s) (hf : Full p s) (hk : Kn p s)
    (ha : 0 < s.adelt) : lagv p s (fun j => altNew p s j - s.xopt j) ≠ 0 := by
  have c := lineSearch_spec hsqrt h hf hk ha
  have e : ∀ i, 1 ≤ i → i ≤ p.n → altNew p s i = s.xopt i + (lineSearch p s).2.2.1 * (s.xpt (lineSearch p s).2.1 i - s.xopt i) := by
    intro i i1 i2
    unfold altNew
    generalize lineSearch p s = t at *
    obtain ⟨pre, k, r, idx⟩ := t
    dsimp only at c ⊢
    have v0 : clamp (s.xopt i + r * (xptAt p s k i - s.xopt i)) (s.sl i) (s.su i) = s.xopt i + r * (s.xpt k i - s.xopt i) := by
      unfold xptAt
      rw [if_neg (by have := c.k1; omega)]
      exact clamp_id (c.edge.box i i1 i2)
    unfold set1
    by_cases q : idx < 0
    · rw [if_pos q, if_neg (by omega)]
      by_cases w : i = (-idx).toNat
      · rw [if_pos w, ← w]
        have := c.edge.lower q
        rw [← w] at this
        exact this.symm
      · rw [if_neg w]; exact v0
    · rw [if_neg q]
      by_cases q' : idx > 0
      · rw [if_pos q']
        by_cases w : i = idx.toNat
        · rw [if_pos w, ← w]
          have := c.edge.upper q'
          rw [← w] at this
          exact this.symm
        · rw [if_neg w]; exact v0
      · rw [if_neg q']; exact v0
  have : lagv p s (fun j => altNew p s j - s.xopt j) = lagv p s (fun j => (lineSearch p s).2.2.1 * (s.xpt (lineSearch p s).2.1 j - s.xopt j)) :=
    Newuoa.qval_congr (fun _ _ _ _ _ _ => rfl) fun i i1 i2 => by rw [e i i1 i2]; ring
  rw [this]
  exact c.value

end
end Opk.Bobyqa
