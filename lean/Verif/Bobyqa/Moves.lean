import Verif.Bobyqa.Exchange

/-!
# The interpolation conditions of BOBYQA are kept by the changes of the model, in exact arithmetic
-/
set_option linter.unusedSectionVars false
namespace Opk.Bobyqa
open Linalg CMath Cobyla Powell
open Newuoa (omega hform qval hform_congr omega_sym lit_half hcolumn betaOf lfun)

section
variable {K : Type} [Field K] [LinearOrder K] [IsStrictOrderedRing K] [CMath K] [ExactMath K]

/-! ### The predicted change -/

/-- `VQUAD` is the change of the model. -/
theorem predicted_quad (p : Par K) (s : St K) (hw : ∀ k, 1 ≤ k → k ≤ p.npt → s.wd k = Powell.dot p.n (s.xpt k) s.d) : predicted p s = s.quad p s.d := by
  unfold predicted St.quad Newuoa.qval Newuoa.hform
  dsimp only
  rw [acc_eq]
  have e1 : up p.n (fun j v => up j (fun i v => v + s.hq i j * (if i = j then lit 1 2 * (s.d i * s.d j) else s.d i * s.d j)) (v + s.d j * s.gopt j)) 0 =
      Powell.dot p.n s.gopt s.d + ∑ j ∈ Finset.Icc 1 p.n, ∑ i ∈ Finset.Icc 1 j, (if i = j then 1 / 2 else 1) * s.hq i j * (s.d i * s.d j) := by
    have e : ∀ j v, up j (fun i v => v + s.hq i j * (if i = j then lit 1 2 * (s.d i * s.d j) else s.d i * s.d j)) (v + s.d j * s.gopt j) =
        v + (s.gopt j * s.d j + ∑ i ∈ Finset.Icc 1 j, (if i = j then 1 / 2 else 1) * s.hq i j * (s.d i * s.d j)) := by
      intro j v
      rw [up_sum, lit_half, add_assoc, mul_comm (s.d j)]
      congr 2
      refine Finset.sum_congr rfl fun i _ => ?_
      split_ifs <;> ring
    rw [up_congr fun j _ _ v => e j v, up_sum, zero_add, Finset.sum_add_distrib]
    rfl
  rw [e1, Finset.sum_div]
  congr 1
  refine Finset.sum_congr rfl fun k hk => ?_
  obtain ⟨k1, k2⟩ := Finset.mem_Icc.mp hk
  rw [hw k k1 k2, lit_half]
  ring

/-! ### A point is moved -/

theorem lfun_qval (p : Par K) (s : St K) (t : Nat) (y : Nat → K) :
    lfun p.nw s.nw t y = qval p.n p.npt s.xpt (s.bmat t) (fun _ _ => 0) (fun k => omega p.nptm s.zmat k t) y := by
  unfold Newuoa.lfun Newuoa.qval
  have hh : hform p.n (fun _ _ => (0 : K)) y = 0 := by
    unfold Newuoa.hform
    exact Finset.sum_eq_zero fun j _ => Finset.sum_eq_zero fun i _ => by rw [mul_zero, zero_mul]
  rw [hh, add_zero, Finset.sum_div, add_comm]
  show _ + ∑ k ∈ Finset.Icc 1 p.npt, omega p.nptm s.zmat k t * (Powell.dot p.n (s.xpt k) y * Powell.dot p.n (s.xpt k) y / 2) = _
  congr 1
  exact Finset.sum_congr rfl fun k _ => by ring

/-- A Lagrange function from another point. -/
theorem lfun_recenter (p : Par K) (s : St K) (t : Nat) (v g : Nat → K)
    (hg : ∀ i, 1 ≤ i → i ≤ p.n → g i = s.bmat t i + ∑ k ∈ Finset.Icc 1 p.npt, Powell.dot p.n (s.xpt k) v * omega p.nptm s.zmat k t * s.xpt k i) (z : Nat → K) :
    qval p.n p.npt s.xpt g (fun _ _ => 0) (fun k => omega p.nptm s.zmat k t) z = lfun p.nw s.nw t (fun i => z i + v i) - lfun p.nw s.nw t v := by
  rw [lfun_qval, lfun_qval]
  refine qval_recenter p.n p.npt s.xpt _ _ g v _ (fun i i1 i2 => ?_) z
  rw [hg i i1 i2, Finset.sum_eq_zero (s := Finset.Icc 1 p.n) (fun j _ => zero_mul _), add_zero]

/-- A change of the parameters of the model. -/
theorem qval_move {n npt : Nat} {xpt xpt' : Nat → Nat → K} {g g' w pq pq' om : Nat → K} {hq hq' : Nat → Nat → K} {a : K} {t : Nat} (t1 : 1 ≤ t) (t2 : t ≤ npt)
    (hx : ∀ k, k ≠ t → xpt' k = xpt k) (hg : ∀ i, 1 ≤ i → i ≤ n → g' i = g i + a * w i) (hp : ∀ k, 1 ≤ k → k ≤ npt → pq' k = set1 pq t 0 k + a * om k)
    (hh : ∀ i j, 1 ≤ i → i ≤ j → j ≤ n → hq' i j = hq i j + pq t * xpt t j * xpt t i) (y : Nat → K) :
    qval n npt xpt' g' hq' pq' y = qval n npt xpt g hq pq y + a * qval n npt xpt' w (fun _ _ => 0) om y := by
  unfold Newuoa.qval
  have z0 : hform n (fun _ _ => (0 : K)) y = 0 := by
    unfold Newuoa.hform
    exact Finset.sum_eq_zero fun j _ => Finset.sum_eq_zero fun i _ => by rw [mul_zero, zero_mul]
  have e0 : Powell.dot n g' y = Powell.dot n g y + a * Powell.dot n w y := by
    unfold Powell.dot
    rw [Finset.mul_sum, ← Finset.sum_add_distrib]
    refine Finset.sum_congr rfl fun i hi => ?_
    rw [Finset.mem_Icc] at hi
    rw [hg i hi.1 hi.2]; ring
  have e1 : hform n hq' y = hform n hq y + pq t * (Powell.dot n (xpt t) y * Powell.dot n (xpt t) y) / 2 := by
    have e := Newuoa.hform_outer n hq (fun i => pq t / 2 * xpt t i) (xpt t) y
    have e1 : Powell.dot n (fun i => pq t / 2 * xpt t i) y = pq t / 2 * Powell.dot n (xpt t) y := by
      unfold Powell.dot
      rw [Finset.mul_sum]
      exact Finset.sum_congr rfl fun i _ => by ring
    rw [show pq t * (Powell.dot n (xpt t) y * Powell.dot n (xpt t) y) / 2 = Powell.dot n (fun i => pq t / 2 * xpt t i) y * Powell.dot n (xpt t) y by rw [e1]; ring, ← e]
    refine hform_congr (fun i j i1 ij j2 => ?_) (fun _ _ _ => rfl)
    rw [hh i j i1 ij j2]
    ring
  have mt : t ∈ Finset.Icc 1 npt := Finset.mem_Icc.mpr ⟨t1, t2⟩
  have e2 : ∑ k ∈ Finset.Icc 1 npt, pq' k * (Powell.dot n (xpt' k) y * Powell.dot n (xpt' k) y)
      = ∑ k ∈ Finset.Icc 1 npt, pq k * (Powell.dot n (xpt k) y * Powell.dot n (xpt k) y) - pq t * (Powell.dot n (xpt t) y * Powell.dot n (xpt t) y)
      + a * ∑ k ∈ Finset.Icc 1 npt, om k * (Powell.dot n (xpt' k) y * Powell.dot n (xpt' k) y) := by
    have e1 : ∑ k ∈ Finset.Icc 1 npt, pq' k * (Powell.dot n (xpt' k) y * Powell.dot n (xpt' k) y)
        = ∑ k ∈ Finset.Icc 1 npt, set1 pq t 0 k * (Powell.dot n (xpt' k) y * Powell.dot n (xpt' k) y)
        + a * ∑ k ∈ Finset.Icc 1 npt, om k * (Powell.dot n (xpt' k) y * Powell.dot n (xpt' k) y) := by
      rw [Finset.mul_sum, ← Finset.sum_add_distrib]
      refine Finset.sum_congr rfl fun k hk => ?_
      rw [Finset.mem_Icc] at hk
      rw [hp k hk.1 hk.2]
      ring
    rw [e1]
    congr 1
    rw [← Finset.add_sum_erase _ _ mt, ← Finset.add_sum_erase _ (fun k => pq k * (Powell.dot n (xpt k) y * Powell.dot n (xpt k) y)) mt,
      show set1 pq t 0 t = 0 from if_pos rfl, zero_mul, zero_add, add_sub_cancel_left]
    refine Finset.sum_congr rfl fun k hk => ?_
    have q := Finset.ne_of_mem_erase hk
    rw [show set1 pq t 0 k = pq k from if_neg q, hx k q]
  rw [e0, e1, e2, z0]
  ring

theorem move_xpt (p : Par K) (s : St K) (k : Nat) : (move p s).xpt k = if k = s.knew then s.xnew else s.xpt k := by
  funext i
  show (if k = s.knew then s.xnew i else s.xpt k i) = _
  split_ifs <;> rfl

/-- The model after the move of a point. -/
theorem move_quad (p : Par K) (s : St K) (t1 : 1 ≤ s.knew) (t2 : s.knew ≤ p.npt) (z : Nat → K) :
    (move p s).quad p z = s.quad p z + s.diff * (lfun p.nw (move p s).nw s.knew (fun i => z i + s.xopt i) - lfun p.nw (move p s).nw s.knew s.xopt) := by
  rw [← lfun_recenter p (move p s) s.knew s.xopt (fun i => acc p.npt (fun k =>
    acc p.nptm (fun j => (move p s).zmat s.knew j * (move p s).zmat k j) 0 * acc p.n (fun j => (move p s).xpt k j * s.xopt j) 0 * (move p s).xpt k i) ((move p s).bmat s.knew i))]
  · refine qval_move t1 t2 (fun k hk => by rw [move_xpt, if_neg hk]) (fun i i1 i2 => rfl) (fun k k1 k2 => ?_) (fun i j i1 ij j2 => rfl) z
    show acc p.nptm (fun j => s.diff * (move p s).zmat s.knew j * (move p s).zmat k j) (set1 s.pq s.knew 0 k) = _
    rw [acc_eq]
    congr 1
    unfold Newuoa.omega
    rw [Finset.mul_sum]
    exact Finset.sum_congr rfl fun j _ => by ring
  · intro i i1 i2
    rw [acc_eq]
    congr 1
    refine Finset.sum_congr rfl fun k _ => ?_
    rw [acc_eq, acc_eq, zero_add, zero_add, omega_sym]
    show Newuoa.omega p.nptm (move p s).zmat s.knew k * Powell.dot p.n ((move p s).xpt k) s.xopt * _ = _
    ring

/-- Before a point is moved. -/
structure Swap (p : Par K) (s : St K) : Prop where
  core : Core p s
  t1 : 1 ≤ s.knew
  t2 : s.knew ≤ p.npt
  k1 : 1 ≤ s.kopt
  k2 : s.kopt ≤ p.npt
  lag : Lag p s s.xnew
  den : omega p.nptm s.zmat s.knew s.knew * s.beta + s.vlag s.knew * s.vlag s.knew = s.denom
  pos : 0 < s.denom
  hd : ∀ i, s.xnew i = s.xopt i + s.d i
  diff : s.diff = s.f - s.fval s.kopt - s.quad p s.d
  spread : Spread p s.zmat s.knew

theorem Swap.inv (hsqrt : ∀ a : K, 0 ≤ a → 0 ≤ CMath.sqrt a ∧ CMath.sqrt a * CMath.sqrt a = a) {p : Par K} (hm : 1 ≤ p.nptm) {s : St K} (h : Swap p s) :
    Inverse p (move p s) := by
  obtain ⟨c, hc⟩ := h.core.inv
  obtain ⟨a, b⟩ := h.lag c hc
  exact update_good hsqrt hm hc h.t1 h.t2 h.spread a b h.den h.pos

/-- The interpolation conditions after the move of a point, up to a constant. -/
theorem Swap.interp (hsqrt : ∀ a : K, 0 ≤ a → 0 ≤ CMath.sqrt a ∧ CMath.sqrt a * CMath.sqrt a = a) {p : Par K} (hm : 1 ≤ p.nptm) {s : St K} (h : Swap p s) :
    ∃ a, (∀ k, 1 ≤ k → k ≤ p.npt → (move p s).quad p (fun j => (move p s).xpt k j - s.xopt j) = (move p s).fval k - a) ∧ (s.knew ≠ s.kopt → a = s.fval s.kopt) := by
  obtain ⟨c, hg⟩ := h.inv hsqrt hm
  have lp := fun i (i1 : 1 ≤ i) (i2 : i ≤ p.npt) => Newuoa.lfun_pt (p := p.nw) (s := (move p s).nw) hg h.t1 h.t2 i1 i2
  refine ⟨s.fval s.kopt + s.diff * (c s.knew + lfun p.nw (move p s).nw s.knew s.xopt), fun k k1 k2 => ?_, fun ne => ?_⟩
  · rw [move_quad p s h.t1 h.t2]
    have e : (fun i => (move p s).xpt k i - s.xopt i + s.xopt i) = (move p s).nw.xpt k := funext fun i => by
      show (move p s).xpt k i - s.xopt i + s.xopt i = (move p s).xpt k i
      ring
    rw [e, lp k k1 k2]
    show _ = set1 s.fval s.knew s.f k - _
    unfold set1
    rw [move_xpt]
    by_cases q : k = s.knew
    · rw [if_pos q, if_pos q, if_pos q, show (fun j => s.xnew j - s.xopt j) = s.d from funext fun j => by rw [h.hd j]; ring]
      linear_combination h.diff
    · rw [if_neg q, if_neg q, if_neg q]
      linear_combination h.core.int k k1 k2
  · have := lp s.kopt h.k1 h.k2
    rw [if_neg (Ne.symm ne)] at this
    have e : (move p s).nw.xpt s.kopt = s.xopt := by
      show (move p s).xpt s.kopt = _
      rw [move_xpt, if_neg (Ne.symm ne), h.core.xo]
    rw [e] at this
    rw [this]; ring

/-- What the iterations keep is true when a point has been moved. -/
theorem Swap.keep (hsqrt : ∀ a : K, 0 ≤ a → 0 ≤ CMath.sqrt a ∧ CMath.sqrt a * CMath.sqrt a = a) {p : Par K} (hm : 1 ≤ p.nptm) {s : St K} (h : Swap p s)
    (ne : ¬ s.f < s.fval s.kopt → s.knew ≠ s.kopt) : Core p (recenter p (s.fval s.kopt) (move p s)) := by
  have hi := h.inv hsqrt hm
  obtain ⟨a, i1, i2⟩ := h.interp hsqrt hm
  unfold recenter
  by_cases q : (move p s).f < s.fval s.kopt
  · rw [if_pos q]
    refine ⟨hi, fun k k1 k2 => ?_, ?_, ?_⟩
    · show qval p.n p.npt (move p s).xpt (addPoints p.n p.npt (move p s).xpt (move p s).pq s.d (addHess p.n (move p s).hq s.d (move p s).gopt)) (move p s).hq (move p s).pq
        (fun j => (move p s).xpt k j - s.xnew j) = (move p s).fval k - (move p s).fval s.knew
      rw [qval_recenter p.n p.npt (move p s).xpt (move p s).pq (move p s).gopt _ s.d (move p s).hq
        (fun i i1 i2 => by rw [addPoints_eq, addHess_eq _ _ _ _ _ i1 i2])]
      have a1 := i1 k k1 k2
      have a2 := i1 s.knew h.t1 h.t2
      unfold St.quad at a1 a2
      rw [show (fun i => (move p s).xpt k i - s.xnew i + s.d i) = fun i => (move p s).xpt k i - s.xopt i from funext fun i => by rw [h.hd i]; ring, a1,
        show s.d = fun i => (move p s).xpt s.knew i - s.xopt i from funext fun i => by rw [move_xpt, if_pos rfl, h.hd i]; ring, a2]
      ring
    · show s.xnew = (move p s).xpt s.knew
      rw [move_xpt, if_pos rfl]
    · show acc p.n (fun i => s.xnew i * s.xnew i) 0 = _
      rw [acc_eq, zero_add]
      rfl
  · rw [if_neg q]
    have ne := ne q
    refine ⟨hi, fun k k1 k2 => ?_, ?_, h.core.sq⟩
    · show (move p s).quad p (fun j => (move p s).xpt k j - s.xopt j) = (move p s).fval k - set1 s.fval s.knew s.f s.kopt
      rw [i1 k k1 k2, i2 ne]
      unfold set1
      rw [if_neg (Ne.symm ne)]
    · show s.xopt = (move p s).xpt s.kopt
      rw [move_xpt, if_neg (Ne.symm ne)]
      exact h.core.xo

/-! ### The least Frobenius norm interpolant -/

theorem frobenius_interp {p : Par K} {s : St K} (h : Core p s) (k1 : 1 ≤ s.kopt) (k2 : s.kopt ≤ p.npt) {k : Nat} (q1 : 1 ≤ k) (q2 : k ≤ p.npt) :
    qval p.n p.npt s.xpt (frobenius p s).2 (fun _ _ => 0) (frobenius p s).1 (fun j => s.xpt k j - s.xopt j) = s.fval k - s.fval s.kopt := by
  obtain ⟨c, hg⟩ := h.inv
  obtain ⟨v, hv⟩ : ∃ v : Nat → K, v = fun k => s.fval k - s.fval s.kopt := ⟨_, rfl⟩
  have pq : ∀ k, (frobenius p s).1 k = ∑ l ∈ Finset.Icc 1 p.npt, v l * omega p.nptm s.zmat k l := by
    intro k
    show acc p.nptm (fun j => acc p.npt (fun k => s.zmat k j * (s.fval k - s.fval s.kopt)) 0 * s.zmat k j) 0 = _
    rw [acc_eq, zero_add]
    simp only [acc_eq, zero_add, Finset.sum_mul]
    rw [Finset.sum_comm]
    refine Finset.sum_congr rfl fun l _ => ?_
    unfold Newuoa.omega
    rw [Finset.mul_sum, hv]
    exact Finset.sum_congr rfl fun j _ => by ring
  have g : ∀ i, (frobenius p s).2 i = ∑ l ∈ Finset.Icc 1 p.npt, s.bmat l i * v l + ∑ k ∈ Finset.Icc 1 p.npt, Powell.dot p.n (s.xpt k) s.xopt * (frobenius p s).1 k * s.xpt k i := by
    intro i
    show up p.npt (fun k t => t + s.bmat k i * (s.fval k - s.fval s.kopt) + s.xpt k i * ((frobenius p s).1 k * acc p.n (fun j => s.xpt k j * s.xopt j) 0)) 0 = _
    rw [up_congr (g := fun k t => t + (s.bmat k i * v k + Powell.dot p.n (s.xpt k) s.xopt * (frobenius p s).1 k * s.xpt k i)), up_sum, zero_add, Finset.sum_add_distrib]
    intro k _ _ t
    rw [acc_eq, zero_add, add_assoc, hv]
    show t + (_ + s.xpt k i * ((frobenius p s).1 k * Powell.dot p.n (s.xpt k) s.xopt)) = _
    ring
  rw [qval_recenter p.n p.npt s.xpt (frobenius p s).1 (fun i => ∑ l ∈ Finset.Icc 1 p.npt, s.bmat l i * v l) (frobenius p s).2 s.xopt (fun _ _ => 0)
    (fun i i1 i2 => by rw [Finset.sum_eq_zero (s := Finset.Icc 1 p.n) (fun j _ => zero_mul _), add_zero]; exact g i)]
  have lin : ∀ y, qval p.n p.npt s.xpt (fun i => ∑ l ∈ Finset.Icc 1 p.npt, s.bmat l i * v l) (fun _ _ => 0) (frobenius p s).1 y = ∑ l ∈ Finset.Icc 1 p.npt, v l * lfun p.nw s.nw l y := by
    intro y
    unfold Newuoa.qval
    have hh : hform p.n (fun _ _ => (0 : K)) y = 0 := by
      unfold Newuoa.hform
      exact Finset.sum_eq_zero fun j _ => Finset.sum_eq_zero fun i _ => by rw [mul_zero, zero_mul]
    have g : Powell.dot p.n (fun i => ∑ l ∈ Finset.Icc 1 p.npt, s.bmat l i * v l) y = ∑ l ∈ Finset.Icc 1 p.npt, v l * Powell.dot p.n (s.bmat l) y := by
      unfold Powell.dot
      simp only [Finset.sum_mul, Finset.mul_sum]
      rw [Finset.sum_comm]
      exact Finset.sum_congr rfl fun k _ => Finset.sum_congr rfl fun i _ => by ring
    have i1 : (∑ k ∈ Finset.Icc 1 p.npt, (frobenius p s).1 k * (Powell.dot p.n (s.xpt k) y * Powell.dot p.n (s.xpt k) y)) / 2
        = ∑ l ∈ Finset.Icc 1 p.npt, v l * ∑ k ∈ Finset.Icc 1 p.npt, omega p.nptm s.zmat k l * (Powell.dot p.n (s.xpt k) y * Powell.dot p.n (s.xpt k) y / 2) := by
      rw [Finset.sum_div]
      simp only [pq, Finset.sum_mul, Finset.mul_sum, Finset.sum_div]
      rw [Finset.sum_comm]
      exact Finset.sum_congr rfl fun l _ => Finset.sum_congr rfl fun k _ => by ring
    rw [hh, g, i1, add_zero, ← Finset.sum_add_distrib]
    refine Finset.sum_congr rfl fun l _ => ?_
    show _ = v l * (∑ k ∈ Finset.Icc 1 p.npt, omega p.nptm s.zmat k l * (Powell.dot p.n (s.xpt k) y * Powell.dot p.n (s.xpt k) y / 2) + Powell.dot p.n (s.bmat l) y)
    ring
  have one : ∀ k, 1 ≤ k → k ≤ p.npt → ∑ l ∈ Finset.Icc 1 p.npt, v l * lfun p.nw s.nw l (s.xpt k) = v k - ∑ l ∈ Finset.Icc 1 p.npt, v l * c l := by
    intro k k1 k2
    have : ∀ l ∈ Finset.Icc 1 p.npt, v l * lfun p.nw s.nw l (s.xpt k) = (if k = l then 1 else 0) * v l - v l * c l := by
      intro l hl
      rw [Finset.mem_Icc] at hl
      have := Newuoa.lfun_pt (p := p.nw) (s := s.nw) hg hl.1 hl.2 k1 k2
      rw [show lfun p.nw s.nw l (s.xpt k) = _ from this]; ring
    rw [Finset.sum_congr rfl this, Finset.sum_sub_distrib, sum_delta (Finset.mem_Icc.mpr ⟨k1, k2⟩)]
  rw [lin, lin, show (fun i => s.xpt k i - s.xopt i + s.xopt i) = s.xpt k from funext fun i => by ring, one k q1 q2, h.xo, one s.kopt k1 k2, hv]
  ring

theorem tryFrobenius_keep {p : Par K} {s : St K} (h : Core p s) (k1 : 1 ≤ s.kopt) (k2 : s.kopt ≤ p.npt) : Core p (tryFrobenius p s) := by
  have fr := fun k q1 q2 => frobenius_interp h k1 k2 (k := k) q1 q2
  unfold tryFrobenius
  dsimp only
  split_ifs
  · exact ⟨h.inv, fr, h.xo, h.sq⟩
  · exact h.same ⟨rfl, rfl, rfl, rfl, rfl, rfl, rfl⟩ ⟨rfl, rfl, rfl⟩
  · exact ⟨h.inv, fr, h.xo, h.sq⟩
  · exact h.same ⟨rfl, rfl, rfl, rfl, rfl, rfl, rfl⟩ ⟨rfl, rfl, rfl⟩
  · exact h

end
end Opk.Bobyqa
