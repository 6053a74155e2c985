import Verif.Newuoa.Interp

/-!
# The interpolation conditions of NEWUOA are kept by the changes of the model, in exact arithmetic
-/
namespace Opk.Newuoa
open Linalg CMath Cobyla Powell

set_option linter.unusedSectionVars false

variable {K : Type} [Field K] [LinearOrder K] [IsStrictOrderedRing K] [CMath K] [ExactMath K]

/-- The model takes the values `FVAL` at the points, up to a constant. -/
def Interp (p : Par K) (s : St K) : Prop :=
  ∀ k l, 1 ≤ k → k ≤ p.npt → 1 ≤ l → l ≤ p.npt → s.quad p (s.xpt k) - s.quad p (s.xpt l) = s.fval k - s.fval l

/-- The arrays `BMAT` and `ZMAT` hold the inverse matrix. -/
def Inverse (p : Par K) (s : St K) : Prop := ∃ c, Good p.n p.npt s.xpt (omega p.nptm s.zmat) s.bmat c

/-- A Lagrange function without its constant. -/
def lfun (p : Par K) (s : St K) (t : Nat) (y : Nat → K) : K :=
  ∑ k ∈ Finset.Icc 1 p.npt, omega p.nptm s.zmat k t * (dot p.n (s.xpt k) y * dot p.n (s.xpt k) y / 2) + dot p.n (s.bmat t) y

theorem lfun_pt {p : Par K} {s : St K} {c : Nat → K} (h : Good p.n p.npt s.xpt (omega p.nptm s.zmat) s.bmat c) {t i : Nat} (t1 : 1 ≤ t) (t2 : t ≤ p.npt)
    (i1 : 1 ≤ i) (i2 : i ≤ p.npt) : lfun p s t (s.xpt i) = (if i = t then 1 else 0) - c t := by
  have := h.lagrange t1 t2 i1 i2
  unfold lfun
  linear_combination this

/-- The value of a Lagrange function. -/
theorem hcolumn_lfun (p : Par K) (s : St K) (c : Nat → K) {t : Nat} (t1 : 1 ≤ t) (t2 : t ≤ p.npt) (y : Nat → K) : hcolumn p s c y t = c t + lfun p s t y := by
  unfold hcolumn lfun
  rw [sum_idx, col_zero, mul_one]
  have e1 : ∑ k ∈ Finset.Icc 1 p.npt, Hm p.npt c (omega p.nptm s.zmat) s.bmat t k * col p.n p.npt s.xpt y k
      = ∑ k ∈ Finset.Icc 1 p.npt, omega p.nptm s.zmat k t * (dot p.n (s.xpt k) y * dot p.n (s.xpt k) y / 2) := by
    refine Finset.sum_congr rfl fun k hk => ?_
    rw [Finset.mem_Icc] at hk
    rw [Hm_pp t1 t2 hk.1 hk.2, Powell.col_pt hk.1 hk.2, omega_sym]
  have e2 : ∑ j ∈ Finset.Icc 1 p.n, Hm p.npt c (omega p.nptm s.zmat) s.bmat t (p.npt + j) * col p.n p.npt s.xpt y (p.npt + j) = dot p.n (s.bmat t) y := by
    refine Finset.sum_congr rfl fun j hj => ?_
    rw [Finset.mem_Icc] at hj
    rw [Hm_pg t1 t2 hj.1, col_grad hj.1]
  rw [e1, e2, show Hm p.npt c (omega p.nptm s.zmat) s.bmat t 0 = c t by unfold Hm; rw [if_neg (by omega), if_pos rfl], add_assoc]

/-! ### A point is moved -/

theorem move_xpt (p : Par K) (o : Subs K) (s : St K) (k : Nat) : (move p o s).xpt k = if k = s.knew.toNat then s.xnew else s.xpt k := by
  funext i
  show (if k = s.knew.toNat then s.xnew i else s.xpt k i) = _
  split_ifs <;> rfl

theorem move_pq (p : Par K) (o : Subs K) (s : St K) (hid : (move p o s).idz = 1) (a : Nat) :
    (move p o s).pq a = set1 s.pq s.knew.toNat 0 a + s.diff * omega p.nptm (move p o s).zmat a s.knew.toNat := by
  show up p.nptm (fun j q => fun a => q a + signed (move p o s).idz j (s.diff * (move p o s).zmat s.knew.toNat j) * (move p o s).zmat a j) (set1 s.pq s.knew.toNat 0) a = _
  unfold omega
  generalize (move p o s).zmat = z
  rw [hid, Finset.mul_sum]
  refine up_inv (fun m (q : Nat → K) => q a = set1 s.pq s.knew.toNat 0 a + ∑ k ∈ Finset.Icc 1 m, s.diff * (z a k * z s.knew.toNat k)) p.nptm (by simp) ?_
  intro m hm q hq
  rw [hq, Finset.sum_Icc_succ_top (by omega)]
  unfold signed
  rw [if_neg (by omega)]
  ring

/-- The model after the move of a point. -/
theorem move_quad (p : Par K) (o : Subs K) (s : St K) (hid : (move p o s).idz = 1) {t : Nat} (ht : s.knew.toNat = t) (t1 : 1 ≤ t) (t2 : t ≤ p.npt) (y : Nat → K) :
    (move p o s).quad p y = s.quad p y + s.diff * lfun p (move p o s) t y := by
  unfold St.quad qval lfun
  have g : dot p.n (move p o s).gq y = dot p.n s.gq y + s.diff * dot p.n ((move p o s).bmat t) y := by
    unfold Powell.dot
    rw [Finset.mul_sum, ← Finset.sum_add_distrib]
    refine Finset.sum_congr rfl fun i _ => ?_
    show (s.gq i + s.diff * (move p o s).bmat s.knew.toNat i) * y i = _
    rw [ht]; ring
  have hh : hform p.n (move p o s).hq y = hform p.n s.hq y + s.pq t * (dot p.n (s.xpt t) y * dot p.n (s.xpt t) y) / 2 := by
    have e := hform_outer p.n s.hq (fun i => s.pq t / 2 * s.xpt t i) (s.xpt t) y
    have e1 : dot p.n (fun i => s.pq t / 2 * s.xpt t i) y = s.pq t / 2 * dot p.n (s.xpt t) y := by
      unfold Powell.dot
      rw [Finset.mul_sum]
      exact Finset.sum_congr rfl fun i _ => by ring
    rw [show s.pq t * (dot p.n (s.xpt t) y * dot p.n (s.xpt t) y) / 2 = dot p.n (fun i => s.pq t / 2 * s.xpt t i) y * dot p.n (s.xpt t) y by rw [e1]; ring, ← e]
    refine hform_congr (fun i j i1 ij _ => ?_) (fun _ _ _ => rfl)
    show (if i ≤ j then s.hq i j + s.pq s.knew.toNat * s.xpt s.knew.toNat j * s.xpt s.knew.toNat i else s.hq i j) = _
    rw [if_pos ij, ht]
    ring
  have mt : t ∈ Finset.Icc 1 p.npt := Finset.mem_Icc.mpr ⟨t1, t2⟩
  have i1 : ∑ k ∈ Finset.Icc 1 p.npt, (move p o s).pq k * (dot p.n ((move p o s).xpt k) y * dot p.n ((move p o s).xpt k) y)
      = ∑ k ∈ Finset.Icc 1 p.npt, s.pq k * (dot p.n (s.xpt k) y * dot p.n (s.xpt k) y) - s.pq t * (dot p.n (s.xpt t) y * dot p.n (s.xpt t) y)
      + 2 * s.diff * ∑ k ∈ Finset.Icc 1 p.npt, omega p.nptm (move p o s).zmat k t * (dot p.n ((move p o s).xpt k) y * dot p.n ((move p o s).xpt k) y / 2) := by
    have e1 : ∑ k ∈ Finset.Icc 1 p.npt, (move p o s).pq k * (dot p.n ((move p o s).xpt k) y * dot p.n ((move p o s).xpt k) y)
        = ∑ k ∈ Finset.Icc 1 p.npt, set1 s.pq t 0 k * (dot p.n ((move p o s).xpt k) y * dot p.n ((move p o s).xpt k) y)
        + 2 * s.diff * ∑ k ∈ Finset.Icc 1 p.npt, omega p.nptm (move p o s).zmat k t * (dot p.n ((move p o s).xpt k) y * dot p.n ((move p o s).xpt k) y / 2) := by
      rw [Finset.mul_sum, ← Finset.sum_add_distrib]
      refine Finset.sum_congr rfl fun k _ => ?_
      rw [move_pq p o s hid, ht]
      ring
    rw [e1]
    congr 1
    rw [← Finset.add_sum_erase _ _ mt, ← Finset.add_sum_erase _ (fun k => s.pq k * (dot p.n (s.xpt k) y * dot p.n (s.xpt k) y)) mt,
      show set1 s.pq t 0 t = 0 from if_pos rfl, zero_mul, zero_add, add_sub_cancel_left]
    refine Finset.sum_congr rfl fun k hk => ?_
    have q := Finset.ne_of_mem_erase hk
    rw [show set1 s.pq t 0 k = s.pq k from if_neg q, move_xpt, if_neg (by rw [ht]; exact q)]
  rw [g, hh, i1]
  ring

/-- The interpolation conditions after the move of a point. -/
theorem move_interp (p : Par K) (o : Subs K) (s : St K) (hid : (move p o s).idz = 1) {t : Nat} (ht : s.knew.toNat = t) (t1 : 1 ≤ t) (t2 : t ≤ p.npt)
    (h : Interp p s) (hg : Inverse p (move p o s)) {b : Nat} (b1 : 1 ≤ b) (b2 : b ≤ p.npt)
    (hd : s.diff = s.f - s.fval b - (s.quad p s.xnew - s.quad p (s.xpt b))) : Interp p (move p o s) := by
  obtain ⟨c, hg⟩ := hg
  have one : ∀ k, 1 ≤ k → k ≤ p.npt → (move p o s).quad p ((move p o s).xpt k) + s.diff * c t - s.quad p (s.xpt b) = (move p o s).fval k - s.fval b := by
    intro k k1 k2
    rw [move_quad p o s hid ht t1 t2, lfun_pt hg t1 t2 k1 k2, move_xpt]
    show _ = set1 s.fval s.knew.toNat s.f k - _
    unfold set1
    rw [ht]
    by_cases q : k = t
    · rw [if_pos q, if_pos q, if_pos q]
      rw [mul_sub, mul_one]
      linear_combination hd
    · rw [if_neg q, if_neg q, if_neg q]
      have := h k b k1 k2 b1 b2
      linear_combination this
  intro k l k1 k2 l1 l2
  linear_combination one k k1 k2 - one l l1 l2

/-! ### The least Frobenius norm interpolant -/

theorem frobenius_quad (p : Par K) (s : St K) (hid : s.idz = 1) (v : Nat → K) (y : Nat → K) :
    (frobenius p s v (fun i => acc p.npt (fun k => s.bmat k i * v k) 0)).quad p y = ∑ l ∈ Finset.Icc 1 p.npt, v l * lfun p s l y := by
  unfold St.quad qval lfun
  have g : dot p.n (frobenius p s v (fun i => acc p.npt (fun k => s.bmat k i * v k) 0)).gq y = ∑ l ∈ Finset.Icc 1 p.npt, v l * dot p.n (s.bmat l) y := by
    show dot p.n (fun i => acc p.npt (fun k => s.bmat k i * v k) 0) y = _
    unfold Powell.dot
    simp only [acc_zero, Finset.sum_mul, Finset.mul_sum]
    rw [Finset.sum_comm]
    exact Finset.sum_congr rfl fun k _ => Finset.sum_congr rfl fun i _ => by ring
  have hh : hform p.n (frobenius p s v (fun i => acc p.npt (fun k => s.bmat k i * v k) 0)).hq y = 0 := by
    show hform p.n (fun _ _ => (0 : K)) y = 0
    unfold hform
    exact Finset.sum_eq_zero fun j _ => Finset.sum_eq_zero fun i _ => by rw [mul_zero, zero_mul]
  have pq : ∀ k, (frobenius p s v (fun i => acc p.npt (fun k => s.bmat k i * v k) 0)).pq k = ∑ l ∈ Finset.Icc 1 p.npt, v l * omega p.nptm s.zmat k l := by
    intro k
    show acc p.nptm (fun j => s.zmat k j * signed s.idz j (acc p.npt (fun k => v k * s.zmat k j) 0)) 0 = _
    rw [acc_zero]
    have : ∀ j ∈ Finset.Icc 1 p.nptm, s.zmat k j * signed s.idz j (acc p.npt (fun k => v k * s.zmat k j) 0) = ∑ l ∈ Finset.Icc 1 p.npt, v l * (s.zmat k j * s.zmat l j) := by
      intro j hj
      rw [Finset.mem_Icc] at hj
      unfold signed
      rw [if_neg (by omega), acc_zero, Finset.mul_sum]
      exact Finset.sum_congr rfl fun l _ => by ring
    rw [Finset.sum_congr rfl this, Finset.sum_comm]
    refine Finset.sum_congr rfl fun l _ => ?_
    unfold omega
    rw [Finset.mul_sum]
  have i1 : (∑ k ∈ Finset.Icc 1 p.npt, (frobenius p s v (fun i => acc p.npt (fun k => s.bmat k i * v k) 0)).pq k * (dot p.n (s.xpt k) y * dot p.n (s.xpt k) y)) / 2
      = ∑ l ∈ Finset.Icc 1 p.npt, v l * ∑ k ∈ Finset.Icc 1 p.npt, omega p.nptm s.zmat k l * (dot p.n (s.xpt k) y * dot p.n (s.xpt k) y / 2) := by
    rw [Finset.sum_div]
    simp only [pq, Finset.sum_mul, Finset.mul_sum, Finset.sum_div]
    rw [Finset.sum_comm]
    exact Finset.sum_congr rfl fun l _ => Finset.sum_congr rfl fun k _ => by ring
  rw [g, hh, add_zero]
  show _ + (∑ k ∈ Finset.Icc 1 p.npt, (frobenius p s v (fun i => acc p.npt (fun k => s.bmat k i * v k) 0)).pq k * (dot p.n (s.xpt k) y * dot p.n (s.xpt k) y)) / 2 = _
  rw [i1, ← Finset.sum_add_distrib]
  exact Finset.sum_congr rfl fun l _ => by ring

/-- The interpolation conditions of the least Frobenius norm interpolant. -/
theorem frobenius_interp (p : Par K) (s : St K) (hid : s.idz = 1) (h : Inverse p s) (v : Nat → K) {b : K} (hv : ∀ k, 1 ≤ k → k ≤ p.npt → v k = s.fval k - b) :
    Interp p (frobenius p s v (fun i => acc p.npt (fun k => s.bmat k i * v k) 0)) := by
  obtain ⟨c, h⟩ := h
  have one : ∀ k, 1 ≤ k → k ≤ p.npt → (frobenius p s v (fun i => acc p.npt (fun k => s.bmat k i * v k) 0)).quad p (s.xpt k) = v k - ∑ l ∈ Finset.Icc 1 p.npt, v l * c l := by
    intro k k1 k2
    rw [frobenius_quad p s hid]
    have : ∀ l ∈ Finset.Icc 1 p.npt, v l * lfun p s l (s.xpt k) = (if k = l then 1 else 0) * v l - v l * c l := by
      intro l hl
      rw [Finset.mem_Icc] at hl
      rw [lfun_pt h hl.1 hl.2 k1 k2]; ring
    rw [Finset.sum_congr rfl this, Finset.sum_sub_distrib, sum_delta (Finset.mem_Icc.mpr ⟨k1, k2⟩)]
  intro k l k1 k2 l1 l2
  show (frobenius p s v (fun i => acc p.npt (fun k => s.bmat k i * v k) 0)).quad p (s.xpt k) - (frobenius p s v (fun i => acc p.npt (fun k => s.bmat k i * v k) 0)).quad p (s.xpt l)
    = s.fval k - s.fval l
  rw [one k k1 k2, one l l1 l2, hv k k1 k2, hv l l1 l2]
  ring

/-- The parts of the state on which the conditions depend are not changed. -/
theorem Interp.same {p : Par K} {s t : St K} (h : Interp p s)
    (e : t.xpt = s.xpt ∧ t.fval = s.fval ∧ t.gq = s.gq ∧ t.hq = s.hq ∧ t.pq = s.pq) : Interp p t := by
  obtain ⟨e1, e2, e3, e4, e5⟩ := e
  intro k l k1 k2 l1 l2
  have := h k l k1 k2 l1 l2
  unfold St.quad at this ⊢
  rw [e1, e2, e3, e4, e5]
  exact this

theorem Inverse.same {p : Par K} {s t : St K} (h : Inverse p s) (e : t.xpt = s.xpt ∧ t.zmat = s.zmat ∧ t.bmat = s.bmat) : Inverse p t := by
  obtain ⟨e1, e2, e3⟩ := e
  unfold Inverse
  rw [e1, e2, e3]
  exact h

theorem tryFrobenius_interp {p : Par K} {s : St K} (hid : s.idz = 1) (h : Inverse p s) (hi : Interp p s) :
    Interp p (tryFrobenius p s) ∧ Inverse p (tryFrobenius p s) ∧ (tryFrobenius p s).idz = 1 := by
  unfold tryFrobenius
  dsimp only
  split_ifs
  · exact ⟨hi.same ⟨rfl, rfl, rfl, rfl, rfl⟩, h.same ⟨rfl, rfl, rfl⟩, hid⟩
  · exact ⟨frobenius_interp p s hid h _ (b := s.fval s.kopt) fun k k1 k2 => if_pos ⟨k1, k2⟩, h.same ⟨rfl, rfl, rfl⟩, hid⟩
  · exact ⟨hi.same ⟨rfl, rfl, rfl, rfl, rfl⟩, h.same ⟨rfl, rfl, rfl⟩, hid⟩
  · exact ⟨frobenius_interp p s hid h _ (b := s.fval s.kopt) fun k k1 k2 => if_pos ⟨k1, k2⟩, h.same ⟨rfl, rfl, rfl⟩, hid⟩
  · exact ⟨hi.same ⟨rfl, rfl, rfl, rfl, rfl⟩, h.same ⟨rfl, rfl, rfl⟩, hid⟩
  · exact ⟨hi, h, hid⟩

/-- The shift keeps the interpolation conditions. -/
theorem shift_interp (p : Par K) (s : St K) (h : Interp p s) : Interp p (shift p s) := by
  have e : ∀ k, 1 ≤ k → k ≤ p.npt → (shift p s).quad p ((shift p s).xpt k) = s.quad p (s.xpt k) - s.quad p s.xopt := by
    intro k k1 k2
    rw [shift_quad]
    congr 1
    refine qval_congr (fun _ _ _ _ _ _ => rfl) fun i i1 i2 => ?_
    rw [shift_xpt p s k i k1 k2]; ring
  intro k l k1 k2 l1 l2
  rw [e k k1 k2, e l l1 l2]
  have := h k l k1 k2 l1 l2
  show _ = s.fval k - s.fval l
  linear_combination this

end Opk.Newuoa
