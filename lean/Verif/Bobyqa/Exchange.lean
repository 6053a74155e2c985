import Verif.Bobyqa.Shift

/-!
# `update` of BOBYQA computes the inverse matrix of the new points, in exact arithmetic

The function sets to zero the elements of a row of `ZMAT` which are tiny with respect to the largest element: it is exact if these elements
are null.
-/
set_option linter.unusedSectionVars false
namespace Opk.Bobyqa
open Linalg CMath Cobyla Powell
open Newuoa (omega hform qval hform_congr omega_sym lit_half hcolumn betaOf lfun)

section
variable {K : Type} [Field K] [LinearOrder K] [IsStrictOrderedRing K] [CMath K] [ExactMath K]

/-- No element of the row `k` of `ZMAT`, except those of the first column, is at most `10^-20` times the largest element in absolute value, unless it is null. -/
def Spread (p : Par K) (z : Nat → Nat → K) (k : Nat) : Prop :=
  ∀ j, 2 ≤ j → j ≤ p.nptm → z k j ≠ 0 → ∀ a b, 1 ≤ a → a ≤ p.npt → 1 ≤ b → b ≤ p.nptm → |z a b| < 10 ^ 20 * |z k j|

theorem Spread.test {p : Par K} {z : Nat → Nat → K} {k : Nat} (h : Spread p z k) {j : Nat} (j1 : 2 ≤ j) (j2 : j ≤ p.nptm) (hz : z k j ≠ 0) :
    up p.npt (fun k t => up p.nptm (fun j t => cmax t (fabs (z k j))) t) 0 * lit 1 (10 ^ 20) < fabs (z k j) := by
  have pos : (0 : K) < 10 ^ 20 := by positivity
  have key : up p.npt (fun k t => up p.nptm (fun j t => cmax t (fabs (z k j))) t) 0 < 10 ^ 20 * |z k j| := by
    refine up_inv (fun _ t => t < 10 ^ 20 * |z k j|) p.npt (mul_pos pos (abs_pos.mpr hz)) fun a ha t ht => ?_
    refine up_inv (fun _ t => t < 10 ^ 20 * |z k j|) p.nptm ht fun b hb t ht => ?_
    rw [Newuoa.cmax_max, ExactMath.fabs_eq]
    exact max_lt ht (h j j1 j2 hz (a + 1) (b + 1) (by omega) (by omega) (by omega) (by omega))
  rw [ExactMath.fabs_eq, ExactMath.lit_eq]
  generalize up p.npt (fun k t => up p.nptm (fun j t => cmax t (fabs (z k j))) t) 0 = t at key
  push_cast
  rw [mul_one_div, div_lt_iff₀ (by norm_num)]
  linarith

/-- The rotations keep the matrix and put zeros in the row. -/
theorem rotate_spec (hsqrt : ∀ a : K, 0 ≤ a → 0 ≤ CMath.sqrt a ∧ CMath.sqrt a * CMath.sqrt a = a) {p : Par K} {knew : Nat} {z : Nat → Nat → K} (hk : Spread p z knew) :
    (∀ a b, omega p.nptm (rotate p knew z) a b = omega p.nptm z a b) ∧ (∀ j, 2 ≤ j → j ≤ p.nptm → rotate p knew z knew j = 0) := by
  have test := fun j (j1 : 2 ≤ j) (j2 : j ≤ p.nptm) (hz : z knew j ≠ 0) => hk.test j1 j2 hz
  have test0 : 0 ≤ up p.npt (fun k t => up p.nptm (fun j t => cmax t (fabs (z k j))) t) 0 * lit 1 (10 ^ 20) := by
    refine mul_nonneg ?_ (by rw [ExactMath.lit_eq]; positivity)
    refine up_inv (fun _ t => (0 : K) ≤ t) p.npt le_rfl fun a _ t ht => ?_
    refine up_inv (fun _ t => (0 : K) ≤ t) p.nptm ht fun b _ t ht => ?_
    rw [Newuoa.cmax_max]
    exact le_trans ht (le_max_left _ _)
  unfold rotate
  generalize up p.npt (fun k t => up p.nptm (fun j t => cmax t (fabs (z k j))) t) 0 * lit 1 (10 ^ 20) = T at test test0
  dsimp only
  have := up_inv (fun m (t : Nat → Nat → K) => (∀ a b, omega p.nptm t a b = omega p.nptm z a b) ∧ (∀ j, 2 ≤ j → j ≤ m + 1 → t knew j = 0) ∧ ∀ j, m + 1 < j → t knew j = z knew j) (p.nptm - 1)
    (body := fun l (y : Nat → Nat → K) => set2 (if fabs (y knew (l + 1)) > T then
        fun i c =>
          if c = l + 1 then y knew 1 / sqrt (y knew 1 * y knew 1 + y knew (l + 1) * y knew (l + 1)) * y i (l + 1) - y knew (l + 1) / sqrt (y knew 1 * y knew 1 + y knew (l + 1) * y knew (l + 1)) * y i 1
          else if c = 1 then y knew 1 / sqrt (y knew 1 * y knew 1 + y knew (l + 1) * y knew (l + 1)) * y i 1 + y knew (l + 1) / sqrt (y knew 1 * y knew 1 + y knew (l + 1) * y knew (l + 1)) * y i (l + 1)
          else y i c
      else y) knew (l + 1) 0) (s := z)
    ⟨fun _ _ => rfl, fun j j1 j2 => by omega, fun _ _ => rfl⟩ (by
      rintro m hm t ⟨q1, q2, q3⟩
      have e := q3 (m + 2) (by omega)
      have e' : t knew (m + 1 + 1) = z knew (m + 1 + 1) := e
      by_cases c : z knew (m + 1 + 1) = 0
      · have same : ∀ y : Nat → Nat → K, y = t → set2 y knew (m + 1 + 1) 0 = t := by
          rintro y rfl
          funext i j
          unfold set2
          by_cases w : i = knew ∧ j = m + 1 + 1
          · rw [if_pos w, w.1, w.2, e', c]
          · rw [if_neg w]
        have w : ¬ fabs (t knew (m + 1 + 1)) > T := by
          rw [e', c, ExactMath.fabs_eq, abs_zero]
          exact not_lt.mpr test0
        rw [if_neg w, same t rfl]
        refine ⟨q1, fun j j1 j2 => ?_, fun j hj => q3 j (by omega)⟩
        by_cases w : j = m + 1 + 1
        · rw [w, e', c]
        · exact q2 j j1 (by omega)
      · have tt := test (m + 1 + 1) (by omega) (by omega) c
        rw [← e'] at tt c
        rw [if_pos tt]
        have same : set2 (fun i c => if c = m + 1 + 1 then t knew 1 / sqrt (t knew 1 * t knew 1 + t knew (m + 1 + 1) * t knew (m + 1 + 1)) * t i (m + 1 + 1)
              - t knew (m + 1 + 1) / sqrt (t knew 1 * t knew 1 + t knew (m + 1 + 1) * t knew (m + 1 + 1)) * t i 1
            else if c = 1 then t knew 1 / sqrt (t knew 1 * t knew 1 + t knew (m + 1 + 1) * t knew (m + 1 + 1)) * t i 1
              + t knew (m + 1 + 1) / sqrt (t knew 1 * t knew 1 + t knew (m + 1 + 1) * t knew (m + 1 + 1)) * t i (m + 1 + 1) else t i c) knew (m + 1 + 1) 0
            = Newuoa.rotate knew 1 (m + 1 + 1) t := by
          funext i j
          unfold set2 Newuoa.rotate
          dsimp only
          by_cases w1 : j = m + 1 + 1
          · by_cases w2 : i = knew
            · rw [if_pos ⟨w2, w1⟩, if_pos w1, if_pos w2]
            · rw [if_neg (fun w => w2 w.1), if_pos w1, if_pos w1, if_neg w2]
          · rw [if_neg (fun w => w1 w.2), if_neg w1, if_neg w1]
        rw [same]
        refine ⟨fun a b => by rw [Newuoa.rotate_omega hsqrt (by omega) (by omega) t c, q1], fun j j1 j2 => ?_, fun j hj => ?_⟩
        · unfold Newuoa.rotate
          by_cases w : j = m + 1 + 1
          · rw [if_pos w, if_pos rfl]
          · rw [if_neg w, if_neg (by omega), q2 j j1 (by omega)]
        · unfold Newuoa.rotate
          rw [if_neg (by omega), if_neg (by omega), q3 j (by omega)])
  exact ⟨this.1, fun j j1 j2 => this.2.1 j j1 (by omega)⟩

/-- `update` computes the inverse matrix of the new points. -/
theorem update_good (hsqrt : ∀ a : K, 0 ≤ a → 0 ≤ CMath.sqrt a ∧ CMath.sqrt a * CMath.sqrt a = a) {p : Par K} (hm : 1 ≤ p.nptm) {s : St K}
    {c : Nat → K} (h : Good p.n p.npt s.xpt (omega p.nptm s.zmat) s.bmat c) {t : Nat} (t1 : 1 ≤ t) (t2 : t ≤ p.npt) (hk : Spread p s.zmat t) {x : Nat → K}
    (hv : ∀ i, 1 ≤ i → i ≤ p.npt + p.n → s.vlag i = hcolumn p.nw s.nw c x i) (hb : s.beta = betaOf p.nw s.nw c x) {si : K}
    (hsi : omega p.nptm s.zmat t t * s.beta + s.vlag t * s.vlag t = si) (hs : 0 < si) :
    ∃ c', Good p.n p.npt (fun a i => if a = t then x i else s.xpt a i) (omega p.nptm (update p s.bmat s.zmat s.vlag s.beta si t).2.1) (update p s.bmat s.zmat s.vlag s.beta si t).1 c' := by
  obtain ⟨r2, r3⟩ := rotate_spec hsqrt hk
  have z1 : (update p s.bmat s.zmat s.vlag s.beta si t).2.1 = fun i c => if c = 1 then s.vlag t / CMath.sqrt si * rotate p t s.zmat i 1
      - rotate p t s.zmat t 1 / CMath.sqrt si * set1 s.vlag t (s.vlag t - 1) i else rotate p t s.zmat i c := rfl
  have b0 : ∀ i j, (update p s.bmat s.zmat s.vlag s.beta si t).1 i j =
      (fun i j => s.bmat i j + ((fun i => if i ≤ p.npt then rotate p t s.zmat t 1 * rotate p t s.zmat i 1 else s.bmat t (i - p.npt)) t * set1 s.vlag t (s.vlag t - 1) (p.npt + j)
          - s.vlag t * (fun i => if i ≤ p.npt then rotate p t s.zmat t 1 * rotate p t s.zmat i 1 else s.bmat t (i - p.npt)) (p.npt + j)) / si * set1 s.vlag t (s.vlag t - 1) i
        + (-s.beta * (fun i => if i ≤ p.npt then rotate p t s.zmat t 1 * rotate p t s.zmat i 1 else s.bmat t (i - p.npt)) (p.npt + j)
          - s.vlag t * set1 s.vlag t (s.vlag t - 1) (p.npt + j)) / si * (fun i => if i ≤ p.npt then rotate p t s.zmat t 1 * rotate p t s.zmat i 1 else s.bmat t (i - p.npt)) i)
      (if i ≤ p.npt + j then i else p.npt + j) (if i ≤ p.npt + j then j else i - p.npt) := by
    intro i j
    by_cases q : i ≤ p.npt + j
    · rw [if_pos q, if_pos q]
      exact if_pos q
    · rw [if_neg q, if_neg q]
      exact if_neg q
  generalize rotate p t s.zmat = y at *
  have om1 : ∀ i, omega p.nptm s.zmat i t = y i 1 * y t 1 := by
    intro i
    rw [← r2]
    unfold Newuoa.omega
    rw [Finset.sum_eq_single 1]
    · intro b hb hb1
      rw [Finset.mem_Icc] at hb
      rw [r3 b (by omega) hb.2, mul_zero]
    · intro q; exact absurd (Finset.mem_Icc.mpr ⟨le_refl _, hm⟩) q
  have al : y t 1 * y t 1 = omega p.nptm s.zmat t t := (om1 t).symm
  obtain ⟨q1, q2⟩ := hsqrt si hs.le
  have ha : ∀ i, 1 ≤ i → i ≤ p.npt + p.n → -set1 s.vlag t (s.vlag t - 1) i = (if t = i then 1 else 0) - s.vlag i := by
    intro i _ _
    unfold set1
    by_cases q : i = t
    · rw [if_pos q, if_pos q.symm, q]; ring
    · rw [if_neg q, if_neg (Ne.symm q)]; ring
  generalize hvl : set1 s.vlag t (s.vlag t - 1) = vl at *
  generalize (update p s.bmat s.zmat s.vlag s.beta si t).1 = bm at *
  have b1 : ∀ i j, 1 ≤ i → i ≤ p.npt → bm i j = s.bmat i j + (y t 1 * y t 1 * vl (p.npt + j) - s.vlag t * s.bmat t j) / si * vl i
      + (-s.beta * s.bmat t j - s.vlag t * vl (p.npt + j)) / si * (y t 1 * y i 1) ∨ j = 0 := by
    intro i j i1 i2
    by_cases j0 : j = 0
    · exact Or.inr j0
    refine Or.inl ?_
    rw [b0, if_pos (by omega), if_pos (by omega)]
    dsimp only
    rw [if_pos t2, if_neg (by omega), Nat.add_sub_cancel_left, if_pos i2]
  have low : ∀ i j, 1 ≤ i → i ≤ j → j ≤ p.n →
      bm (p.npt + i) j = s.bmat (p.npt + i) j + (omega p.nptm s.zmat t t * (-vl (p.npt + i) * -vl (p.npt + j)) - s.beta * (s.bmat t i * s.bmat t j)
        + s.vlag t * (s.bmat t i * -vl (p.npt + j) + -vl (p.npt + i) * s.bmat t j)) / si ∧ bm (p.npt + j) i = bm (p.npt + i) j := by
    intro i j i1 ij j2
    have e : bm (p.npt + i) j = s.bmat (p.npt + i) j + (omega p.nptm s.zmat t t * (-vl (p.npt + i) * -vl (p.npt + j)) - s.beta * (s.bmat t i * s.bmat t j)
        + s.vlag t * (s.bmat t i * -vl (p.npt + j) + -vl (p.npt + i) * s.bmat t j)) / si := by
      rw [b0, if_pos (by omega), if_pos (by omega), ← al]
      dsimp only
      rw [if_pos t2, if_neg (by omega), if_neg (by omega), Nat.add_sub_cancel_left, Nat.add_sub_cancel_left]
      ring
    refine ⟨e, ?_⟩
    by_cases q : i = j
    · rw [q]
    · rw [b0 (p.npt + j) i, b0 (p.npt + i) j, if_neg (by omega), if_neg (by omega), if_pos (by omega), if_pos (by omega), Nat.add_sub_cancel_left]
  rw [z1]
  refine Good.update h t1 t2 (x := x) (v := fun i => if i = 0 then ∑ k ∈ Idx p.n p.npt, Hm p.npt c (omega p.nptm s.zmat) s.bmat 0 k * col p.n p.npt s.xpt x k else s.vlag i)
    ?_ (al := omega p.nptm s.zmat t t) (be := s.beta) (ta := s.vlag t) (si := si) ?_ ?_ rfl hsi.symm hs.ne' (a := fun i => -vl i) ?_ ?_ ?_ ?_ ?_ ?_
  · intro i hi
    rw [Idx, Finset.mem_range] at hi
    by_cases q : i = 0
    · rw [if_pos q, q]
    · rw [if_neg q]; exact hv i (by omega) (by omega)
  · rw [hb]
    unfold Newuoa.betaOf
    show _ - ∑ i ∈ Idx p.n p.npt, _ = _
    congr 1
    refine Finset.sum_congr rfl fun i hi => ?_
    rw [Idx, Finset.mem_range] at hi
    by_cases q : i = 0
    · rw [if_pos q, q]; rfl
    · rw [if_neg q, hv i (by omega) (by omega)]; rfl
  · rw [if_neg (by omega)]
  · intro k
    by_cases q : k = t
    · rw [if_pos q]; funext i; rw [if_pos q]
    · rw [if_neg q]; funext i; rw [if_neg q]
  · intro i i1 i2
    rw [if_neg (show ¬(i = 0) by omega)]
    exact ha i i1 i2
  · exact omega_sym _ _
  · intro i j i1 i2 j1 j2
    rw [om1 i, om1 j, ← r2 i j]
    unfold Newuoa.omega
    have m1 : 1 ∈ Finset.Icc 1 p.nptm := Finset.mem_Icc.mpr ⟨le_refl _, hm⟩
    rw [← Finset.add_sum_erase _ _ m1, ← Finset.add_sum_erase _ (fun k => y i k * y j k) m1]
    dsimp only
    rw [if_pos rfl, if_pos rfl, Finset.sum_congr rfl (fun k hk => by rw [if_neg (Finset.ne_of_mem_erase hk), if_neg (Finset.ne_of_mem_erase hk)])]
    generalize ∑ k ∈ (Finset.Icc 1 p.nptm).erase 1, y i k * y j k = rest
    have e : ∑ k ∈ Finset.Icc 1 p.nptm, s.zmat t k * s.zmat t k = y t 1 * y t 1 := al.symm
    rw [e]
    have hsi' : y t 1 * y t 1 * s.beta + s.vlag t * s.vlag t = si := by rw [← hsi, al]
    have d1 : ∀ a b : K, a / CMath.sqrt si * (b / CMath.sqrt si) = a * b / si := by
      intro a b; rw [div_mul_div_comm, q2]
    have one : (y t 1 * y t 1 * s.beta + s.vlag t * s.vlag t) / si = 1 := by rw [hsi', div_self hs.ne']
    have ex : (s.vlag t / CMath.sqrt si * y i 1 - y t 1 / CMath.sqrt si * vl i) * (s.vlag t / CMath.sqrt si * y j 1 - y t 1 / CMath.sqrt si * vl j)
        = (s.vlag t / CMath.sqrt si * (s.vlag t / CMath.sqrt si)) * (y i 1 * y j 1) - (s.vlag t / CMath.sqrt si * (y t 1 / CMath.sqrt si)) * (y i 1 * vl j + vl i * y j 1)
          + (y t 1 / CMath.sqrt si * (y t 1 / CMath.sqrt si)) * (vl i * vl j) := by ring
    rw [ex, d1, d1, d1]
    linear_combination (y i 1 * y j 1) * one
  · intro i j i1 i2 j1 j2
    rw [(b1 i j i1 i2).resolve_right (by omega), om1 i, ← al]
    ring
  · intro i j i1 i2 j1 j2
    by_cases q : i ≤ j
    · exact (low i j i1 q j2).1
    · obtain ⟨e1, e2⟩ := low j i j1 (by omega) i2
      rw [e2, e1, h.bsym j i j1 j2 i1 i2]
      ring

end
end Opk.Bobyqa
