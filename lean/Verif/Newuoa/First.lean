import Verif.Newuoa.Moves
import Verif.Powell.First

/-!
# The first points and the first model of NEWUOA, in exact arithmetic
-/
namespace Opk.Newuoa
open Linalg CMath Cobyla Powell

set_option linter.unusedSectionVars false

variable {K : Type} [Field K] [LinearOrder K] [IsStrictOrderedRing K] [CMath K] [ExactMath K]

/-- The sizes and the radii are valid. -/
structure Valid (p : Par K) : Prop where
  n1 : 1 ≤ p.n
  lo : p.n + 2 ≤ p.npt
  hi : 2 * p.npt ≤ (p.n + 1) * (p.n + 2)
  rend : 0 < p.rhoend
  rbeg : p.rhoend ≤ p.rhobeg

theorem Valid.r {p : Par K} (h : Valid p) : 0 < p.rhobeg := lt_of_lt_of_le h.rend h.rbeg

theorem Valid.nptm {p : Par K} (h : Valid p) : p.npt = p.nptm + p.n + 1 := by
  have := h.lo
  unfold Par.nptm Par.np
  omega

/-! ### The pairs of indices -/

theorem pair_data {p : Par K} (hp : Valid p) {nf : Nat} (h1 : 2 * p.n + 1 < nf) (h2 : nf ≤ p.npt) :
    ∃ t j, nf = (t + 1) * p.n + j + 1 ∧ 1 ≤ t ∧ 1 ≤ j ∧ j ≤ p.n ∧ 2 * t ≤ p.n ∧ (2 * t = p.n → 2 * j ≤ p.n) ∧
      pair p nf = if j + t > p.n then (j, j + t - p.n) else (j + t, j) := by
  have n1 := hp.n1
  have hi := hp.hi
  have dm := Nat.div_add_mod (nf - 1 - p.n - 1) p.n
  have ml := Nat.mod_lt (nf - 1 - p.n - 1) (show 0 < p.n by omega)
  have hpair : pair p nf = (if (nf - 1 - (nf - 1 - p.n - 1) / p.n * p.n - p.n) + (nf - 1 - p.n - 1) / p.n > p.n
      then (nf - 1 - (nf - 1 - p.n - 1) / p.n * p.n - p.n, (nf - 1 - (nf - 1 - p.n - 1) / p.n * p.n - p.n) + (nf - 1 - p.n - 1) / p.n - p.n)
      else ((nf - 1 - (nf - 1 - p.n - 1) / p.n * p.n - p.n) + (nf - 1 - p.n - 1) / p.n, nf - 1 - (nf - 1 - p.n - 1) / p.n * p.n - p.n)) := rfl
  generalize ht : (nf - 1 - p.n - 1) / p.n = t at dm hpair
  generalize (nf - 1 - p.n - 1) % p.n = m at dm ml
  rw [mul_comm] at dm
  have e1 : (t + 1) * p.n = t * p.n + p.n := by ring
  have hj : nf - 1 - t * p.n - p.n = m + 1 := by omega
  have hnf : nf = (t + 1) * p.n + (m + 1) + 1 := by omega
  have t1 : 1 ≤ t := by
    rcases Nat.eq_zero_or_pos t with c | c
    · rw [c, Nat.zero_mul] at dm; omega
    · exact c
  have t2 : 2 * t ≤ p.n := by
    by_contra c
    have : (p.n + 1) * p.n ≤ 2 * t * p.n := Nat.mul_le_mul_right _ (by omega)
    nlinarith
  refine ⟨t, m + 1, hnf, t1, by omega, by omega, t2, ?_, ?_⟩
  · intro c
    have : 2 * t * p.n = p.n * p.n := by rw [c]
    nlinarith
  · rw [hpair, hj]

/-- The indices of two different coordinates. -/
theorem pair_spec {p : Par K} (hp : Valid p) {nf : Nat} (h1 : 2 * p.n + 1 < nf) (h2 : nf ≤ p.npt) :
    1 ≤ (pair p nf).2 ∧ (pair p nf).2 < (pair p nf).1 ∧ (pair p nf).1 ≤ p.n := by
  obtain ⟨t, j, -, t1, j1, j2, t2, -, e⟩ := pair_data hp h1 h2
  have n1 := hp.n1
  rw [e]
  split_ifs with c
  · exact ⟨by dsimp only; omega, by dsimp only; omega, by dsimp only; omega⟩
  · exact ⟨by dsimp only; omega, by dsimp only; omega, by dsimp only; omega⟩

/-- Two points do not have the same indices. -/
theorem pair_inj {p : Par K} (hp : Valid p) {a b : Nat} (a1 : 2 * p.n + 1 < a) (a2 : a ≤ p.npt) (b1 : 2 * p.n + 1 < b) (b2 : b ≤ p.npt)
    (h : pair p a = pair p b) : a = b := by
  obtain ⟨t, j, ea, t1, j1, j2, t2, t3, e⟩ := pair_data hp a1 a2
  obtain ⟨t', j', eb, t1', j1', j2', t2', t3', e'⟩ := pair_data hp b1 b2
  rw [e, e'] at h
  have : t = t' ∧ j = j' := by
    split_ifs at h with c c' c'
    all_goals
      obtain ⟨h1, h2⟩ := Prod.mk.inj h
      omega
  rw [ea, eb, this.1, this.2]

/-! ### The arrays after some of the first points -/

/-- The index of the point on the axis `i` which is used with other axes. -/
def side (p : Par K) (fv : Nat → K) (i : Nat) : Nat := if fv (i + p.np) < fv (i + 1) then i + 1 + p.n else i + 1

/-- The first points, when `m` of them are set. -/
structure PtsI (p : Par K) (m : Nat) (fv : Nat → K) (x : Nat → Nat → K) : Prop where
  p0 : ∀ k j, m < k → x k j = 0
  p1 : ∀ j, x 1 j = 0
  p2 : ∀ l j, 1 ≤ l → l ≤ p.n → 1 + l ≤ m → x (1 + l) j = p.rhobeg * del j l
  p3 : ∀ l j, 1 ≤ l → l ≤ p.n → 1 + p.n + l ≤ m → x (1 + p.n + l) j = -p.rhobeg * del j l
  p4 : ∀ l j, p.n < l → 1 + p.n + l ≤ m → x (1 + p.n + l) j = x (side p fv (pair p (1 + p.n + l)).1) j + x (side p fv (pair p (1 + p.n + l)).2) j

/-- `ZMAT` after `m` points. -/
structure ZI (p : Par K) (m : Nat) (fv : Nat → K) (z : Nat → Nat → K) : Prop where
  z0 : ∀ k l, 1 ≤ l → m < 1 + p.n + l → z k l = 0
  z1 : ∀ k l, 1 ≤ l → l ≤ p.n → 1 + p.n + l ≤ m → z k l = sqrt (lit 1 2) / (p.rhobeg * p.rhobeg) * (del k (1 + l) + del k (1 + p.n + l) - 2 * del k 1)
  z2 : ∀ k l, p.n < l → 1 + p.n + l ≤ m → z k l = 1 / (p.rhobeg * p.rhobeg) *
    (del k 1 + del k (1 + p.n + l) - del k (side p fv (pair p (1 + p.n + l)).1) - del k (side p fv (pair p (1 + p.n + l)).2))

/-- `BMAT` after `m` points. -/
structure BI (p : Par K) (m : Nat) (b : Nat → Nat → K) : Prop where
  b0 : ∀ k l, 1 ≤ l → l ≤ p.n → l ≤ p.nptm → m < 1 + p.n + l → b k l = 0
  b0' : ∀ k l, 1 ≤ l → l ≤ p.n → p.nptm < l → m < 1 + l → b k l = 0
  b1 : ∀ k l, 1 ≤ l → l ≤ p.n → l ≤ p.nptm → 1 + p.n + l ≤ m → b k l = 1 / (2 * p.rhobeg) * (del k (1 + l) - del k (1 + p.n + l))
  b2 : ∀ k l, 1 ≤ l → l ≤ p.n → p.nptm < l → 1 + l ≤ m →
    b k l = 1 / p.rhobeg * (del k (1 + l) - del k 1) - p.rhobeg * p.rhobeg / 2 * del k (p.npt + l)

/-- The model after `m` points. -/
structure QI (p : Par K) (m : Nat) (fv g : Nat → K) (h : Nat → Nat → K) : Prop where
  g1 : ∀ l, 1 ≤ l → l ≤ p.n → 1 + l ≤ m → m < 1 + p.n + l → g l = (fv (1 + l) - fv 1) / p.rhobeg
  g2 : ∀ l, 1 ≤ l → l ≤ p.n → 1 + p.n + l ≤ m → g l = 1 / 2 * ((fv (1 + l) - fv 1) / p.rhobeg + (fv 1 - fv (1 + p.n + l)) / p.rhobeg)
  h0 : ∀ l, 1 ≤ l → l ≤ p.n → m < 1 + p.n + l → h l l = 0
  h1 : ∀ l, 1 ≤ l → l ≤ p.n → 1 + p.n + l ≤ m → h l l = ((fv (1 + l) - fv 1) / p.rhobeg - (fv 1 - fv (1 + p.n + l)) / p.rhobeg) / p.rhobeg
  h2 : ∀ l, p.n < l → 1 + p.n + l ≤ m → h (pair p (1 + p.n + l)).2 (pair p (1 + p.n + l)).1 =
    (fv 1 - fv (side p fv (pair p (1 + p.n + l)).1) - fv (side p fv (pair p (1 + p.n + l)).2) + fv (1 + p.n + l)) /
      ((if fv ((pair p (1 + p.n + l)).1 + p.np) < fv ((pair p (1 + p.n + l)).1 + 1) then -p.rhobeg else p.rhobeg) *
       (if fv ((pair p (1 + p.n + l)).2 + p.np) < fv ((pair p (1 + p.n + l)).2 + 1) then -p.rhobeg else p.rhobeg))
  h3 : ∀ i j, j < i → (∀ l, p.n < l → 1 + p.n + l ≤ m → pair p (1 + p.n + l) ≠ (i, j)) → h j i = 0

theorem side_le (p : Par K) (fv : Nat → K) {i : Nat} (h : i ≤ p.n) : side p fv i ≤ 2 * p.n + 1 := by
  unfold side; split_ifs <;> omega

theorem side_ge (p : Par K) (fv : Nat → K) {i : Nat} (h : 1 ≤ i) : 2 ≤ side p fv i := by
  unfold side; split_ifs <;> omega

theorem side_congr {p : Par K} {fv fv' : Nat → K} {i : Nat} (h2 : i ≤ p.n) (e : ∀ k, k ≤ 2 * p.n + 1 → fv' k = fv k) : side p fv' i = side p fv i := by
  unfold side Par.np
  rw [e _ (by omega), e _ (by omega)]

/-- The position of the point on the axis. -/
theorem side_pt {p : Par K} {m : Nat} {fv : Nat → K} {x : Nat → Nat → K} (h : PtsI p m fv x) (hm : 2 * p.n + 1 ≤ m) {i : Nat} (i1 : 1 ≤ i) (i2 : i ≤ p.n) (j : Nat) :
    x (side p fv i) j = (if fv (i + p.np) < fv (i + 1) then -p.rhobeg else p.rhobeg) * del j i := by
  unfold side
  split_ifs with c
  · rw [show i + 1 + p.n = 1 + p.n + i by omega]; exact h.p3 i j i1 i2 (by omega)
  · rw [show i + 1 = 1 + i by omega]; exact h.p2 i j i1 i2 (by omega)

/-! ### One point more -/

section
variable {p : Par K} (hp : Valid p) {m : Nat} (hm : m < p.npt) {s : St K} (f : K)

theorem point_rest (p : Par K) (s : St K) (nf : Nat) :
    (point p s nf).fval = s.fval ∧ (point p s nf).bmat = s.bmat ∧ (point p s nf).zmat = s.zmat ∧ (point p s nf).gq = s.gq ∧ (point p s nf).hq = s.hq ∧
    (point p s nf).pq = s.pq ∧ (point p s nf).fbeg = s.fbeg := by
  unfold point pointC
  dsimp only
  split_ifs
  all_goals exact ⟨rfl, rfl, rfl, rfl, rfl, rfl, rfl⟩

include hp hm in
theorem ptsI_step (h : PtsI p m s.fval s.xpt) : PtsI p (m + 1) (set1 s.fval (m + 1) f) (point p s (m + 1)).xpt := by
  have n1 := hp.n1
  have nm := hp.nptm
  -- the rows of the other points
  have old := (point_same p s (m + 1)).2.2.2.2.2.2
  have fe : ∀ k, k ≤ m → set1 s.fval (m + 1) f k = s.fval k := fun k hk => if_neg (by omega)
  have p4 : ∀ l j, p.n < l → 1 + p.n + l ≤ m → (point p s (m + 1)).xpt (1 + p.n + l) j = (point p s (m + 1)).xpt (side p (set1 s.fval (m + 1) f) (pair p (1 + p.n + l)).1) j
      + (point p s (m + 1)).xpt (side p (set1 s.fval (m + 1) f) (pair p (1 + p.n + l)).2) j := by
    intro l j l1 l2
    obtain ⟨q1, q2, q3⟩ := pair_spec hp (nf := 1 + p.n + l) (by omega) (by omega)
    rw [side_congr (fv := s.fval) q3 (fun k hk => fe k (by omega)), side_congr (fv := s.fval) (show (pair p (1 + p.n + l)).2 ≤ p.n by omega) (fun k hk => fe k (by omega))]
    have s1 := side_le p s.fval q3
    have s2 := side_le p s.fval (show (pair p (1 + p.n + l)).2 ≤ p.n by omega)
    rw [old _ j (by omega), old _ j (by omega), old _ j (by omega)]
    exact h.p4 l j l1 l2
  by_cases c0 : m = 0
  · subst c0
    have e : (point p s (0 + 1)).xpt = s.xpt := by
      unfold point
      dsimp only
      rw [if_pos (by omega), if_neg (by omega), if_neg (by omega)]
    rw [e] at p4 ⊢
    exact ⟨fun k j hk => h.p0 k j (by omega), h.p1, fun l j l1 l2 l3 => by omega, fun l j l1 l2 l3 => by omega, fun l j l1 l2 => by omega⟩
  by_cases c1 : m ≤ p.n
  · have e : (point p s (m + 1)).xpt = set2 s.xpt (m + 1) m p.rhobeg := by
      unfold point
      dsimp only
      rw [if_pos (by omega), if_pos (by omega), Nat.add_sub_cancel]
    rw [e] at p4 old ⊢
    refine ⟨fun k j hk => ?_, fun j => ?_, fun l j l1 l2 l3 => ?_, fun l j l1 l2 l3 => by omega, fun l j l1 l2 => by omega⟩
    · rw [old k j (by omega)]; exact h.p0 k j (by omega)
    · rw [old 1 j (by omega)]; exact h.p1 j
    · by_cases q : l = m
      · subst q
        show (if 1 + l = l + 1 ∧ j = l then p.rhobeg else s.xpt (1 + l) j) = _
        by_cases q2 : j = l
        · rw [if_pos ⟨by omega, q2⟩, q2, del_self, mul_one]
        · rw [if_neg (fun a => q2 a.2), del_ne q2, mul_zero]; exact h.p0 _ _ (by omega)
      · rw [old _ j (by omega)]; exact h.p2 l j l1 l2 (by omega)
  by_cases c2 : m ≤ 2 * p.n
  · have e : (point p s (m + 1)).xpt = set2 s.xpt (m + 1) (m - p.n) (-p.rhobeg) := by
      unfold point
      dsimp only
      rw [if_pos (by omega), if_neg (by omega), if_pos (by omega), Nat.add_sub_cancel]
    rw [e] at p4 old ⊢
    refine ⟨fun k j hk => ?_, fun j => ?_, fun l j l1 l2 l3 => ?_, fun l j l1 l2 l3 => ?_, fun l j l1 l2 => by omega⟩
    · rw [old k j (by omega)]; exact h.p0 k j (by omega)
    · rw [old 1 j (by omega)]; exact h.p1 j
    · rw [old _ j (by omega)]; exact h.p2 l j l1 l2 (by omega)
    · by_cases q : l = m - p.n
      · subst q
        show (if 1 + p.n + (m - p.n) = m + 1 ∧ j = m - p.n then -p.rhobeg else s.xpt (1 + p.n + (m - p.n)) j) = _
        by_cases q2 : j = m - p.n
        · rw [if_pos ⟨by omega, q2⟩, q2, del_self, mul_one]
        · rw [if_neg (fun a => q2 a.2), del_ne q2, mul_zero]; exact h.p0 _ _ (by omega)
      · rw [old _ j (by omega)]; exact h.p3 l j l1 l2 (by omega)
  · obtain ⟨q1, q2, q3⟩ := pair_spec hp (nf := m + 1) (by omega) (by omega)
    have e : (point p s (m + 1)).xpt = set2 (set2 s.xpt (m + 1) (pair p (m + 1)).1 (if s.fval ((pair p (m + 1)).1 + p.np) < s.fval ((pair p (m + 1)).1 + 1) then -p.rhobeg else p.rhobeg))
        (m + 1) (pair p (m + 1)).2 (if s.fval ((pair p (m + 1)).2 + p.np) < s.fval ((pair p (m + 1)).2 + 1) then -p.rhobeg else p.rhobeg) := by
      unfold point
      dsimp only
      rw [if_neg (by omega)]
      rfl
    refine ⟨fun k j hk => ?_, fun j => ?_, fun l j l1 l2 l3 => ?_, fun l j l1 l2 l3 => ?_, fun l j l1 l2 => ?_⟩
    · rw [old k j (by omega)]; exact h.p0 k j (by omega)
    · rw [old 1 j (by omega)]; exact h.p1 j
    · rw [old _ j (by omega)]; exact h.p2 l j l1 l2 (by omega)
    · rw [old _ j (by omega)]; exact h.p3 l j l1 l2 (by omega)
    · by_cases q : 1 + p.n + l ≤ m
      · exact p4 l j l1 q
      · have el : 1 + p.n + l = m + 1 := by omega
        rw [el]
        have s1 := side_le p s.fval q3
        have s2 := side_le p s.fval (show (pair p (m + 1)).2 ≤ p.n by omega)
        rw [side_congr (fv := s.fval) q3 (fun k hk => fe k (by omega)), side_congr (fv := s.fval) (show (pair p (m + 1)).2 ≤ p.n by omega) (fun k hk => fe k (by omega)),
          old (side p s.fval (pair p (m + 1)).1) j (by omega), old (side p s.fval (pair p (m + 1)).2) j (by omega), side_pt h (by omega) (by omega) q3, side_pt h (by omega) q1 (by omega), e]
        generalize (if s.fval ((pair p (m + 1)).1 + p.np) < s.fval ((pair p (m + 1)).1 + 1) then -p.rhobeg else p.rhobeg) = a
        generalize (if s.fval ((pair p (m + 1)).2 + p.np) < s.fval ((pair p (m + 1)).2 + 1) then -p.rhobeg else p.rhobeg) = b
        show (if m + 1 = m + 1 ∧ j = (pair p (m + 1)).2 then b else if m + 1 = m + 1 ∧ j = (pair p (m + 1)).1 then a else s.xpt (m + 1) j) = _
        by_cases r1 : j = (pair p (m + 1)).2
        · rw [if_pos ⟨rfl, r1⟩, r1, del_self, del_ne (by omega)]; ring
        · rw [if_neg (fun w => r1 w.2), del_ne r1]
          by_cases r2 : j = (pair p (m + 1)).1
          · rw [if_pos ⟨rfl, r2⟩, r2, del_self]; ring
          · rw [if_neg (fun w => r2 w.2), del_ne r2, h.p0 _ _ (by omega)]; ring

/-- The state after the evaluation at the next of the first points, before the changes of the model. -/
def stored (p : Par K) (f : K) (s : St K) : St K := store (put f (l50 p s).2)

theorem stored_fields (hs : s.nf = m) :
    (stored p f s).nf = m + 1 ∧ (stored p f s).f = f ∧ (stored p f s).fval = set1 s.fval (m + 1) f ∧ (stored p f s).bmat = s.bmat ∧ (stored p f s).zmat = s.zmat ∧
    (stored p f s).gq = s.gq ∧ (stored p f s).hq = s.hq ∧ (stored p f s).pq = s.pq ∧ (stored p f s).xpt = (point p s (m + 1)).xpt ∧
    (stored p f s).xbase = s.xbase ∧ (stored p f s).log = ((fun j => (point p s (m + 1)).xpt (m + 1) j + s.xbase j), f) :: s.log ∧
    (stored p f s).fbeg = (if m = 0 then f else s.fbeg) ∧
    ((stored p f s).ipt = (point p s (m + 1)).ipt ∧ (stored p f s).jpt = (point p s (m + 1)).jpt ∧ (stored p f s).xipt = (point p s (m + 1)).xipt ∧ (stored p f s).xjpt = (point p s (m + 1)).xjpt) ∧
    ((stored p f s).fopt = f ∧ (stored p f s).kopt = m + 1 ∨ m ≠ 0 ∧ (stored p f s).fopt = s.fopt ∧ (stored p f s).kopt = s.kopt) := by
  obtain ⟨r1, r2, r3, r4, r5, r6, r7⟩ := point_rest p s (m + 1)
  obtain ⟨q1, q2, q3, q4, q5, q6, q7⟩ := point_same p s (m + 1)
  unfold stored store put l50
  dsimp only
  rw [hs]
  split_ifs with c1 c2 c3 c3
  · exact ⟨rfl, rfl, by dsimp only; rw [r1], r2, r3, r4, r5, r6, rfl, q4, by dsimp only; rw [q1, q4], rfl, ⟨rfl, rfl, rfl, rfl⟩, Or.inl ⟨rfl, by dsimp only; omega⟩⟩
  · omega
  · omega
  · exact ⟨rfl, rfl, by dsimp only; rw [r1], r2, r3, r4, r5, r6, rfl, q4, by dsimp only; rw [q1, q4], r7, ⟨rfl, rfl, rfl, rfl⟩, Or.inl ⟨rfl, rfl⟩⟩
  · omega
  · exact ⟨rfl, rfl, by dsimp only; rw [r1], r2, r3, r4, r5, r6, rfl, q4, by dsimp only; rw [q1, q4], r7, ⟨rfl, rfl, rfl, rfl⟩, Or.inr ⟨by omega, q2, q5⟩⟩

theorem model_case0 (u : St K) (h : u.nf = 1) : model p u = u := by
  unfold model
  dsimp only
  rw [h, if_pos (by omega), if_neg (by omega), if_neg (by omega)]

theorem model_caseA (u : St K) (h : u.nf = m + 1) (h1 : 1 ≤ m) (h2 : m ≤ p.n) : model p u = modelA p u := by
  unfold model
  dsimp only
  rw [h, Nat.add_sub_cancel, if_pos (by omega), if_pos ⟨h1, h2⟩]

theorem model_caseB (u : St K) (h : u.nf = m + 1) (h1 : p.n < m) (h2 : m ≤ 2 * p.n) : model p u = modelB p u := by
  unfold model
  dsimp only
  rw [h, Nat.add_sub_cancel, if_pos (by omega), if_neg (by omega), if_pos h1]

theorem model_caseC (u : St K) (h : u.nf = m + 1) (h1 : 2 * p.n < m) : model p u = modelC p u := by
  unfold model
  dsimp only
  rw [h, Nat.add_sub_cancel, if_neg (by omega)]

/-- The indices used by `modelC`. -/
theorem pointC_fields (h : 2 * p.n < m) : (point p s (m + 1)).ipt = (pair p (m + 1)).1 ∧ (point p s (m + 1)).jpt = (pair p (m + 1)).2 ∧
    (point p s (m + 1)).xipt = (if s.fval ((pair p (m + 1)).1 + p.np) < s.fval ((pair p (m + 1)).1 + 1) then -p.rhobeg else p.rhobeg) ∧
    (point p s (m + 1)).xjpt = (if s.fval ((pair p (m + 1)).2 + p.np) < s.fval ((pair p (m + 1)).2 + 1) then -p.rhobeg else p.rhobeg) := by
  unfold point
  dsimp only
  rw [if_neg (by omega)]
  exact ⟨rfl, rfl, rfl, rfl⟩

theorem side_eq (hr : 0 < p.rhobeg) (fv : Nat → K) (i : Nat) :
    (if (if fv (i + p.np) < fv (i + 1) then -p.rhobeg else p.rhobeg) < 0 then i + p.n else i) + 1 = side p fv i := by
  unfold side
  split_ifs with c d d
  · omega
  · exact absurd (neg_lt_zero.mpr hr) d
  · exact absurd d (not_lt.mpr hr.le)
  · rfl

include hp hm in
theorem zI_step (hs : s.nf = m) (h : ZI p m s.fval s.zmat) : ZI p (m + 1) (set1 s.fval (m + 1) f) (model p (stored p f s)).zmat := by
  have n1 := hp.n1
  have nm := hp.nptm
  obtain ⟨f1, f2, f3, f4, f5, f6, f7, f8, f9, f10, f11, f12, ⟨f13, f14, f15, f16⟩, -⟩ := stored_fields (p := p) f hs
  have fe : ∀ k, k ≤ m → set1 s.fval (m + 1) f k = s.fval k := fun k hk => if_neg (by omega)
  have z2 : ∀ k l, p.n < l → 1 + p.n + l ≤ m → s.zmat k l = 1 / (p.rhobeg * p.rhobeg) *
      (del k 1 + del k (1 + p.n + l) - del k (side p (set1 s.fval (m + 1) f) (pair p (1 + p.n + l)).1) - del k (side p (set1 s.fval (m + 1) f) (pair p (1 + p.n + l)).2)) := by
    intro k l l1 l2
    obtain ⟨q1, q2, q3⟩ := pair_spec hp (nf := 1 + p.n + l) (by omega) (by omega)
    rw [side_congr (fv := s.fval) q3 (fun k hk => fe k (by omega)), side_congr (fv := s.fval) (show (pair p (1 + p.n + l)).2 ≤ p.n by omega) (fun k hk => fe k (by omega))]
    exact h.z2 k l l1 l2
  by_cases c1 : m ≤ p.n
  · have e : (model p (stored p f s)).zmat = s.zmat := by
      rw [← f5]
      by_cases c0 : m = 0
      · rw [model_case0 _ (by omega)]
      · rw [model_caseA _ f1 (by omega) c1]
        unfold modelA
        dsimp only
        split_ifs <;> rfl
    rw [e]
    exact ⟨fun k l l1 l2 => h.z0 k l l1 (by omega), fun k l l1 l2 l3 => by omega, fun k l l1 l2 => by omega⟩
  by_cases c2 : m ≤ 2 * p.n
  · rw [model_caseB _ f1 (by omega) c2]
    have e : (modelB p (stored p f s)).zmat = set2 (set2 (set2 s.zmat 1 (m - p.n) (-(sqrt (lit 1 2) / (p.rhobeg * p.rhobeg)) - sqrt (lit 1 2) / (p.rhobeg * p.rhobeg))) (m + 1 - p.n) (m - p.n)
        (sqrt (lit 1 2) / (p.rhobeg * p.rhobeg))) (m + 1) (m - p.n) (sqrt (lit 1 2) / (p.rhobeg * p.rhobeg)) := by
      rw [← f5, show m - p.n = (stored p f s).nf - 1 - p.n by omega, show m + 1 = (stored p f s).nf by omega]
      rfl
    rw [e]
    obtain ⟨r, hr⟩ : ∃ r, r = (sqrt (lit 1 2) : K) / (p.rhobeg * p.rhobeg) := ⟨_, rfl⟩
    rw [← hr]
    have off : ∀ k l, l ≠ m - p.n → set2 (set2 (set2 s.zmat 1 (m - p.n) (-r - r)) (m + 1 - p.n) (m - p.n) r) (m + 1) (m - p.n) r k l = s.zmat k l := by
      intro k l q
      unfold set2
      rw [if_neg (fun w => q w.2), if_neg (fun w => q w.2), if_neg (fun w => q w.2)]
    refine ⟨fun k l l1 l2 => ?_, fun k l l1 l2 l3 => ?_, fun k l l1 l2 => by omega⟩
    · rw [off k l (by omega)]; exact h.z0 k l l1 (by omega)
    · by_cases q : l = m - p.n
      · subst q
        rw [← hr]
        show (if k = m + 1 ∧ m - p.n = m - p.n then r else if k = m + 1 - p.n ∧ m - p.n = m - p.n then r else if k = 1 ∧ m - p.n = m - p.n then -r - r else s.zmat k (m - p.n)) = _
        by_cases k1 : k = m + 1
        · rw [if_pos ⟨k1, rfl⟩, k1, del_ne (by omega), show 1 + p.n + (m - p.n) = m + 1 by omega, del_self, del_ne (by omega)]; ring
        · rw [if_neg (fun w => k1 w.1)]
          by_cases k2 : k = m + 1 - p.n
          · rw [if_pos ⟨k2, rfl⟩, k2, show 1 + (m - p.n) = m + 1 - p.n by omega, del_self, del_ne (by omega), del_ne (by omega)]; ring
          · rw [if_neg (fun w => k2 w.1)]
            by_cases k3 : k = 1
            · rw [if_pos ⟨k3, rfl⟩, k3, del_self, del_ne (by omega), del_ne (by omega)]; ring
            · rw [if_neg (fun w => k3 w.1), h.z0 k _ l1 (by omega), del_ne (by omega), del_ne (by omega), del_ne (by omega)]; ring
      · rw [off k l q]; exact h.z1 k l l1 l2 (by omega)
  · obtain ⟨q1, q2, q3⟩ := pair_spec hp (nf := m + 1) (by omega) (by omega)
    obtain ⟨g1, g2, g3, g4⟩ := pointC_fields (p := p) (s := s) (m := m) (by omega)
    rw [model_caseC _ f1 (by omega)]
    have e : (modelC p (stored p f s)).zmat = set2 (set2 (set2 (set2 s.zmat 1 (m - p.n) (1 / (p.rhobeg * p.rhobeg))) (m + 1) (m - p.n) (1 / (p.rhobeg * p.rhobeg)))
        (side p s.fval (pair p (m + 1)).1) (m - p.n) (-(1 / (p.rhobeg * p.rhobeg)))) (side p s.fval (pair p (m + 1)).2) (m - p.n) (-(1 / (p.rhobeg * p.rhobeg))) := by
      rw [← side_eq hp.r, ← side_eq hp.r, ← g3, ← g4, ← g1, ← g2, ← f13, ← f14, ← f15, ← f16, ← f5, show m - p.n = (stored p f s).nf - 1 - p.n by omega]
      conv_rhs => rw [← f1]
      rfl
    have s1 := side_le p s.fval q3
    have s2 := side_le p s.fval (show (pair p (m + 1)).2 ≤ p.n by omega)
    have s3 := side_ge p s.fval (show 1 ≤ (pair p (m + 1)).1 by omega)
    have s4 := side_ge p s.fval q1
    have ne : side p s.fval (pair p (m + 1)).1 ≠ side p s.fval (pair p (m + 1)).2 := by
      unfold side; split_ifs <;> omega
    have sa := side_congr (p := p) (fv := s.fval) (fv' := set1 s.fval (m + 1) f) q3 (fun k hk => fe k (by omega))
    have sb := side_congr (p := p) (fv := s.fval) (fv' := set1 s.fval (m + 1) f) (show (pair p (m + 1)).2 ≤ p.n by omega) (fun k hk => fe k (by omega))
    rw [e]
    obtain ⟨r, hr⟩ : ∃ r, r = 1 / (p.rhobeg * p.rhobeg) := ⟨_, rfl⟩
    rw [← hr]
    generalize side p s.fval (pair p (m + 1)).1 = a at *
    generalize side p s.fval (pair p (m + 1)).2 = b at *
    have off : ∀ k l, l ≠ m - p.n → set2 (set2 (set2 (set2 s.zmat 1 (m - p.n) r) (m + 1) (m - p.n) r) a (m - p.n) (-r)) b (m - p.n) (-r) k l = s.zmat k l := by
      intro k l q
      unfold set2
      rw [if_neg (fun w => q w.2), if_neg (fun w => q w.2), if_neg (fun w => q w.2), if_neg (fun w => q w.2)]
    refine ⟨fun k l l1 l2 => ?_, fun k l l1 l2 l3 => ?_, fun k l l1 l2 => ?_⟩
    · rw [off k l (by omega)]; exact h.z0 k l l1 (by omega)
    · rw [off k l (by omega)]; exact h.z1 k l l1 l2 (by omega)
    · by_cases q : l = m - p.n
      · subst q
        rw [show 1 + p.n + (m - p.n) = m + 1 by omega, sa, sb, ← hr]
        show (if k = b ∧ m - p.n = m - p.n then -r else if k = a ∧ m - p.n = m - p.n then -r else if k = m + 1 ∧ m - p.n = m - p.n then r else if k = 1 ∧ m - p.n = m - p.n then r
          else s.zmat k (m - p.n)) = _
        by_cases k1 : k = b
        · rw [if_pos ⟨k1, rfl⟩, k1, del_self, del_ne (by omega), del_ne (by omega), del_ne (by omega)]; ring
        · rw [if_neg (fun w => k1 w.1), del_ne k1]
          by_cases k2 : k = a
          · rw [if_pos ⟨k2, rfl⟩, k2, del_self, del_ne (by omega), del_ne (by omega)]; ring
          · rw [if_neg (fun w => k2 w.1), del_ne k2]
            by_cases k3 : k = m + 1
            · rw [if_pos ⟨k3, rfl⟩, k3, del_self, del_ne (by omega)]; ring
            · rw [if_neg (fun w => k3 w.1), del_ne k3]
              by_cases k4 : k = 1
              · rw [if_pos ⟨k4, rfl⟩, k4, del_self]; ring
              · rw [if_neg (fun w => k4 w.1), del_ne k4, h.z0 k _ (by omega) (by omega)]; ring
      · rw [off k l q]; exact z2 k l l1 (by omega)

include hp hm in
theorem bI_step (hs : s.nf = m) (h : BI p m s.bmat) : BI p (m + 1) (model p (stored p f s)).bmat := by
  have n1 := hp.n1
  have nm := hp.nptm
  have hr := hp.r.ne'
  obtain ⟨f1, f2, f3, f4, f5, f6, f7, f8, f9, f10, f11, f12, ⟨f13, f14, f15, f16⟩, -⟩ := stored_fields (p := p) f hs
  by_cases c0 : m = 0
  · rw [model_case0 _ (by omega), f4]
    exact ⟨fun k l l1 l2 l3 l4 => h.b0 k l l1 l2 l3 (by omega), fun k l l1 l2 l3 l4 => h.b0' k l l1 l2 l3 (by omega), fun k l l1 l2 l3 l4 => by omega, fun k l l1 l2 l3 l4 => by omega⟩
  by_cases c1 : m ≤ p.n
  · rw [model_caseA _ f1 (by omega) c1]
    by_cases cn : p.npt < m + 1 + p.n
    · have e : (modelA p (stored p f s)).bmat = set2 (set2 (set2 s.bmat 1 m (-1 / p.rhobeg)) (m + 1) m (1 / p.rhobeg)) (p.npt + m) m (-lit 1 2 * (p.rhobeg * p.rhobeg)) := by
        unfold modelA
        dsimp only
        rw [f1, if_pos cn, f4, Nat.add_sub_cancel]
      rw [e, lit_half]
      have off : ∀ k l, l ≠ m → set2 (set2 (set2 s.bmat 1 m (-1 / p.rhobeg)) (m + 1) m (1 / p.rhobeg)) (p.npt + m) m (-(1 / 2) * (p.rhobeg * p.rhobeg)) k l = s.bmat k l := by
        intro k l q
        unfold set2
        rw [if_neg (fun w => q w.2), if_neg (fun w => q w.2), if_neg (fun w => q w.2)]
      refine ⟨fun k l l1 l2 l3 l4 => ?_, fun k l l1 l2 l3 l4 => ?_, fun k l l1 l2 l3 l4 => by omega, fun k l l1 l2 l3 l4 => ?_⟩
      · rw [off k l (by omega)]; exact h.b0 k l l1 l2 l3 (by omega)
      · rw [off k l (by omega)]; exact h.b0' k l l1 l2 l3 (by omega)
      · by_cases q : l = m
        · subst q
          show (if k = p.npt + l ∧ l = l then _ else if k = l + 1 ∧ l = l then _ else if k = 1 ∧ l = l then _ else s.bmat k l) = _
          by_cases k1 : k = p.npt + l
          · rw [if_pos ⟨k1, rfl⟩, k1, del_self, del_ne (by omega), del_ne (by omega)]; ring
          · rw [if_neg (fun w => k1 w.1), del_ne k1]
            by_cases k2 : k = l + 1
            · rw [if_pos ⟨k2, rfl⟩, k2, show 1 + l = l + 1 by omega, del_self, del_ne (by omega)]; ring
            · rw [if_neg (fun w => k2 w.1), del_ne (by omega)]
              by_cases k3 : k = 1
              · rw [if_pos ⟨k3, rfl⟩, k3, del_self]; ring
              · rw [if_neg (fun w => k3 w.1), del_ne k3, h.b0' k l l1 l2 l3 (by omega)]; ring
        · rw [off k l q]; exact h.b2 k l l1 l2 l3 (by omega)
    · have e : (modelA p (stored p f s)).bmat = s.bmat := by
        unfold modelA
        dsimp only
        rw [f1, if_neg cn, f4]
      rw [e]
      exact ⟨fun k l l1 l2 l3 l4 => h.b0 k l l1 l2 l3 (by omega), fun k l l1 l2 l3 l4 => h.b0' k l l1 l2 l3 (by omega), fun k l l1 l2 l3 l4 => by omega,
        fun k l l1 l2 l3 l4 => h.b2 k l l1 l2 l3 (by omega)⟩
  by_cases c2 : m ≤ 2 * p.n
  · rw [model_caseB _ f1 (by omega) c2]
    have e : (modelB p (stored p f s)).bmat = set2 (set2 s.bmat (m + 1 - p.n) (m - p.n) (lit 1 2 / p.rhobeg)) (m + 1) (m - p.n) (-lit 1 2 / p.rhobeg) := by
      rw [← f4, show m - p.n = (stored p f s).nf - 1 - p.n by omega, show m + 1 = (stored p f s).nf by omega]
      rfl
    rw [e, lit_half]
    have off : ∀ k l, l ≠ m - p.n → set2 (set2 s.bmat (m + 1 - p.n) (m - p.n) (1 / 2 / p.rhobeg)) (m + 1) (m - p.n) (-(1 / 2) / p.rhobeg) k l = s.bmat k l := by
      intro k l q
      unfold set2
      rw [if_neg (fun w => q w.2), if_neg (fun w => q w.2)]
    refine ⟨fun k l l1 l2 l3 l4 => ?_, fun k l l1 l2 l3 l4 => by omega, fun k l l1 l2 l3 l4 => ?_, fun k l l1 l2 l3 l4 => ?_⟩
    · rw [off k l (by omega)]; exact h.b0 k l l1 l2 l3 (by omega)
    · by_cases q : l = m - p.n
      · subst q
        show (if k = m + 1 ∧ m - p.n = m - p.n then _ else if k = m + 1 - p.n ∧ m - p.n = m - p.n then _ else s.bmat k (m - p.n)) = _
        by_cases k1 : k = m + 1
        · rw [if_pos ⟨k1, rfl⟩, k1, show 1 + p.n + (m - p.n) = m + 1 by omega, del_self, del_ne (by omega)]; field_simp; ring
        · rw [if_neg (fun w => k1 w.1), del_ne (show k ≠ 1 + p.n + (m - p.n) by omega)]
          by_cases k2 : k = m + 1 - p.n
          · rw [if_pos ⟨k2, rfl⟩, k2, show 1 + (m - p.n) = m + 1 - p.n by omega, del_self]; field_simp; ring
          · rw [if_neg (fun w => k2 w.1), del_ne (by omega), h.b0 k _ l1 l2 l3 (by omega)]; ring
      · rw [off k l q]; exact h.b1 k l l1 l2 l3 (by omega)
    · rw [off k l (by omega)]; exact h.b2 k l l1 l2 l3 (by omega)
  · rw [model_caseC _ f1 (by omega)]
    show BI p (m + 1) (stored p f s).bmat
    rw [f4]
    exact ⟨fun k l l1 l2 l3 l4 => h.b0 k l l1 l2 l3 (by omega), fun k l l1 l2 l3 l4 => h.b0' k l l1 l2 l3 (by omega), fun k l l1 l2 l3 l4 => h.b1 k l l1 l2 l3 (by omega),
      fun k l l1 l2 l3 l4 => h.b2 k l l1 l2 l3 (by omega)⟩

include hp hm in
theorem qI_step (hs : s.nf = m) (hb : 1 ≤ m → s.fbeg = s.fval 1) (h : QI p m s.fval s.gq s.hq) :
    QI p (m + 1) (set1 s.fval (m + 1) f) (model p (stored p f s)).gq (model p (stored p f s)).hq := by
  have n1 := hp.n1
  have nm := hp.nptm
  have hr := hp.r.ne'
  obtain ⟨f1, f2, f3, f4, f5, f6, f7, f8, f9, f10, f11, f12, ⟨f13, f14, f15, f16⟩, -⟩ := stored_fields (p := p) f hs
  have fe : ∀ k, k ≤ m → set1 s.fval (m + 1) f k = s.fval k := fun k hk => if_neg (by omega)
  have ff : set1 s.fval (m + 1) f (m + 1) = f := if_pos rfl
  by_cases c0 : m = 0
  · rw [model_case0 _ (by omega), f6, f7]
    exact ⟨fun l l1 l2 l3 l4 => by omega, fun l l1 l2 l3 => by omega, fun l l1 l2 l3 => h.h0 l l1 l2 (by omega), fun l l1 l2 l3 => by omega, fun l l1 l2 => by omega,
      fun i j ij w => h.h3 i j ij fun l l1 l2 => w l l1 (by omega)⟩
  have b := hb (by omega)
  by_cases c1 : m ≤ p.n
  · rw [model_caseA _ f1 (by omega) c1]
    have e1 : (modelA p (stored p f s)).hq = s.hq := by
      rw [← f7]; unfold modelA; dsimp only; split_ifs <;> rfl
    have e2 : (modelA p (stored p f s)).gq = set1 s.gq m ((f - s.fbeg) / p.rhobeg) := by
      have : (modelA p (stored p f s)).gq = set1 (stored p f s).gq ((stored p f s).nf - 1) (((stored p f s).f - (stored p f s).fbeg) / p.rhobeg) := by
        unfold modelA; dsimp only; split_ifs <;> rfl
      rw [this, f1, f2, f6, f12, if_neg c0, Nat.add_sub_cancel]
    rw [e1, e2]
    refine ⟨fun l l1 l2 l3 l4 => ?_, fun l l1 l2 l3 => by omega, fun l l1 l2 l3 => h.h0 l l1 l2 (by omega), fun l l1 l2 l3 => by omega, fun l l1 l2 => by omega,
      fun i j ij w => h.h3 i j ij fun l l1 l2 => w l l1 (by omega)⟩
    unfold set1
    by_cases q : l = m
    · rw [if_pos q, if_pos (by omega), if_neg (by omega), b]
    · rw [if_neg q, if_neg (by omega), if_neg (by omega)]; exact h.g1 l l1 l2 (by omega) (by omega)
  by_cases c2 : m ≤ 2 * p.n
  · rw [model_caseB _ f1 (by omega) c2]
    have e1 : (modelB p (stored p f s)).hq = set2 s.hq (m - p.n) (m - p.n) ((s.gq (m - p.n) - (s.fbeg - f) / p.rhobeg) / p.rhobeg) := by
      show set2 (stored p f s).hq ((stored p f s).nf - 1 - p.n) ((stored p f s).nf - 1 - p.n)
        (((stored p f s).gq ((stored p f s).nf - 1 - p.n) - ((stored p f s).fbeg - (stored p f s).f) / p.rhobeg) / p.rhobeg) = _
      rw [f1, f2, f6, f7, f12, if_neg c0, Nat.add_sub_cancel]
    have e2 : (modelB p (stored p f s)).gq = set1 s.gq (m - p.n) (lit 1 2 * (s.gq (m - p.n) + (s.fbeg - f) / p.rhobeg)) := by
      show set1 (stored p f s).gq ((stored p f s).nf - 1 - p.n) (lit 1 2 * ((stored p f s).gq ((stored p f s).nf - 1 - p.n) + ((stored p f s).fbeg - (stored p f s).f) / p.rhobeg)) = _
      rw [f1, f2, f6, f12, if_neg c0, Nat.add_sub_cancel]
    have gl := h.g1 (m - p.n) (by omega) (by omega) (by omega) (by omega)
    rw [e1, e2, lit_half, gl, b]
    refine ⟨fun l l1 l2 l3 l4 => ?_, fun l l1 l2 l3 => ?_, fun l l1 l2 l3 => ?_, fun l l1 l2 l3 => ?_, fun l l1 l2 => by omega, fun i j ij w => ?_⟩
    · rw [fe _ (by omega), fe _ (by omega), show set1 s.gq (m - p.n) _ l = s.gq l from if_neg (by omega)]
      exact h.g1 l l1 l2 (by omega) (by omega)
    · by_cases q : l = m - p.n
      · subst q
        rw [show 1 + p.n + (m - p.n) = m + 1 by omega, ff, fe _ (by omega), fe _ (by omega)]
        exact if_pos rfl
      · rw [fe _ (by omega), fe _ (by omega), fe _ (by omega), show set1 s.gq (m - p.n) _ l = s.gq l from if_neg q]
        exact h.g2 l l1 l2 (by omega)
    · rw [show set2 s.hq (m - p.n) (m - p.n) _ l l = s.hq l l from if_neg (by omega)]
      exact h.h0 l l1 l2 (by omega)
    · by_cases q : l = m - p.n
      · subst q
        rw [show 1 + p.n + (m - p.n) = m + 1 by omega, ff, fe _ (by omega), fe _ (by omega)]
        exact if_pos ⟨rfl, rfl⟩
      · rw [fe _ (by omega), fe _ (by omega), fe _ (by omega), show set2 s.hq (m - p.n) (m - p.n) _ l l = s.hq l l from if_neg (fun w => q w.1)]
        exact h.h1 l l1 l2 (by omega)
    · rw [show set2 s.hq (m - p.n) (m - p.n) _ j i = s.hq j i from if_neg (by omega)]
      exact h.h3 i j ij fun l l1 l2 => w l l1 (by omega)
  · obtain ⟨q1, q2, q3⟩ := pair_spec hp (nf := m + 1) (by omega) (by omega)
    obtain ⟨g1, g2, g3, g4⟩ := pointC_fields (p := p) (s := s) (m := m) (by omega)
    rw [model_caseC _ f1 (by omega)]
    have s1 := side_le p s.fval q3
    have s2 := side_le p s.fval (show (pair p (m + 1)).2 ≤ p.n by omega)
    have e1 : (modelC p (stored p f s)).hq = set2 s.hq (pair p (m + 1)).2 (pair p (m + 1)).1
        ((s.fval 1 - s.fval (side p s.fval (pair p (m + 1)).1) - s.fval (side p s.fval (pair p (m + 1)).2) + f) /
          ((if s.fval ((pair p (m + 1)).1 + p.np) < s.fval ((pair p (m + 1)).1 + 1) then -p.rhobeg else p.rhobeg) *
           (if s.fval ((pair p (m + 1)).2 + p.np) < s.fval ((pair p (m + 1)).2 + 1) then -p.rhobeg else p.rhobeg))) := by
      rw [← fe (side p s.fval (pair p (m + 1)).1) (by omega), ← fe (side p s.fval (pair p (m + 1)).2) (by omega), ← side_eq hp.r, ← side_eq hp.r, ← g3, ← g4, ← g1, ← g2, ← f13, ← f14, ← f15, ← f16, ← f7,
        ← f3, ← b]
      have : s.fbeg = (stored p f s).fbeg := by rw [f12, if_neg c0]
      rw [this]
      generalize stored p f s = u at f2
      rw [← f2]
      rfl
    have e2 : (modelC p (stored p f s)).gq = s.gq := f6
    rw [e1, e2]
    refine ⟨fun l l1 l2 l3 l4 => by omega, fun l l1 l2 l3 => ?_, fun l l1 l2 l3 => by omega, fun l l1 l2 l3 => ?_, fun l l1 l2 => ?_, fun i j ij w => ?_⟩
    · rw [fe _ (by omega), fe _ (by omega), fe _ (by omega)]
      exact h.g2 l l1 l2 (by omega)
    · rw [fe _ (by omega), fe _ (by omega), fe _ (by omega), show set2 s.hq (pair p (m + 1)).2 (pair p (m + 1)).1 _ l l = s.hq l l from if_neg (by omega)]
      exact h.h1 l l1 l2 (by omega)
    · obtain ⟨r1, r2, r3⟩ := pair_spec hp (nf := 1 + p.n + l) (by omega) (by omega)
      have t1 := side_le p s.fval r3
      have t2 := side_le p s.fval (show (pair p (1 + p.n + l)).2 ≤ p.n by omega)
      have np : p.np = p.n + 1 := rfl
      rw [side_congr (fv := s.fval) r3 (fun k hk => fe k (by omega)), side_congr (fv := s.fval) (show (pair p (1 + p.n + l)).2 ≤ p.n by omega) (fun k hk => fe k (by omega)),
        fe _ (show 1 ≤ m by omega), fe (side p s.fval (pair p (1 + p.n + l)).1) (by omega), fe (side p s.fval (pair p (1 + p.n + l)).2) (by omega),
        fe ((pair p (1 + p.n + l)).1 + p.np) (by omega), fe ((pair p (1 + p.n + l)).1 + 1) (by omega), fe ((pair p (1 + p.n + l)).2 + p.np) (by omega), fe ((pair p (1 + p.n + l)).2 + 1) (by omega)]
      by_cases q : 1 + p.n + l ≤ m
      · rw [fe _ q]
        have : ¬((pair p (1 + p.n + l)).2 = (pair p (m + 1)).2 ∧ (pair p (1 + p.n + l)).1 = (pair p (m + 1)).1) := by
          intro w
          have := pair_inj hp (a := 1 + p.n + l) (b := m + 1) (by omega) (by omega) (by omega) (by omega) (Prod.ext w.2 w.1)
          omega
        rw [show set2 s.hq (pair p (m + 1)).2 (pair p (m + 1)).1 _ (pair p (1 + p.n + l)).2 (pair p (1 + p.n + l)).1 = s.hq (pair p (1 + p.n + l)).2 (pair p (1 + p.n + l)).1 from if_neg this]
        exact h.h2 l l1 q
      · rw [show 1 + p.n + l = m + 1 by omega, ff]
        exact if_pos ⟨rfl, rfl⟩
    · rw [show set2 s.hq (pair p (m + 1)).2 (pair p (m + 1)).1 _ j i = s.hq j i from if_neg fun q => w (m - p.n) (by omega) (by omega) (by
        rw [show 1 + p.n + (m - p.n) = m + 1 by omega]; exact Prod.ext q.2.symm q.1.symm)]
      exact h.h3 i j ij fun l l1 l2 => w l l1 (by omega)

end

end Opk.Newuoa
