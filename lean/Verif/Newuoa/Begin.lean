import Verif.Newuoa.First

/-!
# The first model of NEWUOA interpolates the first values, in exact arithmetic
-/
namespace Opk.Newuoa
open Linalg CMath Cobyla Powell

set_option linter.unusedSectionVars false

variable {K : Type} [Field K] [LinearOrder K] [IsStrictOrderedRing K] [CMath K] [ExactMath K]

/-! ### The model at a point with two coordinates -/

theorem tri_del {n a b : Nat} (b1 : 1 ≤ b) (b2 : b ≤ n) (a1 : 1 ≤ a) (c : Nat → Nat → K) :
    ∑ j ∈ Finset.Icc 1 n, ∑ i ∈ Finset.Icc 1 j, c i j * (del i a * del j b) = if a ≤ b then c a b else 0 := by
  have e : ∀ j, ∑ i ∈ Finset.Icc 1 j, c i j * (del i a * del j b) = del j b * ∑ i ∈ Finset.Icc 1 j, del i a * c i j := by
    intro j
    rw [Finset.mul_sum]
    exact Finset.sum_congr rfl fun i _ => by ring
  rw [Finset.sum_congr rfl fun j _ => e j, sum_del (Finset.mem_Icc.mpr ⟨b1, b2⟩) (fun j => ∑ i ∈ Finset.Icc 1 j, del i a * c i j)]
  split_ifs with q
  · exact sum_del (Finset.mem_Icc.mpr ⟨a1, q⟩) (fun i => c i b)
  · refine Finset.sum_eq_zero fun i hi => ?_
    rw [Finset.mem_Icc] at hi
    rw [del_ne (by omega), zero_mul]

theorem hform_two {n i j : Nat} (j1 : 1 ≤ j) (ji : j < i) (i2 : i ≤ n) (h : Nat → Nat → K) (α β : K) :
    hform n h (fun t => α * del t i + β * del t j) = 1 / 2 * h i i * (α * α) + 1 / 2 * h j j * (β * β) + h j i * (α * β) := by
  have e : ∀ b a, (if a = b then 1 / 2 else 1) * h a b * ((α * del a i + β * del a j) * (α * del b i + β * del b j))
      = (α * α) * ((if a = b then 1 / 2 else 1) * h a b * (del a i * del b i)) + (α * β) * ((if a = b then 1 / 2 else 1) * h a b * (del a i * del b j))
        + ((α * β) * ((if a = b then 1 / 2 else 1) * h a b * (del a j * del b i)) + (β * β) * ((if a = b then 1 / 2 else 1) * h a b * (del a j * del b j))) := by
    intro b a; ring
  unfold hform
  simp only [e, Finset.sum_add_distrib, ← Finset.mul_sum]
  rw [tri_del (show 1 ≤ i by omega) i2 (show 1 ≤ i by omega) (fun a b => (if a = b then 1 / 2 else 1) * h a b),
    tri_del j1 (show j ≤ n by omega) (show 1 ≤ i by omega) (fun a b => (if a = b then 1 / 2 else 1) * h a b),
    tri_del (show 1 ≤ i by omega) i2 j1 (fun a b => (if a = b then 1 / 2 else 1) * h a b),
    tri_del j1 (show j ≤ n by omega) j1 (fun a b => (if a = b then 1 / 2 else 1) * h a b)]
  rw [if_pos (le_refl i), if_neg (by omega : ¬ i ≤ j), if_pos ji.le, if_pos (le_refl j), if_pos rfl, if_neg (by omega : ¬ j = i), if_pos rfl]
  ring

theorem hform_one {n i : Nat} (i1 : 1 ≤ i) (i2 : i ≤ n) (h : Nat → Nat → K) (α : K) :
    hform n h (fun t => α * del t i) = 1 / 2 * h i i * (α * α) := by
  have e : ∀ b a, (if a = b then 1 / 2 else 1) * h a b * ((α * del a i) * (α * del b i))
      = (α * α) * ((if a = b then 1 / 2 else 1) * h a b * (del a i * del b i)) := by
    intro b a; ring
  unfold hform
  simp only [e, ← Finset.mul_sum]
  rw [tri_del i1 i2 i1 (fun a b => (if a = b then 1 / 2 else 1) * h a b), if_pos (le_refl i), if_pos rfl]
  ring

theorem dot_del {n i : Nat} (i1 : 1 ≤ i) (i2 : i ≤ n) (g : Nat → K) (α : K) : dot n g (fun t => α * del t i) = α * g i := by
  have e : ∀ t, g t * (α * del t i) = α * (del t i * g t) := fun t => by ring
  unfold Powell.dot
  simp only [e, ← Finset.mul_sum]
  rw [sum_del (Finset.mem_Icc.mpr ⟨i1, i2⟩) g]

theorem dot_addr (n : Nat) (g x y : Nat → K) : dot n g (fun t => x t + y t) = dot n g x + dot n g y := by
  unfold Powell.dot
  rw [← Finset.sum_add_distrib]
  exact Finset.sum_congr rfl fun t _ => by ring

/-! ### After `m` points -/

/-- After the first `m` points. -/
structure Begun (p : Par K) (m : Nat) (s : St K) : Prop where
  nf : s.nf = m
  pq : ∀ k, s.pq k = 0
  fb : 1 ≤ m → s.fbeg = s.fval 1
  best : 1 ≤ m → 1 ≤ s.kopt ∧ s.kopt ≤ m ∧ s.fopt = s.fval s.kopt
  log : ∀ k, 1 ≤ k → k ≤ m → ((fun j => s.xbase j + s.xpt k j), s.fval k) ∈ s.log
  pts : PtsI p m s.fval s.xpt
  z : ZI p m s.fval s.zmat
  b : BI p m s.bmat
  q : QI p m s.fval s.gq s.hq

theorem Begun.zero (p : Par K) (s : St K) : Begun p 0 (init s) where
  nf := rfl
  pq := fun _ => rfl
  fb := fun h => by omega
  best := fun h => by omega
  log := fun k h1 h2 => by omega
  pts := ⟨fun _ _ _ => rfl, fun _ => rfl, fun l j l1 l2 l3 => by omega, fun l j l1 l2 l3 => by omega, fun l j l1 l2 => by omega⟩
  z := ⟨fun _ _ _ _ => rfl, fun k l l1 l2 l3 => by omega, fun k l l1 l2 => by omega⟩
  b := ⟨fun _ _ _ _ _ _ => rfl, fun _ _ _ _ _ _ => rfl, fun k l l1 l2 l3 l4 => by omega, fun k l l1 l2 l3 l4 => by omega⟩
  q := ⟨fun l l1 l2 l3 l4 => by omega, fun l l1 l2 l3 => by omega, fun _ _ _ _ => rfl, fun l l1 l2 l3 => by omega, fun l l1 l2 => by omega, fun _ _ _ _ => rfl⟩

theorem model_pq (p : Par K) (s : St K) : (model p s).pq = s.pq ∧ (model p s).fval = s.fval ∧ (model p s).fbeg = s.fbeg := by
  unfold model modelA modelB modelC
  dsimp only
  split_ifs
  all_goals exact ⟨rfl, rfl, rfl⟩

/-- One more point. -/
theorem Begun.step {p : Par K} (hp : Valid p) {m : Nat} {s : St K} (h : Begun p m s) (hm : m < p.npt) (f : K) :
    Begun p (m + 1) (model p (store (put f (l50 p s).2))) := by
  obtain ⟨f1, f2, f3, f4, f5, f6, f7, f8, f9, f10, f11, f12, -, f13⟩ := stored_fields (p := p) f h.nf
  obtain ⟨q1, q2, q3, q4, q5, q6, q7⟩ := model_same p (stored p f s)
  obtain ⟨r1, r2, r3⟩ := model_pq p (stored p f s)
  have fe : ∀ k, k ≤ m → set1 s.fval (m + 1) f k = s.fval k := fun k hk => if_neg (by omega)
  have ff : set1 s.fval (m + 1) f (m + 1) = f := if_pos rfl
  have old := (point_same p s (m + 1)).2.2.2.2.2.2
  show Begun p (m + 1) (model p (stored p f s))
  have ev : (model p (stored p f s)).fval = set1 s.fval (m + 1) f := by rw [r2, f3]
  have ex : (model p (stored p f s)).xpt = (point p s (m + 1)).xpt := by rw [q7, f9]
  refine ⟨by rw [q6, f1], fun k => by rw [r1, f8]; exact h.pq k, fun _ => ?_, fun _ => ?_, fun k k1 k2 => ?_, ?_, ?_, ?_, ?_⟩
  · rw [r3, f12, ev]
    split_ifs with c
    · rw [c] at ff ⊢; exact ff.symm
    · rw [fe 1 (by omega)]; exact h.fb (by omega)
  · rw [q5, q2, ev]
    rcases f13 with ⟨a, b⟩ | ⟨c, a, b⟩
    · rw [a, b, ff]; exact ⟨by omega, le_refl _, rfl⟩
    · obtain ⟨b1, b2, b3⟩ := h.best (by omega)
      rw [a, b, fe _ b2]; exact ⟨b1, by omega, b3⟩
  · rw [q4, q1, f10, f11, ex, ev]
    by_cases c : k = m + 1
    · rw [c, ff, show (fun j => s.xbase j + (point p s (m + 1)).xpt (m + 1) j) = (fun j => (point p s (m + 1)).xpt (m + 1) j + s.xbase j) from funext fun j => add_comm _ _]
      exact List.mem_cons_self
    · rw [fe k (by omega), show (fun j => s.xbase j + (point p s (m + 1)).xpt k j) = (fun j => s.xbase j + s.xpt k j) from funext fun j => by rw [old k j c]]
      exact List.mem_cons_of_mem _ (h.log k k1 (by omega))
  · rw [ev, ex]; exact ptsI_step hp hm f h.pts
  · rw [ev]; exact zI_step hp hm f h.nf h.z
  · exact bI_step hp hm f h.nf h.b
  · rw [ev]; exact qI_step hp hm f h.nf h.fb h.q

/-! ### After all the first points -/

section
variable {p : Par K} (hp : Valid p) {s : St K} (h : Begun p p.npt s) (hsqrt : ∀ a : K, 0 ≤ a → 0 ≤ CMath.sqrt a ∧ CMath.sqrt a * CMath.sqrt a = a)

/-- The length of the step along an axis. -/
def arm (p : Par K) (s : St K) (i : Nat) : K := if s.fval (i + p.np) < s.fval (i + 1) then -p.rhobeg else p.rhobeg

theorem arm_sq (p : Par K) (s : St K) (i : Nat) : arm p s i * arm p s i = p.rhobeg * p.rhobeg := by
  unfold arm; split_ifs <;> ring

include hp h in
theorem Begun.axis {l : Nat} (l1 : p.n < l) (l2 : l ≤ p.nptm) (j : Nat) :
    s.xpt (side p s.fval (pair p (1 + p.n + l)).1) j = arm p s (pair p (1 + p.n + l)).1 * del j (pair p (1 + p.n + l)).1 ∧
    s.xpt (side p s.fval (pair p (1 + p.n + l)).2) j = arm p s (pair p (1 + p.n + l)).2 * del j (pair p (1 + p.n + l)).2 := by
  have nm := hp.nptm
  obtain ⟨q1, q2, q3⟩ := pair_spec hp (nf := 1 + p.n + l) (by omega) (by omega)
  exact ⟨side_pt h.pts (by omega) (by omega) q3 j, side_pt h.pts (by omega) q1 (by omega) j⟩

include hp h in
/-- A point is either an axis point or a cross point. -/
theorem Begun.kinds {i : Nat} (i1 : 1 ≤ i) (i2 : i ≤ p.npt) :
    (∃ a α, 1 ≤ a ∧ a ≤ p.n ∧ ∀ j, s.xpt i j = α * del j a) ∨
    (∃ l, p.n < l ∧ l ≤ p.nptm ∧ i = 1 + p.n + l ∧ ∀ j, s.xpt i j = arm p s (pair p (1 + p.n + l)).1 * del j (pair p (1 + p.n + l)).1 +
      arm p s (pair p (1 + p.n + l)).2 * del j (pair p (1 + p.n + l)).2) := by
  have n1 := hp.n1
  have nm := hp.nptm
  by_cases c0 : i = 1
  · exact Or.inl ⟨1, 0, le_refl _, n1, fun j => by rw [c0, h.pts.p1 j, zero_mul]⟩
  by_cases c1 : i ≤ p.n + 1
  · refine Or.inl ⟨i - 1, p.rhobeg, by omega, by omega, fun j => ?_⟩
    have := h.pts.p2 (i - 1) j (by omega) (by omega) (by omega)
    rwa [show 1 + (i - 1) = i by omega] at this
  by_cases c2 : i ≤ 2 * p.n + 1
  · refine Or.inl ⟨i - 1 - p.n, -p.rhobeg, by omega, by omega, fun j => ?_⟩
    have := h.pts.p3 (i - 1 - p.n) j (by omega) (by omega) (by omega)
    rwa [show 1 + p.n + (i - 1 - p.n) = i by omega] at this
  · refine Or.inr ⟨i - 1 - p.n, by omega, by omega, by omega, fun j => ?_⟩
    have := h.pts.p4 (i - 1 - p.n) j (by omega) (by omega)
    obtain ⟨a, b⟩ := h.axis hp (l := i - 1 - p.n) (by omega) (by omega) j
    rw [a, b] at this
    rwa [show 1 + p.n + (i - 1 - p.n) = i by omega] at this ⊢

include hp h hsqrt in
theorem Begun.cfg : Cfg p.n p.nptm p.npt p.rhobeg (sqrt (lit 1 2) / (p.rhobeg * p.rhobeg)) s.xpt s.zmat s.bmat
    (fun l => side p s.fval (pair p (1 + p.n + l)).1) (fun l => side p s.fval (pair p (1 + p.n + l)).2) := by
  have n1 := hp.n1
  have nm := hp.nptm
  have hr := hp.r.ne'
  have sp : ∀ l, p.n < l → l ≤ p.nptm → 1 ≤ (pair p (1 + p.n + l)).2 ∧ (pair p (1 + p.n + l)).2 < (pair p (1 + p.n + l)).1 ∧ (pair p (1 + p.n + l)).1 ≤ p.n :=
    fun l l1 l2 => pair_spec hp (nf := 1 + p.n + l) (by omega) (by omega)
  have hq : 2 * (sqrt (lit 1 2) / (p.rhobeg * p.rhobeg) * (sqrt (lit 1 2) / (p.rhobeg * p.rhobeg))) * (p.rhobeg * p.rhobeg * (p.rhobeg * p.rhobeg)) = 1 := by
    have e := (hsqrt (lit 1 2) (by rw [lit_half]; norm_num)).2
    have : sqrt (lit 1 2) / (p.rhobeg * p.rhobeg) * (sqrt (lit 1 2) / (p.rhobeg * p.rhobeg)) * (p.rhobeg * p.rhobeg * (p.rhobeg * p.rhobeg)) = sqrt (lit 1 2) * sqrt (lit 1 2 : K) := by
      field_simp
    rw [mul_assoc, this, e, lit_half]; norm_num
  refine ⟨nm, hr, hq, fun j _ _ => h.pts.p1 j, fun l j l1 l2 _ _ => h.pts.p2 l j l1 l2 (by omega), fun l j l1 l2 l3 _ _ => h.pts.p3 l j l1 l2 (by omega),
    fun l j l1 l2 _ _ => h.pts.p4 l j l1 (by omega), fun l l1 l2 => ?_, fun l l1 l2 => ?_, fun l j l1 l2 _ _ => ?_, fun l i l1 l2 i1 i2 => ?_,
    fun k l _ _ l1 l2 l3 => h.z.z1 k l l1 l2 (by omega), fun k l _ _ l1 l2 => h.z.z2 k l l1 (by omega),
    fun k l _ _ l1 l2 l3 => h.b.b1 k l l1 l2 l3 (by omega), fun k l k1 k2 l1 l2 => ?_, fun i l i1 i2 l1 l2 => ?_⟩
  · obtain ⟨a, b, c⟩ := sp l l1 l2
    exact ⟨side_ge p _ (by omega), side_le p _ c⟩
  · obtain ⟨a, b, c⟩ := sp l l1 l2
    exact ⟨side_ge p _ a, side_le p _ (by omega)⟩
  · obtain ⟨a, b, c⟩ := sp l l1 l2
    obtain ⟨e1, e2⟩ := h.axis hp l1 l2 j
    rw [e1, e2]
    by_cases q : j = (pair p (1 + p.n + l)).1
    · rw [del_ne (show j ≠ (pair p (1 + p.n + l)).2 by omega)]; ring
    · rw [del_ne q]; ring
  · obtain ⟨a, b, c⟩ := sp l l1 l2
    have d : ∀ x y : Nat → K, dot p.n x y = dot p.n y x := fun x y => Finset.sum_congr rfl fun t _ => mul_comm _ _
    have e1 : dot p.n (s.xpt (side p s.fval (pair p (1 + p.n + l)).1)) (s.xpt i) = arm p s (pair p (1 + p.n + l)).1 * s.xpt i (pair p (1 + p.n + l)).1 := by
      rw [d, ← dot_del (show 1 ≤ (pair p (1 + p.n + l)).1 by omega) c (s.xpt i)]
      exact dot_congr (fun _ _ _ => rfl) (fun j _ _ => (h.axis hp l1 l2 j).1)
    have e2 : dot p.n (s.xpt (side p s.fval (pair p (1 + p.n + l)).2)) (s.xpt i) = arm p s (pair p (1 + p.n + l)).2 * s.xpt i (pair p (1 + p.n + l)).2 := by
      rw [d, ← dot_del a (show (pair p (1 + p.n + l)).2 ≤ p.n by omega) (s.xpt i)]
      exact dot_congr (fun _ _ _ => rfl) (fun j _ _ => (h.axis hp l1 l2 j).2)
    show dot p.n (s.xpt (side p s.fval (pair p (1 + p.n + l)).1)) (s.xpt i) * dot p.n (s.xpt (side p s.fval (pair p (1 + p.n + l)).2)) (s.xpt i) = _
    rw [e1, e2]
    by_cases q : i = 1 + p.n + l
    · have e : ∀ j, s.xpt i j = arm p s (pair p (1 + p.n + l)).1 * del j (pair p (1 + p.n + l)).1 + arm p s (pair p (1 + p.n + l)).2 * del j (pair p (1 + p.n + l)).2 := by
        intro j
        rw [q, h.pts.p4 l j l1 (by omega), (h.axis hp l1 l2 j).1, (h.axis hp l1 l2 j).2]
      rw [show (del i (1 + p.n + l) : K) = 1 from if_pos q, e, e, del_self, del_self, del_ne (show (pair p (1 + p.n + l)).1 ≠ (pair p (1 + p.n + l)).2 by omega),
        del_ne (show (pair p (1 + p.n + l)).2 ≠ (pair p (1 + p.n + l)).1 by omega)]
      have u := arm_sq p s (pair p (1 + p.n + l)).1
      have v := arm_sq p s (pair p (1 + p.n + l)).2
      linear_combination (p.rhobeg * p.rhobeg) * v + arm p s (pair p (1 + p.n + l)).2 * arm p s (pair p (1 + p.n + l)).2 * u
    · rw [del_ne q, mul_zero]
      rcases h.kinds hp i1 i2 with ⟨t, α, t1, t2, e⟩ | ⟨l', l1', l2', i', e⟩
      · rw [e, e]
        by_cases w : (pair p (1 + p.n + l)).1 = t
        · rw [del_ne (show (pair p (1 + p.n + l)).2 ≠ t by omega)]; ring
        · rw [del_ne w]; ring
      · obtain ⟨a', b', c'⟩ := sp l' l1' l2'
        rw [e, e]
        have ne : ¬((pair p (1 + p.n + l)).1 = (pair p (1 + p.n + l')).1 ∧ (pair p (1 + p.n + l)).2 = (pair p (1 + p.n + l')).2) := by
          intro w
          have := pair_inj hp (a := 1 + p.n + l) (b := 1 + p.n + l') (by omega) (by omega) (by omega) (by omega) (Prod.ext w.1 w.2)
          omega
        generalize (pair p (1 + p.n + l)).1 = x1 at *
        generalize (pair p (1 + p.n + l)).2 = x2 at *
        generalize (pair p (1 + p.n + l')).1 = y1 at *
        generalize (pair p (1 + p.n + l')).2 = y2 at *
        by_cases w1 : x1 = y1
        · rw [del_ne (show x2 ≠ y1 by omega), del_ne (show x2 ≠ y2 by omega)]; ring
        · by_cases w2 : x1 = y2
          · rw [del_ne (show x2 ≠ y1 by omega), del_ne (show x2 ≠ y2 by omega)]; ring
          · rw [del_ne w1, del_ne w2]; ring
  · by_cases q : 1 ≤ l
    · rw [h.b.b2 k l q l1 l2 (by omega), del_ne (show k ≠ p.npt + l by omega)]; ring
    · omega
  · split_ifs with c
    · rw [h.b.b2 _ l l1 l2 c (by omega), del_ne (show p.npt + i ≠ 1 + l by omega), del_ne (show p.npt + i ≠ 1 by omega)]
      by_cases w : i = l
      · rw [w, del_self, del_self]; ring
      · rw [del_ne w, del_ne (show p.npt + i ≠ p.npt + l by omega)]; ring
    · rw [h.b.b1 _ l l1 l2 (by omega) (by omega), del_ne (show p.npt + i ≠ 1 + l by omega), del_ne (show p.npt + i ≠ 1 + p.n + l by omega)]; ring

include hp h hsqrt in
theorem Begun.inverse : Inverse p s := by
  exact ⟨fun i => del i 1, (h.cfg hp hsqrt).good⟩

include hp h in
theorem Begun.quad_eq (y : Nat → K) : s.quad p y = dot p.n s.gq y + hform p.n s.hq y := by
  unfold St.quad qval
  rw [Finset.sum_eq_zero (fun k _ => by rw [h.pq k, zero_mul])]
  ring

include hp h in
theorem Begun.value1 {i : Nat} (i1 : 1 ≤ i) (i2 : i ≤ p.npt) (c2 : i ≤ 2 * p.n + 1) : s.quad p (s.xpt i) = s.fval i - s.fval 1 := by
  have n1 := hp.n1
  have nm := hp.nptm
  have hr := hp.r.ne'
  have ax : ∀ (y : Nat → K) a α, 1 ≤ a → a ≤ p.n → (∀ j, y j = α * del j a) → s.quad p y = α * s.gq a + 1 / 2 * s.hq a a * (α * α) := by
    intro y a α a1 a2 e
    have : y = fun t => α * del t a := funext e
    rw [this, h.quad_eq hp, dot_del a1 a2, hform_one a1 a2]
  by_cases c0 : i = 1
  · rw [c0, ax _ 1 0 (le_refl _) n1 (fun j => by rw [h.pts.p1 j, zero_mul])]; ring
  by_cases c1 : i ≤ p.n + 1
  · obtain ⟨l, rfl⟩ : ∃ l, i = 1 + l := ⟨i - 1, by omega⟩
    rw [ax _ l p.rhobeg (by omega) (by omega) (fun j => h.pts.p2 l j (by omega) (by omega) (by omega))]
    by_cases c : 1 + p.n + l ≤ p.npt
    · rw [h.q.g2 l (by omega) (by omega) c, h.q.h1 l (by omega) (by omega) c]
      field_simp; ring
    · rw [h.q.g1 l (by omega) (by omega) (by omega) (by omega), h.q.h0 l (by omega) (by omega) (by omega)]
      field_simp; ring
  · obtain ⟨l, rfl⟩ : ∃ l, i = 1 + p.n + l := ⟨i - 1 - p.n, by omega⟩
    rw [ax _ l (-p.rhobeg) (by omega) (by omega) (fun j => h.pts.p3 l j (by omega) (by omega) (by omega))]
    rw [h.q.g2 l (by omega) (by omega) (by omega), h.q.h1 l (by omega) (by omega) (by omega)]
    field_simp; ring

include hp h in
theorem Begun.value {i : Nat} (i1 : 1 ≤ i) (i2 : i ≤ p.npt) : s.quad p (s.xpt i) = s.fval i - s.fval 1 := by
  have n1 := hp.n1
  have nm := hp.nptm
  have hr := hp.r.ne'
  have ax : ∀ (y : Nat → K) a α, 1 ≤ a → a ≤ p.n → (∀ j, y j = α * del j a) → s.quad p y = α * s.gq a + 1 / 2 * s.hq a a * (α * α) := by
    intro y a α a1 a2 e
    have : y = fun t => α * del t a := funext e
    rw [this, h.quad_eq hp, dot_del a1 a2, hform_one a1 a2]
  by_cases c2 : i ≤ 2 * p.n + 1
  · exact h.value1 hp i1 i2 c2
  · obtain ⟨l, rfl⟩ : ∃ l, i = 1 + p.n + l := ⟨i - 1 - p.n, by omega⟩
    obtain ⟨q1, q2, q3⟩ := pair_spec hp (nf := 1 + p.n + l) (by omega) (by omega)
    have e : s.xpt (1 + p.n + l) = fun j => arm p s (pair p (1 + p.n + l)).1 * del j (pair p (1 + p.n + l)).1 + arm p s (pair p (1 + p.n + l)).2 * del j (pair p (1 + p.n + l)).2 := by
      funext j
      rw [h.pts.p4 l j (by omega) (by omega), (h.axis hp (by omega) (by omega) j).1, (h.axis hp (by omega) (by omega) j).2]
    have s1 : s.quad p (fun j => arm p s (pair p (1 + p.n + l)).1 * del j (pair p (1 + p.n + l)).1) = s.fval (side p s.fval (pair p (1 + p.n + l)).1) - s.fval 1 := by
      have w := h.value1 hp (i := side p s.fval (pair p (1 + p.n + l)).1) (by have := side_ge p s.fval (i := (pair p (1 + p.n + l)).1) (by omega); omega)
        (by have := side_le p s.fval (i := (pair p (1 + p.n + l)).1) (by omega); omega) (side_le p s.fval (by omega))
      rw [← w]
      exact congrArg (s.quad p) (funext fun j => ((h.axis hp (by omega) (by omega) j).1).symm)
    have s2 : s.quad p (fun j => arm p s (pair p (1 + p.n + l)).2 * del j (pair p (1 + p.n + l)).2) = s.fval (side p s.fval (pair p (1 + p.n + l)).2) - s.fval 1 := by
      have w := h.value1 hp (i := side p s.fval (pair p (1 + p.n + l)).2) (by have := side_ge p s.fval (i := (pair p (1 + p.n + l)).2) (by omega); omega)
        (by have := side_le p s.fval (i := (pair p (1 + p.n + l)).2) (by omega); omega) (side_le p s.fval (by omega))
      rw [← w]
      exact congrArg (s.quad p) (funext fun j => ((h.axis hp (by omega) (by omega) j).2).symm)
    have h2 := h.q.h2 l (by omega) i2
    change _ = _ / (arm p s (pair p (1 + p.n + l)).1 * arm p s (pair p (1 + p.n + l)).2) at h2
    have arm0 : ∀ i, arm p s i ≠ 0 := fun i => by unfold arm; split_ifs <;> [exact neg_ne_zero.mpr hr; exact hr]
    rw [eq_div_iff (mul_ne_zero (arm0 _) (arm0 _))] at h2
    rw [ax _ _ _ (by omega) q3 (fun _ => rfl)] at s1
    rw [ax _ _ _ q1 (by omega) (fun _ => rfl)] at s2
    rw [e, h.quad_eq hp, hform_two q1 q2 q3, dot_addr, dot_del (by omega) q3, dot_del q1 (by omega)]
    linear_combination s1 + s2 + h2

include hp h in
theorem Begun.interp : Interp p s := by
  intro k l k1 k2 l1 l2
  rw [h.value hp k1 k2, h.value hp l1 l2]
  ring

end

end Opk.Newuoa
