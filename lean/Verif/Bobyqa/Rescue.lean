import Verif.Bobyqa.Provisional
import Verif.Bobyqa.Ends

/-!
# `rescue` restores the interpolation, in exact arithmetic
-/
set_option linter.unusedSectionVars false
namespace Opk.Bobyqa
open Linalg CMath Cobyla Powell
open Newuoa (omega hform qval hform_congr omega_sym lit_half hcolumn betaOf lfun hform_one hform_two dot_del dot_addr)

section
variable {K : Type} [Field K] [LinearOrder K] [IsStrictOrderedRing K] [CMath K] [ExactMath K]

/-! ### The points of the inverse matrix in `rescue` -/

/-- The points of the inverse matrix: an original point, or a provisional one. -/
def mixed (s : St K) (k : Nat) : Nat → K :=
  match s.res.ptsid k with
  | none => s.xpt k
  | some id => rescuePoint s id

theorem mixed_none {s : St K} {k : Nat} (h : s.res.ptsid k = none) : mixed s k = s.xpt k := by unfold mixed; rw [h]

theorem mixed_some {s : St K} {k : Nat} {id : Nat × Nat} (h : s.res.ptsid k = some id) : mixed s k = rescuePoint s id := by unfold mixed; rw [h]

/-- The indices are those of provisional points. -/
def Ids (p : Par K) (s : St K) : Prop := ∀ k, 1 ≤ k → k ≤ p.npt → ∀ id, s.res.ptsid k = some id → IsId p id

theorem dot_point {p : Par K} (s : St K) {id : Nat × Nat} (h : IsId p id) (y : Nat → K) :
    Powell.dot p.n (rescuePoint s id) y = (if id.1 = 0 then 0 else s.res.aux1 id.1 * y id.1) + (if id.2 = 0 then 0 else (if id.1 = 0 then s.res.aux2 id.2 else s.res.aux1 id.2) * y id.2) := by
  obtain ⟨a, b⟩ := id
  rw [rescuePoint_eq s (by rcases h with h | h <;> omega), Powell.dot_comm]
  unfold IsId at h
  dsimp only at h ⊢
  by_cases ha : a = 0
  · subst ha
    rw [if_pos rfl, if_neg (show ¬ b = 0 by omega), if_pos rfl, zero_add, ← dot_del (n := p.n) (i := b) (by omega) (by omega)]
    exact Newuoa.dot_congr (fun _ _ _ => rfl) (fun j _ _ => provPoint_two _ _ (by omega) j)
  · rw [if_neg ha, if_neg ha, ← dot_del (n := p.n) (i := a) (by omega) (by omega)]
    by_cases hb : b = 0
    · subst hb
      rw [if_pos rfl, add_zero]
      exact Newuoa.dot_congr (fun _ _ _ => rfl) (fun j _ _ => provPoint_one _ _ ha j)
    · rw [if_neg hb, ← dot_del (n := p.n) (i := b) (by omega) (by omega), ← dot_addr]
      exact Newuoa.dot_congr (fun _ _ _ => rfl) (fun j _ _ => provPoint_both _ _ ha hb j)

theorem rescueProd_eq {p : Par K} {s : St K} (hid : Ids p s) (hz : mixed s s.kopt = fun _ => 0) (y : Nat → K) {k : Nat} (k1 : 1 ≤ k) (k2 : k ≤ p.npt) :
    rescueProd p s y k = Powell.dot p.n (mixed s k) y := by
  unfold rescueProd
  by_cases c : k ≠ s.kopt
  · rw [if_pos c]
    cases e : s.res.ptsid k with
    | none =>
      rw [mixed_none e]
      show acc p.n (fun j => y j * s.xpt k j) 0 = _
      rw [acc_eq, zero_add, Powell.dot_comm]
      rfl
    | some id =>
      have q := hid k k1 k2 id e
      rw [mixed_some e, dot_point s q]
      obtain ⟨a, b⟩ := id
      dsimp only
      unfold IsId at q
      dsimp only at q
      by_cases ha : a = 0
      · rw [if_neg (show ¬ a > 0 by omega), if_pos (show b > 0 by omega), if_neg (not_not.mpr ha), if_pos ha, if_pos ha, if_neg (show ¬ b = 0 by omega)]; ring
      · rw [if_pos (show a > 0 by omega), if_neg ha, if_pos ha, if_neg ha]
        by_cases hb : b = 0
        · rw [if_neg (show ¬ b > 0 by omega), if_pos hb]; ring
        · rw [if_pos (show b > 0 by omega), if_neg hb]; ring
  · rw [if_neg c, not_not.mp c, hz]
    exact (Finset.sum_eq_zero fun i _ => zero_mul _).symm

/-- `VLAG` and `BETA` in `rescue`. -/
theorem rescueVlag_spec {p : Par K} {s : St K} {c : Nat → K} (h : Good p.n p.npt (mixed s) (omega p.nptm s.zmat) s.bmat c)
    (k1 : 1 ≤ s.kopt) (k2 : s.kopt ≤ p.npt) (hid : Ids p s) (hz : mixed s s.kopt = fun _ => 0) (y : Nat → K) :
    (∀ i, 1 ≤ i → i ≤ p.npt + p.n → (rescueVlag p s y).1 i = hcolumn p.nw ({ s with xpt := mixed s } : St K).nw c y i) ∧
    (rescueVlag p s y).2 = betaOf p.nw ({ s with xpt := mixed s } : St K).nw c y := by
  obtain ⟨t, ht⟩ : ∃ t : St K, t = { s with xpt := mixed s, xopt := fun _ => 0, xoptsq := 0, d := y } := ⟨_, rfl⟩
  have t1 : t.xpt = mixed s := by rw [ht]
  have t2 : t.zmat = s.zmat := by rw [ht]
  have t3 : t.bmat = s.bmat := by rw [ht]
  have t4 : t.kopt = s.kopt := by rw [ht]
  have t5 : t.xopt = fun _ => 0 := by rw [ht]
  have t6 : t.xoptsq = 0 := by rw [ht]
  have t7 : t.d = y := by rw [ht]
  obtain ⟨v1, v2⟩ := vlagBeta_spec (p := p) (s := t) (c := c) (by rw [t1, t2, t3]; exact h) (by rw [t4]; exact k1) (by rw [t4]; exact k2) (by rw [t1, t4, t5, hz])
    (by rw [t5, t6]; exact (Finset.sum_eq_zero fun i _ => zero_mul _).symm)
  have ey : (fun j => t.xopt j + t.d j) = y := by rw [t5, t7]; funext j; exact zero_add _
  have ec : ∀ i, hcolumn p.nw t.nw c y i = hcolumn p.nw ({ s with xpt := mixed s } : St K).nw c y i := fun i => by rw [ht]; rfl
  have eb : betaOf p.nw t.nw c y = betaOf p.nw ({ s with xpt := mixed s } : St K).nw c y := by rw [ht]; rfl
  rw [ey] at v1 v2
  have hw : ∀ k, 1 ≤ k → k ≤ p.npt → lit 1 2 * rescueProd p s y k * rescueProd p s y k = wvec p t k := by
    intro k q1 q2
    unfold wvec ptsD
    rw [t1, t5, t7, rescueProd_eq hid hz y q1 q2, acc_eq, acc_eq, zero_add, Finset.sum_eq_zero (s := Finset.Icc 1 p.n) (f := fun j => mixed s k j * (0 : K)) (fun j _ => mul_zero _)]
    unfold Powell.dot
    ring
  have s1 : ∀ j, acc p.npt (fun k => s.zmat k j * (lit 1 2 * rescueProd p s y k * rescueProd p s y k)) 0 = acc p.npt (fun k => t.zmat k j * wvec p t k) 0 := by
    intro j
    rw [acc_eq, acc_eq, t2]
    congr 1
    refine Finset.sum_congr rfl fun k hk => ?_
    rw [Finset.mem_Icc] at hk
    rw [hw k hk.1 hk.2]
  have s2 : ∀ j, acc p.npt (fun k => s.bmat k j * (lit 1 2 * rescueProd p s y k * rescueProd p s y k)) 0 = acc p.npt (fun k => wvec p t k * t.bmat k j) 0 := by
    intro j
    rw [acc_eq, acc_eq, t3]
    congr 1
    refine Finset.sum_congr rfl fun k hk => ?_
    rw [Finset.mem_Icc] at hk
    rw [hw k hk.1 hk.2, mul_comm]
  have s3 : ∀ j, 1 ≤ j → j ≤ p.n → ∀ a, acc p.n (fun i => s.bmat (p.npt + i) j * y i) a = acc p.n (fun i => t.bmat (p.npt + j) i * t.d i) a := by
    intro j j1 j2 a
    rw [acc_eq, acc_eq, t3, t7]
    congr 1
    refine Finset.sum_congr rfl fun i hi => ?_
    rw [Finset.mem_Icc] at hi
    rw [h.bsym i j hi.1 hi.2 j1 j2]
  have main : ∀ i, 1 ≤ i → i ≤ p.npt + p.n →
      (if i ≤ p.npt then acc p.nptm (fun j => acc p.npt (fun k => s.zmat k j * (lit 1 2 * rescueProd p s y k * rescueProd p s y k)) 0 * s.zmat i j) (acc p.n (fun j => s.bmat i j * y j) 0)
        else acc p.n (fun l => s.bmat (p.npt + l) (i - p.npt) * y l) (acc p.npt (fun k => s.bmat k (i - p.npt) * (lit 1 2 * rescueProd p s y k * rescueProd p s y k)) 0))
      = if i ≤ p.npt then acc p.nptm (fun j => acc p.npt (fun k => t.zmat k j * wvec p t k) 0 * t.zmat i j) (acc p.n (fun j => t.bmat i j * t.d j) 0)
        else acc p.n (fun l => t.bmat (p.npt + (i - p.npt)) l * t.d l) (acc p.npt (fun k => wvec p t k * t.bmat k (i - p.npt)) 0) := by
    intro i i1 i2
    by_cases c : i ≤ p.npt
    · rw [if_pos c, if_pos c]
      simp only [s1]
      rw [t2, t3, t7]
    · rw [if_neg c, if_neg c, s2, s3 (i - p.npt) (by omega) (by omega)]
  constructor
  · intro i i1 i2
    rw [← ec, ← v1 i i1 i2]
    unfold rescueVlag vlagBeta set1
    dsimp only
    rw [t4]
    by_cases q : i = s.kopt
    · rw [if_pos q, if_pos q]
      exact congrArg (· + 1) (main s.kopt k1 (by omega))
    · rw [if_neg q, if_neg q]
      exact main i i1 i2
  · rw [← eb, ← v2]
    unfold rescueVlag vlagBeta
    dsimp only
    have d0 : acc p.n (fun j => t.d j * t.xopt j) 0 = 0 := by
      rw [acc_eq, zero_add, t5]
      exact Finset.sum_eq_zero fun j _ => mul_zero _
    have u : up p.n (fun j u => u + acc p.npt (fun k => s.bmat k j * (lit 1 2 * rescueProd p s y k * rescueProd p s y k)) 0 * y j
          + acc p.n (fun i => s.bmat (p.npt + i) j * y i) (acc p.npt (fun k => s.bmat k j * (lit 1 2 * rescueProd p s y k * rescueProd p s y k)) 0) * y j) 0
        = up p.n (fun j u => u + acc p.npt (fun k => wvec p t k * t.bmat k j) 0 * t.d j
          + acc p.n (fun i => t.bmat (p.npt + j) i * t.d i) (acc p.npt (fun k => wvec p t k * t.bmat k j) 0) * t.d j) 0 :=
      up_congr fun j j1 j2 u => by rw [s2, s3 j j1 j2, t7]
    rw [u, d0, t6]
    simp only [s1]
    rw [t7]
    ring

/-! ### The beginning of `rescue` -/

/-- `HQ` after the shift in `rescue`. -/
theorem rescueH_eq (p : Par K) (s : St K) : rescueH p s (fun k j => s.xpt k j - s.xopt j) = (shift p s).hq := by
  funext i j
  have e : ∀ i, acc p.npt (fun k => s.pq k * (s.xpt k i - s.xopt i)) (lit 1 2 * acc p.npt (fun k => s.pq k) 0 * s.xopt i)
      = acc p.npt (fun k => s.pq k * s.xpt k i) (-lit 1 2 * acc p.npt (fun k => s.pq k) 0 * s.xopt i) := by
    intro i
    rw [acc_eq, acc_eq, acc_eq, zero_add, lit_half]
    simp only [mul_sub]
    rw [Finset.sum_sub_distrib, ← Finset.sum_mul]
    ring
  show s.hq i j + _ * s.xopt j + _ * s.xopt i = s.hq i j + acc p.npt (fun k => s.pq k * s.xpt k i) _ * s.xopt j + s.xopt i * acc p.npt (fun k => s.pq k * s.xpt k j) _
  dsimp only
  rw [e, e]
  ring

theorem rescueInit_model (p : Par K) (s : St K) (z : Nat → K) : (rescueInit p s).quad p z = s.quad p z := by
  rw [← shift_model p s z]
  show qval p.n p.npt (fun k j => s.xpt k j - s.xopt j) s.gopt (rescueH p s _) s.pq z = qval p.n p.npt _ _ (shift p s).hq _ z
  rw [rescueH_eq]
  rfl

/-- What is true in the first part of `rescue`. -/
structure Prov (p : Par K) (s : St K) : Prop where
  inv : ∃ c, Good p.n p.npt (mixed s) (omega p.nptm s.zmat) s.bmat c
  ids : Ids p s
  zero : ∀ k, 1 ≤ k → k ≤ p.npt → s.res.ptsid k = none → s.res.wdist k = 0
  opt : s.xpt s.kopt = fun _ => 0
  own : s.res.ptsid s.kopt = none
  xo : s.xopt = fun _ => 0
  fit : ∀ k, 1 ≤ k → k ≤ p.npt → s.quad p (s.xpt k) = s.fval k - s.fval s.kopt
  fb : s.res.fbase = s.fval s.kopt
  nrem : s.res.nrem = ((Finset.Icc 1 p.npt).filter fun k => s.res.ptsid k ≠ none).card
  nf : p.npt ≤ s.nfsav
  kpt : s.res.kpt = 1

theorem Prov.origin {p : Par K} {s : St K} (h : Prov p s) : mixed s s.kopt = fun _ => 0 := by rw [mixed_none h.own, h.opt]

/-- Before `rescue`: nothing is known of `BMAT` and `ZMAT`. -/
structure Hurt (p : Par K) (s : St K) : Prop where
  int : Interp p s
  xo : s.xopt = s.xpt s.kopt
  nf : p.npt ≤ s.nf

/-- The first exchange: the best point takes the place of the provisional point which is the origin. -/
theorem hurt_r80 (hsqrt : ∀ a : K, 0 ≤ a → 0 ≤ CMath.sqrt a ∧ CMath.sqrt a * CMath.sqrt a = a) {p : Par K} (hp : Newuoa.Valid p.nw)
    (hw : ∀ i, 1 ≤ i → i ≤ p.n → p.xl i < p.xu i) {s : St K} (h : Hurt p s) (ho : Ok p .l190 s) :
    (r80 p (l190 p s).2).1 = .r120 ∧ Prov p (r80 p (l190 p s).2).2 := by
  obtain ⟨fu, xo, rad, -, -⟩ := ho
  have k1 := fu.kopt1
  have k2 := fu.koptn
  have hend : 0 < p.rhoend := hp.rend
  have hdel : 0 < s.delta := lt_of_lt_of_le (lt_of_lt_of_le hend rad.1) rad.2
  obtain ⟨a1, ha1⟩ : ∃ a1 : Nat → K, a1 = fun j => (auxPair s.delta (s.sl j - s.xopt j) (s.su j - s.xopt j)).1 := ⟨_, rfl⟩
  obtain ⟨a2, ha2⟩ : ∃ a2 : Nat → K, a2 = fun j => (auxPair s.delta (s.sl j - s.xopt j) (s.su j - s.xopt j)).2 := ⟨_, rfl⟩
  have aux : ∀ l, 1 ≤ l → l ≤ p.n → a1 l ≠ 0 ∧ a2 l ≠ 0 ∧ a1 l - a2 l ≠ 0 := by
    intro l l1 l2
    have w := fu.xopt_within xo l l1 l2
    have g := fu.geo l l1 l2
    have q := hw l l1 l2
    rw [ha1, ha2]
    exact auxPair_ne s.delta _ _ hdel (by linarith [w.1]) (by linarith [w.2]) (by rw [g.1, g.2]; linarith)
  have g0 := rescue_first hsqrt hp a1 a2 aux
  have g1 := Good.swap (a := 1) (b := s.kopt) (le_refl 1) (by omega) k1 k2 g0
  obtain ⟨r, hr⟩ : ∃ r, r = (r80 p (l190 p s).2) := ⟨_, rfl⟩
  have er : r = (.r120, { (l190 p s).2 with bmat := swapRows (rescueB p a1 a2) 1 s.kopt, zmat := swapRows (rescueZ p a1 a2) 1 s.kopt, res := { (l190 p s).2.res with ptsid := set1 (set1 (rescueId p) 1 (rescueId p s.kopt)) s.kopt none, wdist := set1 (l190 p s).2.res.wdist s.kopt 0, nrem := p.npt - 1 } }) := by
    rw [hr]
    unfold r80
    dsimp only
    rw [if_neg (not_not.mpr (show (l190 p s).2.res.knew = (l190 p s).2.kopt from rfl)), ha1, ha2]
    rfl
  rw [← hr]
  have r0 : r.1 = .r120 := by rw [er]
  have r1 : r.2.res.ptsid = set1 (set1 (rescueId p) 1 (rescueId p s.kopt)) s.kopt none := by rw [er]
  have r2 : r.2.xpt = fun k j => s.xpt k j - s.xopt j := by rw [er]; rfl
  have r3 : r.2.kopt = s.kopt := by rw [er]; rfl
  have r4 : r.2.res.aux1 = a1 := by rw [er, ha1]; rfl
  have r5 : r.2.res.aux2 = a2 := by rw [er, ha2]; rfl
  have r6 : r.2.bmat = fun k => rescueB p a1 a2 (Equiv.swap 1 s.kopt k) := by rw [er, ← swapRows_eq]
  have r7 : r.2.zmat = fun k => rescueZ p a1 a2 (Equiv.swap 1 s.kopt k) := by rw [er, ← swapRows_eq]
  have r8 : r.2.res.wdist s.kopt = 0 := by rw [er]; exact if_pos rfl
  have r9 : r.2.xopt = fun _ => 0 := by rw [er]; rfl
  have r10 : r.2.fval = s.fval := by rw [er]; rfl
  have r11 : r.2.res.fbase = s.fval s.kopt := by rw [er]; rfl
  have r12 : r.2.res.nrem = p.npt - 1 := by rw [er]
  have r13 : r.2.nfsav = s.nf := by rw [er]; rfl
  have r14 : r.2.res.kpt = 1 := by rw [er]; rfl
  have r15 : ∀ z, r.2.quad p z = s.quad p z := by
    intro z
    rw [er]
    exact rescueInit_model p { s with nfsav := s.nf, kbase := s.kopt } z
  clear er hr
  have pk : r.2.res.ptsid s.kopt = none := by rw [r1]; exact if_pos rfl
  have po : ∀ k, k ≠ s.kopt → r.2.res.ptsid k = rescueId p (Equiv.swap 1 s.kopt k) := by
    intro k hk
    rw [r1]
    unfold set1
    rw [if_neg hk]
    by_cases c : k = 1
    · rw [if_pos c, c, Equiv.swap_apply_left]
    · rw [if_neg c, Equiv.swap_apply_of_ne_of_ne c hk]
  have sw : ∀ k, 1 ≤ k → k ≤ p.npt → k ≠ s.kopt → 2 ≤ Equiv.swap 1 s.kopt k ∧ Equiv.swap 1 s.kopt k ≤ p.npt := by
    intro k q1 q2 q3
    have := swap_cases 1 s.kopt k
    omega
  have ids : ∀ k, 1 ≤ k → k ≤ p.npt → k ≠ s.kopt → ∃ id, r.2.res.ptsid k = some id ∧ IsId p id := by
    intro k q1 q2 q3
    rw [po k q3]
    exact rescueId_spec hp (sw k q1 q2 q3).1 (sw k q1 q2 q3).2
  refine ⟨r0, ⟨fun i => del (Equiv.swap 1 s.kopt i) 1, ?_⟩, ?_, ?_, ?_, ?_, r9, ?_, ?_, ?_, by rw [r13]; exact h.nf, r14⟩
  · rw [r6, show omega p.nptm r.2.zmat = fun i j => omega p.nptm (rescueZ p a1 a2) (Equiv.swap 1 s.kopt i) (Equiv.swap 1 s.kopt j) by rw [r7]; rfl]
    refine g1.congr fun k j q1 q2 _ _ => ?_
    by_cases c : k = s.kopt
    · rw [c, mixed_none pk, r2, Equiv.swap_apply_right, provFirst_one]
      show s.xpt s.kopt j - s.xopt j = 0
      rw [h.xo, sub_self]
    · obtain ⟨id, e1, e2⟩ := ids k q1 q2 c
      rw [mixed_some e1, rescuePoint_eq r.2 (by rcases e2 with e2 | e2 <;> omega), r4, r5]
      unfold provFirst
      rw [← po k c, e1]
      rfl
  · intro k q1 q2 id e
    by_cases c : k = s.kopt
    · rw [c, pk] at e; cases e
    · obtain ⟨id', e1, e2⟩ := ids k q1 q2 c
      rw [e1] at e
      cases e
      exact e2
  · intro k q1 q2 e
    by_cases c : k = s.kopt
    · rw [c, r8]
    · obtain ⟨id', e1, e2⟩ := ids k q1 q2 c
      rw [e1] at e
      cases e
  · rw [r2, r3]
    funext j
    show s.xpt s.kopt j - s.xopt j = 0
    rw [h.xo, sub_self]
  · rw [r3]; exact pk
  · intro k q1 q2
    rw [r15, r2, r10, r3]
    exact h.int k q1 q2
  · rw [r11, r10, r3]
  · rw [r12]
    have e : ((Finset.Icc 1 p.npt).filter fun k => r.2.res.ptsid k ≠ none) = (Finset.Icc 1 p.npt).erase s.kopt := by
      ext k
      rw [Finset.mem_filter, Finset.mem_erase, Finset.mem_Icc]
      constructor
      · rintro ⟨q1, q2⟩
        exact ⟨fun e => q2 (by rw [e]; exact pk), q1⟩
      · rintro ⟨q1, q2⟩
        refine ⟨q2, fun e => ?_⟩
        obtain ⟨id, e1, -⟩ := ids k q2.1 q2.2 q1
        rw [e1] at e
        cases e
    rw [e, Finset.card_erase_of_mem (Finset.mem_Icc.mpr ⟨k1, k2⟩), Nat.card_Icc]
    omega

/-! ### An original point takes the place of a provisional one -/

/-- Before an exchange. -/
structure Trade (p : Par K) (s : St K) : Prop where
  prov : Prov p s
  n1 : 1 ≤ s.res.knew
  n2 : s.res.knew ≤ p.npt
  o1 : 1 ≤ s.res.kold
  o2 : s.res.kold ≤ p.npt
  kn : s.res.ptsid s.res.knew ≠ none
  ko : s.res.ptsid s.res.kold ≠ none
  lag : ∀ c, Good p.n p.npt (mixed s) (omega p.nptm s.zmat) s.bmat c →
    (∀ i, 1 ≤ i → i ≤ p.npt + p.n → s.vlag i = hcolumn p.nw ({ s with xpt := mixed s } : St K).nw c (s.xpt s.res.knew) i) ∧
    s.res.beta = betaOf p.nw ({ s with xpt := mixed s } : St K).nw c (s.xpt s.res.knew)
  den : omega p.nptm s.zmat s.res.kold s.res.kold * s.res.beta + s.vlag s.res.kold * s.vlag s.res.kold = s.res.denom
  pos : 0 < s.res.denom

/-- After the last exchange, or after the last new point. -/
structure Filled (p : Par K) (s : St K) : Prop where
  inv : Inverse p s
  fit : ∀ k, 1 ≤ k → k ≤ p.npt → s.quad p (s.xpt k) = s.fval k - s.fval s.kbase
  base : s.xpt s.kbase = fun _ => 0
  xo : s.xopt = fun _ => 0
  nf : p.npt ≤ s.nfsav
  kpt : s.res.kpt ≠ 0

theorem set_swap {α : Type} (v : Nat → α) (a b : Nat) : set1 (set1 v a (v b)) b (v a) = fun i => v (Equiv.swap a b i) := by
  funext i
  unfold set1
  rcases swap_cases a b i with ⟨h1, h2, h3⟩ | ⟨h1, h2⟩ | ⟨h1, h2⟩
  · rw [if_neg h3, if_neg h2, h1]
  · by_cases e : i = b
    · rw [if_pos e, h2, ← h1, e]
    · rw [if_neg e, if_pos h1, h2]
  · rw [if_pos h1, h2]

/-- The rotations of the exchange are accurate. -/
def Exact80 (p : Par K) (s : St K) : Prop := s.res.knew ≠ s.kopt → Spread p (swapRows s.zmat s.res.kold s.res.knew) s.res.knew

theorem prov_r80 (hsqrt : ∀ a : K, 0 ≤ a → 0 ≤ CMath.sqrt a ∧ CMath.sqrt a * CMath.sqrt a = a) {p : Par K} (hp : Newuoa.Valid p.nw) {s : St K} (h : Trade p s)
    (hb : s.kopt = s.kbase) (he : Exact80 p s) :
    ((r80 p s).1 = .l190b ∧ Filled p (r80 p s).2) ∨ ((r80 p s).1 = .r120 ∧ Prov p (r80 p s).2) := by
  have nm := nptm_eq hp
  have hlow : p.n + 2 ≤ p.npt := hp.lo
  have ne : s.res.knew ≠ s.kopt := fun e => h.kn (by rw [e]; exact h.prov.own)
  have nk : s.kopt ≠ s.res.kold := fun e => h.ko (by rw [← e]; exact h.prov.own)
  have hs := he ne
  obtain ⟨c, g⟩ := h.prov.inv
  obtain ⟨l1, l2⟩ := h.lag c g
  have g1 := Good.swap (a := s.res.kold) (b := s.res.knew) h.o1 h.o2 h.n1 h.n2 g
  obtain ⟨v, hv⟩ : ∃ v : St K, v = { s with xpt := fun k => mixed s (Equiv.swap s.res.kold s.res.knew k), zmat := swapRows s.zmat s.res.kold s.res.knew, bmat := swapRows s.bmat s.res.kold s.res.knew, vlag := set1 (set1 s.vlag s.res.kold (s.vlag s.res.knew)) s.res.knew (s.vlag s.res.kold), beta := s.res.beta } := ⟨_, rfl⟩
  have v1 : v.xpt = fun k => mixed s (Equiv.swap s.res.kold s.res.knew k) := by rw [hv]
  have v2' : v.zmat = swapRows s.zmat s.res.kold s.res.knew := by rw [hv]
  have v3' : v.bmat = swapRows s.bmat s.res.kold s.res.knew := by rw [hv]
  have v4' : v.vlag = set1 (set1 s.vlag s.res.kold (s.vlag s.res.knew)) s.res.knew (s.vlag s.res.kold) := by rw [hv]
  have v5 : v.beta = s.res.beta := by rw [hv]
  have v2 : v.zmat = fun k => s.zmat (Equiv.swap s.res.kold s.res.knew k) := by rw [v2', swapRows_eq]
  have v3 : v.bmat = fun k => s.bmat (Equiv.swap s.res.kold s.res.knew k) := by rw [v3', swapRows_eq]
  have v4 : v.vlag = fun k => s.vlag (Equiv.swap s.res.kold s.res.knew k) := by rw [v4', set_swap]
  have so : omega p.nptm v.zmat = fun i j => omega p.nptm s.zmat (Equiv.swap s.res.kold s.res.knew i) (Equiv.swap s.res.kold s.res.knew j) := by rw [v2]; rfl
  have hg := update_good hsqrt (p := p) (by omega) (s := v) (c := fun i => c (Equiv.swap s.res.kold s.res.knew i)) (by rw [v1, so, v3]; exact g1) h.n1 h.n2 (by rw [v2']; exact hs)
    (x := s.xpt s.res.knew) (fun i i1 i2 => by
      rw [hcolumn_swap (s := { s with xpt := mixed s }) h.o1 h.o2 h.n1 h.n2 v1 v2 v3, v4]
      have q := swap_cases s.res.kold s.res.knew i
      have := h.o1; have := h.o2; have := h.n1; have := h.n2
      exact l1 _ (by omega) (by omega))
    (by rw [v5, betaOf_swap (s := { s with xpt := mixed s }) h.o1 h.o2 h.n1 h.n2 v1 v2 v3]; exact l2) (si := s.res.denom)
    (by rw [so, v4, v5]; dsimp only; rw [Equiv.swap_apply_right]; exact h.den) h.pos
  rw [v1, v2', v3', v4', v5] at hg
  obtain ⟨P, hP⟩ : ∃ P, P = set1 (set1 s.res.ptsid s.res.kold (s.res.ptsid s.res.knew)) s.res.knew none := ⟨_, rfl⟩
  obtain ⟨u, hu⟩ : ∃ u, u = update p (swapRows s.bmat s.res.kold s.res.knew) (swapRows s.zmat s.res.kold s.res.knew) (set1 (set1 s.vlag s.res.kold (s.vlag s.res.knew)) s.res.knew (s.vlag s.res.kold)) s.res.beta s.res.denom s.res.knew := ⟨_, rfl⟩
  rw [← hu] at hg
  have Pn : P s.res.knew = none := by rw [hP]; exact if_pos rfl
  have Po : ∀ k, k ≠ s.res.knew → k ≠ s.res.kold → P k = s.res.ptsid k := by
    intro k a b
    rw [hP]; unfold set1; rw [if_neg a, if_neg b]
  have Pk : s.res.kold ≠ s.res.knew → P s.res.kold = s.res.ptsid s.res.knew := by
    intro a
    rw [hP]; unfold set1; rw [if_neg a, if_pos rfl]
  have hM : ∀ t : St K, t.res.ptsid = P → t.xpt = s.xpt → t.res.aux1 = s.res.aux1 → t.res.aux2 = s.res.aux2 →
      mixed t = fun a i => if a = s.res.knew then s.xpt s.res.knew i else mixed s (Equiv.swap s.res.kold s.res.knew a) i := by
    intro t e1 e2 e3 e4
    have rp : ∀ id, rescuePoint t id = rescuePoint s id := fun id => by unfold rescuePoint; rw [e3, e4]
    funext a i
    by_cases q1 : a = s.res.knew
    · rw [if_pos q1, q1, mixed_none (by rw [e1]; exact Pn), e2]
    · rw [if_neg q1]
      by_cases q2 : a = s.res.kold
      · obtain ⟨id, hid⟩ := Option.ne_none_iff_exists'.mp h.kn
        rw [q2, Equiv.swap_apply_left, mixed_some hid, mixed_some (id := id) (by rw [e1, Pk (fun e => q1 (q2.trans e)), hid]), rp]
      · rw [Equiv.swap_apply_of_ne_of_ne q2 q1]
        have e5 : t.res.ptsid a = s.res.ptsid a := by rw [e1, Po a q1 q2]
        cases e6 : s.res.ptsid a with
        | none => rw [mixed_none e6, mixed_none (e5.trans e6), e2]
        | some id => rw [mixed_some e6, mixed_some (e5.trans e6), rp]
  have cnt : s.res.nrem - 1 = ((Finset.Icc 1 p.npt).filter fun k => P k ≠ none).card := by
    have e : ((Finset.Icc 1 p.npt).filter fun k => P k ≠ none) = ((Finset.Icc 1 p.npt).filter fun k => s.res.ptsid k ≠ none).erase s.res.knew := by
      ext k
      rw [Finset.mem_erase, Finset.mem_filter, Finset.mem_filter]
      constructor
      · rintro ⟨q1, q2⟩
        have q3 : k ≠ s.res.knew := fun e => q2 (by rw [e]; exact Pn)
        refine ⟨q3, q1, ?_⟩
        by_cases q4 : k = s.res.kold
        · rw [q4]; exact h.ko
        · rw [← Po k q3 q4]; exact q2
      · rintro ⟨q3, q1, q2⟩
        refine ⟨q1, ?_⟩
        by_cases q4 : k = s.res.kold
        · rw [q4, Pk (fun e => q3 (q4.trans e))]; exact h.kn
        · rw [Po k q3 q4]; exact q2
    rw [e, Finset.card_erase_of_mem (Finset.mem_filter.mpr ⟨Finset.mem_Icc.mpr ⟨h.n1, h.n2⟩, h.kn⟩), h.prov.nrem]
  have hkopt : P s.kopt = none := by rw [Po s.kopt (Ne.symm ne) nk]; exact h.prov.own
  have hids : ∀ k, 1 ≤ k → k ≤ p.npt → ∀ id, P k = some id → IsId p id := by
    intro k q1 q2 id e
    by_cases q3 : k = s.res.knew
    · rw [q3, Pn] at e; cases e
    · by_cases q4 : k = s.res.kold
      · rw [q4, Pk (fun e => q3 (q4.trans e))] at e
        exact h.prov.ids _ h.n1 h.n2 id e
      · rw [Po k q3 q4] at e
        exact h.prov.ids k q1 q2 id e
  have hzero : ∀ k, 1 ≤ k → k ≤ p.npt → P k = none → set1 s.res.wdist s.res.knew 0 k = 0 := by
    intro k q1 q2 e
    unfold set1
    by_cases q3 : k = s.res.knew
    · rw [if_pos q3]
    · rw [if_neg q3]
      by_cases q4 : k = s.res.kold
      · rw [q4, Pk (fun e => q3 (q4.trans e))] at e
        exact absurd e h.kn
      · rw [Po k q3 q4] at e
        exact h.prov.zero k q1 q2 e
  unfold r80
  dsimp only
  rw [if_pos ne, ← hu, ← hP]
  by_cases z : s.res.nrem - 1 = 0
  · rw [if_pos z]
    refine Or.inl ⟨rfl, ?_, ?_, ?_, h.prov.xo, h.prov.nf, ?_⟩
    · obtain ⟨c', hg⟩ := hg
      refine ⟨c', hg.congr fun k j q1 q2 _ _ => ?_⟩
      have e := hM { s with bmat := u.1, zmat := u.2.1, vlag := u.2.2, res := { s.res with ptsid := P, wdist := set1 s.res.wdist s.res.knew 0, nrem := s.res.nrem - 1 } } rfl rfl rfl rfl
      have w : P k = none := by
        by_contra w
        rw [cnt, Finset.card_eq_zero] at z
        exact absurd (Finset.mem_filter.mpr ⟨Finset.mem_Icc.mpr ⟨q1, q2⟩, w⟩) (by rw [z]; exact Finset.notMem_empty k)
      have e := congrFun (congrFun e k) j
      rw [mixed_none w] at e
      exact e
    · intro k q1 q2
      show s.quad p (s.xpt k) = s.fval k - s.fval s.kbase
      rw [← hb]
      exact h.prov.fit k q1 q2
    · show s.xpt s.kbase = fun _ => 0
      rw [← hb]
      exact h.prov.opt
    · show s.res.kpt ≠ 0
      rw [h.prov.kpt]
      exact one_ne_zero
  · rw [if_neg z]
    refine Or.inr ⟨rfl, ?_, hids, ?_, h.prov.opt, hkopt, h.prov.xo, h.prov.fit, h.prov.fb, cnt, h.prov.nf, h.prov.kpt⟩
    · have e := hM { s with bmat := u.1, zmat := u.2.1, vlag := u.2.2, res := { s.res with ptsid := P, wdist := fun k => fabs (set1 s.res.wdist s.res.knew 0 k), nrem := s.res.nrem - 1 } } rfl rfl rfl rfl
      rw [e]
      exact hg
    · intro k q1 q2 q3
      show fabs (set1 s.res.wdist s.res.knew 0 k) = 0
      rw [hzero k q1 q2 q3, ExactMath.fabs_eq, abs_zero]

/-! ### The choice of the points -/

theorem rescuePick_pos {p : Par K} (s : St K) (h : (rescuePick p s).2 ≠ 0) :
    1 ≤ (rescuePick p s).1 ∧ (rescuePick p s).1 ≤ p.npt ∧ 0 < s.res.wdist (rescuePick p s).1 := by
  have key := up_inv (s := ((s.res.knew, 0) : Nat × K)) (body := fun k (t : Nat × K) =>
      if s.res.wdist k > 0 ∧ (t.2 = 0 ∨ s.res.wdist k < t.2) then (k, s.res.wdist k) else t)
    (fun m (t : Nat × K) => t.2 ≠ 0 → 1 ≤ t.1 ∧ t.1 ≤ m ∧ 0 < s.res.wdist t.1) p.npt (fun h => absurd rfl h) (by
      intro m hm t ih
      split_ifs with c
      · exact fun _ => ⟨Nat.succ_pos m, le_rfl, c.1⟩
      · intro q
        obtain ⟨q1, q2, q3⟩ := ih q
        exact ⟨q1, by omega, q3⟩)
  exact key h

theorem rescueOld_den (p : Par K) (s : St K) (vlag : Nat → K) (beta : K) :
    0 ≤ (rescueOld p s vlag beta).2.2 ∧ ((rescueOld p s vlag beta).2.1 = 0 ∨
      (0 < (rescueOld p s vlag beta).2.1 ∧ s.res.ptsid (rescueOld p s vlag beta).1 ≠ none ∧ 1 ≤ (rescueOld p s vlag beta).1 ∧ (rescueOld p s vlag beta).1 ≤ p.npt ∧
        omega p.nptm s.zmat (rescueOld p s vlag beta).1 (rescueOld p s vlag beta).1 * beta + vlag (rescueOld p s vlag beta).1 * vlag (rescueOld p s vlag beta).1 = (rescueOld p s vlag beta).2.1)) := by
  have hdiag : ∀ k, acc p.nptm (fun j => s.zmat k j * s.zmat k j) 0 = omega p.nptm s.zmat k k := by
    intro k
    rw [acc_eq, zero_add]
    rfl
  unfold rescueOld
  dsimp only
  simp only [hdiag]
  refine up_inv (fun q (t : Nat × K × K) => 0 ≤ t.2.2 ∧ (t.2.1 = 0 ∨ (0 < t.2.1 ∧ s.res.ptsid t.1 ≠ none ∧ 1 ≤ t.1 ∧ t.1 ≤ q ∧
    omega p.nptm s.zmat t.1 t.1 * beta + vlag t.1 * vlag t.1 = t.2.1))) p.npt ⟨le_refl _, Or.inl rfl⟩ ?_
  rintro k hk ⟨a, b, c⟩ ⟨i1, i2⟩
  dsimp only at i1 i2 ⊢
  have hc : ∀ v : K, 0 ≤ cmax c v := fun v => by rw [cmax_eq]; exact le_max_of_le_left i1
  have i2' : b = 0 ∨ (0 < b ∧ s.res.ptsid a ≠ none ∧ 1 ≤ a ∧ a ≤ k + 1 ∧ omega p.nptm s.zmat a a * beta + vlag a * vlag a = b) := by
    rcases i2 with i2 | ⟨i3, i4, i5, i6, i7⟩
    · exact Or.inl i2
    · exact Or.inr ⟨i3, i4, i5, by omega, i7⟩
  have b0 : 0 ≤ b := by
    rcases i2 with i2 | ⟨i3, -⟩
    · exact i2.ge
    · exact i3.le
  by_cases e1 : s.res.ptsid (k + 1) ≠ none
  · rw [if_pos e1]
    by_cases e2 : beta * omega p.nptm s.zmat (k + 1) (k + 1) + vlag (k + 1) * vlag (k + 1) > b
    · rw [if_pos e2]
      exact ⟨hc _, Or.inr ⟨lt_of_le_of_lt b0 e2, e1, by omega, le_refl _, by ring⟩⟩
    · rw [if_neg e2]
      exact ⟨hc _, i2'⟩
  · rw [if_neg e1]
    exact ⟨hc _, i2'⟩

/-- What is true in the second part of `rescue`. -/
structure Fill (p : Par K) (s : St K) : Prop where
  inv : ∃ c, Good p.n p.npt (mixed s) (omega p.nptm s.zmat) s.bmat c
  ids : Ids p s
  base : s.xpt s.kbase = fun _ => 0
  own : s.res.ptsid s.kbase = none
  xo : s.xopt = fun _ => 0
  fit : ∀ k, 1 ≤ k → k ≤ p.npt → s.res.ptsid k = none → s.quad p (s.xpt k) = s.fval k - s.fval s.kbase
  fb : s.res.fbase = s.fval s.kbase
  seen : ∀ k, 1 ≤ k → k < s.res.kpt → s.res.ptsid k = none
  nf : p.npt ≤ s.nfsav
  kpt : 1 ≤ s.res.kpt

theorem prov_r120 {p : Par K} {s : St K} (h : Prov p s) (hb : s.kopt = s.kbase) (k1 : 1 ≤ s.kopt) (k2 : s.kopt ≤ p.npt) :
    ((r120 p s).1 = .rpts ∧ Fill p (r120 p s).2) ∨ ((r120 p s).1 = .r120 ∧ Prov p (r120 p s).2) ∨ ((r120 p s).1 = .r80 ∧ Trade p (r120 p s).2) := by
  unfold r120
  dsimp only
  by_cases c : (rescuePick p s).2 = 0
  · rw [if_pos c]
    refine Or.inl ⟨rfl, h.inv, h.ids, ?_, ?_, h.xo, ?_, ?_, fun k q1 q2 => ?_, h.nf, le_refl 1⟩
    · show s.xpt s.kbase = _
      rw [← hb]; exact h.opt
    · show s.res.ptsid s.kbase = none
      rw [← hb]; exact h.own
    · intro k q1 q2 _
      show s.quad p (s.xpt k) = s.fval k - s.fval s.kbase
      rw [← hb]; exact h.fit k q1 q2
    · show s.res.fbase = s.fval s.kbase
      rw [← hb]; exact h.fb
    · have q2 : k < 1 := q2
      omega
  · rw [if_neg c]
    obtain ⟨n1, n2, n3⟩ := rescuePick_pos s c
    generalize rescuePick p s = pick at *
    have kn : s.res.ptsid pick.1 ≠ none := fun e => by rw [h.zero pick.1 n1 n2 e] at n3; exact lt_irrefl _ n3
    have lag := fun c' (g : Good p.n p.npt (mixed s) (omega p.nptm s.zmat) s.bmat c') => rescueVlag_spec g k1 k2 h.ids h.origin (fun j => s.xpt pick.1 j)
    obtain ⟨vb, hvb⟩ : ∃ vb, vb = rescueVlag p s (fun j => s.xpt pick.1 j) := ⟨_, rfl⟩
    rw [← hvb] at lag ⊢
    obtain ⟨o1, o2⟩ := rescueOld_den p s vb.1 vb.2
    generalize rescueOld p s vb.1 vb.2 = old at *
    by_cases e : old.2.1 ≤ old.2.2 * lit 1 100
    · rw [if_pos e]
      refine Or.inr (Or.inl ⟨rfl, h.inv, h.ids, fun k q1 q2 q3 => ?_, h.opt, h.own, h.xo, h.fit, h.fb, h.nrem, h.nf, h.kpt⟩)
      show set1 s.res.wdist pick.1 _ k = 0
      unfold set1
      rw [if_neg (fun w => kn (by rw [← w]; exact q3))]
      exact h.zero k q1 q2 q3
    · rw [if_neg e]
      have pos : 0 ≤ old.2.2 * (lit 1 100 : K) := mul_nonneg o1 (by rw [lit_rat]; push_cast; positivity)
      rcases o2 with o2 | ⟨o3, o4, o5, o6, o7⟩
      · exact absurd (o2.le.trans pos) e
      · exact Or.inr (Or.inr ⟨rfl, ⟨h.inv, h.ids, h.zero, h.opt, h.own, h.xo, h.fit, h.fb, h.nrem, h.nf, h.kpt⟩, n1, n2, o5, o6, kn, o4, lag, o7, o3⟩)

/-! ### The new points -/

theorem hform_set2 {n i j : Nat} (i1 : 1 ≤ i) (ij : i ≤ j) (j2 : j ≤ n) (h : Nat → Nat → K) (v : K) (z : Nat → K) :
    hform n (set2 h i j (h i j + v)) z = hform n h z + (if i = j then 1 / 2 else 1) * v * (z i * z j) := by
  have e : ∀ b a, (if a = b then 1 / 2 else 1) * set2 h i j (h i j + v) a b * (z a * z b)
      = (if a = b then 1 / 2 else 1) * h a b * (z a * z b) + ((if a = b then 1 / 2 else 1) * v * (z a * z b)) * (del a i * del b j) := by
    intro b a
    unfold set2
    by_cases q : a = i ∧ b = j
    · rw [if_pos q, q.1, q.2, del_self, del_self]; ring
    · rw [if_neg q]
      by_cases q1 : a = i
      · rw [del_ne (show b ≠ j from fun w => q ⟨q1, w⟩)]; ring
      · rw [del_ne q1]; ring
  unfold Newuoa.hform
  simp only [e, Finset.sum_add_distrib]
  rw [Newuoa.tri_del (by omega) j2 i1 (fun a b => (if a = b then 1 / 2 else 1) * v * (z a * z b)), if_pos ij]

/-- The value of the model at a provisional point. -/
theorem rescueQuad_eq {p : Par K} (s : St K) {id : Nat × Nat} (h : IsId p id) : rescueQuad p s id = s.res.fbase + s.quad p (rescuePoint s id) := by
  have pd : ∀ k, Powell.dot p.n (s.xpt k) (rescuePoint s id) = (if id.1 = 0 then 0 else s.res.aux1 id.1 * s.xpt k id.1)
      + (if id.2 = 0 then 0 else (if id.1 = 0 then s.res.aux2 id.2 else s.res.aux1 id.2) * s.xpt k id.2) := by
    intro k
    rw [Powell.dot_comm]
    exact dot_point s h _
  have gd : Powell.dot p.n s.gopt (rescuePoint s id) = (if id.1 = 0 then 0 else s.res.aux1 id.1 * s.gopt id.1)
      + (if id.2 = 0 then 0 else (if id.1 = 0 then s.res.aux2 id.2 else s.res.aux1 id.2) * s.gopt id.2) := by
    rw [Powell.dot_comm]
    exact dot_point s h _
  unfold rescueQuad St.quad Newuoa.qval
  simp only [pd, gd]
  rw [rescuePoint_eq s (by rcases h with h | h <;> omega)]
  clear pd gd
  obtain ⟨a, b⟩ := id
  unfold IsId at h
  dsimp only at h ⊢
  have half : (lit 1 2 : K) = 1 / 2 := lit_half
  by_cases ha : a = 0
  · subst ha
    have hb : b ≠ 0 := by omega
    rw [hform_congr (hq' := s.hq) (y := fun t => s.res.aux2 b * del t b) (fun _ _ _ _ _ => rfl) (fun j _ _ => provPoint_two _ _ hb j), hform_one (by omega) (by omega)]
    simp only [if_true, if_neg hb, if_pos (show b > 0 by omega), ne_eq, not_true_eq_false, if_false, gt_iff_lt, lt_irrefl]
    refine (acc_eq p.npt (fun k => lit 1 2 * s.pq k * (0 + s.res.aux2 b * s.xpt k b) * (0 + s.res.aux2 b * s.xpt k b)) _).trans ?_
    rw [half, Finset.sum_div, ← add_assoc]
    congr 1
    · ring
    · exact Finset.sum_congr rfl fun k _ => by ring
  · by_cases hb : b = 0
    · subst hb
      rw [hform_congr (hq' := s.hq) (y := fun t => s.res.aux1 a * del t a) (fun _ _ _ _ _ => rfl) (fun j _ _ => provPoint_one _ _ ha j), hform_one (by omega) (by omega)]
      simp only [if_true, if_neg ha, if_pos (show a > 0 by omega), gt_iff_lt, lt_irrefl, if_false]
      refine (acc_eq p.npt (fun k => lit 1 2 * s.pq k * (0 + s.res.aux1 a * s.xpt k a) * (0 + s.res.aux1 a * s.xpt k a)) _).trans ?_
      rw [half, Finset.sum_div, ← add_assoc]
      congr 1
      · ring
      · exact Finset.sum_congr rfl fun k _ => by ring
    · have e : hform p.n s.hq (provPoint s.res.aux1 s.res.aux2 (a, b)) = 1 / 2 * s.hq a a * (s.res.aux1 a * s.res.aux1 a) + 1 / 2 * s.hq b b * (s.res.aux1 b * s.res.aux1 b)
          + s.hq (min a b) (max a b) * (s.res.aux1 a * s.res.aux1 b) := by
        rw [hform_congr (hq' := s.hq) (y := fun t => s.res.aux1 a * del t a + s.res.aux1 b * del t b) (fun _ _ _ _ _ => rfl) (fun j _ _ => provPoint_both _ _ ha hb j)]
        by_cases q : b < a
        · rw [hform_two (by omega) q (by omega), min_eq_right q.le, max_eq_left q.le]
        · have q' : a < b := by omega
          rw [hform_congr (hq' := s.hq) (y := fun t => s.res.aux1 b * del t b + s.res.aux1 a * del t a) (fun _ _ _ _ _ => rfl) (fun j _ _ => add_comm _ _),
            hform_two (by omega) q' (by omega), min_eq_left q'.le, max_eq_right q'.le]
          ring
      rw [e]
      simp only [if_neg hb, if_pos (show a > 0 by omega), if_pos (show b > 0 by omega), ne_eq, ha, not_false_eq_true, if_true, if_false]
      refine (acc_eq p.npt (fun k => lit 1 2 * s.pq k * (0 + s.res.aux1 a * s.xpt k a + s.res.aux1 b * s.xpt k b) * (0 + s.res.aux1 a * s.xpt k a + s.res.aux1 b * s.xpt k b)) _).trans ?_
      rw [half, Finset.sum_div, ← add_assoc]
      congr 1
      · ring
      · exact Finset.sum_congr rfl fun k _ => by ring

theorem sum_set1 {npt t : Nat} (t1 : 1 ≤ t) (t2 : t ≤ npt) (v f : Nat → K) (a : K) :
    ∑ k ∈ Finset.Icc 1 npt, set1 v t (v t + a) k * f k = ∑ k ∈ Finset.Icc 1 npt, v k * f k + a * f t := by
  have mt : t ∈ Finset.Icc 1 npt := Finset.mem_Icc.mpr ⟨t1, t2⟩
  rw [← Finset.add_sum_erase _ _ mt, ← Finset.add_sum_erase _ (fun k => v k * f k) mt, show set1 v t (v t + a) t = v t + a from if_pos rfl,
    Finset.sum_congr rfl (g := fun k => v k * f k) (fun k hk => by rw [show set1 v t (v t + a) k = v k from if_neg (Finset.ne_of_mem_erase hk)])]
  ring

/-- The change of the second derivatives of the model. -/
theorem rescueModel_eq {p : Par K} {s : St K} (hid : Ids p s) (kpt : Nat) (diff : K) (z : Nat → K) :
    hform p.n (rescueModel p s kpt diff).2 z + (∑ k ∈ Finset.Icc 1 p.npt, (rescueModel p s kpt diff).1 k * (Powell.dot p.n (s.xpt k) z * Powell.dot p.n (s.xpt k) z)) / 2
      = hform p.n s.hq z + (∑ k ∈ Finset.Icc 1 p.npt, s.pq k * (Powell.dot p.n (s.xpt k) z * Powell.dot p.n (s.xpt k) z)) / 2
      + diff * ∑ k ∈ Finset.Icc 1 p.npt, omega p.nptm s.zmat k kpt * (Powell.dot p.n (mixed s k) z * Powell.dot p.n (mixed s k) z / 2) := by
  unfold rescueModel
  have ho : ∀ k, acc p.nptm (fun j => s.zmat k j * s.zmat kpt j) 0 = omega p.nptm s.zmat k kpt := by
    intro k
    rw [acc_eq, zero_add]
    rfl
  simp only [ho]
  refine up_inv (fun m (t : (Nat → K) × (Nat → Nat → K)) =>
    hform p.n t.2 z + (∑ k ∈ Finset.Icc 1 p.npt, t.1 k * (Powell.dot p.n (s.xpt k) z * Powell.dot p.n (s.xpt k) z)) / 2
      = hform p.n s.hq z + (∑ k ∈ Finset.Icc 1 p.npt, s.pq k * (Powell.dot p.n (s.xpt k) z * Powell.dot p.n (s.xpt k) z)) / 2
      + diff * ∑ k ∈ Finset.Icc 1 m, omega p.nptm s.zmat k kpt * (Powell.dot p.n (mixed s k) z * Powell.dot p.n (mixed s k) z / 2)) p.npt (by simp) ?_
  intro m hm t ht
  rw [Finset.sum_Icc_succ_top (by omega), mul_add, ← add_assoc, ← ht]
  generalize omega p.nptm s.zmat (m + 1) kpt = o
  cases e : s.res.ptsid (m + 1) with
  | none =>
    dsimp only
    rw [mixed_none e, sum_set1 (by omega) (by omega)]
    ring
  | some id =>
    have q := hid (m + 1) (by omega) (by omega) id e
    rw [mixed_some e, dot_point s q]
    obtain ⟨a, b⟩ := id
    unfold IsId at q
    dsimp only at q ⊢
    by_cases ha : a = 0
    · rw [if_pos ha, if_pos ha, if_pos ha, if_neg (show ¬ b = 0 by omega)]
      dsimp only
      rw [hform_set2 (by omega) (le_refl _) (by omega), if_pos rfl]
      ring
    · rw [if_neg ha, if_neg ha, if_neg ha]
      by_cases hb : b = 0
      · rw [if_neg (show ¬ b > 0 by omega), if_pos hb]
        dsimp only
        rw [hform_set2 (by omega) (le_refl _) (by omega), if_pos rfl]
        ring
      · rw [if_pos (show b > 0 by omega), if_neg hb]
        dsimp only
        rw [mul_assoc (diff * o), hform_set2 (by omega) (by omega) (by omega), hform_set2 (by omega) (le_refl _) (by omega), hform_set2 (by omega) (le_refl _) (by omega), if_pos rfl, if_pos rfl,
          if_neg (by omega)]
        have mm : z (min a b) * z (max a b) = z a * z b := by
          rcases le_total a b with w | w
          · rw [min_eq_left w, max_eq_right w]
          · rw [min_eq_right w, max_eq_left w, mul_comm]
        rw [mm]
        ring

/-- A Lagrange function of the points of the inverse matrix, one of which is the origin. -/
theorem lfun_mixed {p : Par K} {s : St K} {c : Nat → K} (h : Good p.n p.npt (mixed s) (omega p.nptm s.zmat) s.bmat c) {b t k : Nat} (b1 : 1 ≤ b) (b2 : b ≤ p.npt)
    (hb : mixed s b = fun _ => 0) (hbt : b ≠ t) (t1 : 1 ≤ t) (t2 : t ≤ p.npt) (k1 : 1 ≤ k) (k2 : k ≤ p.npt) :
    ∑ i ∈ Finset.Icc 1 p.npt, omega p.nptm s.zmat i t * (Powell.dot p.n (mixed s i) (mixed s k) * Powell.dot p.n (mixed s i) (mixed s k) / 2)
      + Powell.dot p.n (s.bmat t) (mixed s k) = if k = t then 1 else 0 := by
  have key := fun i (i1 : 1 ≤ i) (i2 : i ≤ p.npt) => Newuoa.lfun_pt (p := p.nw) (s := ({ s with xpt := mixed s } : St K).nw) (c := c) h (t := t) (i := i) t1 t2 i1 i2
  have z := key b b1 b2
  have zz : Newuoa.lfun p.nw ({ s with xpt := mixed s } : St K).nw t (mixed s b) = 0 := by
    rw [hb]
    have d : ∀ x : Nat → K, Powell.dot p.n x (fun _ => 0) = 0 := fun x => Finset.sum_eq_zero fun i _ => mul_zero _
    show ∑ i ∈ Finset.Icc 1 p.npt, omega p.nptm s.zmat i t * (Powell.dot p.n (mixed s i) (fun _ => 0) * Powell.dot p.n (mixed s i) (fun _ => 0) / 2) + Powell.dot p.n (s.bmat t) (fun _ => 0) = 0
    rw [d, add_zero]
    exact Finset.sum_eq_zero fun i _ => by rw [d]; ring
  have ct : c t = 0 := by
    have z : Newuoa.lfun p.nw ({ s with xpt := mixed s } : St K).nw t (mixed s b) = (if b = t then 1 else 0) - c t := z
    rw [zz, if_neg hbt] at z
    linear_combination z
  have q := key k k1 k2
  rw [ct, sub_zero] at q
  exact q

theorem rescueMove_mixed (s : St K) (id : Nat × Nat) (hid : s.res.ptsid s.res.kpt = some id) : mixed (rescueMove s id) = mixed s := by
  funext k
  cases e : s.res.ptsid k with
  | none =>
    rw [mixed_none e, mixed_none (show (rescueMove s id).res.ptsid k = none from e)]
    funext j
    exact if_neg (fun w => by rw [w, hid] at e; cases e)
  | some i => rw [mixed_some e, mixed_some (show (rescueMove s id).res.ptsid k = some i from e)]; rfl

theorem rescueMove_quad {p : Par K} (s : St K) (id : Nat × Nat) (k1 : 1 ≤ s.res.kpt) (k2 : s.res.kpt ≤ p.npt) (z : Nat → K) : (rescueMove s id).quad p z = s.quad p z := by
  have e := qval_move (n := p.n) (npt := p.npt) (xpt := s.xpt) (xpt' := (rescueMove s id).xpt) (g := s.gopt) (g' := s.gopt) (w := s.gopt) (pq := s.pq) (pq' := set1 s.pq s.res.kpt 0) (om := s.pq)
    (hq := s.hq) (hq' := (rescueMove s id).hq) (a := 0) k1 k2 (fun k hk => funext fun j => if_neg hk) (fun _ _ _ => by rw [zero_mul, add_zero]) (fun _ _ _ => by rw [zero_mul, add_zero])
    (fun i j _ _ _ => by show s.hq i j + s.xpt s.res.kpt j * s.pq s.res.kpt * s.xpt s.res.kpt i = _; ring) z
  rw [zero_mul, add_zero] at e
  exact e

/-- A new point of `rescue`: the model interpolates one more value. -/
theorem fill_take {p : Par K} (calfun : Nat → (Nat → K) → K) {s : St K} (h : Fill p s) (b1 : 1 ≤ s.kbase) (b2 : s.kbase ≤ p.npt) {id : Nat × Nat} (k2 : s.res.kpt ≤ p.npt)
    (hid : s.res.ptsid s.res.kpt = some id) :
    Fill p (rescueTake p (rescueQuad p (rescueMove s id) id) (rescueCall p calfun (rescueMove s id))) := by
  have k1 := h.kpt
  have bk : s.kbase ≠ s.res.kpt := fun w => by have := h.own; rw [w, hid] at this; cases this
  have hI := h.ids s.res.kpt k1 k2 id hid
  have hm := rescueMove_mixed s id hid
  have hq := fun z => rescueMove_quad (p := p) s id k1 k2 z
  have hz : mixed s s.kbase = fun _ => 0 := by rw [mixed_none h.own, h.base]
  obtain ⟨cc, g⟩ := h.inv
  obtain ⟨m, em⟩ : ∃ m, m = rescueMove s id := ⟨_, rfl⟩
  have m1 : m.xpt = fun k j => if k = s.res.kpt then rescuePoint s id j else s.xpt k j := by rw [em]; rfl
  have m2 : m.res = s.res := by rw [em]; rfl
  have m3 : m.zmat = s.zmat ∧ m.bmat = s.bmat ∧ m.fval = s.fval ∧ m.kbase = s.kbase ∧ m.xopt = s.xopt ∧ m.nfsav = s.nfsav := by rw [em]; exact ⟨rfl, rfl, rfl, rfl, rfl, rfl⟩
  obtain ⟨e1, e2, e3, e4, e5, e6⟩ := m3
  have rp : rescuePoint m id = rescuePoint s id := by unfold rescuePoint; rw [m2]
  rw [← em] at hm hq ⊢
  obtain ⟨c, ec⟩ : ∃ c, c = rescueCall p calfun m := ⟨_, rfl⟩
  have c1 : c.xpt = m.xpt ∧ c.res = m.res ∧ c.zmat = m.zmat ∧ c.bmat = m.bmat ∧ c.fval = m.fval ∧ c.kbase = m.kbase ∧ c.xopt = m.xopt ∧ c.nfsav = m.nfsav := by
    rw [ec]; exact ⟨rfl, rfl, rfl, rfl, rfl, rfl, rfl, rfl⟩
  have c9 : c.gopt = m.gopt ∧ c.hq = m.hq ∧ c.pq = m.pq := by rw [ec]; exact ⟨rfl, rfl, rfl⟩
  obtain ⟨c1, c2, c3, c4, c5, c6, c7, c8⟩ := c1
  obtain ⟨g1, g2, g3⟩ := c9
  have cm : mixed c = mixed s := by rw [← hm]; unfold mixed rescuePoint; rw [c1, c2]
  have ck : c.res.kpt = s.res.kpt := by rw [c2, m2]
  have cid : Ids p c := by unfold Ids; rw [c2, m2]; exact h.ids
  have cq : ∀ z, c.quad p z = s.quad p z := by
    intro z
    rw [← hq z]
    unfold St.quad
    rw [c1, g1, g2, g3]
  rw [← ec]
  obtain ⟨vq, ev⟩ : ∃ vq, vq = rescueQuad p m id := ⟨_, rfl⟩
  have vv : vq = s.fval s.kbase + s.quad p (rescuePoint s id) := by rw [ev, rescueQuad_eq m hI, m2, h.fb, hq, rp]
  rw [← ev]
  have lf := fun k (k1' : 1 ≤ k) (k2' : k ≤ p.npt) => lfun_mixed g b1 b2 hz bk k1 k2 k1' k2'
  obtain ⟨r, er⟩ : ∃ r, r = rescueTake p vq c := ⟨_, rfl⟩
  have r1 : r.xpt = c.xpt ∧ r.zmat = c.zmat ∧ r.bmat = c.bmat ∧ r.kbase = c.kbase ∧ r.xopt = c.xopt ∧ r.nfsav = c.nfsav := by rw [er]; exact ⟨rfl, rfl, rfl, rfl, rfl, rfl⟩
  have r2 : r.fval = set1 c.fval c.res.kpt c.fl := by rw [er]; rfl
  have r3 : r.res = { c.res with ptsid := set1 c.res.ptsid c.res.kpt none, kpt := c.res.kpt + 1 } := by rw [er]; rfl
  have r4 : r.gopt = fun i => c.gopt i + (c.fl - vq) * c.bmat c.res.kpt i := by rw [er]; rfl
  have r5 : r.pq = (rescueModel p c c.res.kpt (c.fl - vq)).1 ∧ r.hq = (rescueModel p c c.res.kpt (c.fl - vq)).2 := by rw [er]; exact ⟨rfl, rfl⟩
  obtain ⟨r11, r12, r13, r14, r15, r16⟩ := r1
  rw [← er]
  clear er
  have pid : ∀ k, k ≠ s.res.kpt → r.res.ptsid k = s.res.ptsid k := by
    intro k hk
    rw [r3]
    show set1 c.res.ptsid c.res.kpt none k = _
    rw [ck, c2, m2]
    exact if_neg hk
  have pik : r.res.ptsid s.res.kpt = none := by
    rw [r3]
    show set1 c.res.ptsid c.res.kpt none s.res.kpt = _
    rw [ck]
    exact if_pos rfl
  have rpt : ∀ i, rescuePoint r i = rescuePoint s i := by intro i; unfold rescuePoint; rw [r3, c2, m2]
  have xk : r.xpt s.res.kpt = rescuePoint s id := by rw [r11, c1, m1]; funext j; exact if_pos rfl
  have xo : ∀ k, k ≠ s.res.kpt → r.xpt k = s.xpt k := by intro k hk; rw [r11, c1, m1]; funext j; exact if_neg hk
  have rm : mixed r = mixed s := by
    funext k
    by_cases w : k = s.res.kpt
    · rw [w, mixed_none pik, xk, mixed_some hid]
    · cases e : s.res.ptsid k with
      | none => rw [mixed_none e, mixed_none ((pid k w).trans e), xo k w]
      | some i => rw [mixed_some e, mixed_some ((pid k w).trans e), rpt]
  have rq : ∀ z, r.quad p z = s.quad p z + (c.fl - vq) * (∑ i ∈ Finset.Icc 1 p.npt, omega p.nptm s.zmat i s.res.kpt * (Powell.dot p.n (mixed s i) z * Powell.dot p.n (mixed s i) z / 2)
      + Powell.dot p.n (s.bmat s.res.kpt) z) := by
    intro z
    have key := rescueModel_eq cid c.res.kpt (c.fl - vq) z
    rw [cm, ck, c3, e1] at key
    have gd : Powell.dot p.n r.gopt z = Powell.dot p.n c.gopt z + (c.fl - vq) * Powell.dot p.n (s.bmat s.res.kpt) z := by
      rw [r4, ck, c4, e2]
      unfold Powell.dot
      rw [Finset.mul_sum, ← Finset.sum_add_distrib]
      exact Finset.sum_congr rfl fun i _ => by ring
    rw [← cq z]
    unfold St.quad Newuoa.qval
    rw [r11, r5.1, r5.2, gd, ck, add_assoc, key]
    ring
  refine ⟨⟨cc, ?_⟩, ?_, ?_, ?_, ?_, ?_, ?_, ?_, ?_, ?_⟩
  · rw [rm, r12, c3, e1, r13, c4, e2]; exact g
  · intro k q1 q2 i hi
    by_cases w : k = s.res.kpt
    · rw [w, pik] at hi; cases hi
    · rw [pid k w] at hi
      exact h.ids k q1 q2 i hi
  · rw [r14, c6, e4, xo _ bk]; exact h.base
  · rw [r14, c6, e4, pid _ bk]; exact h.own
  · rw [r15, c7, e5]; exact h.xo
  · intro k q1 q2 hk
    rw [r14, c6, e4, r2, ck, c5, e3, show set1 s.fval s.res.kpt c.fl s.kbase = s.fval s.kbase from if_neg bk, rq]
    have l := lf k q1 q2
    by_cases w : k = s.res.kpt
    · rw [if_pos w, w, mixed_some hid] at l
      rw [w, xk, l, vv, show set1 s.fval s.res.kpt c.fl s.res.kpt = c.fl from if_pos rfl]
      ring
    · have hk' : s.res.ptsid k = none := by rw [← pid k w]; exact hk
      rw [if_neg w, mixed_none hk'] at l
      rw [xo k w, l, mul_zero, add_zero, show set1 s.fval s.res.kpt c.fl k = s.fval k from if_neg w]
      exact h.fit k q1 q2 hk'
  · rw [r14, c6, e4, r2, ck, c5, e3, show set1 s.fval s.res.kpt c.fl s.kbase = s.fval s.kbase from if_neg bk, r3]
    show c.res.fbase = _
    rw [c2, m2]
    exact h.fb
  · intro k q1 q2
    by_cases w : k = s.res.kpt
    · rw [w]; exact pik
    · rw [pid k w]
      rw [r3] at q2
      have q2 : k < c.res.kpt + 1 := q2
      rw [ck] at q2
      exact h.seen k q1 (by omega)
  · rw [r16, c8, e6]; exact h.nf
  · rw [r3]; exact Nat.succ_pos _

theorem fill_rpts {p : Par K} (calfun : Nat → (Nat → K) → K) {s : St K} (h : Fill p s) (b1 : 1 ≤ s.kbase) (b2 : s.kbase ≤ p.npt) :
    ((rpts p calfun s).1 = .rpts ∧ Fill p (rpts p calfun s).2) ∨ ((rpts p calfun s).1 = .l190b ∧ ((rpts p calfun s).2.res.kpt = 0 ∧ p.maxfun ≤ s.nf ∨ Filled p (rpts p calfun s).2)) := by
  unfold rpts
  by_cases c : s.res.kpt ≤ p.npt
  · rw [if_pos c]
    cases e : s.res.ptsid s.res.kpt with
    | none =>
      refine Or.inl ⟨rfl, h.inv, h.ids, h.base, h.own, h.xo, h.fit, h.fb, fun k q1 q2 => ?_, h.nf, Nat.succ_pos _⟩
      have q2 : k < s.res.kpt + 1 := q2
      by_cases w : k = s.res.kpt
      · rw [w]; exact e
      · exact h.seen k q1 (by omega)
    | some id =>
      dsimp only
      by_cases d : p.maxfun ≤ s.nf
      · rw [if_pos d]
        exact Or.inr ⟨rfl, Or.inl ⟨rfl, d⟩⟩
      · rw [if_neg d]
        exact Or.inl ⟨rfl, fill_take calfun h b1 b2 c e⟩
  · rw [if_neg c]
    refine Or.inr ⟨rfl, Or.inr ⟨?_, fun k q1 q2 => h.fit k q1 q2 (h.seen k q1 (by omega)), h.base, h.xo, h.nf, by have := h.kpt; show s.res.kpt ≠ 0; omega⟩⟩
    obtain ⟨cc, g⟩ := h.inv
    exact ⟨cc, g.congr fun k j q1 q2 _ _ => by rw [mixed_none (h.seen k q1 (by omega))]⟩

/-! ### The return to the iterations -/

/-- After `rescue`. -/
structure Back (p : Par K) (s : St K) : Prop where
  inv : Inverse p s
  fit : ∀ k, 1 ≤ k → k ≤ p.npt → s.quad p (s.xpt k) = s.fval k - s.fval s.kbase
  base : s.xpt s.kbase = fun _ => 0
  xo : s.xopt = s.xpt s.kopt
  sq : s.xoptsq = Powell.dot p.n s.xopt s.xopt
  nf : p.npt < s.nf

theorem back_l20 {p : Par K} {s : St K} (h : Back p s) (k1 : 1 ≤ s.kopt) (k2 : s.kopt ≤ p.npt) : (l20 p s).1 = .l60 ∧ Core p (l20 p s).2 := by
  unfold l20
  by_cases c : s.kopt ≠ s.kbase
  · rw [if_pos c]
    refine ⟨rfl, h.inv, fun k q1 q2 => ?_, h.xo, h.sq⟩
    have e := qval_recenter p.n p.npt s.xpt s.pq s.gopt (addPoints p.n p.npt s.xpt s.pq s.xopt (addHess p.n s.hq s.xopt s.gopt)) s.xopt s.hq (fun i i1 i2 => by
      rw [addPoints_eq, addHess_eq p.n s.hq s.xopt s.gopt i i1 i2]) (fun j => s.xpt k j - s.xopt j)
    show qval p.n p.npt s.xpt (if s.nf > p.npt then addPoints p.n p.npt s.xpt s.pq s.xopt (addHess p.n s.hq s.xopt s.gopt) else _) s.hq s.pq _ = _
    rw [if_pos h.nf, e]
    have w1 := h.fit k q1 q2
    have w2 := h.fit s.kopt k1 k2
    rw [← h.xo] at w2
    unfold St.quad at w1 w2
    rw [show (fun i => s.xpt k i - s.xopt i + s.xopt i) = s.xpt k from funext fun i => by ring, w1, w2]
    ring
  · rw [if_neg c]
    refine ⟨rfl, h.inv, fun k q1 q2 => ?_, h.xo, h.sq⟩
    rw [not_not] at c
    have z : s.xopt = fun _ => 0 := by rw [h.xo, c, h.base]
    rw [show (fun j => s.xpt k j - s.xopt j) = s.xpt k from funext fun j => by rw [z, sub_zero], h.fit k q1 q2, c]

theorem filled_l190b {p : Par K} {s : St K} (h : Filled p s) (hs : s.nfsav ≤ s.nf) (same : s.nf = s.nfsav → s.kopt = s.kbase) :
    ((l190b p s).1 = .l20 ∧ Back p (l190b p s).2) ∨ ((l190b p s).1 = .l60 ∨ (l190b p s).1 = .l210) ∧ Core p (l190b p s).2 := by
  obtain ⟨t, ht⟩ : ∃ t : St K, t = if s.kopt ≠ s.kbase then { s with xopt := fun i => s.xpt s.kopt i, xoptsq := acc p.n (fun i => s.xpt s.kopt i * s.xpt s.kopt i) 0 } else { s with xoptsq := 0 } := ⟨_, rfl⟩
  have e : l190b p s = if t.res.kpt = 0 then fail .tooManyEvaluations t
      else if t.nfsav < t.nf then (.l20, { t with nresc := t.nf, nfsav := t.nf })
      else if t.ntrits > 0 then (.l60, { t with nresc := t.nf }) else (.l210, { t with nresc := t.nf }) := by
    rw [ht]; rfl
  have t1 : t.xpt = s.xpt ∧ t.zmat = s.zmat ∧ t.bmat = s.bmat ∧ t.fval = s.fval ∧ t.gopt = s.gopt ∧ t.hq = s.hq ∧ t.pq = s.pq := by
    rw [ht]; split_ifs <;> exact ⟨rfl, rfl, rfl, rfl, rfl, rfl, rfl⟩
  have t2 : t.kopt = s.kopt ∧ t.kbase = s.kbase ∧ t.nf = s.nf ∧ t.nfsav = s.nfsav ∧ t.res = s.res := by
    rw [ht]; split_ifs <;> exact ⟨rfl, rfl, rfl, rfl, rfl⟩
  have tx : t.xopt = s.xpt s.kopt ∧ t.xoptsq = Powell.dot p.n t.xopt t.xopt := by
    rw [ht]
    by_cases c : s.kopt ≠ s.kbase
    · rw [if_pos c]
      refine ⟨rfl, ?_⟩
      show acc p.n (fun i => s.xpt s.kopt i * s.xpt s.kopt i) 0 = Powell.dot p.n (s.xpt s.kopt) (s.xpt s.kopt)
      rw [acc_eq, zero_add]
      rfl
    · rw [if_neg c]
      rw [not_not] at c
      refine ⟨?_, ?_⟩
      · show s.xopt = s.xpt s.kopt
        rw [h.xo, c, h.base]
      · show 0 = Powell.dot p.n s.xopt s.xopt
        rw [h.xo]
        exact (Finset.sum_eq_zero fun i _ => mul_zero _).symm
  clear ht
  obtain ⟨a1, a2, a3, a4, a5, a6, a7⟩ := t1
  obtain ⟨b1, b2, b3, b4, b5⟩ := t2
  rw [e, if_neg (by rw [b5]; exact h.kpt)]
  have inv : Inverse p t := by unfold Inverse; rw [a1, a2, a3]; exact h.inv
  have tq : ∀ z, t.quad p z = s.quad p z := by intro z; unfold St.quad; rw [a1, a5, a6, a7]
  by_cases c1 : t.nfsav < t.nf
  · rw [if_pos c1]
    refine Or.inl ⟨rfl, inv, fun k k1 k2 => ?_, ?_, ?_, tx.2, ?_⟩
    · show t.quad p (t.xpt k) = t.fval k - t.fval t.kbase
      rw [tq, a1, a4, b2]; exact h.fit k k1 k2
    · show t.xpt t.kbase = _
      rw [a1, b2]; exact h.base
    · show t.xopt = t.xpt t.kopt
      rw [tx.1, a1, b1]
    · have := h.nf
      show p.npt < t.nf
      omega
  · have kk : s.kopt = s.kbase := same (by omega)
    have core : Core p t := by
      refine ⟨inv, fun k k1 k2 => ?_, by rw [tx.1, a1, b1], tx.2⟩
      have z : t.xopt = fun _ => 0 := by rw [tx.1, kk, h.base]
      rw [show (fun j => t.xpt k j - t.xopt j) = s.xpt k from funext fun j => by rw [z, sub_zero, a1], tq, h.fit k k1 k2, a4, b1, kk]
    rw [if_neg c1]
    refine Or.inr ?_
    by_cases c2 : t.ntrits > 0
    · rw [if_pos c2]
      exact ⟨Or.inl rfl, core.same ⟨rfl, rfl, rfl, rfl, rfl, rfl, rfl⟩ ⟨rfl, rfl, rfl⟩⟩
    · rw [if_neg c2]
      exact ⟨Or.inr rfl, core.same ⟨rfl, rfl, rfl, rfl, rfl, rfl, rfl⟩ ⟨rfl, rfl, rfl⟩⟩

end
end Opk.Bobyqa
