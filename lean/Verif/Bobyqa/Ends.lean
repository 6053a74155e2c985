import Verif.Bobyqa.Descent

/-!
# BOBYQA ends

In exact arithmetic, whatever `trsbox` computes, BOBYQA ends: the radius `rho` only takes a finite number of values, `rescue`
ends and it is called at most once between two calls of the objective function.
-/
set_option linter.unusedSectionVars false
namespace Opk.Bobyqa
open Linalg CMath Cobyla

section
variable {K : Type} [Field K] [LinearOrder K] [IsStrictOrderedRing K] [CMath K] [ExactMath K]

/-- The next radius is between `rhoend` and a quarter of the radius, or it is `rhoend`. -/
theorem newRho_spec (hsqrt : ∀ a : K, 0 ≤ a → 0 ≤ CMath.sqrt a ∧ CMath.sqrt a * CMath.sqrt a = a) (p : Par K) (hend : 0 < p.rhoend)
    (rho : K) (h : p.rhoend < rho) : p.rhoend ≤ newRho p rho ∧ newRho p rho < rho ∧ (newRho p rho = p.rhoend ∨ newRho p rho ≤ rho / 4) := by
  have hq : rho / p.rhoend * p.rhoend = rho := div_mul_cancel₀ _ hend.ne'
  unfold newRho
  dsimp only
  generalize hr : rho / p.rhoend = r at *
  rw [ExactMath.lit_eq, ExactMath.lit_eq, ExactMath.lit_eq]
  push_cast
  split_ifs with c1 c2
  · exact ⟨le_refl _, h, Or.inl rfl⟩
  · have h16 : 16 < r := by have := not_le.mp c1; linarith
    obtain ⟨s0, s1⟩ := hsqrt r (by linarith)
    have s4 : 4 < CMath.sqrt r := by
      by_contra hh
      have : CMath.sqrt r * CMath.sqrt r ≤ 4 * 4 := mul_le_mul (not_lt.mp hh) (not_lt.mp hh) s0 (by norm_num)
      linarith
    have hle : CMath.sqrt r ≤ r / 4 := by
      have : CMath.sqrt r * 4 ≤ CMath.sqrt r * CMath.sqrt r := mul_le_mul_of_nonneg_left s4.le s0
      linarith
    have hm : CMath.sqrt r * p.rhoend ≤ r / 4 * p.rhoend := mul_le_mul_of_nonneg_right hle hend.le
    have hm' : r / 4 * p.rhoend = rho / 4 := by rw [← hq]; ring
    rw [hm'] at hm
    refine ⟨?_, by linarith, Or.inr hm⟩
    have : 1 * p.rhoend ≤ CMath.sqrt r * p.rhoend := mul_le_mul_of_nonneg_right (by linarith) hend.le
    linarith
  · have h250 : 250 < r := by have := not_le.mp c2; linarith
    have : 250 * p.rhoend < r * p.rhoend := mul_lt_mul_of_pos_right h250 hend
    exact ⟨by linarith, by linarith, Or.inr (by linarith)⟩

/-! ### The end of a run -/

/-- The machine comes to its end. -/
def Ends (p : Par K) (calfun : Nat → (Nat → K) → K) (T : St K → Trs K) (ls : Lab × St K) : Prop :=
  ∃ fuel, (run p calfun T fuel ls).1 = .ret ∨ (run p calfun T fuel ls).1 = .wrong

variable {p : Par K} {calfun : Nat → (Nat → K) → K} {T : St K → Trs K}

theorem Ends.step {ls : Lab × St K} (h : Ends p calfun T (step p calfun T ls)) : Ends p calfun T ls := by
  obtain ⟨fuel, h⟩ := h
  exact ⟨fuel + 1, h⟩

theorem ends_wrong (s : St K) : Ends p calfun T (.wrong, s) := ⟨0, Or.inr rfl⟩

theorem ends_done (s : St K) : Ends p calfun T (.done, s) := ⟨1, Or.inl rfl⟩

/-- The runs end after one more evaluation. -/
def More (p : Par K) (calfun : Nat → (Nat → K) → K) (T : St K → Trs K) (N : Nat) : Prop :=
  (N : Int) < p.maxfun → ∀ (l : Lab) (s : St K), s.nf = N + 1 → l = .l60 ∨ l = .l650 ∨ l = .rpts → Ends p calfun T (l, s)

theorem errors_nf (s : St K) : (errors p s).nf = s.nf := by
  unfold errors
  dsimp only

theorem absorb_ends (s : St K) (h : ∀ (l : Lab) (t : St K), t.nf = s.nf → l = .l60 ∨ l = .l650 ∨ l = .rpts → Ends p calfun T (l, t)) :
    Ends p calfun T (absorb p s) := by
  unfold absorb
  split_ifs
  · exact ends_wrong _
  · have e : (tryFrobenius p (recenter p (s.fval s.kopt) (move p s))).nf = s.nf := by
      have e1 : (recenter p (s.fval s.kopt) (move p s)).nf = s.nf := by
        unfold recenter
        split_ifs <;> rfl
      rw [← e1]
      unfold tryFrobenius
      dsimp only
      split_ifs <;> rfl
    generalize tryFrobenius p (recenter p (s.fval s.kopt) (move p s)) = t at e
    unfold afterMove
    split_ifs
    · exact h _ _ e (Or.inl rfl)
    · exact h _ _ e (Or.inr (Or.inl rfl))

theorem ends_l360 (s : St K) (h : More p calfun T s.nf) : Ends p calfun T (.l360, s) := by
  apply Ends.step
  show Ends p calfun T (l360 p calfun s)
  unfold l360
  dsimp only
  split_ifs with c1 c2
  · exact ends_done _
  · exact ends_done _
  · have h := h (not_le.mp c1)
    unfold assess
    dsimp only
    have e := errors_nf (p := p) { call calfun (place p s s.xnew) { s with x := place p s s.xnew } with f := (call calfun (place p s s.xnew) { s with x := place p s s.xnew }).fl }
    have e : (errors p { call calfun (place p s s.xnew) { s with x := place p s s.xnew } with f := (call calfun (place p s s.xnew) { s with x := place p s s.xnew }).fl }).nf = s.nf + 1 := e
    generalize errors p _ = u at e ⊢
    split_ifs with c3 c4
    · exact ends_done _
    · apply absorb_ends
      intro l t ht hl
      refine h l t ?_ hl
      rw [ht, ← e]
      unfold repick
      dsimp only
      split_ifs <;> rfl
    · exact absorb_ends _ fun l t ht hl => h l t (ht.trans e) hl

/-! ### Between two evaluations -/

/-- The states from which `rescue` may be called, or not: `damaged` ends. -/
def Safe (p : Par K) (calfun : Nat → (Nat → K) → K) (T : St K → Trs K) (N R : Nat) : Prop :=
  ∀ s : St K, s.nf = N → s.nresc = R → Ends p calfun T (damaged s)

theorem ends_l230 {N R : Nat} (hm : More p calfun T N) (hs : Safe p calfun T N R) (s : St K) (h1 : s.nf = N) (h2 : s.nresc = R) :
    Ends p calfun T (.l230, s) := by
  -- without a Cauchy step
  have one : ∀ s : St K, s.nf = N → s.nresc = R → (∀ t : St K, t.nf = N → t.nresc = R → t.cauchy = 0 → 0 < s.cauchy → Ends p calfun T (.l230, t)) →
      Ends p calfun T (.l230, s) := by
    intro s h1 h2 h3
    apply Ends.step
    show Ends p calfun T (l230 p s)
    unfold l230
    dsimp only
    split_ifs with c1 c2 c3 c4
    · exact h3 _ h1 h2 rfl c2.2
    · exact hs _ h1 h2
    · exact ends_l360 _ (by rw [← h1] at hm; exact hm)
    · exact hs _ h1 h2
    · exact ends_l360 _ (by rw [← h1] at hm; exact hm)
  refine one s h1 h2 fun t t1 t2 t3 _ => one t t1 t2 fun u _ _ _ hc => ?_
  rw [t3] at hc
  exact absurd hc (lt_irrefl _)

theorem ends_l210 {N R : Nat} (hm : More p calfun T N) (hs : Safe p calfun T N R) (s : St K) (h1 : s.nf = N) (h2 : s.nresc = R) :
    Ends p calfun T (.l210, s) := by
  apply Ends.step
  exact ends_l230 hm hs _ h1 h2

theorem ends_l90 {N R : Nat} (hm : More p calfun T N) (hs : Safe p calfun T N R) (s : St K) (h1 : s.nf = N) (h2 : s.nresc = R) :
    Ends p calfun T (.l90, s) := by
  apply Ends.step
  show Ends p calfun T (l90 p s)
  unfold l90
  dsimp only
  have e : (if s.dsq ≤ s.xoptsq * lit 1 1000 then shift p s else s).nf = N ∧ (if s.dsq ≤ s.xoptsq * lit 1 1000 then shift p s else s).nresc = R := by
    split_ifs <;> exact ⟨h1, h2⟩
  generalize (if s.dsq ≤ s.xoptsq * lit 1 1000 then shift p s else s) = t at e ⊢
  split_ifs
  · exact ends_l210 hm hs t e.1 e.2
  · exact ends_l230 hm hs t e.1 e.2

/-- `L680`, if the machine ends with a smaller radius. -/
theorem ends_l680 {N R : Nat} (hm : More p calfun T N) (s : St K) (h1 : s.nf = N) (h2 : s.nresc = R)
    (ih : p.rhoend < s.rho → ∀ t : St K, t.nf = N → t.nresc = R → t.rho = newRho p s.rho → Ends p calfun T (.l60, t)) : Ends p calfun T (.l680, s) := by
  apply Ends.step
  show Ends p calfun T (l680 p s)
  unfold l680
  dsimp only
  split_ifs with c k
  · exact ih c _ h1 h2 rfl
  · exact ends_l360 s (by rw [h1]; exact hm)
  · exact ends_done _

/-- `L650` after a short step, if the machine ends with a smaller radius. -/
theorem ends_l650_short {N R : Nat} (hm : More p calfun T N) (hs : Safe p calfun T N R) (s : St K) (h1 : s.nf = N) (h2 : s.nresc = R) (h3 : s.ntrits = -1)
    (ih : p.rhoend < s.rho → ∀ t : St K, t.nf = N → t.nresc = R → t.rho = newRho p s.rho → Ends p calfun T (.l60, t)) : Ends p calfun T (.l650, s) := by
  apply Ends.step
  show Ends p calfun T (l650 p s)
  unfold l650
  dsimp only
  split_ifs
  · exact ends_l90 hm hs _ h1 h2
  · exact ends_l680 hm _ h1 h2 ih

/-- `L60`, if the machine ends with a smaller radius. -/
theorem ends_l60_of {N R : Nat} (hm : More p calfun T N) (hs : Safe p calfun T N R) (s : St K) (h1 : s.nf = N) (h2 : s.nresc = R)
    (ih : p.rhoend < s.rho → ∀ t : St K, t.nf = N → t.nresc = R → t.rho = newRho p s.rho → Ends p calfun T (.l60, t)) : Ends p calfun T (.l60, s) := by
  apply Ends.step
  show Ends p calfun T (l60 p T s)
  unfold l60
  dsimp only
  split_ifs with c
  · unfold short
    dsimp only
    split_ifs
    · exact ends_l650_short hm hs _ h1 h2 rfl ih
    · exact ends_l650_short hm hs _ h1 h2 rfl ih
    · exact ends_l650_short hm hs _ h1 h2 rfl ih
    · exact ends_l680 hm _ h1 h2 ih
  · exact ends_l90 hm hs _ h1 h2

variable [Archimedean K]

theorem ends_l60 (hsqrt : ∀ a : K, 0 ≤ a → 0 ≤ CMath.sqrt a ∧ CMath.sqrt a * CMath.sqrt a = a) (hend : 0 < p.rhoend) {N R : Nat}
    (hm : More p calfun T N) (hs : Safe p calfun T N R) (s : St K) (h1 : s.nf = N) (h2 : s.nresc = R) : Ends p calfun T (.l60, s) := by
  have level : ∀ (M : Nat) (s : St K), s.nf = N → s.nresc = R → s.rho ≤ 4 ^ M * p.rhoend → Ends p calfun T (.l60, s) := by
    intro M
    induction M with
    | zero =>
      intro s h1 h2 h3
      rw [pow_zero, one_mul] at h3
      exact ends_l60_of hm hs s h1 h2 fun q => absurd q (not_lt.mpr h3)
    | succ M ih =>
      intro s h1 h2 h3
      refine ends_l60_of hm hs s h1 h2 fun q t t1 t2 t3 => ih t t1 t2 ?_
      obtain ⟨-, -, n3⟩ := newRho_spec hsqrt p hend s.rho q
      rw [t3]
      rcases n3 with n3 | n3
      · rw [n3]
        exact le_mul_of_one_le_left hend.le (one_le_pow₀ (by norm_num))
      · rw [pow_succ] at h3
        linarith
  obtain ⟨M, hM⟩ := pow_unbounded_of_one_lt (s.rho / p.rhoend) (show (1 : K) < 4 by norm_num)
  exact level M s h1 h2 (by rw [div_lt_iff₀ hend] at hM; exact hM.le)

theorem ends_l650 (hsqrt : ∀ a : K, 0 ≤ a → 0 ≤ CMath.sqrt a ∧ CMath.sqrt a * CMath.sqrt a = a) (hend : 0 < p.rhoend) {N R : Nat}
    (hm : More p calfun T N) (hs : Safe p calfun T N R) (s : St K) (h1 : s.nf = N) (h2 : s.nresc = R) : Ends p calfun T (.l650, s) := by
  apply Ends.step
  show Ends p calfun T (l650 p s)
  unfold l650
  dsimp only
  split_ifs
  · exact ends_l90 hm hs _ h1 h2
  · exact ends_l680 hm _ h1 h2 fun _ t t1 t2 _ => ends_l60 hsqrt hend hm hs t t1 t2
  · exact ends_l60 hsqrt hend hm hs _ h1 h2
  · exact ends_l680 hm _ h1 h2 fun _ t t1 t2 _ => ends_l60 hsqrt hend hm hs t t1 t2

/-! ### `rescue` -/

/-- The end of `rescue` without any evaluation, or with one. -/
theorem ends_rpts (hsqrt : ∀ a : K, 0 ≤ a → 0 ≤ CMath.sqrt a ∧ CMath.sqrt a * CMath.sqrt a = a) (hend : 0 < p.rhoend) {N : Nat}
    (hm : More p calfun T N) (hs : Safe p calfun T N N) :
    (∀ s : St K, s.nf = N → Ends p calfun T (.l190b, s)) ∧ ∀ (k : Nat) (s : St K), s.nf = N → p.npt < s.res.kpt + k → Ends p calfun T (.rpts, s) := by
  have h190 : ∀ s : St K, s.nf = N → Ends p calfun T (.l190b, s) := by
    intro s h1
    apply Ends.step
    show Ends p calfun T (l190b p s)
    unfold l190b
    dsimp only
    generalize ht : (if s.kopt ≠ s.kbase then { s with xopt := fun i => s.xpt s.kopt i, xoptsq := acc p.n (fun i => s.xpt s.kopt i * s.xpt s.kopt i) 0 } else { s with xoptsq := 0 } : St K) = t
    have e : t.nf = N := by
      rw [← ht]
      split_ifs <;> exact h1
    split_ifs
    · exact ends_done _
    · apply Ends.step
      show Ends p calfun T (l20 p _)
      unfold l20
      dsimp only
      split_ifs
      all_goals exact ends_l60 hsqrt hend hm hs _ e e
    · exact ends_l60 hsqrt hend hm hs _ e e
    · exact ends_l210 hm hs _ e e
  refine ⟨h190, ?_⟩
  intro k
  induction k with
  | zero =>
    intro s h1 h2
    apply Ends.step
    show Ends p calfun T (rpts p calfun s)
    unfold rpts
    rw [if_neg (by omega)]
    exact h190 s h1
  | succ k ih =>
    intro s h1 h2
    apply Ends.step
    show Ends p calfun T (rpts p calfun s)
    unfold rpts
    by_cases c : s.res.kpt ≤ p.npt
    · rw [if_pos c]
      cases s.res.ptsid s.res.kpt with
      | none =>
        refine ih _ h1 ?_
        show p.npt < s.res.kpt + 1 + k
        omega
      | some id =>
        dsimp only
        split_ifs with c2
        · exact h190 _ h1
        · refine hm (by rw [← h1]; exact not_le.mp c2) _ _ ?_ (Or.inr (Or.inr rfl))
          show s.nf + 1 = N + 1
          rw [h1]
    · rw [if_neg c]
      exact h190 s h1

/-- The number of indices with a property. -/
def countIf (P : Nat → Prop) [DecidablePred P] : Nat → Nat
  | 0 => 0
  | n + 1 => countIf P n + if P (n + 1) then 1 else 0

theorem countIf_le {P Q : Nat → Prop} [DecidablePred P] [DecidablePred Q] {n : Nat} (h : ∀ k, 1 ≤ k → k ≤ n → P k → Q k) :
    countIf P n ≤ countIf Q n := by
  induction n with
  | zero => exact le_rfl
  | succ n ih =>
    have h1 := ih fun k k1 k2 => h k k1 (by omega)
    have h2 := h (n + 1) (by omega) le_rfl
    unfold countIf
    by_cases c : P (n + 1)
    · rw [if_pos c, if_pos (h2 c)]; omega
    · rw [if_neg c]; omega

theorem countIf_lt {P Q : Nat → Prop} [DecidablePred P] [DecidablePred Q] {n m : Nat} (h : ∀ k, 1 ≤ k → k ≤ n → P k → Q k) (h1 : 1 ≤ m) (h2 : m ≤ n)
    (hp : ¬P m) (hq : Q m) : countIf P n < countIf Q n := by
  induction n with
  | zero => omega
  | succ n ih =>
    have h3 := h (n + 1) (by omega) le_rfl
    have h4 := countIf_le fun k k1 (k2 : k ≤ n) => h k k1 (by omega)
    unfold countIf
    by_cases c : m = n + 1
    · subst c
      rw [if_neg hp, if_pos hq]; omega
    · have h5 := ih (fun k k1 k2 => h k k1 (by omega)) (by omega)
      by_cases c : P (n + 1)
      · rw [if_pos c, if_pos (h3 c)]; omega
      · rw [if_neg c]; omega

theorem rescuePick_spec (s : St K) (h : (rescuePick p s).2 ≠ 0) :
    1 ≤ (rescuePick p s).1 ∧ (rescuePick p s).1 ≤ p.npt ∧ 0 < s.res.wdist (rescuePick p s).1 := by
  have key := up_inv (s := ((s.res.knew, 0) : Nat × K)) (body := fun k (t : Nat × K) =>
      if s.res.wdist k > 0 ∧ (t.2 = 0 ∨ s.res.wdist k < t.2) then (k, s.res.wdist k) else t)
    (fun m (t : Nat × K) => t.2 ≠ 0 → 1 ≤ t.1 ∧ t.1 ≤ m ∧ 0 < s.res.wdist t.1) p.npt (fun h => absurd rfl h) (by
      intro m hm t ih
      split_ifs with c
      · exact fun _ => ⟨Nat.succ_pos m, le_rfl, c.1⟩
      · intro q
        obtain ⟨q1, q2, q3⟩ := ih q
        exact ⟨q1, by omega, q3⟩)
  exact key h

/-- `rescue` ends. -/
theorem ends_rescue (hsqrt : ∀ a : K, 0 ≤ a → 0 ≤ CMath.sqrt a ∧ CMath.sqrt a * CMath.sqrt a = a) (hend : 0 < p.rhoend) {N : Nat}
    (hm : More p calfun T N) (hs : Safe p calfun T N N) :
    ∀ (a b : Nat) (s : St K), s.nf = N → 0 ≤ s.res.winc → countIf (fun k => s.res.wdist k ≠ 0) p.npt ≤ a →
      countIf (fun k => 0 < s.res.wdist k) p.npt ≤ b → Ends p calfun T (.r120, s) := by
  obtain ⟨hb, hr⟩ := ends_rpts hsqrt hend hm hs
  intro a
  induction a using Nat.strong_induction_on with
  | _ a iha =>
  intro b
  induction b using Nat.strong_induction_on with
  | _ b ihb =>
  intro s h1 h2 h3 h4
  apply Ends.step
  show Ends p calfun T (r120 p s)
  unfold r120
  dsimp only
  by_cases c : (rescuePick p s).2 = 0
  · rw [if_pos c]
    refine hr p.npt _ h1 ?_
    show p.npt < 1 + p.npt
    omega
  rw [if_neg c]
  obtain ⟨k1, k2, k3⟩ := rescuePick_spec s c
  generalize rescuePick p s = pick at k1 k2 k3 ⊢
  generalize rescueVlag p s _ = vb
  generalize rescueOld p s vb.1 vb.2 = old
  split_ifs with c2
  · -- the point is tried later
    have e : ∀ k, set1 s.res.wdist pick.1 (-s.res.wdist pick.1 - s.res.winc) k = if k = pick.1 then -s.res.wdist pick.1 - s.res.winc else s.res.wdist k :=
      fun k => rfl
    have neg : -s.res.wdist pick.1 - s.res.winc < 0 := by linarith
    refine ihb (countIf (fun k => 0 < set1 s.res.wdist pick.1 (-s.res.wdist pick.1 - s.res.winc) k) p.npt) ?_ _ h1 h2 ?_ le_rfl
    · refine lt_of_lt_of_le (countIf_lt (m := pick.1) ?_ k1 k2 ?_ k3) h4
      · intro k _ _
        rw [e]
        split_ifs with q
        · intro hh; exact absurd hh (not_lt.mpr neg.le)
        · exact id
      · rw [e, if_pos rfl]; exact not_lt.mpr neg.le
    · refine le_trans (countIf_le ?_) h3
      intro k _ _
      show set1 s.res.wdist pick.1 (-s.res.wdist pick.1 - s.res.winc) k ≠ 0 → _
      rw [e]
      split_ifs with q
      · rw [q]; exact fun _ => k3.ne'
      · exact id
  · -- the point is reinstated
    apply Ends.step
    show Ends p calfun T (r80 p _)
    unfold r80
    dsimp only
    have lt : ∀ f : K → K, f 0 = 0 → (∀ x, f x ≠ 0 → x ≠ 0) → countIf (fun k => f (set1 s.res.wdist pick.1 0 k) ≠ 0) p.npt < a := by
      intro f f0 f1
      refine lt_of_lt_of_le (countIf_lt (m := pick.1) ?_ k1 k2 ?_ k3.ne') h3
      · intro k _ _ hk
        have hk := f1 _ hk
        unfold set1 at hk
        split_ifs at hk with q
        · exact absurd rfl hk
        · exact hk
      · unfold set1
        rw [if_pos rfl]
        exact not_not.mpr f0
    split_ifs with q1 q2
    · exact hb _ h1
    · have l := lt CMath.fabs (by rw [ExactMath.fabs_eq, abs_zero]) (by intro x hx; rw [ExactMath.fabs_eq] at hx; exact abs_ne_zero.mp hx)
      exact iha _ l _ _ h1 h2 le_rfl le_rfl
    · have l := lt id rfl (fun _ => id)
      exact iha _ l _ _ h1 h2 le_rfl le_rfl

/-! ### The whole run -/

theorem winc_nonneg (f : Nat → K) (n : Nat) : 0 ≤ up n (fun k t => cmax t (f k)) 0 := by
  refine up_inv (fun _ (t : K) => 0 ≤ t) n le_rfl ?_
  intro m _ t h
  rw [cmax_eq]
  exact h.trans (le_max_left _ _)

theorem safe_none (N R : Nat) (h : N ≤ R) : Safe p calfun T N R := by
  intro s h1 h2
  unfold damaged
  rw [if_neg (by omega)]
  exact ends_done _

theorem safe (hsqrt : ∀ a : K, 0 ≤ a → 0 ≤ CMath.sqrt a ∧ CMath.sqrt a * CMath.sqrt a = a) (hend : 0 < p.rhoend) {N : Nat}
    (hm : More p calfun T N) (R : Nat) : Safe p calfun T N R := by
  by_cases c : N ≤ R
  · exact safe_none N R c
  · intro s h1 h2
    unfold damaged
    rw [if_pos (by omega)]
    apply Ends.step
    apply Ends.step
    show Ends p calfun T (r80 p (rescueInit p { s with nfsav := s.nf, kbase := s.kopt }))
    unfold r80
    dsimp only
    rw [if_neg (fun q => q rfl)]
    have hw : 0 ≤ (rescueInit p { s with nfsav := s.nf, kbase := s.kopt }).res.winc := by
      unfold rescueInit
      dsimp only
      exact winc_nonneg _ _
    exact ends_rescue hsqrt hend hm (safe_none N N le_rfl) _ _ _ h1 hw le_rfl le_rfl

theorem ends_all (hsqrt : ∀ a : K, 0 ≤ a → 0 ≤ CMath.sqrt a ∧ CMath.sqrt a * CMath.sqrt a = a) (hend : 0 < p.rhoend) :
    ∀ (M : Nat) (l : Lab) (s : St K), p.maxfun ≤ s.nf + M → l = .l60 ∨ l = .l650 ∨ l = .rpts → Ends p calfun T (l, s) := by
  intro M
  have step : ∀ s : St K, More p calfun T s.nf → ∀ l : Lab, l = .l60 ∨ l = .l650 ∨ l = .rpts → Ends p calfun T (l, s) := by
    intro s hm l hl
    rcases hl with e | e | e
    · rw [e]
      exact ends_l60 hsqrt hend hm (safe hsqrt hend hm s.nresc) s rfl rfl
    · rw [e]
      exact ends_l650 hsqrt hend hm (safe hsqrt hend hm s.nresc) s rfl rfl
    · rw [e]
      exact (ends_rpts hsqrt hend hm (safe hsqrt hend hm s.nf)).2 (p.npt + 1) s rfl (by omega)
  induction M with
  | zero =>
    intro l s h hl
    exact step s (fun q => absurd q (by omega)) l hl
  | succ M ih =>
    intro l s h hl
    refine step s (fun _ l' t ht hl' => ih l' t ?_ hl') l hl
    rw [ht]
    push_cast at h ⊢
    omega

/-- `prelim` ends. -/
theorem ends_pre (hsqrt : ∀ a : K, 0 ≤ a → 0 ≤ CMath.sqrt a ∧ CMath.sqrt a * CMath.sqrt a = a) (hend : 0 < p.rhoend) :
    ∀ (k : Nat) (s : St K), p.npt ≤ s.nf + k → Ends p calfun T (.pre, s) := by
  have h20 : ∀ s : St K, Ends p calfun T (.l20, s) := by
    intro s
    apply Ends.step
    show Ends p calfun T (l20 p s)
    have h := fun t : St K => ends_all (p := p) (calfun := calfun) (T := T) hsqrt hend (p.maxfun - t.nf).toNat .l60 t (by have := Int.self_le_toNat (p.maxfun - t.nf); omega) (Or.inl rfl)
    unfold l20
    dsimp only
    split_ifs <;> exact h _
  have e : ∀ (s : St K) (x : Nat → K), (prelimModel p (prelimStore (call calfun x { prelimPoint p s (s.nf + 1) with x := x }))).nf = s.nf + 1 := by
    intro s x
    rw [(prelimModel_same p _).2.1, (prelimStore_same _).1]
    show (prelimPoint p s (s.nf + 1)).nf + 1 = s.nf + 1
    rw [(prelimPoint_same p s (s.nf + 1)).2.1]
  have one : ∀ s : St K, (∀ t : St K, t.nf = s.nf + 1 → t.nf < p.npt → Ends p calfun T (.pre, t)) → Ends p calfun T (.pre, s) := by
    intro s h
    apply Ends.step
    show Ends p calfun T (prelim p calfun s)
    unfold prelim
    dsimp only
    generalize prelimX p _ _ = x
    have e := e s x
    generalize prelimModel p _ = t at e ⊢
    split_ifs with c
    · exact h t e c.1
    · unfold begin
      dsimp only
      split_ifs
      · exact ends_done _
      · exact h20 _
  intro k
  induction k with
  | zero => exact fun s h => one s fun t t1 t2 => absurd t2 (by omega)
  | succ k ih => exact fun s h => one s fun t t1 _ => ih t (by omega)

/-- `bobyqb` ends. -/
theorem bobyqb_ends (hsqrt : ∀ a : K, 0 ≤ a → 0 ≤ CMath.sqrt a ∧ CMath.sqrt a * CMath.sqrt a = a) (p : Par K) (h0 : 0 < p.rhoend)
    (hre : p.rhoend ≤ p.rhobeg) (hn : 1 ≤ p.npt) (calfun : Nat → (Nat → K) → K) (T : St K → Trs K) (x sl su : Nat → K) (s : St K)
    (h : Ready p x sl su) : ∃ fuel r, run p calfun T fuel (start x sl su s) = (.ret, r) := by
  obtain ⟨fuel, q⟩ := ends_pre (calfun := calfun) (T := T) hsqrt h0 p.npt (start x sl su s).2 (by omega)
  have q : (run p calfun T fuel (start x sl su s)).1 = .ret ∨ (run p calfun T fuel (start x sl su s)).1 = .wrong := q
  have w := bobyqb_never_wrong (weak_sqrt hsqrt) p h0 hre hn calfun T x sl su s h fuel
  exact ⟨fuel, (run p calfun T fuel (start x sl su s)).2, Prod.ext (q.resolve_right w) rfl⟩

/-- **C82.**  In exact arithmetic `bobyqa_optimize` ends, for any objective function and any step of `trsbox`. -/
theorem optimize_ends (hsqrt : ∀ a : K, 0 ≤ a → 0 ≤ CMath.sqrt a ∧ CMath.sqrt a * CMath.sqrt a = a) (a : Args K)
    (obj : Nat → (Nat → K) → K) (T : Par K → St K → Trs K) (s : St K) : ∃ fuel r, optimize a obj T s fuel = some r := by
  cases hp : prepare a s with
  | inl e =>
    refine ⟨0, (e.1, e.2, s.xbase 1, []), ?_⟩
    unfold optimize
    rw [hp]
  | inr t =>
    obtain ⟨p, scl, ls⟩ := t
    obtain ⟨h0, hre, hn, hpn, x0, sl, su, rfl, hrd⟩ := prepare_ready a s p scl ls hp
    obtain ⟨fuel, r, hr⟩ := bobyqb_ends hsqrt p h0 hre hn (objfun obj a.maximize scl) (T p) x0 sl su s hrd
    refine ⟨fuel, (r.status, unscale scl r.x, r.xbase 1 * (if a.maximize then -1 else 1), r.log.map fun e => (unscale scl e.1, e.2 * (if a.maximize then -1 else 1))), ?_⟩
    unfold optimize
    rw [hp]
    dsimp only
    rw [hr]

/-- **C82.**  In exact arithmetic, with the step of `trsbox`, `bobyqa_optimize` ends, and if the objective function has been called
then the variables at the end are those of the call which gave the best value. -/
theorem optimize_total (hsqrt : ∀ a : K, 0 ≤ a → 0 ≤ CMath.sqrt a ∧ CMath.sqrt a * CMath.sqrt a = a) (a : Args K)
    (obj : Nat → (Nat → K) → K) (T : Par K → St K → Trs K) (hT : ∀ p, IsTrsbox p (T p)) (s : St K) :
    ∃ fuel st x w1 log, optimize a obj T s fuel = some (st, x, w1, log) ∧ st ≠ .stepFailed ∧ Genuine obj log ∧
      (log ≠ [] → ∃ e, BestCall a x e log ∧ (st = .success → w1 = e.2)) := by
  obtain ⟨fuel, ⟨st, x, w1, log⟩, h⟩ := optimize_ends hsqrt a obj T s
  refine ⟨fuel, st, x, w1, log, h, optimize_never_failed hsqrt a obj T hT s fuel st x w1 log h, ?_, fun hl => (optimize_best_always hsqrt a obj T hT s fuel st x w1 log h hl).2⟩
  by_cases hl : log = []
  · rw [hl]; exact trivial
  · exact (optimize_best_always hsqrt a obj T hT s fuel st x w1 log h hl).1

end
end Opk.Bobyqa
