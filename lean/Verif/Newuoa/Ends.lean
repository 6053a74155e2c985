import Verif.Newuoa.Revcom
import Mathlib.Algebra.Order.Archimedean.Basic
import Mathlib.Tactic.Linarith
import Mathlib.Tactic.Positivity

/-!
# NEWUOA ends

In exact arithmetic, whatever `trsapp`, `biglag`, `bigden` and `update` compute, the radius `rho` only takes a finite number of values
and there is a finite number of steps between two calls of the objective function.
-/
namespace Opk.Newuoa
open Linalg CMath Cobyla

set_option linter.unusedSectionVars false

variable {K : Type} [Field K] [LinearOrder K] [IsStrictOrderedRing K] [CMath K] [ExactMath K]

theorem cmax_max (a b : K) : cmax a b = max a b := by
  unfold cmax
  by_cases h : a ≥ b
  · rw [if_pos h, max_eq_left h]
  · rw [if_neg h, max_eq_right (le_of_lt (not_le.mp h))]

/-- The laws hold in exact arithmetic. -/
theorem laws : Laws K :=
  ⟨_root_.add_zero, _root_.add_comm, _root_.neg_neg, fun _ _ h => neg_le_neg h⟩

/-- The radii. -/
def Rad (p : Par K) (s : St K) : Prop := p.rhoend ≤ s.rho ∧ s.rho ≤ p.rhobeg ∧ s.rho ≤ s.delta

/-- The radii at the labels. -/
def RadOk (p : Par K) : Lab → St K → Prop
  | .l50, _ => True
  | .l310, s => p.npt < s.nf → Rad p s
  | .ask, s => p.npt < s.nf → Rad p s
  | .done, s => p.npt ≤ s.log.length → Rad p s
  | .ret, s => p.npt ≤ s.log.length → Rad p s
  | _, s => Rad p s

/-- The next radius is between `rhoend` and a quarter of the radius, or it is `rhoend`. -/
theorem newRho_spec (hsqrt : ∀ a : K, 0 ≤ a → 0 ≤ CMath.sqrt a ∧ CMath.sqrt a * CMath.sqrt a = a) (p : Par K) (hend : 0 < p.rhoend)
    (rho : K) (h : p.rhoend < rho) : p.rhoend ≤ newRho p rho ∧ newRho p rho < rho ∧ (newRho p rho = p.rhoend ∨ newRho p rho ≤ rho / 4) := by
  have hq : rho / p.rhoend * p.rhoend = rho := div_mul_cancel₀ _ hend.ne'
  unfold newRho
  dsimp only
  generalize hr : rho / p.rhoend = r at *
  rw [ExactMath.lit_eq, ExactMath.lit_eq, ExactMath.lit_eq]
  push_cast
  split_ifs with c1 c2
  · exact ⟨le_refl _, h, Or.inl rfl⟩
  · have h16 : 16 < r := by have := not_le.mp c1; linarith
    obtain ⟨s0, s1⟩ := hsqrt r (by linarith)
    have s4 : 4 < CMath.sqrt r := by
      by_contra hh
      have : CMath.sqrt r * CMath.sqrt r ≤ 4 * 4 := mul_le_mul (not_lt.mp hh) (not_lt.mp hh) s0 (by norm_num)
      linarith
    have hle : CMath.sqrt r ≤ r / 4 := by
      have : CMath.sqrt r * 4 ≤ CMath.sqrt r * CMath.sqrt r := mul_le_mul_of_nonneg_left s4.le s0
      linarith
    have hm : CMath.sqrt r * p.rhoend ≤ r / 4 * p.rhoend := mul_le_mul_of_nonneg_right hle hend.le
    have hm' : r / 4 * p.rhoend = rho / 4 := by rw [← hq]; ring
    rw [hm'] at hm
    refine ⟨?_, by linarith, Or.inr hm⟩
    have : 1 * p.rhoend ≤ CMath.sqrt r * p.rhoend := mul_le_mul_of_nonneg_right (by linarith) hend.le
    linarith
  · have h250 : 250 < r := by have := not_le.mp c2; linarith
    have : 250 * p.rhoend < r * p.rhoend := mul_lt_mul_of_pos_right h250 hend
    exact ⟨by linarith, by linarith, Or.inr (by linarith)⟩

theorem newDelta_ge {s : St K} (h : 0 < s.rho) : s.rho ≤ newDelta s := by
  unfold newDelta
  dsimp only
  generalize (if s.ratio ≤ lit 1 10 then lit 1 2 * s.dnorm else if s.ratio ≤ lit 7 10 then cmax (s.delta * lit 1 2) s.dnorm else cmax (s.delta * lit 1 2) (s.dnorm + s.dnorm)) = t
  rw [ExactMath.lit_eq]
  push_cast
  split_ifs with c
  · exact le_refl _
  · have := not_le.mp c
    linarith

theorem Rad.same {p : Par K} {s t : St K} (h : Rad p s) (e : t.rho = s.rho ∧ t.delta = s.delta) : Rad p t := by
  unfold Rad
  rw [e.1, e.2]
  exact h

/-! ### The radii -/

theorem cut_ge {s : St K} (h : 0 < s.rho) : s.rho ≤ cut s := by
  unfold cut
  dsimp only
  split_ifs with c
  · exact le_refl _
  · rw [ExactMath.lit_eq, ExactMath.lit_eq] at c
    rw [ExactMath.lit_eq]
    push_cast at c ⊢
    have := not_le.mp c
    linarith

/-- The radius after a short step is either `rho` or a tenth of what it was. -/
theorem cut_le (s : St K) : cut s = s.rho ∨ cut s = s.delta / 10 := by
  unfold cut
  dsimp only
  split_ifs with c
  · exact Or.inl rfl
  · right
    rw [ExactMath.lit_eq]
    push_cast
    ring

theorem short_spec (s : St K) : ((short s).1 = .l460 ∨ (short s).1 = .l490) ∧ (short s).2.rho = s.rho ∧ (short s).2.delta = cut s ∧
    (short s).2.dnorm = s.dnorm ∧ (short s).2.ratio = -1 := by
  unfold short
  dsimp only
  split_ifs
  · exact ⟨Or.inl rfl, rfl, rfl, rfl, rfl⟩
  · exact ⟨Or.inl rfl, rfl, rfl, rfl, rfl⟩
  · exact ⟨Or.inr rfl, rfl, rfl, rfl, rfl⟩

theorem rad_short {p : Par K} (hend : 0 < p.rhoend) {s : St K} (h : Rad p s) : Rad p (short s).2 := by
  obtain ⟨-, e1, e2, -, -⟩ := short_spec s
  unfold Rad
  rw [e1, e2]
  exact ⟨h.1, h.2.1, cut_ge (lt_of_lt_of_le hend h.1)⟩

theorem radOk_rad {p : Par K} {l : Lab} {s : St K} (h : Rad p s) : RadOk p l s := by
  cases l
  all_goals first
    | exact h
    | exact fun _ => h
    | trivial

theorem rad_answer {p : Par K} (hend : 0 < p.rhoend) (hbeg : p.rhoend ≤ p.rhobeg) {s : St K} (f : K) (ok : Ok p .ask s) (h : RadOk p .ask s) :
    RadOk p (answer p f s).1 (answer p f s).2 := by
  unfold answer after
  by_cases c : s.nf ≤ p.npt
  · rw [if_pos (show (put f s).nf ≤ p.npt from c)]
    unfold l70
    dsimp only
    generalize model p (store (put f s)) = t
    split_ifs
    · trivial
    · exact (⟨hbeg, le_refl _, le_refl _⟩ : p.rhoend ≤ p.rhobeg ∧ p.rhobeg ≤ p.rhobeg ∧ p.rhobeg ≤ p.rhobeg)
  · rw [if_neg (show ¬ (put f s).nf ≤ p.npt from c)]
    have h := h (not_le.mp c)
    have h1 : Rad p (put f s) := h
    split_ifs with k
    · exact fun _ => h1
    · have h2 : Rad p (errors p (put f s)) := by
        refine h1.same ?_
        unfold errors
        dsimp only
        split_ifs <;> exact ⟨rfl, rfl⟩
      dsimp only
      generalize errors p (put f s) = t at h2 ⊢
      split_ifs
      · exact h2
      · exact fun _ => h2
      all_goals
        exact ⟨h2.1, h2.2.1, newDelta_ge (s := { t with ratio := (t.f - t.fsave) / t.vquad }) (lt_of_lt_of_le hend h2.1)⟩

theorem rad_step (hsqrt : ∀ a : K, 0 ≤ a → 0 ≤ CMath.sqrt a ∧ CMath.sqrt a * CMath.sqrt a = a) {p : Par K} (hend : 0 < p.rhoend) (o : Subs K)
    (ls : Lab × St K) (ok : Ok p ls.1 ls.2) (h : RadOk p ls.1 ls.2) : RadOk p (step p o ls).1 (step p o ls).2 := by
  obtain ⟨l, s⟩ := ls
  cases l
  · intro q
    have h1 : s.nf < p.npt := ok.2.2.1
    have q : p.npt < s.nf + 1 := q
    omega
  · show RadOk p (l310 p s).1 (l310 p s).2
    have ok : Next p s := ok
    have h : p.npt < s.nf → Rad p s := h
    unfold l310
    split_ifs
    · intro q
      have q : p.npt ≤ s.log.length := q
      exact h (by have := ok.1; omega)
    · exact h
  · exact h
  · exact h
  · have h : Rad p s := h
    show RadOk p (l100 p o s).1 (l100 p o s).2
    unfold l100
    dsimp only
    split_ifs
    · exact radOk_rad (rad_short hend (Rad.same h ⟨rfl, rfl⟩))
    · exact h
  · have h : Rad p s := h
    show Rad p (l120 p o s).2
    refine h.same ?_
    unfold l120
    dsimp only
    have h1 : (if s.dsq ≤ s.xoptsq * lit 1 1000 then shift p s else s).rho = s.rho ∧ (if s.dsq ≤ s.xoptsq * lit 1 1000 then shift p s else s).delta = s.delta := by split_ifs <;> exact ⟨rfl, rfl⟩
    generalize (if s.dsq ≤ s.xoptsq * lit 1 1000 then shift p s else s) = t at h1 ⊢
    have h2 : (if t.knew > 0 then { t with alpha := (o.biglag t).1, d := (o.biglag t).2.1, vlag := (o.biglag t).2.2.1, w := (o.biglag t).2.2.2 } else t).rho = s.rho ∧ (if t.knew > 0 then { t with alpha := (o.biglag t).1, d := (o.biglag t).2.1, vlag := (o.biglag t).2.2.1, w := (o.biglag t).2.2.2 } else t).delta = s.delta := by
      split_ifs <;> exact h1
    generalize (if t.knew > 0 then { t with alpha := (o.biglag t).1, d := (o.biglag t).2.1, vlag := (o.biglag t).2.2.1, w := (o.biglag t).2.2.2 } else t) = u at h2 ⊢
    have h3 : (lagrange p u).rho = s.rho ∧ (lagrange p u).delta = s.delta := h2
    generalize lagrange p u = v at h3 ⊢
    split_ifs <;> exact h3
  · exact fun _ => h
  · have h : Rad p s := h
    show RadOk p (l410 p o s).1 (l410 p o s).2
    have h1 : Rad p (tryFrobenius p (move p o s)) := by
      refine h.same ?_
      unfold tryFrobenius frobenius
      dsimp only
      split_ifs <;> exact ⟨rfl, rfl⟩
    unfold l410
    dsimp only
    generalize tryFrobenius p (move p o s) = t at h1 ⊢
    split_ifs <;> exact h1
  · have h : Rad p s := h
    show RadOk p (l460 p s).1 (l460 p s).2
    apply radOk_rad
    unfold l460
    dsimp only
    split_ifs <;> exact h
  · have h : Rad p s := h
    show RadOk p (l490 p s).1 (l490 p s).2
    apply radOk_rad
    unfold l490
    dsimp only
    split_ifs with c
    · obtain ⟨n1, n2, n3⟩ := newRho_spec hsqrt p hend s.rho c
      refine ⟨n1, le_trans n2.le h.2.1, ?_⟩
      show newRho p s.rho ≤ cmax _ _
      rw [cmax_max]
      exact le_max_right _ _
    · exact h
    · exact h
  · show RadOk p (finish s).1 (finish s).2
    have h : p.npt ≤ s.log.length → Rad p s := h
    unfold finish
    dsimp only
    split_ifs
    · exact fun q => (h q).same ⟨rfl, rfl⟩
    · exact h
  · exact h

/-! ### The number of steps -/

/-- The machine comes to a call or to the end. -/
def Stops (p : Par K) (o : Subs K) (ls : Lab × St K) : Prop := ∃ fuel r, go p o fuel ls = some r

theorem Stops.step {p : Par K} {o : Subs K} {ls : Lab × St K} (h : Stops p o (step p o ls)) : Stops p o ls := by
  obtain ⟨l, s⟩ := ls
  by_cases ha : l = .ask
  · subst ha
    exact ⟨0, (.ask, s), by simp [go]⟩
  by_cases hr : l = .ret
  · subst hr
    exact ⟨0, (.ret, s), by simp [go]⟩
  obtain ⟨fuel, r, h⟩ := h
  refine ⟨fuel + 1, r, ?_⟩
  cases l
  all_goals first
    | exact absurd rfl ha
    | exact absurd rfl hr
    | (simp only [go]; exact h)

theorem stops_ask (p : Par K) (o : Subs K) (s : St K) : Stops p o (.ask, s) := ⟨0, _, by simp [go]; rfl⟩

theorem stops_ret (p : Par K) (o : Subs K) (s : St K) : Stops p o (.ret, s) := ⟨0, _, by simp [go]; rfl⟩

theorem stops_done (p : Par K) (o : Subs K) (s : St K) : Stops p o (.done, s) := Stops.step (stops_ret p o _)

theorem stops_l310 (p : Par K) (o : Subs K) (s : St K) : Stops p o (.l310, s) := by
  apply Stops.step
  show Stops p o (l310 p s)
  unfold l310
  split_ifs
  · exact stops_done p o _
  · exact stops_ask p o _

theorem stops_l290 (p : Par K) (o : Subs K) (s : St K) : Stops p o (.l290, s) := Stops.step (stops_l310 p o _)

theorem stops_l120 (p : Par K) (o : Subs K) (s : St K) : Stops p o (.l120, s) := Stops.step (stops_l290 p o _)

theorem stops_l50 (p : Par K) (o : Subs K) (s : St K) : Stops p o (.l50, s) := Stops.step (stops_l310 p o _)

/-- `L490`, if the machine stops with a smaller radius. -/
theorem stops_l490 {p : Par K} {o : Subs K} (s : St K)
    (ih : p.rhoend < s.rho → ∀ t : St K, t.rho = newRho p s.rho → t.rho ≤ t.delta → Stops p o (.l100, t)) : Stops p o (.l490, s) := by
  apply Stops.step
  show Stops p o (l490 p s)
  unfold l490
  dsimp only
  split_ifs with c k
  · apply Stops.step
    refine ih c _ rfl ?_
    show newRho p s.rho ≤ cmax _ _
    rw [cmax_max]
    exact le_max_right _ _
  · exact stops_l290 p o s
  · exact stops_done p o _

/-- `L460`, if the machine stops with a smaller radius and after the next step. -/
theorem stops_l460 {p : Par K} {o : Subs K} (s : St K)
    (ih : p.rhoend < s.rho → ∀ t : St K, t.rho = newRho p s.rho → t.rho ≤ t.delta → Stops p o (.l100, t))
    (again : s.ratio > 0 ∨ max s.delta s.dnorm > s.rho → ∀ t : St K, t.rho = s.rho → t.delta = s.delta → Stops p o (.l100, t)) :
    Stops p o (.l460, s) := by
  apply Stops.step
  show Stops p o (l460 p s)
  unfold l460
  dsimp only
  generalize (if (farthest p s).1 = 0 then s.knew else ((farthest p s).1 : Int)) = k
  by_cases k1 : k > 0
  · rw [if_pos k1]
    exact stops_l120 p o _
  · rw [if_neg k1]
    by_cases k2 : s.ratio > 0 ∨ cmax s.delta s.dnorm > s.rho
    · rw [if_pos k2]
      rw [cmax_max] at k2
      exact again k2 _ rfl rfl
    · rw [if_neg k2]
      exact stops_l490 _ ih

/-- `L100`, if the machine stops with a smaller radius. -/
theorem stops_l100_of {p : Par K} {o : Subs K} (r : K) (hr : 0 < r)
    (ih : p.rhoend < r → ∀ t : St K, t.rho = newRho p r → t.rho ≤ t.delta → Stops p o (.l100, t)) (M : Nat) :
    ∀ s : St K, s.rho = r → s.delta ≤ 10 ^ M * r → Stops p o (.l100, s) := by
  induction M with
  | zero =>
    intro s h1 h2
    refine pass s h1 fun h => ?_
    rcases cut_le s with e | e
    · rw [e, h1] at h
      exact absurd h (lt_irrefl _)
    · rw [e] at h
      rw [pow_zero, one_mul] at h2
      linarith
  | succ M ihM =>
    intro s h1 h2
    refine pass s h1 fun h t t1 t2 => ?_
    rcases cut_le s with e | e
    · rw [e, h1] at h
      exact absurd h (lt_irrefl _)
    · refine ihM t t1 ?_
      rw [t2, e]
      rw [pow_succ] at h2
      linarith
where
  pass (s : St K) (h1 : s.rho = r) (again : r < cut s → ∀ t : St K, t.rho = r → t.delta = cut s → Stops p o (.l100, t)) : Stops p o (.l100, s) := by
    apply Stops.step
    show Stops p o (l100 p o s)
    unfold l100
    dsimp only
    split_ifs with c
    · obtain ⟨t, ht⟩ : ∃ t : St K, t = { s with knew := 0, d := (o.trsapp { s with knew := 0 }).1, crvmin := (o.trsapp { s with knew := 0 }).2.1, w := (o.trsapp { s with knew := 0 }).2.2, dsq := acc p.n (fun i => (o.trsapp { s with knew := 0 }).1 i * (o.trsapp { s with knew := 0 }).1 i) 0, dnorm := cmin (sqrt (acc p.n (fun i => (o.trsapp { s with knew := 0 }).1 i * (o.trsapp { s with knew := 0 }).1 i) 0)) s.delta } := ⟨_, rfl⟩
      have hrho : t.rho = r := by rw [ht]; exact h1
      have hcut : cut t = cut s := by rw [ht]; rfl
      have hdn : t.dnorm < lit 1 2 * t.rho := by rw [ht]; exact c
      rw [← ht]
      clear ht c
      obtain ⟨e0, e1, e2, e3, e4⟩ := short_spec t
      rw [hrho, ExactMath.lit_eq] at hdn
      push_cast at hdn
      have e1 : (short t).2.rho = r := e1.trans hrho
      rcases e0 with e0 | e0
      · have e : short t = (.l460, (short t).2) := by rw [← e0]
        rw [e]
        refine stops_l460 _ (by rw [e1]; exact ih) ?_
        intro q t' t1 t2
        rw [e1, e2, e3, e4] at q
        rw [e1] at t1
        rw [e2] at t2
        have hc : r < cut t := by
          rcases q with q | q
          · exact absurd q (by norm_num)
          · rcases lt_max_iff.mp q with q | q
            · exact q
            · linarith
        rw [hcut] at hc t2
        exact again hc t' t1 t2
      · have e : short t = (.l490, (short t).2) := by rw [← e0]
        rw [e]
        exact stops_l490 _ (by rw [e1]; exact ih)
    · exact stops_l120 p o _

/-- `L100`. -/
theorem stops_l100_level [Archimedean K] (hsqrt : ∀ a : K, 0 ≤ a → 0 ≤ CMath.sqrt a ∧ CMath.sqrt a * CMath.sqrt a = a) {p : Par K} {o : Subs K}
    (hend : 0 < p.rhoend) (N : Nat) : ∀ s : St K, p.rhoend ≤ s.rho → s.rho ≤ 4 ^ N * p.rhoend → Stops p o (.l100, s) := by
  have level : ∀ s : St K, p.rhoend ≤ s.rho → ∃ M, s.delta ≤ 10 ^ M * s.rho := by
    intro s h
    have h0 : 0 < s.rho := lt_of_lt_of_le hend h
    obtain ⟨M, hM⟩ := pow_unbounded_of_one_lt (s.delta / s.rho) (show (1 : K) < 10 by norm_num)
    exact ⟨M, by rw [div_lt_iff₀ h0] at hM; exact hM.le⟩
  induction N with
  | zero =>
    intro s h1 h2
    rw [pow_zero, one_mul] at h2
    obtain ⟨M, hM⟩ := level s h1
    exact stops_l100_of s.rho (lt_of_lt_of_le hend h1) (fun q => absurd q (not_lt.mpr h2)) M s rfl hM
  | succ N ih =>
    intro s h1 h2
    obtain ⟨M, hM⟩ := level s h1
    refine stops_l100_of s.rho (lt_of_lt_of_le hend h1) (fun q t t1 _ => ?_) M s rfl hM
    obtain ⟨n1, -, n3⟩ := newRho_spec hsqrt p hend s.rho q
    refine ih t (by rw [t1]; exact n1) ?_
    rw [t1]
    rcases n3 with n3 | n3
    · rw [n3]
      exact le_mul_of_one_le_left hend.le (one_le_pow₀ (by norm_num))
    · rw [pow_succ] at h2
      linarith

theorem stops_l100 [Archimedean K] (hsqrt : ∀ a : K, 0 ≤ a → 0 ≤ CMath.sqrt a ∧ CMath.sqrt a * CMath.sqrt a = a) {p : Par K} {o : Subs K}
    (hend : 0 < p.rhoend) (s : St K) (h : p.rhoend ≤ s.rho) : Stops p o (.l100, s) := by
  obtain ⟨N, hN⟩ := pow_unbounded_of_one_lt (s.rho / p.rhoend) (show (1 : K) < 4 by norm_num)
  exact stops_l100_level hsqrt hend N s h (by rw [div_lt_iff₀ hend] at hN; exact hN.le)

/-- From any label. -/
theorem stops [Archimedean K] (hsqrt : ∀ a : K, 0 ≤ a → 0 ≤ CMath.sqrt a ∧ CMath.sqrt a * CMath.sqrt a = a) {p : Par K} {o : Subs K}
    (hend : 0 < p.rhoend) (ls : Lab × St K) (h : RadOk p ls.1 ls.2) : Stops p o ls := by
  obtain ⟨l, s⟩ := ls
  have h100 : ∀ t : St K, p.rhoend ≤ t.rho → Stops p o (.l100, t) := fun t ht => stops_l100 hsqrt hend t ht
  have h490 : ∀ t : St K, p.rhoend ≤ t.rho → Stops p o (.l490, t) := fun t ht =>
    stops_l490 t fun q u u1 _ => h100 u (by rw [u1]; exact (newRho_spec hsqrt p hend _ q).1)
  have h460 : ∀ t : St K, p.rhoend ≤ t.rho → Stops p o (.l460, t) := fun t ht =>
    stops_l460 t (fun q u u1 _ => h100 u (by rw [u1]; exact (newRho_spec hsqrt p hend _ q).1)) (fun _ u u1 _ => h100 u (by rw [u1]; exact ht))
  cases l
  · exact stops_l50 p o s
  · exact stops_l310 p o s
  · exact stops_ask p o s
  · have h : Rad p s := h
    exact Stops.step (h100 _ h.1)
  · have h : Rad p s := h
    exact h100 s h.1
  · exact stops_l120 p o s
  · exact stops_l290 p o s
  · have h : Rad p s := h
    apply Stops.step
    show Stops p o (l410 p o s)
    have h1 : (tryFrobenius p (move p o s)).rho = s.rho := by
      unfold tryFrobenius frobenius
      dsimp only
      split_ifs <;> rfl
    unfold l410
    dsimp only
    generalize tryFrobenius p (move p o s) = t at h1 ⊢
    split_ifs
    · exact h100 _ (by rw [h1]; exact h.1)
    · exact h100 _ (by rw [h1]; exact h.1)
    · exact h460 _ (by rw [h1]; exact h.1)
    · exact h460 _ (by rw [h1]; exact h.1)
  · have h : Rad p s := h
    exact h460 s h.1
  · have h : Rad p s := h
    exact h490 s h.1
  · exact stops_done p o s
  · exact stops_ret p o s

/-! ### The whole run -/

theorem rad_run (hsqrt : ∀ a : K, 0 ≤ a → 0 ≤ CMath.sqrt a ∧ CMath.sqrt a * CMath.sqrt a = a) {p : Par K} (hend : 0 < p.rhoend) (hbeg : p.rhoend ≤ p.rhobeg)
    {o : Subs K} {calfun : Nat → (Nat → K) → K} (fuel : Nat) : ∀ ls : Lab × St K, Ok p ls.1 ls.2 → RadOk p ls.1 ls.2 →
      RadOk p (run p o calfun fuel ls).1 (run p o calfun fuel ls).2 := by
  induction fuel with
  | zero => exact fun _ _ h => h
  | succ k ih =>
    intro ls ok h
    refine ih _ (ok_stepF laws.add_zero laws.add_comm ls ok) ?_
    unfold stepF
    split
    · exact rad_answer hend hbeg _ ok h
    · exact rad_step hsqrt hend o _ ok h

theorem run_ends [Archimedean K] (hsqrt : ∀ a : K, 0 ≤ a → 0 ≤ CMath.sqrt a ∧ CMath.sqrt a * CMath.sqrt a = a) {p : Par K} (hend : 0 < p.rhoend)
    (hbeg : p.rhoend ≤ p.rhobeg) {o : Subs K} {calfun : Nat → (Nat → K) → K} (N : Nat) : ∀ ls : Lab × St K, Ok p ls.1 ls.2 → RadOk p ls.1 ls.2 →
      p.most ≤ ls.2.log.length + N → ∃ fuel s, run p o calfun fuel ls = (.ret, s) := by
  induction N with
  | zero =>
    intro ls ok h hN
    obtain ⟨fuel, r, hg⟩ := stops (o := o) hsqrt hend ls h
    obtain ⟨⟨m, hm⟩, hr⟩ := go_run p o calfun fuel ls r hg
    have hl := go_log p o fuel ls r hg
    have okr := ok_run (o := o) (calfun := calfun) laws.add_zero laws.add_comm m ls ok
    rw [hm] at okr
    obtain ⟨l, s⟩ := r
    rcases hr with hr | hr
    · have hr : l = .ask := hr
      subst hr
      have q1 : s.nf = s.log.length + 1 := okr.1.1
      have q2 : (s.nf : Int) ≤ p.most := okr.2
      have hl : s.log = ls.2.log := hl
      rw [← hl] at hN
      omega
    · have hr : l = .ret := hr
      subst hr
      exact ⟨m, s, hm⟩
  | succ N ih =>
    intro ls ok h hN
    obtain ⟨fuel, r, hg⟩ := stops (o := o) hsqrt hend ls h
    obtain ⟨⟨m, hm⟩, hr⟩ := go_run p o calfun fuel ls r hg
    have hl := go_log p o fuel ls r hg
    have okr := ok_run (o := o) (calfun := calfun) laws.add_zero laws.add_comm m ls ok
    have radr := rad_run (o := o) (calfun := calfun) hsqrt hend hbeg m ls ok h
    rw [hm] at okr radr
    obtain ⟨l, s⟩ := r
    rcases hr with hr | hr
    · have hr : l = .ask := hr
      subst hr
      obtain ⟨m', s', e⟩ := ih (answer p (calfun s.log.length s.x) s) (ok_after laws.add_comm _ okr) (rad_answer hend hbeg _ okr radr)
        (by rw [answer_log]; have hl : s.log = ls.2.log := hl; rw [hl]; simp; omega)
      refine ⟨m + (m' + 1), s', ?_⟩
      rw [run_add, hm]
      exact e
    · have hr : l = .ret := hr
      subst hr
      exact ⟨m, s, hm⟩

/-- **C77.**  In exact arithmetic, `newuoa_optimize` returns. -/
theorem newuoa_optimize_ends [Archimedean K] (hsqrt : ∀ a : K, 0 ≤ a → 0 ≤ CMath.sqrt a ∧ CMath.sqrt a * CMath.sqrt a = a)
    (a : Args K) (o : Par K → Subs K) (obj : Nat → (Nat → K) → K) (s : St K) : ∃ fuel r, optimize a o obj s fuel = some r := by
  unfold optimize
  cases hp : prepare a s with
  | inl e => exact ⟨0, _, rfl⟩
  | inr t =>
    obtain ⟨p, scl, ls⟩ := t
    obtain ⟨acc, -, hls⟩ := prepare_accepted a s p scl ls hp
    have ok0 : Ok p ls.1 ls.2 := by
      rw [hls]
      exact ok_init (p := p) (by have := acc.npt_eq; have := acc.npt1; have := acc.two; omega) _ rfl
    have rad0 : RadOk p ls.1 ls.2 := by rw [hls]; trivial
    obtain ⟨fuel, s', h⟩ := run_ends (o := o p) (calfun := objfun obj a.maximize scl) hsqrt (by rw [acc.rhoend_eq]; exact acc.rho1)
      (by rw [acc.rhoend_eq, acc.rhobeg_eq]; exact acc.rho2) p.most.toNat ls ok0 rad0
      (by omega)
    refine ⟨fuel, ?_⟩
    dsimp only
    rw [h]
    exact ⟨_, rfl⟩

/-! ### Reverse communication -/

/-- The workspaces which a caller may have, with the variables and the evaluations since the beginning (the latest first): after
`newuoa_create`, after a call of `newuoa_iterate` with the variables that were asked for and any value, after such a call
when no value was asked for, or after `newuoa_restart` with any variables. -/
inductive Talk (o : Par K → Subs K) : Ctx K → (Nat → K) → List ((Nat → K) × K) → Prop
  | new {n npt rhobeg rhoend maxfun ok zero c} (x : Nat → K) (h : create n npt rhobeg rhoend maxfun ok zero = some c) : Talk o c x []
  | next {c x l fuel f st x' c'} (t : Talk o c x l) (hs : getStatus (some c) = .iterate)
      (h : iterate o fuel (some c) f (some x) = some (st, some x', some c')) : Talk o c' x' ((x, f) :: l)
  | misuse {c x l fuel f st x' c'} (t : Talk o c x l) (hs : getStatus (some c) ≠ .iterate)
      (h : iterate o fuel (some c) f (some x) = some (st, some x', some c')) : Talk o c' x' l
  | again {c x l st c'} (y : Nat → K) (t : Talk o c x l) (h : restart (some c) = (st, some c')) : Talk o c' y []

/-- What is known of such a workspace. -/
def Known (c : Ctx K) (x : Nat → K) (l : List ((Nat → K) × K)) : Prop :=
  0 < c.par.npt ∧ 0 < c.par.rhoend ∧ c.par.rhoend ≤ c.par.rhobeg ∧
    (c.status = .iterate → (c.nevals = 0 ∧ l = []) ∨
      (Ok c.par .ask c.st ∧ RadOk c.par .ask c.st ∧ c.st.x = x ∧ c.nevals = l.length ∧ c.st.log = l ∧ l ≠ [])) ∧
    (c.status ≠ .iterate → c.status = .corrupted ∨
      (Ret c.par c.st ∧ RadOk c.par .ret c.st ∧ c.st.x = x ∧ c.nevals = l.length ∧ c.st.log = l ∧ c.st.status = c.status))

/-- The machine when `newuoa_iterate` begins. -/
theorem enter_ok {c : Ctx K} {x : Nat → K} {l : List ((Nat → K) × K)} (h : Known c x l) (hs : c.status = .iterate) (f : K) :
    Ok c.par (enter c f x).1 (enter c f x).2 ∧ RadOk c.par (enter c f x).1 (enter c f x).2 ∧ (enter c f x).2.log = (x, f) :: l ∧ c.nevals = l.length := by
  obtain ⟨h1, h2, h3, h4, -⟩ := h
  unfold enter
  rcases h4 hs with ⟨c0, rfl⟩ | ⟨q1, q2, q3, q4, q5, q6⟩
  · rw [if_pos c0]
    obtain ⟨s1, -, f2, f3, f4, f5⟩ := first_spec laws (p := c.par) (o := ⟨fun s => (s.x, 0, s.x), fun s => (0, s.x, s.x, s.x), fun s => (s.x, s.x, s.x, 0, s.x), fun s => (s.bmat, s.bmat, 0, s.x, s.x)⟩) (fun _ _ => f) h1 { c.st with x := x, log := [] } f rfl
    rw [f5]
    have hx : s1.x = x := f3
    refine ⟨ok_after laws.add_comm f f2, rad_answer h2 h3 f f2 ?_, by rw [answer_log, f4, hx], c0⟩
    intro q
    have : s1.nf = s1.log.length + 1 := f2.1.1
    rw [f4] at this
    have : s1.nf = 1 := this
    omega
  · rw [if_neg (by rw [q4]; exact fun q => q6 (List.eq_nil_of_length_eq_zero q))]
    have e : ({ c.st with x := x } : St K) = c.st := by rw [← q3]
    rw [e]
    exact ⟨ok_after laws.add_comm f q1, rad_answer h2 h3 f q1 q2, by rw [answer_log, q3, q5], q4⟩

theorem rad_go (hsqrt : ∀ a : K, 0 ≤ a → 0 ≤ CMath.sqrt a ∧ CMath.sqrt a * CMath.sqrt a = a) {p : Par K} (hend : 0 < p.rhoend) (hbeg : p.rhoend ≤ p.rhobeg)
    {o : Subs K} {fuel : Nat} {ls r : Lab × St K} (h : go p o fuel ls = some r) (ok : Ok p ls.1 ls.2) (rad : RadOk p ls.1 ls.2) :
    Ok p r.1 r.2 ∧ RadOk p r.1 r.2 ∧ (r.1 = .ask ∨ r.1 = .ret) ∧ r.2.log = ls.2.log := by
  obtain ⟨⟨m, hm⟩, hr⟩ := go_run p o (fun _ _ => 0) fuel ls r h
  have a := ok_run (o := o) (calfun := fun _ _ => 0) laws.add_zero laws.add_comm m ls ok
  have b := rad_run (o := o) (calfun := fun _ _ => 0) hsqrt hend hbeg m ls ok rad
  rw [hm] at a b
  exact ⟨a, b, hr, go_log p o fuel ls r h⟩

theorem Talk.known (hsqrt : ∀ a : K, 0 ≤ a → 0 ≤ CMath.sqrt a ∧ CMath.sqrt a * CMath.sqrt a = a) {o : Par K → Subs K} {c : Ctx K} {x : Nat → K}
    {l : List ((Nat → K) × K)} (h : Talk o c x l) : Known c x l := by
  induction h with
  | @new n npt rhobeg rhoend maxfun ok zero c x h =>
    unfold create at h
    split_ifs at h with c1 c2 c3 c4
    have h := (Option.some.inj h).symm
    subst h
    rw [not_or] at c2 c3
    exact ⟨by show 0 < npt.toNat; omega, not_le.mp c3.1, not_lt.mp c3.2, fun _ => Or.inl ⟨rfl, rfl⟩, fun q => absurd rfl q⟩
  | @next c x l fuel f st x' c' t hs h ih =>
    rw [iterate_ready o fuel c f x hs] at h
    obtain ⟨r, hg, e⟩ := Option.map_eq_some_iff.mp h
    simp only [Prod.mk.injEq, Option.some.injEq] at e
    obtain ⟨rfl, rfl, rfl⟩ := e
    obtain ⟨k1, k2, k3, k4⟩ := enter_ok ih hs f
    obtain ⟨g1, g2, g3, g4⟩ := rad_go hsqrt ih.2.1 ih.2.2.1 hg k1 k2
    rw [k3] at g4
    obtain ⟨l', s⟩ := r
    rcases g3 with g3 | g3
    · have g3 : l' = .ask := g3
      subst g3
      exact ⟨ih.1, ih.2.1, ih.2.2.1, fun _ => Or.inr ⟨g1, g2, rfl, congrArg Nat.succ k4, g4, by simp⟩, fun q => absurd rfl q⟩
    · have g3 : l' = .ret := g3
      subst g3
      exact ⟨ih.1, ih.2.1, ih.2.2.1, fun q => absurd q (Ret.final (p := c.par) g1).ne, fun _ => Or.inr ⟨g1, g2, rfl, congrArg Nat.succ k4, g4, rfl⟩⟩
  | @misuse c x l fuel f st x' c' t hs h ih =>
    rw [iterate_misused o fuel c f x hs] at h
    simp only [Prod.mk.injEq, Option.some.injEq] at h
    obtain ⟨-, rfl, rfl⟩ := h
    exact ⟨ih.1, ih.2.1, ih.2.2.1, fun q => Status.noConfusion q, fun _ => Or.inl rfl⟩
  | @again c x l st c' y t h ih =>
    unfold restart at h
    simp only [Prod.mk.injEq, Option.some.injEq] at h
    obtain ⟨-, rfl⟩ := h
    exact ⟨ih.1, ih.2.1, ih.2.2.1, fun _ => Or.inl ⟨rfl, rfl⟩, fun q => absurd rfl q⟩

/-- **C77.**  In exact arithmetic, `newuoa_iterate` returns when the caller obeys the protocol. -/
theorem newuoa_iterate_ends [Archimedean K] (hsqrt : ∀ a : K, 0 ≤ a → 0 ≤ CMath.sqrt a ∧ CMath.sqrt a * CMath.sqrt a = a)
    {o : Par K → Subs K} {c : Ctx K} {x : Nat → K} {l : List ((Nat → K) × K)} (h : Talk o c x l) (f : K) :
    ∃ fuel r, iterate o fuel (some c) f (some x) = some r := by
  by_cases hs : c.status = .iterate
  · have hk := h.known hsqrt
    obtain ⟨k1, k2, -⟩ := enter_ok hk hs f
    obtain ⟨fuel, r, hg⟩ := stops (o := o c.par) hsqrt hk.2.1 _ k2
    refine ⟨fuel, ?_⟩
    rw [iterate_ready o fuel c f x hs, hg]
    exact ⟨_, rfl⟩
  · exact ⟨0, _, iterate_misused o 0 c f x hs⟩

/-- **C78.**  In exact arithmetic, the number of evaluations is that of the workspace and it never exceeds `maxfun`; the
radius is in `[rhoend,rhobeg]` as soon as `npt` values are known; in case of success it is `rhoend`, and if there were too many
evaluations there were `maxfun` of them. -/
theorem newuoa_iterate_bounds (hsqrt : ∀ a : K, 0 ≤ a → 0 ≤ CMath.sqrt a ∧ CMath.sqrt a * CMath.sqrt a = a)
    {o : Par K → Subs K} {c : Ctx K} {x : Nat → K} {l : List ((Nat → K) × K)} (h : Talk o c x l) (hs : getStatus (some c) ≠ .corrupted) :
    getNevals (some c) = l.length ∧ (l.length : Int) ≤ max c.par.maxfun 1 ∧
    (getStatus (some c) = .iterate → (l.length : Int) < max c.par.maxfun 1) ∧
    (getStatus (some c) = .tooManyEvaluations → (l.length : Int) = max c.par.maxfun 1) ∧
    (c.par.npt ≤ l.length → c.par.rhoend ≤ getRho (some c) ∧ getRho (some c) ≤ c.par.rhobeg) ∧
    (getStatus (some c) = .success → getRho (some c) = c.par.rhoend) := by
  obtain ⟨h1, h2, h3, h4, h5⟩ := h.known hsqrt
  show (c.nevals : Int) = l.length ∧ (l.length : Int) ≤ c.par.most ∧ (c.status = .iterate → (l.length : Int) < c.par.most) ∧
    (c.status = .tooManyEvaluations → (l.length : Int) = c.par.most) ∧
    (c.par.npt ≤ l.length → c.par.rhoend ≤ c.st.rho ∧ c.st.rho ≤ c.par.rhobeg) ∧ (c.status = .success → c.st.rho = c.par.rhoend)
  by_cases hi : c.status = .iterate
  · rcases h4 hi with ⟨q, rfl⟩ | ⟨q1, q2, -, q4, q5, -⟩
    · have hm : 1 ≤ c.par.most := le_max_right _ _
      rw [q, hi]
      refine ⟨rfl, ?_, fun _ => ?_, fun q => Status.noConfusion q, fun q => ?_, fun q' => Status.noConfusion q'⟩
      · show (0 : Int) ≤ _; omega
      · show (0 : Int) < _; omega
      · have q : c.par.npt ≤ 0 := q
        omega
    · have e : c.st.nf = c.st.log.length + 1 := q1.1.1
      have e2 : (c.st.nf : Int) ≤ c.par.most := q1.2
      rw [q5] at e
      rw [q4, hi]
      refine ⟨rfl, by omega, fun _ => by omega, fun q => Status.noConfusion q, fun q => ?_, fun q' => Status.noConfusion q'⟩
      have := q2 (by omega)
      exact ⟨this.1, this.2.1⟩
  · obtain ⟨q1, q2, -, q4, q6, q5⟩ := (h5 hi).resolve_left hs
    have q2 : c.par.npt ≤ c.st.log.length → Rad c.par c.st := q2
    obtain ⟨-, r2, -, -, -, r6⟩ := q1
    rw [q6] at q2 r2 r6
    rw [q5] at r6
    refine ⟨by rw [q4], r2, fun q => absurd q hi, fun q => ?_, fun q => ⟨(q2 q).1, (q2 q).2.1⟩, fun q => ?_⟩
    · rw [q] at r6
      rcases r6 with ⟨-, w⟩ | ⟨w1, w | ⟨w, -⟩⟩
      · exact w
      · exact Status.noConfusion w
      · exact Status.noConfusion w
    · rw [q] at r6
      rcases r6 with ⟨w, -⟩ | ⟨w1, w | ⟨-, w⟩⟩
      · exact Status.noConfusion w
      · exact Status.noConfusion w
      · exact le_antisymm w (q2 w1).1

/-- **C75.**  In exact arithmetic, when `newuoa_iterate` does not ask for another evaluation and if at least `npt` evaluations are allowed,
the variables are those of an evaluation which gave the least value. -/
theorem newuoa_iterate_best (hsqrt : ∀ a : K, 0 ≤ a → 0 ≤ CMath.sqrt a ∧ CMath.sqrt a * CMath.sqrt a = a)
    {o : Par K → Subs K} {c : Ctx K} {x : Nat → K} {l : List ((Nat → K) × K)} (h : Talk o c x l) (hs : getStatus (some c) ≠ .corrupted)
    (hi : getStatus (some c) ≠ .iterate) (hm : c.par.npt ≤ c.par.maxfun) : ∃ v, (x, v) ∈ l ∧ ∀ e ∈ l, v ≤ e.2 := by
  obtain ⟨h1, h2, h3, h4, h5⟩ := h.known hsqrt
  obtain ⟨⟨r1, r2, r3, r4, r5, r6⟩, q2, q3, q4, q6, q5⟩ := (h5 hi).resolve_left hs
  have hlen : c.par.npt ≤ c.st.log.length := by
    rcases r6 with ⟨-, q⟩ | ⟨q, -⟩
    · have : c.par.maxfun ≤ c.par.most := le_max_left _ _
      omega
    · exact q
  refine ⟨c.st.f, ?_, ?_⟩
  · rw [← q3, ← q6]
    exact r5 hlen
  · rw [← q6]
    exact r4

end Opk.Newuoa
