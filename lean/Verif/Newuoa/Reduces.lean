import Verif.Newuoa.Boundary
import Verif.Newuoa.Quadratic

/-!
# NEWUOA: the trial points of the trust region steps

With real numbers: the trial points are in the trust region and the quadratic model is lower there, hence the status
`NEWUOA_STEP_FAILED` is not returned.
-/
namespace Opk.Newuoa
open Linalg CMath Cobyla Powell

set_option linter.unusedSectionVars false

/-! ### The second derivatives of the model -/

/-- The products of the second derivatives. -/
theorem sethd_dot (p : Par ℝ) (s : St ℝ) (v y : Nat → ℝ) :
    dot p.n (sethd p s v) y = (∑ k ∈ Finset.Icc 1 p.npt, s.pq k * (dot p.n (s.xpt k) v * dot p.n (s.xpt k) y)) +
      (hform p.n s.hq (fun i => y i + v i) - hform p.n s.hq y - hform p.n s.hq v) := by
  have e : sethd p s v = shiftG p { s with xopt := v } (up p.npt (fun k (hd : Nat → ℝ) =>
    let temp := acc p.n (fun j => s.xpt k j * v j) 0 * s.pq k
    fun i => hd i + temp * s.xpt k i) (fun _ => 0)) := rfl
  rw [e, shiftG_dot]
  congr 1
  refine up_inv (fun m hd => dot p.n hd y = ∑ k ∈ Finset.Icc 1 m, s.pq k * (dot p.n (s.xpt k) v * dot p.n (s.xpt k) y)) p.npt ?_ ?_
  · show dot p.n (fun _ => 0) y = _
    rw [show dot p.n (fun _ => (0 : ℝ)) y = 0 from Finset.sum_eq_zero fun _ _ => zero_mul _]
    simp
  · intro m _ hd h
    rw [Finset.sum_Icc_succ_top (by omega), ← h]
    dsimp only
    rw [acc_dot, axpy_dot]
    ring

theorem sethd_symm (p : Par ℝ) (s : St ℝ) : Symm p.n (sethd p s) := by
  intro u v
  rw [sethd_dot, sethd_dot]
  have e : (fun i => v i + u i) = fun i => u i + v i := funext fun i => add_comm _ _
  rw [e, Finset.sum_congr rfl fun k _ => by rw [mul_comm (dot p.n (s.xpt k) u)]]
  ring

theorem hform_twice (n : Nat) (hq : Nat → Nat → ℝ) (y : Nat → ℝ) : hform n hq (fun i => y i + y i) = 4 * hform n hq y := by
  unfold hform
  rw [Finset.mul_sum]
  refine Finset.sum_congr rfl fun j _ => ?_
  rw [Finset.mul_sum]
  exact Finset.sum_congr rfl fun i _ => by ring

/-- The change of the quadratic model. -/
theorem change_quad (p : Par ℝ) (s : St ℝ) (d : Nat → ℝ) :
    change p.n (sethd p s) (gradient p s) d = s.quad p (fun i => s.xopt i + d i) - s.quad p s.xopt := by
  unfold change gradient St.quad qval
  rw [add_dot, sethd_dot, sethd_dot, hform_twice, dot_add]
  have e : (fun i => d i + s.xopt i) = fun i => s.xopt i + d i := funext fun i => add_comm _ _
  rw [e]
  have e2 : ∑ k ∈ Finset.Icc 1 p.npt, s.pq k * (dot p.n (s.xpt k) (fun i => s.xopt i + d i) * dot p.n (s.xpt k) (fun i => s.xopt i + d i))
      = ∑ k ∈ Finset.Icc 1 p.npt, s.pq k * (dot p.n (s.xpt k) s.xopt * dot p.n (s.xpt k) s.xopt)
        + 2 * ∑ k ∈ Finset.Icc 1 p.npt, s.pq k * (dot p.n (s.xpt k) s.xopt * dot p.n (s.xpt k) d)
        + ∑ k ∈ Finset.Icc 1 p.npt, s.pq k * (dot p.n (s.xpt k) d * dot p.n (s.xpt k) d) := by
    rw [Finset.mul_sum, ← Finset.sum_add_distrib, ← Finset.sum_add_distrib]
    refine Finset.sum_congr rfl fun k _ => ?_
    rw [dot_add]; ring
  rw [e2]
  ring

/-! ### `trsapp` -/

/-- At a point of the boundary of the trust region, the gradient of the model is a positive multiple of the step to that
point. -/
def St.Outward (p : Par ℝ) (s : St ℝ) : Prop := Newuoa.Outward p.n (sethd p s) (gradient p s) (s.delta * s.delta)

theorem trsapp_spec {p : Par ℝ} (hn : 1 ≤ p.n) {s : St ℝ} (hd : 0 < s.delta) :
    (trsapp realTrig p s = none → ¬ Few p.n ∨ 3 ≤ p.n ∧ s.Outward p) ∧
    ∀ t, trsapp realTrig p s = some t → dot p.n t.1 t.1 ≤ s.delta * s.delta ∧
      (Few p.n → 0 < dot p.n t.1 t.1 → s.quad p (fun i => s.xopt i + t.1 i) < s.quad p s.xopt) := by
  obtain ⟨h1, h2⟩ := minimize_spec hn (sethd_symm p s) (g := gradient p s) (hx := sethd p s s.xopt) hd
  unfold trsapp
  dsimp only
  cases e : minimize realTrig p.n (sethd p s) (gradient p s) (sethd p s s.xopt) s.delta with
  | none => exact ⟨fun _ => h1 e, fun t w => by cases w⟩
  | some u =>
    refine ⟨fun w => (by cases w), fun t w => ?_⟩
    rw [← Option.some.inj w]
    obtain ⟨k1, k2, k3⟩ := h2 u e
    refine ⟨k1, fun hf pos => ?_⟩
    have pos : 0 < dot p.n u.step u.step := pos
    have g0 : 0 < dot p.n (gradient p s) (gradient p s) := by
      rcases eq_or_lt_of_le (dot_self_nonneg p.n (gradient p s)) with q | q
      · rw [k2 q.symm, show dot p.n (fun _ => (0 : ℝ)) (fun _ => 0) = 0 from Finset.sum_eq_zero fun _ _ => zero_mul _] at pos
        exact absurd pos (lt_irrefl _)
      · exact q
    have := k3 g0 hf
    rw [change_quad] at this
    show s.quad p (fun i => s.xopt i + u.step i) < _
    linarith

/-! ### The iterations -/

/-- The step reduces the model within the trust region. -/
def Drop (p : Par ℝ) (s : St ℝ) : Prop :=
  dot p.n s.d s.d ≤ s.delta * s.delta ∧ s.quad p (fun i => s.xopt i + s.d i) < s.quad p s.xopt

/-- The invariants at the labels. -/
def Lower (p : Par ℝ) : Lab → St ℝ → Prop
  | .l120, s => s.knew = 0 → Drop p s
  | .l290, s => s.knew = 0 → Drop p s
  | .l310, s => p.npt < s.nf → (s.x = fun i => s.xbase i + (s.xopt i + s.d i)) ∧ (s.knew = 0 → Drop p s)
  | .ask, s => p.npt < s.nf → (s.x = fun i => s.xbase i + (s.xopt i + s.d i)) ∧ (s.knew = 0 → Drop p s)
  | .done, s => s.status ≠ .stepFailed
  | .ret, s => s.status ≠ .stepFailed
  | _, _ => True

theorem shift_drop {p : Par ℝ} {s : St ℝ} (h : Drop p s) : Drop p (shift p s) := by
  refine ⟨h.1, ?_⟩
  rw [shift_quad, shift_quad]
  have e : (fun i => (shift p s).xopt i + (shift p s).d i + s.xopt i) = fun i => s.xopt i + s.d i := by
    funext i
    show 0 + s.d i + s.xopt i = _
    ring
  have e2 : (fun i => (shift p s).xopt i + s.xopt i) = s.xopt := by
    funext i
    show 0 + s.xopt i = _
    ring
  rw [e, e2]
  have := h.2
  linarith

theorem lower_l100 {p : Par ℝ} (hp : Valid p) {o : Subs ℝ} (ht : ∀ s t, trsapp realTrig p s = some t → o.trsapp s = t) (hn : p.n ≤ 150) {s : St ℝ}
    (rad : Rad p s) (hf : p.n ≤ 2 ∨ ¬ s.Outward p) : Lower p (l100 p o s).1 (l100 p o s).2 := by
  unfold l100
  dsimp only
  obtain ⟨h1, h2⟩ := trsapp_spec (p := p) hp.n1 (s := { s with knew := 0 }) (show 0 < s.delta from lt_of_lt_of_le hp.rend (le_trans rad.1 rad.2.2))
  cases e : trsapp realTrig p { s with knew := 0 } with
  | none =>
    rcases h1 e with q | ⟨q1, q2⟩
    · exact absurd hn q
    · rcases hf with w | w
      · omega
      · exact absurd q2 w
  | some t =>
    obtain ⟨k1, k2⟩ := h2 t e
    rw [ht _ t e]
    split_ifs with c
    · unfold short
      dsimp only
      split_ifs <;> trivial
    · intro _
      refine ⟨k1, k2 hn ?_⟩
      rw [acc_dot] at c
      rcases eq_or_lt_of_le (dot_self_nonneg p.n t.1) with q | q
      · refine absurd ?_ c
        rw [← q]
        have r0 : 0 < s.rho := lt_of_lt_of_le hp.rend rad.1
        show cmin (Real.sqrt 0) s.delta < lit 1 2 * s.rho
        rw [lit_half, Real.sqrt_zero]
        unfold cmin
        split_ifs with c'
        · linarith
        · have := rad.2.2
          linarith [not_le.mp c']
      · exact q

theorem lower_l120 {p : Par ℝ} {o : Subs ℝ} {s : St ℝ} (h : Lower p .l120 s) : Lower p (l120 p o s).1 (l120 p o s).2 := by
  unfold l120
  dsimp only
  obtain ⟨u, hu⟩ : ∃ u, (if s.dsq ≤ s.xoptsq * lit 1 1000 then shift p s else s) = u := ⟨_, rfl⟩
  have hk : u.knew = s.knew := by
    rw [← hu]
    split_ifs <;> rfl
  have hd : s.knew = 0 → Drop p u := by
    intro q
    rw [← hu]
    split_ifs
    · exact shift_drop (h q)
    · exact h q
  rw [hu]
  by_cases c : u.knew > 0
  · intro w
    exfalso
    have : (0 : Int) < u.knew := c
    rw [if_pos c] at w
    split_ifs at w <;> exact absurd w (ne_of_gt c)
  · rw [if_neg c, if_neg (fun w => c w.1)]
    intro w
    exact hd (hk ▸ w)

theorem lower_after {p : Par ℝ} {s : St ℝ} (f : ℝ) (keep : Keep p .ask s) (h : Lower p .ask s) : Lower p (after p (put f s)).1 (after p (put f s)).2 := by
  unfold after
  by_cases c1 : (put f s).nf ≤ p.npt
  · rw [if_pos c1]
    unfold l70
    dsimp only
    split_ifs <;> trivial
  · rw [if_neg c1]
    have nf : p.npt < s.nf := not_le.mp c1
    rcases keep with ⟨w, -⟩ | ⟨-, core, cen, tr⟩
    · exact absurd nf (by omega)
    · by_cases c2 : (put f s).knew = -1
      · rw [if_pos c2]
        intro w
        cases w
      · rw [if_neg c2]
        obtain ⟨⟨tw, tk, -⟩, hx⟩ := tr.resolve_left c2
        dsimp only
        by_cases c3 : (errors p (put f s)).knew > 0
        · rw [if_pos c3]; trivial
        · rw [if_neg c3]
          have k0 : s.knew = 0 := by
            rcases tk with q | q
            · exact q
            · refine absurd q.1.1 ?_
              rw [(errors_fields p (put f s)).2.2.2.2.2.2.2.2.2.2.1] at c3
              exact c3
          have v : (errors p (put f s)).vquad < 0 := by
            have e : (errors p (put f s)).vquad = predicted p (put f s) := by
              unfold errors
              dsimp only
              split_ifs <;> rfl
            rw [e, predicted_eq p (put f s) tw (fun i _ _ => congrFun hx i)]
            have := ((h nf).2 k0).2
            show s.quad p s.xnew - s.quad p s.xopt < 0
            rw [hx]
            linarith
          rw [if_neg (not_le.mpr v)]
          split_ifs <;> trivial

theorem lower_step {p : Par ℝ} (hp : Valid p) {o : Subs ℝ} (ht : ∀ s t, trsapp realTrig p s = some t → o.trsapp s = t) (hn : p.n ≤ 150)
    (calfun : Nat → (Nat → ℝ) → ℝ) (ls : Lab × St ℝ) (ok : Ok p ls.1 ls.2) (rad : RadOk p ls.1 ls.2) (keep : Keep p ls.1 ls.2)
    (hf : ls.1 = .l100 → p.n ≤ 2 ∨ ¬ ls.2.Outward p) (h : Lower p ls.1 ls.2) :
    Lower p (stepF p o calfun ls).1 (stepF p o calfun ls).2 := by
  obtain ⟨l, s⟩ := ls
  cases l with
  | ask => exact lower_after _ keep h
  | l50 =>
    intro w
    have h1 : s.nf < p.npt := ok.2.2.1
    have h2 : p.npt < s.nf + 1 := w
    omega
  | l310 =>
    show Lower p (l310 p s).1 (l310 p s).2
    unfold l310
    split_ifs
    · intro w
      cases w
    · exact h
  | l90 => trivial
  | l100 => exact lower_l100 hp ht hn rad (hf rfl)
  | l120 => exact lower_l120 h
  | l290 => exact fun _ => ⟨rfl, h⟩
  | l410 =>
    show Lower p (l410 p o s).1 (l410 p o s).2
    unfold l410
    dsimp only
    split_ifs <;> trivial
  | l460 =>
    show Lower p (l460 p s).1 (l460 p s).2
    unfold l460
    dsimp only
    split_ifs with c1 c2
    all_goals first | trivial | (intro w; exact absurd w (ne_of_gt (by assumption)))
  | l490 =>
    show Lower p (l490 p s).1 (l490 p s).2
    unfold l490
    dsimp only
    split_ifs with c1 c2
    · trivial
    · intro w
      rw [c2] at w
      cases w
    · intro w
      cases w
  | done =>
    show Lower p (finish s).1 (finish s).2
    unfold finish
    have h : s.status ≠ .stepFailed := h
    show (if s.fopt ≤ s.f then { s with x := fun i => s.xbase i + s.xopt i, f := s.fopt } else s).status ≠ .stepFailed
    split_ifs <;> exact h
  | ret => exact h

theorem run_lower {p : Par ℝ} (hp : Valid p) {o : Subs ℝ} (hu : o.update = update p) (hb : o.biglag = biglag realTrig p)
    (ht : ∀ s t, trsapp realTrig p s = some t → o.trsapp s = t) (hn : p.n ≤ 150) {calfun : Nat → (Nat → ℝ) → ℝ} (fuel : Nat) :
    ∀ ls : Lab × St ℝ, Ok p ls.1 ls.2 → RadOk p ls.1 ls.2 → Keep p ls.1 ls.2 → Lower p ls.1 ls.2 →
      (∀ k s, k < fuel → run p o calfun k ls = (.l100, s) → p.n ≤ 2 ∨ ¬ s.Outward p) →
      Lower p (run p o calfun fuel ls).1 (run p o calfun fuel ls).2 := by
  induction fuel with
  | zero => exact fun _ _ _ _ h _ => h
  | succ k ih =>
    intro ls ok rad keep h hf
    refine ih _ (ok_stepF laws.add_zero laws.add_comm ls ok) ?_ (keep_stepF hp real_root hu (biglag_ok hb) ls ok rad keep)
      (lower_step hp ht hn calfun ls ok rad keep (fun q => hf 0 ls.2 (by omega) (Prod.ext q rfl)) h) fun m s hm e => hf (m + 1) s (by omega) e
    exact rad_run real_root hp.rend hp.rbeg 1 ls ok rad

/-- **The trust region steps of NEWUOA.**  With at most 150 variables, when the objective function is asked at a point which is
neither meant to improve the geometry of the points (`KNEW > 0`) nor the last one (`KNEW = -1`), the point is within `DELTA`
of the best point so far and the quadratic model is lower there than the least value of the objective function so far; the
status is never `NEWUOA_STEP_FAILED`.  With three variables or more, the hypothesis is that the model at the iterations has
no boundary point of the trust region at which its gradient points outwards along the step: there `trsapp` could divide by
zero. -/
theorem newuoa_reduces {p : Par ℝ} (hp : Valid p) {o : Subs ℝ} (hu : o.update = update p) (hb : o.biglag = biglag realTrig p)
    (ht : ∀ s t, trsapp realTrig p s = some t → o.trsapp s = t) (hn : p.n ≤ 150) {calfun : Nat → (Nat → ℝ) → ℝ} {s0 : St ℝ} (hl : s0.log = [])
    (hf : p.n ≤ 2 ∨ ∀ k s, run p o calfun k (.l50, init s0) = (.l100, s) → ¬ s.Outward p)
    {fuel : Nat} {l : Lab} {s : St ℝ} (hr : run p o calfun fuel (.l50, init s0) = (l, s)) :
    (l = .ask → p.npt < s.nf → s.knew = 0 →
      (∑ i ∈ Finset.Icc 1 p.n, (s.x i - (s.xbase i + s.xopt i)) ^ 2 ≤ s.delta ^ 2) ∧ s.model p s.x < s.fopt) ∧
    (l = .done ∨ l = .ret → s.status ≠ .stepFailed) := by
  have npt0 : 0 < p.npt := by have := hp.lo; omega
  have low := run_lower hp hu hb ht hn (calfun := calfun) fuel (.l50, init s0) (ok_init npt0 s0 hl) trivial ⟨0, Begun.zero p s0, npt0⟩ trivial
    (fun k s _ e => hf.imp id fun q => q k s e)
  rw [hr] at low
  constructor
  · rintro rfl nf k0
    obtain ⟨hx, hd⟩ := low nf
    obtain ⟨d1, d2⟩ := hd k0
    constructor
    · rw [pow_two]
      refine le_trans (le_of_eq ?_) d1
      refine Finset.sum_congr rfl fun i _ => ?_
      rw [hx]
      ring
    · unfold St.model
      have e : (fun j => s.x j - s.xbase j) = fun i => s.xopt i + s.d i := by
        funext j
        rw [hx]
        ring
      rw [e]
      linarith
  · rintro (rfl | rfl)
    · exact low
    · exact low

/-- `newuoa_optimize` does not return `NEWUOA_STEP_FAILED`. -/
theorem optimize_reduces {a : Args ℝ} {s0 : St ℝ} {o : Par ℝ → Subs ℝ} (hu : ∀ p, (o p).update = update p) (hb : ∀ p, (o p).biglag = biglag realTrig p)
    (ht : ∀ p s t, trsapp realTrig p s = some t → (o p).trsapp s = t) (hn : a.n ≤ 150) (obj : Nat → (Nat → ℝ) → ℝ)
    (hf : a.n ≤ 2 ∨ ∀ p scl ls k s, prepare a s0 = .inr (p, scl, ls) → run p (o p) (objfun obj a.maximize scl) k ls = (.l100, s) → ¬ s.Outward p)
    {fuel : Nat} {r : Status × (Nat → ℝ) × Option ℝ × List ((Nat → ℝ) × ℝ)} (hr : optimize a o obj s0 fuel = some r) : r.1 ≠ .stepFailed := by
  unfold optimize at hr
  cases ha : prepare a s0 with
  | inl e =>
    rw [ha] at hr
    rw [← Option.some.inj hr]
    unfold prepare at ha
    split_ifs at ha with c1 c2 c3
    · rw [← Sum.inl.inj ha]; simp
    · rw [← Sum.inl.inj ha]; simp
    · rw [← Sum.inl.inj ha]; simp
    · cases e' : scaling a.n.toNat a.scl with
      | none => rw [e'] at ha; rw [← Sum.inl.inj ha]; simp
      | some _ => rw [e'] at ha; cases ha
  | inr x =>
    obtain ⟨p, scl, ls⟩ := x
    rw [ha] at hr
    dsimp only at hr
    have key : ∀ s, run p (o p) (objfun obj a.maximize scl) fuel ls = (.ret, s) → s.status ≠ .stepFailed := by
      intro s e
      have ha' := ha
      unfold prepare at ha
      split_ifs at ha with c1 c2 c3
      cases e' : scaling a.n.toNat a.scl with
      | none => rw [e'] at ha; simp at ha
      | some scl' =>
        rw [e'] at ha
        simp only [Sum.inr.injEq, Prod.mk.injEq] at ha
        obtain ⟨rfl, rfl, rfl⟩ := ha
        push Not at c1 c2 c3
        refine (newuoa_reduces (p := _) ⟨?_, ?_, ?_, c3.1, c3.2⟩ (hu _) (hb _) (ht _) ?_ ?_ (hf.imp ?_ fun q k s => q _ _ _ k s ha') e).2 (Or.inr rfl)
        · show 1 ≤ a.n.toNat; omega
        · show a.n.toNat + 2 ≤ a.npt.toNat; omega
        · show 2 * a.npt.toNat ≤ (a.n.toNat + 1) * (a.n.toNat + 2)
          have h := c2.2
          have : 2 * a.npt ≤ (a.n + 2) * (a.n + 1) := by
            have := Int.mul_ediv_self_le (x := (a.n + 2) * (a.n + 1)) (k := 2) (by norm_num)
            linarith
          have n0 : 0 ≤ a.n := by omega
          have m0 : 0 ≤ a.npt := by omega
          zify
          rw [Int.toNat_of_nonneg n0, Int.toNat_of_nonneg m0]
          linarith
        · show a.n.toNat ≤ 150; omega
        · rfl
        · intro q; show a.n.toNat ≤ 2; omega
    cases e : run p (o p) (objfun obj a.maximize scl) fuel ls with
    | mk l s =>
      rw [e] at hr
      cases l with
      | ret =>
        rw [← Option.some.inj hr]
        exact key s e
      | _ => cases hr

/-- With a quadratic objective function and all the points, each trust region step is a strict descent. -/
theorem newuoa_quadratic_reduces {p : Par ℝ} (hp : Valid p) (hm : 2 * p.npt = (p.n + 1) * (p.n + 2)) {o : Subs ℝ} (hu : o.update = update p)
    (hb : o.biglag = biglag realTrig p) (ht : ∀ s t, trsapp realTrig p s = some t → o.trsapp s = t) (h150 : p.n ≤ 150)
    {f : (Nat → ℝ) → ℝ} (hf : IsQuadratic p.n f) {s0 : St ℝ} (hl : s0.log = [])
    (hno : p.n ≤ 2 ∨ ∀ k s, run p o (fun _ => f) k (.l50, init s0) = (.l100, s) → ¬ s.Outward p) {fuel : Nat} {s : St ℝ}
    (hr : run p o (fun _ => f) fuel (.l50, init s0) = (.ask, s)) (hn : p.npt < s.nf) (hk : s.knew = 0) : ∀ e ∈ s.log, f s.x < e.2 := by
  rcases newuoa_quadratic_descent hp hm hu hb hf hl hr hn hk with q | ⟨q1, q2⟩
  · exact q
  · exact absurd q2 ((newuoa_reduces hp hu hb ht h150 hl hno (fuel := fuel + 1) rfl).2 (Or.inl q1))

/-! ### The hypotheses can be met -/

theorem run_four (p : Par ℝ) (o : Subs ℝ) (c : Nat → (Nat → ℝ) → ℝ) (ls : Lab × St ℝ) :
    run p o c 4 ls = stepF p o c (stepF p o c (stepF p o c (stepF p o c ls))) := rfl

/-- For instance, the function `x1` of two variables, with four points: the first point after the four ones is such a point,
and it is on the boundary of the trust region. -/
example (s0 : St ℝ) (dflt : (Nat → ℝ) × ℝ × (Nat → ℝ)) :
    let p : Par ℝ := ⟨2, 4, 1, 1 / 1000, 200⟩
    let o : Subs ℝ := ⟨fun s => (trsapp realTrig p s).getD dflt, biglag realTrig p, fun s => (s.d, s.w, s.vlag, s.beta, s.xnew), update p⟩
    ∃ fuel s, run p o (fun _ x => x 1) fuel (.l50, init { s0 with log := [] }) = (.ask, s) ∧ p.npt < s.nf ∧ s.knew = 0 ∧ s.model p s.x < s.fopt := by
  intro p o
  have hp : Valid p := ⟨by decide, by decide, by decide, by norm_num [p], by norm_num [p]⟩
  have ht : ∀ s t, trsapp realTrig p s = some t → o.trsapp s = t := fun s t e => by
    show (trsapp realTrig p s).getD dflt = t
    rw [e]; rfl
  obtain ⟨fuel, s, e, e1, e2, e3, t, b, es⟩ := run_begins hp (by decide) o (fun _ x => x 1) { s0 with log := [] }
  have val := run_values p o (fun x => x 1) fuel (.l50, init { s0 with log := [] }) (fun e he => by cases he)
  rw [e] at val
  have fv : ∀ k, 1 ≤ k → k ≤ 4 → t.fval k = t.xbase 1 + t.xpt k 1 := by
    intro k k1 k2
    have m := b.log k k1 k2
    have : t.log = s.log := by rw [es]; rfl
    rw [this] at m
    exact val _ m
  have r1 : p.rhobeg = 1 := rfl
  have f1 : t.fval 1 = t.xbase 1 := by rw [fv 1 (by omega) (by omega), b.pts.p1, add_zero]
  have f2 : t.fval 2 = t.xbase 1 + 1 := by
    rw [fv 2 (by omega) (by omega), show (2 : Nat) = 1 + 1 from rfl, b.pts.p2 1 1 (by omega) (by decide) (by decide), r1]
    simp [del]
  have f4 : t.fval 4 = t.xbase 1 - 1 := by
    rw [fv 4 (by omega) (by omega), show (4 : Nat) = 1 + p.n + 1 from rfl, b.pts.p3 1 1 (by omega) (by decide) (by decide), r1]
    simp [del]
    ring
  have g1 : t.gq 1 = 1 := by
    rw [b.q.g2 1 (by omega) (by decide) (by decide), show (1 + p.n + 1) = 4 from rfl, show 1 + 1 = 2 from rfl, f1, f2, f4, r1]
    ring
  have h11 : t.hq 1 1 = 0 := by
    rw [b.q.h1 1 (by omega) (by decide) (by decide), show (1 + p.n + 1) = 4 from rfl, show 1 + 1 = 2 from rfl, f1, f2, f4, r1]
    ring
  have h22 : t.hq 2 2 = 0 := b.q.h0 2 (by omega) (by decide) (by decide)
  have h12 : t.hq 1 2 = 0 := b.q.h3 2 1 (by omega) fun l l1 l2 => by
    have l1 : 2 < l := l1
    have l2 : 1 + 2 + l ≤ 4 := l2
    omega
  have hq0 : ∀ y, hform p.n s.hq y = 0 := by
    intro y
    have e : s.hq = t.hq := by rw [es]; rfl
    rw [e]
    show ∑ j ∈ Finset.Icc 1 2, ∑ i ∈ Finset.Icc 1 j, (if i = j then 1 / 2 else 1) * t.hq i j * (y i * y j) = 0
    rw [Finset.sum_Icc_succ_top (by omega), Finset.Icc_self, Finset.sum_singleton, Finset.Icc_self, Finset.sum_singleton, Finset.sum_Icc_succ_top (by omega), Finset.Icc_self, Finset.sum_singleton]
    rw [h11, show (1 + 1 : Nat) = 2 from rfl, h12, h22]
    ring
  have hz : ∀ v w, dot p.n (sethd p s v) w = 0 := by
    intro v w
    rw [sethd_dot, hq0, hq0, hq0]
    have e : s.pq = t.pq := by rw [es]; rfl
    rw [e, Finset.sum_eq_zero fun k _ => by rw [b.pq k, zero_mul]]
    ring
  have d1 : s.delta = 1 := e2
  have gz : ∀ w, dot p.n (gradient p s) w = dot p.n t.gq w := by
    intro w
    unfold gradient
    rw [add_dot, hz, add_zero, show s.gq = t.gq by rw [es]; rfl]
  have gp : 0 < dot p.n (gradient p s) (gradient p s) := by
    refine lt_of_le_of_ne (dot_self_nonneg _ _) fun q => ?_
    have z := dot_self_zero q.symm 1 (by omega) (by decide)
    have k := gz (fun j => if j = 1 then 1 else 0)
    have ex : ∀ x : Nat → ℝ, dot p.n x (fun j => if j = 1 then 1 else 0) = x 1 := by
      intro x
      show ∑ j ∈ Finset.Icc 1 2, x j * (if j = 1 then 1 else 0) = x 1
      rw [Finset.sum_Icc_succ_top (by omega), Finset.Icc_self, Finset.sum_singleton]
      norm_num
    rw [ex, ex, z, g1] at k
    norm_num at k
  -- the step
  obtain ⟨k1, -⟩ := trsapp_spec (p := p) hp.n1 (s := { s with knew := 0 }) (show 0 < s.delta by rw [d1]; norm_num)
  cases et : trsapp realTrig p { s with knew := 0 } with
  | none =>
    rcases k1 et with q | ⟨q, -⟩
    · exact absurd (show p.n ≤ 150 by decide) q
    · exact absurd q (by decide)
  | some x =>
    have len : dot p.n x.1 x.1 = 1 := by
      unfold trsapp at et
      dsimp only at et
      cases em : minimize realTrig p.n (sethd p { s with knew := 0 }) (gradient p { s with knew := 0 }) (sethd p { s with knew := 0 } s.xopt) s.delta with
      | none => rw [em] at et; cases et
      | some u =>
        rw [em] at et
        rw [← Option.some.inj et]
        show dot p.n u.step u.step = 1
        rw [minimize_linear hp.n1 (H := sethd p { s with knew := 0 }) hz (by rw [d1]; norm_num) gp em, d1]
        norm_num
    have s1 : ∃ u, stepF p o (fun _ x => x 1) (.l100, s) = (.l120, u) ∧ u.knew = 0 ∧ u.nf = 4 := by
      show ∃ u, l100 p o s = (.l120, u) ∧ u.knew = 0 ∧ u.nf = 4
      unfold l100
      dsimp only
      rw [ht _ x et, acc_dot, len, if_neg]
      · exact ⟨_, rfl, rfl, e3⟩
      · show ¬ cmin (Real.sqrt 1) s.delta < lit 1 2 * s.rho
        rw [Real.sqrt_one, d1, e1, lit_half, r1]
        norm_num [cmin]
    obtain ⟨u, s1, u1, u2⟩ := s1
    have s2 : ∃ v, stepF p o (fun _ x => x 1) (.l120, u) = (.l290, v) ∧ v.knew = 0 ∧ v.nf = 4 := by
      show ∃ v, l120 p o u = (.l290, v) ∧ v.knew = 0 ∧ v.nf = 4
      unfold l120
      dsimp only
      obtain ⟨w, hw⟩ : ∃ w, (if u.dsq ≤ u.xoptsq * lit 1 1000 then shift p u else u) = w := ⟨_, rfl⟩
      have hk : w.knew = 0 ∧ w.nf = 4 := by
        rw [← hw]
        split_ifs
        · exact ⟨u1, u2⟩
        · exact ⟨u1, u2⟩
      rw [hw]
      have c : ¬ w.knew > 0 := by rw [hk.1]; exact lt_irrefl _
      rw [if_neg c, if_neg fun q => c q.1]
      exact ⟨_, rfl, hk⟩
    obtain ⟨v, s2, v1, v2⟩ := s2
    have s3 : stepF p o (fun _ x => x 1) (stepF p o (fun _ x => x 1) (.l290, v)) = (.ask, (l290 v).2) := by
      show l310 p (l290 v).2 = _
      unfold l310
      rw [if_neg]
      show ¬ ((v.nf + 1 : Nat) : Int) > max 200 1
      rw [v2]
      decide
    have fin : run p o (fun _ x => x 1) (fuel + 4) (.l50, init { s0 with log := [] }) = (.ask, (l290 v).2) := by
      rw [run_add, e, run_four, s1, s2, s3]
    have nf : p.npt < (l290 v).2.nf := by
      show 4 < v.nf + 1
      omega
    exact ⟨_, _, fin, nf, v1, ((newuoa_reduces hp rfl rfl ht (by decide) rfl (Or.inl (le_refl 2)) fin).1 rfl nf v1).2⟩

end Opk.Newuoa
