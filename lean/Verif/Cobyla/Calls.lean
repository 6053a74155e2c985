import Verif.Cobyla.Schedule
/-!
# COBYLA: the sequences of calls in exact arithmetic

The caller is assumed to leave the contents of `x` unchanged between the calls; the replies are
arbitrary, and so is the step `T`.
-/
set_option linter.unusedSectionVars false
set_option linter.unusedSimpArgs false
namespace Opk.Cobyla
open Linalg CMath

section
variable {K : Type} [Field K] [LinearOrder K] [IsStrictOrderedRing K] [CMath K] [ExactMath K]

theorem reduced_pos {rhoend rho rho' : K} {k : Nat} (h0 : 0 < rhoend) (h1 : 0 < rho) (h : Reduced rhoend k rho rho') : 0 < rho' := by
  induction h with
  | zero => exact h1
  | @step k a b _ hb ih =>
    unfold nextRho
    split_ifs
    · exact h0
    · rw [ExactMath.lit_eq]
      have := ih h1
      push_cast
      linarith

/-- The iterations between two evaluations. -/
theorem after_passes {p : Par K} {h : List (Eval K)} (T : St K → (Nat → K) × Nat)
    (hsqrt : ∀ a : K, 0 ≤ a → 0 ≤ CMath.sqrt a ∧ CMath.sqrt a * CMath.sqrt a = a) (hend : 0 < p.rhoend) (fuel : Nat)
    (js : Jump × St K) (H : After p h js) (hrho : 0 < js.2.rho) : After p h (passes p T fuel js) := by
  induction fuel generalizing js with
  | zero => exact H
  | succ fuel ih =>
    obtain ⟨j, s⟩ := js
    cases j with
    | again =>
      obtain ⟨a1, a2, a3⟩ := H
      have h1 := after_pass T hsqrt a3 a1 a2 hrho
      obtain ⟨-, ⟨k, h2⟩, -, -⟩ := kept_pass p T s
      exact ih _ h1 (reduced_pos hend hrho h2)
    | call => exact H
    | best e => exact H
    | done => exact H
    | wrong => exact H

theorem takePole_last {p : Par K} {h : List (Eval K)} {s : St K}
    (H : Known p h (fun i => s.sim i p.np) (fun k => s.datmat k p.np)) : Last p h (takePole p s) := by
  obtain ⟨e, he, h1, -, h3, h4⟩ := H
  refine ⟨e, he, fun i hi hi' => ?_, h3, h4⟩
  unfold takePole
  dsimp only
  rw [up_set1 p.n (fun i _ => s.sim i p.np)]
  dsimp only
  rw [if_pos ⟨hi, hi'⟩]
  exact h1 i hi hi'

theorem Wait.pole {p : Par K} {h : List (Eval K)} {s : St K} (H : Wait p h s) (hn : s.nfvals ≠ 0) :
    Known p h (fun i => s.sim i p.np) (fun k => s.datmat k p.np) := by
  cases H with
  | first h0 => exact absurd h0 hn
  | simplex _ _ _ _ _ _ _ pole => exact pole
  | vertex _ _ _ _ _ _ pole => exact pole
  | trial _ _ full => exact full.pole

/-- The caller only has to preserve the variables. -/
theorem Wait.caller {p : Par K} {h : List (Eval K)} {s : St K} (H : Wait p h s) (x : Nat → K)
    (hx : ∀ i, 1 ≤ i → i ≤ p.n → x i = s.x i) : Wait p h { s with x := x } := by
  cases H with
  | first h0 hb hj inv tri h =>
    exact .first h0 hb hj inv ⟨tri.sim, tri.simi⟩ fun i hi hi' => (hx i hi hi').trans (h i hi hi')
  | simplex h0 h1 hb hj inv tri h pole vert =>
    exact .simplex h0 h1 hb hj inv ⟨tri.sim, tri.simi⟩ (fun i hi hi' => (hx i hi hi').trans (h i hi hi')) pole vert
  | vertex h1 hb hj hj' inv h pole vert =>
    exact .vertex h1 hb hj hj' inv (fun i hi hi' => (hx i hi hi').trans (h i hi hi')) pole vert
  | trial h1 hb full hsig hv h =>
    exact .trial h1 hb (full.congr rfl rfl rfl) hsig hv fun i hi hi' => (hx i hi hi').trans (h i hi hi')

/-- What happens between two evaluations in exact arithmetic. -/
theorem resume_exact {p : Par K} {h : List (Eval K)} {s : St K} (T : St K → (Nat → K) × Nat)
    (hsqrt : ∀ a : K, 0 ≤ a → 0 ≤ CMath.sqrt a ∧ CMath.sqrt a * CMath.sqrt a = a) (hp : 1 ≤ p.n) (hend : 0 < p.rhoend)
    (hrho : 0 < s.rho) (fuel : Nat) (f : K) (c : Nat → K) (H : Wait p h s) :
    After p (⟨s.x, f, c⟩ :: h) (passes p T fuel (newEval p f c s)) ∧
    (∀ e s', resume p T fuel f c s = some (e, s') →
      0 < s'.rho ∧ s'.nfvals = s.nfvals + 1 ∧
      (e = .iterate ∧ Wait p (⟨s.x, f, c⟩ :: h) s' ∨
        (e = .success ∨ e = .tooManyEvaluations) ∧ Inv p.n s'.sim s'.simi ∧ Last p (⟨s.x, f, c⟩ :: h) s')) := by
  have h1 := after_newEval hp f c H
  obtain ⟨-, ⟨k, h2⟩, -, -⟩ := kept_newEval p f c s
  have h3 := after_passes T hsqrt hend fuel _ h1 (reduced_pos hend hrho h2)
  refine ⟨h3, fun e s' hr => ?_⟩
  obtain ⟨r1, ⟨l, r2⟩, -⟩ := resume_spec p T fuel f c s e s' hr
  refine ⟨reduced_pos hend hrho r2, r1, ?_⟩
  unfold resume at hr
  generalize passes p T fuel (newEval p f c s) = js at h3 hr
  obtain ⟨j, s1⟩ := js
  cases j with
  | call =>
    obtain ⟨w, hn⟩ := h3
    simp only [settle] at hr
    split_ifs at hr with hc
    · simp only [Option.some.injEq, Prod.mk.injEq] at hr
      obtain ⟨rfl, rfl⟩ := hr
      exact Or.inr ⟨Or.inr rfl, w.inv, takePole_last (w.pole hn.ne')⟩
    · simp only [Option.some.injEq, Prod.mk.injEq] at hr
      obtain ⟨rfl, rfl⟩ := hr
      exact Or.inl ⟨rfl, w⟩
  | best e' => exact h3.1.elim
  | done =>
    obtain ⟨w, hl⟩ := h3
    simp only [settle, Option.some.injEq, Prod.mk.injEq] at hr
    obtain ⟨rfl, rfl⟩ := hr
    refine Or.inr ⟨Or.inl rfl, ?_, ?_⟩
    · split_ifs <;> exact w.inv
    · split_ifs with h1
      · exact takePole_last w.pole
      · exact hl (not_not.mp h1)
  | again => simp [settle] at hr
  | wrong => exact h3.1.elim

/-- The sequences of calls of a program which respects the documentation: the array `x` is not
modified between the calls (but the first one, after `cobyla_create` or `cobyla_restart`, where
it is the starting point).  The list is that of the evaluations since the last start.  The step may
change from a call to the next one, all the steps satisfy `ok`. -/
inductive Obey (ok : Par K → (St K → (Nat → K) × Nat) → Prop) (ctx0 : Ctx K) : List (Eval K) → Ctx K → Prop where
  | start : Obey ok ctx0 [] ctx0
  | iterate {ctx ctx' : Ctx K} {h : List (Eval K)} (H : Obey ok ctx0 h ctx) (T : St K → (Nat → K) × Nat) (fuel : Nat) (f : K)
      (x : Nat → K) (c : Option (Nat → K)) (e : Status)
      (hT : ok ctx.par T) (hx : ctx.st.nfvals ≠ 0 → ∀ i, 1 ≤ i → i ≤ ctx.par.n → x i = ctx.st.x i)
      (hs : ctx.status = .iterate) (hc : ctx.par.m > 0 → c ≠ none)
      (hr : iterate T fuel (some ctx) f (some x) c = some (e, some ctx')) : Obey ok ctx0 (⟨x, f, c.getD fun _ => 0⟩ :: h) ctx'
  | restart {ctx ctx' : Ctx K} {h : List (Eval K)} (H : Obey ok ctx0 h ctx) (e : Status)
      (hr : restart (some ctx) = (e, some ctx')) : Obey ok ctx0 [] ctx'

/-- **C50, C66**: in exact arithmetic, for any step `T`, whatever the replies, if the array `x`
is not modified between the calls:
* the context counts the evaluations;
* `SIMI` is the inverse of `SIM`, the point to evaluate and the vertices are those of `Wait`;
* `COBYLA_ROUNDING_ERRORS` is never reported;
* at the end, the variables, the function value and the greatest violation in the context are
  those of one of the evaluations. -/
theorem cobyla_exact (hsqrt : ∀ a : K, 0 ≤ a → 0 ≤ CMath.sqrt a ∧ CMath.sqrt a * CMath.sqrt a = a)
    {n m : Int} {rhobeg rhoend : K} {maxfun : Int} {room : Bool} {ok : Par K → (St K → (Nat → K) × Nat) → Prop} {ctx0 ctx : Ctx K} {h : List (Eval K)}
    (h0 : create n m rhobeg rhoend maxfun room = some ctx0) (H : Obey ok ctx0 h ctx) :
    ctx.st.nfvals = h.length ∧ ctx.status ≠ .roundingErrors ∧
    (ctx.status = .iterate → h ≠ [] → Wait ctx.par h ctx.st) ∧
    (h ≠ [] → Inv ctx.par.n ctx.st.sim ctx.st.simi) ∧
    (ctx.status ≠ .iterate → (ctx.status = .success ∨ ctx.status = .tooManyEvaluations) ∧ Last ctx.par h ctx.st) := by
  unfold create at h0
  by_cases hc : n < 1 ∨ m < 0 ∨ rhobeg < rhoend ∨ rhoend ≤ 0 ∨ maxfun < 1
  · rw [if_pos hc] at h0; simp at h0
  rw [if_neg hc] at h0
  cases room with
  | false => simp at h0
  | true =>
  simp only [Bool.not_true, Bool.false_eq_true, if_false, Option.some.injEq] at h0
  have hn : 1 ≤ n.toNat := by
    have : ¬ n < 1 := fun h => hc (Or.inl h)
    omega
  have hp : 0 < rhoend := by by_contra hh; exact hc (by right; right; right; left; exact not_lt.mp hh)
  have hle : rhoend ≤ rhobeg := by by_contra hh; exact hc (by right; right; left; exact not_le.mp hh)
  have key : ctx.par = ⟨n.toNat, m.toNat, rhobeg, rhoend, maxfun⟩ ∧ ctx.st.nfvals = h.length ∧ ctx.status ≠ .roundingErrors ∧
      (h ≠ [] → 0 < ctx.st.rho) ∧
      (ctx.status = .iterate → h ≠ [] → Wait ctx.par h ctx.st) ∧
      (h ≠ [] → Inv ctx.par.n ctx.st.sim ctx.st.simi) ∧
      (ctx.status ≠ .iterate → (ctx.status = .success ∨ ctx.status = .tooManyEvaluations) ∧ Last ctx.par h ctx.st) := by
    induction H with
    | start =>
      subst h0
      exact ⟨rfl, rfl, by simp, fun h => absurd rfl h, fun _ h => absurd rfl h, fun h => absurd rfl h, fun h => absurd rfl h⟩
    | @iterate c1 c2 h _ T fuel f x c e hT hx hs hc1 hr ih =>
      obtain ⟨i0, i1, i2, i3, i4, i5, i6⟩ := ih
      have hprot : e ≠ .badAddress := by
        obtain ⟨_, -, -, -, h4, -⟩ := cobyla_protocol hr
        obtain ⟨-, h5⟩ := h4 ⟨hs, by simp, hc1⟩
        rcases h5 with rfl | rfl | rfl | rfl <;> simp
      rcases iterate_cases hr with ⟨hbad, -, -⟩ | ⟨-, h2, hbad⟩ | ⟨x', s', hx', hst, hres, h2⟩
      · exact absurd hbad hprot
      · exact absurd hs hbad
      · obtain rfl := Option.some.inj h2
        obtain rfl := Option.some.inj hx'
        have hw : Wait c1.par h (if c1.st.nfvals = 0 then init c1.par x c1.st else { c1.st with x := x }) ∧
            0 < (if c1.st.nfvals = 0 then init c1.par x c1.st else { c1.st with x := x }).rho ∧
            (if c1.st.nfvals = 0 then init c1.par x c1.st else { c1.st with x := x }).nfvals = c1.st.nfvals ∧
            (if c1.st.nfvals = 0 then init c1.par x c1.st else { c1.st with x := x }).x = x := by
          by_cases hz : c1.st.nfvals = 0
          · rw [if_pos hz]
            refine ⟨wait_init c1.par ?_ x c1.st h, ?_, ?_, rfl⟩
            · rw [i0]; exact lt_of_lt_of_le hp hle
            · show 0 < c1.par.rhobeg
              rw [i0]; exact lt_of_lt_of_le hp hle
            · show 0 = _
              rw [hz]
          · rw [if_neg hz]
            have hne : h ≠ [] := fun hh => hz (by rw [i1, hh]; rfl)
            exact ⟨(i4 hs hne).caller x (hx hz), i3 hne, rfl, rfl⟩
        obtain ⟨w1, w2, w3, w4⟩ := hw
        obtain ⟨-, hre⟩ := resume_exact T hsqrt (by rw [i0]; exact hn) (by rw [i0]; exact hp) w2 fuel f (c.getD fun _ => 0) w1
        obtain ⟨r1, r2, r3⟩ := hre e s' hres
        rw [w4] at r3
        refine ⟨i0, ?_, ?_, fun _ => r1, fun hst' _ => ?_, fun _ => ?_, fun hst' => ?_⟩
        · show s'.nfvals = _
          rw [r2, w3, i1, List.length_cons]
        · show e ≠ _
          rintro rfl
          simp at r3
        · rcases r3 with r3 | r3
          · exact r3.2
          · exfalso
            rw [show e = .iterate from hst'] at r3
            simp at r3
        · rcases r3 with r3 | r3
          · exact r3.2.inv
          · exact r3.2.1
        · rcases r3 with r3 | r3
          · exact absurd r3.1 hst'
          · exact ⟨r3.1, r3.2.2⟩
    | @restart c1 c2 h _ e hr ih =>
      obtain ⟨i0, -⟩ := ih
      simp only [Cobyla.restart, Prod.mk.injEq, Option.some.injEq] at hr
      obtain ⟨-, rfl⟩ := hr
      exact ⟨i0, rfl, by simp, fun h => absurd rfl h, fun _ h => absurd rfl h, fun h => absurd rfl h, fun h => absurd rfl h⟩
  exact ⟨key.2.1, key.2.2.1, key.2.2.2.2.1, key.2.2.2.2.2.1, key.2.2.2.2.2.2⟩

/-- **C50**: between two evaluations, neither an access with `JDROP = 0` nor a jump to the end
with `COBYLA_ROUNDING_ERRORS` is possible, however long the iterations. -/
theorem cobyla_no_wrong (hsqrt : ∀ a : K, 0 ≤ a → 0 ≤ CMath.sqrt a ∧ CMath.sqrt a * CMath.sqrt a = a)
    {p : Par K} {h : List (Eval K)} {s : St K} (T : St K → (Nat → K) × Nat) (hp : 1 ≤ p.n) (hend : 0 < p.rhoend)
    (hrho : 0 < s.rho) (H : Wait p h s) (fuel : Nat) (f : K) (c : Nat → K) :
    (passes p T fuel (newEval p f c s)).1 ≠ .wrong ∧ ∀ e, (passes p T fuel (newEval p f c s)).1 ≠ .best e := by
  obtain ⟨h1, -⟩ := resume_exact T hsqrt hp hend hrho fuel f c H
  generalize passes p T fuel (newEval p f c s) = js at h1
  obtain ⟨j, s1⟩ := js
  cases j with
  | call => exact ⟨by simp, by simp⟩
  | again => exact ⟨by simp, by simp⟩
  | done => exact ⟨by simp, by simp⟩
  | best e => exact h1.1.elim
  | wrong => exact h1.1.elim

/-- The direct routine: the returned triple is the reply of an evaluation. -/
theorem evals_last (hsqrt : ∀ a : K, 0 ≤ a → 0 ≤ CMath.sqrt a ∧ CMath.sqrt a * CMath.sqrt a = a)
    {p : Par K} (T : St K → (Nat → K) × Nat) (calcfc : Nat → (Nat → K) → K × (Nat → K)) (hp : 1 ≤ p.n) (hend : 0 < p.rhoend)
    (fuel count : Nat) (h : List (Eval K)) (s : St K) (hrho : 0 < s.rho) (H : Wait p h s)
    (hh : ∀ e ∈ h, ∃ k, k < s.nfvals ∧ (e.f, e.c) = calcfc k e.x) (e : Status) (s' : St K)
    (hr : evals p T calcfc fuel count s = some (e, s')) :
    (e = .success ∨ e = .tooManyEvaluations) ∧ Inv p.n s'.sim s'.simi ∧
    ∃ h', Last p h' s' ∧ ∀ e ∈ h', ∃ k, k < s'.nfvals ∧ (e.f, e.c) = calcfc k e.x := by
  induction count generalizing h s with
  | zero => simp [evals] at hr
  | succ count ih =>
    unfold evals at hr
    dsimp only at hr
    generalize hc : calcfc s.nfvals s.x = fc at hr
    obtain ⟨-, hre⟩ := resume_exact T hsqrt hp hend hrho fuel fc.1 fc.2 H
    cases hrr : resume p T fuel fc.1 fc.2 s with
    | none => rw [hrr] at hr; simp at hr
    | some es =>
      obtain ⟨e1, s1⟩ := es
      obtain ⟨r1, r2, r3⟩ := hre e1 s1 hrr
      rw [hrr] at hr
      have hall : ∀ e ∈ (⟨s.x, fc.1, fc.2⟩ : Eval K) :: h, ∃ k, k < s1.nfvals ∧ (e.f, e.c) = calcfc k e.x := by
        intro e he
        rcases List.mem_cons.mp he with rfl | he
        · exact ⟨s.nfvals, by omega, hc.symm⟩
        · obtain ⟨k, hk, h2⟩ := hh e he
          exact ⟨k, by omega, h2⟩
      rcases r3 with ⟨rfl, r3⟩ | ⟨r3, r4, r5⟩
      · exact ih _ s1 r1 r3 hall hr
      · have : some (e1, s1) = some (e, s') := by
          rcases r3 with rfl | rfl <;> exact hr
        simp only [Option.some.injEq, Prod.mk.injEq] at this
        obtain ⟨rfl, rfl⟩ := this
        exact ⟨r3, r4, _, r5, hall⟩

/-- **C66** (direct routine): for a function `fc` of the `n` variables, in exact arithmetic and
for any step `T`, `cobyla_optimize` reports the function value and the greatest violation of the
constraints at the returned variables, with or without scaling, minimizing or maximizing;
`COBYLA_ROUNDING_ERRORS` is never returned. -/
theorem cobyla_optimize_consistent (hsqrt : ∀ a : K, 0 ≤ a → 0 ≤ CMath.sqrt a ∧ CMath.sqrt a * CMath.sqrt a = a)
    (T : St K → (Nat → K) × Nat) (fuel count : Nat) (n m : Int) (maximize : Bool) (fc : (Nat → K) → K × (Nat → K))
    (hfc : ∀ x y, (∀ i, 1 ≤ i → i ≤ n.toNat → x i = y i) → fc x = fc y)
    (x : Nat → K) (scl : Option (Nat → K)) (rhobeg rhoend : K) (maxfun : Int) (w : St K) (r : Result K)
    (h : optimize T fuel count n m maximize (fun _ => fc) x scl rhobeg rhoend maxfun w = some (.inr r)) :
    (r.status = .success ∨ r.status = .tooManyEvaluations) ∧ r.f = (fc r.x).1 ∧ r.resmax = worst m.toNat (fc r.x).2 := by
  unfold optimize at h
  by_cases h1 : n < 1
  · rw [if_pos h1] at h; simp at h
  rw [if_neg h1] at h
  by_cases h2 : m < 0
  · rw [if_pos h2] at h; simp at h
  rw [if_neg h2] at h
  by_cases h3 : rhoend ≤ 0 ∨ rhoend > rhobeg
  · rw [if_pos h3] at h; simp at h
  rw [if_neg h3] at h
  cases hs : scaling n.toNat scl with
  | none => rw [hs] at h; simp at h
  | some scl' =>
  rw [hs] at h
  dsimp only at h
  have hun : ∀ x y : Nat → K, (∀ i, 1 ≤ i → i ≤ n.toNat → x i = y i) → ∀ i, 1 ≤ i → i ≤ n.toNat → unscale n.toNat scl' x i = unscale n.toNat scl' y i := by
    intro x y hxy i hi hi'
    cases scl' with
    | none => exact hxy i hi hi'
    | some scl =>
      show scale n.toNat scl x x i = scale n.toNat scl y y i
      unfold scale
      rw [up_set1 n.toNat (fun i _ => scl i * x i), up_set1 n.toNat (fun i _ => scl i * y i)]
      dsimp only
      rw [if_pos ⟨hi, hi'⟩, if_pos ⟨hi, hi'⟩, hxy i hi hi']
  generalize rescale n.toNat scl' x = x0 at h
  rw [not_or, not_le, not_lt] at h3
  generalize hpp : (⟨n.toNat, m.toNat, rhobeg, rhoend, maxfun⟩ : Par K) = p at h
  have e1 : p.n = n.toNat := by rw [← hpp]
  have e2 : p.m = m.toNat := by rw [← hpp]
  have e3 : p.rhobeg = rhobeg := by rw [← hpp]
  have e4 : p.rhoend = rhoend := by rw [← hpp]
  cases hev : evals p T (reply n.toNat scl' maximize fun _ => fc) fuel count (init p x0 w) with
  | none => rw [hev] at h; simp at h
  | some es =>
  obtain ⟨e, s'⟩ := es
  rw [hev] at h
  simp only [Option.some.injEq, Sum.inr.injEq] at h
  subst h
  have hb : 0 < p.rhobeg := by rw [e3]; exact lt_of_lt_of_le h3.1 h3.2
  obtain ⟨a1, -, hist, ⟨ev, hev1, l1, l2, l3⟩, hall⟩ := evals_last hsqrt T (reply n.toNat scl' maximize fun _ => fc) (by rw [e1]; omega) (by rw [e4]; exact h3.1) fuel count [] (init p x0 w) hb
    (wait_init p hb x0 w []) (fun e he => absurd he List.not_mem_nil) e s' hev
  obtain ⟨k, -, hk⟩ := hall ev hev1
  simp only [reply, Prod.mk.injEq] at hk
  have hx : fc (unscale n.toNat scl' ev.x) = fc (unscale n.toNat scl' s'.x) := hfc _ _ (hun _ _ (fun i hi hi' => l1 i hi (by rw [e1]; exact hi')))
  refine ⟨a1, ?_, ?_⟩
  · dsimp only
    rw [← l2, hk.1, hx]
    cases maximize
    · rfl
    · exact neg_neg _
  · dsimp only
    rw [← l3, hk.2, hx, e2]

end
end Opk.Cobyla
