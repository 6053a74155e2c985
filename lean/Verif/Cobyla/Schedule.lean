import Verif.Cobyla.Run
/-!
# COBYLA: the number of evaluations and the trust region radius

The first part is in any arithmetic: nothing is assumed about the operations nor about the
comparisons (NaN included), nor about the step `T`, nor about what the caller does.
-/
set_option linter.unusedSectionVars false
set_option linter.unusedSimpArgs false
namespace Opk.Cobyla
open Linalg CMath

section
variable {F : Type} [Add F] [Sub F] [Mul F] [Div F] [Neg F] [Zero F] [One F] [DecidableEq F]
variable [LT F] [LE F] [DecidableLT F] [DecidableLE F] [CMath F]

/-- The reduction of the trust region radius. -/
def nextRho (rhoend rho : F) : F := if lit 1 2 * rho ≤ lit 3 2 * rhoend then rhoend else lit 1 2 * rho

/-- `k` reductions of the radius, each of a radius greater than `rhoend`, change `a` into `b`. -/
inductive Reduced (rhoend : F) : Nat → F → F → Prop where
  | zero (a : F) : Reduced rhoend 0 a a
  | step {k : Nat} {a b : F} (h : Reduced rhoend k a b) (hb : b > rhoend) : Reduced rhoend (k + 1) a (nextRho rhoend b)

theorem Reduced.trans {rhoend : F} {k l : Nat} {a b c : F} (h : Reduced rhoend k a b) (h' : Reduced rhoend l b c) :
    Reduced rhoend (k + l) a c := by
  induction h' with
  | zero => exact h
  | step _ hb ih => exact (ih h).step hb

/-- What the iterations do to the count of evaluations and to the radius. -/
structure Kept (p : Par F) (s : St F) (js : Jump × St F) : Prop where
  nfvals : js.2.nfvals = s.nfvals
  rho : ∃ k, Reduced p.rhoend k s.rho js.2.rho
  done : js.1 = .done → ¬ js.2.rho > p.rhoend
  best : ∀ e, js.1 = .best e → e = .roundingErrors

theorem Kept.same {p : Par F} {s s' : St F} {j : Jump} (h1 : s'.nfvals = s.nfvals) (h2 : s'.rho = s.rho) (hd : j ≠ .done)
    (hb : ∀ e, j ≠ .best e) : Kept p s (j, s') :=
  ⟨h1, ⟨0, by dsimp only; rw [h2]; exact .zero _⟩, fun h => absurd h hd, fun e h => absurd h (hb e)⟩

theorem Kept.of_eq {p : Par F} {s s' : St F} {js : Jump × St F} (h : Kept p s' js) (h1 : s'.nfvals = s.nfvals) (h2 : s'.rho = s.rho) :
    Kept p s js := by
  obtain ⟨a, b, c, d⟩ := h
  exact ⟨a.trans h1, by rwa [h2] at b, c, d⟩

theorem kept_reduce (p : Par F) (s : St F) : Kept p s (reduce p s) := by
  unfold reduce
  by_cases h1 : s.iflag = 0
  · rw [if_pos h1]
    exact Kept.same rfl rfl (by simp) (by simp)
  · rw [if_neg h1]
    by_cases h2 : s.rho > p.rhoend
    · rw [if_pos h2]
      exact ⟨rfl, ⟨1, (Reduced.zero s.rho).step h2⟩, fun h => by simp at h, fun e h => by simp at h⟩
    · rw [if_neg h2]
      exact ⟨rfl, ⟨0, .zero _⟩, fun _ => h2, fun e h => by simp at h⟩

theorem kept_judge (p : Par F) (s : St F) : Kept p s (judge p s) := by
  unfold judge judgeStep
  dsimp only
  split_ifs
  · exact (kept_reduce p _).of_eq rfl rfl
  · exact Kept.same rfl rfl (by simp) (by simp)
  · exact (kept_reduce p _).of_eq rfl rfl
  · exact (kept_reduce p _).of_eq rfl rfl
  · exact Kept.same rfl rfl (by simp) (by simp)
  · exact (kept_reduce p _).of_eq rfl rfl

theorem kept_newVertex (p : Par F) (s : St F) : Kept p s (newVertex p s) := by
  unfold newVertex
  dsimp only
  split_ifs
  · exact Kept.same rfl rfl (by simp) (by simp)
  · exact Kept.same rfl rfl (by simp) (by simp)

theorem kept_trust (p : Par F) (s : St F) : Kept p s (trust p s) := by
  unfold trust
  split_ifs
  · exact (kept_reduce p _).of_eq rfl rfl
  · unfold increaseMu trial
    dsimp only
    split_ifs <;> exact Kept.same rfl rfl (by simp) (by simp)

theorem pole_kept (p : Par F) (s : St F) : (pole p s).nfvals = s.nfvals ∧ (pole p s).rho = s.rho := by
  unfold pole
  dsimp only
  split_ifs <;> exact ⟨rfl, rfl⟩

theorem kept_pass (p : Par F) (T : St F → (Nat → F) × Nat) (s : St F) : Kept p s (pass p T s) := by
  unfold pass
  obtain ⟨h1, h2⟩ := pole_kept p s
  generalize pole p s = s1 at h1 h2
  unfold passPole branch
  split_ifs
  · exact ⟨h1, ⟨0, by dsimp only; rw [h2]; exact .zero _⟩, fun h => by simp at h, fun e h => by simpa using h.symm⟩
  · exact (kept_trust p _).of_eq h1 h2
  · exact (kept_newVertex p _).of_eq h1 h2

theorem kept_passes (p : Par F) (T : St F → (Nat → F) × Nat) (fuel : Nat) (s : St F) (js : Jump × St F) (h : Kept p s js) :
    Kept p s (passes p T fuel js) := by
  induction fuel generalizing js with
  | zero => exact h
  | succ fuel ih =>
    obtain ⟨j, s1⟩ := js
    cases j with
    | again =>
      show Kept p s (passes p T fuel (pass p T s1))
      apply ih
      obtain ⟨a1, ⟨k, a2⟩, -, -⟩ := h
      obtain ⟨b1, ⟨l, b2⟩, b3, b4⟩ := kept_pass p T s1
      exact ⟨b1.trans a1, ⟨k + l, a2.trans b2⟩, b3, b4⟩
    | call => exact h
    | best e => exact h
    | done => exact h
    | wrong => exact h

theorem kept_newEval (p : Par F) (f : F) (c : Nat → F) (s : St F) : Kept p { s with nfvals := s.nfvals + 1 } (newEval p f c s) := by
  unfold newEval
  have h1 : (record p f c s).nfvals = s.nfvals + 1 := rfl
  have h2 : (record p f c s).rho = s.rho := rfl
  generalize record p f c s = s1 at h1 h2
  unfold place
  split_ifs
  · exact (kept_judge p s1).of_eq h1 h2
  · unfold complete
    split_ifs
    · exact Kept.same h1 h2 (by simp) (by simp)
    · have e1 : ∀ s : St F, (exchange p s).nfvals = s.nfvals := fun s => by unfold exchange; split_ifs <;> rfl
      have e2 : ∀ s : St F, (exchange p s).rho = s.rho := fun s => by unfold exchange; split_ifs <;> rfl
      unfold nextVertex
      split_ifs
      · exact Kept.same ((e1 _).trans h1) ((e2 _).trans h2) (by simp) (by simp)
      · exact Kept.same ((e1 _).trans h1) ((e2 _).trans h2) (by simp) (by simp)

/-- What happens between two evaluations, in any arithmetic: the evaluation is counted, another
one is only requested if the budget is not exhausted, the radius is only reduced according to
the schedule, and success is only reported when the radius is not greater than `rhoend`. -/
theorem resume_spec (p : Par F) (T : St F → (Nat → F) × Nat) (fuel : Nat) (f : F) (c : Nat → F) (s : St F)
    (e : Status) (s' : St F) (h : resume p T fuel f c s = some (e, s')) :
    s'.nfvals = s.nfvals + 1 ∧ (∃ k, Reduced p.rhoend k s.rho s'.rho) ∧
    (e = .iterate ∧ (s'.nfvals : Int) < p.maxfun ∨ e = .tooManyEvaluations ∧ p.maxfun ≤ s'.nfvals ∨
      e = .roundingErrors ∨ e = .success ∧ ¬ s'.rho > p.rhoend) := by
  unfold resume at h
  obtain ⟨h1, h2, h3, h4⟩ := kept_passes p T fuel _ _ (kept_newEval p f c s)
  generalize passes p T fuel (newEval p f c s) = js at h h1 h2 h3 h4
  obtain ⟨j, s1⟩ := js
  dsimp only at h1 h2 h3 h4
  cases j with
  | call =>
    simp only [settle] at h
    split_ifs at h with hc
    · simp only [Option.some.injEq, Prod.mk.injEq] at h
      obtain ⟨rfl, rfl⟩ := h
      exact ⟨h1, h2, Or.inr (Or.inl ⟨rfl, hc.1⟩)⟩
    · simp only [Option.some.injEq, Prod.mk.injEq] at h
      obtain ⟨rfl, rfl⟩ := h
      refine ⟨h1, h2, Or.inl ⟨rfl, ?_⟩⟩
      by_contra hh
      exact hc ⟨by omega, by omega⟩
  | best e' =>
    simp only [settle, Option.some.injEq, Prod.mk.injEq] at h
    obtain ⟨rfl, rfl⟩ := h
    exact ⟨h1, h2, Or.inr (Or.inr (Or.inl (h4 e' rfl)))⟩
  | done =>
    simp only [settle, Option.some.injEq, Prod.mk.injEq] at h
    obtain ⟨rfl, rfl⟩ := h
    refine ⟨?_, ?_, Or.inr (Or.inr (Or.inr ⟨rfl, ?_⟩))⟩
    · split_ifs <;> exact h1
    · split_ifs <;> exact h2
    · split_ifs <;> exact h3 rfl
  | again => simp [settle] at h
  | wrong => simp [settle] at h

/-- What a program can do with a context: any number of calls of `cobyla_iterate` and
`cobyla_restart`, with any arguments (the step `T` may be different at each call). -/
inductive Reach (ctx0 : Ctx F) : Ctx F → Prop where
  | start : Reach ctx0 ctx0
  | iterate {ctx ctx' : Ctx F} (h : Reach ctx0 ctx) (T : St F → (Nat → F) × Nat) (fuel : Nat) (f : F) (x c : Option (Nat → F))
      (e : Status) (hr : iterate T fuel (some ctx) f x c = some (e, some ctx')) : Reach ctx0 ctx'
  | restart {ctx ctx' : Ctx F} (h : Reach ctx0 ctx) (e : Status) (hr : restart (some ctx) = (e, some ctx')) : Reach ctx0 ctx'

/-- What a call of `cobyla_iterate` does to a context. -/
theorem iterate_cases {T : St F → (Nat → F) × Nat} {fuel : Nat} {ctx : Ctx F} {f : F} {x c : Option (Nat → F)} {e : Status}
    {r : Option (Ctx F)} (h : iterate T fuel (some ctx) f x c = some (e, r)) :
    (e = .badAddress ∧ r = some { ctx with status := .badAddress } ∧ (x = none ∨ c = none)) ∨
    (e = .corrupted ∧ r = some { ctx with status := .corrupted } ∧ ctx.status ≠ .iterate) ∨
    (∃ x' s', x = some x' ∧ ctx.status = .iterate ∧
      resume ctx.par T fuel f (c.getD fun _ => 0) (if ctx.st.nfvals = 0 then init ctx.par x' ctx.st else { ctx.st with x := x' }) = some (e, s') ∧
      r = some { ctx with status := e, st := s' }) := by
  unfold iterate at h
  cases x with
  | none =>
    simp only [Option.some.injEq, Prod.mk.injEq] at h
    exact Or.inl ⟨h.1.symm, h.2.symm, Or.inl rfl⟩
  | some x =>
    simp only at h
    by_cases h1 : c.isNone ∧ ctx.par.m > 0
    · rw [if_pos h1] at h
      simp only [Option.some.injEq, Prod.mk.injEq] at h
      exact Or.inl ⟨h.1.symm, h.2.symm, Or.inr (Option.isNone_iff_eq_none.mp h1.1)⟩
    · rw [if_neg h1] at h
      by_cases h2 : ctx.status ≠ .iterate
      · rw [if_pos h2] at h
        simp only [Option.some.injEq, Prod.mk.injEq] at h
        exact Or.inr (Or.inl ⟨h.1.symm, h.2.symm, h2⟩)
      · rw [if_neg h2] at h
        refine Or.inr (Or.inr ⟨x, ?_⟩)
        cases hr : resume ctx.par T fuel f (c.getD fun _ => 0) (if ctx.st.nfvals = 0 then init ctx.par x ctx.st else { ctx.st with x := x }) with
        | none => rw [hr] at h; simp at h
        | some es =>
          obtain ⟨e', s'⟩ := es
          rw [hr] at h
          simp only [Option.some.injEq, Prod.mk.injEq] at h
          obtain ⟨rfl, rfl⟩ := h
          exact ⟨s', rfl, not_not.mp h2, rfl, rfl⟩

/-- **C51** (any arithmetic, any sequence of calls): the count of evaluations never exceeds
`maxfun`, another evaluation is only requested when it is less than `maxfun`; the radius results
from the successive reductions of `rhobeg`, and success is only reported when the radius is not
greater than `rhoend`. -/
theorem cobyla_budget {n m : Int} {rhobeg rhoend : F} {maxfun : Int} {room : Bool} {ctx0 ctx : Ctx F}
    (h0 : create n m rhobeg rhoend maxfun room = some ctx0) (h : Reach ctx0 ctx) :
    (ctx.st.nfvals : Int) ≤ maxfun ∧ (ctx.status = .iterate → (ctx.st.nfvals : Int) < maxfun) ∧
    (ctx.st.nfvals ≠ 0 → ∃ k, Reduced rhoend k rhobeg ctx.st.rho) ∧
    (ctx.status = .success → ctx.st.nfvals ≠ 0 ∧ ¬ ctx.st.rho > rhoend) := by
  unfold create at h0
  by_cases hc : n < 1 ∨ m < 0 ∨ rhobeg < rhoend ∨ rhoend ≤ 0 ∨ maxfun < 1
  · rw [if_pos hc] at h0; simp at h0
  rw [if_neg hc] at h0
  cases room with
  | false => simp at h0
  | true =>
  simp only [Bool.not_true, Bool.false_eq_true, if_false, Option.some.injEq] at h0
  have key : ctx.par = ctx0.par ∧ (ctx.st.nfvals : Int) ≤ maxfun ∧ (ctx.status = .iterate → (ctx.st.nfvals : Int) < maxfun) ∧
    (ctx.st.nfvals ≠ 0 → ∃ k, Reduced rhoend k rhobeg ctx.st.rho) ∧
    (ctx.status = .success → ctx.st.nfvals ≠ 0 ∧ ¬ ctx.st.rho > rhoend) := by
    induction h with
    | start =>
      subst h0
      have hm : ¬ maxfun < 1 := fun h => hc (by tauto)
      refine ⟨rfl, ?_, fun _ => ?_, fun h => absurd rfl h, fun h => by simp at h⟩
      · show ((0 : Nat) : Int) ≤ maxfun; omega
      · show ((0 : Nat) : Int) < maxfun; omega
    | @iterate c1 c2 _ T fuel f x c e hr ih =>
      obtain ⟨i0, i1, i2, i3, i4⟩ := ih
      rcases iterate_cases hr with ⟨-, h2, -⟩ | ⟨-, h2, -⟩ | ⟨x', s', -, hst, hres, h2⟩
      · obtain rfl := Option.some.inj h2
        exact ⟨i0, i1, fun h => by simp at h, i3, fun h => by simp at h⟩
      · obtain rfl := Option.some.inj h2
        exact ⟨i0, i1, fun h => by simp at h, i3, fun h => by simp at h⟩
      · obtain rfl := Option.some.inj h2
        obtain ⟨r1, ⟨k, r2⟩, r3⟩ := resume_spec _ T fuel f _ _ e s' hres
        have hpar : c1.par = ⟨n.toNat, m.toNat, rhobeg, rhoend, maxfun⟩ := i0.trans (by rw [← h0])
        have hlt := i2 hst
        have hn : s'.nfvals = c1.st.nfvals + 1 := by
          rw [r1]
          split_ifs with h
          · rw [h]; rfl
          · rfl
        have hred : ∃ k, Reduced rhoend k rhobeg s'.rho := by
          rw [hpar] at r2
          split_ifs at r2 with h
          · exact ⟨k, r2⟩
          · obtain ⟨l, hl⟩ := i3 h
            exact ⟨l + k, hl.trans r2⟩
        rw [hpar] at r3
        refine ⟨i0, ?_, fun h => ?_, fun _ => hred, fun h => ⟨?_, ?_⟩⟩
        · show (s'.nfvals : Int) ≤ maxfun
          omega
        · rcases r3 with r3 | r3 | r3 | r3
          · exact r3.2
          · rw [show e = .iterate from h] at r3; simp at r3
          · rw [show e = .iterate from h] at r3; simp at r3
          · rw [show e = .iterate from h] at r3; simp at r3
        · show s'.nfvals ≠ 0
          omega
        · rcases r3 with r3 | r3 | r3 | r3
          · rw [show e = .success from h] at r3; simp at r3
          · rw [show e = .success from h] at r3; simp at r3
          · rw [show e = .success from h] at r3; simp at r3
          · exact r3.2
    | @restart c1 c2 _ e hr ih =>
      obtain ⟨i0, i1, i2, i3, i4⟩ := ih
      simp only [restart, Prod.mk.injEq, Option.some.injEq] at hr
      obtain ⟨-, rfl⟩ := hr
      have hm : ¬ maxfun < 1 := fun h => hc (by tauto)
      refine ⟨i0, ?_, fun _ => ?_, fun h => absurd rfl h, fun h => by simp at h⟩
      · show ((0 : Nat) : Int) ≤ maxfun; omega
      · show ((0 : Nat) : Int) < maxfun; omega
  exact key.2

/-- **C51** (protocol): a call of `cobyla_iterate` counts one evaluation if and only if the
status was `COBYLA_ITERATE` and the arguments are valid; otherwise the returned status, which
becomes the status of the context, is an error and nothing else changes. -/
theorem cobyla_protocol {T : St F → (Nat → F) × Nat} {fuel : Nat} {ctx : Ctx F} {f : F} {x c : Option (Nat → F)} {e : Status}
    {r : Option (Ctx F)} (h : iterate T fuel (some ctx) f x c = some (e, r)) :
    ∃ ctx', r = some ctx' ∧ ctx'.status = e ∧ ctx'.par = ctx.par ∧
      (ctx.status = .iterate ∧ x ≠ none ∧ (ctx.par.m > 0 → c ≠ none) →
        ctx'.st.nfvals = ctx.st.nfvals + 1 ∧ (e = .iterate ∨ e = .success ∨ e = .roundingErrors ∨ e = .tooManyEvaluations)) ∧
      (¬ (ctx.status = .iterate ∧ x ≠ none ∧ (ctx.par.m > 0 → c ≠ none)) →
        ctx'.st = ctx.st ∧ (e = .badAddress ∨ e = .corrupted)) := by
  have h' := h
  unfold iterate at h'
  cases x with
  | none =>
    simp only [Option.some.injEq, Prod.mk.injEq] at h'
    obtain ⟨rfl, rfl⟩ := h'
    exact ⟨_, rfl, rfl, rfl, fun hh => absurd rfl hh.2.1, fun _ => ⟨rfl, Or.inl rfl⟩⟩
  | some x =>
    simp only at h'
    by_cases h1 : c.isNone ∧ ctx.par.m > 0
    · rw [if_pos h1] at h'
      simp only [Option.some.injEq, Prod.mk.injEq] at h'
      obtain ⟨rfl, rfl⟩ := h'
      exact ⟨_, rfl, rfl, rfl, fun hh => absurd (Option.isNone_iff_eq_none.mp h1.1) (hh.2.2 h1.2), fun _ => ⟨rfl, Or.inl rfl⟩⟩
    · rw [if_neg h1] at h'
      by_cases h2 : ctx.status ≠ .iterate
      · rw [if_pos h2] at h'
        simp only [Option.some.injEq, Prod.mk.injEq] at h'
        obtain ⟨rfl, rfl⟩ := h'
        exact ⟨_, rfl, rfl, rfl, fun hh => absurd hh.1 h2, fun _ => ⟨rfl, Or.inr rfl⟩⟩
      · rw [if_neg h2] at h'
        cases hr : resume ctx.par T fuel f (c.getD fun _ => 0) (if ctx.st.nfvals = 0 then init ctx.par x ctx.st else { ctx.st with x := x }) with
        | none => rw [hr] at h'; simp at h'
        | some es =>
          obtain ⟨e', s'⟩ := es
          rw [hr] at h'
          simp only [Option.some.injEq, Prod.mk.injEq] at h'
          obtain ⟨rfl, rfl⟩ := h'
          obtain ⟨r1, -, r3⟩ := resume_spec _ T fuel f _ _ e' s' hr
          refine ⟨_, rfl, rfl, rfl, fun _ => ⟨?_, by tauto⟩, fun hh => absurd ⟨not_not.mp h2, by simp, fun hm => ?_⟩ hh⟩
          · show s'.nfvals = _
            rw [r1]
            split_ifs with h
            · rw [h]; rfl
            · rfl
          · intro hc
            exact h1 ⟨by rw [hc]; rfl, hm⟩

/-- `NULL` contexts. -/
theorem cobyla_null (T : St F → (Nat → F) × Nat) (fuel : Nat) (f : F) (x c : Option (Nat → F)) :
    iterate T fuel none f x c = some (.badAddress, none) ∧ restart (none : Option (Ctx F)) = (.badAddress, none) ∧
      getStatus (none : Option (Ctx F)) = .badAddress ∧ getNevals (none : Option (Ctx F)) = -1 := ⟨rfl, rfl, rfl, rfl⟩

/-- **C51** (direct routine, any arithmetic): at most `max 1 maxfun` evaluations. -/
theorem evals_budget (p : Par F) (T : St F → (Nat → F) × Nat) (calcfc : Nat → (Nat → F) → F × (Nat → F)) (fuel : Nat)
    (count : Nat) (s : St F) (e : Status) (s' : St F) (h : evals p T calcfc fuel count s = some (e, s')) :
    s.nfvals < s'.nfvals ∧ ((s'.nfvals : Int) ≤ p.maxfun ∨ s'.nfvals = s.nfvals + 1) ∧
    (∃ k, Reduced p.rhoend k s.rho s'.rho) ∧
    (e = .tooManyEvaluations ∧ p.maxfun ≤ s'.nfvals ∨ e = .roundingErrors ∨ e = .success ∧ ¬ s'.rho > p.rhoend) := by
  induction count generalizing s with
  | zero => simp [evals] at h
  | succ count ih =>
    unfold evals at h
    dsimp only at h
    cases hr : resume p T fuel (calcfc s.nfvals s.x).1 (calcfc s.nfvals s.x).2 s with
    | none => rw [hr] at h; simp at h
    | some es =>
      obtain ⟨e1, s1⟩ := es
      rw [hr] at h
      obtain ⟨r1, ⟨k, r2⟩, r3⟩ := resume_spec _ T fuel _ _ _ e1 s1 hr
      by_cases he : e1 = .iterate
      · subst he
        simp only at h
        obtain ⟨i1, i2, ⟨l, i3⟩, i4⟩ := ih s1 h
        refine ⟨by omega, Or.inl ?_, ⟨k + l, r2.trans i3⟩, i4⟩
        rcases r3 with r3 | r3 | r3 | r3
        · rcases i2 with i2 | i2
          · exact i2
          · omega
        · simp at r3
        · simp at r3
        · simp at r3
      · have : some (e1, s1) = some (e, s') := by
          cases e1 <;> first | exact absurd rfl he | exact h
        simp only [Option.some.injEq, Prod.mk.injEq] at this
        obtain ⟨rfl, rfl⟩ := this
        refine ⟨by omega, Or.inr r1, ⟨k, r2⟩, ?_⟩
        rcases r3 with r3 | r3
        · exact absurd r3.1 he
        · exact r3

end

section
variable {K : Type} [Field K] [LinearOrder K] [IsStrictOrderedRing K] [CMath K] [ExactMath K]

/-- The successive radii in exact arithmetic, and how many reductions are possible. -/
theorem reduced_exact {rhobeg rhoend rho : K} {k : Nat} (h0 : 0 < rhoend) (h1 : rhoend ≤ rhobeg) (h : Reduced rhoend k rhobeg rho) :
    rhoend ≤ rho ∧ rho ≤ rhobeg ∧ (rho = rhoend ∨ rho = rhobeg / 2 ^ k) ∧ 2 ^ k * rhoend < 2 * rhobeg := by
  have half : ∀ a : K, lit 1 2 * a = a / 2 := fun a => by rw [ExactMath.lit_eq]; push_cast; ring
  have th : ∀ a : K, lit 3 2 * a = 3 / 2 * a := fun a => by rw [ExactMath.lit_eq]; push_cast; ring
  have key : rhoend ≤ rho ∧ rho ≤ rhobeg ∧ (rho = rhoend ∨ rho = rhobeg / 2 ^ k) ∧ (rho = rhobeg / 2 ^ k → rhoend * 2 ^ k ≤ rhobeg) ∧ 2 ^ k * rhoend < 2 * rhobeg := by
    induction h with
    | zero =>
      refine ⟨h1, le_rfl, Or.inr (by simp), fun _ => by simpa using h1, ?_⟩
      simp only [pow_zero, one_mul]
      linarith
    | @step k a b h hb ih =>
      obtain ⟨i1, i2, i3, i4, i5⟩ := ih h1
      have hpk : (0 : K) < 2 ^ k := pow_pos two_pos k
      have hbk : b = a / 2 ^ k := by
        rcases i3 with i3 | i3
        · exact absurd hb (by rw [i3]; exact lt_irrefl _)
        · exact i3
      have hmul : rhoend * 2 ^ k < a := by
        rw [hbk] at hb
        rwa [gt_iff_lt, lt_div_iff₀ hpk] at hb
      have h5 : 2 ^ (k + 1) * rhoend < 2 * a := by rw [pow_succ]; linarith
      unfold nextRho
      rw [half, th]
      by_cases hc : b / 2 ≤ 3 / 2 * rhoend
      · rw [if_pos hc]
        refine ⟨le_rfl, h1, Or.inl rfl, fun he => ?_, h5⟩
        have hp : (0 : K) < 2 ^ (k + 1) := pow_pos two_pos _
        rw [eq_div_iff hp.ne'] at he
        exact he.le
      · rw [if_neg hc]
        have hb2 : b / 2 = a / 2 ^ (k + 1) := by
          rw [hbk, pow_succ]
          field_simp
        refine ⟨by linarith, by linarith, Or.inr hb2, fun _ => ?_, h5⟩
        have hp : (0 : K) < 2 ^ (k + 1) := pow_pos two_pos _
        have : rhoend ≤ a / 2 ^ (k + 1) := by rw [← hb2]; linarith
        rwa [le_div_iff₀ hp] at this
  exact ⟨key.1, key.2.1, key.2.2.1, key.2.2.2.2⟩

/-- **C51** (exact arithmetic): whatever the calls, the radius is between `rhoend` and `rhobeg`,
it has been reduced less than `log2(2*rhobeg/rhoend)` times, and success means that it is
`rhoend`. -/
theorem cobyla_radius {n m : Int} {rhobeg rhoend : K} {maxfun : Int} {room : Bool} {ctx0 ctx : Ctx K}
    (h0 : create n m rhobeg rhoend maxfun room = some ctx0) (h : Reach ctx0 ctx) :
    (ctx.st.nfvals ≠ 0 → rhoend ≤ ctx.st.rho ∧ ctx.st.rho ≤ rhobeg ∧
      ∃ k, Reduced rhoend k rhobeg ctx.st.rho ∧ 2 ^ k * rhoend < 2 * rhobeg) ∧
    (ctx.status = .success → ctx.st.rho = rhoend) := by
  obtain ⟨-, -, h3, h4⟩ := cobyla_budget h0 h
  have hc : ¬ (n < 1 ∨ m < 0 ∨ rhobeg < rhoend ∨ rhoend ≤ 0 ∨ maxfun < 1) := by
    intro hc
    unfold create at h0
    rw [if_pos hc] at h0
    simp at h0
  have hp : 0 < rhoend := by by_contra hh; exact hc (by right; right; right; left; exact not_lt.mp hh)
  have hle : rhoend ≤ rhobeg := by by_contra hh; exact hc (by right; right; left; exact not_le.mp hh)
  have h3' : ctx.st.nfvals ≠ 0 → rhoend ≤ ctx.st.rho ∧ ctx.st.rho ≤ rhobeg ∧ ∃ k, Reduced rhoend k rhobeg ctx.st.rho ∧ 2 ^ k * rhoend < 2 * rhobeg := by
    intro hn
    obtain ⟨k, hk⟩ := h3 hn
    obtain ⟨a, b, -, d⟩ := reduced_exact hp hle hk
    exact ⟨a, b, k, hk, d⟩
  refine ⟨h3', fun hs => ?_⟩
  obtain ⟨h5, h6⟩ := h4 hs
  exact le_antisymm (not_lt.mp h6) (h3' h5).1

end
end Opk.Cobyla
