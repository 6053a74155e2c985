import Verif.Fmin.Accuracy
/-!
# Univariate minimization: reverse communication (C33, C36, C37, C61)
-/
set_option linter.unusedSectionVars false
set_option linter.unusedSimpArgs false
namespace Opk.Fmin

variable {F Y : Type}

section arith
variable [Add F] [Sub F] [Mul F] [Zero F] [LinearOrder F] [CMath F] [Value Y]

/-! ## The two interfaces coincide (C36) -/

/-- The context has the interval of the run. -/
structure Same (c : Ctx F Y) (prec : F) (s : Run F Y) : Prop where
  u : c.u = s.u
  fu : c.fu = s.fu
  v : c.v = s.v
  fv : c.fv = s.fv
  w : c.w = s.w
  fw : c.fw = s.fw
  nevals : c.nevals = s.nevals
  prec : c.prec = prec

/-- The context is the answer of `opk_fmin_next` when the run of `opk_fmin` has reached state `s`. -/
def Sim (ctx : Ctx F Y) (prec : F) (s : Run F Y) : Prop :=
  (s.phase = .bracket ∧ ∃ c, Same c prec s ∧ ctx = goBracket c) ∨
  (s.phase = .reduce ∧ ∃ c, Same c prec s ∧ ctx = goReduce c) ∨
  (s.phase = .done 0 ∧ Same ctx prec s ∧ ctx.status = .convergence)

/-- The answer is to ask for the function or convergence, and a context which has converged has the interval of the run. -/
theorem Sim.status {ctx : Ctx F Y} {prec : F} {s : Run F Y} (h : Sim ctx prec s) : ctx.status = .fx ∨ ctx.status = .convergence := by
  have hr : ∀ c : Ctx F Y, (goReduce c).status = .fx ∨ (goReduce c).status = .convergence := by
    intro c
    unfold goReduce
    by_cases hc : converged c.prec c.u c.v c.w = true
    · rw [if_pos hc]; right; rfl
    · rw [if_neg hc]; left; rfl
  rcases h with ⟨-, c, -, rfl⟩ | ⟨-, c, -, rfl⟩ | ⟨-, -, h⟩
  · unfold goBracket
    by_cases hg : Value.gt c.fv c.fw = true
    · rw [if_pos hg]; left; rfl
    · rw [if_neg hg]; exact hr c
  · exact hr c
  · exact Or.inr h

theorem sim_step (f : Nat → F → Y) (maxeval : Int) (hm : maxeval ≤ 0) (prec : F) (ctx : Ctx F Y) (s : Run F Y) (h : Sim ctx prec s) :
    ((step f maxeval prec s).log = s.log ∧ Sim ctx prec (step f maxeval prec s)) ∨
    (ctx.status = .fx ∧ (step f maxeval prec s).log = s.log ++ [(ctx.x, f s.log.length ctx.x)] ∧
      Sim (next ctx ctx.x (f s.log.length ctx.x)) prec (step f maxeval prec s)) := by
  have hm' : ¬ (maxeval > 0 ∧ s.nevals ≥ maxeval) := fun k => absurd k.1 (not_lt.2 hm)
  rcases h with ⟨hp, c, hc, rfl⟩ | ⟨hp, c, hc, rfl⟩ | ⟨hp, hc, hs⟩
  · unfold step
    simp only [hp]
    by_cases hg : Value.gt s.fv s.fw = true
    · right
      have hg' : Value.gt c.fv c.fw = true := by rw [hc.fv, hc.fw]; exact hg
      simp only [if_pos hg, if_neg hm']
      have he : goBracket c = ask { c with u := c.v, fu := c.fv, v := c.w, fv := c.fw, x := extrap c.v c.w, w := extrap c.v c.w } 4 := by
        unfold goBracket; rw [if_pos hg']
      rw [he]
      refine ⟨rfl, ?_, ?_⟩
      · simp only [ask, call, hc.v, hc.w]
      · left
        refine ⟨rfl, { c with u := c.v, fu := c.fv, v := c.w, fv := c.fw, x := extrap c.v c.w, w := extrap c.v c.w, fw := f s.log.length (extrap c.v c.w), stage := 4, status := .fx, nevals := c.nevals + 1 }, ?_, ?_⟩
        · exact ⟨hc.v, hc.fv, hc.w, hc.fw, by simp only [hc.v, hc.w], by simp only [hc.v, hc.w, call], by simp only [hc.nevals], hc.prec⟩
        · simp [next, ask]
    · left
      have hg' : ¬ Value.gt c.fv c.fw = true := by rw [hc.fv, hc.fw]; exact hg
      simp only [if_neg hg]
      refine ⟨trivial, Or.inr (Or.inl ⟨rfl, c, ⟨hc.u, hc.fu, hc.v, hc.fv, hc.w, hc.fw, hc.nevals, hc.prec⟩, ?_⟩)⟩
      unfold goBracket; rw [if_neg hg']
  · unfold step
    simp only [hp]
    by_cases hg : converged prec s.u s.v s.w = true
    · left
      have hg' : converged c.prec c.u c.v c.w = true := by rw [hc.prec, hc.u, hc.v, hc.w]; exact hg
      simp only [if_pos hg]
      have he : goReduce c = { c with status := .convergence } := by unfold goReduce; rw [if_pos hg']
      rw [he]
      exact ⟨trivial, Or.inr (Or.inr ⟨rfl, ⟨hc.u, hc.fu, hc.v, hc.fv, hc.w, hc.fw, hc.nevals, hc.prec⟩, rfl⟩)⟩
    · right
      have hg' : ¬ converged c.prec c.u c.v c.w = true := by rw [hc.prec, hc.u, hc.v, hc.w]; exact hg
      simp only [if_neg hg, if_neg hm']
      have he : goReduce c = ask { c with x := interp c.v c.w } 5 := by unfold goReduce; rw [if_neg hg']
      rw [he]
      refine ⟨rfl, ?_, ?_⟩
      · simp only [ask, call, hc.v, hc.w]
      · right; left
        refine ⟨rfl, ?_⟩
        simp only [next, ask, true_or, if_true, ne_eq, not_true_eq_false, if_false, resume5]
        refine ⟨_, ?_, rfl⟩
        simp only [call, hc.u, hc.fu, hc.v, hc.fv, hc.w, hc.fw, hc.nevals, hc.prec]
        exact ⟨rfl, rfl, rfl, rfl, rfl, rfl, rfl, rfl⟩
  · left
    have : step f maxeval prec s = s := by unfold step; rw [hp]
    rw [this]
    exact ⟨rfl, Or.inr (Or.inr ⟨hp, hc, hs⟩)⟩

/-- When the function is asked for, the run of `opk_fmin` evaluates it at the same point. -/
theorem sim_eval (f : Nat → F → Y) (maxeval : Int) (hm : maxeval ≤ 0) (prec : F) (ctx : Ctx F Y) (s : Run F Y) (h : Sim ctx prec s) (hx : ctx.status = .fx) :
    ∃ m, ((step f maxeval prec)^[m] s).log = s.log ++ [(ctx.x, f s.log.length ctx.x)] ∧
      Sim (next ctx ctx.x (f s.log.length ctx.x)) prec ((step f maxeval prec)^[m] s) := by
  -- a state of the second loop
  have red : ∀ t : Run F Y, t.phase = .reduce → Sim ctx prec t →
      (step f maxeval prec t).log = t.log ++ [(ctx.x, f t.log.length ctx.x)] ∧ Sim (next ctx ctx.x (f t.log.length ctx.x)) prec (step f maxeval prec t) := by
    intro t hp ht
    rcases sim_step f maxeval hm prec ctx t ht with ⟨h1, h2⟩ | h1
    · exfalso
      rcases step_cases f maxeval prec t _ rfl with ⟨p, e, hc⟩ | ⟨-, x, y, -, e, -⟩
      · rw [hp] at hc
        rcases hc with ⟨k, -⟩ | ⟨k, -⟩ | ⟨-, -, k⟩ | ⟨-, -, k, -⟩ | ⟨st, k, -⟩
        · cases k
        · cases k
        · rcases h2 with ⟨k', -⟩ | ⟨k', -⟩ | ⟨-, -, k'⟩
          · rw [e, k] at k'; cases k'
          · rw [e, k] at k'; cases k'
          · rw [hx] at k'; cases k'
        · omega
        · cases k
      · rw [e] at h1
        simp at h1
    · exact ⟨h1.2.1, h1.2.2⟩
  rcases h0 : s.phase with _ | _ | st
  · rcases sim_step f maxeval hm prec ctx s h with ⟨h1, h2⟩ | h1
    · have hp : (step f maxeval prec s).phase = .reduce := by
        rcases step_cases f maxeval prec s _ rfl with ⟨p, e, hc⟩ | ⟨-, x, y, -, e, -⟩
        · rw [h0] at hc
          rcases hc with ⟨-, -, k, -⟩ | ⟨-, -, k⟩ | ⟨k, -⟩ | ⟨k, -⟩ | ⟨st, k, -⟩
          · omega
          · rw [e, k]
          · cases k
          · cases k
          · cases k
        · rw [e] at h1; simp at h1
      obtain ⟨r1, r2⟩ := red _ hp h2
      rw [h1] at r1 r2
      exact ⟨2, r1, r2⟩
    · exact ⟨1, h1.2.1, h1.2.2⟩
  · exact ⟨1, red s h0 h⟩
  · rcases h with ⟨k, -⟩ | ⟨k, -⟩ | ⟨-, -, k⟩
    · rw [h0] at k; cases k
    · rw [h0] at k; cases k
    · rw [hx] at k; cases k

theorem drive_succ (f : Nat → F → Y) (ctx : Ctx F Y) (log : List (F × Y)) (k : Nat) :
    drive f ctx log (k + 1) =
      if (drive f ctx log k).1.status = .fx then
        (next (drive f ctx log k).1 (drive f ctx log k).1.x (f (drive f ctx log k).2.length (drive f ctx log k).1.x),
         (drive f ctx log k).2 ++ [((drive f ctx log k).1.x, f (drive f ctx log k).2.length (drive f ctx log k).1.x)])
      else drive f ctx log k := by
  induction k generalizing ctx log with
  | zero =>
    by_cases h : ctx.status = .fx
    · simp [drive, h, call]
    · simp [drive, h]
  | succ k ih =>
    by_cases h : ctx.status = .fx
    · have e : ∀ n, drive f ctx log (n + 1) = drive f (next ctx ctx.x (f log.length ctx.x)) (log ++ [(ctx.x, f log.length ctx.x)]) n := by
        intro n
        conv_lhs => unfold drive
        rw [if_pos h]
        rfl
      rw [e, ih, ← e]
    · have e : ∀ n, drive f ctx log n = (ctx, log) := by
        intro n
        cases n with
        | zero => rfl
        | succ n => conv_lhs => unfold drive
                    rw [if_neg h]
      rw [e, e]
      rw [if_neg h]

theorem reverse_succ (f : Nat → F → Y) (ctx : Ctx F Y) (x : F) (fx : Y) (k : Nat) :
    reverse f ctx x fx (k + 1) =
      if (reverse f ctx x fx k).1.status = .fx then
        (next (reverse f ctx x fx k).1 (reverse f ctx x fx k).1.x (f (reverse f ctx x fx k).2.length (reverse f ctx x fx k).1.x),
         (reverse f ctx x fx k).2 ++ [((reverse f ctx x fx k).1.x, f (reverse f ctx x fx k).2.length (reverse f ctx x fx k).1.x)])
      else reverse f ctx x fx k := drive_succ f (next ctx x fx) [] k

/-- The mask of the flags does not modify the bits which are used. -/
theorem mask_A (flags : Nat) : (flags &&& (BOUNDED_BY_A ||| BOUNDED_BY_B ||| SMOOTH)) &&& BOUNDED_BY_A = flags &&& BOUNDED_BY_A := by
  rw [Nat.and_assoc]; rfl
theorem mask_B (flags : Nat) : (flags &&& (BOUNDED_BY_A ||| BOUNDED_BY_B ||| SMOOTH)) &&& BOUNDED_BY_B = flags &&& BOUNDED_BY_B := by
  rw [Nat.and_assoc]; rfl

/-- The number of evaluations before the loops. -/
def initialCalls (flags : Nat) : Nat :=
  (if flags &&& BOUNDED_BY_A = 0 then 1 else 0) + (if flags &&& BOUNDED_BY_B = 0 then 1 else 0) + 1

/-- The first calls of the reverse communication make the evaluations of the beginning of `opk_fmin`. -/
theorem reverse_enter (f : Nat → F → Y) (ctx0 ctx : Ctx F Y) (a b : F) (flags : Nat) (hs : start ctx0 a b flags = (.success, ctx)) (x : F) (fx : Y) :
    (reverse f ctx x fx (initialCalls flags)).2 = (enter f a b flags).log ∧ Sim (reverse f ctx x fx (initialCalls flags)).1 ctx0.prec (enter f a b flags) ∧
    ∀ j < initialCalls flags, (reverse f ctx x fx j).2 = (enter f a b flags).log.take j ∧ (reverse f ctx x fx j).1.status = .fx := by
  unfold start at hs
  by_cases hab : a = b
  · rw [if_pos hab] at hs; cases hs
  rw [if_neg hab, Prod.mk.injEq] at hs
  obtain ⟨-, hs⟩ := hs
  subst hs
  by_cases hA : flags &&& BOUNDED_BY_A = 0 <;> by_cases hB : flags &&& BOUNDED_BY_B = 0
  · have hn : initialCalls flags = 3 := by simp [initialCalls, hA, hB]
    rw [hn]
    by_cases hg : Value.gt (f 1 b) (f 0 a) = true
    · refine ⟨?_, Or.inl ⟨?_, ?_⟩, ?_⟩
      · simp [reverse, drive, next, goU, goW, goV, ask, call, mask_A, mask_B, hA, hB, hg, enter]
      · exact (enter_cases f a b flags _ rfl).1
      · simp only [reverse, drive, next, goU, goW, goV, ask, call, mask_A, mask_B, hA, hB, hg, enter, ne_eq, not_true_eq_false, not_false_eq_true, if_false, if_true, true_or,
          reduceCtorEq, or_self, List.length_nil, List.nil_append, List.length_cons, List.length_append, List.cons_append, Nat.zero_add]
        refine ⟨_, ?_, rfl⟩
        exact ⟨rfl, rfl, rfl, rfl, rfl, rfl, rfl, rfl⟩
      · intro j hj
        have hj' : j = 0 ∨ j = 1 ∨ j = 2 := by omega
        rcases hj' with rfl | rfl | rfl
        all_goals first
          | omega
          | simp [reverse, drive, next, goU, goW, goV, ask, call, mask_A, mask_B, hA, hB, hg, enter]
    · refine ⟨?_, Or.inl ⟨?_, ?_⟩, ?_⟩
      · simp [reverse, drive, next, goU, goW, goV, ask, call, mask_A, mask_B, hA, hB, hg, enter]
      · exact (enter_cases f a b flags _ rfl).1
      · simp only [reverse, drive, next, goU, goW, goV, ask, call, mask_A, mask_B, hA, hB, hg, enter, ne_eq, not_true_eq_false, not_false_eq_true, if_false, if_true, true_or,
          reduceCtorEq, or_self, List.length_nil, List.nil_append, List.length_cons, List.length_append, List.cons_append, Nat.zero_add]
        refine ⟨_, ?_, rfl⟩
        exact ⟨rfl, rfl, rfl, rfl, rfl, rfl, rfl, rfl⟩
      · intro j hj
        have hj' : j = 0 ∨ j = 1 ∨ j = 2 := by omega
        rcases hj' with rfl | rfl | rfl
        all_goals first
          | omega
          | simp [reverse, drive, next, goU, goW, goV, ask, call, mask_A, mask_B, hA, hB, hg, enter]
  · have hn : initialCalls flags = 2 := by simp [initialCalls, hA, hB]
    rw [hn]
    by_cases hg : Value.gt Value.inf (f 0 a) = true
    · refine ⟨?_, Or.inl ⟨?_, ?_⟩, ?_⟩
      · simp [reverse, drive, next, goU, goW, goV, ask, call, mask_A, mask_B, hA, hB, hg, enter]
      · exact (enter_cases f a b flags _ rfl).1
      · simp only [reverse, drive, next, goU, goW, goV, ask, call, mask_A, mask_B, hA, hB, hg, enter, ne_eq, not_true_eq_false, not_false_eq_true, if_false, if_true, true_or,
          reduceCtorEq, or_self, List.length_nil, List.nil_append, List.length_cons, List.length_append, List.cons_append, Nat.zero_add]
        refine ⟨_, ?_, rfl⟩
        exact ⟨rfl, rfl, rfl, rfl, rfl, rfl, rfl, rfl⟩
      · intro j hj
        have hj' : j = 0 ∨ j = 1 ∨ j = 2 := by omega
        rcases hj' with rfl | rfl | rfl
        all_goals first
          | omega
          | simp [reverse, drive, next, goU, goW, goV, ask, call, mask_A, mask_B, hA, hB, hg, enter]
    · refine ⟨?_, Or.inl ⟨?_, ?_⟩, ?_⟩
      · simp [reverse, drive, next, goU, goW, goV, ask, call, mask_A, mask_B, hA, hB, hg, enter]
      · exact (enter_cases f a b flags _ rfl).1
      · simp only [reverse, drive, next, goU, goW, goV, ask, call, mask_A, mask_B, hA, hB, hg, enter, ne_eq, not_true_eq_false, not_false_eq_true, if_false, if_true, true_or,
          reduceCtorEq, or_self, List.length_nil, List.nil_append, List.length_cons, List.length_append, List.cons_append, Nat.zero_add]
        refine ⟨_, ?_, rfl⟩
        exact ⟨rfl, rfl, rfl, rfl, rfl, rfl, rfl, rfl⟩
      · intro j hj
        have hj' : j = 0 ∨ j = 1 ∨ j = 2 := by omega
        rcases hj' with rfl | rfl | rfl
        all_goals first
          | omega
          | simp [reverse, drive, next, goU, goW, goV, ask, call, mask_A, mask_B, hA, hB, hg, enter]
  · have hn : initialCalls flags = 2 := by simp [initialCalls, hA, hB]
    rw [hn]
    by_cases hg : Value.gt (f 0 b) Value.inf = true
    · refine ⟨?_, Or.inl ⟨?_, ?_⟩, ?_⟩
      · simp [reverse, drive, next, goU, goW, goV, ask, call, mask_A, mask_B, hA, hB, hg, enter]
      · exact (enter_cases f a b flags _ rfl).1
      · simp only [reverse, drive, next, goU, goW, goV, ask, call, mask_A, mask_B, hA, hB, hg, enter, ne_eq, not_true_eq_false, not_false_eq_true, if_false, if_true, true_or,
          reduceCtorEq, or_self, List.length_nil, List.nil_append, List.length_cons, List.length_append, List.cons_append, Nat.zero_add]
        refine ⟨_, ?_, rfl⟩
        exact ⟨rfl, rfl, rfl, rfl, rfl, rfl, rfl, rfl⟩
      · intro j hj
        have hj' : j = 0 ∨ j = 1 ∨ j = 2 := by omega
        rcases hj' with rfl | rfl | rfl
        all_goals first
          | omega
          | simp [reverse, drive, next, goU, goW, goV, ask, call, mask_A, mask_B, hA, hB, hg, enter]
    · refine ⟨?_, Or.inl ⟨?_, ?_⟩, ?_⟩
      · simp [reverse, drive, next, goU, goW, goV, ask, call, mask_A, mask_B, hA, hB, hg, enter]
      · exact (enter_cases f a b flags _ rfl).1
      · simp only [reverse, drive, next, goU, goW, goV, ask, call, mask_A, mask_B, hA, hB, hg, enter, ne_eq, not_true_eq_false, not_false_eq_true, if_false, if_true, true_or,
          reduceCtorEq, or_self, List.length_nil, List.nil_append, List.length_cons, List.length_append, List.cons_append, Nat.zero_add]
        refine ⟨_, ?_, rfl⟩
        exact ⟨rfl, rfl, rfl, rfl, rfl, rfl, rfl, rfl⟩
      · intro j hj
        have hj' : j = 0 ∨ j = 1 ∨ j = 2 := by omega
        rcases hj' with rfl | rfl | rfl
        all_goals first
          | omega
          | simp [reverse, drive, next, goU, goW, goV, ask, call, mask_A, mask_B, hA, hB, hg, enter]
  · have hn : initialCalls flags = 1 := by simp [initialCalls, hA, hB]
    rw [hn]
    by_cases hg : Value.gt (Value.inf : Y) Value.inf = true
    · refine ⟨?_, Or.inl ⟨?_, ?_⟩, ?_⟩
      · simp [reverse, drive, next, goU, goW, goV, ask, call, mask_A, mask_B, hA, hB, hg, enter]
      · exact (enter_cases f a b flags _ rfl).1
      · simp only [reverse, drive, next, goU, goW, goV, ask, call, mask_A, mask_B, hA, hB, hg, enter, ne_eq, not_true_eq_false, not_false_eq_true, if_false, if_true, true_or,
          reduceCtorEq, or_self, List.length_nil, List.nil_append, List.length_cons, List.length_append, List.cons_append, Nat.zero_add]
        refine ⟨_, ?_, rfl⟩
        exact ⟨rfl, rfl, rfl, rfl, rfl, rfl, rfl, rfl⟩
      · intro j hj
        have hj' : j = 0 ∨ j = 1 ∨ j = 2 := by omega
        rcases hj' with rfl | rfl | rfl
        all_goals first
          | omega
          | simp [reverse, drive, next, goU, goW, goV, ask, call, mask_A, mask_B, hA, hB, hg, enter]
    · refine ⟨?_, Or.inl ⟨?_, ?_⟩, ?_⟩
      · simp [reverse, drive, next, goU, goW, goV, ask, call, mask_A, mask_B, hA, hB, hg, enter]
      · exact (enter_cases f a b flags _ rfl).1
      · simp only [reverse, drive, next, goU, goW, goV, ask, call, mask_A, mask_B, hA, hB, hg, enter, ne_eq, not_true_eq_false, not_false_eq_true, if_false, if_true, true_or,
          reduceCtorEq, or_self, List.length_nil, List.nil_append, List.length_cons, List.length_append, List.cons_append, Nat.zero_add]
        refine ⟨_, ?_, rfl⟩
        exact ⟨rfl, rfl, rfl, rfl, rfl, rfl, rfl, rfl⟩
      · intro j hj
        have hj' : j = 0 ∨ j = 1 ∨ j = 2 := by omega
        rcases hj' with rfl | rfl | rfl
        all_goals first
          | omega
          | simp [reverse, drive, next, goU, goW, goV, ask, call, mask_A, mask_B, hA, hB, hg, enter]

/-- **C36.** Whatever the function, the reverse communication version makes the same evaluations in the same order as `opk_fmin` without budget. -/
theorem reverse_in_direct (f : Nat → F → Y) (ctx0 ctx : Ctx F Y) (a b : F) (flags : Nat) (hs : start ctx0 a b flags = (.success, ctx)) (x : F) (fx : Y)
    (maxeval : Int) (hm : maxeval ≤ 0) (prec sqrtEps : F) (hprec : ctx0.prec = if prec < 0 then sqrtEps else prec) (d : Nat) :
    ∃ k, (reverse f ctx x fx (initialCalls flags + d)).2 = (after f a b flags maxeval prec sqrtEps k).log ∧
      Sim (reverse f ctx x fx (initialCalls flags + d)).1 ctx0.prec (after f a b flags maxeval prec sqrtEps k) := by
  obtain ⟨h1, h2, -⟩ := reverse_enter f ctx0 ctx a b flags hs x fx
  induction d with
  | zero => exact ⟨0, h1, h2⟩
  | succ d ih =>
    obtain ⟨k, i1, i2⟩ := ih
    have e : reverse f ctx x fx (initialCalls flags + (d + 1)) = if (reverse f ctx x fx (initialCalls flags + d)).1.status = .fx then
        (next (reverse f ctx x fx (initialCalls flags + d)).1 (reverse f ctx x fx (initialCalls flags + d)).1.x
          (f (reverse f ctx x fx (initialCalls flags + d)).2.length (reverse f ctx x fx (initialCalls flags + d)).1.x),
         (reverse f ctx x fx (initialCalls flags + d)).2 ++ [((reverse f ctx x fx (initialCalls flags + d)).1.x,
          f (reverse f ctx x fx (initialCalls flags + d)).2.length (reverse f ctx x fx (initialCalls flags + d)).1.x)])
        else reverse f ctx x fx (initialCalls flags + d) := by
      rw [← Nat.add_assoc]
      exact drive_succ f _ _ _
    by_cases hx : (reverse f ctx x fx (initialCalls flags + d)).1.status = .fx
    · rw [e, if_pos hx]
      obtain ⟨m, m1, m2⟩ := sim_eval f maxeval hm ctx0.prec _ _ i2 hx
      have ek : (step f maxeval ctx0.prec)^[m] (after f a b flags maxeval prec sqrtEps k) = after f a b flags maxeval prec sqrtEps (m + k) := by
        unfold after
        rw [hprec, Function.iterate_add_apply]
      rw [ek] at m1 m2
      refine ⟨m + k, ?_, ?_⟩
      · rw [m1, i1]
      · rw [i1]; exact m2
    · rw [e, if_neg hx]
      exact ⟨k, i1, i2⟩

/-- **C36.** Conversely, each state of a run of `opk_fmin` without budget is reached by the reverse communication version with the same evaluations. -/
theorem direct_in_reverse (f : Nat → F → Y) (ctx0 ctx : Ctx F Y) (a b : F) (flags : Nat) (hs : start ctx0 a b flags = (.success, ctx)) (x : F) (fx : Y)
    (maxeval : Int) (hm : maxeval ≤ 0) (prec sqrtEps : F) (hprec : ctx0.prec = if prec < 0 then sqrtEps else prec) (k : Nat) :
    ∃ d, (reverse f ctx x fx (initialCalls flags + d)).2 = (after f a b flags maxeval prec sqrtEps k).log ∧
      Sim (reverse f ctx x fx (initialCalls flags + d)).1 ctx0.prec (after f a b flags maxeval prec sqrtEps k) := by
  obtain ⟨h1, h2, -⟩ := reverse_enter f ctx0 ctx a b flags hs x fx
  induction k with
  | zero => exact ⟨0, h1, h2⟩
  | succ k ih =>
    obtain ⟨d, i1, i2⟩ := ih
    rcases sim_step f maxeval hm ctx0.prec _ _ i2 with ⟨s1, s2⟩ | ⟨hx, s1, s2⟩
    · rw [hprec, ← after_succ] at s1 s2
      rw [← hprec] at s2
      exact ⟨d, by rw [s1, i1], s2⟩
    · rw [hprec, ← after_succ] at s1 s2
      rw [← hprec] at s2
      refine ⟨d + 1, ?_, ?_⟩
      · rw [← Nat.add_assoc, reverse_succ, if_pos hx, s1]
        simp only [i1]
      · rw [← Nat.add_assoc, reverse_succ, if_pos hx]
        simp only [i1]
        exact s2

theorem reverse_prefix (f : Nat → F → Y) (ctx : Ctx F Y) (x : F) (fx : Y) (j d : Nat) : (reverse f ctx x fx j).2 <+: (reverse f ctx x fx (j + d)).2 := by
  induction d with
  | zero => exact List.prefix_rfl
  | succ d ih =>
    refine ih.trans ?_
    show _ <+: (drive f _ _ (j + d + 1)).2
    rw [drive_succ]
    show (drive f _ _ (j + d)).2 <+: _
    by_cases hx : (drive f (next ctx x fx) [] (j + d)).1.status = .fx
    · rw [if_pos hx]; exact List.prefix_append _ _
    · rw [if_neg hx]

/-- **C36.** For every function, interval, flags and precision, the `n`-th evaluation is the same for the two interfaces, if any. -/
theorem same_evaluations (f : Nat → F → Y) (ctx0 ctx : Ctx F Y) (a b : F) (flags : Nat) (hs : start ctx0 a b flags = (.success, ctx)) (x : F) (fx : Y)
    (maxeval : Int) (hm : maxeval ≤ 0) (prec sqrtEps : F) (hprec : ctx0.prec = if prec < 0 then sqrtEps else prec) (n : Nat) (p : F × Y) :
    (∃ j, (reverse f ctx x fx j).2[n]? = some p) ↔ ∃ k, (after f a b flags maxeval prec sqrtEps k).log[n]? = some p := by
  constructor
  · rintro ⟨j, hj⟩
    obtain ⟨k, h1, -⟩ := reverse_in_direct f ctx0 ctx a b flags hs x fx maxeval hm prec sqrtEps hprec j
    refine ⟨k, ?_⟩
    rw [← h1, Nat.add_comm]
    obtain ⟨t, ht⟩ := reverse_prefix f ctx x fx j (initialCalls flags)
    rw [← ht, List.getElem?_append_left]
    · exact hj
    · rw [List.getElem?_eq_some_iff] at hj
      exact hj.1
  · rintro ⟨k, hk⟩
    obtain ⟨d, h1, -⟩ := direct_in_reverse f ctx0 ctx a b flags hs x fx maxeval hm prec sqrtEps hprec k
    exact ⟨_, by rw [h1]; exact hk⟩

/-- **C36.** The reverse communication version converges if and only if `opk_fmin` returns 0, after the same evaluations and with the same three points. -/
theorem same_result (f : Nat → F → Y) (ctx0 ctx : Ctx F Y) (a b : F) (flags : Nat) (hs : start ctx0 a b flags = (.success, ctx)) (x : F) (fx : Y)
    (maxeval : Int) (hm : maxeval ≤ 0) (prec sqrtEps : F) (hprec : ctx0.prec = if prec < 0 then sqrtEps else prec) (o : Out F Y) (log : List (F × Y)) :
    Returns f a b flags maxeval prec sqrtEps 0 (some o) log ↔
    ∃ j c, reverse f ctx x fx j = (c, log) ∧ c.status = .convergence ∧ o.xmin = c.v ∧ o.fmin = c.fv ∧ o.nevals = c.nevals ∧
      ((c.u > c.w ∧ o.xlo = c.w ∧ o.flo = c.fw ∧ o.xhi = c.u ∧ o.fhi = c.fu) ∨ (¬ c.u > c.w ∧ o.xlo = c.u ∧ o.flo = c.fu ∧ o.xhi = c.w ∧ o.fhi = c.fw)) := by
  have hab : a ≠ b := by
    intro k
    unfold start at hs
    rw [if_pos k] at hs; cases hs
  -- the interval of a context which has converged is the one of the run, after one more step at most
  have conv : ∀ (c : Ctx F Y) (s : Run F Y), Sim c ctx0.prec s → c.status = .convergence →
      ∃ m, ((step f maxeval ctx0.prec)^[m] s).phase = .done 0 ∧ Same c ctx0.prec ((step f maxeval ctx0.prec)^[m] s) ∧ ((step f maxeval ctx0.prec)^[m] s).log = s.log := by
    intro c s h hc
    have red : ∀ t : Run F Y, t.phase = .reduce → Sim c ctx0.prec t →
        (step f maxeval ctx0.prec t).phase = .done 0 ∧ Same c ctx0.prec (step f maxeval ctx0.prec t) ∧ (step f maxeval ctx0.prec t).log = t.log := by
      intro t ht h
      rcases sim_step f maxeval hm ctx0.prec c t h with ⟨h1, h2⟩ | ⟨h1, -⟩
      · rcases step_cases f maxeval ctx0.prec t _ rfl with ⟨p, e, hc'⟩ | ⟨-, x, y, -, e, -⟩
        · rw [ht] at hc'
          rcases hc' with ⟨k, -⟩ | ⟨k, -⟩ | ⟨-, -, k⟩ | ⟨-, -, k, -⟩ | ⟨st, k, -⟩
          · cases k
          · cases k
          · have hph : (step f maxeval ctx0.prec t).phase = .done 0 := by rw [e, k]
            rcases h2 with ⟨k, -⟩ | ⟨k, -⟩ | ⟨-, k, -⟩
            · rw [hph] at k; cases k
            · rw [hph] at k; cases k
            · exact ⟨hph, k, h1⟩
          · omega
          · cases k
        · rw [e] at h1; simp at h1
      · rw [hc] at h1; cases h1
    rcases h0 : s.phase with _ | _ | st
    · rcases sim_step f maxeval hm ctx0.prec c s h with ⟨h1, h2⟩ | ⟨h1, -⟩
      · have hp : (step f maxeval ctx0.prec s).phase = .reduce := by
          rcases step_cases f maxeval ctx0.prec s _ rfl with ⟨p, e, hc'⟩ | ⟨-, x, y, -, e, -⟩
          · rw [h0] at hc'
            rcases hc' with ⟨-, -, k, -⟩ | ⟨-, -, k⟩ | ⟨k, -⟩ | ⟨k, -⟩ | ⟨st, k, -⟩
            · omega
            · rw [e, k]
            · cases k
            · cases k
            · cases k
          · rw [e] at h1; simp at h1
        obtain ⟨r1, r2, r3⟩ := red _ hp h2
        exact ⟨2, r1, r2, r3.trans h1⟩
      · rw [hc] at h1; cases h1
    · exact ⟨1, red s h0 h⟩
    · rcases h with ⟨k, -⟩ | ⟨k, -⟩ | ⟨k, k', -⟩
      · rw [h0] at k; cases k
      · rw [h0] at k; cases k
      · exact ⟨0, k, k', rfl⟩
  constructor
  · intro h
    unfold Returns at h
    rw [if_neg hab] at h
    obtain ⟨k, s, hk, h1, h2, rfl⟩ := h
    rw [Option.some.injEq] at h2
    subst h2
    obtain ⟨d, d1, d2⟩ := direct_in_reverse f ctx0 ctx a b flags hs x fx maxeval hm prec sqrtEps hprec k
    rw [hk] at d1 d2
    rcases d2 with ⟨k', -⟩ | ⟨k', -⟩ | ⟨-, hS, hcv⟩
    · rw [h1] at k'; cases k'
    · rw [h1] at k'; cases k'
    · refine ⟨_, (reverse f ctx x fx (initialCalls flags + d)).1, Prod.ext rfl d1, hcv, ?_⟩
      rw [hS.u, hS.fu, hS.v, hS.fv, hS.w, hS.fw, hS.nevals]
      unfold output
      by_cases hgt : s.u > s.w
      · rw [if_pos hgt]; exact ⟨rfl, rfl, rfl, Or.inl ⟨hgt, rfl, rfl, rfl, rfl⟩⟩
      · rw [if_neg hgt]; exact ⟨rfl, rfl, rfl, Or.inr ⟨hgt, rfl, rfl, rfl, rfl⟩⟩
  · rintro ⟨j, c, hj, hcv, g1, g2, g3, g4⟩
    -- the number of calls may be increased
    have stay : ∀ d, reverse f ctx x fx (j + d) = (c, log) := by
      intro d
      induction d with
      | zero => exact hj
      | succ d ih =>
        show drive f _ _ (j + d + 1) = _
        rw [drive_succ]
        show (if (reverse f ctx x fx (j + d)).1.status = .fx then _ else reverse f ctx x fx (j + d)) = _
        rw [if_neg (by rw [ih, hcv]; intro k; cases k), ih]
    obtain ⟨k, k1, k2⟩ := reverse_in_direct f ctx0 ctx a b flags hs x fx maxeval hm prec sqrtEps hprec j
    rw [Nat.add_comm, stay] at k1 k2
    obtain ⟨m, m1, m2, m3⟩ := conv c _ k2 hcv
    have ek : (step f maxeval ctx0.prec)^[m] (after f a b flags maxeval prec sqrtEps k) = after f a b flags maxeval prec sqrtEps (m + k) := by
      unfold after
      rw [hprec, Function.iterate_add_apply]
    rw [ek] at m1 m2 m3
    unfold Returns
    rw [if_neg hab]
    refine ⟨m + k, _, rfl, m1, ?_, by rw [m3, ← k1]⟩
    rw [m2.u, m2.w, m2.fu, m2.fw] at g4
    rw [m2.v] at g1
    rw [m2.fv] at g2
    rw [m2.nevals] at g3
    unfold output
    cases o
    simp only at g1 g2 g3 g4
    rcases g4 with ⟨q, q1, q2, q3, q4⟩ | ⟨q, q1, q2, q3, q4⟩
    · rw [if_pos q]; subst g1 g2 g3 q1 q2 q3 q4; rfl
    · rw [if_neg q]; subst g1 g2 g3 q1 q2 q3 q4; rfl

/-! ## `opk_fmin_get_final` (C37) -/

/-- **C37, negation.** Whatever the state, the interval which is reported has `xmin` as one of its ends, with the value of the function
at `xmin`: the end of the bracket on this side is never reported. -/
theorem final_interval_one_sided (ctx : Ctx F Y) (o : Out F Y) (h : getFinal ctx = (.success, some o)) :
    (o.xlo = o.xmin ∧ o.flo = o.fmin) ∨ (o.xhi = o.xmin ∧ o.fhi = o.fmin) := by
  unfold getFinal at h
  by_cases h1 : ctx.status = .error
  · rw [if_pos h1] at h; cases h
  · rw [if_neg h1] at h
    by_cases h2 : ctx.u > ctx.w
    · rw [if_pos h2] at h; cases h; right; exact ⟨rfl, rfl⟩
    · rw [if_neg h2] at h; cases h; left; exact ⟨rfl, rfl⟩

/-- **C37.** What is right: the point, its value, the number of evaluations and the other end are those of `opk_fmin`. -/
theorem final_point_partial (f : Nat → F → Y) (ctx0 ctx : Ctx F Y) (a b : F) (flags : Nat) (hs : start ctx0 a b flags = (.success, ctx)) (x : F) (fx : Y)
    (maxeval : Int) (hm : maxeval ≤ 0) (prec sqrtEps : F) (hprec : ctx0.prec = if prec < 0 then sqrtEps else prec) (o : Out F Y) (log : List (F × Y))
    (h : Returns f a b flags maxeval prec sqrtEps 0 (some o) log) :
    ∃ j c o', reverse f ctx x fx j = (c, log) ∧ c.status = .convergence ∧ getFinal c = (.success, some o') ∧
      o'.xmin = o.xmin ∧ o'.fmin = o.fmin ∧ o'.nevals = o.nevals ∧ ((o'.xlo = o.xlo ∧ o'.flo = o.flo) ∨ (o'.xhi = o.xhi ∧ o'.fhi = o.fhi)) := by
  obtain ⟨j, c, h1, h2, h3, h4, h5, h6⟩ := (same_result f ctx0 ctx a b flags hs x fx maxeval hm prec sqrtEps hprec o log).1 h
  have hne : c.status ≠ .error := by rw [h2]; intro k; cases k
  unfold getFinal
  rcases h6 with ⟨q, q1, q2, q3, q4⟩ | ⟨q, q1, q2, q3, q4⟩
  · exact ⟨j, c, _, h1, h2, by rw [if_neg hne, if_pos q], h3.symm, h4.symm, h5.symm, Or.inl ⟨q1.symm, q2.symm⟩⟩
  · exact ⟨j, c, _, h1, h2, by rw [if_neg hne, if_neg q], h3.symm, h4.symm, h5.symm, Or.inr ⟨q3.symm, q4.symm⟩⟩

/-- The number of evaluations which is reported is exact. -/
theorem reverse_count (f : Nat → F → Y) (ctx0 ctx : Ctx F Y) (a b : F) (flags : Nat) (hs : start ctx0 a b flags = (.success, ctx)) (x : F) (fx : Y) (d : Nat) :
    (reverse f ctx x fx (initialCalls flags + d)).1.nevals = (reverse f ctx x fx (initialCalls flags + d)).2.length := by
  have hp : ctx0.prec = if ctx0.prec < 0 then ctx0.prec else ctx0.prec := by split_ifs <;> rfl
  obtain ⟨k, k1, k2⟩ := reverse_in_direct f ctx0 ctx a b flags hs x fx 0 le_rfl ctx0.prec ctx0.prec hp d
  have hb := (budget f a b flags 0 ctx0.prec ctx0.prec k).1
  have go : ∀ c : Ctx F Y, (goReduce c).nevals = c.nevals := by
    intro c; unfold goReduce; split_ifs <;> rfl
  rw [k1, ← hb]
  rcases k2 with ⟨-, c, hc, e⟩ | ⟨-, c, hc, e⟩ | ⟨-, hc, -⟩
  · rw [e, ← hc.nevals]
    unfold goBracket
    by_cases hg : Value.gt c.fv c.fw = true
    · rw [if_pos hg]; rfl
    · rw [if_neg hg]; exact go c
  · rw [e, ← hc.nevals]; exact go c
  · exact hc.nevals

/-! ## Continuation (C61) -/

/-- The point of a context which has converged in the second loop is one of the three points. -/
def LastPoint (c : Ctx F Y) : Prop := c.status = .convergence → c.stage = 5 → c.u = c.x ∨ c.v = c.x

theorem goReduce_last (c : Ctx F Y) (h : c.stage = 5 → c.u = c.x ∨ c.v = c.x) : LastPoint (goReduce c) := by
  unfold goReduce LastPoint
  by_cases hc : converged c.prec c.u c.v c.w = true
  · rw [if_pos hc]; intro _ h5; exact h h5
  · rw [if_neg hc]; intro k; cases k

theorem goBracket_last (c : Ctx F Y) (h : c.stage ≠ 5) : LastPoint (goBracket c) := by
  unfold goBracket
  by_cases hg : Value.gt c.fv c.fw = true
  · rw [if_pos hg]; intro k; cases k
  · rw [if_neg hg]; exact goReduce_last c (fun k => absurd k h)

theorem next_last (c : Ctx F Y) (x : F) (fx : Y) : LastPoint (next c x fx) := by
  unfold next
  by_cases h1 : c.status = .fx ∨ c.status = .convergence
  · rw [if_pos h1]
    by_cases h2 : x ≠ c.x
    · rw [if_pos h2]; intro k; cases k
    · rw [if_neg h2]
      have fxs : ∀ c : Ctx F Y, (goV c).status = .fx := fun c => by unfold goV; rfl
      have fxw : ∀ c : Ctx F Y, (goW c).status = .fx := fun c => by
        unfold goW
        split_ifs
        · exact fxs _
        · rfl
      rcases h5 : c.stage with _ | _ | _ | _ | _ | _ | n
      · intro k; cases k
      · intro k; exact absurd (k.symm.trans (fxw _)) (by decide)
      · intro k; exact absurd (k.symm.trans (fxs _)) (by decide)
      · exact goBracket_last _ (by simp)
      · exact goBracket_last _ (by simp)
      · show LastPoint (resume5 _ fx)
        unfold resume5
        apply goReduce_last
        intro _
        simp only
        rcases narrow_cases c.u c.fu c.v c.fv c.w c.fw c.x fx with ⟨-, e⟩ | ⟨-, e⟩ <;> rw [e] <;> simp
      · intro k; cases k
  · rw [if_neg h1]
    by_cases h3 : c.status ≠ .start
    · rw [if_pos h3]; intro k; cases k
    · rw [if_neg h3]
      have fxs : ∀ c : Ctx F Y, (goV c).status = .fx := fun c => by unfold goV; rfl
      have fxw : ∀ c : Ctx F Y, (goW c).status = .fx := fun c => by
        unfold goW
        split_ifs
        · exact fxs _
        · rfl
      intro k
      exfalso
      unfold goU at k
      split_ifs at k
      · rw [fxw] at k; cases k
      · cases k

/-- C36: the precision can be set at any time to any non-negative number, zero included (then the search
only stops when the interval is reduced to a point), and nothing else is modified; a search starts if
and only if the two points differ: the precision is kept, the count of evaluations is zero, and the
context is unchanged otherwise. -/
theorem configure (ctx : Ctx F Y) (prec a b : F) (flags : Nat) :
    ((setPrecision ctx prec).1 = .success ↔ 0 ≤ prec) ∧
    (setPrecision ctx prec).2 = (if 0 ≤ prec then { ctx with prec := prec } else ctx) ∧
    ((start ctx a b flags).1 = .success ↔ a ≠ b) ∧
    (a = b → (start ctx a b flags).2 = ctx) ∧
    (a ≠ b → (start ctx a b flags).2.prec = ctx.prec ∧ (start ctx a b flags).2.nevals = 0 ∧
      (start ctx a b flags).2.a = a ∧ (start ctx a b flags).2.b = b ∧ (start ctx a b flags).2.status = .start) := by
  refine ⟨?_, ?_, ?_, ?_, ?_⟩
  · unfold setPrecision
    by_cases h : prec < 0
    · rw [if_pos h]; simp [h]
    · rw [if_neg h]; simp [not_lt.1 h]
  · unfold setPrecision
    by_cases h : prec < 0
    · rw [if_pos h, if_neg (not_le.2 h)]
    · rw [if_neg h, if_pos (not_lt.1 h)]
  · unfold start
    by_cases h : a = b
    · rw [if_pos h]; simp [h]
    · rw [if_neg h]; simp [h]
  · intro h
    unfold start
    rw [if_pos h]
  · intro h
    unfold start
    rw [if_neg h]
    exact ⟨rfl, rfl, rfl, rfl, rfl⟩

end arith

section exact
variable {K : Type} [Field K] [LinearOrder K] [IsStrictOrderedRing K] [CMath K] [ExactMath K] [Value Y]

/-- **C33.** The reverse communication version never asks for the function at or beyond an exclusive bound. -/
theorem reverse_exclusive_bounds [LawfulValue Y] (f : Nat → K → Y) (ctx0 ctx : Ctx K Y) (a b : K) (flags : Nat)
    (hs : start ctx0 a b flags = (.success, ctx)) (x : K) (fx : Y) (j : Nat) (p : K × Y) (hp : p ∈ (reverse f ctx x fx j).2) :
    (flags &&& BOUNDED_BY_A ≠ 0 → Inside a b p.1) ∧ (flags &&& BOUNDED_BY_B ≠ 0 → Inside b a p.1) := by
  have hab : a ≠ b := by
    intro k
    unfold start at hs
    rw [if_pos k] at hs; cases hs
  obtain ⟨n, hn⟩ := List.mem_iff_getElem?.1 hp
  have he : ctx0.prec = if ctx0.prec < 0 then ctx0.prec else ctx0.prec := by split_ifs <;> rfl
  obtain ⟨k, hk⟩ := (same_evaluations f ctx0 ctx a b flags hs x fx 0 le_rfl ctx0.prec ctx0.prec he n p).1 ⟨j, hn⟩
  exact exclusive_bounds f a b flags 0 ctx0.prec ctx0.prec p ⟨hab, k, List.mem_of_getElem? hk⟩

/-- **C37, negation.** The interval reported after convergence never has points of the bracket on both sides of `xmin`, while the interval
of `opk_fmin` always has. -/
theorem final_interval_wrong [LawfulValue Y] (f : Nat → K → Y) (ctx0 ctx : Ctx K Y) (a b : K) (flags : Nat) (hs : start ctx0 a b flags = (.success, ctx)) (x : K) (fx : Y)
    (maxeval : Int) (hm : maxeval ≤ 0) (prec sqrtEps : K) (hprec : ctx0.prec = if prec < 0 then sqrtEps else prec) (o : Out K Y) (log : List (K × Y))
    (h : Returns f a b flags maxeval prec sqrtEps 0 (some o) log) :
    (o.xlo < o.xmin ∧ o.xmin < o.xhi) ∧
    ∃ j c o', reverse f ctx x fx j = (c, log) ∧ c.status = .convergence ∧ getFinal c = (.success, some o') ∧ ¬ (o'.xlo < o'.xmin ∧ o'.xmin < o'.xhi) := by
  constructor
  · unfold Returns at h
    by_cases hab : a = b
    · rw [if_pos hab] at h; cases h.2.1
    · rw [if_neg hab] at h
      obtain ⟨k, s, hk, h1, h2, rfl⟩ := h
      rw [Option.some.injEq] at h2
      subst h2
      have ho := after_inv Ordered f a b flags maxeval prec sqrtEps (ordered_enter f a b hab flags) (fun s p hs => ordered_step f maxeval p s hs) k
      rw [hk] at ho
      unfold output
      rcases ho with ⟨o1, o2⟩ | ⟨o1, o2⟩
      · rw [if_neg (not_lt.2 (o1.trans o2).le)]; exact ⟨o1, o2⟩
      · rw [if_pos (o1.trans o2)]; exact ⟨o1, o2⟩
  · obtain ⟨j, c, o', h1, h2, h3, -⟩ := final_point_partial f ctx0 ctx a b flags hs x fx maxeval hm prec sqrtEps hprec o log h
    refine ⟨j, c, o', h1, h2, h3, ?_⟩
    rcases final_interval_one_sided c o' h3 with ⟨k, -⟩ | ⟨k, -⟩
    · rw [k]; exact fun q => lt_irrefl _ q.1
    · rw [k]; exact fun q => lt_irrefl _ q.2

/-- **C61, negation.** A comment of the code says that, after convergence, the search can be continued by calling `opk_fmin_next` again (for instance
with another precision).  If the search has converged in the second loop, whatever the value given by the caller: either the call is rejected, or
the last evaluation is taken into account a second time: it is counted, and the middle point is no longer strictly between the two others. -/
theorem continuation_breaks (f : Nat → K → Y) (ctx0 ctx : Ctx K Y) (a b : K) (flags : Nat) (hs : start ctx0 a b flags = (.success, ctx)) (x : K) (fx : Y)
    (d : Nat) (c : Ctx K Y) (log : List (K × Y)) (hr : reverse f ctx x fx (initialCalls flags + d) = (c, log)) (hc : c.status = .convergence) (h5 : c.stage = 5)
    (prec : K) (x' : K) (y : Y) :
    (next { c with prec := prec } x' y).status = .error ∨
    ((next { c with prec := prec } x' y).nevals = (log.length : Int) + 1 ∧
     let c' := next { c with prec := prec } x' y
     ¬ ((c'.u < c'.v ∧ c'.v < c'.w) ∨ (c'.w < c'.v ∧ c'.v < c'.u))) := by
  have hab : a ≠ b := by
    intro k
    unfold start at hs
    rw [if_pos k] at hs; cases hs
  have hcount := reverse_count f ctx0 ctx a b flags hs x fx d
  have he : ctx0.prec = if ctx0.prec < 0 then ctx0.prec else ctx0.prec := by split_ifs <;> rfl
  obtain ⟨k, k1, k2⟩ := reverse_in_direct f ctx0 ctx a b flags hs x fx 0 le_rfl ctx0.prec ctx0.prec he d
  have ho := after_inv Ordered f a b flags 0 ctx0.prec ctx0.prec (ordered_enter f a b hab flags) (fun s p hs => ordered_step f 0 p s hs) k
  have hlast : LastPoint c := by
    have : c = (reverse f ctx x fx (initialCalls flags + d)).1 := by rw [hr]
    rw [this]
    have all : ∀ n, LastPoint (reverse f ctx x fx n).1 := by
      intro n
      induction n with
      | zero => exact next_last ctx x fx
      | succ n ih =>
        rw [reverse_succ]
        by_cases hx : (reverse f ctx x fx n).1.status = .fx
        · rw [if_pos hx]; exact next_last _ _ _
        · rw [if_neg hx]; exact ih
    exact all _
  rw [hr] at k2 hcount
  simp only at k2 hcount
  have hord : (c.u < c.v ∧ c.v < c.w) ∨ (c.w < c.v ∧ c.v < c.u) := by
    have go : ∀ c' : Ctx K Y, (goReduce c').u = c'.u ∧ (goReduce c').v = c'.v ∧ (goReduce c').w = c'.w := by
      intro c'; unfold goReduce; split_ifs <;> exact ⟨rfl, rfl, rfl⟩
    rcases k2 with ⟨-, c', hc', e⟩ | ⟨-, c', hc', e⟩ | ⟨-, hc', -⟩
    · unfold goBracket at e
      by_cases hg : Value.gt c'.fv c'.fw = true
      · rw [if_pos hg] at e; rw [e] at hc; cases hc
      · rw [if_neg hg] at e
        rw [e, (go c').1, (go c').2.1, (go c').2.2, hc'.u, hc'.v, hc'.w]; exact ho
    · rw [e, (go c').1, (go c').2.1, (go c').2.2, hc'.u, hc'.v, hc'.w]; exact ho
    · rw [hc'.u, hc'.v, hc'.w]; exact ho
  have hl := hlast hc h5
  unfold next
  simp only [hc, or_true, if_true, h5]
  by_cases hx : x' = c.x
  · right
    rw [if_neg (not_not.2 hx)]
    have go : ∀ c' : Ctx K Y, (goReduce c').u = c'.u ∧ (goReduce c').v = c'.v ∧ (goReduce c').w = c'.w ∧ (goReduce c').nevals = c'.nevals := by
      intro c'; unfold goReduce; split_ifs <;> exact ⟨rfl, rfl, rfl, rfl⟩
    unfold resume5
    simp only
    rw [(go _).1, (go _).2.1, (go _).2.2.1, (go _).2.2.2]
    refine ⟨by simp only; rw [hcount], ?_⟩
    simp only
    rcases narrow_cases c.u c.fu c.v c.fv c.w c.fw c.x y with ⟨-, e⟩ | ⟨-, e⟩ <;> rw [e] <;> simp only
    · rcases hl with hl | hl
      · rw [← hl]
        rintro (k | k)
        · exact lt_asymm k.1 k.2
        · exact lt_asymm k.1 k.2
      · rw [← hl]
        rintro (k | k)
        · exact lt_irrefl _ k.1
        · exact lt_irrefl _ k.2
    · rcases hl with hl | hl
      · rw [← hl]
        rintro (k | k) <;> rcases hord with q | q
        · exact lt_asymm k.1 q.1
        · exact lt_asymm k.2 (q.1.trans q.2)
        · exact lt_asymm k.1 (q.1.trans q.2)
        · exact lt_asymm k.2 q.2
      · rw [← hl]
        rintro (k | k)
        · exact lt_irrefl _ k.1
        · exact lt_irrefl _ k.2
  · left
    rw [if_pos hx]

end exact
end Opk.Fmin
