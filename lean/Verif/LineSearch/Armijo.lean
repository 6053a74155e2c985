import Verif.LineSearch.Generic
import Verif.Arith.Exact
import Mathlib.Algebra.Order.Field.Basic
import Mathlib.Algebra.Order.Archimedean.Basic
import Mathlib.Analysis.Calculus.Deriv.Basic
import Mathlib.Tactic.Linarith
import Mathlib.Tactic.FieldSimp
import Mathlib.Tactic.NormNum
import Mathlib.Tactic.Ring
/-! # C16, C17, C18, C21, C53, C55: line searches based on function values -/
set_option linter.unusedSectionVars false
namespace Opk.LineSearch

section any
variable {F : Type} [Add F] [Sub F] [Mul F] [Div F] [Neg F] [One F] [Zero F] [LinearOrder F] [CMath F]

theorem le_cmax_right (a b : F) : b ≤ cmax a b := by unfold cmax; split <;> order
theorem le_cmax_left (a b : F) : a ≤ cmax a b := by unfold cmax; split <;> order
theorem cmax_le {a b c : F} (h : a ≤ c) (h' : b ≤ c) : cmax a b ≤ c := by
  unfold cmax; split <;> order

theorem backtrack_method : Method (backtrackOps : Ops F (Backtrack F)) := by
  constructor
  · intro ls; exact ⟨rfl, rfl, rfl, rfl, rfl, rfl, rfl⟩
  · intro ls stp f g
    simp only [backtrackOps, backtrackIterate]
    split
    · exact ⟨rfl, rfl, rfl, rfl⟩
    · split <;> exact ⟨rfl, rfl, rfl, rfl⟩

theorem nonmonotone_method : Method (nonmonotoneOps : Ops F (Nonmonotone F)) := by
  constructor
  · intro ls; exact ⟨rfl, rfl, rfl, rfl, rfl, rfl, rfl⟩
  · intro ls stp f g
    simp only [nonmonotoneOps, nonmonotoneIterate]
    split
    · exact ⟨rfl, rfl, rfl, rfl⟩
    · split
      · exact ⟨rfl, rfl, rfl, rfl⟩
      · split <;> exact ⟨rfl, rfl, rfl, rfl⟩

theorem csrch_method : Method (csrchOps : Ops F (Csrch F)) := by
  constructor
  · intro ls; exact ⟨rfl, rfl, rfl, rfl, rfl, rfl, rfl⟩
  · intro ls stp f g
    simp only [csrchOps, csrchIterate]
    split
    · exact ⟨rfl, rfl, rfl, rfl⟩
    split
    · exact ⟨rfl, rfl, rfl, rfl⟩
    split
    · exact ⟨rfl, rfl, rfl, rfl⟩
    split
    · exact ⟨rfl, rfl, rfl, rfl⟩
    split
    · exact ⟨rfl, rfl, rfl, rfl⟩
    split <;> split <;> exact ⟨rfl, rfl, rfl, rfl⟩

/-! ## C15: the last step -/

theorem backtrack_keeps (ls : Ls F (Backtrack F)) (f g : F) : KeepsStep backtrackOps ls f g := by
  unfold KeepsStep
  simp only [backtrackOps, backtrackIterate]
  split
  · intro _; rfl
  · split
    · intro _; rfl
    · intro h; exact absurd rfl h

theorem csrch_keeps (ls : Ls F (Csrch F)) (f g : F) : KeepsStep csrchOps ls f g := by
  unfold KeepsStep
  simp only [csrchOps, csrchIterate]
  split
  · intro _; rfl
  split
  · intro _; rfl
  split
  · intro _; rfl
  split
  · intro _; rfl
  split
  · intro _; rfl
  split <;> split
  · intro _; rfl
  · intro h; exact absurd rfl h
  · intro _; rfl
  · intro h; exact absurd rfl h

theorem nonmonotone_keeps (ls : Ls F (Nonmonotone F)) (f g : F) (hb : ls.stpmin ≤ ls.stp) :
    KeepsStep nonmonotoneOps ls f g ∨
      ((nonmonotoneOps.iterate ls ls.stp f g).2 ≤ 0 ∧
       (nonmonotoneOps.iterate ls ls.stp f g).1.task = .warning ∧
       (nonmonotoneOps.iterate ls ls.stp f g).1.status = .stepEqStpmin) := by
  unfold KeepsStep
  simp only [nonmonotoneOps, nonmonotoneIterate]
  split
  · left; intro _; rfl
  split
  · left; intro _; order
  split
  · right; exact ⟨by assumption, rfl, rfl⟩
  · left; intro h; exact absurd rfl h

/-- **C15 (last step, for the methods of the library).** After any history of calls, when an
iteration stops the search, with convergence, a warning or an error, the step is the one for
which the function was just evaluated, for any arithmetic; for the nonmonotone search unless the
new step is so small that it has been rounded to zero. -/
theorem stop_at_current_step_all (hist : List (Call F)) (f g : F) :
    (∀ raw : Ls F (Backtrack F), ∀ ls, ls = calls backtrackOps (allocated raw) hist →
      ls.task = .search → (iterate backtrackOps ls ls.stp f g).1.task ≠ .search →
      (iterate backtrackOps ls ls.stp f g).2 = ls.stp) ∧
    (∀ raw : Ls F (Csrch F), ∀ ls, ls = calls csrchOps (allocated raw) hist →
      ls.task = .search → (iterate csrchOps ls ls.stp f g).1.task ≠ .search →
      (iterate csrchOps ls ls.stp f g).2 = ls.stp) ∧
    (∀ raw : Ls F (Nonmonotone F), ∀ ls, ls = calls nonmonotoneOps (allocated raw) hist →
      ls.task = .search → (iterate nonmonotoneOps ls ls.stp f g).1.task ≠ .search →
      (iterate nonmonotoneOps ls ls.stp f g).2 = ls.stp ∨
      (iterate nonmonotoneOps ls ls.stp f g).2 ≤ 0 ∧
        (iterate nonmonotoneOps ls ls.stp f g).1.task = .warning) := by
  refine ⟨fun raw ls e ht hs => ?_, fun raw ls e ht hs => ?_, fun raw ls e ht hs => ?_⟩
  · obtain ⟨a, _, hv, hc⟩ := steps_in_bounds backtrackOps backtrack_method raw hist
      (by rw [← e, ht]; simp)
    rw [← e] at hc
    exact (stop_at_current_step _ backtrack_method ls f g (backtrack_keeps ls f g)
      ⟨by rw [hc.2.2.1]; exact hc.2.2.2.2.1, by rw [hc.2.2.2.1]; exact hc.2.2.2.2.2⟩ hs).1
  · obtain ⟨a, _, hv, hc⟩ := steps_in_bounds csrchOps csrch_method raw hist
      (by rw [← e, ht]; simp)
    rw [← e] at hc
    exact (stop_at_current_step _ csrch_method ls f g (csrch_keeps ls f g)
      ⟨by rw [hc.2.2.1]; exact hc.2.2.2.2.1, by rw [hc.2.2.2.1]; exact hc.2.2.2.2.2⟩ hs).1
  · obtain ⟨a, _, hv, hc⟩ := steps_in_bounds nonmonotoneOps nonmonotone_method raw hist
      (by rw [← e, ht]; simp)
    rw [← e] at hc
    have hb : ls.stpmin ≤ ls.stp ∧ ls.stp ≤ ls.stpmax :=
      ⟨by rw [hc.2.2.1]; exact hc.2.2.2.2.1, by rw [hc.2.2.2.1]; exact hc.2.2.2.2.2⟩
    rcases nonmonotone_keeps ls f g hb.1 with hk | ⟨h0, h1, _⟩
    · left; exact (stop_at_current_step _ nonmonotone_method ls f g hk hb hs).1
    · right
      obtain ⟨k1, k2, _, _⟩ := nonmonotone_method.iterate ls ls.stp f g
      rw [iterate_eq _ ls f g ht]
      have h00 : (0 : F) ≤ ls.stpmin := by rw [hc.2.2.1]; exact hv.1
      have ft := finish_task (boundOf ls) (nonmonotoneOps.iterate ls ls.stp f g).1
        (nonmonotoneOps.iterate ls ls.stp f g).2
      have ht' : (finish (boundOf ls) (nonmonotoneOps.iterate ls ls.stp f g).1
        (nonmonotoneOps.iterate ls ls.stp f g).2).1.task = .warning := by
        rcases ft with ⟨q, _⟩ | ⟨q, _⟩
        · rw [q, h1]
        · exact q
      refine ⟨?_, ht'⟩
      have hle : (nonmonotoneOps.iterate ls ls.stp f g).2 ≤
          (nonmonotoneOps.iterate ls ls.stp f g).1.stpmin := by rw [k1]; order
      have hge : (nonmonotoneOps.iterate ls ls.stp f g).2 = ls.stpmin := by
        apply le_antisymm (by rw [k1] at hle; exact hle)
        revert h0
        simp only [nonmonotoneOps, nonmonotoneIterate]
        have hm : ls.stpmin ≤ nonmonotoneTrial ls ls.stp f := by
          unfold nonmonotoneTrial; exact le_cmax_right _ _
        split
        · intro _; exact hb.1
        split
        · intro _; exact le_refl _
        split
        · intro _; exact hm
        · intro _; exact hm
      have : (finish (boundOf ls) (nonmonotoneOps.iterate ls ls.stp f g).1
        (nonmonotoneOps.iterate ls ls.stp f g).2).2 = ls.stpmin := by
        unfold finish
        rw [if_pos hle]
        exact k1
      rw [this, ← hge]; exact h0

/-! ## C16: sufficient decrease -/

theorem converged_iterate {M : Type} {ops : Ops F M} {ls : Ls F M} {stp f g : F}
    (h : (iterate ops ls stp f g).1.task = .convergence) :
    ls.task = .search ∧ stp = ls.stp ∧ (ops.iterate ls stp f g).1.task = .convergence := by
  by_cases h1 : ls.task = .search
  · by_cases h2 : stp = ls.stp
    · subst h2
      refine ⟨h1, rfl, ?_⟩
      rw [iterate_eq ops ls f g h1] at h
      rcases finish_task (boundOf ls) (ops.iterate ls ls.stp f g).1 (ops.iterate ls ls.stp f g).2 with
        ⟨q, _⟩ | ⟨q, _⟩
      · rw [← q]; exact h
      · rw [q] at h; cases h
    · rw [(iterate_changed ops ls stp f g h1 h2).1] at h; cases h
  · rw [(iterate_stopped ops ls stp f g h1).1] at h; cases h

/-- The members of the sub-type only change as told by `P` (a preserved property). -/
theorem calls_member {M : Type} (ops : Ops F M) (P : M → Prop)
    (hs : ∀ ls, P ls.m → P (ops.start ls).m)
    (hi : ∀ ls stp f g, P ls.m → P (ops.iterate ls stp f g).1.m) (hist : List (Call F)) :
    ∀ ls : Ls F M, P ls.m → P (calls ops ls hist).m := by
  induction hist with
  | nil => exact fun _ h => h
  | cons c cs ih =>
    intro ls h
    refine ih _ ?_
    cases c with
    | start a =>
      simp only [call, start]
      split_ifs
      all_goals first | exact h | exact hs _ h
    | iterate stp f g =>
      simp only [call, iterate]
      split_ifs
      · exact h
      · exact h
      · rw [(finish_data _ _ _).2.2.2.2.1]; exact hi _ _ _ _ h

theorem backtrack_member (hist : List (Call F)) (ls : Ls F (Backtrack F)) :
    (calls backtrackOps ls hist).m = ls.m := by
  apply calls_member backtrackOps (fun m => m = ls.m)
  · exact fun _ h => h
  · intro l stp f g h
    simp only [backtrackOps, backtrackIterate]
    split
    · exact h
    · split <;> exact h
  · rfl

/-- The exact condition for convergence to be reported. -/
theorem converged_iff {M : Type} (ops : Ops F M) (ok : Method ops) (ls : Ls F M) (f g : F)
    (ht : ls.task = .search)
    (hk : KeepsStep ops ls f g) :
    (iterate ops ls ls.stp f g).1.task = .convergence ↔
      (ops.iterate ls ls.stp f g).1.task = .convergence ∧ ls.stpmin < ls.stp ∧ ls.stp < ls.stpmax := by
  obtain ⟨k1, k2, _, _⟩ := ok.iterate ls ls.stp f g
  constructor
  · intro h
    obtain ⟨_, _, h3⟩ := converged_iterate h
    have e : (ops.iterate ls ls.stp f g).2 = ls.stp := hk (by rw [h3]; simp)
    rw [iterate_eq ops ls f g ht, e] at h
    refine ⟨h3, ?_, ?_⟩
    · by_contra hn
      have hle : ls.stp ≤ ls.stpmin := not_lt.mp hn
      unfold finish boundOf at h
      rw [if_pos (by rw [k1]; exact hle), if_pos hle] at h
      simp [warn] at h
    · by_contra hn
      have hle : ls.stpmax ≤ ls.stp := not_lt.mp hn
      unfold finish boundOf at h
      by_cases hm : ls.stp ≤ ls.stpmin
      · rw [if_pos (by rw [k1]; exact hm), if_pos hm] at h
        simp [warn] at h
      · rw [if_neg (by rw [k1]; exact hm), if_neg hm, if_pos (by rw [k2]; exact hle),
          if_pos (show ls.stp ≥ ls.stpmax from hle)] at h
        simp [warn] at h
  · rintro ⟨h, h1, h2⟩
    have e : (ops.iterate ls ls.stp f g).2 = ls.stp := hk (by rw [h]; simp)
    rw [iterate_eq ops ls f g ht, e]
    unfold finish
    rw [if_neg (by rw [k1]; exact not_le.mpr h1), if_neg (by rw [k2]; exact not_le.mpr h2)]
    exact h

theorem finish_inside {M : Type} (b : Int) (l : Ls F M) (s : F) (hb : ¬ b < 0) (h1 : l.stpmin ≤ s)
    (h2 : s < l.stpmax) : finish b l s = ({ l with stp := s }, s) := by
  unfold finish
  by_cases h3 : s ≤ l.stpmin
  · have e : s = l.stpmin := le_antisymm h3 h1
    rw [if_pos h3, if_neg hb, e]
  · rw [if_neg h3, if_neg (not_le.mpr h2)]

theorem boundOf_nonneg {M : Type} (ls : Ls F M) (h : ls.stpmin < ls.stp) : ¬ boundOf ls < 0 := by
  unfold boundOf
  rw [if_neg (not_le.mpr h)]
  split <;> decide

/-- A history of calls on a backtracking line search. -/
theorem backtrack_history (raw : Ls F Unit) (ftol amin : F) (ls0 : Ls F (Backtrack F))
    (h0 : newBacktrack raw ftol amin = some ls0) (hist : List (Call F))
    (ht : (calls backtrackOps ls0 hist).task ≠ .error) :
    (calls backtrackOps ls0 hist).m = ⟨ftol, amin⟩ ∧
    ∃ a, lastStart none hist = some a ∧ a.Valid ∧ Conforms (calls backtrackOps ls0 hist) a := by
  unfold newBacktrack at h0
  split at h0
  · cases h0
  · cases h0
    exact ⟨backtrack_member hist _, steps_in_bounds backtrackOps backtrack_method
      { raw with m := ⟨ftol, amin⟩ } hist ht⟩

/-- **C16 (convergence).** After any history of calls on a backtracking line search which left
it searching, an iteration reports convergence exactly if the function value given satisfies the
sufficient decrease condition, for the current step and the function value and derivative
of the last start, and the step is not at one of its bounds; for any arithmetic.  (The condition
on the bounds is the defect of C21.) -/
theorem backtrack_sufficient_decrease (raw : Ls F Unit) (ftol amin : F) (ls0 : Ls F (Backtrack F))
    (h0 : newBacktrack raw ftol amin = some ls0) (hist : List (Call F)) (stp f g : F)
    (ht : (calls backtrackOps ls0 hist).task = .search)
    (hs : stp = (calls backtrackOps ls0 hist).stp) :
    ∃ a, lastStart none hist = some a ∧ a.Valid ∧ a.stpmin ≤ stp ∧ stp ≤ a.stpmax ∧
      ((calls backtrackOps ls0 (hist ++ [.iterate stp f g])).task = .convergence ↔
        f ≤ a.f0 + ftol * stp * a.g0 ∧ a.stpmin < stp ∧ stp < a.stpmax) := by
  obtain ⟨hm, a, e, hv, c1, c2, c3, c4, c5, c6⟩ :=
    backtrack_history raw ftol amin ls0 h0 hist (by rw [ht]; simp)
  refine ⟨a, e, hv, by rw [hs]; exact c5, by rw [hs]; exact c6, ?_⟩
  rw [calls_append]
  simp only [calls, call]
  generalize calls backtrackOps ls0 hist = ls at *
  subst hs
  rw [converged_iff _ backtrack_method ls f g ht (backtrack_keeps ls f g), c3, c4]
  simp only [backtrackOps, backtrackIterate, hm, c1, c2]
  constructor
  · rintro ⟨h, h'⟩
    refine ⟨?_, h'⟩
    by_contra hn
    rw [if_neg hn] at h
    split at h <;> simp [succeed, warn] at h
  · rintro ⟨h, h'⟩
    refine ⟨?_, h'⟩
    rw [if_pos h]
    rfl

/-- Convergence is never reported for a search which was not in progress, nor for another step. -/
theorem converged_in_progress {M : Type} (ops : Ops F M) (ls : Ls F M) (hist : List (Call F))
    (stp f g : F) (h : (calls ops ls (hist ++ [.iterate stp f g])).task = .convergence) :
    (calls ops ls hist).task = .search ∧ stp = (calls ops ls hist).stp := by
  rw [calls_append] at h
  exact ⟨(converged_iterate h).1, (converged_iterate h).2.1⟩

end any

/-! ## Exact arithmetic -/

section exact
variable {K : Type} [Field K] [LinearOrder K] [IsStrictOrderedRing K] [CMath K] [ExactMath K]

theorem lit_half : (lit 1 2 : K) = 1 / 2 := by rw [ExactMath.lit_eq]; norm_num
theorem lit_two : (lit 2 1 : K) = 2 := by rw [ExactMath.lit_eq]; norm_num

theorem backtrack_trial (ls : Ls K (Backtrack K)) (f : K) (hf : 0 < ls.m.ftol) (hf' : ls.m.ftol ≤ 1 / 2)
    (ha : 0 < ls.m.amin) (hg : ls.ginit < 0) (h0 : 0 ≤ ls.stpmin) (hs : ls.stpmin < ls.stp)
    (hn : ¬ f ≤ ls.finit + ls.m.ftol * ls.stp * ls.ginit) :
    ls.stpmin ≤ backtrackTrial ls ls.stp f ∧ 0 < backtrackTrial ls ls.stp f ∧
    backtrackTrial ls ls.stp f < ls.stp ∧
    (backtrackTrial ls ls.stp f = ls.stpmin ∨
      backtrackTrial ls ls.stp f ≤ ls.stp * (1 / (2 * (1 - ls.m.ftol)))) := by
  have hp : 0 < ls.stp := lt_of_le_of_lt h0 hs
  have hd : 0 < 2 * (1 - ls.m.ftol) := by linarith
  have hc1 : 1 / (2 * (1 - ls.m.ftol)) ≤ 1 := by rw [div_le_one hd]; linarith
  have hch : 1 / 2 ≤ 1 / (2 * (1 - ls.m.ftol)) := by
    apply one_div_le_one_div_of_le hd; linarith
  have hq : 0 < -ls.stp * ls.ginit := by nlinarith
  -- the new step before the last safeguard
  suffices h : ∀ s, s = (if ls.m.amin ≥ lit 1 2 then ls.stp * lit 1 2
      else if (f - (ls.finit - -ls.stp * ls.ginit)) * lit 2 1 ≤ 0 then ls.stp * lit 1 2
      else if -ls.stp * ls.ginit ≤ ls.m.amin * ((f - (ls.finit - -ls.stp * ls.ginit)) * lit 2 1) then
        ls.stp * ls.m.amin
      else ls.stp * (-ls.stp * ls.ginit / ((f - (ls.finit - -ls.stp * ls.ginit)) * lit 2 1))) →
      0 < s ∧ s < ls.stp ∧ s ≤ ls.stp * (1 / (2 * (1 - ls.m.ftol))) by
    obtain ⟨S, hS⟩ : ∃ S, S = _ := ⟨_, rfl⟩
    obtain ⟨s1, s2, s3⟩ := h S hS
    have e : backtrackTrial ls ls.stp f = if S < ls.stpmin then ls.stpmin else S := by
      rw [hS]; rfl
    rw [e]
    split
    · rename_i hlt
      exact ⟨le_refl _, lt_trans s1 hlt, hs, Or.inl rfl⟩
    · rename_i hlt
      exact ⟨not_lt.mp hlt, s1, s2, Or.inr s3⟩
  intro s es
  rw [lit_half, lit_two] at es
  generalize hr : (f - (ls.finit - -ls.stp * ls.ginit)) * 2 = r at es
  generalize hqe : -ls.stp * ls.ginit = q at *
  generalize hce : 1 / (2 * (1 - ls.m.ftol)) = c at *
  have hrq : q * (2 * (1 - ls.m.ftol)) < r := by
    have : ls.finit - ls.m.ftol * q < f := by
      have := not_le.mp hn
      have e : ls.m.ftol * ls.stp * ls.ginit = - (ls.m.ftol * q) := by rw [← hqe]; ring
      rw [e] at this; linarith
    rw [← hr]; nlinarith
  have hr0 : 0 < r := lt_trans (mul_pos hq hd) hrq
  have hstrict : ls.stp * (1 / 2) < ls.stp := by linarith
  split at es
  · subst es; exact ⟨by linarith, hstrict, mul_le_mul_of_nonneg_left hch hp.le⟩
  · rename_i hal
    have hal : ls.m.amin < 1 / 2 := not_le.mp hal
    split at es
    · linarith
    · split at es
      · subst es
        exact ⟨mul_pos hp ha, by nlinarith, mul_le_mul_of_nonneg_left (by linarith) hp.le⟩
      · subst es
        have hqr : q / r < c := by
          rw [div_lt_iff₀ hr0, ← hce, one_div, inv_mul_eq_div, lt_div_iff₀ hd]
          exact hrq
        have hqr0 : 0 < q / r := div_pos hq hr0
        refine ⟨mul_pos hp hqr0, ?_, mul_le_mul_of_nonneg_left hqr.le hp.le⟩
        have : ls.stp * (q / r) < ls.stp * c := mul_lt_mul_of_pos_left hqr hp
        nlinarith

/-- What an iteration of a backtracking line search in progress does, in exact arithmetic. -/
theorem backtrack_step (ls : Ls K (Backtrack K)) (f g : K) (hf : 0 < ls.m.ftol)
    (hf' : ls.m.ftol ≤ 1 / 2) (ha : 0 < ls.m.amin) (hg : ls.ginit < 0) (h0 : 0 ≤ ls.stpmin)
    (hb : ls.stpmin ≤ ls.stp ∧ ls.stp ≤ ls.stpmax) (ht : ls.task = .search) :
    ((iterate backtrackOps ls ls.stp f g).1.task = .search ↔
      ¬ f ≤ ls.finit + ls.m.ftol * ls.stp * ls.ginit ∧ ls.stpmin < ls.stp) ∧
    ((iterate backtrackOps ls ls.stp f g).1.task = .search →
      (iterate backtrackOps ls ls.stp f g).1.stp = backtrackTrial ls ls.stp f) ∧
    ((iterate backtrackOps ls ls.stp f g).1.task ≠ .search →
      (iterate backtrackOps ls ls.stp f g).1.stp = ls.stp) := by
  have stop := fun h => (stop_at_current_step _ backtrack_method ls f g (backtrack_keeps ls f g) hb h).2
  by_cases h1 : f ≤ ls.finit + ls.m.ftol * ls.stp * ls.ginit
  · have e : (iterate backtrackOps ls ls.stp f g).1.task ≠ .search := by
      rw [iterate_eq _ _ _ _ ht]
      rcases finish_task (boundOf ls) (backtrackOps.iterate ls ls.stp f g).1
        (backtrackOps.iterate ls ls.stp f g).2 with ⟨q, _⟩ | ⟨q, _⟩
      · rw [q]; simp only [backtrackOps, backtrackIterate]; rw [if_pos h1]; simp [succeed]
      · rw [q]; simp
    exact ⟨⟨fun h => absurd h e, fun h => absurd h1 h.1⟩, fun h => absurd h e, stop⟩
  · by_cases h2 : ls.stp ≤ ls.stpmin
    · have e : (iterate backtrackOps ls ls.stp f g).1.task ≠ .search := by
        rw [iterate_eq _ _ _ _ ht]
        rcases finish_task (boundOf ls) (backtrackOps.iterate ls ls.stp f g).1
          (backtrackOps.iterate ls ls.stp f g).2 with ⟨q, _⟩ | ⟨q, _⟩
        · rw [q]; simp only [backtrackOps, backtrackIterate]; rw [if_neg h1, if_pos h2]; simp [warn]
        · rw [q]; simp
      exact ⟨⟨fun h => absurd h e, fun h => absurd h2 (not_le.mpr h.2)⟩, fun h => absurd h e, stop⟩
    · obtain ⟨t1, t2, t3, _⟩ := backtrack_trial ls f hf hf' ha hg h0 (not_le.mp h2) h1
      have e : iterate backtrackOps ls ls.stp f g =
          ({ succeed ls .search with stp := backtrackTrial ls ls.stp f },
            backtrackTrial ls ls.stp f) := by
        rw [iterate_eq _ _ _ _ ht]
        have : backtrackOps.iterate ls ls.stp f g =
            (succeed ls .search, backtrackTrial ls ls.stp f) := by
          simp only [backtrackOps, backtrackIterate]
          rw [if_neg h1, if_neg h2]
        rw [this]
        exact finish_inside _ _ _ (boundOf_nonneg ls (not_le.mp h2)) t1 (lt_of_lt_of_le t3 hb.2)
      rw [e]
      exact ⟨⟨fun _ => ⟨h1, not_le.mp h2⟩, fun _ => rfl⟩, fun _ => rfl, fun h => absurd rfl h⟩

/-- Parameters accepted by the constructor. -/
theorem newBacktrack_params (raw : Ls K Unit) (ftol amin : K) (ls0 : Ls K (Backtrack K))
    (h0 : newBacktrack raw ftol amin = some ls0) : 0 < ftol ∧ ftol ≤ 1 / 2 ∧ 0 < amin ∧ amin < 1 := by
  unfold newBacktrack at h0
  split at h0
  · cases h0
  · rename_i h
    simp only [not_or, lit_half] at h
    exact ⟨not_le.mp h.1, not_lt.mp h.2.1, not_le.mp h.2.2.1, not_le.mp h.2.2.2⟩

/-- **C16 (decreasing steps).** After any history of calls on a backtracking line search, while an
iteration asks to continue, the next step is strictly smaller than the current one and strictly
positive, in exact arithmetic. -/
theorem backtrack_steps_decrease (raw : Ls K Unit) (ftol amin : K) (ls0 : Ls K (Backtrack K))
    (h0 : newBacktrack raw ftol amin = some ls0) (hist : List (Call K)) (stp f g : K)
    (hc : (iterate backtrackOps (calls backtrackOps ls0 hist) stp f g).1.task = .search) :
    0 < (iterate backtrackOps (calls backtrackOps ls0 hist) stp f g).2 ∧
    (iterate backtrackOps (calls backtrackOps ls0 hist) stp f g).2 < stp := by
  obtain ⟨p1, p2, p3, p4⟩ := newBacktrack_params raw ftol amin ls0 h0
  have ht : (calls backtrackOps ls0 hist).task = .search := by
    by_contra h
    rw [(iterate_stopped _ _ stp f g h).1] at hc; cases hc
  have hs : stp = (calls backtrackOps ls0 hist).stp := by
    by_contra h
    rw [(iterate_changed _ _ stp f g ht h).1] at hc; cases hc
  obtain ⟨hm, a, _, hv, c1, c2, c3, c4, c5, c6⟩ :=
    backtrack_history raw ftol amin ls0 h0 hist (by rw [ht]; simp)
  generalize calls backtrackOps ls0 hist = ls at *
  subst hs
  have hmf : ls.m.ftol = ftol := by rw [hm]
  have hma : ls.m.amin = amin := by rw [hm]
  have hb : ls.stpmin ≤ ls.stp ∧ ls.stp ≤ ls.stpmax := ⟨by rw [c3]; exact c5, by rw [c4]; exact c6⟩
  have hsp : 0 ≤ ls.stpmin := by rw [c3]; exact hv.1
  have hg : ls.ginit < 0 := by rw [c2]; exact hv.2.2.2.2
  rw [← hmf] at p1 p2
  rw [← hma] at p3
  obtain ⟨q1, q2, _⟩ := backtrack_step ls f g p1 p2 p3 hg hsp hb ht
  obtain ⟨n1, n2⟩ := q1.mp hc
  obtain ⟨_, t2, t3, _⟩ := backtrack_trial ls f p1 p2 p3 hg hsp n2 n1
  rw [(iterate_step _ backtrack_method ls f g ht (le_trans hb.1 hb.2)).2.2, q2 hc]
  exact ⟨t2, t3⟩

end exact
end Opk.LineSearch
