import Verif.LineSearch.Model
import Mathlib.Order.Defs.LinearOrder
import Mathlib.Tactic.Order
/-! # C14, C15: protocol common to all line searches -/
set_option linter.unusedSectionVars false
namespace Opk.LineSearch

section
variable {F M : Type} [Neg F] [One F] [Zero F] [LinearOrder F]

/-! ## Specification -/

/-- The arguments accepted by `opk_lnsrch_start`. -/
def Args.Valid (a : Args F) : Prop :=
  0 ≤ a.stpmin ∧ a.stpmin ≤ a.stpmax ∧ a.stpmin ≤ a.stp ∧ a.stp ≤ a.stpmax ∧ a.g0 < 0

/-- The arguments of the last call to `opk_lnsrch_start`. -/
def lastStart : Option (Args F) → List (Call F) → Option (Args F)
  | a, [] => a
  | _, .start a :: l => lastStart (some a) l
  | a, .iterate _ _ _ :: l => lastStart a l

/-- The data of the search are those given at the start and the step is within the bounds. -/
def Conforms (ls : Ls F M) (a : Args F) : Prop :=
  ls.finit = a.f0 ∧ ls.ginit = a.g0 ∧ ls.stpmin = a.stpmin ∧ ls.stpmax = a.stpmax ∧
    a.stpmin ≤ ls.stp ∧ ls.stp ≤ a.stpmax

/-- What is asked to a line search method: starting does not change the data of the search and
the task is then to search; iterating does not change the data of the search. -/
structure Method (ops : Ops F M) : Prop where
  start : ∀ ls, (ops.start ls).stp = ls.stp ∧ (ops.start ls).stpmin = ls.stpmin ∧
    (ops.start ls).stpmax = ls.stpmax ∧ (ops.start ls).finit = ls.finit ∧
    (ops.start ls).ginit = ls.ginit ∧ (ops.start ls).task = .search ∧
    (ops.start ls).status = .success
  iterate : ∀ ls stp f g, (ops.iterate ls stp f g).1.stpmin = ls.stpmin ∧
    (ops.iterate ls stp f g).1.stpmax = ls.stpmax ∧
    (ops.iterate ls stp f g).1.finit = ls.finit ∧ (ops.iterate ls stp f g).1.ginit = ls.ginit

/-! ## C14 -/

/-- **C14.** Starting succeeds exactly for valid arguments, and these are then the data of the
search; otherwise the task is an error and the status tells the first violated condition. -/
theorem start_checks (ops : Ops F M) (ok : Method ops) (ls : Ls F M) (a : Args F) :
    let r := start ops ls a.f0 a.g0 a.stp a.stpmin a.stpmax
    (r.task = .search ↔ a.Valid) ∧
    (a.Valid → r.stp = a.stp ∧ Conforms r a ∧ r.status = .success) ∧
    (¬ a.Valid → r.task = .error) ∧
    (a.stpmin < 0 → r.status = .stpminLtZero) ∧
    (0 ≤ a.stpmin → a.stpmax < a.stpmin → r.status = .stpminGtStpmax) ∧
    (0 ≤ a.stpmin → a.stpmin ≤ a.stpmax → a.stp < a.stpmin → r.status = .stepLtStpmin) ∧
    (0 ≤ a.stpmin → a.stpmin ≤ a.stp → a.stpmin ≤ a.stpmax → a.stpmax < a.stp →
      r.status = .stepGtStpmax) ∧
    (0 ≤ a.stpmin → a.stpmin ≤ a.stp → a.stp ≤ a.stpmax → 0 ≤ a.g0 → r.status = .notADescent) := by
  intro r
  have hr : r = start ops ls a.f0 a.g0 a.stp a.stpmin a.stpmax := rfl
  clear_value r
  unfold start at hr
  unfold Args.Valid Conforms
  split_ifs at hr with h1 h2 h3 h4 h5
  all_goals subst hr
  · simp only [failure]
    refine ⟨?_, ?_, ?_, ?_, ?_, ?_, ?_, ?_⟩ <;> simp <;> (intros; order)
  · simp only [failure]
    refine ⟨?_, ?_, ?_, ?_, ?_, ?_, ?_, ?_⟩ <;> simp <;> (intros; order)
  · simp only [failure]
    refine ⟨?_, ?_, ?_, ?_, ?_, ?_, ?_, ?_⟩ <;> simp <;> (intros; order)
  · simp only [failure]
    refine ⟨?_, ?_, ?_, ?_, ?_, ?_, ?_, ?_⟩ <;> simp <;> (intros; order)
  · simp only [failure]
    refine ⟨?_, ?_, ?_, ?_, ?_, ?_, ?_, ?_⟩ <;> simp <;> (intros; order)
  · obtain ⟨k1, k2, k3, k4, k5, k6, k7⟩ := ok.start { ls with
      stp := a.stp, stpmin := a.stpmin, stpmax := a.stpmax, finit := a.f0, ginit := a.g0 }
    have hv : 0 ≤ a.stpmin ∧ a.stpmin ≤ a.stpmax ∧ a.stpmin ≤ a.stp ∧ a.stp ≤ a.stpmax ∧ a.g0 < 0 := by
      refine ⟨?_, ?_, ?_, ?_, ?_⟩ <;> order
    refine ⟨⟨fun _ => hv, fun _ => k6⟩, fun _ => ⟨k1, ⟨k4, k5, k2, k3, ?_, ?_⟩, k7⟩, fun h => absurd hv h,
      ?_, ?_, ?_, ?_, ?_⟩
    · rw [k1]; exact hv.2.2.1
    · rw [k1]; exact hv.2.2.2.1
    all_goals (intros; exfalso; order)

/-- **C14 fails** for a `NULL` line search (and a `NULL` step address): the value returned is the
status `OPK_ILLEGAL_ADDRESS` which is 3, not the task `OPK_LNSRCH_ERROR`; it is not even
negative, as announced for errors. -/
theorem null_not_an_error (ops : Ops F M) (a : Args F) (stp : Option F) (f g : F) :
    startCode ops none a.f0 a.g0 a.stp a.stpmin a.stpmax ≠ Task.code .error ∧
    0 < startCode ops none a.f0 a.g0 a.stp a.stpmin a.stpmax ∧
    0 < iterateCode ops none stp f g ∧
    ∀ t : Task, startCode ops none a.f0 a.g0 a.stp a.stpmin a.stpmax ≠ t.code := by
  simp only [startCode, iterateCode, ILLEGAL_ADDRESS]
  refine ⟨by decide, by decide, by decide, ?_⟩
  intro t; cases t <;> decide

/-- The other functions do report an error for a `NULL` line search. -/
theorem null_queries :
    getTask (none : Option (Ls F M)) = .error ∧ getStatus (none : Option (Ls F M)) = .illegalAddress ∧
    hasErrors (none : Option (Ls F M)) = true ∧ finished (none : Option (Ls F M)) = true ∧
    converged (none : Option (Ls F M)) = false ∧ hasWarnings (none : Option (Ls F M)) = false ∧
    getStep (none : Option (Ls F M)) = -1 := by
  simp [getTask, getStatus, hasErrors, finished, converged, hasWarnings, getStep]

/-! ## C15 -/

theorem finish_data (b : Int) (ls : Ls F M) (stp : F) :
    (finish b ls stp).1.stpmin = ls.stpmin ∧ (finish b ls stp).1.stpmax = ls.stpmax ∧
    (finish b ls stp).1.finit = ls.finit ∧ (finish b ls stp).1.ginit = ls.ginit ∧
    (finish b ls stp).1.m = ls.m ∧ (finish b ls stp).2 = (finish b ls stp).1.stp := by
  unfold finish warn
  by_cases h1 : stp ≤ ls.stpmin
  · rw [if_pos h1]; split <;> exact ⟨rfl, rfl, rfl, rfl, rfl, rfl⟩
  · rw [if_neg h1]
    by_cases h2 : stp ≥ ls.stpmax
    · rw [if_pos h2]; split <;> exact ⟨rfl, rfl, rfl, rfl, rfl, rfl⟩
    · rw [if_neg h2]; exact ⟨rfl, rfl, rfl, rfl, rfl, rfl⟩

theorem finish_step (b : Int) (ls : Ls F M) (stp : F) (hb : ls.stpmin ≤ ls.stpmax) :
    ls.stpmin ≤ (finish b ls stp).2 ∧ (finish b ls stp).2 ≤ ls.stpmax ∧
    (ls.stpmin ≤ stp → stp ≤ ls.stpmax → (finish b ls stp).2 = stp) := by
  unfold finish
  by_cases h1 : stp ≤ ls.stpmin
  · rw [if_pos h1]; exact ⟨le_refl _, hb, fun h _ => le_antisymm h h1⟩
  · rw [if_neg h1]
    by_cases h2 : stp ≥ ls.stpmax
    · rw [if_pos h2]; exact ⟨hb, le_refl _, fun _ h => le_antisymm h2 h⟩
    · rw [if_neg h2]; refine ⟨?_, ?_, fun _ _ => rfl⟩ <;> order

theorem finish_task (b : Int) (ls : Ls F M) (stp : F) :
    (finish b ls stp).1.task = ls.task ∧ (finish b ls stp).1.status = ls.status ∨
    (finish b ls stp).1.task = .warning ∧
      (stp ≤ ls.stpmin ∧ b < 0 ∧ (finish b ls stp).1.status = .stepEqStpmin ∧
          (finish b ls stp).2 = ls.stpmin ∨
       stp ≥ ls.stpmax ∧ b > 0 ∧ (finish b ls stp).1.status = .stepEqStpmax ∧
          (finish b ls stp).2 = ls.stpmax) := by
  unfold finish warn
  by_cases h1 : stp ≤ ls.stpmin
  · rw [if_pos h1]
    by_cases hb : b < 0
    · rw [if_pos hb]; right; exact ⟨rfl, Or.inl ⟨h1, hb, rfl, rfl⟩⟩
    · rw [if_neg hb]; left; exact ⟨rfl, rfl⟩
  · rw [if_neg h1]
    by_cases h2 : stp ≥ ls.stpmax
    · rw [if_pos h2]
      by_cases hb : b > 0
      · rw [if_pos hb]; right; exact ⟨rfl, Or.inr ⟨h2, hb, rfl, rfl⟩⟩
      · rw [if_neg hb]; left; exact ⟨rfl, rfl⟩
    · rw [if_neg h2]; left; exact ⟨rfl, rfl⟩

theorem iterate_eq (ops : Ops F M) (ls : Ls F M) (f g : F) (ht : ls.task = .search) :
    iterate ops ls ls.stp f g =
      finish (boundOf ls) (ops.iterate ls ls.stp f g).1 (ops.iterate ls ls.stp f g).2 := by
  unfold iterate
  rw [if_neg (by simp [ht]), if_neg (by simp)]

/-- Data of the search after an iteration. -/
theorem iterate_data (ops : Ops F M) (ok : Method ops) (ls : Ls F M) (stp f g : F) :
    (iterate ops ls stp f g).1.stpmin = ls.stpmin ∧ (iterate ops ls stp f g).1.stpmax = ls.stpmax ∧
    (iterate ops ls stp f g).1.finit = ls.finit ∧ (iterate ops ls stp f g).1.ginit = ls.ginit := by
  obtain ⟨k1, k2, k3, k4⟩ := ok.iterate ls stp f g
  unfold iterate
  split_ifs with h1 h2
  · exact ⟨rfl, rfl, rfl, rfl⟩
  · exact ⟨rfl, rfl, rfl, rfl⟩
  · obtain ⟨e1, e2, e3, e4, _, _⟩ := finish_data (boundOf ls) (ops.iterate ls stp f g).1
      (ops.iterate ls stp f g).2
    exact ⟨e1.trans k1, e2.trans k2, e3.trans k3, e4.trans k4⟩

/-- The step after an iteration of a search in progress is within the bounds. -/
theorem iterate_step (ops : Ops F M) (ok : Method ops) (ls : Ls F M) (f g : F)
    (ht : ls.task = .search) (hb : ls.stpmin ≤ ls.stpmax) :
    ls.stpmin ≤ (iterate ops ls ls.stp f g).1.stp ∧ (iterate ops ls ls.stp f g).1.stp ≤ ls.stpmax ∧
    (iterate ops ls ls.stp f g).2 = (iterate ops ls ls.stp f g).1.stp := by
  obtain ⟨k1, k2, _, _⟩ := ok.iterate ls ls.stp f g
  rw [iterate_eq ops ls f g ht]
  have e := (finish_data (boundOf ls) (ops.iterate ls ls.stp f g).1
      (ops.iterate ls ls.stp f g).2).2.2.2.2.2
  obtain ⟨s1, s2, _⟩ := finish_step (boundOf ls) (ops.iterate ls ls.stp f g).1
      (ops.iterate ls ls.stp f g).2 (by rw [k1, k2]; exact hb)
  rw [k1] at s1
  rw [k2] at s2
  rw [← e]
  exact ⟨s1, s2, rfl⟩

/-- A stopped search: the next iteration is an error. -/
theorem iterate_stopped (ops : Ops F M) (ls : Ls F M) (stp f g : F) (ht : ls.task ≠ .search) :
    (iterate ops ls stp f g).1 = { ls with task := .error, status := .notStarted } ∧
    (iterate ops ls stp f g).2 = stp := by
  unfold iterate
  rw [if_pos ht]
  exact ⟨rfl, rfl⟩

/-- A step altered by the caller is an error. -/
theorem iterate_changed (ops : Ops F M) (ls : Ls F M) (stp f g : F) (ht : ls.task = .search)
    (hs : stp ≠ ls.stp) :
    (iterate ops ls stp f g).1 = { ls with task := .error, status := .stepChanged } ∧
    (iterate ops ls stp f g).2 = stp := by
  unfold iterate
  rw [if_neg (by simp [ht]), if_pos (by simpa using hs)]
  exact ⟨rfl, rfl⟩

theorem calls_inv (ops : Ops F M) (ok : Method ops) (hist : List (Call F)) :
    ∀ (ls : Ls F M) (last : Option (Args F)),
    (ls.task ≠ .error → ∃ a, last = some a ∧ a.Valid ∧ Conforms ls a) →
    (calls ops ls hist).task ≠ .error →
    ∃ a, lastStart last hist = some a ∧ a.Valid ∧ Conforms (calls ops ls hist) a := by
  induction hist with
  | nil => intro ls last h ht; exact h ht
  | cons c cs ih =>
    intro ls last h ht
    cases c with
    | start a =>
      simp only [calls, lastStart] at ht ⊢
      refine ih _ _ ?_ ht
      intro h'
      simp only [call] at h' ⊢
      have sc := start_checks ops ok ls a
      by_cases hv : a.Valid
      · exact ⟨a, rfl, hv, (sc.2.1 hv).2.1⟩
      · exact absurd (sc.2.2.1 hv) h'
    | iterate stp f g =>
      simp only [calls, lastStart] at ht ⊢
      refine ih _ _ ?_ ht
      intro h'
      simp only [call] at h' ⊢
      by_cases hs : ls.task = .search
      · by_cases hp : stp = ls.stp
        · subst hp
          obtain ⟨a, e, hv, hc⟩ := h (by rw [hs]; simp)
          obtain ⟨c1, c2, c3, c4, c5, c6⟩ := hc
          obtain ⟨d1, d2, d3, d4⟩ := iterate_data ops ok ls ls.stp f g
          obtain ⟨s1, s2, _⟩ := iterate_step ops ok ls f g hs (by rw [c3, c4]; exact hv.2.1)
          refine ⟨a, e, hv, ?_, ?_, ?_, ?_, ?_, ?_⟩
          · rw [d3, c1]
          · rw [d4, c2]
          · rw [d1, c3]
          · rw [d2, c4]
          · rw [← c3]; exact s1
          · rw [← c4]; exact s2
        · rw [(iterate_changed ops ls stp f g hs hp).1] at h'
          exact absurd rfl h'
      · rw [(iterate_stopped ops ls stp f g hs).1] at h'
        exact absurd rfl h'

/-- **C15 (bounds).** Consider any history of calls on a new line search object: successful or
rejected starts, iterations with any function values and derivatives, steps altered by the
caller, in any order.  If the line search is not in error then there was a start, the last one
had valid arguments and the current step is within the bounds which were then given.  This holds
for any arithmetic, and for any method (`ops`). -/
theorem steps_in_bounds (ops : Ops F M) (ok : Method ops) (raw : Ls F M) (hist : List (Call F))
    (ht : (calls ops (allocated raw) hist).task ≠ .error) :
    ∃ a, lastStart none hist = some a ∧ a.Valid ∧ Conforms (calls ops (allocated raw) hist) a :=
  calls_inv ops ok hist (allocated raw) none (by simp [allocated]) ht

theorem calls_append (ops : Ops F M) (ls : Ls F M) (h1 h2 : List (Call F)) :
    calls ops ls (h1 ++ h2) = calls ops (calls ops ls h1) h2 := by
  induction h1 generalizing ls with
  | nil => rfl
  | cons c cs ih => simp only [List.cons_append, calls]; exact ih _

/-- **C15 (protocol).** After any history: once the search is not in progress (never started,
rejected start, convergence, warning, error) any number of further iterations, whatever their
arguments, end in the error `OPK_NOT_STARTED`, without changing the last step; and giving back
another step than the one which was asked is the error `OPK_STEP_CHANGED`. -/
theorem protocol (ops : Ops F M) (raw : Ls F M) (hist : List (Call F)) :
    let ls := calls ops (allocated raw) hist
    (ls.task ≠ .search → ∀ iters : List (F × F × F), iters ≠ [] →
      calls ops ls (iters.map fun t => .iterate t.1 t.2.1 t.2.2) =
        { ls with task := .error, status := .notStarted }) ∧
    (ls.task = .search → ∀ stp f g, stp ≠ ls.stp →
      (iterate ops ls stp f g).1 = { ls with task := .error, status := .stepChanged }) := by
  intro ls
  clear_value ls
  constructor
  · intro ht iters hne
    cases iters with
    | nil => exact absurd rfl hne
    | cons t l =>
      simp only [List.map_cons, calls, call, (iterate_stopped ops ls _ _ _ ht).1]
      clear ht hne
      induction l with
      | nil => rfl
      | cons u l ih =>
        simp only [List.map_cons, calls, call]
        rw [(iterate_stopped ops _ _ _ _ (by simp)).1]
        exact ih
  · intro ht stp f g hs
    exact (iterate_changed ops ls stp f g ht hs).1

/-- What is asked to the step of a method: the step is only changed if the search goes on. -/
def KeepsStep (ops : Ops F M) (ls : Ls F M) (f g : F) : Prop :=
  (ops.iterate ls ls.stp f g).1.task ≠ .search → (ops.iterate ls ls.stp f g).2 = ls.stp

/-- **C15 (last step).** When the search stops, the step is the one for which the function was
just evaluated. -/
theorem stop_at_current_step (ops : Ops F M) (ok : Method ops) (ls : Ls F M) (f g : F)
    (hk : KeepsStep ops ls f g)
    (hb : ls.stpmin ≤ ls.stp ∧ ls.stp ≤ ls.stpmax)
    (ht : (iterate ops ls ls.stp f g).1.task ≠ .search) :
    (iterate ops ls ls.stp f g).2 = ls.stp ∧ (iterate ops ls ls.stp f g).1.stp = ls.stp := by
  by_cases h : ls.task = .search
  · obtain ⟨k1, k2, _, _⟩ := ok.iterate ls ls.stp f g
    rw [iterate_eq ops ls f g h] at ht ⊢
    have e := (finish_data (boundOf ls) (ops.iterate ls ls.stp f g).1
      (ops.iterate ls ls.stp f g).2).2.2.2.2.2
    have fs := finish_step (boundOf ls) (ops.iterate ls ls.stp f g).1
      (ops.iterate ls ls.stp f g).2 (by rw [k1, k2]; exact le_trans hb.1 hb.2)
    have ft := finish_task (boundOf ls) (ops.iterate ls ls.stp f g).1
      (ops.iterate ls ls.stp f g).2
    rw [k1, k2] at fs ft
    rw [← e]
    rw [and_self]
    rcases ft with ⟨q, _⟩ | ⟨_, ⟨_, hn, _, q⟩ | ⟨_, hn, _, q⟩⟩
    · rw [q] at ht
      have := hk ht
      rw [this] at fs ⊢
      exact fs.2.2 hb.1 hb.2
    · rw [q]
      unfold boundOf at hn
      split_ifs at hn with c1 c2
      · order
      · omega
      · omega
    · rw [q]
      unfold boundOf at hn
      split_ifs at hn with c1 c2
      · omega
      · order
      · omega
  · obtain ⟨e1, e2⟩ := iterate_stopped ops ls ls.stp f g h
    rw [e1, e2]
    exact ⟨rfl, rfl⟩

end
end Opk.LineSearch
