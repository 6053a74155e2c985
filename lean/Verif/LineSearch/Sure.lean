import Verif.LineSearch.Lift
/-! # The Moré and Thuente line search never warns of rounding errors with real numbers

`LineSearch.csrch_no_rounding_warning` is about one search with real numbers and an undefined value.  Here are the real numbers and any history of calls
of `opk_lnsrch_start` and `opk_lnsrch_iterate`, valid or not, which is what the optimizers need. -/
namespace Opk.LineSearch

/-- A line search which has not warned of rounding errors, and which cannot do so in its next iteration. -/
structure Calm (ftol gtol : ℝ) (ls : Ls ℝ (Csrch ℝ)) : Prop where
  ftol : ls.m.ftol = ftol
  gtol : ls.m.gtol = gtol
  status : ls.status ≠ .roundingErrorsPreventProgress
  search : ls.task = .search → Inv ls ∧ Fresh ls

theorem Calm.failure {ftol gtol : ℝ} {ls : Ls ℝ (Csrch ℝ)} (h : Calm ftol gtol ls) (st : Status) (hs : st ≠ .roundingErrorsPreventProgress) :
    Calm ftol gtol (failure ls st) :=
  ⟨h.ftol, h.gtol, hs, fun q => (by cases q)⟩

theorem Calm.start {ftol gtol : ℝ} {ls : Ls ℝ (Csrch ℝ)} (h : Calm ftol gtol ls) (h0 : 0 ≤ ftol) (h1 : ftol < 1) (h4 : 4 * ftol ≤ gtol) (a : Args ℝ) :
    Calm ftol gtol (start csrchOps ls a.f0 a.g0 a.stp a.stpmin a.stpmax) := by
  by_cases ha : a.Ok
  · obtain ⟨s1, s2, -, -, -, -, s7, s8, -⟩ := start_real ls (by rw [h.ftol]; exact h0) (by rw [h.ftol]; exact h1) (by rw [h.ftol, h.gtol]; linarith) a ha
    refine ⟨s7.trans h.ftol, s8.trans h.gtol, ?_, fun _ => ⟨s1, s2⟩⟩
    obtain ⟨a1, a2, a3⟩ := ha
    unfold LineSearch.start
    rw [if_neg (not_lt.mpr a1), if_neg (not_lt.mpr (a2.1.trans a2.2)), if_neg (not_lt.mpr a2.1), if_neg (not_lt.mpr a2.2), if_neg (not_le.mpr a3)]
    intro q
    cases q
  · unfold LineSearch.start
    by_cases c1 : a.stpmin < 0
    · rw [if_pos c1]; exact h.failure _ (fun q => by cases q)
    rw [if_neg c1]
    by_cases c2 : a.stpmin > a.stpmax
    · rw [if_pos c2]; exact h.failure _ (fun q => by cases q)
    rw [if_neg c2]
    by_cases c3 : a.stp < a.stpmin
    · rw [if_pos c3]; exact h.failure _ (fun q => by cases q)
    rw [if_neg c3]
    by_cases c4 : a.stp > a.stpmax
    · rw [if_pos c4]; exact h.failure _ (fun q => by cases q)
    rw [if_neg c4]
    by_cases c5 : a.g0 ≥ 0
    · rw [if_pos c5]; exact h.failure _ (fun q => by cases q)
    exact absurd ⟨not_lt.mp c1, ⟨not_lt.mp c3, not_lt.mp c4⟩, not_le.mp c5⟩ ha

theorem Calm.iterate {ftol gtol : ℝ} {ls : Ls ℝ (Csrch ℝ)} (h : Calm ftol gtol ls) (h4 : 4 * ftol ≤ gtol) (stp f g : ℝ) :
    Calm ftol gtol (iterate csrchOps ls stp f g).1 := by
  by_cases c1 : ls.task = .search
  · by_cases c2 : stp = ls.stp
    · obtain ⟨k1, k2⟩ := h.search c1
      have h4' : 4 * ls.m.ftol ≤ ls.m.gtol := by rw [h.ftol, h.gtol]; exact h4
      obtain ⟨-, i2, i3, i4⟩ := iterate_real ls k1 h4' f g
      rw [c2]
      exact ⟨i2.ftol.trans h.ftol, i2.gtol.trans h.gtol, i4 k2, fun q => ⟨(i3 q).1, (i3 q).2.fresh h4'⟩⟩
    · unfold LineSearch.iterate
      rw [if_neg (not_not.mpr c1), if_pos (by simpa using c2)]
      exact h.failure _ (fun q => by cases q)
  · unfold LineSearch.iterate
    rw [if_pos c1]
    exact h.failure _ (fun q => by cases q)

theorem Calm.calls {ftol gtol : ℝ} (h0 : 0 ≤ ftol) (h1 : ftol < 1) (h4 : 4 * ftol ≤ gtol) (cs : List (Call ℝ)) :
    ∀ ls, Calm ftol gtol ls → Calm ftol gtol (calls csrchOps ls cs) := by
  induction cs with
  | nil => exact fun _ h => h
  | cons c cs ih =>
    intro ls h
    apply ih
    cases c with
    | start a => exact h.start h0 h1 h4 a
    | iterate stp f g => exact h.iterate h4 stp f g

/-- **C86 (any history).** With real numbers and `4 ftol ≤ gtol`, which the default values `0.0001` and `0.9` satisfy, a line search created by
`opk_lnsrch_new_csrch` never warns of rounding errors, whatever the calls: searches may be started again at any time, with any arguments, and the
function values and derivatives be arbitrary. -/
theorem csrch_calls_sure (raw : Ls ℝ (Csrch ℝ)) (ftol gtol xtol : ℝ) (ls : Ls ℝ (Csrch ℝ)) (hls : newCsrch raw ftol gtol xtol = some ls)
    (h1 : ftol < 1) (h4 : 4 * ftol ≤ gtol) (cs : List (Call ℝ)) :
    (calls csrchOps ls cs).status ≠ .roundingErrorsPreventProgress := by
  unfold newCsrch at hls
  split_ifs at hls with c1 c2 c3
  cases hls
  exact (Calm.calls (not_lt.mp c1) h1 h4 cs _ ⟨rfl, rfl, fun q => (by cases q), fun q => (by cases q)⟩).status

end Opk.LineSearch
