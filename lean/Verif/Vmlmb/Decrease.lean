import Verif.Vmlmb.Search
import Verif.LineSearch.Armijo
import Verif.LineSearch.Cubic
/-! # C27: sufficient decrease between successive iterates of the variable metric optimizer -/
set_option linter.unusedSectionVars false
set_option linter.unusedSimpArgs false
namespace Opk.Vmlmb
open Opk.Optim

variable {F M V : Type} [Add F] [Sub F] [Mul F] [Div F] [Neg F] [Zero F] [One F]
  [LinearOrder F] [CMath F]

/-- Specification: the function value given by the caller with the last new iterate (that is, the value
at the start of the current line search). -/
def baseF (par : Par F V) (ops : LineSearch.Ops F M) (o : Opt F M V) (fb : Option F) : List (Call F V) → Option F
  | [] => fb
  | .start x :: l => baseF par ops (step par ops o (.start x)) none l
  | .iterate x f g :: l =>
    baseF par ops (step par ops o (.iterate x f g)) (if o.task = .newX ∨ o.task = .finalX then some f else fb) l

/-- The state of the line search is always the result of calls to the line search functions. -/
def LsInv (ops : LineSearch.Ops F M) (ls0 : LineSearch.Ls F M) (o : Opt F M V) (fb : Option F) : Prop :=
  ∃ lh, o.ls = LineSearch.calls ops ls0 lh ∧
    (o.task = .computeFG ∧ 0 < o.evaluations → o.ls.task = .search ∧ o.ls.stp = o.stp ∧
      ∃ a, LineSearch.lastStart none lh = some a ∧ fb = some a.f0)

theorem lastStart_append (l1 l2 : List (LineSearch.Call F)) (a : Option (LineSearch.Args F)) :
    LineSearch.lastStart a (l1 ++ l2) = LineSearch.lastStart (LineSearch.lastStart a l1) l2 := by
  induction l1 generalizing a with
  | nil => rfl
  | cons c l ih => rcases c with b | ⟨s, f, g⟩ <;> exact ih _

theorem start_lsInv (par : Par F V) (ops : LineSearch.Ops F M) (ls0 : LineSearch.Ls F M) (o : Opt F M V)
    (fb fb' : Option F) (x : V) (h : LsInv ops ls0 o fb) : LsInv ops ls0 (start par o x).1 fb' := by
  obtain ⟨lh, h1, -⟩ := h
  have hs : (start par o x).1.ls = o.ls ∧ (start par o x).1.evaluations = 0 := by
    unfold start
    dsimp only
    rcases par.box with _ | box
    · exact ⟨rfl, rfl⟩
    · dsimp only
      rcases box.projvar x with st | x' <;> exact ⟨rfl, rfl⟩
  exact ⟨lh, hs.1.trans h1, fun h => by rw [hs.2] at h; exact absurd h.2 (lt_irrefl _)⟩

theorem iterate_lsInv (par : Par F V) (ops : LineSearch.Ops F M) (ok : LineSearch.Method ops)
    (ls0 : LineSearch.Ls F M) (o : Opt F M V) (fb : Option F) (x : V) (f : F) (g : V) (h : LsInv ops ls0 o fb) :
    LsInv ops ls0 (iterate par ops o x f g).1 (if o.task = .newX ∨ o.task = .finalX then some f else fb) := by
  obtain ⟨lh, h1, h2⟩ := h
  have htr : ∀ r : Opt F M V, (trial par r).1.ls = r.ls ∧ (trial par r).1.stp = r.stp := by
    intro r
    rcases trial_keeps par r with ⟨st, e, -⟩ | e <;> rw [e] <;> exact ⟨rfl, rfl⟩
  have hnx : (o.task = .newX ∨ o.task = .finalX) → LsInv ops ls0 (iterate par ops o x f g).1
      (if o.task = .newX ∨ o.task = .finalX then some f else fb) := by
    intro hn
    rw [if_pos hn]
    rcases iterate_newX par ops o x f g hn with ⟨r, e1, e2⟩ | ⟨r, e1, e2, e3⟩
    · have hB := onNewX_begun par ops ok o x f g r e1
      obtain ⟨a, a1, a2, a3, a4⟩ := hB.member
      rw [e2]
      refine ⟨lh ++ [.start a], ?_, fun _ => ⟨?_, ?_, a, ?_, ?_⟩⟩
      · rw [(htr r).1, a1, LineSearch.calls_append, ← h1]; rfl
      · rw [(htr r).1]; exact hB.task
      · rw [(htr r).1, (htr r).2]; exact hB.stp
      · rw [lastStart_append]; rfl
      · rw [a3]
    · rw [e3]
      dsimp only
      rcases onNewX_ls par ops o x f g r e1 with e | ⟨a, e⟩
      · exact ⟨lh, e.trans h1, fun h => by rw [e2] at h; cases h.1⟩
      · exact ⟨lh ++ [.start a], by rw [e, LineSearch.calls_append, ← h1]; rfl, fun h => by rw [e2] at h; cases h.1⟩
  by_cases hn : o.task = .newX ∨ o.task = .finalX
  · exact hnx hn
  rw [if_neg hn]
  by_cases hfg : o.task = .computeFG
  · have hit : iterate par ops o x f g = (match onFG par ops o x f g with | .ret o => (o, x) | .brk o => trial par o) := by
      unfold iterate; rw [hfg]; dsimp only
      rcases onFG par ops o x f g with r | r <;> rfl
    rw [hit]
    unfold onFG
    dsimp only
    by_cases he : o.evaluations + 1 > 1
    · rw [if_pos he]
      obtain ⟨s1, s2, a, s3, s4⟩ := h2 ⟨hfg, by omega⟩
      generalize derivative par ops { o with evaluations := o.evaluations + 1 } x g = dtg
      have hq2 : (LineSearch.iterate ops o.ls o.stp f dtg).2 = (LineSearch.iterate ops o.ls o.stp f dtg).1.stp := by
        rw [← s2, LineSearch.iterate_eq ops o.ls f dtg s1]
        exact (LineSearch.finish_data _ _ _).2.2.2.2.2
      have hcalls : (LineSearch.iterate ops o.ls o.stp f dtg).1 =
          LineSearch.calls ops ls0 (lh ++ [.iterate o.stp f dtg]) := by
        rw [LineSearch.calls_append, ← h1]; rfl
      have hlast : LineSearch.lastStart none (lh ++ [.iterate o.stp f dtg]) = some a := by
        rw [lastStart_append, s3]; rfl
      generalize LineSearch.iterate ops o.ls o.stp f dtg = q at *
      by_cases hs : q.1.task = .search
      · rw [if_pos hs]
        dsimp only
        refine ⟨_, (htr _).1.trans hcalls, fun _ => ⟨?_, ?_, a, hlast, s4⟩⟩
        · rw [(htr _).1]; exact hs
        · rw [(htr _).1, (htr _).2]; exact hq2.symm
      · rw [if_neg hs]
        split_ifs with h3
        · exact ⟨_, hcalls, fun h => by simp [failure] at h⟩
        · dsimp only
          obtain ⟨-, -, -, -, -, k6, -, -, -, -, -, -, -, -, -, -, -, -, -, k20, -⟩ := accept_keeps par
            { o with evaluations := o.evaluations + 1, ls := q.1, stp := q.2, iterations := o.iterations + 1 } x g
          refine ⟨_, k6.trans hcalls, fun h => ?_⟩
          rcases k20 with k | k | k <;> rw [k] at h <;> cases h.1
    · rw [if_neg he]
      dsimp only
      obtain ⟨-, -, -, -, -, k6, -, -, -, -, -, -, -, -, -, -, -, -, -, k20, -⟩ := accept_keeps par
        { o with evaluations := o.evaluations + 1 } x g
      refine ⟨lh, k6.trans h1, fun h => ?_⟩
      rcases k20 with k | k | k <;> rw [k] at h <;> cases h.1
  · have hit : iterate par ops o x f g = (o, x) := by
      unfold iterate
      push Not at hn
      generalize ht : o.task = t at *
      rcases t with _ | _ | _ | _ | _ | _
      · rfl
      · rfl
      · exact absurd rfl hfg
      · exact absurd rfl hn.1
      · exact absurd rfl hn.2
      · rfl
    rw [hit]
    exact ⟨lh, h1, fun h => absurd h.1 hfg⟩

theorem calls_lsInv (par : Par F V) (ops : LineSearch.Ops F M) (ok : LineSearch.Method ops)
    (ls0 : LineSearch.Ls F M) (hist : List (Call F V)) :
    ∀ (o : Opt F M V) (fb : Option F), LsInv ops ls0 o fb →
      LsInv ops ls0 (calls par ops o hist) (baseF par ops o fb hist) := by
  induction hist with
  | nil => intro o fb h; exact h
  | cons c l ih =>
    intro o fb h
    rcases c with x | ⟨x, f, g⟩
    · exact ih _ _ (start_lsInv par ops ls0 o fb none x h)
    · exact ih _ _ (iterate_lsInv par ops ok ls0 o fb x f g h)

/-- What is accepted: either the line search has converged or it cannot progress because of rounding
errors. -/
theorem accepted_step (finite : F → Bool) (vs : Vs F V) (opts : Options F) (size : Int) (box : Option (Cs F V))
    (same : Bool) (ls0 : LineSearch.Ls F M) (raw : Opt F M V) (par : Par F V) (opt : Opt F M V)
    (hnew : new finite vs opts size box same ls0 raw = some (par, opt))
    (ops : LineSearch.Ops F M) (ok : LineSearch.Method ops) (hist : List (Call F V)) (x : V) (f : F) (g : V) :
    let r := calls par ops opt hist
    let r' := (iterate par ops r x f g).1
    0 < r.evaluations → r'.task = .newX ∨ r'.task = .finalX →
    ∃ (lh : List (LineSearch.Call F)) (dtg : F) (a : LineSearch.Args F),
      r.ls = LineSearch.calls ops ls0 lh ∧ r.ls.task = .search ∧ r.ls.stp = r.stp ∧
      LineSearch.lastStart none lh = some a ∧ baseF par ops opt none hist = some a.f0 ∧
      dtg = derivative par ops { r with evaluations := r.evaluations + 1 } x g ∧
      r'.ls = LineSearch.calls ops ls0 (lh ++ [.iterate r.stp f dtg]) ∧
      r'.stp = (LineSearch.iterate ops r.ls r.stp f dtg).2 ∧
      (r'.ls.task = .convergence ∨ r'.ls.task = .warning ∧ r'.ls.status = .roundingErrorsPreventProgress) := by
  intro r r' he hn
  obtain ⟨-, -, -, ht0, -, -⟩ := new_counters finite vs opts size box same ls0 raw par opt hnew
  obtain ⟨-, -, -, -, -, -, -, -, -, -, els, -⟩ := new_method finite vs opts size box same ls0 raw par opt hnew
  have h0 : LsInv ops ls0 opt none := ⟨[], els, fun h => by rw [ht0] at h; cases h.1⟩
  obtain ⟨lh, h1, h2⟩ := calls_lsInv par ops ok ls0 hist opt none h0
  obtain ⟨hfg, -, o', e1, -, (⟨hlt, -⟩ | ⟨-, q, hq, hq2, e2⟩)⟩ := newX_accept par ops r x f g hn
  · omega
  · obtain ⟨s1, s2, a, s3, s4⟩ := h2 ⟨hfg, he⟩
    obtain ⟨-, -, -, -, -, k6, k7, -⟩ := accept_keeps par o' x g
    have hls : r'.ls = q.1 := by
      show (iterate par ops r x f g).1.ls = _
      rw [e1, k6, e2]
    refine ⟨lh, _, a, h1, s1, s2, s3, s4, rfl, ?_, ?_, ?_⟩
    · rw [hls, hq, LineSearch.calls_append, ← h1]; rfl
    · show (iterate par ops r x f g).1.stp = _
      rw [e1, k7, e2, hq]
    · rw [hls]; exact hq2

/-- **C27 (VMLMB with backtracking).** For any arithmetic and any history: when, during a line search, the
caller gives the function value `f` and is then told of a new iterate, this value satisfies the sufficient decrease
condition with respect to the value `fb` at the previous iterate, for the current step, positive, and the
negative derivative announced to the line search. -/
theorem backtrack_decrease (finite : F → Bool) (vs : Vs F V) (opts : Options F) (size : Int) (box : Option (Cs F V))
    (same : Bool) (lraw : LineSearch.Ls F Unit) (ftol amin : F) (ls0 : LineSearch.Ls F (LineSearch.Backtrack F))
    (hls : LineSearch.newBacktrack lraw ftol amin = some ls0)
    (raw : Opt F (LineSearch.Backtrack F) V) (par : Par F V) (opt : Opt F (LineSearch.Backtrack F) V)
    (hnew : new finite vs opts size box same ls0 raw = some (par, opt))
    (hist : List (Call F V)) (x : V) (f : F) (g : V) :
    let r := calls par LineSearch.backtrackOps opt hist
    let r' := (iterate par LineSearch.backtrackOps r x f g).1
    0 < r.evaluations → r'.task = .newX ∨ r'.task = .finalX →
    ∃ fb gb : F, baseF par LineSearch.backtrackOps opt none hist = some fb ∧ gb = r.ls.ginit ∧ gb < 0 ∧ 0 < r.stp ∧
      f ≤ fb + ftol * r.stp * gb := by
  intro r r' he hn
  obtain ⟨lh, dtg, a, h1, h2, h3, h4, h5, h6, h7, -, h8⟩ := accepted_step finite vs opts size box same ls0 raw par
    opt hnew _ LineSearch.backtrack_method hist x f g he hn
  obtain ⟨a', e, hv, b1, b2, hc⟩ := LineSearch.backtrack_sufficient_decrease lraw ftol amin ls0 hls lh r.stp f dtg
    (by rw [← h1]; exact h2) (by rw [← h1]; exact h3.symm)
  rw [h4] at e
  cases e
  have hconv : (LineSearch.calls LineSearch.backtrackOps ls0 (lh ++ [.iterate r.stp f dtg])).task = .convergence := by
    rw [h7] at h8
    rcases h8 with h | ⟨hw, hs⟩
    · exact h
    · exfalso
      rw [LineSearch.calls_append, ← h1] at hw hs
      change (LineSearch.iterate LineSearch.backtrackOps r.ls r.stp f dtg).1.task = _ at hw
      change (LineSearch.iterate LineSearch.backtrackOps r.ls r.stp f dtg).1.status = _ at hs
      rw [← h3, LineSearch.iterate_eq _ _ _ _ h2] at hs hw
      rcases LineSearch.finish_task (LineSearch.boundOf r.ls)
        (LineSearch.backtrackOps.iterate r.ls r.ls.stp f dtg).1 (LineSearch.backtrackOps.iterate r.ls r.ls.stp f dtg).2 with
        ⟨t1, t2⟩ | ⟨t1, ⟨-, -, t2, -⟩ | ⟨-, -, t2, -⟩⟩
      · rw [t2] at hs
        rw [t1] at hw
        simp only [LineSearch.backtrackOps, LineSearch.backtrackIterate] at hs hw
        split at hs
        · simp [LineSearch.succeed] at hs
        · split at hs <;> simp_all [LineSearch.succeed, LineSearch.warn]
      · rw [t2] at hs; cases hs
      · rw [t2] at hs; cases hs
  obtain ⟨c1, c2, c3⟩ := hc.1 hconv
  have hgi : a.g0 = r.ls.ginit := by
    have ht0 : ls0.task = .error := by
      unfold LineSearch.newBacktrack at hls
      split at hls <;> cases hls
      rfl
    obtain ⟨a'', q1, -, q2⟩ := LineSearch.calls_inv _ LineSearch.backtrack_method lh ls0 none (fun h => absurd ht0 h) (by rw [← h1, h2]; simp)
    rw [h4] at q1
    cases q1
    rw [h1]; exact q2.2.1.symm
  exact ⟨a.f0, a.g0, h5, hgi, hv.2.2.2.2, lt_of_le_of_lt hv.1 c2, c1⟩

/-- Specification: directional derivative at the trial point `x`, of gradient `g`, for the step `stp` along `-d` from
`x0`.  With bounds it is the derivative along the (projected) displacement divided by the step. -/
def slope (vs : Vs F V) (bounded : Bool) (x0 d : V) (stp : F) (x g : V) : F :=
  if bounded then (vs.dot x g - vs.dot x0 g) / stp else -vs.dot d g

/-- **C27 (VMLMB with the line search of Moré and Thuente).** Same thing, unless the line search warns of
rounding errors, and then with the curvature condition for the derivative computed by the optimizer. -/
theorem csrch_decrease (finite : F → Bool) (vs : Vs F V) (opts : Options F) (size : Int) (box : Option (Cs F V))
    (same : Bool) (lraw : LineSearch.Ls F (LineSearch.Csrch F)) (ftol gtol xtol : F)
    (ls0 : LineSearch.Ls F (LineSearch.Csrch F))
    (hls : LineSearch.newCsrch lraw ftol gtol xtol = some ls0)
    (raw : Opt F (LineSearch.Csrch F) V) (par : Par F V) (opt : Opt F (LineSearch.Csrch F) V)
    (hnew : new finite vs opts size box same ls0 raw = some (par, opt))
    (hist : List (Call F V)) (x : V) (f : F) (g : V) :
    let r := calls par LineSearch.csrchOps opt hist
    let r' := (iterate par LineSearch.csrchOps r x f g).1
    0 < r.evaluations → r'.task = .newX ∨ r'.task = .finalX →
    r'.ls.status ≠ .roundingErrorsPreventProgress →
    ∃ fb gb : F, baseF par LineSearch.csrchOps opt none hist = some fb ∧ gb = r.ls.ginit ∧ gb < 0 ∧ 0 < r.stp ∧
      f ≤ fb + r.stp * (ftol * gb) ∧
      fabs (slope vs box.isSome r.x0 r.d r.stp x g) ≤ -gtol * gb := by
  intro r r' he hn hnr
  obtain ⟨lh, dtg, a, h1, h2, h3, h4, h5, h6, h7, -, h8⟩ := accepted_step finite vs opts size box same ls0 raw par
    opt hnew _ LineSearch.csrch_method hist x f g he hn
  obtain ⟨a', e, hv, b1, b2, hc⟩ := LineSearch.csrch_strong_wolfe lraw ftol gtol xtol ls0 hls lh r.stp f dtg
    (by rw [← h1]; exact h2) (by rw [← h1]; exact h3.symm)
  rw [h4] at e
  cases e
  have hconv : (LineSearch.calls LineSearch.csrchOps ls0 (lh ++ [.iterate r.stp f dtg])).task = .convergence := by
    rw [← h7]
    rcases h8 with h | ⟨hw, hs⟩
    · exact h
    · exact absurd hs hnr
  obtain ⟨c1, c2, c3, c4⟩ := hc.1 hconv
  have hgi : a.g0 = r.ls.ginit := by
    have ht0 : ls0.task = .error := by
      unfold LineSearch.newCsrch at hls
      split_ifs at hls
      cases hls
      rfl
    obtain ⟨a'', q1, -, q2⟩ := LineSearch.calls_inv _ LineSearch.csrch_method lh ls0 none (fun h => absurd ht0 h) (by rw [← h1, h2]; simp)
    rw [h4] at q1
    cases q1
    rw [h1]; exact q2.2.1.symm
  refine ⟨a.f0, a.g0, h5, hgi, hv.2.2.2.2, lt_of_le_of_lt hv.1 c3, c1, ?_⟩
  obtain ⟨-, hbx, -, -, -, hvs, -⟩ := new_method finite vs opts size box same ls0 raw par opt hnew
  have hsl : slope vs box.isSome r.x0 r.d r.stp x g = dtg := by
    rw [h6]
    unfold slope derivative
    rw [hbx, hvs]
    rcases box with _ | box <;> rfl
  rw [hsl]; exact c2

/-- In exact arithmetic, the objective strictly decreases between the iterates of VMLMB with backtracking. -/
theorem backtrack_strict_decrease {K : Type} [Field K] [LinearOrder K] [IsStrictOrderedRing K] [CMath K] [ExactMath K]
    (finite : K → Bool) (vs : Vs K V) (opts : Options K) (size : Int) (box : Option (Cs K V))
    (same : Bool) (lraw : LineSearch.Ls K Unit) (ftol amin : K) (ls0 : LineSearch.Ls K (LineSearch.Backtrack K))
    (hls : LineSearch.newBacktrack lraw ftol amin = some ls0)
    (raw : Opt K (LineSearch.Backtrack K) V) (par : Par K V) (opt : Opt K (LineSearch.Backtrack K) V)
    (hnew : new finite vs opts size box same ls0 raw = some (par, opt))
    (hist : List (Call K V)) (x : V) (f : K) (g : V) :
    let r := calls par LineSearch.backtrackOps opt hist
    let r' := (iterate par LineSearch.backtrackOps r x f g).1
    0 < r.evaluations → r'.task = .newX ∨ r'.task = .finalX →
    ∃ fb, baseF par LineSearch.backtrackOps opt none hist = some fb ∧ f < fb := by
  intro r r' he hn
  obtain ⟨fb, gb, h1, -, h2, h3, h4⟩ := backtrack_decrease finite vs opts size box same lraw ftol amin ls0 hls raw par opt
    hnew hist x f g he hn
  obtain ⟨h5, -⟩ := LineSearch.newBacktrack_params lraw ftol amin ls0 hls
  refine ⟨fb, h1, ?_⟩
  have : ftol * r.stp * gb < 0 := mul_neg_of_pos_of_neg (mul_pos h5 h3) h2
  linarith

end Opk.Vmlmb
