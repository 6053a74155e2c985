import Verif.LineSearch.Cubic
/-! # C54: failures of the Moré and Thuente line search -/
set_option linter.unusedSectionVars false
namespace Opk.LineSearch

section
open Num

/-- Real data seen as numbers which are possibly undefined. -/
def Csrch.val (c : Csrch ℝ) : Csrch (Num ℝ) :=
  ⟨.val c.ftol, .val c.gtol, .val c.xtol, .val c.gtest, c.b.val, .val c.stmin, .val c.stmax, .val c.width, .val c.width1, c.stage⟩

/-- The same for the line search. -/
def Ls.val (ls : Ls ℝ (Csrch ℝ)) : Ls (Num ℝ) (Csrch (Num ℝ)) :=
  ⟨.val ls.stp, .val ls.stpmin, .val ls.stpmax, .val ls.finit, .val ls.ginit, ls.status, ls.task, ls.m.val⟩

theorem cmin_val (x y : ℝ) : cmin (Num.val x) (Num.val y) = .val (min x y) := by
  unfold cmin
  by_cases h : x ≤ y
  · rw [if_pos (show Num.val x ≤ Num.val y from h), min_eq_left h]
  · rw [if_neg (show ¬ Num.val x ≤ Num.val y from h), min_eq_right (not_le.mp h).le]

theorem cmax_val (x y : ℝ) : cmax (Num.val x) (Num.val y) = .val (max x y) := by
  unfold cmax
  by_cases h : x ≥ y
  · rw [if_pos (show Num.val x ≥ Num.val y from h), max_eq_left h]
  · rw [if_neg (show ¬ Num.val x ≥ Num.val y from h), max_eq_right (not_le.mp h).le]

/-- Data which is constant during a search. -/
structure Same (ls ls' : Ls ℝ (Csrch ℝ)) : Prop where
  finit : ls'.finit = ls.finit
  ginit : ls'.ginit = ls.ginit
  stpmin : ls'.stpmin = ls.stpmin
  stpmax : ls'.stpmax = ls.stpmax
  ftol : ls'.m.ftol = ls.m.ftol
  gtol : ls'.m.gtol = ls.m.gtol
  gtest : ls'.m.gtest = ls.m.gtest
  xtol : ls'.m.xtol = ls.m.xtol

/-- The step which is finally tried in a bracket: `t` if it is well inside, else the best end point. -/
noncomputable def tried (a b : ℝ) (c : Csrch ℝ) (t : ℝ) : ℝ :=
  if min (max t a) b ≤ min c.b.stx c.b.sty ∨ min (max t a) b ≥ max c.b.stx c.b.sty ∨
    max c.b.stx c.b.sty - min c.b.stx c.b.sty ≤ c.xtol * max c.b.stx c.b.sty then c.b.stx else min (max t a) b

/-- The next step once a minimum is bracketed; it is defined even if the one of `opk_cstep` is not. -/
theorem next_bracketed (a b : ℝ) (c : Csrch ℝ) (s : Num ℝ) (h : c.b.brackt = true) :
    ∃ t, csrchNext (.val a) (.val b) c.val s =
      (Csrch.val { c with width1 := c.width, width := |c.b.sty - c.b.stx|, stmin := min c.b.stx c.b.sty, stmax := max c.b.stx c.b.sty }, .val (tried a b c t)) ∧
      (|c.b.sty - c.b.stx| ≥ 66 / 100 * c.width1 → t = c.b.stx + 1 / 2 * (c.b.sty - c.b.stx)) ∧
      (¬ |c.b.sty - c.b.stx| ≥ 66 / 100 * c.width1 → ∀ u, s = .val u → t = u) := by
  unfold csrchNext
  rw [if_pos (show c.val.b.brackt = true from h)]
  dsimp only [Csrch.val, Bracket.val]
  rw [cmin_val, cmax_val, lit_val, lit_val]
  simp only [Num.val_sub, Num.val_mul, Num.val_add, fabs_val, ge_iff_le]
  have e2 : ∀ x : Num ℝ, ∃ t, cmin (cmax x (.val a)) (.val b) = Num.val (min (max t a) b) ∧ ∀ u, x = .val u → t = u := by
    intro x
    cases x with
    | nan =>
      have : cmax (Num.nan : Num ℝ) (.val a) = .val a := if_neg (fun q => q)
      exact ⟨a, by rw [this, cmin_val, max_self], fun u q => by cases q⟩
    | val x => exact ⟨x, by rw [cmax_val, cmin_val], fun u q => by injection q⟩
  have e3 : (Num.val ((66 : ℕ) / (100 : ℕ) * c.width1) ≤ Num.val |c.b.sty - c.b.stx|) ↔ |c.b.sty - c.b.stx| ≥ 66 / 100 * c.width1 := by
    show (66 : ℕ) / (100 : ℕ) * c.width1 ≤ |c.b.sty - c.b.stx| ↔ _
    push_cast
    rfl
  by_cases w : |c.b.sty - c.b.stx| ≥ 66 / 100 * c.width1
  · rw [if_pos (e3.mpr w)]
    refine ⟨c.b.stx + 1 / 2 * (c.b.sty - c.b.stx), Prod.ext rfl ?_, fun _ => rfl, fun q => absurd w q⟩
    rw [cmax_val, cmin_val]
    unfold tried
    push_cast
    exact ite_val _ _ _
  · rw [if_neg (fun q => w (e3.mp q))]
    obtain ⟨t, q1, q2⟩ := e2 s
    refine ⟨t, Prod.ext rfl ?_, fun q => absurd q w, fun _ => q2⟩
    rw [q1]
    exact ite_val _ _ _

/-- The next step when no minimum is bracketed. -/
theorem next_free (a b : ℝ) (c : Csrch ℝ) (s : ℝ) (h : c.b.brackt = false) :
    csrchNext (.val a) (.val b) c.val (.val s) =
      (Csrch.val { c with stmin := s + (s - c.b.stx) * ((11 : ℕ) / (10 : ℕ)), stmax := s + (s - c.b.stx) * ((4 : ℕ) / (1 : ℕ)) }, .val (min (max s a) b)) := by
  unfold csrchNext
  rw [if_neg (show ¬ c.val.b.brackt = true from by show ¬ c.b.brackt = true; rw [h]; simp)]
  dsimp only [Csrch.val, Bracket.val]
  rw [cmax_val, cmin_val, lit_val, lit_val]
  rfl

/-- The step of `opk_cstep` when no minimum is bracketed goes further. -/
theorem cstep_further {stx fx dx sty fy dy stp fp dp stpmin stpmax : ℝ} (h : stx < stp) (hd : dx < 0) (ho : dp < 0)
    (h1 : stp < stpmax) (h2 : stpmin ≤ stpmax) :
    ∃ s, (if |dp| < |dx| then
            cstep3 false (.val stx) (.val fx) (.val dx) (.val sty) (.val stp) (.val fp) (.val dp) (.val stpmin) (.val stpmax)
          else cstep4 false (.val stx) (.val sty) (.val fy) (.val dy) (.val stp) (.val fp) (.val dp) (.val stpmin) (.val stpmax)) = Num.val s ∧
      stp < s ∧ stpmin ≤ s := by
  have hh : 0 < stp - stx := by linarith
  by_cases c : |dp| < |dx|
  · rw [if_pos c]
    obtain ⟨stpc, stpq, q1, q2, e⟩ := cstep3_val false (stx := stx) (fx := fx) (dx := dx) (sty := sty) (stp := stp) (fp := fp)
      (dp := dp) (stpmin := stpmin) (stpmax := stpmax) (by nlinarith) (by nlinarith) c
    refine ⟨_, e, ?_⟩
    rw [if_neg (by simp)]
    have p1 : stp < stpc := by
      rcases q1 with q | ⟨_, q⟩ | ⟨q, _⟩
      · by_contra hn; nlinarith
      · rw [q]; exact h1
      · linarith
    have p2 : stp < stpq := by
      have : stpq ≠ stp := q2.2 ho.ne
      refine lt_of_le_of_ne ?_ this.symm
      by_contra hn
      have := q2.1
      nlinarith
    dsimp only
    split_ifs <;> constructor <;> linarith
  · rw [if_neg c]
    refine ⟨stpmax, ?_, h1, h2⟩
    unfold cstep4
    rw [if_neg (by simp), if_pos (show Num.val stp > Num.val stx from h)]

/-- The step of `opk_cstep` inside a bracket, the third and fourth cases. -/
theorem cstep_inner {stx fx dx sty fy dy stp fp dp stpmin stpmax : ℝ} (h : stx < stp) (hd : dx < 0) (ho : dp < 0)
    (h1 : stp < stpmax) (h2 : stp < sty) (hf : 4 * (fp - fy) + dp * (sty - stp) ≤ 0) :
    ∃ s, (if |dp| < |dx| then
            cstep3 true (.val stx) (.val fx) (.val dx) (.val sty) (.val stp) (.val fp) (.val dp) (.val stpmin) (.val stpmax)
          else cstep4 true (.val stx) (.val sty) (.val fy) (.val dy) (.val stp) (.val fp) (.val dp) (.val stpmin) (.val stpmax)) = Num.val s ∧
      stp < s ∧ s < sty := by
  have hh : 0 < stp - stx := by linarith
  by_cases c : |dp| < |dx|
  · rw [if_pos c]
    obtain ⟨stpc, stpq, q1, q2, e⟩ := cstep3_val true (stx := stx) (fx := fx) (dx := dx) (sty := sty) (stp := stp) (fp := fp)
      (dp := dp) (stpmin := stpmin) (stpmax := stpmax) (by nlinarith) (by nlinarith) c
    refine ⟨_, e, ?_⟩
    rw [if_pos rfl]
    have p1 : stp < stpc := by
      rcases q1 with q | ⟨_, q⟩ | ⟨q, _⟩
      · by_contra hn; nlinarith
      · rw [q]; exact h1
      · linarith
    have p2 : stp < stpq := by
      have : stpq ≠ stp := q2.2 ho.ne
      refine lt_of_le_of_ne ?_ this.symm
      by_contra hn
      have := q2.1
      nlinarith
    have p3 : stp < (if |stpc - stp| < |stpq - stp| then stpc else stpq) := by split_ifs <;> assumption
    dsimp only
    generalize (if |stpc - stp| < |stpq - stp| then stpc else stpq) = t at p3
    simp only [gt_iff_lt, h, if_true]
    split_ifs with c2
    · constructor <;> linarith
    · constructor <;> linarith
  · rw [if_neg c]
    obtain ⟨s, e, s1, s2⟩ := cstep4_val (stx := stx) (dy := dy) (fp := fp) (fy := fy) (stpmin := stpmin) (stpmax := stpmax)
      (mul_neg_of_neg_of_pos ho (sub_pos.mpr h2)) hf
    rw [min_eq_left h2.le] at s1
    rw [max_eq_right h2.le] at s2
    exact ⟨s, e, s1, s2⟩

/-- Change of the stage. -/
def Csrch.atStage (c : Csrch ℝ) (k : ℕ) : Csrch ℝ := { c with stage := k }

/-- Change of the interval. -/
def Csrch.within (c : Csrch ℝ) (b : Bracket ℝ) : Csrch ℝ := { c with b := b }

/-- The call of `opk_cstep` with the modified function. -/
theorem csrchCstep_mod (c : Csrch ℝ) (ft stp f g : ℝ) (h : c.stage = 1 ∧ f ≤ c.b.fx ∧ f > ft) (b' : Bracket ℝ) (s : ℝ)
    (hk : cstep (Bracket.val { c.b with fx := c.b.fx - c.b.stx * c.gtest, fy := c.b.fy - c.b.sty * c.gtest, dx := c.b.dx - c.gtest, dy := c.b.dy - c.gtest })
      (.val stp) (.val (f - stp * c.gtest)) (.val (g - c.gtest)) (.val c.stmin) (.val c.stmax) = (.success, b'.val, .val s)) :
    csrchCstep c.val (.val ft) (.val stp) (.val f) (.val g) =
      (.success, Bracket.val { b' with fx := b'.fx + b'.stx * c.gtest, fy := b'.fy + b'.sty * c.gtest, dx := b'.dx + c.gtest, dy := b'.dy + c.gtest }, .val s) := by
  unfold csrchCstep
  refine (if_pos (show _ from h)).trans ?_
  change (fun r : Status × Bracket (Num ℝ) × Num ℝ => if r.1 ≠ .success then (r.1, c.val.b, Num.val stp) else
    (r.1, ({ r.2.1 with fx := r.2.1.fx + r.2.1.stx * .val c.gtest, fy := r.2.1.fy + r.2.1.sty * .val c.gtest, dx := r.2.1.dx + .val c.gtest, dy := r.2.1.dy + .val c.gtest } : Bracket (Num ℝ)), r.2.2))
    (cstep (Bracket.val { c.b with fx := c.b.fx - c.b.stx * c.gtest, fy := c.b.fy - c.b.sty * c.gtest, dx := c.b.dx - c.gtest, dy := c.b.dy - c.gtest })
      (.val stp) (.val (f - stp * c.gtest)) (.val (g - c.gtest)) (.val c.stmin) (.val c.stmax)) = _
  rw [hk]
  rfl

/-- The interval during a search: there is no bracket yet, or a bracket of a minimum of the modified function, or one of
a minimum of the function. -/
inductive Kind (ls : Ls ℝ (Csrch ℝ)) : Prop
  | free (hb : ls.m.b.brackt = false) (hs : ls.m.stage = 1) (hx : ls.m.b.stx < ls.stp ∨ ls.stp = ls.stpmin)
      (hd : ls.m.b.dx < ls.m.gtest) (hf : ls.m.b.fx ≤ ls.finit + ls.m.b.stx * ls.m.gtest) (hm : ls.m.stmin ≤ ls.m.stmax)
      (hu : ls.stp < ls.m.stmax ∨ ls.stp = ls.stpmax) : Kind ls
  | first (hb : ls.m.b.brackt = true) (hs : ls.m.stage = 1) (hx : ls.m.b.stx < ls.m.b.sty)
      (hd : ls.m.b.dx < ls.m.gtest) (hf : ls.m.b.fx ≤ ls.finit + ls.m.b.stx * ls.m.gtest)
      (hy : ls.m.b.fx ≤ ls.m.b.fy ∨ ls.finit + ls.m.b.sty * ls.m.gtest ≤ ls.m.b.fy)
      (h1 : ls.m.stmin = min ls.m.b.stx ls.m.b.sty) (h2 : ls.m.stmax = max ls.m.b.stx ls.m.b.sty) : Kind ls
  | second (hb : ls.m.b.brackt = true) (hs : ls.m.stage ≠ 1) (hd : ls.m.b.dx * (ls.m.b.sty - ls.m.b.stx) < 0)
      (hf : ls.m.b.fx ≤ ls.m.b.fy) (hr : ls.m.b.fx ≤ ls.finit + max ls.m.b.stx ls.m.b.sty * ls.m.gtest)
      (h1 : ls.m.stmin = min ls.m.b.stx ls.m.b.sty) (h2 : ls.m.stmax = max ls.m.b.stx ls.m.b.sty) : Kind ls

/-- A step which has been tried, or zero. -/
def Seen (lo hi s : ℝ) : Prop := (s = 0 ∨ lo ≤ s) ∧ s ≤ hi

/-- The parameters during a search. -/
structure Inv (ls : Ls ℝ (Csrch ℝ)) : Prop where
  task : ls.task = .search
  g0 : ls.ginit < 0
  f0 : 0 ≤ ls.m.ftol
  f1 : ls.m.ftol < 1
  fg : ls.m.ftol ≤ ls.m.gtol
  gt : ls.m.gtest = ls.m.ftol * ls.ginit
  lo : ls.stpmin ≤ ls.stp
  hi : ls.stp ≤ ls.stpmax
  kind : Kind ls
  sx : Seen ls.stpmin ls.stpmax ls.m.b.stx
  sy : ls.m.b.brackt = true → Seen ls.stpmin ls.stpmax ls.m.b.sty

/-- How the interval is updated: the current step replaces one of its end points, and the next step is strictly inside, provided
`ftol` is small. -/
def Stepped (ls : Ls ℝ (Csrch ℝ)) (b : Bracket ℝ) (s : Num ℝ) : Prop :=
  (b.stx = ls.stp ∧ (b.sty = ls.m.b.stx ∨ ls.m.b.brackt = true ∧ b.sty = ls.m.b.sty) ∨ b.stx = ls.m.b.stx ∧ b.sty = ls.stp) ∧
  (4 * ls.m.ftol ≤ ls.m.gtol → ∃ t, s = .val t ∧ min b.stx b.sty < t ∧ t < max b.stx b.sty)

/-- The possible results of the call of `opk_cstep`. -/
def Outcome (ls : Ls ℝ (Csrch ℝ)) (k : ℕ) (b : Bracket ℝ) (s : Num ℝ) : Prop :=
  (b.brackt = false ∧ k = 1 ∧ b.stx = ls.stp ∧ (∃ t, s = .val t ∧ ls.stp < t ∧ ls.m.stmin ≤ t) ∧ ls.stp < ls.stpmax ∧
    b.dx < ls.m.gtest ∧ b.fx ≤ ls.finit + b.stx * ls.m.gtest ∧ ls.m.b.brackt = false) ∨
  (Stepped ls b s ∧
    (b.brackt = true ∧ k = 1 ∧ b.stx < b.sty ∧ b.dx < ls.m.gtest ∧ b.fx ≤ ls.finit + b.stx * ls.m.gtest ∧
      (b.fx ≤ b.fy ∨ ls.finit + b.sty * ls.m.gtest ≤ b.fy) ∨
    b.brackt = true ∧ k ≠ 1 ∧ b.dx * (b.sty - b.stx) < 0 ∧ b.fx ≤ b.fy ∧ b.fx ≤ ls.finit + max b.stx b.sty * ls.m.gtest))

/-- What the call of `opk_cstep` does. -/
theorem core (ls : Ls ℝ (Csrch ℝ)) (h : Inv ls) (f g : ℝ)
    (t0 : ¬ (f ≤ ls.finit + ls.stp * ls.m.gtest ∧ |g| ≤ -ls.m.gtol * ls.ginit))
    (t2 : ¬ (ls.stp = ls.stpmax ∧ f ≤ ls.finit + ls.stp * ls.m.gtest ∧ g ≤ ls.m.gtest))
    (t4 : ¬ (ls.m.b.brackt = true ∧ (ls.stp ≤ ls.m.stmin ∨ ls.stp ≥ ls.m.stmax)))
    (hx : ls.m.b.brackt = false → ls.m.b.stx < ls.stp) :
    ∃ (k : ℕ) (b : Bracket ℝ) (s : Num ℝ), (if ls.m.stage = 1 ∧ f ≤ ls.finit + ls.stp * ls.m.gtest ∧ g ≥ 0 then 2 else ls.m.stage) = k ∧
      csrchCstep (ls.m.atStage k).val (.val (ls.finit + ls.stp * ls.m.gtest)) (.val ls.stp) (.val f) (.val g) = (.success, b.val, s) ∧
      Outcome ls k b s := by
  obtain ⟨_, g0, f0, f1, fg, gt, lo, hi, kind, _, _⟩ := h
  have gt0 : ls.m.gtest ≤ 0 := by rw [gt]; nlinarith
  have gtq : -ls.m.gtest ≤ -ls.m.gtol * ls.ginit := by rw [gt]; nlinarith
  have ng : f ≤ ls.finit + ls.stp * ls.m.gtest → g ≠ 0 := by
    intro hf e
    refine t0 ⟨hf, ?_⟩
    rw [e, abs_zero]
    linarith
  generalize hft : ls.finit + ls.stp * ls.m.gtest = ft at *
  generalize hk : (if ls.m.stage = 1 ∧ f ≤ ft ∧ g ≥ 0 then 2 else ls.m.stage) = k
  refine ⟨k, ?_⟩
  -- the regular call
  have reg : ¬ (k = 1 ∧ f ≤ ls.m.b.fx ∧ f > ft) → csrchCstep (ls.m.atStage k).val (.val ft) (.val ls.stp) (.val f) (.val g) =
      cstep ls.m.b.val (.val ls.stp) (.val f) (.val g) (.val ls.m.stmin) (.val ls.m.stmax) := by
    intro hn
    unfold csrchCstep
    exact if_neg hn
  have main : ls.m.b.dx < ls.m.gtest → ls.m.b.fx ≤ ls.finit + ls.m.b.stx * ls.m.gtest → ls.m.b.stx < ls.stp → ls.m.stage = 1 →
      (ls.m.b.brackt = true → ls.stp < ls.m.b.sty ∧ (ls.m.b.fx ≤ ls.m.b.fy ∨ ls.finit + ls.m.b.sty * ls.m.gtest ≤ ls.m.b.fy)) →
      ls.m.stmin ≤ ls.m.stmax → (ls.m.b.brackt = true → ls.stp < ls.m.stmax) → (ls.m.b.brackt = false → ls.stp < ls.m.stmax ∨ ls.stp = ls.stpmax) →
      ∃ (b : Bracket ℝ) (s : Num ℝ), k = k ∧
      csrchCstep (ls.m.atStage k).val (.val ft) (.val ls.stp) (.val f) (.val g) = (.success, b.val, s) ∧
      Outcome ls k b s := by
    intro hd hf hx hs hy hm hi' hu
    have hdn : ls.m.b.dx < 0 := by linarith
    have hdes : ls.m.b.dx * (ls.stp - ls.m.b.stx) < 0 := mul_neg_of_neg_of_pos hdn (by linarith)
    have hins : ls.m.b.brackt = true → min ls.m.b.stx ls.m.b.sty < ls.stp ∧ ls.stp < max ls.m.b.stx ls.m.b.sty :=
      fun hb => ⟨(min_le_left _ _).trans_lt hx, (hy hb).1.trans_le (le_max_right _ _)⟩
    have key := cstep_cases ls.m.b ls.stp f g ls.m.stmin ls.m.stmax hm hdes hins
    by_cases cm : k = 1 ∧ f ≤ ls.m.b.fx ∧ f > ft
    · -- modified function: always the first case
      have hdm : (ls.m.b.dx - ls.m.gtest) * (ls.stp - ls.m.b.stx) < 0 := mul_neg_of_neg_of_pos (by linarith) (by linarith)
      have hfm : ls.m.b.fx - ls.m.b.stx * ls.m.gtest < f - ls.stp * ls.m.gtest := by have := cm.2.2; linarith
      have key := cstep_cases { ls.m.b with fx := ls.m.b.fx - ls.m.b.stx * ls.m.gtest, fy := ls.m.b.fy - ls.m.b.sty * ls.m.gtest, dx := ls.m.b.dx - ls.m.gtest, dy := ls.m.b.dy - ls.m.gtest }
        ls.stp (f - ls.stp * ls.m.gtest) (g - ls.m.gtest) ls.m.stmin ls.m.stmax hm hdm hins
      rw [if_pos hfm] at key
      obtain ⟨s, es, is⟩ := cstep1_val (dp := g - ls.m.gtest) hdm hfm
      refine ⟨{ ls.m.b with sty := ls.stp, fy := f, dy := g, brackt := true }, .val s, rfl, ?_,
        Or.inr ⟨⟨Or.inr ⟨rfl, rfl⟩, fun _ => ⟨s, rfl, is⟩⟩, Or.inl ⟨rfl, cm.1, hx, hd, hf, Or.inr ?_⟩⟩⟩
      · refine (csrchCstep_mod (ls.m.atStage k) ft ls.stp f g cm _ s (key.trans (by rw [es]))).trans ?_
        refine congrArg (fun b => (Status.success, Bracket.val b, Num.val s)) ?_
        dsimp only [Csrch.atStage]
        simp only [sub_add_cancel]
      · show ls.finit + ls.stp * ls.m.gtest ≤ f
        rw [hft]; exact cm.2.2.le
    rw [reg cm, key]
    by_cases c1 : f > ls.m.b.fx
    · rw [if_pos c1]
      obtain ⟨s, es, is⟩ := cstep1_val (dp := g) hdes c1
      refine ⟨{ ls.m.b with sty := ls.stp, fy := f, dy := g, brackt := true }, .val s, rfl, by rw [es],
        Or.inr ⟨⟨Or.inr ⟨rfl, rfl⟩, fun _ => ⟨s, rfl, is⟩⟩, ?_⟩⟩
      by_cases k1 : k = 1
      · exact Or.inl ⟨rfl, k1, hx, hd, hf, Or.inl c1.le⟩
      · have hff : f ≤ ft := by
          by_contra hn
          exact k1 (by rw [← hk, if_neg (fun q => hn q.2.1)]; exact hs)
        refine Or.inr ⟨rfl, k1, hdes, c1.le, ?_⟩
        show ls.m.b.fx ≤ ls.finit + max ls.m.b.stx ls.stp * ls.m.gtest
        rw [max_eq_right hx.le, hft]
        exact c1.le.trans hff
    rw [if_neg c1]
    have hff : f ≤ ft := by
      by_contra hn
      have : k = 1 := by rw [← hk, if_neg (fun q => hn q.2.1)]; exact hs
      exact cm ⟨this, not_lt.mp c1, not_le.mp hn⟩
    by_cases gs : g < 0
    · have k1 : k = 1 := by rw [← hk, if_neg (fun q => absurd q.2.2 (not_le.mpr gs))]; exact hs
      have big : -ls.m.gtol * ls.ginit < -g := by
        have : ¬ |g| ≤ -ls.m.gtol * ls.ginit := fun q => t0 ⟨hff, q⟩
        rw [abs_of_neg gs] at this
        exact not_le.mp this
      have gl : g < ls.m.gtest := by linarith
      have lt : ls.stp < ls.stpmax := lt_of_le_of_ne hi fun q => t2 ⟨q, hff, gl.le⟩
      rw [if_neg (not_lt.mpr (mul_pos_of_neg_of_neg gs hdn).le)]
      by_cases hb : ls.m.b.brackt = false
      · rw [hb]
        obtain ⟨s, es, hs⟩ := cstep_further (stx := ls.m.b.stx) (fx := ls.m.b.fx) (dx := ls.m.b.dx) (sty := ls.m.b.sty) (fy := ls.m.b.fy) (dy := ls.m.b.dy)
          (stp := ls.stp) (fp := f) (dp := g) (stpmin := ls.m.stmin) (stpmax := ls.m.stmax) hx hdn gs ((hu hb).resolve_right lt.ne) hm
        refine ⟨{ ls.m.b with stx := ls.stp, fx := f, dx := g, brackt := false }, .val s, rfl, by rw [es], Or.inl ⟨rfl, k1, rfl, ⟨s, rfl, hs⟩, lt, gl, ?_, hb⟩⟩
        show f ≤ ls.finit + ls.stp * ls.m.gtest
        rw [hft]; exact hff
      · have hb : ls.m.b.brackt = true := by simpa using hb
        rw [hb]
        obtain ⟨y1, y2⟩ := hy hb
        refine ⟨{ ls.m.b with stx := ls.stp, fx := f, dx := g, brackt := true }, _, rfl, rfl,
          Or.inr ⟨⟨Or.inl ⟨rfl, Or.inr ⟨hb, rfl⟩⟩, fun q4 => ?_⟩, Or.inl ⟨rfl, k1, y1, gl, ?_, ?_⟩⟩⟩
        · obtain ⟨t, et, t1, t2⟩ := cstep_inner (stx := ls.m.b.stx) (fx := ls.m.b.fx) (dx := ls.m.b.dx) (sty := ls.m.b.sty) (fy := ls.m.b.fy) (dy := ls.m.b.dy)
            (stp := ls.stp) (fp := f) (dp := g) (stpmin := ls.m.stmin) (stpmax := ls.m.stmax) hx hdn gs (hi' hb) y1 (by
              rcases y2 with q | q
              · have : g * (ls.m.b.sty - ls.stp) ≤ 0 := mul_nonpos_of_nonpos_of_nonneg gs.le (by linarith)
                have := (not_lt.mp c1).trans q
                linarith
              · have : g ≤ 4 * ls.m.gtest := by rw [gt]; nlinarith
                have : g * (ls.m.b.sty - ls.stp) ≤ 4 * ls.m.gtest * (ls.m.b.sty - ls.stp) := mul_le_mul_of_nonneg_right this (by linarith)
                linarith)
          refine ⟨t, et, ?_⟩
          show min ls.stp ls.m.b.sty < t ∧ t < max ls.stp ls.m.b.sty
          rw [min_eq_left y1.le, max_eq_right y1.le]
          exact ⟨t1, t2⟩
        · show f ≤ ls.finit + ls.stp * ls.m.gtest
          rw [hft]; exact hff
        · exact y2.imp (fun q => (not_lt.mp c1).trans q) id
    · have gp : 0 < g := lt_of_le_of_ne (not_lt.mp gs) (ng hff).symm
      have k1 : k ≠ 1 := by rw [← hk, if_pos ⟨hs, hff, gp.le⟩]; simp
      rw [if_pos (mul_neg_of_pos_of_neg gp hdn)]
      obtain ⟨s, es, is⟩ := cstep2_val hdes (not_lt.mp c1) (mul_pos gp (by linarith))
      refine ⟨{ stx := ls.stp, fx := f, dx := g, sty := ls.m.b.stx, fy := ls.m.b.fx, dy := ls.m.b.dx, brackt := true }, .val s, rfl, by rw [es],
        Or.inr ⟨⟨Or.inl ⟨rfl, Or.inl rfl⟩, fun _ => ⟨s, rfl, by rw [min_comm, max_comm]; exact is⟩⟩, Or.inr ⟨rfl, k1, ?_, not_lt.mp c1, ?_⟩⟩⟩
      · exact mul_neg_of_pos_of_neg gp (by show ls.m.b.stx - ls.stp < 0; linarith)
      · show f ≤ ls.finit + max ls.stp ls.m.b.stx * ls.m.gtest
        rw [max_eq_left hx.le, hft]
        exact hff
  cases kind with
  | free hb hs hx' hd hf hm hu => exact main hd hf (hx hb) hs (fun q => by rw [hb] at q; cases q) hm (fun q => by rw [hb] at q; cases q) (fun _ => hu)
  | first hb hs hxy hd hf hy h1 h2 =>
    have t4 : ls.m.stmin < ls.stp ∧ ls.stp < ls.m.stmax := by
      constructor
      · by_contra hn; exact t4 ⟨hb, Or.inl (not_lt.mp hn)⟩
      · by_contra hn; exact t4 ⟨hb, Or.inr (not_lt.mp hn)⟩
    have t5 := t4.2
    rw [h1, h2, min_eq_left hxy.le, max_eq_right hxy.le] at t4
    exact main hd hf t4.1 hs (fun _ => ⟨t4.2, hy⟩) (by rw [h1, h2, min_eq_left hxy.le, max_eq_right hxy.le]; exact hxy.le) (fun _ => t5) (fun q => by rw [hb] at q; cases q)
  | second hb hs hd hf hr h1 h2 =>
    have t4 : ls.m.stmin < ls.stp ∧ ls.stp < ls.m.stmax := by
      constructor
      · by_contra hn; exact t4 ⟨hb, Or.inl (not_lt.mp hn)⟩
      · by_contra hn; exact t4 ⟨hb, Or.inr (not_lt.mp hn)⟩
    have k1 : k ≠ 1 := by rw [← hk, if_neg (fun q => hs q.1)]; exact hs
    have ins := t4
    rw [h1, h2] at ins
    have des : ls.m.b.dx * (ls.stp - ls.m.b.stx) < 0 := by
      rcases le_total ls.m.b.stx ls.m.b.sty with q | q
      · rw [min_eq_left q, max_eq_right q] at ins
        have : ls.m.b.dx < 0 := by by_contra hn; nlinarith
        exact mul_neg_of_neg_of_pos this (by linarith)
      · rw [min_eq_right q, max_eq_left q] at ins
        have : 0 < ls.m.b.dx := by by_contra hn; nlinarith
        exact mul_neg_of_pos_of_neg this (by linarith)
    obtain ⟨b, s, e, imp⟩ := cstep_interval ls.m.b ls.stp f g ls.m.stmin ls.m.stmax ⟨by linarith, des, fun _ => ins, fun _ => hf, fun _ => ⟨t4.1.le, t4.2.le⟩⟩
    have hbt : b.brackt = true := imp.brackt.mpr (Or.inl hb)
    have hmax : ls.m.b.fx ≤ ls.finit + max b.stx b.sty * ls.m.gtest := by
      have := mul_le_mul_of_nonpos_right (imp.shrink hb).2 gt0
      linarith
    have hff : f ≤ ls.m.b.fx → g ≠ 0 := by
      intro c1
      refine ng ?_
      have := mul_le_mul_of_nonpos_right ins.2.le gt0
      linarith
    refine ⟨b, .val s, rfl, by rw [reg (fun q => k1 q.1), e], Or.inr ⟨⟨?_, fun _ => ⟨s, rfl, ?_⟩⟩, Or.inr ⟨hbt, k1, ?_, imp.least.2.2 hbt, imp.least.1.trans hmax⟩⟩⟩
    · rcases imp.ends with ⟨ex, ey | ey⟩ | ⟨ex, ey⟩
      · exact Or.inl ⟨congrArg (fun r => r.1) ex, Or.inr ⟨hb, congrArg (fun r => r.1) ey⟩⟩
      · exact Or.inl ⟨congrArg (fun r => r.1) ex, Or.inl (congrArg (fun r => r.1) ey)⟩
      · exact Or.inr ⟨congrArg (fun r => r.1) ex, congrArg (fun r => r.1) ey⟩
    · by_cases c1 : f ≤ ls.m.b.fx
      · obtain ⟨i1, i2, i3, i4⟩ := imp.inside hbt
        have i4 := i4 (hff c1) t4.1 t4.2
        rcases le_total b.stx b.sty with q | q
        · rw [min_eq_left q] at i1 ⊢
          rw [max_eq_right q] at i2 ⊢
          exact ⟨lt_of_le_of_ne i1 i4.symm, lt_of_le_of_ne i2 i3⟩
        · rw [min_eq_right q] at i1 ⊢
          rw [max_eq_left q] at i2 ⊢
          exact ⟨lt_of_le_of_ne i1 i3.symm, lt_of_le_of_ne i2 i4⟩
      · have key := cstep_cases ls.m.b ls.stp f g ls.m.stmin ls.m.stmax (by linarith) des (fun _ => ins)
        rw [if_pos (not_le.mp c1)] at key
        obtain ⟨s', es, is⟩ := cstep1_val (dp := g) des (not_le.mp c1)
        rw [key, es] at e
        have e1 := congrArg (fun r => r.2.1) e
        have e2 := congrArg (fun r => r.2.2) e
        dsimp only at e1 e2
        injection e2 with e2
        have x1 : ls.m.b.stx = b.stx := Num.val.inj (congrArg (fun r => r.stx) e1)
        have x2 : ls.stp = b.sty := Num.val.inj (congrArg (fun r => r.sty) e1)
        rw [← x1, ← x2, ← e2]
        exact is
    by_cases c1 : f ≤ ls.m.b.fx
    · exact (imp.direction hbt).2 (hff c1)
    · rcases imp.ends with ⟨ex, _⟩ | ⟨ex, ey⟩
      · have q : b.fx = f := congrArg (fun r => r.2.1) ex
        have := imp.least.1
        exact absurd (q ▸ this) c1
      · have x1 : b.stx = ls.m.b.stx := congrArg (fun r => r.1) ex
        have x3 : b.dx = ls.m.b.dx := congrArg (fun r => r.2.2) ex
        have y1 : b.sty = ls.stp := congrArg (fun r => r.1) ey
        rw [x1, x3, y1]
        exact des

theorem finish_val (bnd : Int) (ls : Ls ℝ (Csrch ℝ)) (s : ℝ) :
    ∃ ls', (finish bnd ls.val (.val s)).1 = ls'.val ∧ ls'.stp = (if s ≤ ls.stpmin then ls.stpmin else if s ≥ ls.stpmax then ls.stpmax else s) ∧
      ls'.m = ls.m ∧ Same ls ls' ∧ (ls'.task = ls.task ∨ ls'.task = .warning) ∧ (bnd < 0 → s ≤ ls.stpmin → ls'.task = .warning) ∧
      (ls.status ≠ .roundingErrorsPreventProgress → ls'.status ≠ .roundingErrorsPreventProgress) := by
  unfold finish
  by_cases h1 : s ≤ ls.stpmin
  · rw [if_pos (show Num.val s ≤ ls.val.stpmin from h1), if_pos h1]
    by_cases h2 : bnd < 0
    · rw [if_pos h2]
      exact ⟨{ ls with stp := ls.stpmin, status := .stepEqStpmin, task := .warning }, rfl, rfl, rfl, ⟨rfl, rfl, rfl, rfl, rfl, rfl, rfl, rfl⟩, Or.inr rfl, fun _ _ => rfl, fun _ => by simp⟩
    · rw [if_neg h2]
      exact ⟨{ ls with stp := ls.stpmin }, rfl, rfl, rfl, ⟨rfl, rfl, rfl, rfl, rfl, rfl, rfl, rfl⟩, Or.inl rfl, fun q => absurd q h2, fun q => q⟩
  · rw [if_neg (show ¬ Num.val s ≤ ls.val.stpmin from h1), if_neg h1]
    by_cases h2 : s ≥ ls.stpmax
    · rw [if_pos (show Num.val s ≥ ls.val.stpmax from h2), if_pos h2]
      by_cases h3 : bnd > 0
      · rw [if_pos h3]
        exact ⟨{ ls with stp := ls.stpmax, status := .stepEqStpmax, task := .warning }, rfl, rfl, rfl, ⟨rfl, rfl, rfl, rfl, rfl, rfl, rfl, rfl⟩, Or.inr rfl, fun q => absurd q (by omega), fun _ => by simp⟩
      · rw [if_neg h3]
        exact ⟨{ ls with stp := ls.stpmax }, rfl, rfl, rfl, ⟨rfl, rfl, rfl, rfl, rfl, rfl, rfl, rfl⟩, Or.inl rfl, fun _ q => absurd q h1, fun q => q⟩
    · rw [if_neg (show ¬ Num.val s ≥ ls.val.stpmax from h2), if_neg h2]
      exact ⟨{ ls with stp := s }, rfl, rfl, rfl, ⟨rfl, rfl, rfl, rfl, rfl, rfl, rfl, rfl⟩, Or.inl rfl, fun _ q => absurd q h1, fun q => q⟩

/-- The end of an iteration. -/
noncomputable def after (ls : Ls ℝ (Csrch ℝ)) (k : ℕ) (r : Status × Bracket (Num ℝ) × Num ℝ) : Ls (Num ℝ) (Csrch (Num ℝ)) × Num ℝ :=
  if r.1 ≠ .success then (failure { ls.val with m := { (ls.m.atStage k).val with b := r.2.1 } } r.1, .val ls.stp)
  else (succeed { ls.val with m := (csrchNext (.val ls.stpmin) (.val ls.stpmax) { (ls.m.atStage k).val with b := r.2.1 } r.2.2).1 } .search,
    (csrchNext (.val ls.stpmin) (.val ls.stpmax) { (ls.m.atStage k).val with b := r.2.1 } r.2.2).2)

theorem after_success (ls : Ls ℝ (Csrch ℝ)) (k : ℕ) (b : Bracket ℝ) (s : Num ℝ) (c : Csrch ℝ) (s' : ℝ)
    (h : csrchNext (.val ls.stpmin) (.val ls.stpmax) ((ls.m.atStage k).within b).val s = (c.val, .val s')) :
    after ls k (.success, b.val, s) = (Ls.val { ls with m := c, status := .success, task := .search }, .val s') := by
  unfold after
  rw [if_neg (by simp)]
  have e : ({ (ls.m.atStage k).val with b := b.val } : Csrch (Num ℝ)) = ((ls.m.atStage k).within b).val := rfl
  dsimp only at e ⊢
  rw [e, h]
  rfl

/-- The interval is small. -/
def Small (ls : Ls ℝ (Csrch ℝ)) : Prop := ls.m.stmax - ls.m.stmin ≤ ls.m.xtol * ls.m.stmax

/-- The next step is really a new one. -/
def Fresh (ls : Ls ℝ (Csrch ℝ)) : Prop := ls.m.b.brackt = true → Small ls ∨ ls.m.stmin < ls.stp ∧ ls.stp < ls.m.stmax

/-- How an iteration which does not end the search changes the interval and the step. -/
structure Move (ls ls' : Ls ℝ (Csrch ℝ)) : Prop where
  inner : ls.m.b.brackt = true → ls.m.stmin < ls.stp ∧ ls.stp < ls.m.stmax ∧ ¬ Small ls
  keep : ls.m.b.brackt = true → ls'.m.b.brackt = true
  free : ls'.m.b.brackt = false → ls'.m.b.stx = ls.stp ∧ ls.stp < ls'.stp ∧ (ls.m.stmin ≤ ls'.stp ∨ ls'.stp = ls.stpmax) ∧
    ls'.stp + (ls'.stp - ls.stp) * (11 / 10) ≤ ls'.m.stmin
  ends : ls'.m.b.brackt = true → ls'.m.b.stx = ls.stp ∧ (ls'.m.b.sty = ls.m.b.stx ∨ ls.m.b.brackt = true ∧ ls'.m.b.sty = ls.m.b.sty) ∨
    ls'.m.b.stx = ls.m.b.stx ∧ ls'.m.b.sty = ls.stp
  width : ls'.m.b.brackt = true → ls'.m.width1 = ls.m.width ∧ ls'.m.width = |ls'.m.b.sty - ls'.m.b.stx|
  low : ls'.m.b.brackt = true → ls.stpmin < ls'.m.stmax
  bisect : ls'.m.b.brackt = true → 66 / 100 * ls.m.width1 ≤ ls'.m.width → Small ls' ∨ ls'.stp = max ((ls'.m.b.stx + ls'.m.b.sty) / 2) ls.stpmin
  fresh : 4 * ls.m.ftol ≤ ls.m.gtol → Fresh ls'

/-- One iteration. -/
theorem iterate_safe (ls : Ls ℝ (Csrch ℝ)) (h : Inv ls) (f g : ℝ) :
    ∃ ls', (iterate csrchOps ls.val (.val ls.stp) (.val f) (.val g)).1 = ls'.val ∧ ls'.task ≠ .error ∧ Same ls ls' ∧
      (ls.stpmin ≤ ls'.stp ∧ ls'.stp ≤ ls.stpmax) ∧ (ls'.task = .search → Inv ls' ∧ Move ls ls') ∧
      (Fresh ls → ls'.status ≠ .roundingErrorsPreventProgress) := by
  have hbd := h.lo.trans h.hi
  have bt : ∀ s : ℝ, ls.stpmin ≤ (if s ≤ ls.stpmin then ls.stpmin else if s ≥ ls.stpmax then ls.stpmax else s) ∧
      (if s ≤ ls.stpmin then ls.stpmin else if s ≥ ls.stpmax then ls.stpmax else s) ≤ ls.stpmax := by
    intro s
    split_ifs with c1 c2
    · exact ⟨le_refl _, hbd⟩
    · exact ⟨hbd, le_refl _⟩
    · exact ⟨(not_le.mp c1).le, (not_le.mp c2).le⟩
  -- the search stops
  have stop : ∀ (ls1 : Ls ℝ (Csrch ℝ)) (s : ℝ), csrchIterate ls.val (.val ls.stp) (.val f) (.val g) = (ls1.val, .val s) → ls1.task ≠ .search → ls1.task ≠ .error →
      Same ls ls1 → (Fresh ls → ls1.status ≠ .roundingErrorsPreventProgress) → ∃ ls', (finish (boundOf ls.val) (csrchIterate ls.val (.val ls.stp) (.val f) (.val g)).1 (csrchIterate ls.val (.val ls.stp) (.val f) (.val g)).2).1 = ls'.val ∧
      ls'.task ≠ .error ∧ Same ls ls' ∧ (ls.stpmin ≤ ls'.stp ∧ ls'.stp ≤ ls.stpmax) ∧ (ls'.task = .search → Inv ls' ∧ Move ls ls') ∧
      (Fresh ls → ls'.status ≠ .roundingErrorsPreventProgress) := by
    intro ls1 s e n1 n2 sm fr
    rw [e]
    obtain ⟨ls', e1, e2, e3, e4, e5, _, e7⟩ := finish_val (boundOf ls.val) ls1 s
    refine ⟨ls', e1, ?_, ⟨e4.finit.trans sm.finit, e4.ginit.trans sm.ginit, e4.stpmin.trans sm.stpmin, e4.stpmax.trans sm.stpmax,
      e4.ftol.trans sm.ftol, e4.gtol.trans sm.gtol, e4.gtest.trans sm.gtest, e4.xtol.trans sm.xtol⟩, ?_, ?_⟩
    · rcases e5 with q | q <;> rw [q]
      · exact n2
      · simp
    · rw [e2, sm.stpmin, sm.stpmax]; exact bt s
    · refine ⟨fun q => ?_, fun q => e7 (fr q)⟩
      rcases e5 with q' | q' <;> rw [q'] at q
      · exact absurd q n1
      · cases q
  unfold iterate
  rw [if_neg (show ¬ ls.val.task ≠ .search from fun q => q h.task), if_neg (show ¬ (!(Num.val ls.stp == ls.val.stp)) = true by simp [Ls.val])]
  dsimp only [csrchOps]
  by_cases t0 : f ≤ ls.finit + ls.stp * ls.m.gtest ∧ |g| ≤ -ls.m.gtol * ls.ginit
  · refine stop { ls with status := .success, task := .convergence } ls.stp ?_ (by simp) (by simp) ⟨rfl, rfl, rfl, rfl, rfl, rfl, rfl, rfl⟩ (fun _ => by simp)
    exact if_pos (show _ from t0)
  by_cases t1 : ls.stp = ls.stpmin ∧ (f > ls.finit + ls.stp * ls.m.gtest ∨ g ≥ ls.m.gtest)
  · refine stop { ls with status := .stepEqStpmin, task := .warning } ls.stp ?_ (by simp) (by simp) ⟨rfl, rfl, rfl, rfl, rfl, rfl, rfl, rfl⟩ (fun _ => by simp)
    refine (if_neg (show _ from t0)).trans (if_pos ⟨?_, t1.2⟩)
    show decide (ls.stp = ls.stpmin) = true
    exact decide_eq_true t1.1
  by_cases t2 : ls.stp = ls.stpmax ∧ f ≤ ls.finit + ls.stp * ls.m.gtest ∧ g ≤ ls.m.gtest
  · refine stop { ls with status := .stepEqStpmax, task := .warning } ls.stp ?_ (by simp) (by simp) ⟨rfl, rfl, rfl, rfl, rfl, rfl, rfl, rfl⟩ (fun _ => by simp)
    refine (if_neg (show _ from t0)).trans ((if_neg fun q => t1 ⟨of_decide_eq_true q.1, q.2⟩).trans (if_pos ⟨?_, t2.2⟩))
    show decide (ls.stp = ls.stpmax) = true
    exact decide_eq_true t2.1
  by_cases t3 : ls.m.b.brackt = true ∧ ls.m.stmax - ls.m.stmin ≤ ls.m.xtol * ls.m.stmax
  · refine stop { ls with status := .xtolTestSatisfied, task := .warning } ls.stp ?_ (by simp) (by simp) ⟨rfl, rfl, rfl, rfl, rfl, rfl, rfl, rfl⟩ (fun _ => by simp)
    exact (if_neg (show _ from t0)).trans ((if_neg fun q => t1 ⟨of_decide_eq_true q.1, q.2⟩).trans ((if_neg fun q => t2 ⟨of_decide_eq_true q.1, q.2⟩).trans (if_pos t3)))
  by_cases t4 : ls.m.b.brackt = true ∧ (ls.stp ≤ ls.m.stmin ∨ ls.stp ≥ ls.m.stmax)
  · refine stop { ls with status := .roundingErrorsPreventProgress, task := .warning } ls.stp ?_ (by simp) (by simp) ⟨rfl, rfl, rfl, rfl, rfl, rfl, rfl, rfl⟩ (fun fr => by
      rcases fr t4.1 with q | q
      · exact absurd ⟨t4.1, q⟩ t3
      · rcases t4.2 with w | w
        · exact absurd q.1 (not_lt.mpr w)
        · exact absurd q.2 (not_lt.mpr w))
    exact (if_neg (show _ from t0)).trans ((if_neg fun q => t1 ⟨of_decide_eq_true q.1, q.2⟩).trans ((if_neg fun q => t2 ⟨of_decide_eq_true q.1, q.2⟩).trans ((if_neg t3).trans (if_pos t4))))
  -- the call of `opk_cstep`
  have hgo : csrchIterate ls.val (.val ls.stp) (.val f) (.val g) =
      after ls (if ls.m.stage = 1 ∧ f ≤ ls.finit + ls.stp * ls.m.gtest ∧ g ≥ 0 then 2 else ls.m.stage)
        (csrchCstep (ls.m.atStage (if ls.m.stage = 1 ∧ f ≤ ls.finit + ls.stp * ls.m.gtest ∧ g ≥ 0 then 2 else ls.m.stage)).val
          (.val (ls.finit + ls.stp * ls.m.gtest)) (.val ls.stp) (.val f) (.val g)) := by
    refine (if_neg (show _ from t0)).trans ((if_neg fun q => t1 ⟨of_decide_eq_true q.1, q.2⟩).trans ((if_neg fun q => t2 ⟨of_decide_eq_true q.1, q.2⟩).trans ((if_neg t3).trans ((if_neg t4).trans ?_))))
    have e : (if ls.val.m.stage = 1 ∧ Num.val f ≤ ls.val.finit + Num.val ls.stp * ls.val.m.gtest ∧ Num.val g ≥ 0 then { ls.val.m with stage := 2 } else ls.val.m) =
        (ls.m.atStage (if ls.m.stage = 1 ∧ f ≤ ls.finit + ls.stp * ls.m.gtest ∧ g ≥ 0 then 2 else ls.m.stage)).val := by
      by_cases c : ls.m.stage = 1 ∧ f ≤ ls.finit + ls.stp * ls.m.gtest ∧ g ≥ 0
      · rw [if_pos c]; exact if_pos (show _ from c)
      · rw [if_neg c]; exact if_neg (show _ from c)
    rw [e]
    rfl
  by_cases hx : ls.m.b.brackt = false → ls.m.b.stx < ls.stp
  · obtain ⟨k, b, s, ek, er, hk⟩ := core ls h f g t0 t2 t4 hx
    rw [ek, er] at hgo
    rcases hk with ⟨hb, k1, x1, ⟨s, rfl, x2, x2'⟩, x3, x4, x5, x6⟩ | hk
    · rw [after_success ls k b (.val s) _ _ (next_free ls.stpmin ls.stpmax ((ls.m.atStage k).within b) s hb)] at hgo
      rw [hgo]
      dsimp only
      obtain ⟨ls', e1, e2, e3, e4, e5, _, e7⟩ := finish_val (boundOf ls.val) { ls with m := { (ls.m.atStage k).within b with stmin := s + (s - b.stx) * ((11 : ℕ) / (10 : ℕ)), stmax := s + (s - b.stx) * ((4 : ℕ) / (1 : ℕ)) }, status := .success, task := .search } (min (max s ls.stpmin) ls.stpmax)
      have e4' : Same ls ls' := ⟨e4.finit, e4.ginit, e4.stpmin, e4.stpmax, e4.ftol, e4.gtol, e4.gtest, e4.xtol⟩
      dsimp only at e2
      have l1 : ls.stp < ls'.stp := by
        rw [e2]
        have h1 : ls.stp < min (max s ls.stpmin) ls.stpmax := lt_min (lt_max_of_lt_left x2) x3
        split_ifs with c1 c2
        · have := h.lo; linarith
        · exact x3
        · exact h1
      have l2 : ls'.stp ≤ s := by
        rw [e2]
        have hs : max s ls.stpmin = s := max_eq_left (h.lo.trans x2.le)
        rw [hs]
        split_ifs with c1 c2
        · have := h.lo; linarith
        · exact (le_min_iff.mp c2).1
        · exact min_le_left _ _
      have l3 : ls.m.stmin ≤ ls'.stp ∨ ls'.stp = ls.stpmax := by
        rw [e2]
        have hs : max s ls.stpmin = s := max_eq_left (h.lo.trans x2.le)
        rw [hs]
        split_ifs with c1 c2
        · have h1 : ls.stp < min s ls.stpmax := lt_min x2 x3
          have := h.lo
          linarith
        · exact Or.inr rfl
        · rcases le_total s ls.stpmax with q | q
          · rw [min_eq_left q]; exact Or.inl x2'
          · rw [min_eq_right q]; exact Or.inr rfl
      refine ⟨ls', e1, ?_, e4', ?_, ?_, fun _ => e7 (by simp)⟩
      · rcases e5 with q | q <;> rw [q] <;> simp
      · rw [e2]; exact bt _
      · intro q
        have bt := bt (min (max s ls.stpmin) ls.stpmax)
        rw [← e2] at bt
        have hb' : ls'.m.b.brackt = false := by rw [e3]; exact hb
        refine ⟨⟨q, by rw [e4'.ginit]; exact h.g0, by rw [e4'.ftol]; exact h.f0, by rw [e4'.ftol]; exact h.f1, by rw [e4'.ftol, e4'.gtol]; exact h.fg,
          by rw [e4'.gtest, e4'.ftol, e4'.ginit]; exact h.gt, by rw [e4'.stpmin]; exact bt.1, by rw [e4'.stpmax]; exact bt.2, ?_, ?_, fun q => by rw [hb'] at q; cases q⟩, ?_⟩
        · refine Kind.free hb' (by rw [e3]; exact k1) (Or.inl ?_) ?_ ?_ ?_ (Or.inl ?_)
          · rw [e3]; show b.stx < ls'.stp; rw [x1]; exact l1
          · rw [e3]; exact x4
          · rw [e3, e4.finit]; exact x5
          · rw [e3]
            show s + (s - b.stx) * ((11 : ℕ) / (10 : ℕ)) ≤ s + (s - b.stx) * ((4 : ℕ) / (1 : ℕ))
            rw [x1]
            push_cast
            linarith
          · rw [e3]
            show ls'.stp < s + (s - b.stx) * ((4 : ℕ) / (1 : ℕ))
            rw [x1]
            push_cast
            linarith
        · rw [e3, e4'.stpmin, e4'.stpmax]
          show Seen ls.stpmin ls.stpmax b.stx
          rw [x1]
          exact ⟨Or.inr h.lo, h.hi⟩
        · have n1 : ∀ {P : Prop}, ls.m.b.brackt = true → P := by rw [x6]; intro P q; cases q
          have n2 : ∀ {P : Prop}, ls'.m.b.brackt = true → P := by rw [hb']; intro P q; cases q
          refine ⟨n1, n1, fun _ => ⟨by rw [e3]; exact x1, l1, l3, ?_⟩, n2, n2, n2, n2, fun _ => n2⟩
          rw [e3]
          show ls'.stp + (ls'.stp - ls.stp) * (11 / 10) ≤ s + (s - b.stx) * ((11 : ℕ) / (10 : ℕ))
          rw [x1]
          push_cast
          linarith
    · obtain ⟨⟨en', ins⟩, hk⟩ := hk
      have hb : b.brackt = true := by rcases hk with q | q <;> exact q.1
      obtain ⟨t, en, tm, tu⟩ := next_bracketed ls.stpmin ls.stpmax ((ls.m.atStage k).within b) s hb
      rw [after_success ls k b s _ _ en] at hgo
      rw [hgo]
      dsimp only
      obtain ⟨ls', e1, e2, e3, e4, e5, e6, e7⟩ := finish_val (boundOf ls.val) { ls with m := { (ls.m.atStage k).within b with width1 := ls.m.width, width := |b.sty - b.stx|, stmin := min b.stx b.sty, stmax := max b.stx b.sty }, status := .success, task := .search } (tried ls.stpmin ls.stpmax ((ls.m.atStage k).within b) t)
      have e4' : Same ls ls' := ⟨e4.finit, e4.ginit, e4.stpmin, e4.stpmax, e4.ftol, e4.gtol, e4.gtest, e4.xtol⟩
      dsimp only at e2
      refine ⟨ls', e1, ?_, e4', ?_, ?_, fun _ => e7 (by simp)⟩
      · rcases e5 with q | q <;> rw [q] <;> simp
      · rw [e2]; exact bt _
      · intro q
        have bt := bt (tried ls.stpmin ls.stpmax ((ls.m.atStage k).within b) t)
        rw [← e2] at bt
        have hx0 : Seen ls.stpmin ls.stpmax ls.stp := ⟨Or.inr h.lo, h.hi⟩
        have sx : Seen ls.stpmin ls.stpmax b.stx := by
          rcases en' with ⟨w, -⟩ | ⟨w, -⟩ <;> rw [w]
          · exact hx0
          · exact h.sx
        have sy : Seen ls.stpmin ls.stpmax b.sty := by
          rcases en' with ⟨-, w | ⟨w', w⟩⟩ | ⟨-, w⟩ <;> rw [w]
          · exact h.sx
          · exact h.sy w'
          · exact hx0
        have hne : min b.stx b.sty < max b.stx b.sty := by
          rw [min_lt_max]
          rcases hk with ⟨_, _, w, _⟩ | ⟨_, _, w, _⟩
          · exact w.ne
          · intro e; rw [e] at w; simp at w
        have hmx : max b.stx b.sty ≤ ls.stpmax := max_le sx.2 sy.2
        have hlow : ls.stpmin < max b.stx b.sty := by
          by_contra hn
          have hn := not_lt.mp hn
          have s1 : ls.stp ≤ max b.stx b.sty := by
            rcases en' with ⟨w, -⟩ | ⟨-, w⟩ <;> rw [w]
            · exact le_max_left _ _
            · exact le_max_right _ _
          have s2 : boundOf ls.val = -1 := if_pos (show ls.stp ≤ ls.stpmin from s1.trans hn)
          have s3 : tried ls.stpmin ls.stpmax ((ls.m.atStage k).within b) t ≤ ls.stpmin := by
            unfold tried
            dsimp only [Csrch.within]
            by_cases c : min (max t ls.stpmin) ls.stpmax ≤ min b.stx b.sty ∨ min (max t ls.stpmin) ls.stpmax ≥ max b.stx b.sty ∨
                max b.stx b.sty - min b.stx b.sty ≤ (ls.m.atStage k).xtol * max b.stx b.sty
            · exact (if_pos c).le.trans ((le_max_left _ _).trans hn)
            · have := not_or.mp (not_or.mp c).2
              exact (if_neg c).le.trans ((not_le.mp this.1).le.trans hn)
          have := e6 (by rw [s2]; omega) s3
          rw [this] at q; cases q
        -- a step strictly inside is kept
        have hkeep : min b.stx b.sty < t → t < max b.stx b.sty →
            max b.stx b.sty - min b.stx b.sty ≤ ls.m.xtol * max b.stx b.sty ∨
            (ls'.stp = max t ls.stpmin ∧ min b.stx b.sty < ls'.stp ∧ ls'.stp < max b.stx b.sty) := by
          intro t1 t2
          by_cases c : max b.stx b.sty - min b.stx b.sty ≤ ls.m.xtol * max b.stx b.sty
          · exact Or.inl c
          · have m1 : max t ls.stpmin < max b.stx b.sty := max_lt t2 hlow
            have m2 : min (max t ls.stpmin) ls.stpmax = max t ls.stpmin := min_eq_left (m1.le.trans hmx)
            have m3 : min b.stx b.sty < max t ls.stpmin := lt_max_of_lt_left t1
            have m4 : tried ls.stpmin ls.stpmax ((ls.m.atStage k).within b) t = max t ls.stpmin := by
              unfold tried
              rw [m2]
              refine if_neg ?_
              rintro (w | w | w)
              · exact absurd w (not_le.mpr m3)
              · exact absurd w (not_le.mpr m1)
              · exact c w
            have m5 : ls'.stp = max t ls.stpmin := by
              rw [e2, m4]
              split_ifs with c1 c2
              · exact le_antisymm (le_max_right _ _) c1
              · exact absurd (m1.trans_le hmx) (not_lt.mpr c2)
              · rfl
            exact Or.inr ⟨m5, by rw [m5]; exact m3, by rw [m5]; exact m1⟩
        have hb' : ls'.m.b.brackt = true := by rw [e3]; exact hb
        have hmid : min b.stx b.sty < b.stx + 1 / 2 * (b.sty - b.stx) ∧ b.stx + 1 / 2 * (b.sty - b.stx) < max b.stx b.sty :=
          between_of_ratio (by norm_num) (by norm_num) (min_lt_max.mp hne)
        refine ⟨⟨q, by rw [e4'.ginit]; exact h.g0, by rw [e4'.ftol]; exact h.f0, by rw [e4'.ftol]; exact h.f1, by rw [e4'.ftol, e4'.gtol]; exact h.fg,
          by rw [e4'.gtest, e4'.ftol, e4'.ginit]; exact h.gt, by rw [e4'.stpmin]; exact bt.1, by rw [e4'.stpmax]; exact bt.2, ?_, ?_, ?_⟩, ?_⟩
        · rcases hk with ⟨_, k1, x1, x2, x3, x4⟩ | ⟨_, k1, x1, x2, x3⟩
          · refine Kind.first hb' (by rw [e3]; exact k1) (by rw [e3]; exact x1) (by rw [e3]; exact x2) (by rw [e3, e4.finit]; exact x3)
              (by rw [e3, e4.finit]; exact x4) (by rw [e3]; rfl) (by rw [e3]; rfl)
          · exact Kind.second hb' (by rw [e3]; exact k1) (by rw [e3]; exact x1) (by rw [e3]; exact x2) (by rw [e3, e4.finit]; exact x3) (by rw [e3]; rfl) (by rw [e3]; rfl)
        · rw [e3, e4'.stpmin, e4'.stpmax]; exact sx
        · rw [e3, e4'.stpmin, e4'.stpmax]; exact fun _ => sy
        · refine ⟨fun w => ?_, fun _ => hb', fun w => (by rw [hb'] at w; cases w), fun _ => by rw [e3]; exact en', fun _ => by rw [e3]; exact ⟨rfl, rfl⟩,
            fun _ => by rw [e3]; exact hlow, fun _ w => ?_, fun w _ => ?_⟩
          · refine ⟨?_, ?_, fun z => t3 ⟨w, z⟩⟩
            · by_contra z; exact t4 ⟨w, Or.inl (not_lt.mp z)⟩
            · by_contra z; exact t4 ⟨w, Or.inr (not_lt.mp z)⟩
          · rw [e3] at w
            have et := tm w
            dsimp only [Csrch.within] at et
            unfold Small
            rw [e3]
            show max b.stx b.sty - min b.stx b.sty ≤ ls.m.xtol * max b.stx b.sty ∨ ls'.stp = max ((b.stx + b.sty) / 2) ls.stpmin
            refine (hkeep (by rw [et]; exact hmid.1) (by rw [et]; exact hmid.2)).imp id fun z => ?_
            rw [z.1, et]
            congr 1
            ring
          · unfold Small
            rw [e3]
            show max b.stx b.sty - min b.stx b.sty ≤ ls.m.xtol * max b.stx b.sty ∨ min b.stx b.sty < ls'.stp ∧ ls'.stp < max b.stx b.sty
            obtain ⟨u, eu, u1, u2⟩ := ins w
            have : min b.stx b.sty < t ∧ t < max b.stx b.sty := by
              by_cases c : |((ls.m.atStage k).within b).b.sty - ((ls.m.atStage k).within b).b.stx| ≥ 66 / 100 * ((ls.m.atStage k).within b).width1
              · rw [tm c]; exact hmid
              · rw [tu c u eu]; exact ⟨u1, u2⟩
            exact (hkeep this.1 this.2).imp id fun z => z.2
  · -- no step: the error is replaced by a warning
    have hx := _root_.not_imp.mp hx
    have kf := h.kind
    cases kf with
    | first hb => rw [hx.1] at hb; cases hb
    | second hb => rw [hx.1] at hb; cases hb
    | free hb hs hx' hd hf hm hu =>
      have es : ls.stp = ls.stpmin := hx'.resolve_left hx.2
      have gt0 : ls.m.gtest ≤ 0 := by rw [h.gt]; exact mul_nonpos_of_nonneg_of_nonpos h.f0 h.g0.le
      have hc : ∀ k : ℕ, csrchCstep (ls.m.atStage k).val (.val (ls.finit + ls.stp * ls.m.gtest)) (.val ls.stp) (.val f) (.val g) = (.notADescent, ls.m.b.val, .val ls.stp) := by
        intro k
        refine (if_neg (fun q => t1 ⟨es, Or.inl q.2.2⟩)).trans ?_
        refine (if_neg (fun q => ?_)).trans (if_pos ?_)
        · have q : ls.m.b.brackt = true := q.1
          rw [hb] at q; cases q
        · show 0 ≤ ls.m.b.dx * (ls.stp - ls.m.b.stx)
          exact mul_nonneg_of_nonpos_of_nonpos (by linarith) (by linarith [not_lt.mp hx.2])
      rw [hc] at hgo
      rw [hgo]
      generalize (if ls.m.stage = 1 ∧ f ≤ ls.finit + ls.stp * ls.m.gtest ∧ g ≥ 0 then 2 else ls.m.stage) = k
      have ea : after ls k (.notADescent, ls.m.b.val, .val ls.stp) = (Ls.val { ls with m := ls.m.atStage k, status := .notADescent, task := .error }, .val ls.stp) := by
        unfold after
        rw [if_pos (by simp)]
        rfl
      rw [ea]
      dsimp only
      obtain ⟨ls', e1, e2, e3, e4, _, e6, e7⟩ := finish_val (boundOf ls.val) { ls with m := ls.m.atStage k, status := .notADescent, task := .error } ls.stp
      have e6 := e6 (by
        have : boundOf ls.val = -1 := if_pos (show ls.stp ≤ ls.stpmin from es.le)
        rw [this]; omega) es.le
      dsimp only at e2
      refine ⟨ls', e1, by rw [e6]; simp, ⟨e4.finit, e4.ginit, e4.stpmin, e4.stpmax, e4.ftol, e4.gtol, e4.gtest, e4.xtol⟩, by rw [e2]; exact bt _, fun q => ?_, fun _ => e7 (by simp)⟩
      rw [e6] at q; cases q

/-- A valid start. -/
structure Args.Ok (a : Args ℝ) : Prop where
  lo : 0 ≤ a.stpmin
  step : a.stpmin ≤ a.stp ∧ a.stp ≤ a.stpmax
  descent : a.g0 < 0

/-- `opk_lnsrch_start` with real arguments. -/
noncomputable def begun (ls : Ls (Num ℝ) (Csrch (Num ℝ))) (a : Args ℝ) : Ls (Num ℝ) (Csrch (Num ℝ)) :=
  start csrchOps ls (.val a.f0) (.val a.g0) (.val a.stp) (.val a.stpmin) (.val a.stpmax)

/-- The state after a valid start. -/
theorem start_inv (ls : Ls (Num ℝ) (Csrch (Num ℝ))) (ftol gtol xtol : ℝ) (e1 : ls.m.ftol = .val ftol) (e2 : ls.m.gtol = .val gtol)
    (e3 : ls.m.xtol = .val xtol) (h0 : 0 ≤ ftol) (h1 : ftol < 1) (h4 : ftol ≤ gtol) (a : Args ℝ) (ha : a.Ok) :
    ∃ r : Ls ℝ (Csrch ℝ), begun ls a = r.val ∧ Inv r ∧ r.finit = a.f0 ∧ r.m.gtest = ftol * a.g0 ∧ r.stpmin = a.stpmin ∧ r.stpmax = a.stpmax ∧
      r.m.xtol = xtol ∧ r.m.ftol = ftol ∧ r.m.gtol = gtol ∧ r.status = .success ∧ r.m.b.brackt = false := by
  obtain ⟨a1, a2, a3⟩ := ha
  refine ⟨⟨a.stp, a.stpmin, a.stpmax, a.f0, a.g0, .success, .search, ⟨ftol, gtol, xtol, ftol * a.g0, ⟨0, a.f0, a.g0, 0, a.f0, a.g0, false⟩, a.stpmin, a.stpmax, a.stpmax - a.stpmin,
    (a.stpmax - a.stpmin) / ((1 : ℕ) / (2 : ℕ)), 1⟩⟩, ?_, ?_, rfl, rfl, rfl, rfl, rfl, rfl, rfl, rfl, rfl⟩
  · unfold begun start
    rw [if_neg (show ¬ Num.val a.stpmin < (0 : Num ℝ) from not_lt.mpr a1), if_neg (show ¬ Num.val a.stpmin > Num.val a.stpmax from not_lt.mpr (a2.1.trans a2.2)),
      if_neg (show ¬ Num.val a.stp < Num.val a.stpmin from not_lt.mpr a2.1), if_neg (show ¬ Num.val a.stp > Num.val a.stpmax from not_lt.mpr a2.2),
      if_neg (show ¬ Num.val a.g0 ≥ (0 : Num ℝ) from not_le.mpr a3)]
    dsimp only [csrchOps, csrchStart, succeed, Ls.val, Csrch.val, Bracket.val]
    rw [e1, e2, e3, lit_val, Num.val_sub, Num.val_div (by norm_num)]
    rfl
  · refine ⟨rfl, a3, h0, h1, h4, rfl, a2.1, a2.2, Kind.free rfl rfl ?_ ?_ ?_ (a2.1.trans a2.2) ?_, ⟨Or.inl rfl, a1.trans (a2.1.trans a2.2)⟩, fun q => by cases q⟩
    · show 0 < a.stp ∨ a.stp = a.stpmin
      rcases lt_or_eq_of_le (a1.trans a2.1) with q | q
      · exact Or.inl q
      · exact Or.inr (le_antisymm (by rw [← q]; exact a1) a2.1)
    · show a.g0 < ftol * a.g0
      nlinarith
    · show a.f0 ≤ a.f0 + 0 * (ftol * a.g0)
      linarith
    · exact lt_or_eq_of_le a2.2

/-- What is claimed of a search: it has not failed and its step is a number within the bounds. -/
def Sound (a : Args ℝ) (ls : Ls (Num ℝ) (Csrch (Num ℝ))) : Prop :=
  ls.task ≠ .error ∧ ∃ s : ℝ, ls.stp = .val s ∧ a.stpmin ≤ s ∧ s ≤ a.stpmax

/-- **C54.**  After a valid start with `0 ≤ ftol < 1` and `ftol ≤ gtol`, whatever the function values and the derivatives, a Moré
and Thuente search never fails, and all its steps are defined and within the bounds; exact arithmetic. -/
theorem csrch_never_fails (ls : Ls (Num ℝ) (Csrch (Num ℝ))) (ftol gtol xtol : ℝ) (e1 : ls.m.ftol = .val ftol) (e2 : ls.m.gtol = .val gtol)
    (e3 : ls.m.xtol = .val xtol) (h0 : 0 ≤ ftol) (h1 : ftol < 1) (h4 : ftol ≤ gtol) (a : Args ℝ) (ha : a.Ok) (l : List (ℝ × ℝ)) :
    Sound a (search csrchOps (begun ls a) (l.map fun e => (.val e.1, .val e.2))) := by
  obtain ⟨r, er, hr, q1, q2, q3, q4, -⟩ := start_inv ls ftol gtol xtol e1 e2 e3 h0 h1 h4 a ha
  rw [er]
  clear er
  induction l generalizing r with
  | nil =>
    refine ⟨?_, r.stp, rfl, by rw [← q3]; exact hr.lo, by rw [← q4]; exact hr.hi⟩
    show r.task ≠ .error
    rw [hr.task]; simp
  | cons p l ih =>
    have et : r.val.task = .search := hr.task
    obtain ⟨r', e, t, sm, bd, nx, -⟩ := iterate_safe r hr p.1 p.2
    have ed : search csrchOps r.val ((p :: l).map fun e => (.val e.1, .val e.2)) = search csrchOps r'.val (l.map fun e => (.val e.1, .val e.2)) := by
      show (if r.val.task = .search then search csrchOps (iterate csrchOps r.val r.val.stp (.val p.1) (.val p.2)).1 (l.map fun e => (.val e.1, .val e.2)) else r.val) = _
      rw [if_pos et, ← e]
      rfl
    rw [ed]
    by_cases c : r'.task = .search
    · exact ih r' (nx c).1 (sm.finit.trans q1) (sm.gtest.trans q2) (sm.stpmin.trans q3) (sm.stpmax.trans q4)
    · have : ∀ m, search csrchOps r'.val m = r'.val := by
        intro m
        cases m with
        | nil => rfl
        | cons _ _ => exact if_neg (show ¬ r'.task = .search from c)
      rw [this]
      refine ⟨t, r'.stp, rfl, ?_, ?_⟩
      · rw [← q3]; exact bd.1
      · rw [← q4]; exact bd.2

/-- A search with the default parameters of the optimizers meets the hypotheses. -/
example : ∃ ls : Ls (Num ℝ) (Csrch (Num ℝ)), ls.m.ftol = .val (1 / 1000) ∧ ls.m.gtol = .val (9 / 10) ∧ ls.m.xtol = .val (1 / 10) ∧
    (⟨1, -2, 1 / 2, 0, 100⟩ : Args ℝ).Ok ∧ Sound ⟨1, -2, 1 / 2, 0, 100⟩ (search csrchOps (begun ls ⟨1, -2, 1 / 2, 0, 100⟩) [(.val 3, .val 5), (.val (-1), .val 0)]) := by
  have ok : (⟨1, -2, 1 / 2, 0, 100⟩ : Args ℝ).Ok := ⟨by norm_num, by norm_num, by norm_num⟩
  refine ⟨⟨.nan, .nan, .nan, .nan, .nan, .notStarted, .error, ⟨.val (1 / 1000), .val (9 / 10), .val (1 / 10), .nan, ⟨.nan, .nan, .nan, .nan, .nan, .nan, false⟩, .nan, .nan, .nan, .nan, 0⟩⟩,
    rfl, rfl, rfl, ok, ?_⟩
  exact csrch_never_fails _ (1 / 1000) (9 / 10) (1 / 10) rfl rfl rfl (by norm_num) (by norm_num) (by norm_num) _ ok [(3, 5), (-1, 0)]

theorem sqrt_nan {x : ℝ} (h : x < 0) : (sqrt (Num.val x) : Num ℝ) = .nan := by
  simp [sqrt, numMath, not_le.mpr h]

/-- The values at the other end point may be lower in the first stage (the bracket is the one of a minimum of the modified function), the
cubic step of the fourth case may then be undefined, even in exact arithmetic: `csrch_iterate` hides it.  The interval of the example is the one obtained
with `ftol = 1/2` after the values `-5/6`, `-1/2` at the step 2, for a start with the value 0 and the derivative `-1`. -/
theorem cubic_step_undefined :
    (cstep (Bracket.val ⟨0, 0, -1, 2, -5 / 6, -1 / 2, true⟩) (.val (1 / 2)) (.val (-1 / 3)) (.val (-1)) (.val 0) (.val 2)).2.2 = .nan := by
  rw [cstep_cases _ _ _ _ _ _ (by norm_num) (by norm_num) (by norm_num)]
  rw [if_neg (by norm_num), if_neg (by norm_num), if_neg (by norm_num)]
  have hn : cubicGamma (Num.val (3 * (-1 / 3 - -5 / 6) / (2 - 1 / 2) + -1 / 2 + -1)) (.val (-1 / 2)) (.val (-1)) = (.nan : Num ℝ) := by
    unfold cubicGamma
    simp only [fabs_val, max3_val]
    have e : max (max |(3 * (-1 / 3 - -5 / 6) / (2 - 1 / 2) + -1 / 2 + -1 : ℝ)| |(-1 / 2 : ℝ)|) |(-1 : ℝ)| = 1 := by norm_num
    rw [e, Num.val_div one_ne_zero, Num.val_div one_ne_zero, Num.val_div one_ne_zero, Num.val_mul, Num.val_mul, Num.val_sub]
    have : sqrt (Num.val ((3 * (-1 / 3 - -5 / 6) / (2 - 1 / 2) + -1 / 2 + -1 : ℝ) / 1 * ((3 * (-1 / 3 - -5 / 6) / (2 - 1 / 2) + -1 / 2 + -1) / 1) - -1 / 2 / 1 * (-1 / 1))) = Num.nan := sqrt_nan (by norm_num)
    rw [this]
    rfl
  dsimp only
  unfold cstep4
  rw [if_pos rfl]
  simp only [lit_val, Num.val_sub, Num.val_mul, Nat.cast_one, div_one, Nat.cast_ofNat]
  rw [Num.val_div (by norm_num), Num.val_add, Num.val_add, hn]
  rw [if_neg (by norm_num)]
  rfl

end
end Opk.LineSearch
