import Verif.LineSearch.Safe
import Mathlib.Algebra.Order.Archimedean.Basic
/-! # C86: the Moré and Thuente line search ends -/
set_option linter.unusedSectionVars false
namespace Opk.LineSearch

/-- A sequence of iterations without a bracket is finite: the steps grow. -/
theorem free_ends (r : ℕ → Ls ℝ (Csrch ℝ)) (hI : ∀ n, Inv (r n)) (hM : ∀ n, Move (r n) (r (n + 1)))
    (hmax : ∀ n, (r n).stpmax = (r 0).stpmax) (hf : ∀ n, (r n).m.b.brackt = false) : False := by
  have hi : ∀ n, (r n).stp ≤ (r 0).stpmax := fun n => by rw [← hmax n]; exact (hI n).hi
  have grow : ∀ n, (r n).stp < (r (n + 1)).stp := fun n => ((hM n).free (hf _)).2.1
  have key : ∀ n, (r (n + 1)).stp + ((r (n + 1)).stp - (r n).stp) ≤ (r (n + 2)).stp := by
    intro n
    obtain ⟨-, h1, -, h2⟩ := (hM n).free (hf _)
    obtain ⟨-, -, h3, -⟩ := (hM (n + 1)).free (hf _)
    rcases h3 with h3 | h3
    · have h3 : (r (n + 1)).m.stmin ≤ (r (n + 2)).stp := h3
      linarith
    · have h4 : (r (n + 2)).stp < (r (n + 3)).stp := grow (n + 2)
      have h5 := hi (n + 3)
      have h3 : (r (n + 2)).stp = (r (n + 1)).stpmax := h3
      rw [hmax] at h3
      linarith
  have lin : ∀ n : ℕ, (r 1).stp - (r 0).stp ≤ (r (n + 1)).stp - (r n).stp ∧
      (r 0).stp + n * ((r 1).stp - (r 0).stp) ≤ (r n).stp := by
    intro n
    induction n with
    | zero => simp
    | succ n ih =>
      have := key n
      refine ⟨by have : (r (n + 1 + 1)).stp = (r (n + 2)).stp := rfl; linarith [ih.1], ?_⟩
      push_cast
      linarith [ih.1, ih.2]
  have e0 : 0 < (r 1).stp - (r 0).stp := sub_pos.mpr (grow 0)
  obtain ⟨n, hn⟩ := exists_nat_gt (((r 0).stpmax - (r 0).stp) / ((r 1).stp - (r 0).stp))
  rw [div_lt_iff₀ e0] at hn
  linarith [(lin n).2, hi n]

/-- The end points of a bracket. -/
theorem bracket_ends (ls : Ls ℝ (Csrch ℝ)) (h : Inv ls) (hb : ls.m.b.brackt = true) :
    ls.m.stmin = min ls.m.b.stx ls.m.b.sty ∧ ls.m.stmax = max ls.m.b.stx ls.m.b.sty := by
  have k := h.kind
  cases k with
  | free q => rw [hb] at q; cases q
  | first _ _ _ _ _ _ h1 h2 => exact ⟨h1, h2⟩
  | second _ _ _ _ _ h1 h2 => exact ⟨h1, h2⟩

/-- The current step replaces one of the end points of the bracket. -/
theorem bracket_move (ls ls' : Ls ℝ (Csrch ℝ)) (h : Inv ls) (h' : Inv ls') (m : Move ls ls') (hb : ls.m.b.brackt = true) :
    ls'.m.stmin = ls.m.stmin ∧ ls'.m.stmax = ls.stp ∨ ls'.m.stmin = ls.stp ∧ ls'.m.stmax = ls.m.stmax := by
  have hb' := m.keep hb
  obtain ⟨e1, e2⟩ := bracket_ends ls h hb
  obtain ⟨e3, e4⟩ := bracket_ends ls' h' hb'
  obtain ⟨i1, i2, -⟩ := m.inner hb
  rw [e3, e4]
  rw [e1] at i1
  rw [e2] at i2
  rw [e1, e2]
  rcases le_total ls.m.b.stx ls.m.b.sty with q | q
  · rw [min_eq_left q] at i1 ⊢
    rw [max_eq_right q] at i2 ⊢
    rcases m.ends hb' with ⟨x, y | ⟨-, y⟩⟩ | ⟨x, y⟩ <;> rw [x, y]
    · rw [min_eq_right i1.le, max_eq_left i1.le]; exact Or.inl ⟨rfl, rfl⟩
    · rw [min_eq_left i2.le, max_eq_right i2.le]; exact Or.inr ⟨rfl, rfl⟩
    · rw [min_eq_left i1.le, max_eq_right i1.le]; exact Or.inl ⟨rfl, rfl⟩
  · rw [min_eq_right q] at i1 ⊢
    rw [max_eq_left q] at i2 ⊢
    rcases m.ends hb' with ⟨x, y | ⟨-, y⟩⟩ | ⟨x, y⟩ <;> rw [x, y]
    · rw [min_eq_left i2.le, max_eq_right i2.le]; exact Or.inr ⟨rfl, rfl⟩
    · rw [min_eq_right i1.le, max_eq_left i1.le]; exact Or.inl ⟨rfl, rfl⟩
    · rw [min_eq_right i2.le, max_eq_left i2.le]; exact Or.inr ⟨rfl, rfl⟩

/-- Geometric decrease is not compatible with a positive lower bound. -/
theorem no_geometric (w : ℕ → ℝ) (c : ℝ) (hc : 0 < c) (hw : ∀ n, c ≤ w n) (h : ∀ n, w (n + 3) ≤ 66 / 100 * w n) : False := by
  have key : ∀ j : ℕ, w (3 * j) ≤ (66 / 100) ^ j * w 0 := by
    intro j
    induction j with
    | zero => simp
    | succ j ih =>
      have := h (3 * j)
      have e : 3 * (j + 1) = 3 * j + 3 := by ring
      rw [e, pow_succ]
      linarith
  have h0 : 0 < w 0 := hc.trans_le (hw 0)
  obtain ⟨j, hj⟩ := exists_pow_lt_of_lt_one (div_pos hc h0) (show (66 / 100 : ℝ) < 1 by norm_num)
  rw [lt_div_iff₀ h0] at hj
  exact absurd ((hw (3 * j)).trans (key j)) (not_le.mpr hj)

/-- A sequence of iterations with a bracket is finite: the width of the bracket decreases. -/
theorem bracketed_ends (r : ℕ → Ls ℝ (Csrch ℝ)) (hI : ∀ n, Inv (r n)) (hM : ∀ n, Move (r n) (r (n + 1)))
    (lo x : ℝ) (hlo : 0 < lo) (hx : 0 < x) (hmin : ∀ n, (r n).stpmin = lo) (hxt : ∀ n, (r n).m.xtol = x)
    (hb : ∀ n, (r n).m.b.brackt = true) : False := by
  -- the width
  have hin : ∀ n, (r n).m.stmin < (r n).stp ∧ (r n).stp < (r n).m.stmax ∧ ¬ Small (r n) := fun n => (hM n).inner (hb n)
  have hmv := fun n => bracket_move (r n) (r (n + 1)) (hI n) (hI _) (hM n) (hb n)
  have hw : ∀ n, (r (n + 1)).m.width = (r (n + 1)).m.stmax - (r (n + 1)).m.stmin := by
    intro n
    rw [((hM n).width (hb _)).2, (bracket_ends _ (hI (n + 1)) (hb _)).1, (bracket_ends _ (hI (n + 1)) (hb _)).2, max_sub_min_eq_abs]
  have hdec : ∀ n, (r (n + 1)).m.stmax - (r (n + 1)).m.stmin ≤ (r n).m.stmax - (r n).m.stmin := by
    intro n
    obtain ⟨a, b, -⟩ := hin n
    rcases hmv n with ⟨e1, e2⟩ | ⟨e1, e2⟩ <;> rw [e1, e2] <;> linarith
  have hlow : ∀ n, lo < (r (n + 1)).m.stmax := fun n => by rw [← hmin n]; exact (hM n).low (hb _)
  -- the contraction
  have hcon : ∀ n, (r (n + 4)).m.stmax - (r (n + 4)).m.stmin ≤ 66 / 100 * ((r (n + 1)).m.stmax - (r (n + 1)).m.stmin) ∨
      (r (n + 4)).m.stmin = lo ∧ (r (n + 3)).m.stmin < lo := by
    intro n
    have w1 : (r (n + 2)).m.width1 = (r (n + 1)).m.stmax - (r (n + 1)).m.stmin := by
      rw [← hw n]; exact ((hM (n + 1)).width (hb _)).1
    have w3 : (r (n + 3)).m.width = (r (n + 3)).m.stmax - (r (n + 3)).m.stmin := hw (n + 2)
    have d3 : (r (n + 4)).m.stmax - (r (n + 4)).m.stmin ≤ (r (n + 3)).m.stmax - (r (n + 3)).m.stmin := hdec (n + 3)
    have d2 : (r (n + 3)).m.stmax - (r (n + 3)).m.stmin ≤ (r (n + 2)).m.stmax - (r (n + 2)).m.stmin := hdec (n + 2)
    have d1 : (r (n + 2)).m.stmax - (r (n + 2)).m.stmin ≤ (r (n + 1)).m.stmax - (r (n + 1)).m.stmin := hdec (n + 1)
    have bis : 66 / 100 * (r (n + 2)).m.width1 ≤ (r (n + 3)).m.width → Small (r (n + 3)) ∨ (r (n + 3)).stp = max (((r (n + 3)).m.b.stx + (r (n + 3)).m.b.sty) / 2) (r (n + 2)).stpmin :=
      (hM (n + 2)).bisect (hb _)
    rw [w1, w3, hmin] at bis
    by_cases c : 66 / 100 * ((r (n + 1)).m.stmax - (r (n + 1)).m.stmin) ≤ (r (n + 3)).m.stmax - (r (n + 3)).m.stmin
    · have e := (bis c).resolve_left (hin (n + 3)).2.2
      have emid : (r (n + 3)).m.b.stx + (r (n + 3)).m.b.sty = (r (n + 3)).m.stmin + (r (n + 3)).m.stmax := by
        obtain ⟨q1, q2⟩ := bracket_ends _ (hI (n + 3)) (hb _)
        rw [q1, q2, min_add_max]
      rw [emid] at e
      obtain ⟨a, b, -⟩ := hin (n + 3)
      have mv : (r (n + 4)).m.stmin = (r (n + 3)).m.stmin ∧ (r (n + 4)).m.stmax = (r (n + 3)).stp ∨
        (r (n + 4)).m.stmin = (r (n + 3)).stp ∧ (r (n + 4)).m.stmax = (r (n + 3)).m.stmax := hmv (n + 3)
      rcases le_total lo (((r (n + 3)).m.stmin + (r (n + 3)).m.stmax) / 2) with q | q
      · rw [max_eq_left q] at e
        left
        rcases mv with ⟨e1, e2⟩ | ⟨e1, e2⟩ <;> rw [e1, e2, e] <;> linarith
      · rw [max_eq_right q] at e
        right
        rcases mv with ⟨e1, e2⟩ | ⟨e1, e2⟩
        · have : lo < (r (n + 4)).m.stmax := hlow (n + 3)
          rw [e2, e] at this
          exact absurd this (lt_irrefl _)
        · exact ⟨e1.trans e, by rw [e] at a; exact a⟩
    · left
      have := not_le.mp c
      linarith
  -- the lower bound
  have hbd : ∀ n, min lo (x * lo) ≤ (r (n + 1)).m.stmax - (r (n + 1)).m.stmin := by
    intro n
    have hs : Seen lo ((r (n + 1)).stpmax) (r (n + 1)).m.stmin := by
      rw [(bracket_ends _ (hI (n + 1)) (hb _)).1]
      have s1 := (hI (n + 1)).sx
      have s2 := (hI (n + 1)).sy (hb _)
      rw [hmin] at s1 s2
      rcases min_choice (r (n + 1)).m.b.stx (r (n + 1)).m.b.sty with q | q <;> rw [q]
      · exact s1
      · exact s2
    rcases hs.1 with q | q
    · rw [q, sub_zero]; exact (min_le_left _ _).trans (hlow n).le
    · have h1 := not_le.mp (hin (n + 1)).2.2
      rw [hxt] at h1
      have := mul_lt_mul_of_pos_left (hlow n) hx
      exact (min_le_right _ _).trans (by linarith)
  have hc : 0 < min lo (x * lo) := lt_min hlo (mul_pos hx hlo)
  by_cases hA : ∃ m, lo ≤ (r m).m.stmin
  · obtain ⟨m, hm⟩ := hA
    have hup : ∀ n, lo ≤ (r (m + n)).m.stmin := by
      intro n
      induction n with
      | zero => exact hm
      | succ n ih =>
        obtain ⟨a, -⟩ := hin (m + n)
        have mv := hmv (m + n)
        show lo ≤ (r (m + n + 1)).m.stmin
        rcases mv with ⟨e1, -⟩ | ⟨e1, -⟩ <;> rw [e1] <;> linarith
    refine no_geometric (fun n => (r (m + n + 1)).m.stmax - (r (m + n + 1)).m.stmin) _ hc (fun n => hbd (m + n)) (fun n => ?_)
    rcases hcon (m + n) with q | ⟨-, q⟩
    · have e : m + (n + 3) + 1 = m + n + 4 := by ring
      show (r (m + (n + 3) + 1)).m.stmax - (r (m + (n + 3) + 1)).m.stmin ≤ _
      rw [e]; exact q
    · have := hup (n + 3)
      have e : m + (n + 3) = m + n + 3 := by ring
      rw [e] at this
      exact absurd q (not_lt.mpr this)
  · refine no_geometric (fun n => (r (n + 1)).m.stmax - (r (n + 1)).m.stmin) _ hc hbd (fun n => ?_)
    rcases hcon n with q | ⟨q, -⟩
    · exact q
    · exact absurd ⟨n + 4, q.ge⟩ hA

/-- There is no infinite search. -/
theorem no_infinite_search (r : ℕ → Ls ℝ (Csrch ℝ)) (hI : ∀ n, Inv (r n)) (hM : ∀ n, Move (r n) (r (n + 1)))
    (hS : ∀ n, Same (r n) (r (n + 1))) (hlo : 0 < (r 0).stpmin) (hx : 0 < (r 0).m.xtol) : False := by
  have hmax : ∀ n, (r n).stpmax = (r 0).stpmax := fun n => by
    induction n with
    | zero => rfl
    | succ n ih => rw [(hS n).stpmax, ih]
  have hmin : ∀ n, (r n).stpmin = (r 0).stpmin := fun n => by
    induction n with
    | zero => rfl
    | succ n ih => rw [(hS n).stpmin, ih]
  have hxt : ∀ n, (r n).m.xtol = (r 0).m.xtol := fun n => by
    induction n with
    | zero => rfl
    | succ n ih => rw [(hS n).xtol, ih]
  by_cases h : ∃ n, (r n).m.b.brackt = true
  · obtain ⟨N, hN⟩ := h
    have hb : ∀ n, (r (N + n)).m.b.brackt = true := fun n => by
      induction n with
      | zero => exact hN
      | succ n ih => exact (hM (N + n)).keep ih
    exact bracketed_ends (fun n => r (N + n)) (fun n => hI _) (fun n => hM (N + n)) _ _ hlo hx (fun n => hmin _) (fun n => hxt _) hb
  · exact free_ends r hI hM hmax (fun n => by
      cases q : (r n).m.b.brackt with
      | false => rfl
      | true => exact absurd ⟨n, q⟩ h)

theorem Bracket.val_inj {b b' : Bracket ℝ} (h : b.val = b'.val) : b = b' := by
  cases b; cases b'
  simp only [Bracket.val, Bracket.mk.injEq, Num.val.injEq] at h
  simp only [Bracket.mk.injEq]
  exact h

theorem Ls.val_inj {a b : Ls ℝ (Csrch ℝ)} (h : a.val = b.val) : a = b := by
  obtain ⟨a1, a2, a3, a4, a5, a6, a7, ⟨c1, c2, c3, c4, c5, c6, c7, c8, c9, c10⟩⟩ := a
  obtain ⟨b1, b2, b3, b4, b5, b6, b7, ⟨d1, d2, d3, d4, d5, d6, d7, d8, d9, d10⟩⟩ := b
  simp only [Ls.val, Csrch.val, Ls.mk.injEq, Csrch.mk.injEq, Num.val.injEq] at h
  obtain ⟨h1, h2, h3, h4, h5, h6, h7, i1, i2, i3, i4, i5, i6, i7, i8, i9, i10⟩ := h
  have i5 := Bracket.val_inj i5
  subst h1 h2 h3 h4 h5 h6 h7 i1 i2 i3 i4 i5 i6 i7 i8 i9 i10
  rfl

/-- The state after the first `n` answers of the caller. -/
noncomputable def answered (ls : Ls (Num ℝ) (Csrch (Num ℝ))) (q : ℕ → ℝ × ℝ) : ℕ → Ls (Num ℝ) (Csrch (Num ℝ))
  | 0 => ls
  | n + 1 => if (answered ls q n).task = .search then
      (iterate csrchOps (answered ls q n) (answered ls q n).stp (.val (q n).1) (.val (q n).2)).1 else answered ls q n

/-- **C86.**  After a valid start with `0 ≤ ftol < 1`, `ftol ≤ gtol`, `xtol > 0` and a positive lower bound of the steps, a Moré and Thuente
search ends after a finite number of evaluations, whatever the function values and the derivatives; exact arithmetic. -/
theorem csrch_ends (ls : Ls (Num ℝ) (Csrch (Num ℝ))) (ftol gtol xtol : ℝ) (e1 : ls.m.ftol = .val ftol) (e2 : ls.m.gtol = .val gtol)
    (e3 : ls.m.xtol = .val xtol) (h0 : 0 ≤ ftol) (h1 : ftol < 1) (h4 : ftol ≤ gtol) (hx : 0 < xtol) (a : Args ℝ) (ha : a.Ok) (hp : 0 < a.stpmin)
    (q : ℕ → ℝ × ℝ) : ∃ n, (answered (begun ls a) q n).task ≠ .search := by
  obtain ⟨r, er, hr, q1, q2, q3, q4, q5, -⟩ := start_inv ls ftol gtol xtol e1 e2 e3 h0 h1 h4 a ha
  by_contra hn
  have hn : ∀ n, (answered (begun ls a) q n).task = .search := fun n => by
    by_contra h; exact hn ⟨n, h⟩
  have hall : ∀ n, ∃ s : Ls ℝ (Csrch ℝ), answered (begun ls a) q n = s.val ∧ Inv s := by
    intro n
    induction n with
    | zero => exact ⟨r, er, hr⟩
    | succ n ih =>
      obtain ⟨s, e, i⟩ := ih
      obtain ⟨s', f1, -, -, -, f2, -⟩ := iterate_safe s i (q n).1 (q n).2
      have f3 : answered (begun ls a) q (n + 1) = s'.val := by
        show (if (answered (begun ls a) q n).task = .search then _ else _) = _
        rw [if_pos (hn n), e]
        exact f1
      have f4 := hn (n + 1)
      rw [f3] at f4
      exact ⟨s', f3, (f2 f4).1⟩
  choose s hs hi using hall
  have hmove : ∀ n, Same (s n) (s (n + 1)) ∧ Move (s n) (s (n + 1)) := by
    intro n
    obtain ⟨s', f1, -, f0, -, f2, -⟩ := iterate_safe (s n) (hi n) (q n).1 (q n).2
    have f3 : answered (begun ls a) q (n + 1) = s'.val := by
      show (if (answered (begun ls a) q n).task = .search then _ else _) = _
      rw [if_pos (hn n), hs n]
      exact f1
    have f4 := hn (n + 1)
    rw [f3] at f4
    have f5 : s' = s (n + 1) := Ls.val_inj (f3.symm.trans (hs (n + 1)))
    rw [← f5]
    exact ⟨f0, (f2 f4).2⟩
  have hz : s 0 = r := Ls.val_inj ((hs 0).symm.trans er)
  exact no_infinite_search s hi (fun n => (hmove n).2) (fun n => (hmove n).1) (by rw [hz, q3]; exact hp) (by rw [hz, q5]; exact hx)

/-- **C86 (progress).**  When moreover `4 ftol ≤ gtol`, the search never ends with the warning `OPK_ROUNDING_ERRORS_PREVENT_PROGRESS` in exact arithmetic. -/
theorem csrch_no_rounding_warning (ls : Ls (Num ℝ) (Csrch (Num ℝ))) (ftol gtol xtol : ℝ) (e1 : ls.m.ftol = .val ftol) (e2 : ls.m.gtol = .val gtol)
    (e3 : ls.m.xtol = .val xtol) (h0 : 0 ≤ ftol) (h1 : ftol < 1) (h4 : 4 * ftol ≤ gtol) (a : Args ℝ) (ha : a.Ok)
    (q : ℕ → ℝ × ℝ) (n : ℕ) : (answered (begun ls a) q n).status ≠ .roundingErrorsPreventProgress := by
  obtain ⟨r, er, hr, q1, q2, q3, q4, q5, q6, q7, q8, q9⟩ := start_inv ls ftol gtol xtol e1 e2 e3 h0 h1 (by linarith) a ha
  have key : ∀ n, ∃ s : Ls ℝ (Csrch ℝ), answered (begun ls a) q n = s.val ∧ s.status ≠ .roundingErrorsPreventProgress ∧
      (s.task = .search → Inv s ∧ Fresh s ∧ 4 * s.m.ftol ≤ s.m.gtol) := by
    intro n
    induction n with
    | zero =>
      exact ⟨r, er, by rw [q8]; simp, fun _ => ⟨hr, fun w => (by rw [q9] at w; cases w), by rw [q6, q7]; exact h4⟩⟩
    | succ n ih =>
      obtain ⟨s, e, st, i⟩ := ih
      by_cases c : s.task = .search
      · obtain ⟨i1, i2, i3⟩ := i c
        obtain ⟨s', f1, -, f0, -, f2, f5⟩ := iterate_safe s i1 (q n).1 (q n).2
        have f3 : answered (begun ls a) q (n + 1) = s'.val := by
          show (if (answered (begun ls a) q n).task = .search then _ else _) = _
          rw [e, if_pos (show s.val.task = .search from c)]
          exact f1
        exact ⟨s', f3, f5 i2, fun w => ⟨(f2 w).1, (f2 w).2.fresh i3, by rw [f0.ftol, f0.gtol]; exact i3⟩⟩
      · refine ⟨s, ?_, st, i⟩
        show (if (answered (begun ls a) q n).task = .search then _ else _) = _
        rw [e, if_neg (show ¬ s.val.task = .search from c)]
  obtain ⟨s, e, st, -⟩ := key n
  rw [e]
  exact st

/-- The default parameters of VMLMB meet the hypotheses, a step which is always too long is reduced until the search ends. -/
example : ∃ ls : Ls (Num ℝ) (Csrch (Num ℝ)), ls.m.ftol = .val (1 / 1000) ∧ ls.m.gtol = .val (9 / 10) ∧ ls.m.xtol = .val (1 / 10) ∧
    (⟨1, -2, 1 / 2, 1 / 100, 100⟩ : Args ℝ).Ok ∧
    (∃ n, (answered (begun ls ⟨1, -2, 1 / 2, 1 / 100, 100⟩) (fun _ => (3, 5)) n).task ≠ .search) ∧
    (answered (begun ls ⟨1, -2, 1 / 2, 1 / 100, 100⟩) (fun _ => (3, 5)) 0).task = .search := by
  have ok : (⟨1, -2, 1 / 2, 1 / 100, 100⟩ : Args ℝ).Ok := ⟨by norm_num, by norm_num, by norm_num⟩
  refine ⟨⟨.nan, .nan, .nan, .nan, .nan, .notStarted, .error, ⟨.val (1 / 1000), .val (9 / 10), .val (1 / 10), .nan, ⟨.nan, .nan, .nan, .nan, .nan, .nan, false⟩, .nan, .nan, .nan, .nan, 0⟩⟩,
    rfl, rfl, rfl, ok, ?_, ?_⟩
  · exact csrch_ends _ (1 / 1000) (9 / 10) (1 / 10) rfl rfl rfl (by norm_num) (by norm_num) (by norm_num) (by norm_num) _ ok (by norm_num) _
  · obtain ⟨r, er, hr, -⟩ := start_inv ⟨.nan, .nan, .nan, .nan, .nan, .notStarted, .error, ⟨.val (1 / 1000), .val (9 / 10), .val (1 / 10), .nan, ⟨.nan, .nan, .nan, .nan, .nan, .nan, false⟩, .nan, .nan, .nan, .nan, 0⟩⟩
      (1 / 1000) (9 / 10) (1 / 10) rfl rfl rfl (by norm_num) (by norm_num) (by norm_num) _ ok
    show (begun _ _).task = _
    rw [er]
    exact hr.task

end Opk.LineSearch
