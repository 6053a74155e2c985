import Verif.LineSearch.Termination
import Mathlib.Order.Bounds.Basic
/-! # C18 (nonmonotone line search), C21, C53, C55 -/
set_option linter.unusedSectionVars false
namespace Opk.LineSearch

/-! ## C18 -/

section any
variable {F : Type} [Add F] [Sub F] [Mul F] [Div F] [Neg F] [One F] [Zero F] [LinearOrder F] [CMath F]

open Classical in
/-- Function values of the accepted starts of a history of calls, latest first. -/
noncomputable def startValues : List F → List (Call F) → List F
  | acc, [] => acc
  | acc, .start a :: l => startValues (if a.Valid then a.f0 :: acc else acc) l
  | acc, .iterate _ _ _ :: l => startValues acc l

theorem maxLoop_spec (fsav : Nat → F) (n : Nat) :
    IsGreatest {x | ∃ j ≤ n, fsav j = x} (maxLoop fsav n (fsav 0)) := by
  induction n with
  | zero => exact ⟨⟨0, le_refl _, rfl⟩, by rintro x ⟨j, hj, rfl⟩; rw [Nat.le_zero.mp hj]; exact le_refl _⟩
  | succ n ih =>
    obtain ⟨⟨j, hj, e⟩, hu⟩ := ih
    simp only [maxLoop]
    split
    · rename_i h
      refine ⟨⟨n + 1, le_refl _, rfl⟩, ?_⟩
      rintro x ⟨i, hi, rfl⟩
      rcases Nat.lt_or_ge n i with h1 | h1
      · rw [show i = n + 1 by omega]
      · exact le_trans (hu ⟨i, h1, rfl⟩) h.le
    · rename_i h
      refine ⟨⟨j, by omega, e⟩, ?_⟩
      rintro x ⟨i, hi, rfl⟩
      rcases Nat.lt_or_ge n i with h1 | h1
      · rw [show i = n + 1 by omega]; exact not_lt.mp h
      · exact hu ⟨i, h1, rfl⟩

/-- The ring buffer holds the latest values. -/
structure Latest (m : Nat) (vals : List F) (c : Nonmonotone F) : Prop where
  mem : c.m = m
  mp : c.mp = vals.length
  saved : ∀ i, i < m → ∀ h : i < vals.length, c.fsav ((vals.length - 1 - i) % m) = vals[i]
  max : vals ≠ [] → IsGreatest {x | x ∈ vals.take m} c.fmax

theorem ring_start {m : Nat} (hm : 0 < m) {vals : List F} {ls : Ls F (Nonmonotone F)}
    (h : Latest m vals ls.m) : Latest m (ls.finit :: vals) (nonmonotoneStart ls).m := by
  obtain ⟨h1, h2, h3, _⟩ := h
  have key : ∀ i, i < m → ∀ hi : i < (ls.finit :: vals).length,
      (nonmonotoneStart ls).m.fsav (((ls.finit :: vals).length - 1 - i) % m) = (ls.finit :: vals)[i] := by
    intro i him hi
    simp only [nonmonotoneStart, succeed, h1, h2]
    cases i with
    | zero => simp
    | succ i =>
      have hi' : i < vals.length := by simpa using hi
      have hlen : (ls.finit :: vals).length - 1 - (i + 1) = vals.length - 1 - i := by
        simp; omega
      rw [hlen]
      have hne : (vals.length - 1 - i) % m ≠ vals.length % m := by
        intro he
        have h5 : vals.length = (vals.length - 1 - i) + (i + 1) := by omega
        have h6 : (vals.length - 1 - i) ≡ (vals.length - 1 - i) + (i + 1) [MOD m] := by
          show _ % m = _ % m
          rw [← h5]; exact he
        have h7 : (i + 1) ≡ 0 [MOD m] := by
          have := Nat.ModEq.add_left_cancel' (vals.length - 1 - i) (show
            (vals.length - 1 - i) + (i + 1) ≡ (vals.length - 1 - i) + 0 [MOD m] from h6.symm)
          exact this
        have h8 : (i + 1) % m = 0 := by simpa [Nat.ModEq] using h7
        rw [Nat.mod_eq_of_lt him] at h8
        omega
      rw [if_neg hne]
      simpa using h3 i (by omega) hi'
  refine ⟨by simpa [nonmonotoneStart, succeed] using h1, by simp [nonmonotoneStart, succeed, h2], key, ?_⟩
  intro _
  have hn : (if ls.m.mp + 1 ≤ ls.m.m then ls.m.mp + 1 else ls.m.m) - 1 = min (vals.length + 1) m - 1 := by
    rw [h1, h2]; split <;> omega
  have hmax := maxLoop_spec (nonmonotoneStart ls).m.fsav (min (vals.length + 1) m - 1)
  have hfm : (nonmonotoneStart ls).m.fmax =
      maxLoop (nonmonotoneStart ls).m.fsav (min (vals.length + 1) m - 1) ((nonmonotoneStart ls).m.fsav 0) := by
    rw [← hn]; rfl
  rw [hfm]
  have hset : {x | ∃ j ≤ min (vals.length + 1) m - 1, (nonmonotoneStart ls).m.fsav j = x} =
      {x | x ∈ (ls.finit :: vals).take m} := by
    ext x
    simp only [Set.mem_ofPred_eq, List.mem_iff_getElem, List.length_take, List.getElem_take]
    constructor
    · rintro ⟨j, hj, rfl⟩
      -- the most recent value stored in slot j
      have hjm : j < m := by omega
      have hjl : j < vals.length + 1 := by omega
      have hi : (vals.length - j) % m < m := Nat.mod_lt _ hm
      have hi2 : (vals.length - j) % m ≤ vals.length - j := Nat.mod_le _ _
      refine ⟨(vals.length - j) % m, by simp; omega, ?_⟩
      rw [← key ((vals.length - j) % m) hi (by simp; omega)]
      congr 1
      have : (ls.finit :: vals).length - 1 - (vals.length - j) % m =
          j + m * ((vals.length - j) / m) := by
        have := Nat.div_add_mod (vals.length - j) m
        simp; omega
      rw [this, Nat.add_mul_mod_self_left, Nat.mod_eq_of_lt hjm]
    · rintro ⟨i, hi, rfl⟩
      have hi1 : i < m := by omega
      have hi2 : i < (ls.finit :: vals).length := by omega
      refine ⟨((ls.finit :: vals).length - 1 - i) % m, ?_, key i hi1 hi2⟩
      have a1 : ((ls.finit :: vals).length - 1 - i) % m < m := Nat.mod_lt _ hm
      have a2 : ((ls.finit :: vals).length - 1 - i) % m ≤ (ls.finit :: vals).length - 1 - i := Nat.mod_le _ _
      simp only [List.length_cons] at a1 a2 ⊢
      omega
  rw [← hset]
  exact hmax

theorem nonmonotone_iterate_m (ls : Ls F (Nonmonotone F)) (stp f g : F) :
    (nonmonotoneIterate ls stp f g).1.m = ls.m := by
  unfold nonmonotoneIterate
  split
  · rfl
  split
  · rfl
  split <;> rfl

theorem ring_calls {m : Nat} (hm : 0 < m) (hist : List (Call F)) :
    ∀ (vals : List F) (ls : Ls F (Nonmonotone F)), Latest m vals ls.m →
      Latest m (startValues vals hist) (calls nonmonotoneOps ls hist).m := by
  induction hist with
  | nil => exact fun _ _ h => h
  | cons c cs ih =>
    intro vals ls h
    cases c with
    | start a =>
      simp only [calls, call, startValues]
      apply ih
      have hv : a.Valid ↔ ¬ (a.stpmin < 0) ∧ ¬ (a.stpmin > a.stpmax) ∧ ¬ (a.stp < a.stpmin) ∧
          ¬ (a.stp > a.stpmax) ∧ ¬ (a.g0 ≥ 0) := by
        unfold Args.Valid
        simp only [not_lt, not_le, ge_iff_le, gt_iff_lt]
      by_cases hval : a.Valid
      · rw [if_pos hval]
        obtain ⟨a1, a2, a3, a4, a5⟩ := hv.mp hval
        unfold start
        rw [if_neg a1, if_neg a2, if_neg a3, if_neg a4, if_neg a5]
        exact ring_start hm (ls := { ls with
          stp := a.stp, stpmin := a.stpmin, stpmax := a.stpmax, finit := a.f0, ginit := a.g0 }) h
      · rw [if_neg hval]
        unfold start
        split
        · exact h
        split
        · exact h
        split
        · exact h
        split
        · exact h
        split
        · exact h
        · rename_i a1 a2 a3 a4 a5
          exact absurd (hv.mpr ⟨a1, a2, a3, a4, a5⟩) hval
    | iterate stp f g =>
      simp only [calls, call, startValues]
      apply ih
      unfold iterate
      split
      · exact h
      split
      · exact h
      · rw [(finish_data _ _ _).2.2.2.2.1]
        show Latest m vals (nonmonotoneIterate ls stp f g).1.m
        rw [nonmonotone_iterate_m]; exact h

theorem nonmonotone_params (hist : List (Call F)) (ls : Ls F (Nonmonotone F)) :
    (calls nonmonotoneOps ls hist).m.ftol = ls.m.ftol := by
  apply calls_member nonmonotoneOps (fun m => m.ftol = ls.m.ftol)
  · exact fun _ h => h
  · intro l stp f g h
    show (nonmonotoneIterate l stp f g).1.m.ftol = _
    rw [nonmonotone_iterate_m]; exact h
  · rfl

/-- **C18.** For every history of calls which left a nonmonotone line search of memory `m`
searching, with `reference` the greatest of the function values of the last `m` accepted starts
(of all of them if they are fewer): an iteration reports convergence exactly if
the function value given is at most `reference + ftol stp g0`, with `g0` the derivative given to the
last start, and the step is not at one of its bounds.  For any arithmetic. -/
theorem nonmonotone_reference (finite : F → Bool) (raw : Ls F (Nonmonotone F)) (m : Int)
    (ftol sigma1 sigma2 : F) (ls0 : Ls F (Nonmonotone F))
    (h0 : newNonmonotone finite raw m ftol sigma1 sigma2 = some ls0) (hist : List (Call F))
    (stp f g : F) (ht : (calls nonmonotoneOps ls0 hist).task = .search)
    (hs : stp = (calls nonmonotoneOps ls0 hist).stp) :
    ∃ a reference, lastStart none hist = some a ∧ a.Valid ∧ a.stpmin ≤ stp ∧ stp ≤ a.stpmax ∧
      IsGreatest {x | x ∈ (startValues [] hist).take m.toNat} reference ∧
      ((calls nonmonotoneOps ls0 (hist ++ [.iterate stp f g])).task = .convergence ↔
        f ≤ reference + ftol * stp * a.g0 ∧ a.stpmin < stp ∧ stp < a.stpmax) := by
  unfold newNonmonotone at h0
  split at h0
  · cases h0
  rename_i hcond
  simp only [not_or] at hcond
  have hm : 0 < m.toNat := by have := hcond.2.2.2.2.2.2.2; omega
  cases h0
  obtain ⟨a, e, hv, c1, c2, c3, c4, c5, c6⟩ := steps_in_bounds nonmonotoneOps nonmonotone_method
    { raw with m := { raw.m with ftol := ftol, sigma1 := sigma1, sigma2 := sigma2, m := m.toNat, mp := 0 } }
    hist (by rw [ht]; simp)
  have hr := ring_calls (m := m.toNat) hm hist [] (allocated { raw with m := { raw.m with
    ftol := ftol, sigma1 := sigma1, sigma2 := sigma2, m := m.toNat, mp := 0 } })
    ⟨rfl, rfl, by intro i _ h; simp at h, by simp⟩
  have hft := nonmonotone_params hist (allocated { raw with m := { raw.m with
    ftol := ftol, sigma1 := sigma1, sigma2 := sigma2, m := m.toNat, mp := 0 } })
  have hne : startValues [] hist ≠ [] := by
    have : ∀ (hist : List (Call F)) (acc : List F) (last : Option (Args F)),
        (acc ≠ [] ∨ ∃ b, lastStart last hist = some b ∧ b.Valid ∧ (last = some b → acc ≠ [])) →
        startValues acc hist ≠ [] := by
      intro hist
      induction hist with
      | nil =>
        intro acc last h
        rcases h with h | ⟨b, hb, _, h⟩
        · exact h
        · exact h hb
      | cons c cs ih =>
        intro acc last h
        cases c with
        | start a =>
          simp only [startValues, lastStart] at h ⊢
          apply ih _ (some a)
          rcases h with h | ⟨b, hb, hv, _⟩
          · left; split
            · simp
            · exact h
          · right
            refine ⟨b, hb, hv, ?_⟩
            intro hab
            cases hab
            rw [if_pos hv]; simp
        | iterate stp f g => simp only [startValues, lastStart] at h ⊢; exact ih _ last h
    exact this hist [] none (Or.inr ⟨a, e, hv, by simp⟩)
  have hmax := hr.max hne
  refine ⟨a, _, e, hv, by rw [hs]; exact c5, by rw [hs]; exact c6, hmax, ?_⟩
  rw [calls_append]
  simp only [calls, call]
  generalize calls nonmonotoneOps (allocated { raw with m := { raw.m with
    ftol := ftol, sigma1 := sigma1, sigma2 := sigma2, m := m.toNat, mp := 0 } }) hist = ls at *
  subst hs
  have hft : ls.m.ftol = ftol := hft
  by_cases hA : f ≤ ls.m.fmax + ls.m.ftol * ls.stp * ls.ginit
  · have hk : KeepsStep nonmonotoneOps ls f g := by
      intro _
      simp only [nonmonotoneOps, nonmonotoneIterate]; rw [if_pos hA]
    rw [converged_iff _ nonmonotone_method ls f g ht hk, c3, c4]
    simp only [nonmonotoneOps, nonmonotoneIterate]
    rw [if_pos hA, ← hft, ← c2]
    exact ⟨fun h => ⟨hA, h.2⟩, fun h => ⟨rfl, h.2⟩⟩
  · constructor
    · intro h
      have h3 := (converged_iterate h).2.2
      simp only [nonmonotoneOps, nonmonotoneIterate] at h3
      rw [if_neg hA] at h3
      split at h3
      · simp [warn] at h3
      split at h3 <;> simp [warn, succeed] at h3
    · rintro ⟨h, _⟩
      rw [hft, c2] at hA
      exact absurd h hA

end any

/-- Beside C18: three starts with a memory of two; the reference is the greatest of the last two. -/
example (ls : Ls ℚ (Nonmonotone ℚ)) (h : ls.m.m = 2 ∧ ls.m.mp = 0) :
    (calls nonmonotoneOps ls [.start ⟨7, -1, 1, 0, 2⟩, .start ⟨3, -1, 1, 0, 2⟩,
      .start ⟨5, -1, 1, 0, 2⟩]).m.fmax = 5 ∧
    (calls nonmonotoneOps ls [.start ⟨7, -1, 1, 0, 2⟩, .start ⟨3, -1, 1, 0, 2⟩,
      .start ⟨5, -1, 1, 0, 2⟩]).task = .search := by
  obtain ⟨h1, h2⟩ := h
  simp [calls, call, start, nonmonotoneOps, nonmonotoneStart, succeed, h1, h2, maxLoop]
  norm_num
  change (if (3 : ℚ) > 5 then (3 : ℚ) else 5) = 5
  norm_num

/-! ## C21 -/

section c21
variable {F : Type} [Add F] [Sub F] [Mul F] [Div F] [Neg F] [One F] [Zero F] [LinearOrder F] [CMath F]

/-- **C21 is false of the code.** Whatever the method, when its convergence test is satisfied at a
step which is one of the bounds, `opk_lnsrch_iterate` reports a warning instead of convergence. -/
theorem converged_at_bound_is_a_warning {M : Type} (ops : Ops F M) (ok : Method ops) (ls : Ls F M)
    (f g : F) (ht : ls.task = .search) (hk : KeepsStep ops ls f g)
    (hc : (ops.iterate ls ls.stp f g).1.task = .convergence)
    (hb : ls.stp = ls.stpmin ∨ ls.stp = ls.stpmax) :
    (iterate ops ls ls.stp f g).1.task = .warning ∧
    ((iterate ops ls ls.stp f g).1.status = .stepEqStpmin ∨
      (iterate ops ls ls.stp f g).1.status = .stepEqStpmax) := by
  have h := (converged_iff ops ok ls f g ht hk).not.mpr (by
    rintro ⟨_, h1, h2⟩; rcases hb with e | e <;> order)
  rw [iterate_eq ops ls f g ht] at h ⊢
  rcases finish_task (boundOf ls) (ops.iterate ls ls.stp f g).1 (ops.iterate ls ls.stp f g).2 with
    ⟨q, _⟩ | ⟨q, ⟨_, _, q', _⟩ | ⟨_, _, q', _⟩⟩
  · rw [q] at h; exact absurd hc h
  · exact ⟨q, Or.inl q'⟩
  · exact ⟨q, Or.inr q'⟩

/-- **C21, the part which holds.** When the test is satisfied at a step strictly between the
bounds, convergence is reported, with a successful status. -/
theorem converged_is_reported_partial {M : Type} (ops : Ops F M) (ok : Method ops) (ls : Ls F M)
    (f g : F) (ht : ls.task = .search) (hk : KeepsStep ops ls f g)
    (hc : (ops.iterate ls ls.stp f g).1.task = .convergence)
    (hb : ls.stpmin < ls.stp ∧ ls.stp < ls.stpmax) :
    (iterate ops ls ls.stp f g).1.task = .convergence ∧
    (iterate ops ls ls.stp f g).1.status = (ops.iterate ls ls.stp f g).1.status := by
  have h := (converged_iff ops ok ls f g ht hk).mpr ⟨hc, hb⟩
  refine ⟨h, ?_⟩
  rw [iterate_eq ops ls f g ht] at h ⊢
  rcases finish_task (boundOf ls) (ops.iterate ls ls.stp f g).1 (ops.iterate ls ls.stp f g).2 with
    ⟨_, q⟩ | ⟨q, _⟩
  · exact q
  · rw [q] at h; cases h

end c21

/-- **C21, concrete witness.** Backtracking search started with `f = 1`, `g = -1`, at `stp = stpmax
= 1`: for `f (1) = 0` the sufficient decrease condition is satisfied, yet a warning is returned. -/
theorem converged_not_reported :
    (newBacktrack (⟨0, 0, 0, 0, 0, .success, .error, ()⟩ : Ls ℚ Unit) (1 / 10) (1 / 10)).map
      (fun ls0 => ((calls backtrackOps ls0 [.start ⟨1, -1, 1, 0, 1⟩]).task,
        (calls backtrackOps ls0 [.start ⟨1, -1, 1, 0, 1⟩, .iterate 1 0 0]).task)) =
      some (.search, .warning) ∧
    (0 : ℚ) ≤ 1 + 1 / 10 * 1 * (-1) := by
  decide +kernel

/-! ## C53: undefined function values -/

section nan
variable {K : Type} [Field K] [LinearOrder K] [IsStrictOrderedRing K]
variable [CMath (Num K)]

theorem finish_lo {M : Type} (b : Int) (l : Ls (Num K) M) (s : Num K) (h : s ≤ l.stpmin)
    (e : s = l.stpmin) (hb : ¬ b < 0) : finish b l s = ({ l with stp := s }, s) := by
  unfold finish
  rw [if_pos h, if_neg hb, e]

theorem finish_mid {M : Type} (b : Int) (l : Ls (Num K) M) (s : Num K) (h : ¬ s ≤ l.stpmin)
    (h' : ¬ s ≥ l.stpmax) : finish b l s = ({ l with stp := s }, s) := by
  unfold finish
  rw [if_neg h, if_neg h']

/-- **C53 is false of the code**: with `amin < 1/2`, when the function value is not a number, the
backtracking line search asks for a step which is not a number, and then fails on the next iteration,
whatever its arguments. -/
theorem backtrack_nan (ls : Ls (Num K) (Backtrack (Num K))) (g stp' f' g' : Num K)
    (hl : (lit 1 2 : Num K) = .val (1 / 2)) (amin : K) (ha : ls.m.amin = .val amin) (ha' : amin < 1 / 2)
    (stp stpmin : K) (hs : ls.stp = .val stp) (hs' : ls.stpmin = .val stpmin) (hlt : stpmin < stp)
    (ht : ls.task = .search) :
    let r := iterate backtrackOps ls ls.stp .nan g
    r.1.task = .search ∧ r.2 = .nan ∧ r.1.stp = .nan ∧
    (iterate backtrackOps r.1 stp' f' g').1.task = .error ∧
    (iterate backtrackOps r.1 stp' f' g').1.status = .stepChanged := by
  have nle : ∀ x : Num K, ¬ (Num.nan ≤ x) := fun x => by cases x <;> exact id
  have nlt : ∀ x : Num K, ¬ (Num.nan < x) := fun x => by cases x <;> exact id
  have len : ∀ x : Num K, ¬ (x ≤ Num.nan) := fun x => by cases x <;> exact id
  have nmul : ∀ x : Num K, Num.nan * x = .nan := fun x => by cases x <;> rfl
  have muln : ∀ x : Num K, x * Num.nan = .nan := fun x => by cases x <;> rfl
  have nsub : ∀ x : Num K, Num.nan - x = .nan := fun x => by cases x <;> rfl
  have divn : ∀ x : Num K, x / Num.nan = .nan := fun x => by cases x <;> rfl
  have beqn : ∀ x : Num K, (x == Num.nan) = false := fun x => by cases x <;> rfl
  have htr : backtrackTrial ls ls.stp .nan = .nan := by
    unfold backtrackTrial
    have h1 : ¬ (ls.m.amin ≥ lit 1 2) := by rw [ha, hl]; exact not_le.mpr ha'
    simp only [nsub, nmul, muln, divn]
    simp [h1, nle, nlt, len]
  have hit : iterate backtrackOps ls ls.stp .nan g = ({ succeed ls .search with stp := .nan }, .nan) := by
    unfold iterate
    rw [if_neg (by simp [ht]), if_neg (by simp [hs])]
    simp only [backtrackOps, backtrackIterate]
    rw [if_neg (nle _), if_neg (by rw [hs, hs']; exact not_le.mpr hlt), htr]
    exact finish_mid _ _ _ (nle _) (len _)
  intro r
  have hr : r = ({ succeed ls .search with stp := .nan }, .nan) := hit
  rw [hr]
  refine ⟨rfl, rfl, rfl, ?_⟩
  unfold iterate
  rw [if_neg (by simp [succeed]), if_pos (by simp [beqn])]
  exact ⟨rfl, rfl⟩

end nan

/-- C53, the hypotheses are met after a start with usual parameters. -/
example :
    (newBacktrack (⟨0, 0, 0, 0, 0, .success, .error, ()⟩ : Ls (Num ℚ) Unit) (.val (1 / 10000))
      (.val (1 / 10))).map (fun ls0 =>
        (calls backtrackOps ls0 [.start ⟨.val 1, .val (-1), .val 1, .val 0, .val 2⟩]).task) =
      some .search ∧ (lit 1 2 : Num ℚ) = .val (1 / 2) := by
  refine ⟨?_, rfl⟩
  decide +kernel

/-- **C53, the part which holds**: with `amin ≥ 1/2` the backtracking search, and always the
nonmonotone one, reduce the step (bisection) when the function value is not a number. -/
theorem nan_bisection_partial {K : Type} [Field K] [LinearOrder K] [IsStrictOrderedRing K] [CMath (Num K)]
    (hl : (lit 1 2 : Num K) = .val (1 / 2)) (hl' : (lit 2 1 : Num K) = .val 2) (g : Num K) :
    (∀ (ls : Ls (Num K) (Backtrack (Num K))) (stp stpmin stpmax amin : K),
      ls.task = .search → ls.m.amin = .val amin → 1 / 2 ≤ amin → ls.stp = .val stp →
      ls.stpmin = .val stpmin → ls.stpmax = .val stpmax → 0 ≤ stpmin → stpmin < stp → stp ≤ stpmax →
      let r := iterate backtrackOps ls ls.stp .nan g
      r.1.task = .search ∧ r.2 = .val (max stpmin (stp / 2)) ∧ r.1.stp = r.2) ∧
    (∀ (ls : Ls (Num K) (Nonmonotone (Num K))) (stp stpmin stpmax : K),
      ls.task = .search → ls.stp = .val stp →
      ls.stpmin = .val stpmin → ls.stpmax = .val stpmax → 0 ≤ stpmin → stpmin < stp → stp ≤ stpmax →
      let r := iterate nonmonotoneOps ls ls.stp .nan g
      r.1.task = .search ∧ r.2 = .val ((stp + stpmin) / 2) ∧ r.1.stp = r.2) := by
  have nle : ∀ x : Num K, ¬ (Num.nan ≤ x) := fun x => by cases x <;> exact id
  have nlt : ∀ x : Num K, ¬ (x < Num.nan) := fun x => by cases x <;> exact id
  have nmul : ∀ x : Num K, Num.nan * x = .nan := fun x => by cases x <;> rfl
  have nsub : ∀ x : Num K, Num.nan - x = .nan := fun x => by cases x <;> rfl
  have vle : ∀ x y : K, (Num.val x ≤ Num.val y) ↔ x ≤ y := fun x y => Iff.rfl
  have vlt : ∀ x y : K, (Num.val x < Num.val y) ↔ x < y := fun x y => Iff.rfl
  constructor
  · intro ls stp stpmin stpmax amin ht ha ha' hs hs1 hs2 h0 hlt hle r
    have htr : backtrackTrial ls ls.stp .nan = .val (max stpmin (stp / 2)) := by
      unfold backtrackTrial
      simp only []
      rw [if_pos (show ls.m.amin ≥ lit 1 2 by rw [ha, hl]; exact ha'), hl, hs, hs1]
      have e : Num.val stp * Num.val (1 / 2) = Num.val (stp / 2) := by
        show Num.val (stp * (1 / 2)) = _
        congr 1; ring
      rw [e]
      by_cases h : stp / 2 < stpmin
      · rw [if_pos ((vlt _ _).mpr h), max_eq_left h.le]
      · rw [if_neg ((vlt _ _).not.mpr h), max_eq_right (not_lt.mp h)]
    have hmx : max stpmin (stp / 2) < stp := by
      apply max_lt hlt; linarith
    have hit : r = ({ succeed ls .search with stp := .val (max stpmin (stp / 2)) },
        .val (max stpmin (stp / 2))) := by
      show iterate backtrackOps ls ls.stp .nan g = _
      unfold iterate
      rw [if_neg (by simp [ht]), if_neg (by simp [hs])]
      simp only [backtrackOps, backtrackIterate]
      rw [if_neg (nle _), if_neg (by rw [hs, hs1]; exact not_le.mpr hlt), htr]
      by_cases h : Num.val (max stpmin (stp / 2)) ≤ ls.stpmin
      · have e : Num.val (max stpmin (stp / 2)) = ls.stpmin := by
          rw [hs1] at h ⊢
          have : max stpmin (stp / 2) = stpmin := le_antisymm h (le_max_left _ _)
          rw [this]
        refine finish_lo _ _ _ h e ?_
        unfold boundOf
        rw [if_neg (show ¬ ls.stp ≤ ls.stpmin by rw [hs, hs1]; exact not_le.mpr hlt)]
        split <;> decide
      · exact finish_mid _ _ _ h (show ¬ Num.val (max stpmin (stp / 2)) ≥ ls.stpmax by
          rw [hs2]; exact not_le.mpr (lt_of_lt_of_le hmx hle))
    rw [hit]
    exact ⟨rfl, rfl, rfl⟩
  · intro ls stp stpmin stpmax ht hs hs1 hs2 h0 hlt hle r
    have hmid : stpmin < (stp + stpmin) / 2 ∧ (stp + stpmin) / 2 < stp := by constructor <;> linarith
    have htr : nonmonotoneTrial ls ls.stp .nan = .val ((stp + stpmin) / 2) := by
      unfold nonmonotoneTrial
      simp only [nsub, nmul]
      rw [if_neg (fun h => nlt _ h.1), hl', hs, hs1]
      have e : (Num.val stp + Num.val stpmin) / Num.val 2 = Num.val ((stp + stpmin) / 2) := by
        rw [Num.val_add, Num.val_div (by norm_num)]
      rw [e]
      unfold cmax
      rw [if_pos (show Num.val ((stp + stpmin) / 2) ≥ Num.val stpmin from hmid.1.le)]
    have hit : r = ({ succeed ls .search with stp := .val ((stp + stpmin) / 2) },
        .val ((stp + stpmin) / 2)) := by
      show iterate nonmonotoneOps ls ls.stp .nan g = _
      unfold iterate
      rw [if_neg (by simp [ht]), if_neg (by simp [hs])]
      simp only [nonmonotoneOps, nonmonotoneIterate]
      rw [if_neg (nle _), if_neg (by rw [hs, hs1]; exact not_le.mpr hlt), htr,
        if_neg (show ¬ (Num.val ((stp + stpmin) / 2) ≤ (0 : Num K)) from
          fun h => absurd (show (stp + stpmin) / 2 ≤ 0 from h) (by linarith [hmid.1]))]
      exact finish_mid _ _ _
        (show ¬ Num.val ((stp + stpmin) / 2) ≤ ls.stpmin by rw [hs1]; exact not_le.mpr hmid.1)
        (show ¬ Num.val ((stp + stpmin) / 2) ≥ ls.stpmax by
          rw [hs2]; exact not_le.mpr (lt_of_lt_of_le hmid.2 hle))
    rw [hit]
    exact ⟨rfl, rfl, rfl⟩

/-! ## C55: parameters of the constructors -/

section ctor
variable {F : Type} [Add F] [Sub F] [Mul F] [Div F] [Neg F] [One F] [Zero F] [LinearOrder F] [CMath F]

/-- **C55.** Without undefined values, the constructors succeed (when memory is available) exactly
for the documented parameters. -/
theorem constructor_parameters (finite : F → Bool) (raw : Ls F Unit) (raw1 : Ls F (Nonmonotone F))
    (raw2 : Ls F (Csrch F)) (ftol gtol xtol amin sigma1 sigma2 : F) (m : Int) :
    ((newBacktrack raw ftol amin).isSome ↔ 0 < ftol ∧ ftol ≤ lit 1 2 ∧ 0 < amin ∧ amin < 1) ∧
    ((newNonmonotone finite raw1 m ftol sigma1 sigma2).isSome ↔
      finite ftol ∧ finite sigma1 ∧ 0 < ftol ∧ 0 < sigma1 ∧ sigma1 < sigma2 ∧ sigma2 < 1 ∧ 1 ≤ m) ∧
    ((newCsrch raw2 ftol gtol xtol).isSome ↔ 0 ≤ ftol ∧ 0 ≤ gtol ∧ 0 ≤ xtol) := by
  refine ⟨?_, ?_, ?_⟩
  · unfold newBacktrack
    split
    · rename_i h
      simp only [Option.isSome_none, Bool.false_eq_true, false_iff]
      rintro ⟨h1, h2, h3, h4⟩
      rcases h with h | h | h | h <;> order
    · rename_i h
      simp only [not_or, not_le, not_lt, gt_iff_lt, ge_iff_le] at h
      simpa using h
  · unfold newNonmonotone
    split
    · rename_i h
      simp only [Option.isSome_none, Bool.false_eq_true, false_iff]
      rintro ⟨h1, h2, h3, h4, h5, h6, h7⟩
      rcases h with h | h | h | h | h | h | h | h
      · simp [h1] at h
      · simp [h2] at h
      · simp [h2] at h
      · order
      · order
      · order
      · order
      · omega
    · rename_i h
      simp only [not_or, not_le, not_lt, gt_iff_lt, ge_iff_le, Bool.not_eq_true,
        Bool.not_eq_false'] at h
      obtain ⟨h1, h2, _, h3, h4, h5, h6, h7⟩ := h
      simp [h1, h2, h3, h4, h5, h6, h7]
  · unfold newCsrch
    split
    · rename_i h; simp; intro h'; order
    split
    · rename_i h; simp; intro _ h'; order
    split
    · rename_i h; simp; intro _ _; order
    · rename_i h1 h2 h3
      simp [not_lt.mp h1, not_lt.mp h2, not_lt.mp h3]

end ctor

/-- **C55, undefined values are accepted** by the constructors (only the nonmonotone one checks
some of its parameters, and it never checks `sigma2`, testing `sigma1` twice instead). -/
theorem constructor_nan (raw : Ls (Num ℚ) Unit) (raw1 : Ls (Num ℚ) (Nonmonotone (Num ℚ)))
    (raw2 : Ls (Num ℚ) (Csrch (Num ℚ))) :
    (newBacktrack raw .nan .nan).isSome ∧
    (newNonmonotone (fun x => x matches .val _) raw1 5 (.val (1 / 10)) (.val (1 / 10)) .nan).isSome ∧
    (newCsrch raw2 .nan .nan .nan).isSome := by
  refine ⟨rfl, ?_, rfl⟩
  unfold newNonmonotone
  rw [if_neg (by decide +kernel)]
  rfl

end Opk.LineSearch
