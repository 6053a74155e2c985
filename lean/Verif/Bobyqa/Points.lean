import Verif.Bobyqa.Model
import Verif.Cobyla.Loops
/-!
# The points where BOBYQA calls the objective function

The operations of the arithmetic are arbitrary; only the comparisons are those of a total order.
Nothing is assumed about `trsbox`.
-/
set_option linter.unusedSectionVars false
namespace Opk.Bobyqa
open Linalg CMath Cobyla

section
variable {F : Type} [Add F] [Sub F] [Mul F] [Div F] [Neg F] [Zero F] [One F] [LinearOrder F] [CMath F]

theorem clamp_mem {x lo hi : F} (h : lo ≤ hi) : lo ≤ clamp x lo hi ∧ clamp x lo hi ≤ hi := by
  unfold clamp
  by_cases h1 : x ≥ hi
  · rw [if_pos h1]; exact ⟨h, le_refl _⟩
  · rw [if_neg h1]
    by_cases h2 : x ≤ lo
    · rw [if_pos h2]; exact ⟨le_refl _, h⟩
    · rw [if_neg h2]; exact ⟨le_of_lt (not_le.mp h2), le_of_lt (not_le.mp h1)⟩

/-- The bounds of the user. -/
def InBox (p : Par F) (v : Nat → F) : Prop := ∀ i, 1 ≤ i → i ≤ p.n → p.xl i ≤ v i ∧ v i ≤ p.xu i

/-- The bounds are consistent. -/
def Bounds (p : Par F) : Prop := ∀ i, 1 ≤ i → i ≤ p.n → p.xl i ≤ p.xu i

theorem place_inBox (p : Par F) (hb : Bounds p) (s : St F) (v : Nat → F) : InBox p (place p s v) := by
  intro i h1 h2
  unfold place
  by_cases ha : v i = s.su i
  · rw [if_pos ha]; exact ⟨hb i h1 h2, le_refl _⟩
  · rw [if_neg ha]
    by_cases hc : v i = s.sl i
    · rw [if_pos hc]; exact ⟨le_refl _, hb i h1 h2⟩
    · rw [if_neg hc]; exact clamp_mem (hb i h1 h2)

theorem prelimX_inBox (p : Par F) (hb : Bounds p) (s : St F) (nf : Nat) : InBox p (prelimX p s nf) :=
  place_inBox p hb s (fun j => s.xpt nf j)

/-- Neither the variables, nor the calls, nor their number, nor the status have changed. -/
def Quiet (s s' : St F) : Prop := s'.x = s.x ∧ s'.log = s.log ∧ s'.nf = s.nf

theorem quiet_refl (s : St F) : Quiet s s := ⟨rfl, rfl, rfl⟩

theorem quiet_trans {a b c : St F} (h : Quiet a b) (h' : Quiet b c) : Quiet a c :=
  ⟨h'.1.trans h.1, h'.2.1.trans h.2.1, h'.2.2.trans h.2.2⟩

theorem quiet_fail (e : Status) (s : St F) : Quiet s (fail e s).2 := ⟨rfl, rfl, rfl⟩

theorem quiet_prelimModel (p : Par F) (s : St F) : Quiet s (prelimModel p s) := by
  unfold prelimModel prelimModelA prelimModelB prelimModelC prelimQuad prelimSwap
  dsimp only
  split_ifs <;> exact ⟨rfl, rfl, rfl⟩

theorem quiet_prelimStore (s : St F) : Quiet s (prelimStore s) := by
  unfold prelimStore
  dsimp only
  split_ifs <;> exact ⟨rfl, rfl, rfl⟩

theorem quiet_prelimPoint (p : Par F) (s : St F) (nf : Nat) : Quiet s (prelimPoint p s nf) := by
  unfold prelimPoint prelimA prelimB prelimC
  dsimp only
  split_ifs <;> exact ⟨rfl, rfl, rfl⟩

theorem quiet_begin (p : Par F) (s : St F) : Quiet s (begin p s).2 := by
  unfold begin fail
  dsimp only
  split_ifs <;> exact ⟨rfl, rfl, rfl⟩

theorem quiet_l20 (p : Par F) (s : St F) : Quiet s (l20 p s).2 := by
  unfold l20
  dsimp only
  split_ifs <;> exact ⟨rfl, rfl, rfl⟩

theorem quiet_short (p : Par F) (g : Nat → F) (s : St F) : Quiet s (short p g s).2 := by
  unfold short
  dsimp only
  split_ifs <;> exact ⟨rfl, rfl, rfl⟩

theorem quiet_l60 (p : Par F) (T : St F → Trs F) (s : St F) : Quiet s (l60 p T s).2 := by
  unfold l60
  dsimp only
  split_ifs
  · exact quiet_trans ⟨rfl, rfl, rfl⟩ (quiet_short p _ _)
  · exact ⟨rfl, rfl, rfl⟩

theorem quiet_l90 (p : Par F) (s : St F) : Quiet s (l90 p s).2 := by
  unfold l90 shift
  dsimp only
  split_ifs <;> exact ⟨rfl, rfl, rfl⟩

theorem quiet_l190 (p : Par F) (s : St F) : Quiet s (l190 p s).2 := ⟨rfl, rfl, rfl⟩

theorem quiet_r80 (p : Par F) (s : St F) : Quiet s (r80 p s).2 := by
  unfold r80
  dsimp only
  split_ifs <;> exact ⟨rfl, rfl, rfl⟩

theorem quiet_r120 (p : Par F) (s : St F) : Quiet s (r120 p s).2 := by
  unfold r120
  dsimp only
  split_ifs <;> exact ⟨rfl, rfl, rfl⟩

theorem quiet_l190b (p : Par F) (s : St F) : Quiet s (l190b p s).2 := by
  unfold l190b fail
  dsimp only
  split_ifs <;> exact ⟨rfl, rfl, rfl⟩

theorem quiet_l210 (p : Par F) (s : St F) : Quiet s (l210 p s).2 := ⟨rfl, rfl, rfl⟩

theorem quiet_damaged (s : St F) : Quiet s (damaged s).2 := by
  unfold damaged fail
  split_ifs <;> exact ⟨rfl, rfl, rfl⟩

theorem quiet_l230 (p : Par F) (s : St F) : Quiet s (l230 p s).2 := by
  unfold l230
  dsimp only
  split_ifs
  · exact ⟨rfl, rfl, rfl⟩
  · exact quiet_trans ⟨rfl, rfl, rfl⟩ (quiet_damaged _)
  · exact ⟨rfl, rfl, rfl⟩
  · exact quiet_trans ⟨rfl, rfl, rfl⟩ (quiet_damaged _)
  · exact ⟨rfl, rfl, rfl⟩

theorem quiet_repick (p : Par F) (s : St F) : Quiet s (repick p s) := by
  unfold repick
  dsimp only
  split_ifs <;> exact ⟨rfl, rfl, rfl⟩

theorem quiet_recenter (p : Par F) (fopt : F) (s : St F) : Quiet s (recenter p fopt s) := by
  unfold recenter
  dsimp only
  split_ifs <;> exact ⟨rfl, rfl, rfl⟩

theorem quiet_frobenius (p : Par F) (s : St F) : Quiet s (tryFrobenius p s) := by
  unfold tryFrobenius
  dsimp only
  split_ifs <;> exact ⟨rfl, rfl, rfl⟩

theorem quiet_afterMove (fopt : F) (s : St F) : Quiet s (afterMove fopt s).2 := by
  unfold afterMove
  dsimp only
  split_ifs <;> exact ⟨rfl, rfl, rfl⟩

theorem quiet_absorb (p : Par F) (s : St F) : Quiet s (absorb p s).2 := by
  unfold absorb
  split_ifs
  · exact quiet_refl s
  · have h1 : Quiet s (move p s) := ⟨rfl, rfl, rfl⟩
    exact quiet_trans (quiet_trans (quiet_trans h1 (quiet_recenter p _ _)) (quiet_frobenius p _)) (quiet_afterMove _ _)

theorem quiet_assess (p : Par F) (s : St F) : Quiet s (assess p s).2 := by
  unfold assess
  dsimp only
  split_ifs
  · exact ⟨rfl, rfl, rfl⟩
  · have h1 : Quiet s { errors p s with ratio := ((errors p s).f - (errors p s).fval (errors p s).kopt) / (errors p s).vquad, delta := newDelta (errors p s) } := ⟨rfl, rfl, rfl⟩
    exact quiet_trans (quiet_trans h1 (quiet_repick p _)) (quiet_absorb p _)
  · exact quiet_trans (show Quiet s (errors p s) from ⟨rfl, rfl, rfl⟩) (quiet_absorb p _)

theorem quiet_l650 (p : Par F) (s : St F) : Quiet s (l650 p s).2 := by
  unfold l650 far
  dsimp only
  split_ifs <;> exact ⟨rfl, rfl, rfl⟩

theorem quiet_l680 (p : Par F) (s : St F) : Quiet s (l680 p s).2 := by
  unfold l680
  dsimp only
  split_ifs <;> exact ⟨rfl, rfl, rfl⟩

/-! ### The three calls of the objective function -/

theorem prelim_called (p : Par F) (calfun : Nat → (Nat → F) → F) (s : St F) :
    (prelim p calfun s).2.log = (prelimX p (prelimPoint p s (s.nf + 1)) (s.nf + 1), calfun s.nf (prelimX p (prelimPoint p s (s.nf + 1)) (s.nf + 1))) :: s.log ∧
    (prelim p calfun s).2.nf = s.nf + 1 ∧ (prelim p calfun s).2.x = prelimX p (prelimPoint p s (s.nf + 1)) (s.nf + 1) := by
  have h1 := quiet_prelimPoint p s (s.nf + 1)
  obtain ⟨x, hx⟩ : ∃ x, x = prelimX p (prelimPoint p s (s.nf + 1)) (s.nf + 1) := ⟨_, rfl⟩
  obtain ⟨t, ht⟩ : ∃ t, t = prelimPoint p s (s.nf + 1) := ⟨_, rfl⟩
  have h2 : Quiet (call calfun x { t with x := x }) (prelimModel p (prelimStore (call calfun x { t with x := x }))) :=
    quiet_trans (quiet_prelimStore _) (quiet_prelimModel p _)
  have h3 : Quiet (prelimModel p (prelimStore (call calfun x { t with x := x }))) (prelim p calfun s).2 := by
    have e : prelim p calfun s = if (prelimModel p (prelimStore (call calfun x { t with x := x }))).nf < p.npt ∧ ((prelimModel p (prelimStore (call calfun x { t with x := x }))).nf : Int) < p.maxfun then (.pre, prelimModel p (prelimStore (call calfun x { t with x := x }))) else begin p (prelimModel p (prelimStore (call calfun x { t with x := x }))) := by
      unfold prelim
      have e1 : (prelimPoint p s (s.nf + 1)).nf = s.nf := h1.2.2
      rw [ht, hx]
      dsimp only
      rw [e1]
    rw [e]
    split_ifs
    · exact quiet_refl _
    · exact quiet_begin p _
  obtain ⟨a1, a2, a3⟩ := quiet_trans h2 h3
  rw [← hx, a1, a2, a3]
  subst ht
  refine ⟨?_, ?_, rfl⟩
  · show (x, calfun (prelimPoint p s (s.nf + 1)).nf x) :: (prelimPoint p s (s.nf + 1)).log = _
    rw [h1.2.1, h1.2.2]
  · show (prelimPoint p s (s.nf + 1)).nf + 1 = _
    rw [h1.2.2]

theorem rpts_called (p : Par F) (calfun : Nat → (Nat → F) → F) (s : St F) :
    (rpts p calfun s).2.x = s.x ∧
    ((∃ t : St F, ∃ v, (rpts p calfun s).2.log = (place p t v, calfun s.nf (place p t v)) :: s.log ∧ (rpts p calfun s).2.nf = s.nf + 1 ∧ (s.nf : Int) < p.maxfun)
      ∨ ((rpts p calfun s).2.log = s.log ∧ (rpts p calfun s).2.nf = s.nf)) := by
  unfold rpts
  by_cases h1 : s.res.kpt ≤ p.npt
  · rw [if_pos h1]
    cases h2 : s.res.ptsid s.res.kpt with
    | none => exact ⟨rfl, Or.inr ⟨rfl, rfl⟩⟩
    | some id =>
      dsimp only
      by_cases h3 : p.maxfun ≤ (s.nf : Int)
      · rw [if_pos h3]; exact ⟨rfl, Or.inr ⟨rfl, rfl⟩⟩
      · rw [if_neg h3]
        exact ⟨rfl, Or.inl ⟨rescueMove s id, fun i => (rescueMove s id).xpt (rescueMove s id).res.kpt i, rfl, rfl, not_le.mp h3⟩⟩
  · rw [if_neg h1]
    exact ⟨rfl, Or.inr ⟨rfl, rfl⟩⟩

theorem l360_called (p : Par F) (calfun : Nat → (Nat → F) → F) (s : St F) :
    (l360 p calfun s).2.x = place p s s.xnew ∧
    (((l360 p calfun s).2.log = (place p s s.xnew, calfun s.nf (place p s s.xnew)) :: s.log ∧ (l360 p calfun s).2.nf = s.nf + 1 ∧ (s.nf : Int) < p.maxfun)
      ∨ ((l360 p calfun s).2.log = s.log ∧ (l360 p calfun s).2.nf = s.nf)) := by
  unfold l360
  dsimp only
  by_cases h1 : p.maxfun ≤ (s.nf : Int)
  · rw [if_pos h1]; exact ⟨rfl, Or.inr ⟨rfl, rfl⟩⟩
  · rw [if_neg h1]
    split_ifs
    · exact ⟨rfl, Or.inl ⟨rfl, rfl, not_le.mp h1⟩⟩
    · obtain ⟨a1, a2, a3⟩ := quiet_assess p { call calfun (place p s s.xnew) { s with x := place p s s.xnew } with f := (call calfun (place p s s.xnew) { s with x := place p s s.xnew }).fl }
      exact ⟨a1, Or.inl ⟨a2, a3, not_le.mp h1⟩⟩

theorem finish_log (p : Par F) (s : St F) : (finish p s).2.log = s.log ∧ (finish p s).2.nf = s.nf := by
  unfold finish
  dsimp only
  split_ifs <;> exact ⟨rfl, rfl⟩

theorem finish_x (p : Par F) (s : St F) : (finish p s).2.x = s.x ∨ (finish p s).2.x = place p s s.xopt := by
  unfold finish
  dsimp only
  split_ifs
  · exact Or.inr rfl
  · exact Or.inr rfl
  · exact Or.inl rfl
  · exact Or.inl rfl

theorem run_inv (p : Par F) (calfun : Nat → (Nat → F) → F) (T : St F → Trs F) (P : Lab × St F → Prop)
    (h : ∀ ls, P ls → P (step p calfun T ls)) : ∀ fuel ls, P ls → P (run p calfun T fuel ls) := by
  intro fuel
  induction fuel with
  | zero => intro ls hl; exact hl
  | succ k ih => intro ls hl; exact ih _ (h ls hl)

/-- The points of the calls are within the bounds, and the variables too after the first call. -/
def Feasible (p : Par F) (ls : Lab × St F) : Prop :=
  (∀ e ∈ ls.2.log, InBox p e.1) ∧ (ls.1 = .pre ∨ InBox p ls.2.x)

theorem feasible_quiet (p : Par F) (l l' : Lab) (s s' : St F) (hl : l ≠ .pre) (h : Feasible p (l, s)) (hq : Quiet s s') : Feasible p (l', s') := by
  obtain ⟨h1, h2⟩ := h
  refine ⟨?_, Or.inr ?_⟩
  · show ∀ e ∈ s'.log, _
    rw [hq.2.1]; exact h1
  · show InBox p s'.x
    rw [hq.1]; exact h2.resolve_left hl

theorem feasible_step (p : Par F) (hb : Bounds p) (calfun : Nat → (Nat → F) → F) (T : St F → Trs F) (ls : Lab × St F)
    (h : Feasible p ls) : Feasible p (step p calfun T ls) := by
  obtain ⟨l, s⟩ := ls
  have push : ∀ (s' : St F) (x : Nat → F) (y : F), s'.log = (x, y) :: s.log → InBox p x → ∀ e ∈ s'.log, InBox p e.1 := by
    intro s' x y e hx a ha
    rw [e] at ha
    rcases List.mem_cons.mp ha with rfl | ha
    · exact hx
    · exact h.1 a ha
  cases l with
  | pre =>
    obtain ⟨a1, a2, a3⟩ := prelim_called p calfun s
    refine ⟨push _ _ _ a1 (prelimX_inBox p hb _ _), Or.inr ?_⟩
    show InBox p (prelim p calfun s).2.x
    rw [a3]; exact prelimX_inBox p hb _ _
  | l20 => exact feasible_quiet p .l20 _ s _ (by decide) h (quiet_l20 p s)
  | l60 => exact feasible_quiet p .l60 _ s _ (by decide) h (quiet_l60 p T s)
  | l90 => exact feasible_quiet p .l90 _ s _ (by decide) h (quiet_l90 p s)
  | l190 => exact feasible_quiet p .l190 _ s _ (by decide) h (quiet_l190 p s)
  | r80 => exact feasible_quiet p .r80 _ s _ (by decide) h (quiet_r80 p s)
  | r120 => exact feasible_quiet p .r120 _ s _ (by decide) h (quiet_r120 p s)
  | l190b => exact feasible_quiet p .l190b _ s _ (by decide) h (quiet_l190b p s)
  | l210 => exact feasible_quiet p .l210 _ s _ (by decide) h (quiet_l210 p s)
  | l230 => exact feasible_quiet p .l230 _ s _ (by decide) h (quiet_l230 p s)
  | l650 => exact feasible_quiet p .l650 _ s _ (by decide) h (quiet_l650 p s)
  | l680 => exact feasible_quiet p .l680 _ s _ (by decide) h (quiet_l680 p s)
  | rpts =>
    obtain ⟨a1, a2⟩ := rpts_called p calfun s
    have hx : InBox p (rpts p calfun s).2.x := by
      rw [a1]; exact h.2.resolve_left (fun e => Lab.noConfusion e)
    rcases a2 with ⟨t, v, a2, -, -⟩ | ⟨a2, -⟩
    · exact ⟨push _ _ _ a2 (place_inBox p hb _ _), Or.inr hx⟩
    · refine ⟨?_, Or.inr hx⟩
      show ∀ e ∈ (rpts p calfun s).2.log, _
      rw [a2]; exact h.1
  | l360 =>
    obtain ⟨a1, a2⟩ := l360_called p calfun s
    have hx : InBox p (l360 p calfun s).2.x := by
      rw [a1]; exact place_inBox p hb _ _
    rcases a2 with ⟨a2, -, -⟩ | ⟨a2, -⟩
    · exact ⟨push _ _ _ a2 (place_inBox p hb _ _), Or.inr hx⟩
    · refine ⟨?_, Or.inr hx⟩
      show ∀ e ∈ (l360 p calfun s).2.log, _
      rw [a2]; exact h.1
  | done =>
    refine ⟨?_, Or.inr ?_⟩
    · show ∀ e ∈ (finish p s).2.log, _
      rw [(finish_log p s).1]; exact h.1
    · show InBox p (finish p s).2.x
      rcases finish_x p s with e | e
      · rw [e]; exact h.2.resolve_left (fun e => Lab.noConfusion e)
      · rw [e]; exact place_inBox p hb _ _
  | ret => exact h
  | wrong => exact h

/-- **C49.**  Whatever the arithmetic, the objective function, the step of `trsbox` and the contents of the workspace:
`bobyqb` only calls the objective function at points within the bounds, and the variables it returns are within the
bounds. -/
theorem bobyqb_feasible (p : Par F) (hb : Bounds p) (calfun : Nat → (Nat → F) → F) (T : St F → Trs F) (x sl su : Nat → F)
    (s : St F) (fuel : Nat) (r : Lab × St F) (hr : r = run p calfun T fuel (start x sl su s)) :
    (∀ e ∈ r.2.log, InBox p e.1) ∧ (r.1 = .ret → InBox p r.2.x) := by
  subst hr
  obtain ⟨h1, h2⟩ := run_inv p calfun T (Feasible p) (feasible_step p hb calfun T) fuel (start x sl su s)
    ⟨fun e he => absurd he List.not_mem_nil, Or.inl rfl⟩
  refine ⟨h1, fun h => h2.resolve_left ?_⟩
  rw [h]; decide

/-! ### The number of calls -/

/-- The number of calls. -/
def Counted (p : Par F) (ls : Lab × St F) : Prop :=
  ls.2.nf = ls.2.log.length ∧ (ls.2.nf : Int) ≤ max 1 p.maxfun ∧ (ls.1 = .pre → ls.2.nf = 0 ∨ (ls.2.nf : Int) < p.maxfun)

theorem prelim_pre (p : Par F) (calfun : Nat → (Nat → F) → F) (s : St F) (h : (prelim p calfun s).1 = .pre) :
    ((prelim p calfun s).2.nf : Int) < p.maxfun ∧ (prelim p calfun s).2.nf < p.npt := by
  unfold prelim at *
  dsimp only at *
  split_ifs at h ⊢ with h1
  · exact ⟨h1.2, h1.1⟩
  · unfold begin fail at h
    dsimp only at h
    split_ifs at h

theorem label_l20 (p : Par F) (s : St F) : (l20 p s).1 = .l60 := by
  unfold l20; dsimp only; split_ifs <;> rfl

theorem label_l60 (p : Par F) (T : St F → Trs F) (s : St F) : (l60 p T s).1 = .l90 ∨ (l60 p T s).1 = .l650 ∨ (l60 p T s).1 = .l680 := by
  unfold l60 short; dsimp only; split_ifs <;> simp

theorem label_l90 (p : Par F) (s : St F) : (l90 p s).1 = .l210 ∨ (l90 p s).1 = .l230 := by
  unfold l90; dsimp only; split_ifs <;> simp

theorem label_r80 (p : Par F) (s : St F) : (r80 p s).1 = .l190b ∨ (r80 p s).1 = .r120 := by
  unfold r80; dsimp only; split_ifs <;> simp

theorem label_r120 (p : Par F) (s : St F) : (r120 p s).1 = .rpts ∨ (r120 p s).1 = .r120 ∨ (r120 p s).1 = .r80 := by
  unfold r120; dsimp only; split_ifs <;> simp

theorem label_rpts (p : Par F) (calfun : Nat → (Nat → F) → F) (s : St F) : (rpts p calfun s).1 = .rpts ∨ (rpts p calfun s).1 = .l190b := by
  unfold rpts
  by_cases h : s.res.kpt ≤ p.npt
  · rw [if_pos h]
    cases s.res.ptsid s.res.kpt with
    | none => exact Or.inl rfl
    | some id => dsimp only; split_ifs <;> simp
  · rw [if_neg h]; exact Or.inr rfl

theorem label_l190b (p : Par F) (s : St F) : (l190b p s).1 = .done ∨ (l190b p s).1 = .l20 ∨ (l190b p s).1 = .l60 ∨ (l190b p s).1 = .l210 := by
  unfold l190b fail; dsimp only; split_ifs <;> simp

theorem label_damaged (s : St F) : (damaged s).1 = .l190 ∨ (damaged s).1 = .done := by
  unfold damaged fail; split_ifs <;> simp

theorem label_l230 (p : Par F) (s : St F) : (l230 p s).1 = .l230 ∨ (l230 p s).1 = .l360 ∨ (l230 p s).1 = .l190 ∨ (l230 p s).1 = .done := by
  unfold l230; dsimp only
  split_ifs
  · exact Or.inl rfl
  · exact Or.inr (Or.inr (label_damaged _))
  · exact Or.inr (Or.inl rfl)
  · exact Or.inr (Or.inr (label_damaged _))
  · exact Or.inr (Or.inl rfl)

theorem label_absorb (p : Par F) (s : St F) : (absorb p s).1 = .wrong ∨ (absorb p s).1 = .l60 ∨ (absorb p s).1 = .l650 := by
  unfold absorb afterMove
  dsimp only
  by_cases h : s.knew = 0
  · rw [if_pos h]; exact Or.inl rfl
  · rw [if_neg h]; split_ifs <;> simp

theorem label_assess (p : Par F) (s : St F) : (assess p s).1 = .done ∨ (assess p s).1 = .wrong ∨ (assess p s).1 = .l60 ∨ (assess p s).1 = .l650 := by
  unfold assess; dsimp only
  split_ifs
  · exact Or.inl rfl
  · exact Or.inr (label_absorb p _)
  · exact Or.inr (label_absorb p _)

theorem label_l360 (p : Par F) (calfun : Nat → (Nat → F) → F) (s : St F) :
    (l360 p calfun s).1 = .done ∨ (l360 p calfun s).1 = .wrong ∨ (l360 p calfun s).1 = .l60 ∨ (l360 p calfun s).1 = .l650 := by
  unfold l360; dsimp only
  split_ifs
  · exact Or.inl rfl
  · exact Or.inl rfl
  · exact label_assess p _

theorem label_l650 (p : Par F) (s : St F) : (l650 p s).1 = .l90 ∨ (l650 p s).1 = .l680 ∨ (l650 p s).1 = .l60 := by
  unfold l650; dsimp only; split_ifs <;> simp

theorem label_l680 (p : Par F) (s : St F) : (l680 p s).1 = .l60 ∨ (l680 p s).1 = .l360 ∨ (l680 p s).1 = .done := by
  unfold l680; dsimp only; split_ifs <;> simp

/-- `prelim` is not executed again. -/
theorem step_pre (p : Par F) (calfun : Nat → (Nat → F) → F) (T : St F → Trs F) (l : Lab) (s : St F) (hl : l ≠ .pre) :
    (step p calfun T (l, s)).1 ≠ .pre := by
  cases l with
  | pre => exact absurd rfl hl
  | l20 => rw [show step p calfun T (.l20, s) = l20 p s from rfl, label_l20]; decide
  | l60 => rcases label_l60 p T s with e | e | e <;> rw [show step p calfun T (.l60, s) = l60 p T s from rfl, e] <;> decide
  | l90 => rcases label_l90 p s with e | e <;> rw [show step p calfun T (.l90, s) = l90 p s from rfl, e] <;> decide
  | l190 => intro h; cases h
  | r80 => rcases label_r80 p s with e | e <;> rw [show step p calfun T (.r80, s) = r80 p s from rfl, e] <;> decide
  | r120 => rcases label_r120 p s with e | e | e <;> rw [show step p calfun T (.r120, s) = r120 p s from rfl, e] <;> decide
  | rpts => rcases label_rpts p calfun s with e | e <;> rw [show step p calfun T (.rpts, s) = rpts p calfun s from rfl, e] <;> decide
  | l190b => rcases label_l190b p s with e | e | e | e <;> rw [show step p calfun T (.l190b, s) = l190b p s from rfl, e] <;> decide
  | l210 => intro h; cases h
  | l230 => rcases label_l230 p s with e | e | e | e <;> rw [show step p calfun T (.l230, s) = l230 p s from rfl, e] <;> decide
  | l360 => rcases label_l360 p calfun s with e | e | e | e <;> rw [show step p calfun T (.l360, s) = l360 p calfun s from rfl, e] <;> decide
  | l650 => rcases label_l650 p s with e | e | e <;> rw [show step p calfun T (.l650, s) = l650 p s from rfl, e] <;> decide
  | l680 => rcases label_l680 p s with e | e | e <;> rw [show step p calfun T (.l680, s) = l680 p s from rfl, e] <;> decide
  | done => intro h; cases h
  | ret => intro h; cases h
  | wrong => intro h; cases h

theorem counted_same (p : Par F) (l l' : Lab) (s s' : St F) (hl : l' ≠ .pre) (h : Counted p (l, s)) (h1 : s'.log = s.log)
    (h2 : s'.nf = s.nf) : Counted p (l', s') := by
  refine ⟨?_, ?_, fun e => absurd e hl⟩
  · show s'.nf = s'.log.length
    rw [h1, h2]; exact h.1
  · show (s'.nf : Int) ≤ _
    rw [h2]; exact h.2.1

theorem counted_more (p : Par F) (l l' : Lab) (s s' : St F) (e : (Nat → F) × F) (hl : l' ≠ .pre) (h : Counted p (l, s))
    (h1 : s'.log = e :: s.log) (h2 : s'.nf = s.nf + 1) (h3 : (s.nf : Int) < p.maxfun) : Counted p (l', s') := by
  have h0 : s.nf = s.log.length := h.1
  refine ⟨?_, ?_, fun e => absurd e hl⟩
  · show s'.nf = s'.log.length
    rw [h1, h2, List.length_cons, h0]
  · show (s'.nf : Int) ≤ _
    rw [h2]; push_cast; omega

theorem counted_step (p : Par F) (calfun : Nat → (Nat → F) → F) (T : St F → Trs F) (ls : Lab × St F) (h : Counted p ls) :
    Counted p (step p calfun T ls) := by
  obtain ⟨l, s⟩ := ls
  by_cases hp : l = .pre
  · subst hp
    obtain ⟨a1, a2, -⟩ := prelim_called p calfun s
    have h0 : s.nf = s.log.length := h.1
    refine ⟨?_, ?_, fun e => Or.inr (prelim_pre p calfun s e).1⟩
    · show (prelim p calfun s).2.nf = (prelim p calfun s).2.log.length
      rw [a1, a2, List.length_cons, h0]
    · show ((prelim p calfun s).2.nf : Int) ≤ _
      rw [a2]
      have := h.2.2 rfl
      push_cast
      dsimp only at this
      omega
  · have hn := step_pre p calfun T l s hp
    have quiet : ∀ s', (step p calfun T (l, s)).2 = s' → Quiet s s' → Counted p (step p calfun T (l, s)) := by
      intro s' e hq
      refine counted_same p l (step p calfun T (l, s)).1 s (step p calfun T (l, s)).2 hn h ?_ ?_
      · rw [e]; exact hq.2.1
      · rw [e]; exact hq.2.2
    cases l with
    | pre => exact absurd rfl hp
    | l20 => exact quiet _ rfl (quiet_l20 p s)
    | l60 => exact quiet _ rfl (quiet_l60 p T s)
    | l90 => exact quiet _ rfl (quiet_l90 p s)
    | l190 => exact quiet _ rfl (quiet_l190 p s)
    | r80 => exact quiet _ rfl (quiet_r80 p s)
    | r120 => exact quiet _ rfl (quiet_r120 p s)
    | l190b => exact quiet _ rfl (quiet_l190b p s)
    | l210 => exact quiet _ rfl (quiet_l210 p s)
    | l230 => exact quiet _ rfl (quiet_l230 p s)
    | l650 => exact quiet _ rfl (quiet_l650 p s)
    | l680 => exact quiet _ rfl (quiet_l680 p s)
    | rpts =>
      obtain ⟨-, ⟨t, v, a2, a3, a4⟩ | ⟨a2, a3⟩⟩ := rpts_called p calfun s
      · exact counted_more p .rpts _ s _ _ hn h a2 a3 a4
      · exact counted_same p .rpts _ s _ hn h a2 a3
    | l360 =>
      obtain ⟨-, ⟨a2, a3, a4⟩ | ⟨a2, a3⟩⟩ := l360_called p calfun s
      · exact counted_more p .l360 _ s _ _ hn h a2 a3 a4
      · exact counted_same p .l360 _ s _ hn h a2 a3
    | done => exact counted_same p .done _ s _ hn h (finish_log p s).1 (finish_log p s).2
    | ret => exact h
    | wrong => exact h

/-- **C71.**  The objective function is called at most `max(1, maxfun)` times, whatever the arithmetic, the objective
function and the step of `trsbox`. -/
theorem bobyqb_budget (p : Par F) (calfun : Nat → (Nat → F) → F) (T : St F → Trs F) (x sl su : Nat → F)
    (s : St F) (fuel : Nat) : ((run p calfun T fuel (start x sl su s)).2.log.length : Int) ≤ max 1 p.maxfun := by
  obtain ⟨h1, h2, -⟩ := run_inv p calfun T (Counted p) (counted_step p calfun T) fuel (start x sl su s)
    ⟨rfl, le_trans (by norm_num : ((0 : Nat) : Int) ≤ 1) (le_max_left _ _), fun _ => Or.inl rfl⟩
  rw [← h1]; exact h2

/-- The list of the calls: the values are those of the objective function, the latest call first. -/
def Genuine (calfun : Nat → (Nat → F) → F) : List ((Nat → F) × F) → Prop
  | [] => True
  | e :: l => e.2 = calfun l.length e.1 ∧ Genuine calfun l

theorem genuine_step (p : Par F) (calfun : Nat → (Nat → F) → F) (T : St F → Trs F) (ls : Lab × St F) (hc : Counted p ls)
    (h : Genuine calfun ls.2.log) : Genuine calfun (step p calfun T ls).2.log := by
  obtain ⟨l, s⟩ := ls
  have h0 : s.nf = s.log.length := hc.1
  have push : ∀ x s', s'.log = (x, calfun s.nf x) :: s.log → Genuine calfun (s' : St F).log := by
    intro x s' e
    rw [e]
    refine ⟨?_, h⟩
    rw [h0]
  have same : ∀ s' : St F, s'.log = s.log → Genuine calfun s'.log := by
    intro s' e
    rw [e]; exact h
  cases l with
  | pre => exact push _ _ (prelim_called p calfun s).1
  | l20 => exact same _ (quiet_l20 p s).2.1
  | l60 => exact same _ (quiet_l60 p T s).2.1
  | l90 => exact same _ (quiet_l90 p s).2.1
  | l190 => exact same _ (quiet_l190 p s).2.1
  | r80 => exact same _ (quiet_r80 p s).2.1
  | r120 => exact same _ (quiet_r120 p s).2.1
  | l190b => exact same _ (quiet_l190b p s).2.1
  | l210 => exact same _ (quiet_l210 p s).2.1
  | l230 => exact same _ (quiet_l230 p s).2.1
  | l650 => exact same _ (quiet_l650 p s).2.1
  | l680 => exact same _ (quiet_l680 p s).2.1
  | rpts =>
    obtain ⟨-, ⟨t, v, a2, -, -⟩ | ⟨a2, -⟩⟩ := rpts_called p calfun s
    · exact push _ _ a2
    · exact same _ a2
  | l360 =>
    obtain ⟨-, ⟨a2, -, -⟩ | ⟨a2, -⟩⟩ := l360_called p calfun s
    · exact push _ _ a2
    · exact same _ a2
  | done => exact same _ (finish_log p s).1
  | ret => exact h
  | wrong => exact h

/-- The recorded values are those of the objective function. -/
theorem bobyqb_genuine (p : Par F) (calfun : Nat → (Nat → F) → F) (T : St F → Trs F) (x sl su : Nat → F)
    (s : St F) (fuel : Nat) : Genuine calfun (run p calfun T fuel (start x sl su s)).2.log :=
  (run_inv p calfun T (fun ls => Counted p ls ∧ Genuine calfun ls.2.log)
    (fun ls h => ⟨counted_step p calfun T ls h.1, genuine_step p calfun T ls h.1 h.2⟩) fuel (start x sl su s)
    ⟨⟨rfl, le_trans (by norm_num : ((0 : Nat) : Int) ≤ 1) (le_max_left _ _), fun _ => Or.inl rfl⟩, trivial⟩).2

/-! ### `bobyqa_optimize` -/

/-- The bounds of the user, for the arguments of `bobyqa_optimize`. -/
def Inside (a : Args F) (v : Nat → F) : Prop := ∀ i : Nat, 1 ≤ i → (i : Int) ≤ a.n → a.xl i ≤ v i ∧ v i ≤ a.xu i

/-- Without scaling and if the arguments are valid, what `bobyqa_optimize` gives to `bobyqb`. -/
theorem prepare_unscaled (a : Args F) (s : St F) (hs : a.scl = none) (p : Par F) (scl : Option (Nat → F)) (ls : Lab × St F)
    (h : prepare a s = .inr (p, scl, ls)) :
    2 ≤ a.n ∧ scl = none ∧ p.n = a.n.toNat ∧ p.xl = a.xl ∧ p.xu = a.xu ∧ p.maxfun = a.maxfun ∧
    ∃ x sl su, ls = start x sl su s := by
  unfold prepare scaling at h
  rw [hs] at h
  dsimp only at h
  split_ifs at h with h1 h2 h3 h4
  simp only [Sum.inr.injEq, Prod.mk.injEq] at h
  obtain ⟨rfl, rfl, rfl⟩ := h
  exact ⟨not_lt.mp h1, rfl, rfl, rfl, rfl, rfl, _, _, _, rfl⟩

/-- **C49** for `bobyqa_optimize` without scaling: whatever the arithmetic, if the lower bounds are not greater than the
upper bounds then the objective function is only called within the bounds, and the variables are within the bounds at
the end (unless an argument is refused: then the objective function is not called). -/
theorem optimize_feasible (a : Args F) (hb : ∀ i : Nat, 1 ≤ i → (i : Int) ≤ a.n → a.xl i ≤ a.xu i) (hs : a.scl = none)
    (obj : Nat → (Nat → F) → F) (T : Par F → St F → Trs F) (s : St F) (fuel : Nat) (st : Status) (x : Nat → F) (w1 : F)
    (log : List ((Nat → F) × F)) (h : optimize a obj T s fuel = some (st, x, w1, log)) :
    (∀ e ∈ log, Inside a e.1) ∧ (log ≠ [] → Inside a x) := by
  unfold optimize at h
  cases hp : prepare a s with
  | inl e =>
    rw [hp] at h
    simp only [Option.some.injEq, Prod.mk.injEq] at h
    obtain ⟨-, -, -, rfl⟩ := h
    exact ⟨fun e he => absurd he List.not_mem_nil, fun h => absurd rfl h⟩
  | inr t =>
    obtain ⟨p, scl, ls⟩ := t
    rw [hp] at h
    obtain ⟨h2, rfl, hn, hxl, hxu, -, x0, sl, su, rfl⟩ := prepare_unscaled a s hs p scl ls hp
    dsimp only at h
    have hb' : Bounds p := by
      intro i h1 h2'
      rw [hxl, hxu]
      exact hb i h1 (by omega)
    obtain ⟨f1, f2⟩ := bobyqb_feasible p hb' (objfun obj a.maximize none) (T p) x0 sl su s fuel _ rfl
    have conv : ∀ v, InBox p v → Inside a v := by
      intro v hv i h1 h2'
      rw [← hxl, ← hxu]
      exact hv i h1 (by omega)
    cases hr : run p (objfun obj a.maximize none) (T p) fuel (start x0 sl su s) with
    | mk l s' =>
      rw [hr] at h f1 f2
      cases l <;> simp only [reduceCtorEq] at h
      simp only [Option.some.injEq, Prod.mk.injEq] at h
      obtain ⟨-, rfl, -, rfl⟩ := h
      refine ⟨?_, fun _ => conv _ (f2 rfl)⟩
      intro e he
      obtain ⟨e', he', rfl⟩ := List.mem_map.mp he
      exact conv _ (f1 e' he')

theorem prepare_start (a : Args F) (s : St F) (p : Par F) (scl : Option (Nat → F)) (ls : Lab × St F)
    (h : prepare a s = .inr (p, scl, ls)) : p.maxfun = a.maxfun ∧ ∃ x sl su, ls = start x sl su s := by
  unfold prepare at h
  dsimp only at h
  cases hs : scaling a.n.toNat a.scl with
  | none =>
    rw [hs] at h
    dsimp only at h
    split_ifs at h
  | some o =>
    rw [hs] at h
    dsimp only at h
    split_ifs at h
    simp only [Sum.inr.injEq, Prod.mk.injEq] at h
    obtain ⟨rfl, rfl, rfl⟩ := h
    exact ⟨rfl, _, _, _, rfl⟩

/-- **C71** for `bobyqa_optimize`, with or without scaling. -/
theorem optimize_budget (a : Args F) (obj : Nat → (Nat → F) → F) (T : Par F → St F → Trs F) (s : St F) (fuel : Nat)
    (st : Status) (x : Nat → F) (w1 : F) (log : List ((Nat → F) × F)) (h : optimize a obj T s fuel = some (st, x, w1, log)) :
    (log.length : Int) ≤ max 1 a.maxfun := by
  unfold optimize at h
  cases hp : prepare a s with
  | inl e =>
    rw [hp] at h
    simp only [Option.some.injEq, Prod.mk.injEq] at h
    obtain ⟨-, -, -, rfl⟩ := h
    exact le_trans (by norm_num) (le_max_left _ _)
  | inr t =>
    obtain ⟨p, scl, ls⟩ := t
    rw [hp] at h
    obtain ⟨hm, x0, sl, su, rfl⟩ := prepare_start a s p scl ls hp
    dsimp only at h
    have hbud := bobyqb_budget p (objfun obj a.maximize scl) (T p) x0 sl su s fuel
    cases hr : run p (objfun obj a.maximize scl) (T p) fuel (start x0 sl su s) with
    | mk l s' =>
      rw [hr] at h hbud
      cases l <;> simp only [reduceCtorEq] at h
      simp only [Option.some.injEq, Prod.mk.injEq] at h
      obtain ⟨-, -, -, rfl⟩ := h
      rw [List.length_map, ← hm]
      exact hbud

end
end Opk.Bobyqa
