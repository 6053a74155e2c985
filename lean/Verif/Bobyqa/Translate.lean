import Verif.Bobyqa.Constant
import Verif.Newuoa.Translate

/-!
# A translation of the variables, in exact arithmetic (C102)

The runs of BOBYQA with the objective functions `f(x)` and `f(x - t)`, the second one with the starting point and the bounds translated by
`t`, are compared: the variables of the two runs are the same except the base point, the variables of the caller and the points of the calls,
which are translated.
-/
namespace Opk.Bobyqa.Translate
open Linalg CMath Cobyla Powell

set_option linter.unusedSectionVars false

/-- `trsbox` does not use the bounds of the caller, the base point, the variables of the caller nor the calls. -/
def Blind {F : Type} (T : Par F → St F → Trs F) : Prop :=
  ∀ (p : Par F) (s : St F) (xl xu xbase x : Nat → F) (log : List ((Nat → F) × F)),
    T { p with xl := xl, xu := xu } { s with xbase := xbase, x := x, log := log } = T p s

variable {K : Type} [Field K] [LinearOrder K] [IsStrictOrderedRing K] [CMath K] [ExactMath K]

/-- The calls at the translated points. -/
def mvLog (t : Nat → K) (l : List ((Nat → K) × K)) : List ((Nat → K) × K) := l.map fun e => (fun j => e.1 j + t j, e.2)

/-- The translated state. -/
abbrev mv (t : Nat → K) (s : St K) : St K := { s with xbase := fun j => s.xbase j + t j, x := fun j => s.x j + t j, log := mvLog t s.log }

/-- The translated state at a label. -/
abbrev mvL (t : Nat → K) (ls : Lab × St K) : Lab × St K := (ls.1, mv t ls.2)

/-- The translated bounds. -/
abbrev mvP (t : Nat → K) (p : Par K) : Par K := { p with xl := fun j => p.xl j + t j, xu := fun j => p.xu j + t j }

variable (t : Nat → K) (p : Par K)

omit t p in
theorem clamp_mv (x lo hi u : K) : clamp (x + u) (lo + u) (hi + u) = clamp x lo hi + u := by
  unfold clamp
  simp only [ge_iff_le, add_le_add_iff_right]
  split_ifs <;> rfl

theorem place_mv (s : St K) (v : Nat → K) : place (mvP t p) (mv t s) v = fun j => place p s v j + t j := by
  funext i
  unfold place
  dsimp only
  rw [show s.xbase i + t i + v i = s.xbase i + v i + t i by ring, clamp_mv]
  split_ifs <;> rfl

theorem prelimX_mv (s : St K) (nf : Nat) : prelimX (mvP t p) (mv t s) nf = fun j => prelimX p s nf j + t j := by
  funext i
  unfold prelimX
  dsimp only
  rw [show s.xbase i + t i + s.xpt nf i = s.xbase i + s.xpt nf i + t i by ring, clamp_mv]
  split_ifs <;> rfl

/-! ### `prelim` -/

theorem prelimPoint_mv (s : St K) (nf : Nat) : prelimPoint (mvP t p) (mv t s) nf = mv t (prelimPoint p s nf) := by
  unfold prelimPoint prelimA prelimB prelimC
  dsimp only
  split_ifs <;> rfl

theorem prelimStore_mv (s : St K) : prelimStore (mv t s) = mv t (prelimStore s) := by
  unfold prelimStore
  dsimp only
  split_ifs <;> rfl

theorem prelimSwap_mv (s : St K) : prelimSwap (mvP t p) (mv t s) = mv t (prelimSwap p s) := by
  unfold prelimSwap
  dsimp only
  split_ifs <;> rfl

theorem prelimModelA_mv (s : St K) : prelimModelA (mvP t p) (mv t s) = mv t (prelimModelA p s) := by
  unfold prelimModelA
  dsimp only
  split_ifs <;> rfl

theorem prelimModel_mv (s : St K) : prelimModel (mvP t p) (mv t s) = mv t (prelimModel p s) := by
  unfold prelimModel
  rw [prelimModelA_mv, show prelimQuad (mvP t p) (mv t s) = mv t (prelimQuad p s) from rfl, prelimSwap_mv,
    show ∀ u, prelimModelB (mvP t p) (mv t u) = mv t (prelimModelB p u) from fun _ => rfl,
    show prelimModelC (mvP t p) (mv t s) = mv t (prelimModelC p s) from rfl]
  dsimp only
  split_ifs <;> rfl

theorem begin_mv (s : St K) : begin (mvP t p) (mv t s) = mvL t (begin p s) := by
  unfold begin fail
  dsimp only
  split_ifs <;> rfl

theorem call_mv {g g' : Nat → (Nat → K) → K} (hg : ∀ k x, g' k (fun j => x j + t j) = g k x) (x : Nat → K) (s : St K) :
    call g' (fun j => x j + t j) (mv t s) = mv t (call g x s) := by
  unfold call
  dsimp only
  rw [hg]
  rfl

theorem prelim_mv {g g' : Nat → (Nat → K) → K} (hg : ∀ k x, g' k (fun j => x j + t j) = g k x) (s : St K) :
    prelim (mvP t p) g' (mv t s) = mvL t (prelim p g s) := by
  unfold prelim
  rw [show (mv t s).nf = s.nf from rfl, prelimPoint_mv]
  generalize prelimPoint p s (s.nf + 1) = u
  dsimp only
  have e : prelimX (mvP t p) (mv t u) (u.nf + 1) = fun j => prelimX p u (u.nf + 1) j + t j := prelimX_mv t p u _
  rw [e]
  generalize prelimX p u (u.nf + 1) = x
  have e1 : call g' (fun j => x j + t j) { mv t u with x := fun j => x j + t j } = mv t (call g x { u with x := x }) := call_mv t hg x { u with x := x }
  dsimp only at e1
  rw [e1, prelimStore_mv, prelimModel_mv, begin_mv]
  generalize prelimModel p (prelimStore (call g x { u with x := x })) = z
  dsimp only
  split_ifs <;> rfl

/-! ### The other labels -/

theorem l20_mv (s : St K) : l20 (mvP t p) (mv t s) = mvL t (l20 p s) := by
  unfold l20
  dsimp only
  split_ifs <;> rfl

theorem short_mv (g : Nat → K) (s : St K) : short (mvP t p) g (mv t s) = mvL t (short p g s) := by
  unfold short
  dsimp only
  by_cases q1 : s.nf ≤ s.nfsav + 2
  · rw [if_pos q1, if_pos q1]
  · rw [if_neg q1, if_neg q1]
    split_ifs <;> first | rfl | contradiction

theorem l60_mv {T T' : St K → Trs K} (hT : ∀ s, T' (mv t s) = T s) (s : St K) : l60 (mvP t p) T' (mv t s) = mvL t (l60 p T s) := by
  unfold l60
  rw [hT]
  generalize T s = r
  dsimp only
  have e0 : boxStep (mv t s) r = boxStep s r := rfl
  rw [e0]
  generalize boxStep s r = xn
  have e := short_mv t p r.gnew { s with xnew := xn, d := fun i => xn i - s.xopt i, dsq := acc p.n (fun i => (xn i - s.xopt i) * (xn i - s.xopt i)) 0, crvmin := r.crvmin, dnorm := cmin (sqrt (acc p.n (fun i => (xn i - s.xopt i) * (xn i - s.xopt i)) 0)) s.delta }
  rw [e]
  split_ifs <;> rfl

theorem shift_mv (s : St K) : shift (mvP t p) (mv t s) = mv t (shift p s) := by
  have e : (fun j => s.xbase j + t j + s.xopt j) = fun j => s.xbase j + s.xopt j + t j := by funext j; ring
  unfold shift
  dsimp only
  rw [e]
  rfl

theorem l90_mv (s : St K) : l90 (mvP t p) (mv t s) = mvL t (l90 p s) := by
  unfold l90
  rw [shift_mv]
  dsimp only
  split_ifs <;> rfl

theorem l190_mv (s : St K) : l190 (mvP t p) (mv t s) = mvL t (l190 p s) := by
  have e : (fun j => s.xbase j + t j + s.xopt j) = fun j => s.xbase j + s.xopt j + t j := by funext j; ring
  unfold l190 rescueInit
  dsimp only
  rw [e]
  rfl

theorem r80_mv (s : St K) : r80 (mvP t p) (mv t s) = mvL t (r80 p s) := by
  unfold r80
  dsimp only
  split_ifs <;> rfl

theorem r120_mv (s : St K) : r120 (mvP t p) (mv t s) = mvL t (r120 p s) := by
  unfold r120
  rw [show rescuePick (mvP t p) (mv t s) = rescuePick p s from rfl]
  generalize rescuePick p s = pk
  dsimp only
  have e1 : rescueVlag (mvP t p) (mv t s) (fun j => s.xpt pk.1 j) = rescueVlag p s (fun j => s.xpt pk.1 j) := rfl
  rw [e1]
  generalize rescueVlag p s (fun j => s.xpt pk.1 j) = vb
  have e2 : rescueOld (mvP t p) (mv t s) vb.1 vb.2 = rescueOld p s vb.1 vb.2 := rfl
  rw [e2]
  split_ifs <;> rfl

theorem rpts_mv {g g' : Nat → (Nat → K) → K} (hg : ∀ k x, g' k (fun j => x j + t j) = g k x) (s : St K) :
    rpts (mvP t p) g' (mv t s) = mvL t (rpts p g s) := by
  unfold rpts
  dsimp only
  by_cases q1 : s.res.kpt ≤ p.npt
  · rw [if_pos q1, if_pos q1]
    cases s.res.ptsid s.res.kpt with
    | none => rfl
    | some id =>
      dsimp only
      by_cases q2 : p.maxfun ≤ s.nf
      · rw [if_pos q2, if_pos q2]
      · rw [if_neg q2, if_neg q2]
        have e0 : rescueMove (mv t s) id = mv t (rescueMove s id) := rfl
        rw [e0]
        generalize rescueMove s id = u
        have e1 : rescueCall (mvP t p) g' (mv t u) = mv t (rescueCall p g u) := by
          unfold rescueCall
          rw [place_mv, call_mv t hg]
        have e2 : rescueQuad (mvP t p) (mv t u) id = rescueQuad p u id := rfl
        rw [e1, e2]
        generalize rescueCall p g u = z
        generalize rescueQuad p u id = vq
        rfl
  · rw [if_neg q1, if_neg q1]

theorem l190b_mv (s : St K) : l190b (mvP t p) (mv t s) = mvL t (l190b p s) := by
  unfold l190b fail
  dsimp only
  by_cases q : s.kopt ≠ s.kbase
  · simp only [if_pos q]
    split_ifs <;> rfl
  · simp only [if_neg q]
    split_ifs <;> rfl

omit t in
/-- The step is zero if no line is chosen. -/
theorem lineSearch_none (s : St K) : (lineSearch p s).2.1 = 0 → (lineSearch p s).2.2.1 = 0 := by
  unfold lineSearch
  refine up_inv (fun _ (r : K × Nat × K × Int) => r.2.1 = 0 → r.2.2.1 = 0) p.npt (fun _ => rfl) ?_
  intro k r _ h
  dsimp only
  split_ifs
  · exact h
  · intro e; exact absurd e (by simp)
  · exact h
  · intro e; exact absurd e (by simp)
  · exact h

theorem altNew_mv (s : St K) : altNew (mvP t p) (mv t s) = altNew p s := by
  unfold altNew
  have h := lineSearch_none p s
  rw [show lineSearch (mvP t p) (mv t s) = lineSearch p s from rfl]
  generalize lineSearch p s = r at h
  have e : (fun i => clamp (s.xopt i + r.2.2.1 * (xptAt (mvP t p) (mv t s) r.2.1 i - s.xopt i)) (s.sl i) (s.su i)) =
      fun i => clamp (s.xopt i + r.2.2.1 * (xptAt p s r.2.1 i - s.xopt i)) (s.sl i) (s.su i) := by
    funext i
    by_cases q : r.2.1 = 0
    · rw [h q, zero_mul, zero_mul]
    · unfold xptAt
      rw [if_neg q, if_neg q]
  dsimp only at e ⊢
  rw [e]

theorem fixLoop_mv (s : St K) (g : Nat → K) (fuel : Nat) : ∀ c, fixLoop (mvP t p) (mv t s) g fuel c = fixLoop p s g fuel c := by
  induction fuel with
  | zero => intro c; rfl
  | succ k ih =>
    intro c
    unfold fixLoop
    rw [show fixPass (mvP t p) (mv t s) g c = fixPass p s g c from rfl]
    simp only [ih]

theorem cauchyStep_mv (s : St K) (b : Bool) (g : Nat → K) : cauchyStep (mvP t p) (mv t s) b g = cauchyStep p s b g := by
  unfold cauchyStep
  simp only [fixLoop_mv]
  rfl

theorem altCauchy_mv (s : St K) : altCauchy (mvP t p) (mv t s) = altCauchy p s := by
  unfold altCauchy
  rw [show glag (mvP t p) (mv t s) = glag p s from rfl, cauchyStep_mv, cauchyStep_mv]

theorem l210_mv (s : St K) : l210 (mvP t p) (mv t s) = mvL t (l210 p s) := by
  unfold l210
  rw [altNew_mv, altCauchy_mv]
  generalize altCauchy p s = ac
  generalize altNew p s = an
  rfl

theorem l230_mv (s : St K) : l230 (mvP t p) (mv t s) = mvL t (l230 p s) := by
  unfold l230 damaged fail
  rw [show vlagBeta (mvP t p) (mv t s) = vlagBeta p s from rfl, show ptsD (mvP t p) (mv t s) = ptsD p s from rfl]
  generalize vlagBeta p s = vb
  generalize ptsD p s = wd
  dsimp only
  by_cases q : s.ntrits = 0
  · rw [if_pos q, if_pos q]
    split_ifs <;> rfl
  · rw [if_neg q, if_neg q]
    have e : pickKnew (mvP t p) (mv t { s with vlag := vb.1, beta := vb.2, wd := wd, dsq := acc p.n (fun j => s.d j * s.d j) 0 }) s.kopt s.xopt =
        pickKnew p { s with vlag := vb.1, beta := vb.2, wd := wd, dsq := acc p.n (fun j => s.d j * s.d j) 0 } s.kopt s.xopt := rfl
    rw [e]
    generalize pickKnew p { s with vlag := vb.1, beta := vb.2, wd := wd, dsq := acc p.n (fun j => s.d j * s.d j) 0 } s.kopt s.xopt = r
    split_ifs <;> rfl

theorem recenter_mv (fopt : K) (s : St K) : recenter (mvP t p) fopt (mv t s) = mv t (recenter p fopt s) := by
  unfold recenter
  dsimp only
  split_ifs <;> rfl

theorem tryFrobenius_mv (s : St K) : tryFrobenius (mvP t p) (mv t s) = mv t (tryFrobenius p s) := by
  unfold tryFrobenius
  rw [show frobenius (mvP t p) (mv t s) = frobenius p s from rfl]
  generalize frobenius p s = fr
  dsimp only
  have e : gradNorms (mvP t p) (mv t s) fr.2 = gradNorms p s fr.2 := rfl
  rw [e]
  generalize gradNorms p s fr.2 = gn
  by_cases q : s.ntrits > 0
  · rw [if_pos q, if_pos q]
    split_ifs <;> rfl
  · rw [if_neg q, if_neg q]

theorem afterMove_mv (fopt : K) (s : St K) : afterMove fopt (mv t s) = mvL t (afterMove fopt s) := by
  unfold afterMove
  dsimp only
  split_ifs <;> rfl

theorem move_mv (s : St K) : move (mvP t p) (mv t s) = mv t (move p s) := rfl

theorem absorb_mv (s : St K) : absorb (mvP t p) (mv t s) = mvL t (absorb p s) := by
  unfold absorb
  rw [move_mv, recenter_mv, tryFrobenius_mv, afterMove_mv]
  generalize move p s = u
  dsimp only
  split_ifs <;> rfl

theorem repick_mv (s : St K) : repick (mvP t p) (mv t s) = mv t (repick p s) := by
  unfold repick
  have e : pickKnew (mvP t p) (mv t s) 0 s.xnew = pickKnew p s 0 s.xnew := rfl
  dsimp only at e ⊢
  rw [e]
  split_ifs <;> rfl

theorem assess_mv (s : St K) : assess (mvP t p) (mv t s) = mvL t (assess p s) := by
  unfold assess fail
  rw [show errors (mvP t p) (mv t s) = mv t (errors p s) from rfl]
  generalize errors p s = u
  dsimp only
  have e2 : newDelta (mv t u) = newDelta u := rfl
  have e1 := repick_mv t p { u with ratio := (u.f - u.fval u.kopt) / u.vquad, delta := newDelta u }
  rw [e2]
  by_cases q : u.ntrits > 0
  · rw [if_pos q, if_pos q]
    by_cases q2 : u.vquad ≥ 0
    · rw [if_pos q2, if_pos q2]
    · rw [if_neg q2, if_neg q2]
      refine Eq.trans (congrArg (absorb (mvP t p)) e1) ?_
      exact absorb_mv t p _
  · rw [if_neg q, if_neg q]
    exact absorb_mv t p u

theorem l360_mv {g g' : Nat → (Nat → K) → K} (hg : ∀ k x, g' k (fun j => x j + t j) = g k x) (s : St K) :
    l360 (mvP t p) g' (mv t s) = mvL t (l360 p g s) := by
  unfold l360
  rw [show (mv t s).xnew = s.xnew from rfl, place_mv]
  generalize place p s s.xnew = x
  have e1 : call g' (fun j => x j + t j) { mv t s with x := fun j => x j + t j } = mv t (call g x { s with x := x }) := call_mv t hg x { s with x := x }
  dsimp only
  by_cases q : p.maxfun ≤ s.nf
  · rw [if_pos q, if_pos q]
    rfl
  · rw [if_neg q, if_neg q, e1]
    generalize call g x { s with x := x } = u
    by_cases q2 : u.ntrits = -1
    · rw [if_pos q2, if_pos q2]
    · rw [if_neg q2, if_neg q2]
      exact assess_mv t p { u with f := u.fl }

theorem l650_mv (s : St K) : l650 (mvP t p) (mv t s) = mvL t (l650 p s) := by
  unfold l650
  rw [show farthest (mvP t p) (mv t s) = farthest p s from rfl]
  generalize farthest p s = r
  dsimp only
  split_ifs <;> rfl

theorem l680_mv (s : St K) : l680 (mvP t p) (mv t s) = mvL t (l680 p s) := by
  unfold l680
  dsimp only
  split_ifs <;> rfl

/-- At the end the value in `W(1)`, which is in the base point, is the same in case of success. -/
structure Final (ls ls' : Lab × St K) : Prop where
  lab : ls.1 = .ret
  lab' : ls'.1 = .ret
  status : ls'.2.status = ls.2.status
  x : ls'.2.x = fun j => ls.2.x j + t j
  w : ls.2.status = .success → ls'.2.xbase 1 = ls.2.xbase 1
  log : ls'.2.log = mvLog t ls.2.log

theorem finish_mv (s : St K) : Final t (finish p s) (finish (mvP t p) (mv t s)) := by
  unfold finish
  rw [show (mv t s).xopt = s.xopt from rfl, place_mv]
  generalize place p s s.xopt = x
  dsimp only
  by_cases q : s.fval s.kopt ≤ s.fsave
  · simp only [if_pos q]
    by_cases q2 : s.status = .success
    · simp only [if_pos q2]
      exact ⟨rfl, rfl, rfl, rfl, fun _ => rfl, rfl⟩
    · simp only [if_neg q2]
      exact ⟨rfl, rfl, rfl, rfl, fun a => absurd a q2, rfl⟩
  · simp only [if_neg q]
    by_cases q2 : s.status = .success
    · simp only [if_pos q2]
      exact ⟨rfl, rfl, rfl, rfl, fun _ => rfl, rfl⟩
    · simp only [if_neg q2]
      exact ⟨rfl, rfl, rfl, rfl, fun a => absurd a q2, rfl⟩

omit t in
/-- Only the last step leads to the end. -/
theorem step_label (g : Nat → (Nat → K) → K) (T : St K → Trs K) (ls : Lab × St K) (h : ls.1 ≠ .ret) (hd : ls.1 ≠ .done) : (step p g T ls).1 ≠ .ret := by
  have dm : ∀ s : St K, (damaged s).1 ≠ .ret := by
    intro s; unfold damaged fail; split_ifs <;> exact Lab.noConfusion
  have am : ∀ (f : K) (s : St K), (afterMove f s).1 ≠ .ret := by
    intro f s; unfold afterMove; split_ifs <;> exact Lab.noConfusion
  have ab : ∀ s : St K, (absorb p s).1 ≠ .ret := by
    intro s; unfold absorb; split_ifs
    · exact Lab.noConfusion
    · exact am _ _
  obtain ⟨lab, s⟩ := ls
  cases lab
  case pre =>
    show (prelim p g s).1 ≠ .ret
    unfold prelim begin fail; dsimp only; split_ifs <;> exact Lab.noConfusion
  case l20 =>
    show (l20 p s).1 ≠ .ret
    unfold l20; dsimp only; split_ifs <;> exact Lab.noConfusion
  case l60 =>
    show (l60 p T s).1 ≠ .ret
    unfold l60 short; dsimp only; split_ifs <;> exact Lab.noConfusion
  case l90 =>
    show (l90 p s).1 ≠ .ret
    unfold l90; dsimp only; split_ifs <;> exact Lab.noConfusion
  case l190 => exact Lab.noConfusion
  case r80 =>
    show (r80 p s).1 ≠ .ret
    unfold r80; dsimp only; split_ifs <;> exact Lab.noConfusion
  case r120 =>
    show (r120 p s).1 ≠ .ret
    unfold r120; dsimp only; split_ifs <;> exact Lab.noConfusion
  case rpts =>
    show (rpts p g s).1 ≠ .ret
    unfold rpts
    by_cases q : s.res.kpt ≤ p.npt
    · rw [if_pos q]
      cases s.res.ptsid s.res.kpt with
      | none => exact Lab.noConfusion
      | some id => dsimp only; split_ifs <;> exact Lab.noConfusion
    · rw [if_neg q]
      exact Lab.noConfusion
  case l190b =>
    show (l190b p s).1 ≠ .ret
    unfold l190b fail; dsimp only; split_ifs <;> exact Lab.noConfusion
  case l210 => exact Lab.noConfusion
  case l230 =>
    show (l230 p s).1 ≠ .ret
    unfold l230; dsimp only; split_ifs <;> first | exact dm _ | exact Lab.noConfusion
  case l360 =>
    show (l360 p g s).1 ≠ .ret
    unfold l360 assess fail; dsimp only; split_ifs <;> first | exact Lab.noConfusion | exact ab _
  case l650 =>
    show (l650 p s).1 ≠ .ret
    unfold l650; dsimp only; split_ifs <;> exact Lab.noConfusion
  case l680 =>
    show (l680 p s).1 ≠ .ret
    unfold l680; dsimp only; split_ifs <;> exact Lab.noConfusion
  case done => exact absurd rfl hd
  case ret => exact absurd rfl h
  case wrong => exact Lab.noConfusion

/-- The two runs, before the end and at the end. -/
def Sim (ls ls' : Lab × St K) : Prop := (ls.1 ≠ .ret ∧ ls' = mvL t ls) ∨ Final t ls ls'

theorem sim_step {T T' : St K → Trs K} (hT : ∀ s, T' (mv t s) = T s) {g g' : Nat → (Nat → K) → K} (hg : ∀ k x, g' k (fun j => x j + t j) = g k x)
    {ls ls' : Lab × St K} (h : Sim t ls ls') : Sim t (step p g T ls) (step (mvP t p) g' T' ls') := by
  rcases h with ⟨h, rfl⟩ | h
  · have hl : ls.1 ≠ .done → (step p g T ls).1 ≠ .ret := step_label p g T ls h
    obtain ⟨lab, s⟩ := ls
    cases lab
    case pre => exact Or.inl ⟨hl Lab.noConfusion, prelim_mv t p hg s⟩
    case l20 => exact Or.inl ⟨hl Lab.noConfusion, l20_mv t p s⟩
    case l60 => exact Or.inl ⟨hl Lab.noConfusion, l60_mv t p hT s⟩
    case l90 => exact Or.inl ⟨hl Lab.noConfusion, l90_mv t p s⟩
    case l190 => exact Or.inl ⟨hl Lab.noConfusion, l190_mv t p s⟩
    case r80 => exact Or.inl ⟨hl Lab.noConfusion, r80_mv t p s⟩
    case r120 => exact Or.inl ⟨hl Lab.noConfusion, r120_mv t p s⟩
    case rpts => exact Or.inl ⟨hl Lab.noConfusion, rpts_mv t p hg s⟩
    case l190b => exact Or.inl ⟨hl Lab.noConfusion, l190b_mv t p s⟩
    case l210 => exact Or.inl ⟨hl Lab.noConfusion, l210_mv t p s⟩
    case l230 => exact Or.inl ⟨hl Lab.noConfusion, l230_mv t p s⟩
    case l360 => exact Or.inl ⟨hl Lab.noConfusion, l360_mv t p hg s⟩
    case l650 => exact Or.inl ⟨hl Lab.noConfusion, l650_mv t p s⟩
    case l680 => exact Or.inl ⟨hl Lab.noConfusion, l680_mv t p s⟩
    case done => exact Or.inr (finish_mv t p s)
    case ret => exact absurd rfl h
    case wrong => exact Or.inl ⟨hl Lab.noConfusion, rfl⟩
  · obtain ⟨lab, s⟩ := ls
    obtain ⟨lab', s'⟩ := ls'
    have h0 := h
    obtain ⟨h1, h2, -⟩ := h
    have h1 : lab = .ret := h1
    have h2 : lab' = .ret := h2
    subst h1 h2
    exact Or.inr h0

theorem sim_run {T T' : St K → Trs K} (hT : ∀ s, T' (mv t s) = T s) {g g' : Nat → (Nat → K) → K} (hg : ∀ k x, g' k (fun j => x j + t j) = g k x)
    (fuel : Nat) : ∀ {ls ls' : Lab × St K}, Sim t ls ls' → Sim t (run p g T fuel ls) (run (mvP t p) g' T' fuel ls') := by
  induction fuel with
  | zero => intro ls ls' h; exact h
  | succ k ih => intro ls ls' h; exact ih (sim_step t p hT hg h)

/-! ### `bobyqa_optimize` -/

omit t p in
theorem adjust_mv (rhobeg xl xu x u : K) : adjust rhobeg (xl + u) (xu + u) (x + u) =
    ((adjust rhobeg xl xu x).1 + u, (adjust rhobeg xl xu x).2.1, (adjust rhobeg xl xu x).2.2) := by
  unfold adjust
  dsimp only
  rw [show xu + u - (xl + u) = xu - xl by ring, show xl + u - (x + u) = xl - x by ring, show xu + u - (x + u) = xu - x by ring,
    show xl + u + rhobeg = xl + rhobeg + u by ring, show xu + u - rhobeg = xu - rhobeg + u by ring,
    show xu + u - (xl + rhobeg + u) = xu - (xl + rhobeg) by ring, show xl + u - (xu - rhobeg + u) = xl - (xu - rhobeg) by ring]
  split_ifs <;> rfl

omit p in
theorem firstClose_mv (n : Nat) (rhobeg : K) (xl xu : Nat → K) : firstClose n rhobeg (fun j => xl j + t j) (fun j => xu j + t j) = firstClose n rhobeg xl xu := by
  unfold firstClose
  simp only [add_sub_add_right_eq_sub]

/-- The translation of the scaled variables. -/
def scaled (scl : Option (Nat → K)) (t : Nat → K) : Nat → K := match scl with | none => t | some c => fun j => t j / c j

/-- The translated arguments. -/
abbrev mvA (a : Args K) : Args K := { a with x := fun j => a.x j + t j, xl := fun j => a.xl j + t j, xu := fun j => a.xu j + t j }

omit p in
theorem prepare_mv (a : Args K) (s : St K) :
    (∃ e x, prepare a s = .inl (e, x) ∧ e ≠ .success ∧ ∃ x', prepare (mvA t a) s = .inl (e, x') ∧ ((a.scl = none ∨ e ≠ .tooClose) → x' = fun j => x j + t j)) ∨
    ∃ p scl ls, prepare a s = .inr (p, scl, ls) ∧ scaling a.n.toNat a.scl = some scl ∧ ls.1 ≠ .ret ∧
      prepare (mvA t a) s = .inr (mvP (scaled scl t) p, scl, mvL (scaled scl t) ls) := by
  unfold prepare
  dsimp only
  by_cases c1 : a.n < 2
  · simp only [if_pos c1]
    exact Or.inl ⟨_, _, rfl, Status.noConfusion, _, rfl, fun _ => rfl⟩
  simp only [if_neg c1]
  by_cases c2 : a.npt < a.n + 2 ∨ a.npt > (a.n + 2) * (a.n + 1) / 2
  · simp only [if_pos c2]
    exact Or.inl ⟨_, _, rfl, Status.noConfusion, _, rfl, fun _ => rfl⟩
  simp only [if_neg c2]
  by_cases c3 : a.rhoend ≤ 0 ∨ a.rhoend > a.rhobeg
  · simp only [if_pos c3]
    exact Or.inl ⟨_, _, rfl, Status.noConfusion, _, rfl, fun _ => rfl⟩
  simp only [if_neg c3]
  cases hs : scaling a.n.toNat a.scl with
  | none => exact Or.inl ⟨_, _, rfl, Status.noConfusion, _, rfl, fun _ => rfl⟩
  | some scl =>
    cases scl with
    | none =>
      dsimp only
      rw [firstClose_mv]
      simp only [adjust_mv]
      by_cases c4 : firstClose a.n.toNat a.rhobeg a.xl a.xu ≠ 0
      · simp only [if_pos c4]
        refine Or.inl ⟨_, _, rfl, Status.noConfusion, _, rfl, fun _ => ?_⟩
        funext j
        split_ifs <;> rfl
      · simp only [if_neg c4]
        exact Or.inr ⟨_, _, _, rfl, rfl, Lab.noConfusion, rfl⟩
    | some d =>
      dsimp only
      have e2 : ∀ j, (a.x j + t j) * (1 / d j) = a.x j * (1 / d j) + t j / d j := by intro j; ring
      have e3 : ∀ (v : Nat → K) j, 1 / d j * (v j + t j) = 1 / d j * v j + t j / d j := by intro v j; ring
      have e4 : firstClose a.n.toNat a.rhobeg (fun j => 1 / d j * a.xl j + t j / d j) (fun j => 1 / d j * a.xu j + t j / d j) =
          firstClose a.n.toNat a.rhobeg (fun j => 1 / d j * a.xl j) (fun j => 1 / d j * a.xu j) := firstClose_mv (fun j => t j / d j) _ _ _ _
      simp only [e2, e3, e4, adjust_mv]
      by_cases c4 : firstClose a.n.toNat a.rhobeg (fun j => 1 / d j * a.xl j) (fun j => 1 / d j * a.xu j) ≠ 0
      · simp only [if_pos c4]
        refine Or.inl ⟨_, _, rfl, Status.noConfusion, _, rfl, fun h => ?_⟩
        rcases h with h | h
        · rw [h] at hs; exact absurd hs (by simp [scaling])
        · exact absurd rfl h
      · simp only [if_neg c4]
        exact Or.inr ⟨_, _, _, rfl, rfl, Lab.noConfusion, rfl⟩

/-- The result of the translated problem: the status and the values are the same, the points are translated.  The value in `W(1)` is only set in case of
success.  The variables returned with the status `tooClose` are the scaled ones, hence they are not compared when there are scaling factors. -/
structure Moved (a : Args K) (r r' : Status × (Nat → K) × K × List ((Nat → K) × K)) : Prop where
  status : r'.1 = r.1
  x : (a.scl = none ∨ r.1 ≠ .tooClose) → r'.2.1 = fun j => r.2.1 j + t j
  w : r.1 = .success → r'.2.2.1 = r.2.2.1
  calls : r'.2.2.2 = r.2.2.2.map fun e => (fun j => e.1 j + t j, e.2)

omit p in
/-- **C102.**  In exact arithmetic, if the objective function, the bounds and the starting point are translated by `t` then so are the points of all the
calls of the objective function by `bobyqa_optimize` and the variables which are returned; the status and all the values are the same.  The scaling
factors, if any, are not zero (the code verifies it for the indices in use). -/
theorem bobyqa_translate (a : Args K) (ha : ∀ c, a.scl = some c → ∀ j, c j ≠ 0) {T : Par K → St K → Trs K} (hT : Blind T) (obj : Nat → (Nat → K) → K)
    (s : St K) (fuel : Nat) :
    Option.Rel (Moved t a) (optimize a obj T s fuel) (optimize (mvA t a) (fun k x => obj k (fun j => x j - t j)) T s fuel) := by
  unfold optimize
  rcases prepare_mv t a s with ⟨e, x, h1, he, x', h2, hx⟩ | ⟨p, scl, ls, h1, hs, hl, h2⟩
  · rw [h1, h2]
    exact .some ⟨rfl, hx, fun h => absurd h he, rfl⟩
  · rw [h1, h2]
    dsimp only
    have hu : ∀ x : Nat → K, unscale scl (fun j => x j + scaled scl t j) = fun j => unscale scl x j + t j := by
      intro x
      cases hc : scl with
      | none => rfl
      | some d =>
        subst hc
        have hd : ∀ j, d j ≠ 0 := by
          cases e : a.scl with
          | none => rw [e] at hs; exact absurd hs (by simp [scaling])
          | some c => rw [Newuoa.Translate.scaling_same c hs e]; exact ha c e
        funext j
        show d j * (x j + t j / d j) = d j * x j + t j
        rw [mul_add, mul_div_cancel₀ _ (hd j)]
    have hg : ∀ k x, objfun (fun k x => obj k (fun j => x j - t j)) a.maximize scl k (fun j => x j + scaled scl t j) = objfun obj a.maximize scl k x := by
      intro k x
      unfold objfun
      rw [hu]
      simp only [add_sub_cancel_right]
    have h := sim_run (scaled scl t) p (T := T p) (T' := T (mvP (scaled scl t) p)) (fun u => hT p u _ _ _ _ _) hg fuel (Or.inl ⟨hl, rfl⟩)
    generalize run p (objfun obj a.maximize scl) (T p) fuel ls = r at h
    generalize run (mvP (scaled scl t) p) (objfun (fun k x => obj k (fun j => x j - t j)) a.maximize scl) (T (mvP (scaled scl t) p)) fuel (mvL (scaled scl t) ls) = r' at h
    obtain ⟨lab, u⟩ := r
    rcases h with ⟨h, rfl⟩ | h
    · cases lab
      case ret => exact absurd rfl h
      all_goals exact .none
    · obtain ⟨lab', u'⟩ := r'
      obtain ⟨e1, e2, e3, e4, e5, e6⟩ := h
      have e1 : lab = .ret := e1
      have e2 : lab' = .ret := e2
      subst e1 e2
      dsimp only at e3 e4 e5 e6
      dsimp only
      refine .some ⟨e3, fun _ => ?_, fun q => ?_, ?_⟩
      · show unscale scl u'.x = _
        rw [e4, hu]
      · show u'.xbase 1 * _ = _
        rw [e5 q]
      · show u'.log.map _ = _
        rw [e6]
        unfold mvLog
        simp only [List.map_map, Function.comp_def, hu]

/-! ### The hypotheses can be met -/

omit t p in
/-- `trsbox` of the code does not use these variables. -/
theorem blind_code (t : Tb K) (d : Trs K) (fuel : Nat) : Blind fun (p : Par K) (s : St K) => (trsbox (s.box p) t fuel).getD d := fun _ _ _ _ _ _ _ => rfl

omit t p in
theorem blind_still : Blind (Demo.still) := fun _ _ _ _ _ _ _ => rfl

omit t p in
set_option maxRecDepth 100000 in
/-- The first example of `Demo` translated by `(10, 20)` is a success whose value is 1. -/
example : ∃ r, optimize (mvA (fun j => 10 * (j : ℚ)) (Demo.args 5 false none 1 100)) (fun k x => Demo.sq k (fun j => x j - 10 * (j : ℚ))) Demo.still Demo.blank 100 = some r ∧
    r.1 = .success ∧ r.2.1 1 = 11 ∧ r.2.1 2 = 21 ∧ r.2.2.1 = 1 := by
  have h := bobyqa_translate (fun j => 10 * (j : ℚ)) (Demo.args 5 false none 1 100) (by intro c h; exact absurd h (by simp [Demo.args])) blind_still Demo.sq Demo.blank 100
  have d : Demo.view (optimize (Demo.args 5 false none 1 100) Demo.sq Demo.still Demo.blank 100) =
      some (.success, [1, 1], 1, [([0, 1], 2), ([1, 1], 1), ([0, 2], 5), ([-1, 1], 5), ([0, 0], 1), ([1, 1], 1)]) := by decide +kernel
  generalize optimize (Demo.args 5 false none 1 100) Demo.sq Demo.still Demo.blank 100 = r at h d
  generalize optimize (mvA (fun j => 10 * (j : ℚ)) (Demo.args 5 false none 1 100)) (fun k x => Demo.sq k (fun j => x j - 10 * (j : ℚ))) Demo.still Demo.blank 100 = r' at h
  cases h with
  | none => exact absurd d (by simp [Demo.view])
  | some m =>
    rename_i b b'
    simp only [Demo.view, Option.map_some, Option.some.injEq, Prod.mk.injEq, List.cons.injEq] at d
    obtain ⟨d1, ⟨d2, d3, -⟩, d4, -⟩ := d
    refine ⟨b', rfl, m.status.trans d1, ?_, ?_, (m.w d1).trans d4⟩
    · rw [m.x (Or.inl rfl)]; dsimp only; rw [d2]; norm_num
    · rw [m.x (Or.inl rfl)]; dsimp only; rw [d3]; norm_num

end Opk.Bobyqa.Translate
