import Verif.Newuoa.Constant

/-!
# A translation of the variables, in exact arithmetic (C101)

The runs of NEWUOA with the objective functions `f(x)` and `f(x - t)`, the second one from a starting point translated by `t`, are
compared: the variables of the two runs are the same except the base point, the variables of the caller and the points of the calls, which are
translated.
-/
namespace Opk.Newuoa.Translate
open Linalg CMath Cobyla Powell

set_option linter.unusedSectionVars false

/-- The subroutines do not use the base point, the variables of the caller nor the calls. -/
def Blind {F : Type} (o : Subs F) : Prop :=
  ∀ (s : St F) (xbase x : Nat → F) (log : List ((Nat → F) × F)),
    o.trsapp { s with xbase := xbase, x := x, log := log } = o.trsapp s ∧ o.biglag { s with xbase := xbase, x := x, log := log } = o.biglag s ∧
    o.bigden { s with xbase := xbase, x := x, log := log } = o.bigden s ∧ o.update { s with xbase := xbase, x := x, log := log } = o.update s

variable {K : Type} [Field K] [LinearOrder K] [IsStrictOrderedRing K] [CMath K] [ExactMath K]

/-- The calls at the translated points. -/
def mvLog (t : Nat → K) (l : List ((Nat → K) × K)) : List ((Nat → K) × K) := l.map fun e => (fun j => e.1 j + t j, e.2)

/-- The translated state. -/
abbrev mv (t : Nat → K) (s : St K) : St K := { s with xbase := fun j => s.xbase j + t j, x := fun j => s.x j + t j, log := mvLog t s.log }

/-- The translated state at a label. -/
abbrev mvL (t : Nat → K) (ls : Lab × St K) : Lab × St K := (ls.1, mv t ls.2)

variable (t : Nat → K) (p : Par K)

theorem point_mv (s : St K) (nf : Nat) : point p (mv t s) nf = mv t (point p s nf) := by
  unfold point
  dsimp only
  split_ifs <;> rfl

theorem l50_mv (s : St K) : l50 p (mv t s) = mvL t (l50 p s) := by
  unfold l50
  dsimp only
  rw [point_mv]
  have e : (fun j => (mv t (point p s (s.nf + 1))).xpt (s.nf + 1) j + (mv t (point p s (s.nf + 1))).xbase j) =
      fun j => (point p s (s.nf + 1)).xpt (s.nf + 1) j + (point p s (s.nf + 1)).xbase j + t j := by
    funext j
    dsimp only
    ring
  rw [e]

theorem store_mv (s : St K) : store (mv t s) = mv t (store s) := by
  unfold store
  dsimp only
  split_ifs <;> rfl

theorem model_mv (s : St K) : model p (mv t s) = mv t (model p s) := by
  unfold model modelA modelB modelC
  dsimp only
  by_cases q : s.nf - 1 ≤ 2 * p.n
  · rw [if_pos q, if_pos q]
    split_ifs <;> rfl
  · rw [if_neg q, if_neg q]

theorem l70_mv (s : St K) : l70 p (mv t s) = mvL t (l70 p s) := by
  unfold l70
  rw [store_mv, model_mv]
  generalize model p (store s) = u
  dsimp only
  split_ifs <;> rfl

theorem l100_mv {o : Subs K} (ho : Blind o) (s : St K) : l100 p o (mv t s) = mvL t (l100 p o s) := by
  unfold l100 short cut
  have e : o.trsapp { mv t s with knew := 0 } = o.trsapp { s with knew := 0 } := (ho { s with knew := 0 } _ _ _).1
  dsimp only at e ⊢
  rw [e]
  split_ifs <;> rfl

theorem shift_mv (s : St K) : shift p (mv t s) = mv t (shift p s) := by
  have e : (fun j => s.xbase j + t j + s.xopt j) = fun j => s.xbase j + s.xopt j + t j := by funext j; ring
  unfold shift
  dsimp only
  rw [e]
  rfl

/-- The end of the label 120. -/
theorem l120_mv {o : Subs K} (ho : Blind o) (s : St K) : l120 p o (mv t s) = mvL t (l120 p o s) := by
  unfold l120
  dsimp only
  have e1 : (if s.dsq ≤ s.xoptsq * lit 1 1000 then shift p (mv t s) else mv t s) = mv t (if s.dsq ≤ s.xoptsq * lit 1 1000 then shift p s else s) := by
    rw [shift_mv]
    split_ifs <;> rfl
  rw [e1]
  generalize (if s.dsq ≤ s.xoptsq * lit 1 1000 then shift p s else s) = u
  have e2 : o.biglag (mv t u) = o.biglag u := (ho u _ _ _).2.1
  rw [e2]
  have e3 : (if u.knew > 0 then { mv t u with alpha := (o.biglag u).1, d := (o.biglag u).2.1, vlag := (o.biglag u).2.2.1, w := (o.biglag u).2.2.2 } else mv t u) =
      mv t (if u.knew > 0 then { u with alpha := (o.biglag u).1, d := (o.biglag u).2.1, vlag := (o.biglag u).2.2.1, w := (o.biglag u).2.2.2 } else u) := by
    split_ifs <;> rfl
  rw [e3]
  generalize (if u.knew > 0 then { u with alpha := (o.biglag u).1, d := (o.biglag u).2.1, vlag := (o.biglag u).2.2.1, w := (o.biglag u).2.2.2 } else u) = v
  rw [show lagrange p (mv t v) = mv t (lagrange p v) from rfl]
  generalize lagrange p v = z
  have e4 : o.bigden (mv t z) = o.bigden z := (ho z _ _ _).2.2.1
  rw [e4]
  split_ifs <;> rfl

theorem l290_mv (s : St K) : l290 (mv t s) = mvL t (l290 s) := by
  have e : (fun i => s.xbase i + t i + (s.xopt i + s.d i)) = fun i => s.xbase i + (s.xopt i + s.d i) + t i := by funext i; ring
  unfold l290
  dsimp only
  rw [e]

theorem l310_mv (s : St K) : l310 p (mv t s) = mvL t (l310 p s) := by
  unfold l310
  dsimp only
  split_ifs <;> rfl

theorem errors_mv (s : St K) : errors p (mv t s) = mv t (errors p s) := by
  unfold errors
  rw [show predicted p (mv t s) = predicted p s from rfl]
  dsimp only
  split_ifs <;> rfl

/-- The choice of the point to be replaced, after the errors. -/
def rest (p : Par K) (s : St K) : Lab × St K :=
  if s.knew > 0 then (.l410, s)
  else if s.vquad ≥ 0 then (.done, { s with status := .stepFailed })
  else
    let s := { s with ratio := (s.f - s.fsave) / s.vquad }
    let s := { s with delta := newDelta s }
    let s := { s with knew := pickKnew p s }
    if s.knew = 0 then (.l460, s) else (.l410, s)

theorem rest_mv (s : St K) : rest p (mv t s) = mvL t (rest p s) := by
  unfold rest
  dsimp only
  by_cases q : s.knew > 0
  · rw [if_pos q, if_pos q]
  · rw [if_neg q, if_neg q]
    by_cases q2 : s.vquad ≥ 0
    · rw [if_pos q2, if_pos q2]
    · rw [if_neg q2, if_neg q2]
      have e1 : newDelta { mv t s with ratio := (s.f - s.fsave) / s.vquad } = newDelta { s with ratio := (s.f - s.fsave) / s.vquad } := rfl
      dsimp only at e1
      rw [e1]
      generalize newDelta { s with ratio := (s.f - s.fsave) / s.vquad } = de
      have e2 : pickKnew p { mv t s with ratio := (s.f - s.fsave) / s.vquad, delta := de } = pickKnew p { s with ratio := (s.f - s.fsave) / s.vquad, delta := de } := rfl
      dsimp only at e2
      rw [e2]
      split_ifs <;> rfl

theorem after_mv (s : St K) : after p (mv t s) = mvL t (after p s) := by
  have e : ∀ u : St K, after p u = if u.nf ≤ p.npt then l70 p u else if u.knew = -1 then (.done, { u with status := .success }) else rest p (errors p u) := fun _ => rfl
  rw [e, e, errors_mv, rest_mv, l70_mv]
  dsimp only
  split_ifs <;> rfl

theorem put_mv (f : K) (s : St K) : put f (mv t s) = mv t (put f s) := rfl

theorem move_mv {o : Subs K} (ho : Blind o) (s : St K) : move p o (mv t s) = mv t (move p o s) := by
  have e : o.update (mv t s) = o.update s := (ho s _ _ _).2.2.2
  unfold move
  rw [e]

theorem tryFrobenius_mv (s : St K) : tryFrobenius p (mv t s) = mv t (tryFrobenius p s) := by
  unfold tryFrobenius
  dsimp only
  split_ifs <;> rfl

theorem l410_mv {o : Subs K} (ho : Blind o) (s : St K) : l410 p o (mv t s) = mvL t (l410 p o s) := by
  unfold l410
  rw [move_mv t p ho, tryFrobenius_mv]
  generalize tryFrobenius p (move p o s) = u
  dsimp only
  split_ifs <;> rfl

theorem l460_mv (s : St K) : l460 p (mv t s) = mvL t (l460 p s) := by
  unfold l460
  rw [show farthest p (mv t s) = farthest p s from rfl]
  dsimp only
  split_ifs <;> rfl

theorem l490_mv (s : St K) : l490 p (mv t s) = mvL t (l490 p s) := by
  unfold l490
  dsimp only
  split_ifs <;> rfl

theorem finish_mv (s : St K) : finish (mv t s) = mvL t (finish s) := by
  have e : (fun i => s.xbase i + t i + s.xopt i) = fun i => s.xbase i + s.xopt i + t i := by funext i; ring
  unfold finish
  dsimp only
  rw [e]
  split_ifs <;> rfl

theorem step_mv {o : Subs K} (ho : Blind o) (ls : Lab × St K) : step p o (mvL t ls) = mvL t (step p o ls) := by
  obtain ⟨lab, s⟩ := ls
  cases lab
  · exact l50_mv t p s
  · exact l310_mv t p s
  · rfl
  · rfl
  · exact l100_mv t p ho s
  · exact l120_mv t p ho s
  · exact l290_mv t s
  · exact l410_mv t p ho s
  · exact l460_mv t p s
  · exact l490_mv t p s
  · exact finish_mv t s
  · rfl

theorem stepF_mv {o : Subs K} (ho : Blind o) {g g' : Nat → (Nat → K) → K} (hg : ∀ k x, g' k (fun j => x j + t j) = g k x) (ls : Lab × St K) :
    stepF p o g' (mvL t ls) = mvL t (stepF p o g ls) := by
  obtain ⟨lab, s⟩ := ls
  cases lab
  case ask =>
    show answer p (g' (mvLog t s.log).length (fun j => s.x j + t j)) (mv t s) = mvL t (answer p (g s.log.length s.x) s)
    rw [hg, show (mvLog t s.log).length = s.log.length from List.length_map _]
    unfold answer
    rw [put_mv, after_mv]
  case l50 => exact step_mv t p ho (.l50, s)
  case l310 => exact step_mv t p ho (.l310, s)
  case l90 => exact step_mv t p ho (.l90, s)
  case l100 => exact step_mv t p ho (.l100, s)
  case l120 => exact step_mv t p ho (.l120, s)
  case l290 => exact step_mv t p ho (.l290, s)
  case l410 => exact step_mv t p ho (.l410, s)
  case l460 => exact step_mv t p ho (.l460, s)
  case l490 => exact step_mv t p ho (.l490, s)
  case done => exact step_mv t p ho (.done, s)
  case ret => exact step_mv t p ho (.ret, s)

theorem run_mv {o : Subs K} (ho : Blind o) {g g' : Nat → (Nat → K) → K} (hg : ∀ k x, g' k (fun j => x j + t j) = g k x) (fuel : Nat) :
    ∀ ls : Lab × St K, run p o g' fuel (mvL t ls) = mvL t (run p o g fuel ls) := by
  induction fuel with
  | zero => intro ls; rfl
  | succ k ih =>
    intro ls
    show run p o g' k (stepF p o g' (mvL t ls)) = mvL t (run p o g k (stepF p o g ls))
    rw [stepF_mv t p ho hg, ih]

/-! ### `newuoa_optimize` -/

omit t p in
/-- The scaling factors in use are those of the caller. -/
theorem scaling_same (c : Nat → K) {scl : Option (Nat → K)} {n : Nat} {d : Nat → K} (h : scaling n scl = some (some d)) (hc : scl = some c) : d = c := by
  subst hc
  have key : ∀ n, scaling n (some c) = none ∨ scaling n (some c) = some none ∨ scaling n (some c) = some (some c) := by
    intro n
    induction n with
    | zero => exact Or.inr (Or.inl rfl)
    | succ n ih =>
      have e : scaling (n + 1) (some c) = match scaling n (some c) with
        | none => none
        | some o => if c (n + 1) ≠ 1 then (if c (n + 1) - c (n + 1) ≠ 0 ∨ c (n + 1) ≤ 0 then none else some (some c)) else some o := rfl
      rw [e]
      rcases ih with i | i | i <;> rw [i] <;> dsimp only
      · exact Or.inl rfl
      · split_ifs <;> simp
      · split_ifs <;> simp
  rcases key n with k | k | k <;> rw [k] at h
  · exact absurd h (by simp)
  · exact absurd h (by simp)
  · exact (Option.some.inj (Option.some.inj h)).symm

/-- The translation of the scaled variables. -/
def scaled (scl : Option (Nat → K)) (t : Nat → K) : Nat → K := match scl with | none => t | some c => fun j => t j / c j

omit p in
theorem prepare_mv (a : Args K) (s : St K) : prepare { a with x := fun j => a.x j + t j } s =
    match prepare a s with
    | .inl e => .inl e
    | .inr (p, scl, ls) => .inr (p, scl, mvL (scaled scl t) ls) := by
  unfold prepare
  dsimp only
  by_cases c1 : a.n < 2
  · rw [if_pos c1, if_pos c1]
  · rw [if_neg c1, if_neg c1]
    by_cases c2 : a.npt < a.n + 2 ∨ a.npt > (a.n + 2) * (a.n + 1) / 2
    · rw [if_pos c2, if_pos c2]
    · rw [if_neg c2, if_neg c2]
      by_cases c3 : a.rhoend ≤ 0 ∨ a.rhoend > a.rhobeg
      · rw [if_pos c3, if_pos c3]
      · rw [if_neg c3, if_neg c3]
        cases scaling a.n.toNat a.scl with
        | none => rfl
        | some scl =>
          cases scl with
          | none => rfl
          | some d =>
            have e : (fun j => (a.x j + t j) / d j) = fun j => a.x j / d j + t j / d j := by funext j; exact add_div _ _ _
            dsimp only
            rw [e]
            rfl

omit t p in
theorem prepare_scl {a : Args K} {s : St K} {p : Par K} {scl : Option (Nat → K)} {ls : Lab × St K} (h : prepare a s = .inr (p, scl, ls)) :
    scaling a.n.toNat a.scl = some scl := by
  unfold prepare at h
  dsimp only at h
  split_ifs at h
  cases hs : scaling a.n.toNat a.scl with
  | none => rw [hs] at h; exact absurd h (by simp)
  | some d =>
    rw [hs] at h
    dsimp only at h
    rw [(Prod.mk.inj (Prod.mk.inj (Sum.inr.inj h)).2).1]

omit p in
/-- **C101.**  In exact arithmetic, if the objective function and the starting point are translated by `t` then so are the points of all the
calls of the objective function by `newuoa_optimize` and the variables which are returned; the status and all the values are the same.  The scaling
factors, if any, are not zero (the code verifies it for the indices in use). -/
theorem newuoa_translate (a : Args K) (ha : ∀ c, a.scl = some c → ∀ j, c j ≠ 0) {o : Par K → Subs K} (ho : ∀ p, Blind (o p)) (obj : Nat → (Nat → K) → K)
    (s : St K) (fuel : Nat) :
    optimize { a with x := fun j => a.x j + t j } o (fun k x => obj k (fun j => x j - t j)) s fuel =
      (optimize a o obj s fuel).map fun r => (r.1, (fun j => r.2.1 j + t j), r.2.2.1, r.2.2.2.map fun e => (fun j => e.1 j + t j, e.2)) := by
  unfold optimize
  rw [prepare_mv]
  cases hp : prepare a s with
  | inl e => rfl
  | inr q =>
    obtain ⟨p, scl, ls⟩ := q
    have hs := prepare_scl hp
    dsimp only
    have hu : ∀ x : Nat → K, unscale scl (fun j => x j + scaled scl t j) = fun j => unscale scl x j + t j := by
      intro x
      cases hc : scl with
      | none => rfl
      | some d =>
        subst hc
        have hd : ∀ j, d j ≠ 0 := by
          cases e : a.scl with
          | none => rw [e] at hs; exact absurd hs (by simp [scaling])
          | some c => rw [scaling_same c hs e]; exact ha c e
        funext j
        show d j * (x j + t j / d j) = d j * x j + t j
        rw [mul_add, mul_div_cancel₀ _ (hd j)]
    have hg : ∀ k x, objfun (fun k x => obj k (fun j => x j - t j)) a.maximize scl k (fun j => x j + scaled scl t j) = objfun obj a.maximize scl k x := by
      intro k x
      unfold objfun
      rw [hu]
      simp only [add_sub_cancel_right]
    rw [run_mv (scaled scl t) p (ho p) hg fuel ls]
    generalize run p (o p) (objfun obj a.maximize scl) fuel ls = r
    obtain ⟨lab, u⟩ := r
    cases lab
    case ret =>
      dsimp only
      rw [hu]
      unfold mvLog
      simp only [Option.map_some, List.map_map, Function.comp_def, hu]
    all_goals rfl

/-! ### The hypotheses can be met -/

omit t p in
/-- The functions of the code do not use these variables (for any result of `trsapp` when it does not end). -/
theorem blind_code (p : Par ℝ) (den : St ℝ → (Nat → ℝ) × (Nat → ℝ) × (Nat → ℝ) × ℝ × (Nat → ℝ)) (hd : ∀ s xb x l, den { s with xbase := xb, x := x, log := l } = den s) :
    Blind ⟨fun s => (trsapp realTrig p s).getD (s.d, 0, s.w), biglag realTrig p, den, update p⟩ :=
  fun s xb x l => ⟨rfl, rfl, hd s xb x l, rfl⟩

omit t p in
theorem blind_still (p : Par ℚ) : Blind (Demo.still p) := fun _ _ _ _ => ⟨rfl, rfl, rfl, rfl⟩

omit t p in
set_option maxRecDepth 100000 in
/-- The first example of `Demo`, translated by `(10, 20)`. -/
example : Demo.view (optimize { Demo.args 5 false none 1 100 with x := fun j => (Demo.args 5 false none 1 100).x j + 10 * j } Demo.still
      (fun k x => Demo.sq k (fun j => x j - 10 * j)) Demo.blank 100) =
    some (.success, [11, 21], some 1, [([10, 21], 2), ([11, 21], 1), ([10, 22], 5), ([9, 21], 5), ([10, 20], 1), ([11, 21], 1)]) := by
  rw [newuoa_translate (fun j => 10 * (j : ℚ)) (Demo.args 5 false none 1 100) (by intro c h; exact absurd h (by simp [Demo.args])) blind_still]
  decide +kernel

end Opk.Newuoa.Translate
