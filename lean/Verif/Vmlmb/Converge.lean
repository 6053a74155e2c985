import Verif.Vmlmb.Protocol
/-! # C26: convergence test of the variable metric optimizer -/
set_option linter.unusedSectionVars false
namespace Opk.Vmlmb
open Opk.Optim

/-! ## Specification -/

section spec
variable {F M V : Type} [Add F] [Sub F] [Mul F] [Div F] [Neg F] [Zero F] [One F]
  [LT F] [LE F] [DecidableLT F] [DecidableLE F] [BEq F] [CMath F]

/-- Norm of the gradient `g` at `x` or, with bounds, of its restriction to the free variables
(`none` if the free variables cannot be determined). -/
def gradNorm (par : Par F V) (x g : V) : Option F :=
  match par.box with
  | none => some (par.vs.norm2 g)
  | some box =>
    match box.freevar x g with
    | .error _ => none
    | .ok w =>
      if par.method = .blmvm then some (par.vs.norm2 (par.vs.product w g))
      else some (CMath.sqrt (par.vs.dot3 w g g))

/-- The variables and the gradient given with the first evaluation since the last start. -/
def firstEval (par : Par F V) (ops : LineSearch.Ops F M) (o : Opt F M V) (fst : Option (V × V)) :
    List (Call F V) → Option (V × V)
  | [] => fst
  | .start x :: l => firstEval par ops (step par ops o (.start x)) none l
  | .iterate x f g :: l =>
    firstEval par ops (step par ops o (.iterate x f g))
      (match fst with
        | some p => some p
        | none => if o.task = .computeFG then some (x, g) else none) l

/-- The method is the one chosen by the constructor. -/
def MethodOk (par : Par F V) : Prop := par.method = .lbfgs ↔ par.box = none

theorem new_method (finite : F → Bool) (vs : Vs F V) (opts : Options F) (size : Int) (box : Option (Cs F V))
    (same : Bool) (ls : LineSearch.Ls F M) (raw : Opt F M V) (par : Par F V) (opt : Opt F M V)
    (h : new finite vs opts size box same ls raw = some (par, opt)) :
    MethodOk par ∧ par.box = box ∧ par.gatol = opts.gatol ∧ par.grtol = opts.grtol ∧
    par.saveMemory = opts.saveMemory ∧ par.vs = vs ∧ par.epsilon = opts.epsilon ∧ par.stpmin = opts.stpmin ∧
    par.stpmax = opts.stpmax ∧ par.delta = opts.delta ∧ opt.ls = ls ∧
    (par.method = .blmvm → opts.blmvm) ∧ checkOptions finite opts = true := by
  unfold new at h
  by_cases h1 : (!checkOptions finite opts) = true
  · rw [if_pos h1] at h; cases h
  rw [if_neg h1] at h
  by_cases h2 : size < 1 ∨ opts.mem < 1
  · rw [if_pos h2] at h; cases h
  rw [if_neg h2] at h
  by_cases h3 : box.isSome = true ∧ (!same) = true
  · rw [if_pos h3] at h; cases h
  rw [if_neg h3] at h
  simp only [Option.some.injEq, Prod.mk.injEq] at h
  obtain ⟨rfl, rfl⟩ := h
  refine ⟨?_, rfl, rfl, rfl, rfl, rfl, rfl, rfl, rfl, rfl, rfl, ?_, by simpa using h1⟩
  · unfold MethodOk
    rcases box with _ | box
    · simp
    · simp only [reduceCtorEq, iff_false]; split_ifs <;> simp
  · rcases box with _ | box
    · simp
    · dsimp only; split_ifs with hb <;> simp [hb]

/-- What is computed when a step is accepted. -/
theorem accept_test (par : Par F V) (hp : MethodOk par) (o : Opt F M V) (x g : V) :
    (accept par o x g).task = .error ∧ gradNorm par x g = none ∨
    ∃ gn, gradNorm par x g = some gn ∧
      (accept par o x g).ginit = (if o.evaluations = 1 then gn else o.ginit) ∧
      (accept par o x g).gnorm = gn ∧
      (accept par o x g).task = (if gn ≤ max3 0 par.gatol
        (par.grtol * (if o.evaluations = 1 then gn else o.ginit)) then .finalX else .newX) := by
  unfold accept gradNorm
  unfold MethodOk at hp
  generalize par.box = q at *
  rcases q with _ | box
  · right
    have hm : par.method = .lbfgs := hp.2 rfl
    refine ⟨_, rfl, ?_⟩
    simp only [hm, success]
    by_cases h : o.evaluations = 1 <;> simp [h]
  · dsimp only
    have hm : par.method ≠ .lbfgs := fun h => by simpa using hp.1 h
    rcases box.freevar x g with st | w
    · left; exact ⟨rfl, rfl⟩
    · right
      rcases hm' : par.method with _ | _ | _
      · exact absurd hm' hm
      · simp only [hm', reduceCtorEq, if_false, success]
        refine ⟨_, rfl, ?_⟩
        by_cases h : o.evaluations = 1 <;> simp [h]
      · simp only [hm', if_true, success]
        refine ⟨_, rfl, ?_⟩
        by_cases h : o.evaluations = 1 <;> simp [h]

end spec

section thm
variable {F M V : Type} [Add F] [Sub F] [Mul F] [Div F] [Neg F] [Zero F] [One F]
  [LinearOrder F] [BEq F] [CMath F]

theorem max3_eq (a b c : F) : max3 a b c = max (max a b) c := by
  unfold max3 cmax
  split_ifs <;> order

/-- Invariant on the norm of the first gradient. -/
def FirstInv (par : Par F V) (o : Opt F M V) (fst : Option (V × V)) : Prop :=
  0 ≤ o.evaluations ∧ (o.evaluations = 0 → fst = none) ∧
  (o.evaluations ≠ 0 → ∃ p, fst = some p ∧ (o.task ≠ .error → gradNorm par p.1 p.2 = some o.ginit)) ∧
  (o.task = .newX ∨ o.task = .finalX → o.evaluations ≠ 0)

/-- The task after the answer to `OPK_TASK_COMPUTE_FG`, one call. -/
theorem onFG_test (par : Par F V) (hp : MethodOk par) (ops : LineSearch.Ops F M) (o : Opt F M V) (x : V) (f : F)
    (g : V) (ht : o.task = .computeFG) :
    let r := (iterate par ops o x f g).1
    r.evaluations = o.evaluations + 1 ∧
    (r.task = .error ∨ (r.task = .computeFG ∧ r.ginit = o.ginit ∧ 0 < o.evaluations) ∨
     ∃ gn g1, gradNorm par x g = some gn ∧ g1 = (if o.evaluations = 0 then gn else o.ginit) ∧
      r.ginit = g1 ∧ r.gnorm = gn ∧
      r.task = (if gn ≤ max (max 0 par.gatol) (par.grtol * g1) then .finalX else .newX)) := by
  intro r
  have hr : r = (iterate par ops o x f g).1 := rfl
  clear_value r
  unfold iterate onFG at hr
  rw [ht] at hr
  dsimp only at hr
  have key : ∀ q : Opt F M V, q.evaluations = o.evaluations + 1 → q.ginit = o.ginit → r = accept par q x g →
      r.evaluations = o.evaluations + 1 ∧
      (r.task = .error ∨ (r.task = .computeFG ∧ r.ginit = o.ginit ∧ 0 < o.evaluations) ∨
      ∃ gn g1, gradNorm par x g = some gn ∧ g1 = (if o.evaluations = 0 then gn else o.ginit) ∧
      r.ginit = g1 ∧ r.gnorm = gn ∧
      r.task = (if gn ≤ max (max 0 par.gatol) (par.grtol * g1) then .finalX else .newX)) := by
    intro q q1 q2 q3
    refine ⟨by rw [q3, (accept_keeps par q x g).1, q1], ?_⟩
    rcases accept_test par hp q x g with ⟨a1, -⟩ | ⟨gn, a1, a2, a3, a4⟩
    · left; rw [q3]; exact a1
    · right; right
      have he : q.evaluations = 1 ↔ o.evaluations = 0 := by omega
      simp only [he, q2, max3_eq] at a2 a4
      exact ⟨gn, _, a1, rfl, by rw [q3]; exact a2, by rw [q3]; exact a3, by rw [q3]; exact a4⟩
  by_cases h1 : o.evaluations + 1 > 1
  · rw [if_pos h1] at hr
    generalize LineSearch.iterate ops o.ls o.stp f _ = q at hr
    by_cases h2 : q.1.task = .search
    · rw [if_pos h2] at hr
      dsimp only at hr
      rcases trial_keeps par { o with evaluations := o.evaluations + 1, ls := q.1, stp := q.2 } with ⟨st, hq, -⟩ | hq
      · rw [ht] at hq; rw [hq] at hr; subst hr; exact ⟨rfl, Or.inl rfl⟩
      · rw [ht] at hq; rw [hq] at hr; subst hr; exact ⟨rfl, Or.inr (Or.inl ⟨rfl, rfl, by omega⟩)⟩
    · rw [if_neg h2] at hr
      by_cases h3 : q.1.task ≠ .convergence ∧ (q.1.task ≠ .warning ∨ q.1.status ≠ .roundingErrorsPreventProgress)
      · rw [if_pos h3] at hr; dsimp only at hr; subst hr; exact ⟨rfl, Or.inl rfl⟩
      · rw [if_neg h3] at hr; dsimp only at hr
        exact key { o with evaluations := o.evaluations + 1, ls := q.1, stp := q.2, iterations := o.iterations + 1, task := .computeFG } rfl rfl (by rw [hr])
  · rw [if_neg h1] at hr; dsimp only at hr
    exact key { o with evaluations := o.evaluations + 1, task := .computeFG } rfl rfl (by rw [hr])

theorem firstEval_inv (par : Par F V) (hp : MethodOk par) (ops : LineSearch.Ops F M) (hist : List (Call F V)) :
    ∀ (o : Opt F M V) (fst : Option (V × V)), FirstInv par o fst →
      FirstInv par (calls par ops o hist) (firstEval par ops o fst hist) := by
  induction hist with
  | nil => intro o fst h; exact h
  | cons c l ih =>
    intro o fst h
    rcases c with x | ⟨x, f, g⟩
    · apply ih
      show FirstInv par (start par o x).1 none
      have : (start par o x).1.evaluations = 0 ∧ ((start par o x).1.task = .computeFG ∨ (start par o x).1.task = .error) := by
        unfold start
        dsimp only
        rcases par.box with _ | box
        · exact ⟨rfl, Or.inl rfl⟩
        · dsimp only
          rcases box.projvar x with st | v
          · exact ⟨rfl, Or.inr rfl⟩
          · exact ⟨rfl, Or.inl rfl⟩
      obtain ⟨t1, t2⟩ := this
      refine ⟨by omega, fun _ => rfl, fun h => absurd t1 h, ?_⟩
      rcases t2 with t2 | t2 <;> rw [t2] <;> simp
    · apply ih
      obtain ⟨h0, h1, h2, h3⟩ := h
      unfold step
      dsimp only
      by_cases ht : o.task = .computeFG
      · obtain ⟨k1, k2⟩ := onFG_test par hp ops o x f g ht
        generalize (iterate par ops o x f g).1 = r at *
        refine ⟨by omega, by omega, fun _ => ?_, fun _ => by omega⟩
        by_cases he : o.evaluations = 0
        · rw [h1 he]
          refine ⟨_, if_pos ht, fun hne => ?_⟩
          rcases k2 with k2 | ⟨-, -, k2⟩ | ⟨gn, g1, a1, a2, a3, -⟩
          · exact absurd k2 hne
          · omega
          · rw [if_pos he] at a2; rw [a3, a2]; exact a1
        · obtain ⟨p, p1, p2⟩ := h2 he
          rw [p1]
          refine ⟨p, rfl, fun hne => ?_⟩
          have p3 := p2 (by rw [ht]; simp)
          rcases k2 with k2 | ⟨-, k2, -⟩ | ⟨gn, g1, a1, a2, a3, -⟩
          · exact absurd k2 hne
          · rw [k2]; exact p3
          · rw [if_neg he] at a2; rw [a3, a2]; exact p3
      · by_cases hn : o.task = .newX ∨ o.task = .finalX
        · have hr' : (iterate par ops o x f g).1 =
              (match onNewX par ops o x f g with | .ret opt => (opt, x) | .brk opt => trial par opt).1 := by
            unfold iterate; rcases hn with ht | ht <;> rw [ht] <;> rfl
          obtain ⟨q, k, k1, k2, k3, -⟩ := onNewX_cases par ops o x f g
          have : (iterate par ops o x f g).1.evaluations = o.evaluations ∧
              (iterate par ops o x f g).1.ginit = o.ginit := by
            rw [hr']
            rcases k with ⟨ka, -⟩ | ⟨ka, -⟩
            · rw [ka]; dsimp only
              rcases trial_keeps par q with ⟨st, hq, -⟩ | hq
              · rw [hq]; exact ⟨k1, k3⟩
              · rw [hq]; exact ⟨k1, k3⟩
            · rw [ka]; exact ⟨k1, k3⟩
          obtain ⟨t1, t2⟩ := this
          generalize (iterate par ops o x f g).1 = r at *
          have he := h3 hn
          obtain ⟨p, p1, p2⟩ := h2 he
          refine ⟨by omega, by omega, fun _ => ?_, fun _ => by omega⟩
          rw [p1]
          refine ⟨p, rfl, fun _ => ?_⟩
          rw [t2]; exact p2 (by rcases hn with h | h <;> rw [h] <;> simp)
        · have hr : (iterate par ops o x f g).1 = o := by
            unfold iterate
            rcases ht' : o.task with _ | _ | _ | _ | _ | _ <;> simp [ht'] at ht hn ⊢
          rw [hr]
          refine ⟨h0, fun h => by rw [h1 h]; simp [ht], fun h => ?_, h3⟩
          obtain ⟨p, p1, p2⟩ := h2 h
          rw [p1]; exact ⟨p, rfl, p2⟩

/-- **C26** for the variable metric optimizer.  For any history of calls of a new optimizer: when the
answer `(x, f, g)` to `OPK_TASK_COMPUTE_FG` is accepted, the task is `OPK_TASK_FINAL_X` if and only if the
norm of the (projected) gradient at `x` is at most `max(0, gatol, grtol*g1)` where `g1` is the norm of the
(projected) gradient given with the first evaluation since the last start; it is `OPK_TASK_NEW_X`
otherwise. -/
theorem convergence_test (finite : F → Bool) (vs : Vs F V) (opts : Options F) (size : Int)
    (box : Option (Cs F V)) (same : Bool) (ls : LineSearch.Ls F M) (raw : Opt F M V) (par : Par F V)
    (opt : Opt F M V) (hnew : new finite vs opts size box same ls raw = some (par, opt))
    (ops : LineSearch.Ops F M) (hist : List (Call F V)) (x : V) (f : F) (g : V)
    (hpend : (calls par ops opt hist).task = .computeFG) :
    let r := (iterate par ops (calls par ops opt hist) x f g).1
    r.task = .newX ∨ r.task = .finalX →
      ∃ p gn g1, firstEval par ops opt none (hist ++ [.iterate x f g]) = some p ∧
        gradNorm par x g = some gn ∧ gradNorm par p.1 p.2 = some g1 ∧
        (r.task = .finalX ↔ gn ≤ max (max 0 opts.gatol) (opts.grtol * g1)) := by
  intro r hacc
  obtain ⟨hp, -, e1, e2, -⟩ := new_method finite vs opts size box same ls raw par opt hnew
  have h0 : FirstInv par opt none := by
    obtain ⟨-, -, -, t, -, hc⟩ := new_counters finite vs opts size box same ls raw par opt hnew
    have := hc.evaluations
    exact ⟨by omega, fun _ => rfl, fun h => absurd this h, by rw [t]; simp⟩
  have hI := firstEval_inv par hp ops (hist ++ [.iterate x f g]) opt none h0
  have hcalls : ∀ (o : Opt F M V), calls par ops o (hist ++ [.iterate x f g]) =
      (iterate par ops (calls par ops o hist) x f g).1 := by
    intro o
    clear hI hacc r hpend h0 hnew
    induction hist generalizing o with
    | nil => rfl
    | cons c l ih => exact ih _
  rw [hcalls] at hI
  obtain ⟨k1, k2⟩ := onFG_test par hp ops _ x f g hpend
  have hev : 0 ≤ (calls par ops opt hist).evaluations := by
    exact (firstEval_inv par hp ops hist opt none h0).1
  obtain ⟨-, -, i3, -⟩ := hI
  obtain ⟨p, p1, p2⟩ := i3 (by rw [k1]; omega)
  rcases k2 with k2 | ⟨k2, -⟩ | ⟨gn, g1, a1, a2, a3, a4, a5⟩
  · exfalso; rcases hacc with h | h <;> exact absurd (k2.symm.trans h) (by simp)
  · exfalso; rcases hacc with h | h <;> exact absurd (k2.symm.trans h) (by simp)
  · refine ⟨p, gn, g1, p1, a1, ?_, ?_⟩
    · rw [← a3]; exact p2 (by rcases hacc with h | h <;> rw [h] <;> simp)
    · show r.task = _ ↔ _
      rw [show r.task = _ from a5, e1, e2]
      split_ifs with h <;> simp [h]

end thm
end Opk.Vmlmb
