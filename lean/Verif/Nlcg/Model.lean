import Verif.Optim.Common
/-!
# Non-linear conjugate gradient optimizer: `src/nlcg.c`

The work vectors `g0` and `y` may be `NULL` (`none`); using their contents is then undefined behaviour,
represented by the result `none` of the model.
-/
namespace Opk.Nlcg
open Opk.Optim

/-- The update methods, `src/nlcg.c:221-405`. -/
inductive Rule where
  | fletcherReeves | hestenesStiefel | polakRibierePolyak | fletcher | liuStorey | daiYuan | perryShanno | hagerZhang
  deriving DecidableEq, Repr

/-- `OPK_NLCG_POWELL`, `src/optimpack.h`. -/
def POWELL : Nat := 1 <<< 8
/-- `OPK_NLCG_SHANNO_PHUA`, `src/optimpack.h`. -/
def SHANNO_PHUA : Nat := 1 <<< 9
/-- `OPK_NLCG_DEFAULT`, `src/optimpack.h`: `OPK_NLCG_POLAK_RIBIERE_POLYAK`, with the two options. -/
def DEFAULT : Nat := 3 ||| SHANNO_PHUA ||| POWELL

/-- `(flags & bit) == bit`. -/
def hasBit (flags bit : Nat) : Bool := (flags &&& bit) == bit

/-- The members of `opk_nlcg` (`src/nlcg.c:81-129`) which are set by the constructor and do not change. -/
structure Par (F V : Type) where
  vs : Vs F V
  rule : Rule
  flags : Nat
  delta : F
  epsilon : F
  grtol : F
  gatol : F
  stpmin : F
  stpmax : F
  fmin : F
  fminGiven : Bool
  hagerZhangOrig : Bool

/-- The other members of `opk_nlcg`, `src/nlcg.c:81-129`. -/
structure Opt (F M V : Type) where
  f0 : F
  g0norm : F
  gnorm : F
  dtg0 : F
  dtg : F
  ginit : F
  alpha : F
  beta : F
  ls : LineSearch.Ls F M
  x0 : V
  g0 : Option V
  d : V
  y : Option V
  iterations : Int
  restarts : Int
  evaluations : Int
  status : Status
  task : Task

variable {F M V : Type}

/-- `success`, `src/nlcg.c:147-153`. -/
def success (opt : Opt F M V) (task : Task) : Opt F M V := { opt with status := .success, task := task }
/-- `failure`, `src/nlcg.c:155-161`. -/
def failure (opt : Opt F M V) (status : Status) : Opt F M V := { opt with status := status, task := .error }

/-- `opk_start_nlcg`, `src/nlcg.c:708-715` (the variables are not modified). -/
def start (opt : Opt F M V) : Opt F M V :=
  success { opt with iterations := 0, evaluations := 0, restarts := 0 } .computeFG

section arith
variable [Add F] [Sub F] [Mul F] [Div F] [Neg F] [Zero F] [One F]
  [LT F] [LE F] [DecidableLT F] [DecidableLE F] [BEq F] [CMath F]

/-- `max3`, `src/nlcg.c:131-139`. -/
def max3 (a1 a2 a3 : F) : F :=
  if a3 ≥ a2 then (if a3 ≥ a1 then a3 else a1) else (if a2 ≥ a1 then a2 else a1)

/-! ## Updates: the boolean tells whether the result is `UPDATE_SUCCESS` -/

/-- `update0`, `src/nlcg.c:183-194`. -/
def update0 (par : Par F V) (opt : Opt F M V) (g : V) (beta : F) : Opt F M V × Bool :=
  let opt := { opt with beta := beta }
  if beta == 0 then (opt, false)
  else ({ opt with d := par.vs.axpby 1 g beta opt.d }, true)

/-- `update1`, `src/nlcg.c:196-211`. -/
def update1 (par : Par F V) (opt : Opt F M V) (g : V) (beta : F) : Opt F M V × Bool :=
  let beta := if hasBit par.flags POWELL ∧ beta < 0 then 0 else beta
  let opt := { opt with beta := beta }
  if beta == 0 then (opt, false)
  else ({ opt with d := par.vs.axpby 1 g beta opt.d }, true)

/-- `form_y`, `src/nlcg.c:213-219`: the optimizer and the contents of `*opt->y`. -/
def formY (par : Par F V) (opt : Opt F M V) (g : V) : Option (Opt F M V × V) :=
  match opt.y, opt.g0 with
  | some _, some g0 =>
    let y := par.vs.axpby 1 g (-1) g0
    some ({ opt with y := some y }, y)
  | _, _ => none

/-- `update_Hestenes_Stiefel`, `src/nlcg.c:228-239`. -/
def updateHS (par : Par F V) (opt : Opt F M V) (g : V) : Option (Opt F M V × Bool) :=
  (formY par opt g).map fun (opt, y) =>
    let gty := par.vs.dot g y
    let dty := -par.vs.dot opt.d y
    update1 par opt g (if !(dty == 0) then gty / dty else 0)

/-- `update_Fletcher_Reeves`, `src/nlcg.c:248-255`. -/
def updateFR (par : Par F V) (opt : Opt F M V) (g : V) : Opt F M V × Bool :=
  let r := opt.gnorm / opt.g0norm
  update0 par opt g (r * r)

/-- `update_Polak_Ribiere_Polyak`, `src/nlcg.c:262-271`. -/
def updatePRP (par : Par F V) (opt : Opt F M V) (g : V) : Option (Opt F M V × Bool) :=
  (formY par opt g).map fun (opt, y) =>
    update1 par opt g ((par.vs.dot g y / opt.g0norm) / opt.g0norm)

/-- `update_Fletcher`, `src/nlcg.c:280-287`. -/
def updateCD (par : Par F V) (opt : Opt F M V) (g : V) : Opt F M V × Bool :=
  update0 par opt g (-opt.gnorm * (opt.gnorm / opt.dtg0))

/-- `update_Liu_Storey`, `src/nlcg.c:294-304`. -/
def updateLS (par : Par F V) (opt : Opt F M V) (g : V) : Option (Opt F M V × Bool) :=
  (formY par opt g).map fun (opt, y) =>
    let gty := par.vs.dot g y
    update1 par opt g (-gty / opt.dtg0)

/-- `update_Dai_Yuan`, `src/nlcg.c:311-321`. -/
def updateDY (par : Par F V) (opt : Opt F M V) (g : V) : Option (Opt F M V × Bool) :=
  (formY par opt g).map fun (opt, y) =>
    let dty := -par.vs.dot opt.d y
    update1 par opt g (if !(dty == 0) then opt.gnorm * (opt.gnorm / dty) else 0)

/-- `update_Hager_Zhang`, `src/nlcg.c:329-360`. -/
def updateHZ (par : Par F V) (opt : Opt F M V) (g : V) : Option (Opt F M V × Bool) :=
  (formY par opt g).map fun (opt, y) =>
    let dty := -par.vs.dot opt.d y
    if !(dty == 0) then
      if par.hagerZhangOrig then
        let q := 1 / dty
        let r := q * par.vs.norm2 y
        let y := par.vs.axpby q y (lit 2 1 * r * r) opt.d
        update1 par { opt with y := some y } g (par.vs.dot y g)
      else
        let ytg := par.vs.dot y g
        let ynorm := par.vs.norm2 y
        update1 par opt g ((ytg - lit 2 1 * (ynorm / dty) * ynorm * opt.dtg) / dty)
    else update1 par opt g 0

/-- `update_Perry_Shanno`, `src/nlcg.c:382-405`. -/
def updatePS (par : Par F V) (opt : Opt F M V) (g : V) : Option (Opt F M V × Bool) :=
  (formY par opt g).map fun (opt, y) =>
    let yty := par.vs.dot y y
    if yty ≤ 0 then (opt, false)
    else
      let dty := -par.vs.dot opt.d y
      if dty == 0 then (opt, false)
      else
        let gty := par.vs.dot g y
        let dtg := opt.dtg
        let c1 := dty / yty
        let c2 := gty / yty - lit 2 1 * dtg / dty
        let c3 := -dtg / yty
        ({ opt with beta := c2 / c1, d := par.vs.axpbypcz c1 g c2 opt.d c3 y }, true)

/-- `opt->update(opt, x, g)`. -/
def update (par : Par F V) (opt : Opt F M V) (g : V) : Option (Opt F M V × Bool) :=
  match par.rule with
  | .fletcherReeves => some (updateFR par opt g)
  | .hestenesStiefel => updateHS par opt g
  | .polakRibierePolyak => updatePRP par opt g
  | .fletcher => some (updateCD par opt g)
  | .liuStorey => updateLS par opt g
  | .daiYuan => updateDY par opt g
  | .perryShanno => updatePS par opt g
  | .hagerZhang => updateHZ par opt g

/-! ## Iterations -/

/-- End of the case `OPK_TASK_COMPUTE_FG`, `src/nlcg.c:756-766`. -/
def accept (par : Par F V) (opt : Opt F M V) (g : V) : Opt F M V :=
  let opt := { opt with gnorm := par.vs.norm2 g }
  let opt := if opt.evaluations ≤ 1 then { opt with ginit := opt.gnorm } else opt
  success opt (if opt.gnorm ≤ max3 0 par.gatol (par.grtol * opt.ginit) then .finalX else .newX)

/-- Case `OPK_TASK_COMPUTE_FG` of `opk_iterate_nlcg`, `src/nlcg.c:732-766`. -/
def onFG (par : Par F V) (ops : LineSearch.Ops F M) (opt : Opt F M V) (f : F) (g : V) : Flow (Opt F M V) :=
  let opt := { opt with evaluations := opt.evaluations + 1 }
  if opt.evaluations > 1 then
    let opt := { opt with dtg := -par.vs.dot opt.d g }
    let r := LineSearch.iterate ops opt.ls opt.alpha f opt.dtg
    let opt := { opt with ls := r.1, alpha := r.2 }
    if r.1.task ≠ .convergence then
      if r.1.task = .search then .brk opt
      else if r.1.task ≠ .warning ∨ r.1.status ≠ .roundingErrorsPreventProgress then
        .ret (failure opt (.ls r.1.status))
      else .ret (accept par { opt with iterations := opt.iterations + 1 } g)
    else .ret (accept par { opt with iterations := opt.iterations + 1 } g)
  else .ret (accept par opt g)

/-- New search direction and `opt->dtg`, `src/nlcg.c:771-784`. -/
def direction (par : Par F V) (opt : Opt F M V) (g : V) : Option (Opt F M V) :=
  if opt.evaluations ≤ 1 then some { opt with dtg := 0 }
  else
    (update par opt g).map fun (opt, ok) =>
      if !ok then { opt with dtg := 0 }
      else
        let opt := { opt with dtg := -par.vs.dot opt.d g }
        if par.epsilon > 0 ∧ opt.dtg > -par.epsilon * par.vs.norm2 opt.d * opt.gnorm then { opt with dtg := 0 } else opt

/-- Initial step along the steepest descent direction, `src/nlcg.c:802-814`. -/
def steepestStep (par : Par F V) (opt : Opt F M V) (x : V) (f : F) : F :=
  if par.fminGiven ∧ par.fmin < f then lit 2 1 * (par.fmin - f) / opt.dtg
  else if !(f == 0) then lit 2 1 * fabs (f / opt.dtg)
  else
    let dnorm := opt.gnorm
    let xnorm := par.vs.norm2 x
    if xnorm > 0 then par.delta * xnorm / dnorm else par.delta / dnorm

/-- Initial step length, and direction if the recurrence is restarted, `src/nlcg.c:785-816`. -/
def initialStep (par : Par F V) (opt : Opt F M V) (x : V) (f : F) (g : V) : Opt F M V :=
  if opt.dtg < 0 then
    if hasBit par.flags SHANNO_PHUA then { opt with alpha := opt.alpha * (opt.dtg0 / opt.dtg) } else opt
  else
    let opt := if opt.evaluations > 1 then { opt with restarts := opt.restarts + 1 } else opt
    let opt := { opt with d := g }
    let opt := { opt with dtg := -opt.gnorm * opt.gnorm }
    let opt := { opt with alpha := steepestStep par opt x f }
    { opt with beta := 0 }

/-- Store the current position, `src/nlcg.c:818-825`. -/
def savePoint (opt : Opt F M V) (x : V) (f : F) (g : V) : Opt F M V :=
  { opt with x0 := x, f0 := f, g0 := opt.g0.map (fun _ => g), g0norm := opt.gnorm, dtg0 := opt.dtg }

/-- Case `OPK_TASK_NEW_X`, `OPK_TASK_FINAL_X` of `opk_iterate_nlcg`, `src/nlcg.c:768-834`. -/
def onNewX (par : Par F V) (ops : LineSearch.Ops F M) (opt : Opt F M V) (x : V) (f : F) (g : V) :
    Option (Flow (Opt F M V)) :=
  (direction par opt g).map fun opt =>
    let opt := initialStep par opt x f g
    let opt := savePoint opt x f g
    let ls := LineSearch.start ops opt.ls opt.f0 opt.dtg0 opt.alpha (par.stpmin * opt.alpha) (par.stpmax * opt.alpha)
    let opt := { opt with ls := ls }
    if ls.task ≠ .search then .ret (failure opt (.ls ls.status)) else .brk opt

/-- New trial point, `src/nlcg.c:842-844`; returns the optimizer and the new contents of `x`. -/
def trial (par : Par F V) (opt : Opt F M V) : Opt F M V × V :=
  (success opt .computeFG, par.vs.axpby 1 opt.x0 (-opt.alpha) opt.d)

/-- How the function goes on: `return` (`x` is not modified) or new trial point. -/
def finish (par : Par F V) (x : V) : Flow (Opt F M V) → Opt F M V × V
  | .ret opt => (opt, x)
  | .brk opt => trial par opt

/-- `opk_iterate_nlcg`, `src/nlcg.c:717-845`, for non `NULL` arguments: the optimizer and the new contents of
`x` (`g` is not modified). -/
def iterate (par : Par F V) (ops : LineSearch.Ops F M) (opt : Opt F M V) (x : V) (f : F) (g : V) :
    Option (Opt F M V × V) :=
  match opt.task with
  | .computeFG => some (finish par x (onFG par ops opt f g))
  | .newX => (onNewX par ops opt x f g).map (finish par x)
  | .finalX => (onNewX par ops opt x f g).map (finish par x)
  | _ => some (opt, x)

end arith

/-- `opk__set_nlcg_status`, `src/nlcg.c:659-666`. -/
def setStatus (opt : Opt F M V) (status : Status) : Opt F M V :=
  if status ≠ .success then { opt with status := status, task := .error } else { opt with status := status }

/-! ## Options and creation -/

/-- `opk_nlcg_options`, `src/optimpack.h`. -/
structure Options (F : Type) where
  delta : F
  epsilon : F
  grtol : F
  gatol : F
  stpmin : F
  stpmax : F
  fmin : F
  flags : Nat
  fminGiven : Bool

/-- `opk_check_nlcg_options`, `src/nlcg.c:690-706`, for a non `NULL` address: whether the result is
`OPK_SUCCESS`.  `finite` is `!non_finite`. -/
def checkOptions [LT F] [LE F] [DecidableLT F] [DecidableLE F] [Zero F] [One F] (finite : F → Bool)
    (o : Options F) : Bool :=
  !(!finite o.gatol ∨ o.gatol < 0 ∨ !finite o.grtol ∨ o.grtol < 0 ∨ !finite o.delta ∨ o.delta ≤ 0 ∨
    !finite o.epsilon ∨ o.epsilon < 0 ∨ o.epsilon ≥ 1 ∨ !finite o.stpmin ∨ o.stpmin < 0 ∨
    !finite o.stpmax ∨ o.stpmax ≤ o.stpmin ∨ o.fminGiven ∧ !finite o.fmin)

/-- The method selected by the flags and whether `g0` and `y` are needed, `src/nlcg.c:455-499`. -/
def select (flags : Nat) : Option (Rule × Bool) :=
  match flags &&& 0xff with
  | 1 => some (.fletcherReeves, false)
  | 2 => some (.hestenesStiefel, true)
  | 3 => some (.polakRibierePolyak, true)
  | 4 => some (.fletcher, false)
  | 5 => some (.liuStorey, true)
  | 6 => some (.daiYuan, true)
  | 7 => some (.perryShanno, true)
  | 8 => some (.hagerZhang, true)
  | _ => none

/-- `opk_new_nlcg_optimizer`, `src/nlcg.c:422-556`, for given options, a non `NULL` space, a given line search,
and when memory is available: `none` is `NULL`.  `raw` gives the contents of the new vectors (not initialized);
the other members are zero filled by the allocation. -/
def new [LT F] [LE F] [DecidableLT F] [DecidableLE F] [Zero F] [One F] (finite : F → Bool)
    (vs : Vs F V) (o : Options F) (ls : LineSearch.Ls F M) (raw : V) : Option (Par F V × Opt F M V) :=
  if !checkOptions finite o then none
  else
    let flags := if o.flags = 0 then DEFAULT else o.flags
    match select flags with
    | none => none
    | some (rule, needed) =>
      some ({ vs := vs, rule := rule, flags := flags, delta := o.delta, epsilon := o.epsilon, grtol := o.grtol,
              gatol := o.gatol, stpmin := o.stpmin, stpmax := o.stpmax, fmin := o.fmin, fminGiven := false,
              hagerZhangOrig := false },
            failure
              { f0 := 0, g0norm := 0, gnorm := 0, dtg0 := 0, dtg := 0, ginit := 0, alpha := 0, beta := 0, ls := ls,
                x0 := raw, g0 := if needed then some raw else none, d := raw, y := if needed then some raw else none,
                iterations := 0, restarts := 0, evaluations := 0, status := .success, task := .error } .notStarted)

end Opk.Nlcg
