import Verif.Optim.Common
/-!
# Variable metric optimizer: `src/vmlmb.c`

Indices and counters are integers (`opk_index`); the arrays `s`, `y`, `alpha` and `rho` of `m` elements
are functions of an integer index (theorem `slot_in_range`: only the indices `0, ..., m - 1` are used).
-/
namespace Opk.Vmlmb
open Opk.Optim

/-- `opk_vmlmb_method`, `src/optimpack.h:1857`. -/
inductive Method where
  | lbfgs | vmlmb | blmvm
  deriving DecidableEq, Repr

/-- The members of `opk_vmlmb` (`src/vmlmb.c:113-166`) which are set by the constructor and do not
change.  `box = none` is `NULL`. -/
structure Par (F V : Type) where
  vs : Vs F V
  box : Option (Cs F V)
  method : Method
  delta : F
  epsilon : F
  grtol : F
  gatol : F
  stpmin : F
  stpmax : F
  saveMemory : Bool
  m : Int

/-- The other members of `opk_vmlmb`, `src/vmlmb.c:113-166`.  `x0` (and `g0`) is either a vector owned
by the optimizer, of contents `x0own`, or a weak reference to the saved vector of index `x0ref`. -/
structure Opt (F M V : Type) where
  ginit : F
  f0 : F
  gnorm : F
  stp : F
  bsmin : F
  ls : LineSearch.Ls F M
  x0ref : Option Int
  x0own : V
  g0ref : Option Int
  g0own : V
  d : V
  w : V
  gp : V
  evaluations : Int
  iterations : Int
  restarts : Int
  status : Status
  task : Task
  gamma : F
  s : Int → V
  y : Int → V
  alpha : Int → F
  rho : Int → F
  mp : Int
  updates : Int

variable {F M V : Type}

/-- Contents of `*opt->x0`. -/
def Opt.x0 (opt : Opt F M V) : V := match opt.x0ref with | none => opt.x0own | some k => opt.s k
/-- Contents of `*opt->g0`. -/
def Opt.g0 (opt : Opt F M V) : V := match opt.g0ref with | none => opt.g0own | some k => opt.y k

/-- `COPY(opt->x0, x)` -/
def Opt.setX0 (opt : Opt F M V) (v : V) : Opt F M V :=
  match opt.x0ref with | none => { opt with x0own := v } | some k => { opt with s := upd opt.s k v }
/-- `COPY(opt->g0, g)` -/
def Opt.setG0 (opt : Opt F M V) (v : V) : Opt F M V :=
  match opt.g0ref with | none => { opt with g0own := v } | some k => { opt with y := upd opt.y k v }

/-- `slot`, `src/vmlmb.c:210-219`, with the remainder of C. -/
def slot (par : Par F V) (opt : Opt F M V) (j : Int) : Int := (opt.updates - j).tmod par.m

/-- `success`, `src/vmlmb.c:221-227`. -/
def success (opt : Opt F M V) (task : Task) : Opt F M V := { opt with status := .success, task := task }
/-- `failure`, `src/vmlmb.c:229-235`. -/
def failure (opt : Opt F M V) (status : Status) : Opt F M V := { opt with status := status, task := .error }

/-- `opk_start_vmlmb`, `src/vmlmb.c:370-385`; returns the optimizer and the new contents of `x`. -/
def start (par : Par F V) (opt : Opt F M V) (x : V) : Opt F M V × V :=
  let opt := { opt with iterations := 0, evaluations := 0, restarts := 0, updates := 0, mp := 0 }
  match par.box with
  | none => (success opt .computeFG, x)
  | some box =>
    match box.projvar x with
    | .error st => (failure opt (.set st), x)
    | .ok x' => (success opt .computeFG, x')

section arith
variable [Add F] [Sub F] [Mul F] [Div F] [Neg F] [Zero F] [One F]
  [LT F] [LE F] [DecidableLT F] [DecidableLE F] [BEq F] [CMath F]

/-- The factors of the pair `k`, `src/vmlmb.c:415-430`. -/
def curvature (par : Par F V) (opt : Opt F M V) (k : Int) : Opt F M V :=
  if par.method ≠ .vmlmb then
    let sty := par.vs.dot (opt.s k) (opt.y k)
    if sty ≤ 0 then { opt with rho := upd opt.rho k 0 }
    else
      let opt := { opt with rho := upd opt.rho k (1 / sty) }
      let yty := par.vs.dot (opt.y k) (opt.y k)
      if yty > 0 then { opt with gamma := sty / yty } else opt
  else opt

/-- `update`, `src/vmlmb.c:402-435`. -/
def update (par : Par F V) (opt : Opt F M V) (x g : V) : Opt F M V :=
  let k := slot par opt 0
  let opt := { opt with s := upd opt.s k (par.vs.axpby 1 x (-1) opt.x0) }
  let opt := { opt with y := upd opt.y k (par.vs.axpby 1 g (-1) opt.g0) }
  let opt := curvature par opt k
  let opt := { opt with updates := opt.updates + 1 }
  if opt.mp < par.m then { opt with mp := opt.mp + 1 } else opt

/-- First loop of the recursion, original version, `src/vmlmb.c:451-458`: body for index `j`.  The
boolean tells whether `result` is `OPK_SUCCESS`. -/
def fwd (par : Par F V) (j : Nat) (a : Opt F M V × Bool) : Opt F M V × Bool :=
  let opt := a.1
  let k := slot par opt j
  if opt.rho k > 0 then
    let opt := { opt with alpha := upd opt.alpha k (opt.rho k * par.vs.dot opt.d (opt.s k)) }
    ({ opt with d := par.vs.axpby 1 opt.d (-opt.alpha k) (opt.y k) }, true)
  else a

/-- Second loop of the recursion, original version, `src/vmlmb.c:464-470`. -/
def bwd (par : Par F V) (j : Nat) (opt : Opt F M V) : Opt F M V :=
  let k := slot par opt j
  if opt.rho k > 0 then
    let beta := opt.rho k * par.vs.dot opt.d (opt.y k)
    { opt with d := par.vs.axpby 1 opt.d (opt.alpha k - beta) (opt.s k) }
  else opt

/-- First loop of the recursion restricted to the free variables, `src/vmlmb.c:476-491`. -/
def wfwd (par : Par F V) (j : Nat) (a : Opt F M V × Bool) : Opt F M V × Bool :=
  let opt := a.1
  let k := slot par opt j
  let sty := par.vs.dot3 opt.w (opt.y k) (opt.s k)
  if sty ≤ 0 then ({ opt with rho := upd opt.rho k 0 }, a.2)
  else
    let opt := { opt with rho := upd opt.rho k (1 / sty) }
    let opt := { opt with alpha := upd opt.alpha k (opt.rho k * par.vs.dot3 opt.w opt.d (opt.s k)) }
    let opt := { opt with d := par.vs.axpby 1 opt.d (-opt.alpha k) (opt.y k) }
    if opt.gamma == 0 then
      ({ opt with gamma := sty / par.vs.dot3 opt.w (opt.y k) (opt.y k) }, true)
    else (opt, true)

/-- Second loop of the recursion restricted to the free variables, `src/vmlmb.c:496-502`. -/
def wbwd (par : Par F V) (j : Nat) (opt : Opt F M V) : Opt F M V :=
  let k := slot par opt j
  if opt.rho k > 0 then
    let beta := opt.rho k * par.vs.dot3 opt.w opt.d (opt.y k)
    { opt with d := par.vs.axpby 1 opt.d (opt.alpha k - beta) (opt.s k) }
  else opt

/-- `if (opt->gamma != 1) SCALE(opt->d, opt->gamma)`, `src/vmlmb.c:460-463`, `493-495`. -/
def rescale (par : Par F V) (opt : Opt F M V) : Opt F M V :=
  if !(opt.gamma == 1) then { opt with d := par.vs.scale opt.gamma opt.d } else opt

/-- `apply`, `src/vmlmb.c:437-509`; the boolean tells whether the result is `OPK_SUCCESS`. -/
def apply (par : Par F V) (opt : Opt F M V) (g : V) : Opt F M V × Bool :=
  let opt := { opt with d := g }
  if par.method ≠ .vmlmb then
    let r := loopUp (fwd par) opt.mp.toNat (opt, false)
    if r.2 then (loopDown (bwd par) r.1.mp.toNat (rescale par r.1), true) else r
  else
    let r := loopUp (wfwd par) opt.mp.toNat ({ opt with gamma := 0 }, false)
    if r.2 then
      let opt := loopDown (wbwd par) r.1.mp.toNat (rescale par r.1)
      ({ opt with d := par.vs.product opt.w opt.d }, true)
    else r

/-- Directional derivative given to the line search, `src/vmlmb.c:536-557`. -/
def derivative (par : Par F V) (ops : LineSearch.Ops F M) (opt : Opt F M V) (x g : V) : F :=
  if ops.useDeriv then
    match par.box with
    | some _ => (par.vs.dot x g - par.vs.dot opt.x0 g) / opt.stp
    | none => -par.vs.dot opt.d g
  else 0

/-- End of the case `OPK_TASK_COMPUTE_FG`: the current step is acceptable, check for global
convergence, `src/vmlmb.c:576-601`. -/
def accept (par : Par F V) (opt : Opt F M V) (x g : V) : Opt F M V :=
  let r : Except Box.Status (Opt F M V) :=
    match par.box with
    | none => .ok opt
    | some box =>
      match box.freevar x g with
      | .error st => .error st
      | .ok w => .ok { opt with w := w }
  match r with
  | .error st => failure opt (.set st)
  | .ok opt =>
    let opt : Opt F M V :=
      match par.method with
      | .vmlmb => { opt with gnorm := CMath.sqrt (par.vs.dot3 opt.w g g) }
      | .blmvm =>
        let opt := { opt with gp := par.vs.product opt.w g }
        { opt with gnorm := par.vs.norm2 opt.gp }
      | .lbfgs => { opt with gnorm := par.vs.norm2 g }
    let opt := if opt.evaluations = 1 then { opt with ginit := opt.gnorm } else opt
    let gtest := max3 0 par.gatol (par.grtol * opt.ginit)
    success opt (if opt.gnorm ≤ gtest then .finalX else .newX)

/-- Case `OPK_TASK_COMPUTE_FG` of `opk_iterate_vmlmb`, `src/vmlmb.c:528-601`. -/
def onFG (par : Par F V) (ops : LineSearch.Ops F M) (opt : Opt F M V) (x : V) (f : F) (g : V) :
    Flow (Opt F M V) :=
  let opt := { opt with evaluations := opt.evaluations + 1 }
  if opt.evaluations > 1 then
    let dtg := derivative par ops opt x g
    let r := LineSearch.iterate ops opt.ls opt.stp f dtg
    let opt := { opt with ls := r.1, stp := r.2 }
    if r.1.task = .search then .brk opt
    else if r.1.task ≠ .convergence ∧
        (r.1.task ≠ .warning ∨ r.1.status ≠ .roundingErrorsPreventProgress) then
      .ret (failure opt (.ls r.1.status))
    else .ret (accept par { opt with iterations := opt.iterations + 1 } x g)
  else .ret (accept par opt x g)

/-- New search direction, `src/vmlmb.c:606-637`: the updated optimizer and the directional derivative
(zero if there is no acceptable direction). -/
def direction (par : Par F V) (opt : Opt F M V) (x g : V) : Except (Opt F M V) (Opt F M V × F) :=
  let opt := if opt.iterations ≥ 1 then update par opt x (if par.method = .blmvm then opt.gp else g) else opt
  let r := apply par opt g
  let opt := r.1
  if r.2 then
    let p : Except Box.Status (Opt F M V) :=
      match par.box with
      | none => .ok opt
      | some box =>
        match box.projdir x opt.d with
        | .error st => .error st
        | .ok d => .ok { opt with d := d }
    match p with
    | .error st => .error (failure opt (.set st))
    | .ok opt =>
      let dtg := -par.vs.dot opt.d g
      if par.epsilon > 0 ∧ -dtg < par.epsilon * par.vs.norm2 opt.d * opt.gnorm then .ok (opt, 0)
      else .ok (opt, dtg)
  else .ok (opt, 0)

/-- Initial step along the steepest descent direction, `src/vmlmb.c:665-676`. -/
def steepestStep (par : Par F V) (opt : Opt F M V) (x : V) (f dtg : F) : F :=
  if !(f == 0) then lit 2 1 * fabs (f / dtg)
  else
    let dnorm := opt.gnorm
    let xnorm := match par.box with
      | some _ => CMath.sqrt (par.vs.dot3 opt.w x x)
      | none => par.vs.norm2 x
    if xnorm > 0 then par.delta * xnorm / dnorm else par.delta / dnorm

/-- Initial step length, `src/vmlmb.c:639-677`. -/
def initialStep (par : Par F V) (opt : Opt F M V) (x : V) (f : F) (g : V) (dtg : F) : Opt F M V × F :=
  if dtg < 0 then ({ opt with stp := 1 }, dtg)
  else
    let opt := if opt.mp > 0 then { opt with restarts := opt.restarts + 1, mp := 0 } else opt
    let opt :=
      match par.method with
      | .vmlmb => { opt with d := par.vs.product opt.w g }
      | .blmvm => { opt with d := opt.gp }
      | .lbfgs => { opt with d := g }
    let dtg := -opt.gnorm * opt.gnorm
    ({ opt with stp := steepestStep par opt x f dtg }, dtg)

/-- Limits of the step, `src/vmlmb.c:679-703`: the updated optimizer, `stpmin` and `stpmax`.  (When
`opk_get_step_limits` fails the code compares the uninitialized `bsmin1` with zero, which may only
print a message.) -/
def limitStep (par : Par F V) (opt : Opt F M V) (x : V) : Except (Opt F M V) (Opt F M V × F × F) :=
  let stpmin := opt.stp * par.stpmin
  let stpmax := opt.stp * par.stpmax
  match par.box with
  | none => .ok (opt, stpmin, stpmax)
  | some box =>
    match box.steplim x opt.d with
    | .error st => .error (failure opt (.set st))
    | .ok l =>
      if l.s3 ≤ 0 then .error (failure opt .wouldBlock)
      else
        let opt := if opt.stp > l.s3 then { opt with stp := l.s3 } else opt
        let stpmax := if stpmax > l.s3 then l.s3 else stpmax
        .ok ({ opt with bsmin := l.s2 }, stpmin, stpmax)

/-- Where to save the current point, `src/vmlmb.c:705-713`. -/
def saveRefs (par : Par F V) (opt : Opt F M V) : Opt F M V :=
  if par.saveMemory then
    let k := slot par opt 0
    let opt := { opt with x0ref := some k, g0ref := some k }
    if opt.mp = par.m then { opt with mp := opt.mp - 1 } else opt
  else opt

/-- Save the current point, `src/vmlmb.c:705-716`. -/
def savePoint (par : Par F V) (opt : Opt F M V) (x : V) (f : F) (g : V) : Opt F M V :=
  let opt := saveRefs par opt
  let opt := opt.setX0 x
  let opt := opt.setG0 (if par.method = .blmvm then opt.gp else g)
  { opt with f0 := f }

/-- Case `OPK_TASK_NEW_X`, `OPK_TASK_FINAL_X` of `opk_iterate_vmlmb`, `src/vmlmb.c:603-724`. -/
def onNewX (par : Par F V) (ops : LineSearch.Ops F M) (opt : Opt F M V) (x : V) (f : F) (g : V) :
    Flow (Opt F M V) :=
  match direction par opt x g with
  | .error opt => .ret opt
  | .ok (opt, dtg) =>
    let (opt, dtg) := initialStep par opt x f g dtg
    match limitStep par opt x with
    | .error opt => .ret opt
    | .ok (opt, stpmin, stpmax) =>
      let opt := savePoint par opt x f g
      let ls := LineSearch.start ops opt.ls f dtg opt.stp stpmin stpmax
      let opt := { opt with ls := ls }
      if ls.task ≠ .search then .ret (failure opt (.ls ls.status)) else .brk opt

/-- New trial point, `src/vmlmb.c:733-741`; returns the optimizer and the new contents of `x`. -/
def trial (par : Par F V) (opt : Opt F M V) : Opt F M V × V :=
  let x := par.vs.axpby 1 opt.x0 (-opt.stp) opt.d
  match par.box with
  | none => (success opt .computeFG, x)
  | some box =>
    if opt.stp > opt.bsmin then
      match box.projvar x with
      | .error st => (failure opt (.set st), x)
      | .ok x' => (success opt .computeFG, x')
    else (success opt .computeFG, x)

/-- `opk_iterate_vmlmb`, `src/vmlmb.c:511-742`, for non `NULL` arguments: the optimizer and the new
contents of `x` (`g` is not modified). -/
def iterate (par : Par F V) (ops : LineSearch.Ops F M) (opt : Opt F M V) (x : V) (f : F) (g : V) :
    Opt F M V × V :=
  let go : Flow (Opt F M V) → Opt F M V × V := fun
    | .ret opt => (opt, x)
    | .brk opt => trial par opt
  match opt.task with
  | .computeFG => go (onFG par ops opt x f g)
  | .newX => go (onNewX par ops opt x f g)
  | .finalX => go (onNewX par ops opt x f g)
  | _ => (opt, x)

end arith

/-- `opk_get_vmlmb_mp`, `src/vmlmb.c:837-841` (`none` is `NULL`). -/
def getMp (opt : Option (Opt F M V)) : Int := match opt with | none => 0 | some o => o.mp

/-- `opk_get_vmlmb_s`, `src/vmlmb.c:843-847`. -/
def getS (par : Par F V) (opt : Option (Opt F M V)) (j : Int) : Option V :=
  match opt with
  | none => none
  | some o => if 0 ≤ j ∧ j ≤ o.mp then some (o.s (slot par o j)) else none

/-- `opk_get_vmlmb_y`, `src/vmlmb.c:849-853`. -/
def getY (par : Par F V) (opt : Option (Opt F M V)) (j : Int) : Option V :=
  match opt with
  | none => none
  | some o => if 0 ≤ j ∧ j ≤ o.mp then some (o.y (slot par o j)) else none

/-- `opk__set_vmlmb_status`, `src/vmlmb.c:798-805`. -/
def setStatus (opt : Opt F M V) (status : Status) : Opt F M V :=
  if status ≠ .success then { opt with status := status, task := .error } else { opt with status := status }

/-! ## Options and creation -/

/-- `opk_vmlmb_options`, `src/optimpack.h`. -/
structure Options (F : Type) where
  delta : F
  epsilon : F
  grtol : F
  gatol : F
  stpmin : F
  stpmax : F
  mem : Int
  blmvm : Bool
  saveMemory : Bool

/-- `opk_check_vmlmb_options`, `src/vmlmb.c:871-887`, for a non `NULL` address: whether the result is
`OPK_SUCCESS`.  `finite` is `!non_finite`. -/
def checkOptions [LT F] [LE F] [DecidableLT F] [DecidableLE F] [Zero F] [One F] (finite : F → Bool)
    (o : Options F) : Bool :=
  !(!finite o.gatol ∨ o.gatol < 0 ∨ !finite o.grtol ∨ o.grtol < 0 ∨ !finite o.delta ∨ o.delta ≤ 0 ∨
    !finite o.epsilon ∨ o.epsilon < 0 ∨ o.epsilon ≥ 1 ∨ !finite o.stpmin ∨ o.stpmin < 0 ∨
    !finite o.stpmax ∨ o.stpmax ≤ o.stpmin ∨ o.mem < 1)

/-- `opk_new_vmlmb_optimizer`, `src/vmlmb.c:237-368`, for given options, a non `NULL` space of `size`
variables, a given line search, and when memory is available: `none` is `NULL`.  `sameSpace` tells
whether the box belongs to the space.  `raw` are the contents of the new vectors (not initialized) and
of the members which are zero filled by the allocation. -/
def new [LT F] [LE F] [DecidableLT F] [DecidableLE F] [Zero F] [One F] (finite : F → Bool)
    (vs : Vs F V) (o : Options F) (size : Int) (box : Option (Cs F V)) (sameSpace : Bool)
    (ls : LineSearch.Ls F M) (raw : Opt F M V) : Option (Par F V × Opt F M V) :=
  if !checkOptions finite o then none
  else if size < 1 ∨ o.mem < 1 then none
  else if box.isSome ∧ !sameSpace then none
  else
    let method := match box with | none => .lbfgs | some _ => if o.blmvm then .blmvm else .vmlmb
    some ({ vs := vs, box := box, method := method, delta := o.delta, epsilon := o.epsilon,
            grtol := o.grtol, gatol := o.gatol, stpmin := o.stpmin, stpmax := o.stpmax,
            saveMemory := o.saveMemory, m := if o.mem > size then size else o.mem },
          failure { raw with
            gamma := 1, ls := ls, x0ref := none, g0ref := none, mp := 0, updates := 0, evaluations := 0,
            iterations := 0, restarts := 0, ginit := 0, f0 := 0, gnorm := 0, stp := 0, bsmin := 0,
            alpha := fun _ => 0, rho := fun _ => 0 } .notStarted)

/-! ## Sessions -/

/-- The optimizer and the variables, function value and gradient of the caller. -/
structure Sess (F M V : Type) where
  opt : Opt F M V
  x : V
  f : F
  g : V

section sess
variable [Add F] [Sub F] [Mul F] [Div F] [Neg F] [Zero F] [One F]
  [LT F] [LE F] [DecidableLT F] [DecidableLE F] [BEq F] [CMath F]

/-- The caller starts with the variables `x`. -/
def Sess.begin (par : Par F V) (opt : Opt F M V) (x : V) (f : F) (g : V) : Sess F M V :=
  let r := start par opt x
  { opt := r.1, x := r.2, f := f, g := g }

/-- The caller has computed the function value and the gradient. -/
def Sess.reply (par : Par F V) (ops : LineSearch.Ops F M) (s : Sess F M V) (f : F) (g : V) : Sess F M V :=
  let r := iterate par ops s.opt s.x f g
  { opt := r.1, x := r.2, f := f, g := g }

/-- The caller calls `opk_iterate` again with the same data. -/
def Sess.next (par : Par F V) (ops : LineSearch.Ops F M) (s : Sess F M V) : Sess F M V :=
  let r := iterate par ops s.opt s.x s.f s.g
  { s with opt := r.1, x := r.2 }

end sess

end Opk.Vmlmb
