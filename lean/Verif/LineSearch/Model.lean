import Verif.Arith.Model
/-!
# Line searches: `src/lnsrch.c`

`F` is the type `double`, with any arithmetic.
-/
namespace Opk.LineSearch

/-- Status codes which occur here, `src/optimpack.h:286-326`. -/
inductive Status where
  | success | illegalAddress | notStarted | notADescent | stepChanged | stepOutsideBracket
  | stpminGtStpmax | stpminLtZero | stepLtStpmin | stepGtStpmax | xtolTestSatisfied
  | stepEqStpmax | stepEqStpmin | roundingErrorsPreventProgress | corruptedWorkspace
  deriving DecidableEq, Repr

/-- `opk_lnsrch_task`, `src/optimpack.h:1165-1170`. -/
inductive Task where
  | error | search | convergence | warning
  deriving DecidableEq, Repr

/-- Numerical values of the tasks. -/
def Task.code : Task → Int
  | .error => -1
  | .search => 0
  | .convergence => 1
  | .warning => 2

/-- `OPK_ILLEGAL_ADDRESS`. -/
def ILLEGAL_ADDRESS : Int := 3

/-- `opk_lnsrch_`, `src/optimpack-private.h:451-464`; `M` are the members of the sub-type.
(Member `searching` is never used.) -/
structure Ls (F M : Type) where
  stp : F
  stpmin : F
  stpmax : F
  finit : F
  ginit : F
  status : Status
  task : Task
  m : M

variable {F M : Type}

/-- `failure`, `src/lnsrch.c:61-67`. -/
def failure (ls : Ls F M) (status : Status) : Ls F M := { ls with status := status, task := .error }
/-- `warning`, `src/lnsrch.c:69-75`. -/
def warn (ls : Ls F M) (status : Status) : Ls F M := { ls with status := status, task := .warning }
/-- `success`, `src/lnsrch.c:77-83`. -/
def succeed (ls : Ls F M) (task : Task) : Ls F M := { ls with status := .success, task := task }

/-- `opk_lnsrch_operations`, `src/optimpack-private.h:466-493`: the methods return the new
contents of the structure and, for `iterate`, the new value at `stp_ptr`. -/
structure Ops (F M : Type) where
  start : Ls F M → Ls F M
  iterate : Ls F M → F → F → F → Ls F M × F
  useDeriv : Bool

section generic
variable [Zero F] [Neg F] [One F] [LT F] [LE F] [DecidableLT F] [DecidableLE F] [BEq F]

/-- `opk_lnsrch_start`, `src/lnsrch.c:124-152`, for a non `NULL` line search. -/
def start (ops : Ops F M) (ls : Ls F M) (f0 g0 stp stpmin stpmax : F) : Ls F M :=
  if stpmin < 0 then failure ls .stpminLtZero
  else if stpmin > stpmax then failure ls .stpminGtStpmax
  else if stp < stpmin then failure ls .stepLtStpmin
  else if stp > stpmax then failure ls .stepGtStpmax
  else if g0 ≥ 0 then failure ls .notADescent
  else ops.start { ls with stp := stp, stpmin := stpmin, stpmax := stpmax, finit := f0, ginit := g0 }

/-- `opk_lnsrch_start`, returned value, `NULL` line search included (lines 128-130). -/
def startCode (ops : Ops F M) (ls : Option (Ls F M)) (f0 g0 stp stpmin stpmax : F) : Int :=
  match ls with
  | none => ILLEGAL_ADDRESS
  | some ls => (start ops ls f0 g0 stp stpmin stpmax).task.code

/-- Local variable `bound` of `opk_lnsrch_iterate`, `src/lnsrch.c:169-175`. -/
def boundOf (ls : Ls F M) : Int :=
  if ls.stp ≤ ls.stpmin then -1
  else if ls.stp ≥ ls.stpmax then 1
  else 0

/-- The end of `opk_lnsrch_iterate`, `src/lnsrch.c:177-189`. -/
def finish (bound : Int) (ls : Ls F M) (stp : F) : Ls F M × F :=
  if stp ≤ ls.stpmin then
    ({ (if bound < 0 then warn ls .stepEqStpmin else ls) with stp := ls.stpmin }, ls.stpmin)
  else if stp ≥ ls.stpmax then
    ({ (if bound > 0 then warn ls .stepEqStpmax else ls) with stp := ls.stpmax }, ls.stpmax)
  else ({ ls with stp := stp }, stp)

/-- `opk_lnsrch_iterate`, `src/lnsrch.c:154-190`, for non `NULL` arguments; `stp` is the value at
`stp_ptr` on entry; the result is the new structure and the value at `stp_ptr` on exit. -/
def iterate (ops : Ops F M) (ls : Ls F M) (stp f1 g1 : F) : Ls F M × F :=
  if ls.task ≠ .search then (failure ls .notStarted, stp)
  else if !(stp == ls.stp) then (failure ls .stepChanged, stp)
  else
    let r := ops.iterate ls stp f1 g1
    finish (boundOf ls) r.1 r.2

/-- `opk_lnsrch_iterate`, returned value, `NULL` arguments included (lines 160-162). -/
def iterateCode (ops : Ops F M) (ls : Option (Ls F M)) (stp : Option F) (f1 g1 : F) : Int :=
  match ls, stp with
  | some ls, some stp => (iterate ops ls stp f1 g1).1.task.code
  | _, _ => ILLEGAL_ADDRESS

/-- `opk_lnsrch_get_step`, `src/lnsrch.c:192-196`. -/
def getStep (ls : Option (Ls F M)) : F :=
  match ls with
  | some ls => if ls.task = .search then ls.stp else -1
  | none => -1

/-- `opk_lnsrch_get_task`, `src/lnsrch.c:198-202`. -/
def getTask (ls : Option (Ls F M)) : Task :=
  match ls with
  | some ls => ls.task
  | none => .error

/-- `opk_lnsrch_get_status`, `src/lnsrch.c:204-208`. -/
def getStatus (ls : Option (Ls F M)) : Status :=
  match ls with
  | some ls => ls.status
  | none => .illegalAddress

/-- `opk_lnsrch_has_errors`, `src/lnsrch.c:210-214`. -/
def hasErrors (ls : Option (Ls F M)) : Bool := getTask ls = .error
/-- `opk_lnsrch_has_warnings`, `src/lnsrch.c:216-220`. -/
def hasWarnings (ls : Option (Ls F M)) : Bool := getTask ls = .warning
/-- `opk_lnsrch_converged`, `src/lnsrch.c:222-226`. -/
def converged (ls : Option (Ls F M)) : Bool := getTask ls = .convergence
/-- `opk_lnsrch_finished`, `src/lnsrch.c:228-232`. -/
def finished (ls : Option (Ls F M)) : Bool := getTask ls ≠ .search

end generic

/-! ## Armijo's line search -/

/-- Members of `backtrack_lnsrch`, `src/lnsrch.c:243-247`. -/
structure Backtrack (F : Type) where
  ftol : F
  amin : F

section methods
variable [Add F] [Sub F] [Mul F] [Div F] [Neg F] [Zero F] [One F]
  [LT F] [LE F] [DecidableLT F] [DecidableLE F] [BEq F] [CMath F]

/-- `backtrack_start`, `src/lnsrch.c:249-253`. -/
def backtrackStart (ls : Ls F (Backtrack F)) : Ls F (Backtrack F) := succeed ls .search

/-- New step of `backtrack_iterate`, `src/lnsrch.c:268-290`. -/
def backtrackTrial (ls : Ls F (Backtrack F)) (stp f : F) : F :=
  let stp' :=
    if ls.m.amin ≥ lit 1 2 then stp * lit 1 2
    else
      let q := -stp * ls.ginit
      let r := (f - (ls.finit - q)) * lit 2 1
      if r ≤ 0 then stp * lit 1 2
      else if q ≤ ls.m.amin * r then stp * ls.m.amin
      else stp * (q / r)
  if stp' < ls.stpmin then ls.stpmin else stp'

/-- `backtrack_iterate`, `src/lnsrch.c:255-294`. -/
def backtrackIterate (ls : Ls F (Backtrack F)) (stp f _g : F) : Ls F (Backtrack F) × F :=
  if f ≤ ls.finit + ls.m.ftol * stp * ls.ginit then (succeed ls .convergence, stp)
  else if stp ≤ ls.stpmin then (warn ls .stepEqStpmin, stp)
  else (succeed ls .search, backtrackTrial ls stp f)

/-- `backtrack_operations`, `src/lnsrch.c:296-301`. -/
def backtrackOps : Ops F (Backtrack F) := ⟨backtrackStart, backtrackIterate, false⟩

/-- A line search just allocated: `opk_allocate_line_search`, `src/lnsrch.c:98-120` (the other
members are not initialized, hence arbitrary: `raw`). -/
def allocated (raw : Ls F M) : Ls F M := { raw with status := .notStarted, task := .error }

/-- `opk_lnsrch_new_backtrack`, `src/lnsrch.c:303-322` (`none` is `NULL`; when memory is available). -/
def newBacktrack (raw : Ls F Unit) (ftol amin : F) : Option (Ls F (Backtrack F)) :=
  if ftol ≤ 0 ∨ ftol > lit 1 2 ∨ amin ≤ 0 ∨ amin ≥ 1 then none
  else some (allocated { raw with m := ⟨ftol, amin⟩ })

/-! ## Nonmonotone line search -/

/-- Members of `nonmonotone_lnsrch`, `src/lnsrch.c:328-337`.  `fsav` is the array of `m` values
(initially arbitrary). -/
structure Nonmonotone (F : Type) where
  sigma1 : F
  sigma2 : F
  ftol : F
  fmax : F
  fsav : Nat → F
  m : Nat
  mp : Nat

/-- The loop of lines 351-355: `n - 1` iterations, from `j = 1`. -/
def maxLoop (fsav : Nat → F) : Nat → F → F
  | 0, fmax => fmax
  | j + 1, fmax =>
    let fmax := maxLoop fsav j fmax
    if fsav (j + 1) > fmax then fsav (j + 1) else fmax

/-- `nonmonotone_start`, `src/lnsrch.c:339-358`. -/
def nonmonotoneStart (ls : Ls F (Nonmonotone F)) : Ls F (Nonmonotone F) :=
  let k := ls.m.mp % ls.m.m
  let fsav := fun j => if j = k then ls.finit else ls.m.fsav j
  let mp := ls.m.mp + 1
  let n := if mp ≤ ls.m.m then mp else ls.m.m
  let fmax := maxLoop fsav (n - 1) (fsav 0)
  succeed { ls with m := { ls.m with fsav := fsav, mp := mp, fmax := fmax } } .search

/-- New step of `nonmonotone_iterate`, `src/lnsrch.c:387-401`. -/
def nonmonotoneTrial (ls : Ls F (Nonmonotone F)) (alpha f : F) : F :=
  let delta := ls.ginit
  let q := -delta * alpha * alpha
  let r := (f - ls.finit - alpha * delta) * lit 2 1
  let alpha :=
    if r > 0 ∧ ls.m.sigma1 * r ≤ q ∧ q ≤ ls.m.sigma2 * alpha * r then q / r
    else (alpha + ls.stpmin) / lit 2 1
  cmax alpha ls.stpmin

/-- `nonmonotone_iterate`, `src/lnsrch.c:369-410`. -/
def nonmonotoneIterate (ls : Ls F (Nonmonotone F)) (stp f _g : F) : Ls F (Nonmonotone F) × F :=
  if f ≤ ls.m.fmax + ls.m.ftol * stp * ls.ginit then (succeed ls .convergence, stp)
  else if stp ≤ ls.stpmin then (warn ls .stepEqStpmin, ls.stpmin)
  else if nonmonotoneTrial ls stp f ≤ 0 then
    (warn ls .stepEqStpmin, nonmonotoneTrial ls stp f)
  else (succeed ls .search, nonmonotoneTrial ls stp f)

/-- `nonmonotone_operations`, `src/lnsrch.c:412-417`. -/
def nonmonotoneOps : Ops F (Nonmonotone F) := ⟨nonmonotoneStart, nonmonotoneIterate, false⟩

/-- `opk_lnsrch_new_nonmonotone`, `src/lnsrch.c:419-447`.  `finite` is `!non_finite`; the code
tests `sigma1` twice and never `sigma2`. -/
def newNonmonotone (finite : F → Bool) (raw : Ls F (Nonmonotone F)) (m : Int)
    (ftol sigma1 sigma2 : F) : Option (Ls F (Nonmonotone F)) :=
  if !finite ftol ∨ !finite sigma1 ∨ !finite sigma1 ∨ ftol ≤ 0 ∨ sigma1 ≤ 0 ∨ sigma1 ≥ sigma2 ∨
      sigma2 ≥ 1 ∨ m < 1 then none
  else some (allocated { raw with
    m := { raw.m with ftol := ftol, sigma1 := sigma1, sigma2 := sigma2, m := m.toNat, mp := 0 } })

/-! ## Moré and Thuente cubic line search -/

/-- End points of the interval of search with the values of the function and of the derivative,
and the flag `brackt`. -/
structure Bracket (F : Type) where
  stx : F
  fx : F
  dx : F
  sty : F
  fy : F
  dy : F
  brackt : Bool

/-- `max3`, `src/lnsrch.c:816-822`. -/
def max3 (val1 val2 val3 : F) : F :=
  let result := val1
  let result := if val2 > result then val2 else result
  if val3 > result then val3 else result

/-- The factor `gamma` (before its sign is set) which is computed in the same way in the cases 1, 2
and 4 of `opk_cstep`, `src/lnsrch.c:952-954`, `973-975`, `1048-1050`. -/
def cubicGamma (theta d1 d2 : F) : F :=
  let s := max3 (fabs theta) (fabs d1) (fabs d2)
  let temp := theta / s
  s * sqrt (temp * temp - (d1 / s) * (d2 / s))

/-- First case of `opk_cstep`: a higher function value, `src/lnsrch.c:945-965`. -/
def cstep1 (stx fx dx stp fp dp : F) : F :=
  let theta := lit 3 1 * (fx - fp) / (stp - stx) + dx + dp
  let gamma := cubicGamma theta dx dp
  let gamma := if stp < stx then -gamma else gamma
  let p := (gamma - dx) + theta
  let q := ((gamma - dx) + gamma) + dp
  let r := p / q
  let stpc := stx + r * (stp - stx)
  let stpq := stx + ((dx / ((fx - fp) / (stp - stx) + dx)) / lit 2 1) * (stp - stx)
  if fabs (stpc - stx) < fabs (stpq - stx) then stpc else stpc + (stpq - stpc) / lit 2 1

/-- Second case of `opk_cstep`: a lower function value and derivatives of opposite signs,
`src/lnsrch.c:966-986`. -/
def cstep2 (stx fx dx stp fp dp : F) : F :=
  let theta := lit 3 1 * (fx - fp) / (stp - stx) + dx + dp
  let gamma := cubicGamma theta dx dp
  let gamma := if stp > stx then -gamma else gamma
  let p := (gamma - dp) + theta
  let q := ((gamma - dp) + gamma) + dx
  let r := p / q
  let stpc := stp + r * (stx - stp)
  let stpq := stp + (dp / (dp - dx)) * (stx - stp)
  if fabs (stpc - stp) > fabs (stpq - stp) then stpc else stpq

/-- The factor `gamma` in the third case of `opk_cstep`, `src/lnsrch.c:995-1004`. -/
def cubicGamma3 (stx stp theta dx dp : F) : F :=
  let s := max3 (fabs theta) (fabs dx) (fabs dp)
  let temp := theta / s
  let temp := temp * temp - (dx / s) * (dp / s)
  if temp > 0 then
    let gamma := s * sqrt temp
    if stp > stx then -gamma else gamma
  else 0

/-- Third case of `opk_cstep`: a lower function value, derivatives of the same sign and the
magnitude of the derivative decreases, `src/lnsrch.c:987-1040`. -/
def cstep3 (brackt : Bool) (stx fx dx sty stp fp dp stpmin stpmax : F) : F :=
  let theta := lit 3 1 * (fx - fp) / (stp - stx) + dx + dp
  let gamma := cubicGamma3 stx stp theta dx dp
  let p := (gamma - dp) + theta
  let q := (gamma + (dx - dp)) + gamma
  let r := p / q
  let stpc :=
    if r < 0 ∧ !(gamma == 0) then stp + r * (stx - stp)
    else if stp > stx then stpmax
    else stpmin
  let stpq := stp + (dp / (dp - dx)) * (stx - stp)
  if brackt then
    let stpf := if fabs (stpc - stp) < fabs (stpq - stp) then stpc else stpq
    let temp := stp + lit 66 100 * (sty - stp)
    if (if stp > stx then stpf > temp else stpf < temp) then temp else stpf
  else
    let stpf := if fabs (stpc - stp) > fabs (stpq - stp) then stpc else stpq
    let stpf := if stpf > stpmax then stpmax else stpf
    if stpf < stpmin then stpmin else stpf

/-- Fourth case of `opk_cstep`: a lower function value, derivatives of the same sign and the
magnitude of the derivative does not decrease, `src/lnsrch.c:1041-1062`. -/
def cstep4 (brackt : Bool) (stx sty fy dy stp fp dp stpmin stpmax : F) : F :=
  if brackt then
    let theta := lit 3 1 * (fp - fy) / (sty - stp) + dy + dp
    let gamma := cubicGamma theta dy dp
    let gamma := if stp > sty then -gamma else gamma
    let p := (gamma - dp) + theta
    let q := ((gamma - dp) + gamma) + dy
    let r := p / q
    stp + r * (sty - stp)
  else if stp > stx then stpmax
  else stpmin

/-- `opk_cstep`, `src/lnsrch.c:913-1083`: status, updated interval and new step. -/
def cstep (b : Bracket F) (stp fp dp stpmin stpmax : F) : Status × Bracket F × F :=
  if b.brackt ∧ (if b.stx < b.sty then stp ≤ b.stx ∨ stp ≥ b.sty else stp ≤ b.sty ∨ stp ≥ b.stx) then
    (.stepOutsideBracket, b, stp)
  else if b.dx * (stp - b.stx) ≥ 0 then (.notADescent, b, stp)
  else if stpmin > stpmax then (.stpminGtStpmax, b, stp)
  else
    let opposite : Bool := (dp < 0 ∧ b.dx > 0) ∨ (dp > 0 ∧ b.dx < 0)
    if fp > b.fx then
      (.success, { b with sty := stp, fy := fp, dy := dp, brackt := true },
        cstep1 b.stx b.fx b.dx stp fp dp)
    else if opposite then
      (.success, { stx := stp, fx := fp, dx := dp, sty := b.stx, fy := b.fx, dy := b.dx, brackt := true },
        cstep2 b.stx b.fx b.dx stp fp dp)
    else
      (.success, { b with stx := stp, fx := fp, dx := dp },
        if fabs dp < fabs b.dx then
          cstep3 b.brackt b.stx b.fx b.dx b.sty stp fp dp stpmin stpmax
        else cstep4 b.brackt b.stx b.sty b.fy b.dy stp fp dp stpmin stpmax)

/-- Members of `csrch_lnsrch`, `src/lnsrch.c:453-481`. -/
structure Csrch (F : Type) where
  ftol : F
  gtol : F
  xtol : F
  gtest : F
  b : Bracket F
  stmin : F
  stmax : F
  width : F
  width1 : F
  stage : Nat

/-- `csrch_start`, `src/lnsrch.c:486-519`.  (`csrch_get_workspace` never fails since this method
is only reached through its own table of operations.) -/
def csrchStart (ls : Ls F (Csrch F)) : Ls F (Csrch F) :=
  let width := ls.stpmax - ls.stpmin
  succeed { ls with m := { ls.m with
    gtest := ls.m.ftol * ls.ginit
    stmin := ls.stpmin
    stmax := ls.stpmax
    width := width
    width1 := width / lit 1 2
    b := { stx := 0, fx := ls.finit, dx := ls.ginit, sty := 0, fy := ls.finit, dy := ls.ginit,
           brackt := false }
    stage := 1 } } .search

/-- Call of `opk_cstep` in `csrch_iterate`, `src/lnsrch.c:557-592`: status, interval, step. -/
def csrchCstep (c : Csrch F) (ftest stp f g : F) : Status × Bracket F × F :=
  if c.stage = 1 ∧ f ≤ c.b.fx ∧ f > ftest then
    let bm : Bracket F := { c.b with
      fx := c.b.fx - c.b.stx * c.gtest
      fy := c.b.fy - c.b.sty * c.gtest
      dx := c.b.dx - c.gtest
      dy := c.b.dy - c.gtest }
    let r := cstep bm stp (f - stp * c.gtest) (g - c.gtest) c.stmin c.stmax
    if r.1 ≠ .success then (r.1, c.b, stp)
    else (r.1, { r.2.1 with
      fx := r.2.1.fx + r.2.1.stx * c.gtest
      fy := r.2.1.fy + r.2.1.sty * c.gtest
      dx := r.2.1.dx + c.gtest
      dy := r.2.1.dy + c.gtest }, r.2.2)
  else cstep c.b stp f g c.stmin c.stmax

/-- End of `csrch_iterate`, `src/lnsrch.c:594-622`: updated data and next step, given the step
`stp` computed by `opk_cstep`. -/
def csrchNext (stpmin stpmax : F) (c : Csrch F) (stp : F) : Csrch F × F :=
  if c.b.brackt then
    let newWidth := fabs (c.b.sty - c.b.stx)
    let stp := if newWidth ≥ lit 66 100 * c.width1 then
      c.b.stx + lit 1 2 * (c.b.sty - c.b.stx) else stp
    let stmin := cmin c.b.stx c.b.sty
    let stmax := cmax c.b.stx c.b.sty
    let stp := cmin (cmax stp stpmin) stpmax
    let stp := if stp ≤ stmin ∨ stp ≥ stmax ∨ stmax - stmin ≤ c.xtol * stmax then c.b.stx else stp
    ({ c with width1 := c.width, width := newWidth, stmin := stmin, stmax := stmax }, stp)
  else
    ({ c with stmin := stp + (stp - c.b.stx) * lit 11 10
              stmax := stp + (stp - c.b.stx) * lit 4 1 }, cmin (cmax stp stpmin) stpmax)

/-- `csrch_iterate`, `src/lnsrch.c:521-626`. -/
def csrchIterate (ls : Ls F (Csrch F)) (stp f g : F) : Ls F (Csrch F) × F :=
  let c := ls.m
  let ftest := ls.finit + stp * c.gtest
  if f ≤ ftest ∧ fabs g ≤ -c.gtol * ls.ginit then (succeed ls .convergence, stp)
  else if stp == ls.stpmin ∧ (f > ftest ∨ g ≥ c.gtest) then (warn ls .stepEqStpmin, stp)
  else if stp == ls.stpmax ∧ f ≤ ftest ∧ g ≤ c.gtest then (warn ls .stepEqStpmax, stp)
  else if c.b.brackt ∧ c.stmax - c.stmin ≤ c.xtol * c.stmax then (warn ls .xtolTestSatisfied, stp)
  else if c.b.brackt ∧ (stp ≤ c.stmin ∨ stp ≥ c.stmax) then
    (warn ls .roundingErrorsPreventProgress, stp)
  else
    let c := if c.stage = 1 ∧ f ≤ ftest ∧ g ≥ 0 then { c with stage := 2 } else c
    let r := csrchCstep c ftest stp f g
    let c := { c with b := r.2.1 }
    if r.1 ≠ .success then (failure { ls with m := c } r.1, stp)
    else
      let n := csrchNext ls.stpmin ls.stpmax c r.2.2
      (succeed { ls with m := n.1 } .search, n.2)

/-- `csrch_operations`, `src/lnsrch.c:628-633`. -/
def csrchOps : Ops F (Csrch F) := ⟨csrchStart, csrchIterate, true⟩

/-- `opk_lnsrch_new_csrch`, `src/lnsrch.c:646-676`. -/
def newCsrch (raw : Ls F (Csrch F)) (ftol gtol xtol : F) : Option (Ls F (Csrch F)) :=
  if ftol < 0 then none
  else if gtol < 0 then none
  else if xtol < 0 then none
  else some (allocated { raw with
    m := { raw.m with ftol := ftol, gtol := gtol, xtol := xtol, stage := 0 } })

end methods

/-! ## Sessions -/

section session
variable [Zero F] [LT F] [LE F] [DecidableLT F] [DecidableLE F] [BEq F]

/-- Arguments of `opk_lnsrch_start`. -/
structure Args (F : Type) where
  f0 : F
  g0 : F
  stp : F
  stpmin : F
  stpmax : F

/-- A call made by the user: a new search, or an iteration with some step (it should be the
current one), function value and derivative. -/
inductive Call (F : Type) where
  | start (a : Args F)
  | iterate (stp f g : F)

/-- Effect of a call. -/
def call (ops : Ops F M) (ls : Ls F M) : Call F → Ls F M
  | .start a => start ops ls a.f0 a.g0 a.stp a.stpmin a.stpmax
  | .iterate stp f g => (iterate ops ls stp f g).1

/-- Any history of calls. -/
def calls (ops : Ops F M) : Ls F M → List (Call F) → Ls F M
  | ls, [] => ls
  | ls, c :: cs => calls ops (call ops ls c) cs

/-- Iterations with the function values and derivatives of a list, until the search stops. -/
def search (ops : Ops F M) : Ls F M → List (F × F) → Ls F M
  | ls, [] => ls
  | ls, (f, g) :: l =>
    if ls.task = .search then search ops (iterate ops ls ls.stp f g).1 l else ls

/-- The same for a given function: iterations with the function value and derivative computed by
`phi` for the current step, until the search stops or `n` iterations have been made. -/
def drive (ops : Ops F M) (phi : F → F × F) : Nat → Ls F M → Ls F M
  | 0, ls => ls
  | n + 1, ls =>
    if ls.task = .search then
      drive ops phi n (iterate ops ls ls.stp (phi ls.stp).1 (phi ls.stp).2).1
    else ls

end session
end Opk.LineSearch
