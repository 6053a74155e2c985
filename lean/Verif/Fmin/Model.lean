import Verif.Arith.Model
import Mathlib.Logic.Function.Iterate
/-!
# Minimization of an univariate function: `src/fmin.c`

Points belong to any type `F` with the C operators and no NaN; values of the function belong to any type `Y` with its comparisons, which may
have infinite and NaN values.  The function is called with the number of previous calls as an additional argument: it may
return anything.  The number of evaluations is not bounded by the largest `long` integer.
-/
namespace Opk.Fmin

/-- Values of the function: comparisons of C, which may be all false, and `FMIN_INFINITY`, `src/fmin.c:60`. -/
class Value (Y : Type) where
  gt : Y → Y → Bool
  ge : Y → Y → Bool
  eq : Y → Y → Bool
  inf : Y

/-- `OPK_FMIN_BOUNDED_BY_A`, `src/optimpack.h:2177`. -/
def BOUNDED_BY_A : Nat := 1
/-- `OPK_FMIN_BOUNDED_BY_B`, `src/optimpack.h:2178`. -/
def BOUNDED_BY_B : Nat := 2
/-- `OPK_FMIN_SMOOTH`, `src/optimpack.h:2179`. -/
def SMOOTH : Nat := 4

variable {F Y : Type}

section arith
variable [Add F] [Sub F] [Mul F] [Zero F] [LT F] [LE F] [DecidableLT F] [DecidableLE F] [DecidableEq F] [CMath F]

/-- `FMIN_ALPHA`, `src/fmin.c:73`. -/
def ALPHA : F := lit 381966011250105151795413165634362 1000000000000000000000000000000000
/-- `FMIN_GAMMA`, `src/fmin.c:77`. -/
def GAMMA : F := lit 161803398874989484820458683436564 100000000000000000000000000000000

/-- `FMIN_ALPHA*(q - p) + p` -/
def interp (p q : F) : F := ALPHA * (q - p) + p
/-- `FMIN_GAMMA*(q - p) + q` -/
def extrap (p q : F) : F := GAMMA * (q - p) + q

/-- The test of convergence, `src/fmin.c:344-349`, `src/fmin.c:531-535`. -/
def converged (prec u v w : F) : Bool :=
  let r := fabs u
  let t := fabs v
  let r := if t > r then t else r
  let t := fabs w
  let r := if t > r then t else r
  decide (fabs (w - v) ≤ prec * r)

/-! ## `opk_fmin`, `opk_fmin_with_context` -/

/-- What remains to be done: the `while` loop, the `for` loop or nothing (`status` is to be returned). -/
inductive Phase where
  | bracket
  | reduce
  | done (status : Int)
  deriving DecidableEq

/-- Local variables of `opk_fmin`; `log` is the list of the calls to the function with the values (not in the code). -/
structure Run (F Y : Type) where
  u : F
  fu : Y
  v : F
  fv : Y
  w : F
  fw : Y
  nevals : Int
  phase : Phase
  log : List (F × Y)

variable [Value Y]

/-- Evaluation of the function at `x`: the value and the new log. -/
def call (f : Nat → F → Y) (log : List (F × Y)) (x : F) : Y × List (F × Y) :=
  let y := f log.length x
  (y, log ++ [(x, y)])

/-- Beginning of `opk_fmin`, `src/fmin.c:479-513`. -/
def enter (f : Nat → F → Y) (a b : F) (flags : Nat) : Run F Y :=
  let nevals : Int := 0
  let log : List (F × Y) := []
  let u := a
  let (fu, nevals, log) :=
    if flags &&& BOUNDED_BY_A = 0 then
      let r := call f log u
      (r.1, nevals + 1, r.2)
    else (Value.inf, nevals, log)
  let w := b
  let (fw, nevals, log) :=
    if flags &&& BOUNDED_BY_B = 0 then
      let r := call f log w
      (r.1, nevals + 1, r.2)
    else (Value.inf, nevals, log)
  let (u, fu, w, fw) := if Value.gt fw fu then (w, fw, u, fu) else (u, fu, w, fw)
  let v := interp u w
  let r := call f log v
  { u := u, fu := fu, v := v, fv := r.1, w := w, fw := fw, nevals := nevals + 1, phase := .bracket, log := r.2 }

/-- Update of the interval, `src/fmin.c:358-370`, `src/fmin.c:556-568`: new `(u, fu, v, fv, w, fw)`. -/
def narrow (u : F) (fu : Y) (v : F) (fv : Y) (w : F) (fw : Y) (x : F) (fx : Y) : F × Y × F × Y × F × Y :=
  if Value.gt fx fv ∨ (Value.eq fx fv ∧ Value.ge fu fw) then (x, fx, v, fv, u, fu)
  else (v, fv, x, fx, w, fw)

/-- One iteration of the loops of `opk_fmin`, `src/fmin.c:514-569`. -/
def step (f : Nat → F → Y) (maxeval : Int) (prec : F) (s : Run F Y) : Run F Y :=
  match s.phase with
  | .bracket =>
    if Value.gt s.fv s.fw then
      if maxeval > 0 ∧ s.nevals ≥ maxeval then { s with phase := .done 2 }
      else
        let u := s.v
        let fu := s.fv
        let v := s.w
        let fv := s.fw
        let w := extrap u v
        let r := call f s.log w
        { u := u, fu := fu, v := v, fv := fv, w := w, fw := r.1, nevals := s.nevals + 1, phase := .bracket, log := r.2 }
    else { s with phase := .reduce }
  | .reduce =>
    if converged prec s.u s.v s.w then { s with phase := .done 0 }
    else if maxeval > 0 ∧ s.nevals ≥ maxeval then { s with phase := .done 1 }
    else
      let x := interp s.v s.w
      let r := call f s.log x
      let t := narrow s.u s.fu s.v s.fv s.w s.fw x r.1
      { u := t.1, fu := t.2.1, v := t.2.2.1, fv := t.2.2.2.1, w := t.2.2.2.2.1, fw := t.2.2.2.2.2, nevals := s.nevals + 1, phase := .reduce, log := r.2 }
  | .done _ => s

/-- The state of `opk_fmin` after `k` iterations of the loops; `sqrtEps` is the default precision. -/
def after (f : Nat → F → Y) (a b : F) (flags : Nat) (maxeval : Int) (prec sqrtEps : F) (k : Nat) : Run F Y :=
  (step f maxeval (if prec < 0 then sqrtEps else prec))^[k] (enter f a b flags)

/-- The array `out`. -/
structure Out (F Y : Type) where
  xmin : F
  xlo : F
  xhi : F
  fmin : Y
  flo : Y
  fhi : Y
  nevals : Int

/-- `src/fmin.c:572-589`. -/
def output (s : Run F Y) : Out F Y :=
  if s.u > s.w then { xmin := s.v, xlo := s.w, xhi := s.u, fmin := s.fv, flo := s.fw, fhi := s.fu, nevals := s.nevals }
  else { xmin := s.v, xlo := s.u, xhi := s.w, fmin := s.fv, flo := s.fu, fhi := s.fw, nevals := s.nevals }

/-- `opk_fmin` returns `status`, having stored `out`, if any, and made the evaluations `log`. -/
def Returns (f : Nat → F → Y) (a b : F) (flags : Nat) (maxeval : Int) (prec sqrtEps : F) (status : Int) (out : Option (Out F Y))
    (log : List (F × Y)) : Prop :=
  if a = b then status = -1 ∧ out = none ∧ log = []
  else ∃ k s, after f a b flags maxeval prec sqrtEps k = s ∧ s.phase = .done status ∧ out = some (output s) ∧ log = s.log

/-- The evaluation `(x, y)` is made by `opk_fmin` at some time, whether the function returns or not. -/
def Evaluates (f : Nat → F → Y) (a b : F) (flags : Nat) (maxeval : Int) (prec sqrtEps : F) (p : F × Y) : Prop :=
  a ≠ b ∧ ∃ k, p ∈ (after f a b flags maxeval prec sqrtEps k).log

/-! ## Reverse communication -/

/-- `opk_fmin_task`, `src/optimpack.h:2182-2188`. -/
inductive Task where
  | error | start | fx | newx | convergence
  deriving DecidableEq, Repr

/-- `opk_fmin_context`, `src/fmin.c:79-87`; uninitialised members have any value. -/
structure Ctx (F Y : Type) where
  a : F
  b : F
  u : F
  fu : Y
  v : F
  fv : Y
  w : F
  fw : Y
  x : F
  prec : F
  nevals : Int
  flags : Nat
  status : Task
  stage : Nat

/-- `opk_status` -/
inductive Status where
  | success | illegalAddress | invalidArgument
  deriving DecidableEq, Repr

/-- `opk_fmin_new`, `src/fmin.c:99-110`, when memory is available; `zero` is the value of the function whose bits are all zero. -/
def new (sqrtEps : F) (zero : Y) : Ctx F Y :=
  { a := 0, b := 0, u := 0, fu := zero, v := 0, fv := zero, w := 0, fw := zero, x := 0, prec := sqrtEps, nevals := 0, flags := 0, status := .error, stage := 0 }

/-- `opk_fmin_set_precision`, `src/fmin.c:120-131`. -/
def setPrecision (ctx : Ctx F Y) (prec : F) : Status × Ctx F Y :=
  if prec < 0 then (.invalidArgument, ctx) else (.success, { ctx with prec := prec })

/-- `opk_fmin_start`, `src/fmin.c:157-175`. -/
def start (ctx : Ctx F Y) (a b : F) (flags : Nat) : Status × Ctx F Y :=
  if a = b then (.invalidArgument, ctx)
  else (.success, { ctx with a := a, b := b, nevals := 0, flags := flags &&& (BOUNDED_BY_A ||| BOUNDED_BY_B ||| SMOOTH), stage := 0, status := .start })

/-- `_EVAL_o`, `src/fmin.c:268-274`: ask for the value of the function at `ctx.x`. -/
def ask (ctx : Ctx F Y) (stage : Nat) : Ctx F Y := { ctx with stage := stage, status := .fx }

/-- The loop of `src/fmin.c:342-371` from its beginning. -/
def goReduce (ctx : Ctx F Y) : Ctx F Y :=
  if converged ctx.prec ctx.u ctx.v ctx.w then { ctx with status := .convergence }
  else ask { ctx with x := interp ctx.v ctx.w } 5

/-- From the test of the loop of `src/fmin.c:334-340`. -/
def goBracket (ctx : Ctx F Y) : Ctx F Y :=
  if Value.gt ctx.fv ctx.fw then
    let ctx := { ctx with u := ctx.v, fu := ctx.fv, v := ctx.w, fv := ctx.fw }
    ask { ctx with x := extrap ctx.u ctx.v, w := extrap ctx.u ctx.v } 4
  else goReduce ctx

/-- `src/fmin.c:323-331`. -/
def goV (ctx : Ctx F Y) : Ctx F Y :=
  let ctx := if Value.gt ctx.fw ctx.fu then { ctx with u := ctx.w, w := ctx.u, fu := ctx.fw, fw := ctx.fu } else ctx
  ask { ctx with x := interp ctx.u ctx.w, v := interp ctx.u ctx.w } 3

/-- `src/fmin.c:312-318`. -/
def goW (ctx : Ctx F Y) : Ctx F Y :=
  if ctx.flags &&& BOUNDED_BY_B ≠ 0 then goV { ctx with w := ctx.b, fw := Value.inf }
  else ask { ctx with x := ctx.b, w := ctx.b } 2

/-- `src/fmin.c:304-310`. -/
def goU (ctx : Ctx F Y) : Ctx F Y :=
  if ctx.flags &&& BOUNDED_BY_A ≠ 0 then goW { ctx with u := ctx.a, fu := Value.inf }
  else ask { ctx with x := ctx.a, u := ctx.a } 1

/-- The end of the body of the loop, `src/fmin.c:356-371`, with the value of the function. -/
def resume5 (ctx : Ctx F Y) (fx : Y) : Ctx F Y :=
  let t := narrow ctx.u ctx.fu ctx.v ctx.fv ctx.w ctx.fw ctx.x fx
  goReduce { ctx with u := t.1, fu := t.2.1, v := t.2.2.1, fv := t.2.2.2.1, w := t.2.2.2.2.1, fw := t.2.2.2.2.2 }

/-- `opk_fmin_next`, `src/fmin.c:233-390`, for non `NULL` addresses; `x` is the value of the variable of the caller.  The value of the variable
after the call is `ctx.x` if the status is `OPK_FMIN_FX`; it is not modified otherwise. -/
def next (ctx : Ctx F Y) (x : F) (fx : Y) : Ctx F Y :=
  if ctx.status = .fx ∨ ctx.status = .convergence then
    if x ≠ ctx.x then { ctx with status := .error }
    else
      let ctx' := { ctx with nevals := ctx.nevals + 1 }
      match ctx.stage with
      | 1 => goW { ctx' with fu := fx }
      | 2 => goV { ctx' with fw := fx }
      | 3 => goBracket { ctx' with fv := fx }
      | 4 => goBracket { ctx' with fw := fx }
      | 5 => resume5 ctx' fx
      | _ => { ctx with status := .error }
  else if ctx.status ≠ .start then { ctx with status := .error }
  else goU ctx

/-- `opk_fmin_get_final`, `src/fmin.c:198-223`, with all addresses non `NULL`: the status and the values which are stored. -/
def getFinal (ctx : Ctx F Y) : Status × Option (Out F Y) :=
  if ctx.status = .error then (.invalidArgument, none)
  else if ctx.u > ctx.w then
    (.success, some { xmin := ctx.v, xlo := ctx.w, xhi := ctx.v, fmin := ctx.fv, flo := ctx.fw, fhi := ctx.fv, nevals := ctx.nevals })
  else
    (.success, some { xmin := ctx.v, xlo := ctx.v, xhi := ctx.w, fmin := ctx.fv, flo := ctx.fv, fhi := ctx.fw, nevals := ctx.nevals })

/-- A caller of `opk_fmin_next` which computes the function when it is asked for, until another answer: the context and the
evaluations which have been made after `k` calls following the first one. -/
def drive (f : Nat → F → Y) (ctx : Ctx F Y) (log : List (F × Y)) : Nat → Ctx F Y × List (F × Y)
  | 0 => (ctx, log)
  | k + 1 =>
    if ctx.status = .fx then
      let r := call f log ctx.x
      drive f (next ctx ctx.x r.1) r.2 k
    else (ctx, log)

/-- The first call to `opk_fmin_next` (the values of the variables of the caller do not matter) then `k` calls. -/
def reverse (f : Nat → F → Y) (ctx : Ctx F Y) (x : F) (fx : Y) (k : Nat) : Ctx F Y × List (F × Y) := drive f (next ctx x fx) [] k

end arith
end Opk.Fmin
