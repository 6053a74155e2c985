import Verif.Linalg.Model
/-!
# Linear conjugate gradients: `src/lcg.c`

The arrays `p, q, r, x, z` of `n` numbers are in the same memory (they may overlap as far as the
model is concerned); the array `rho` is apart.  The calls to the level 1 linear algebra routines
are those of the model of `src/linalg.c`.  The single and double precision versions are the same
text, `F` being the type of the numbers.
-/
namespace Opk.Lcg
open Linalg (Mem put forUp)

/-- `opk_cg_state`, `src/optimpack-linalg.h:968-979`; `other` is any other integer. -/
inductive State where
  | error | start | restart | newx | precond | ap | finish | nonConvex | truncated
  | other (value : Int)
  deriving DecidableEq, Repr

/-- The number of variables and the addresses of the arrays (`z` may be `NULL`). -/
structure Arrays where
  n : Int
  p : Int
  q : Int
  r : Int
  x : Int
  z : Option Int

/-- The array `rho` (the last element is only used by `opk_dtrcg`). -/
structure Rho (F : Type) where
  r0 : F
  r1 : F
  r2 : F
  r3 : F
  r4 : F

/-- What the functions may modify: the memory, `rho` and `*state`. -/
structure Cg (F : Type) where
  mem : Mem F
  rho : Rho F
  state : State

variable {F : Type} [Add F] [Sub F] [Mul F] [Div F] [Neg F] [Zero F] [One F] [DecidableEq F]
variable [LT F] [LE F] [DecidableLT F] [DecidableLE F]

/-- From `case OPK_CG_PRECOND`, with `z` the address of the preconditioned residuals; the text is the
same in `OPK_PLCG`, `src/lcg.c:107-131`, and in `OPK_TRCG`, `src/lcg.c:259-283`. -/
def direction (A : Arrays) (z : Int) (s : Cg F) : Cg F :=
  let rho := { s.rho with r1 := Linalg.dot A.n A.r 1 z 1 s.mem }
  if rho.r1 ≤ 0 then
    { s with rho := rho, state := if rho.r1 < 0 then .nonConvex else .finish }
  else if rho.r0 > 0 then
    let beta := rho.r1 / rho.r0
    let mem := forUp 0 A.n 1 (fun i m => put m (A.p + i) (m (z + i) + beta * m (A.p + i))) s.mem
    { mem := mem, rho := { rho with r3 := beta }, state := .ap }
  else
    let beta := 0
    { mem := Linalg.copy A.n z 1 A.p 1 s.mem, rho := { rho with r3 := beta }, state := .ap }

/-- `OPK_PLCG`, `src/lcg.c:67-178`.  Undefined (`none`) if `z` is `NULL` in state `OPK_CG_PRECOND`. -/
def plcg (A : Arrays) (s : Cg F) : Option (Cg F) :=
  match s.state with
  | .start =>
    some { mem := Linalg.zero A.n A.x 1 s.mem, rho := { s.rho with r0 := 0, r1 := 0, r2 := 0, r3 := 0 }, state := .newx }
  | .restart =>
    some { mem := Linalg.copy A.n A.x 1 A.p 1 s.mem, rho := { s.rho with r0 := 0, r1 := 0, r2 := 0, r3 := 0 }, state := .ap }
  | .newx =>
    match A.z with
    | none => some (direction A A.r s)
    | some _ => some { s with state := .precond }
  | .precond =>
    match A.z with
    | none => none
    | some z => some (direction A z s)
  | .ap =>
    if s.rho.r1 > 0 then
      let pq := Linalg.dot A.n A.p 1 A.q 1 s.mem
      if pq ≤ 0 then some { s with state := .nonConvex }
      else
        let alpha := s.rho.r1 / pq
        let rho := { s.rho with r2 := alpha }
        if alpha = 0 then some { s with rho := rho, state := .finish }
        else
          let mem := Linalg.axpy A.n alpha A.p 1 A.x 1 s.mem
          let mem := Linalg.axpy A.n (-alpha) A.q 1 A.r 1 mem
          some { mem := mem, rho := { rho with r0 := rho.r1 }, state := .newx }
    else
      some { s with mem := Linalg.axpy A.n (-1) A.q 1 A.r 1 s.mem, state := .newx }
  | .finish => some s
  | .nonConvex => some s
  | .error => some { s with state := .error }
  | .truncated => some { s with state := .error }
  | .other _ => some { s with state := .error }

/-- `OPK_LCG`, `src/lcg.c:183-187`: no preconditioner. -/
def lcg (A : Arrays) (s : Cg F) : Option (Cg F) := plcg { A with z := none } s

/-- The truncated step of `OPK_TRCG`, `src/lcg.c:324-372`. -/
def truncate [CMath F] (A : Arrays) (delta : F) (s : Cg F) : Cg F :=
  let a := Linalg.dot A.n A.p 1 A.p 1 s.mem
  if a ≤ 0 then { s with state := .finish }
  else
    let b := Linalg.dot A.n A.x 1 A.p 1 s.mem
    let c := (s.rho.r4 + delta) * (s.rho.r4 - delta)
    if c ≥ 0 then { s with state := .error }
    else
      let d := CMath.fabs a
      let e := CMath.fabs b
      let d := if e > d then e else d
      let e := CMath.fabs c
      let d := if e > d then e else d
      let d := 1 / d
      let a := a * d
      let b := b * d
      let c := c * d
      let d := b * b - a * c
      if d > 0 then
        let e := CMath.sqrt d
        let alpha := if b ≥ 0 then -c / (e + b) else (e - b) / a
        let mem :=
          if alpha > 0 then
            let mem := Linalg.axpy A.n alpha A.p 1 A.x 1 s.mem
            Linalg.axpy A.n (-alpha) A.q 1 A.r 1 mem
          else s.mem
        { mem := mem, rho := { s.rho with r0 := s.rho.r1, r2 := alpha, r4 := delta }, state := .truncated }
      else { s with state := .error }

/-- `OPK_TRCG`, `src/lcg.c:201-406`. -/
def trcg [CMath F] (A : Arrays) (delta : F) (s : Cg F) : Option (Cg F) :=
  if delta ≤ 0 then some { s with state := .error }
  else
    match s.state with
    | .start =>
      some { mem := Linalg.zero A.n A.x 1 s.mem, rho := { r0 := 0, r1 := 0, r2 := 0, r3 := 0, r4 := 0 }, state := .newx }
    | .restart =>
      let rho := { s.rho with r0 := 0, r1 := 0, r2 := 0, r3 := 0 }
      let xn := Linalg.nrm2 A.n A.x 1 s.mem
      if xn ≥ delta then
        let mem := if xn > delta then Linalg.scal A.n (delta / xn) A.x 1 s.mem else s.mem
        some { mem := mem, rho := { rho with r4 := delta }, state := .truncated }
      else
        some { mem := Linalg.copy A.n A.x 1 A.p 1 s.mem, rho := { rho with r4 := xn }, state := .ap }
    | .newx =>
      match A.z with
      | none => some (direction A A.r s)
      | some _ => some { s with state := .precond }
    | .precond =>
      match A.z with
      | none => none
      | some z => some (direction A z s)
    | .ap =>
      if s.rho.r1 > 0 then
        let pq := Linalg.dot A.n A.p 1 A.q 1 s.mem
        if pq > 0 then
          let alpha := s.rho.r1 / pq
          let s := { s with rho := { s.rho with r2 := alpha } }
          if alpha = 0 then some { s with state := .finish }
          else
            let sum := forUp 0 A.n 1 (fun i sum =>
              let tmp := s.mem (A.x + i) + alpha * s.mem (A.p + i)
              sum + tmp * tmp) 0
            let xn := CMath.sqrt sum
            if xn ≤ delta then
              let mem := Linalg.axpy A.n alpha A.p 1 A.x 1 s.mem
              let mem := Linalg.axpy A.n (-alpha) A.q 1 A.r 1 mem
              some { mem := mem, rho := { s.rho with r0 := s.rho.r1, r4 := xn }, state := if xn < delta then .newx else .truncated }
            else some (truncate A delta s)
        else some (truncate A delta s)
      else
        let mem := forUp 0 A.n 1 (fun i m => put m (A.r + i) (m (A.r + i) - m (A.q + i))) s.mem
        some { mem := mem, rho := { s.rho with r2 := 0, r3 := 0 }, state := .newx }
    | .finish => some s
    | .nonConvex => some s
    | .truncated => some s
    | .error => some { s with state := .error }
    | .other _ => some { s with state := .error }

end Opk.Lcg
