import Verif.Linalg.Model3
/-!
# Trust region step: `src/gqtpar.c`

The arrays are in the same flat memory as for the linear algebra routines.  Indices are those of
the C code (macros starting from 1).
-/
namespace Opk.Gqt
open Linalg CMath

section
variable {F : Type} [Add F] [Sub F] [Mul F] [Div F] [Neg F] [Zero F] [One F] [DecidableEq F]
variable [LT F] [LE F] [DecidableLT F] [DecidableLE F] [CMath F]

/-- `SIGN(x,y)`, `src/linalg-common.h:47`. -/
def sign (x y : F) : F := if decide (x < 0) = decide (y < 0) then x else -x

/-- `UPDATE_MAX(VAR,TEMP,EXPR)`, `src/gqtpar.c:56`: the new value of `VAR`. -/
def updateMax (var expr : F) : F := if expr > var then expr else var

/-- Address of `a(i,j)`, indices from 1, `src/gqtpar.c:92`, `src/gqtpar.c:370`. -/
def at2 (a lda i j : Int) : Int := a + (i - 1 + lda * (j - 1))

/-- The reduction of `z` (and of a scalar `v`) when the quotient of `d` by the diagonal element `r` is greater than one, `src/gqtpar.c:396-401` (`v` is `e`), `src/gqtpar.c:436-441` (`v` is `ynorm`). -/
def estsvReduce (n z : Int) (r d : F) (st : F × Mem F) : F × Mem F :=
  let (v, mem) := st
  if fabs d > fabs r then
    let temp := fabs (r / d)
    let temp := if temp > lit 1 100 then lit 1 100 else temp
    (v * temp, scal n temp z 1 mem)
  else (v, mem)

/-- The choice of the element `i` of the right hand side and the update of the next ones, `src/gqtpar.c:402-429`; the state is `e` and the memory. -/
def estsvAdvance (n r ldr z : Int) (i : Int) (st : F × Mem F) : F × Mem F :=
  let R := at2 r ldr
  let Z := fun i => z + (i - 1)
  let (e, mem) := st
  let (w, wm) :=
    if mem (R i i) = 0 then ((1 : F), (1 : F))
    else ((e - mem (Z i)) / mem (R i i), -(e + mem (Z i)) / mem (R i i))
  let s := fabs (e - mem (Z i))
  let sm := fabs (e + mem (Z i))
  let sm := forUp (i + 1) (n + 1) 1 (fun j sm => sm + fabs (mem (Z j) + wm * mem (R i j))) sm
  let (s, mem) :=
    if i < n then
      let mem := axpy (n - i) w (R i (i + 1)) ldr (Z (i + 1)) 1 mem
      (s + asum (n - i) (Z (i + 1)) 1 mem, mem)
    else (s, mem)
  let (w, mem) :=
    if s < sm then
      let temp := wm - w
      (wm, if i < n ∧ temp ≠ 0 then axpy (n - i) temp (R i (i + 1)) ldr (Z (i + 1)) 1 mem else mem)
    else (w, mem)
  (e, put mem (Z i) w)

/-- One iteration of the forward substitution of `OPK_ESTSV`, `src/gqtpar.c:394-429`; the state is `e` and the memory. -/
def estsvForward (n r ldr z : Int) (i : Int) (st : F × Mem F) : F × Mem F :=
  let Z := fun i => z + (i - 1)
  let (e, mem) := st
  let e := sign e (-mem (Z i))
  estsvAdvance n r ldr z i (estsvReduce n z (mem (at2 r ldr i i)) (e - mem (Z i)) (e, mem))

/-- The quotient by the diagonal element and the update of the previous elements, `src/gqtpar.c:442-446`; the state is `ynorm` and the memory. -/
def estsvRetreat (n r ldr z : Int) (j : Int) (st : F × Mem F) : F × Mem F :=
  let R := at2 r ldr
  let Z := fun i => z + (i - 1)
  let (ynorm, mem) := st
  let mem := if mem (R j j) = 0 then put mem (Z j) 1 else put mem (Z j) (mem (Z j) / mem (R j j))
  (ynorm, axpy (j - 1) (-mem (Z j)) (R 1 j) 1 (Z 1) 1 mem)

/-- One iteration of the back substitution of `OPK_ESTSV`, `src/gqtpar.c:435-447`; the state is `ynorm` and the memory. -/
def estsvBackward (n r ldr z : Int) (j : Int) (st : F × Mem F) : F × Mem F :=
  estsvRetreat n r ldr z j (estsvReduce n z (st.2 (at2 r ldr j j)) (st.2 (z + (j - 1))) st)

/-- `OPK_ESTSV`, `src/gqtpar.c:363-458`: the returned value and the memory. -/
def estsv (n r ldr z : Int) (mem : Mem F) : F × Mem F :=
  let R := at2 r ldr
  let Z := fun i => z + (i - 1)
  let mem := if n > 0 then forUp 0 n 1 (fun k mem => put mem (z + k) 0) mem else mem
  let e := fabs (mem (R 1 1))
  if e = 0 then (0, put mem (Z 1) 1)
  else
    let (_, mem) := forUp 1 (n + 1) 1 (estsvForward n r ldr z) (e, mem)
    let ynorm := nrm2 n (Z 1) 1 mem
    let (ynorm, mem) := forDown n 0 (estsvBackward n r ldr z) (ynorm, mem)
    let znorm := 1 / nrm2 n (Z 1) 1 mem
    (ynorm * znorm, scal n znorm (Z 1) 1 mem)

/-- The arguments of `OPK_GQT`, `src/gqtpar.c:73-78`.  `par` is the initial value of `*par_ptr` or none when `par_ptr` is `NULL`; `x`, `z`, `wa1` and `wa2` are addresses. -/
structure Args (F : Type) where
  n : Int
  a : Int
  lda : Int
  b : Int
  delta : F
  rtol : F
  atol : F
  itmax : Int
  par : Option F
  x : Int
  z : Int
  wa1 : Int
  wa2 : Int

/-- The local variables which live across iterations, and the memory. -/
structure St (F : Type) where
  par : F
  parf : F
  xnorm : F
  rxnorm : F
  rednc : Bool
  alpha : F
  rznorm : F
  pars : F
  parl : F
  paru : F
  parc : F
  info : Int
  iter : Int
  mem : Mem F

/-- What is returned: the code, the values stored at `*par_ptr`, `*fx_ptr` and `*iter_ptr` (each one if the pointer is not `NULL`) and the memory. -/
structure Result (F : Type) where
  info : Int
  par : F
  fx : F
  iter : Int
  mem : Mem F

/-- `for (j = 1; j < n; ++j) OPK_COPY(n-j, &a(j,j+1), lda, &a(j+1,j), 1)`, `src/gqtpar.c:120-122`: the upper triangle is copied into the lower one. -/
def saveUpper (n a lda : Int) (mem : Mem F) : Mem F :=
  forUp 1 n 1 (fun j mem => copy (n - j) (at2 a lda j (j + 1)) lda (at2 a lda (j + 1) j) 1 mem) mem

/-- `for (j = 1; j < n; ++j) OPK_COPY(n-j, &a(j+1,j), 1, &a(j,j+1), lda)`, `src/gqtpar.c:173-175`, `src/gqtpar.c:330-332`: the lower triangle is copied into the upper one. -/
def restoreUpper (n a lda : Int) (mem : Mem F) : Mem F :=
  forUp 1 n 1 (fun j mem => copy (n - j) (at2 a lda (j + 1) j) 1 (at2 a lda j (j + 1)) lda mem) mem

/-- The norm of `A` and the Gershgorin row sums, `src/gqtpar.c:126-131`: `anorm` and the memory with `wa2`. -/
def rowSums (g : Args F) (mem : Mem F) : F × Mem F :=
  forUp 1 (g.n + 1) 1 (fun j (st : F × Mem F) =>
    let (anorm, mem) := st
    let temp := asum g.n (at2 g.a g.lda 1 j) 1 mem
    let anorm := if anorm < temp then temp else anorm
    (anorm, put mem (g.wa2 + (j - 1)) (temp - fabs (mem (g.wa1 + (j - 1)))))) (0, mem)

/-- The bounds `pars`, `parl` and `paru` before scaling, `src/gqtpar.c:137-142`. -/
def bounds (g : Args F) (anorm : F) (mem : Mem F) : F × F × F :=
  forUp 1 (g.n + 1) 1 (fun j (st : F × F × F) =>
    let (pars, parl, paru) := st
    let d := mem (g.wa1 + (j - 1))
    let s := mem (g.wa2 + (j - 1))
    (updateMax pars (-d), updateMax parl (s + d), updateMax paru (s - d))) (-anorm, -anorm, -anorm)

/-- The part before the iterations, `src/gqtpar.c:105-162`. -/
def start (g : Args F) (mem : Mem F) : St F :=
  let par := match g.par with | some p => p | none => 0
  let mem := forUp 1 (g.n + 1) 1 (fun j mem => put (put mem (g.x + (j - 1)) 0) (g.z + (j - 1)) 0) mem
  let mem := copy g.n g.a (g.lda + 1) g.wa1 1 mem
  let mem := saveUpper g.n g.a g.lda mem
  let (anorm, mem) := rowSums g mem
  let bnorm := nrm2 g.n g.b 1 mem
  let (pars, parl, paru) := bounds g anorm mem
  let temp := bnorm / g.delta
  let parl := temp - parl
  let parl := if parl < pars then pars else parl
  let parl := if parl < 0 then 0 else parl
  let paru := temp + paru
  let paru := if paru < 0 then 0 else paru
  let par := if par < parl then parl else par
  let par := if par > paru then paru else par
  let paru := updateMax paru ((1 + g.rtol) * parl)
  { par := par, parf := 0, xnorm := 0, rxnorm := 0, rednc := false, alpha := 0, rznorm := 0, pars := pars, parl := parl, paru := paru, parc := 0, info := 0, iter := 0, mem := mem }

/-- Beginning of an iteration, `src/gqtpar.c:165-178`: safeguard of `par` and `A + par*I` in the upper triangle. -/
def shift (g : Args F) (st : St F) : St F :=
  let par :=
    if st.par ≤ st.pars ∧ st.paru > 0 then
      let temp := sqrt (st.parl / st.paru)
      (if temp ≥ lit 1 1000 then temp else lit 1 1000) * st.paru
    else st.par
  let mem := restoreUpper g.n g.a g.lda st.mem
  let mem := forUp 1 (g.n + 1) 1 (fun j mem => put mem (at2 g.a g.lda j j) (mem (g.wa1 + (j - 1)) + par)) mem
  { st with par := par, mem := mem }

/-- The solution `x` for the current `par` and the norm of `R'^(-1)*b`, `src/gqtpar.c:192-203`. -/
def solve (g : Args F) (st : St F) : St F :=
  let mem := copy g.n g.b 1 g.wa2 1 st.mem
  let mem := (trsv .upper .trans .nonUnit g.n g.a g.lda g.wa2 1 mem).2
  let rxnorm := nrm2 g.n g.wa2 1 mem
  let mem := (trsv .upper .noTrans .nonUnit g.n g.a g.lda g.wa2 1 mem).2
  let mem := copy g.n g.wa2 1 g.x 1 mem
  let mem := scal g.n (-1) g.x 1 mem
  { st with parf := st.par, rxnorm := rxnorm, xnorm := nrm2 g.n g.x 1 mem, mem := mem }

/-- The first test for convergence and the direction of negative curvature, `src/gqtpar.c:205-214`. -/
def curvature (g : Args F) (st : St F) : St F :=
  let info := if fabs (st.xnorm - g.delta) ≤ g.rtol * g.delta ∨ (st.par = 0 ∧ st.xnorm ≤ (1 + g.rtol) * g.delta) then 1 else st.info
  let (rznorm, mem) := estsv g.n g.a g.lda g.z st.mem
  { st with info := info, rznorm := rznorm, pars := updateMax st.pars (st.par - rznorm * rznorm), mem := mem }

/-- The solution of negative curvature, `src/gqtpar.c:216-245`. -/
def negative (g : Args F) (st : St F) : St F :=
  if st.xnorm < g.delta then
    let prod := dot g.n g.z 1 g.x 1 st.mem / g.delta
    let temp := (g.delta - st.xnorm) * ((g.delta + st.xnorm) / g.delta)
    let alpha := temp / (fabs prod + sqrt (prod * prod + temp / g.delta))
    let alpha := sign alpha prod
    let rznorm := st.rznorm * fabs alpha
    let temp1 := rznorm / g.delta
    let temp1 := temp1 * temp1
    let temp2 := st.xnorm / g.delta
    let rednc := decide (temp1 + st.par * temp2 * temp2 ≤ st.par)
    let temp2 := st.rxnorm / g.delta
    let temp2 := st.par + temp2 * temp2
    let info :=
      if lit 1 2 * temp1 ≤ g.rtol * (1 - lit 1 2 * g.rtol) * temp2 then 1
      else if st.info = 0 ∧ lit 1 2 * temp2 ≤ g.atol / g.delta / g.delta then 2
      else if st.xnorm = 0 then 1
      else st.info
    { st with rednc := rednc, alpha := alpha, rznorm := rznorm, info := info }
  else { st with rednc := false }

/-- The Newton correction and the bounds, `src/gqtpar.c:247-261`. -/
def correction (g : Args F) (st : St F) : St F :=
  let (parc, mem) :=
    if st.xnorm = 0 then (-st.par, st.mem)
    else
      let mem := copy g.n g.x 1 g.wa2 1 st.mem
      let mem := scal g.n (1 / st.xnorm) g.wa2 1 mem
      let mem := (trsv .upper .trans .nonUnit g.n g.a g.lda g.wa2 1 mem).2
      let temp := nrm2 g.n g.wa2 1 mem
      ((st.xnorm - g.delta) / g.delta / temp / temp, mem)
  let parl := if st.xnorm > g.delta ∧ st.parl < st.par then st.par else st.parl
  let paru := if st.xnorm < g.delta ∧ st.paru > st.par then st.par else st.paru
  { st with parc := parc, parl := parl, paru := paru, mem := mem }

/-- Case 2: `A + par*I` is not positive definite, `src/gqtpar.c:269-294`. -/
def indefinite (g : Args F) (indef : Int) (st : St F) : St F :=
  let A := at2 g.a g.lda
  let mem :=
    if indef > 1 then
      let mem := copy (indef - 1) (A indef 1) g.lda (A 1 indef) 1 st.mem
      let mem := put mem (A indef indef) (mem (g.wa1 + (indef - 1)) + st.par)
      let mem := copy (indef - 1) (A 1 indef) 1 g.wa2 1 mem
      let mem := (trsv .upper .trans .nonUnit (indef - 1) g.a g.lda g.wa2 1 mem).2
      let temp := nrm2 (indef - 1) g.wa2 1 mem
      let mem := put mem (A indef indef) (mem (A indef indef) - temp * temp)
      (trsv .upper .noTrans .nonUnit (indef - 1) g.a g.lda g.wa2 1 mem).2
    else st.mem
  let mem := put mem (g.wa2 + (indef - 1)) (-1)
  let temp := nrm2 indef g.wa2 1 mem
  let parc := -(mem (A indef indef) / temp) / temp
  let temp := if parc > 0 then st.par + parc else st.par
  let pars := if st.pars < temp then temp else st.pars
  let temp := (1 + g.rtol) * pars
  let paru := if st.paru < temp then temp else st.paru
  { st with parc := parc, pars := pars, paru := paru, mem := mem }

/-- The factorization and the two cases, `src/gqtpar.c:180-295`. -/
def examine (g : Args F) (st : St F) : St F :=
  let (indef, mem) := potf2 .upper g.n g.a g.lda st.mem
  let st := { st with mem := mem }
  if indef = 0 then correction g (negative g (curvature g (solve g st))) else indefinite g indef st

/-- The tests for termination, `src/gqtpar.c:297-310`. -/
def terminate (g : Args F) (st : St F) : St F :=
  let parl := if st.parl < st.pars then st.pars else st.parl
  let iter := st.iter + 1
  let info :=
    if st.info = 0 then
      if st.paru = 0 then 2
      else if st.paru ≤ (1 + lit 1 2 * g.rtol) * st.pars then 3
      else if iter ≥ g.itmax then 4
      else 0
    else st.info
  { st with parl := parl, iter := iter, info := info }

/-- The exit, `src/gqtpar.c:316-341`. -/
def finish (g : Args F) (st : St F) : Result F :=
  let par := st.parf
  let (fx, mem) :=
    if st.rednc then
      (-lit 1 2 * ((st.rxnorm * st.rxnorm + par * g.delta * g.delta) - st.rznorm * st.rznorm), axpy g.n st.alpha g.z 1 g.x 1 st.mem)
    else (-lit 1 2 * (st.rxnorm * st.rxnorm + par * st.xnorm * st.xnorm), st.mem)
  let mem := restoreUpper g.n g.a g.lda mem
  let mem := copy g.n g.wa1 1 g.a (g.lda + 1) mem
  { info := st.info, par := par, fx := fx, iter := st.iter, mem := mem }

/-- One iteration, `src/gqtpar.c:164-345`: either a result or the state for the next iteration. -/
def step (g : Args F) (st : St F) : Result F ⊕ St F :=
  let st := terminate g (examine g (shift g st))
  if st.info ≠ 0 then .inl (finish g st)
  else
    let par := st.par + st.parc
    .inr { st with par := if par < st.parl then st.parl else par }

/-- `while (TRUE)`: at most `fuel` iterations, none if the loop is not over. -/
def iterate (g : Args F) : Nat → St F → Option (Result F)
  | 0, _ => none
  | fuel + 1, st =>
    match step g st with
    | .inl r => some r
    | .inr st => iterate g fuel st

/-- `OPK_GQT`, `src/gqtpar.c:72-357`, executed for at most `fuel` iterations; see `gqt_terminates`. -/
def gqt (g : Args F) (fuel : Nat) (mem : Mem F) : Option (Result F) := iterate g fuel (start g mem)

end
end Opk.Gqt
