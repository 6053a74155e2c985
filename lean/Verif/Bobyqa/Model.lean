import Verif.Cobyla.Model
/-!
# BOBYQA: `src/bobyqa.c`

The routine `bobyqb` with its subroutines `prelim`, `rescue`, `altmov` and `update` is modelled as
a machine: a label of the C code and the values of the variables.  One step of the machine is the
execution of the code from a label to the next one.

* Arrays are functions of the indices of the C macros (starting at 1), the partition of the
  workspace is in `Verif.Powell.Layout`.  Loops which compute the elements of an array
  independently of each other are written as functions of the index, so they also define elements
  which do not exist; other loops are `up`.
* `HQ` is indexed by the row and the column instead of the packed index `ih`:
  `hq i j` with `i ≤ j` is `hq[j*(j-1)/2 + i]` (see `Powell.triangle_index`).
* `PTSID(k)` of `rescue`, a floating point number which encodes two integers, is replaced by these
  integers (`none` for zero).  `(INTEGER)(((REAL)(k - np) - half)/(REAL)n)` is the quotient of
  integers `(k - np - 1)/n`.
* The work array `w` is not a part of the state, except the elements which are read after a jump.
* The step of `trsbox` before its label 190 is a parameter `T` of the model, any function of the
  state; the end of `trsbox` (label 190) is modelled.
* `calfun i x` is the value of the objective function at its call number `i` (counted from 0), with
  the sign changed if maximizing.  The list `log` of all calls (the latest first) is not in the C code.
* Messages and `iprint` are not represented.  `nf` is the number of calls; the C code stores `-1`
  and then `maxfun` in `nf` when `rescue` reaches the limit, and then only uses it in messages.
* Overflows of integers are not represented.
-/
namespace Opk.Bobyqa
open Linalg CMath Cobyla

/-- `bobyqa_status`, `src/bobyqa.h:44-60`. -/
inductive Status where
  | success | badNvars | badNpt | badRhoRange | badScaling | tooClose | roundingErrors
  | tooManyEvaluations | stepFailed
deriving DecidableEq, Repr

/-- The labels: `pre` is the loop of `prelim`; `r80`, `r120` and `rpts` are in `rescue`; `l190b` is after the
call of `rescue`; `ret` is the end of `bobyqb`; `wrong` is an access out of the arrays. -/
inductive Lab where
  | pre | l20 | l60 | l90 | l190 | r80 | r120 | rpts | l190b | l210 | l230 | l360 | l650 | l680 | done | ret | wrong
deriving DecidableEq, Repr

/-- The parameters of `bobyqb`. -/
structure Par (F : Type) where
  /-- number of variables -/
  n : Nat
  /-- number of interpolation conditions -/
  npt : Nat
  rhobeg : F
  rhoend : F
  maxfun : Int
  /-- lower bounds -/
  xl : Nat → F
  /-- upper bounds -/
  xu : Nat → F

namespace Par
variable {F : Type}
abbrev np (p : Par F) : Nat := p.n + 1
abbrev nptm (p : Par F) : Nat := p.npt - (p.n + 1)
end Par

/-- The variables of `rescue`, `src/bobyqa.c:1970-1975`; `wdist k` is `w[ndim + k]`. -/
structure Res (F : Type) where
  aux1 : Nat → F
  aux2 : Nat → F
  ptsid : Nat → Option (Nat × Nat)
  wdist : Nat → F
  winc : F
  fbase : F
  beta : F
  denom : F
  nrem : Nat
  kold : Nat
  knew : Nat
  kpt : Nat

/-- The variables of `bobyqb`, `src/bobyqa.c:585-594`; `wd k` is `w[npt + k]`; `fbeg`, `stepa`, `stepb`, `ipt`
and `jpt` are variables of `prelim`, `fl` is the variable `f` of `prelim` or of `rescue`. -/
structure St (F : Type) where
  x : Nat → F
  xbase : Nat → F
  xpt : Nat → Nat → F
  fval : Nat → F
  xopt : Nat → F
  gopt : Nat → F
  hq : Nat → Nat → F
  pq : Nat → F
  bmat : Nat → Nat → F
  zmat : Nat → Nat → F
  sl : Nat → F
  su : Nat → F
  xnew : Nat → F
  xalt : Nat → F
  d : Nat → F
  vlag : Nat → F
  wd : Nat → F
  adelt : F
  alpha : F
  beta : F
  cauchy : F
  crvmin : F
  delta : F
  denom : F
  diff : F
  diffa : F
  diffb : F
  diffc : F
  distsq : F
  dnorm : F
  dsq : F
  f : F
  fl : F
  fsave : F
  ratio : F
  rho : F
  vquad : F
  xoptsq : F
  fbeg : F
  stepa : F
  stepb : F
  ipt : Nat
  jpt : Nat
  itest : Nat
  kbase : Nat
  knew : Nat
  kopt : Nat
  nf : Nat
  nfsav : Nat
  nresc : Nat
  ntrits : Int
  status : Status
  res : Res F
  log : List ((Nat → F) × F)

/-- What `trsbox` knows at its label 190, and `crvmin`. -/
structure Trs (F : Type) where
  d : Nat → F
  gnew : Nat → F
  xbdi : Nat → F
  crvmin : F

section
variable {F : Type} [Add F] [Sub F] [Mul F] [Div F] [Neg F] [Zero F] [One F] [DecidableEq F]
variable [LT F] [LE F] [DecidableLT F] [DecidableLE F] [CMath F]

/-- `clamp`, `src/bobyqa.c:188-192`. -/
def clamp (x lo hi : F) : F := if x ≥ hi then hi else if x ≤ lo then lo else x

/-- `sum += f(j)` for `j` from 1 to `n`. -/
def acc (n : Nat) (f : Nat → F) (a : F) : F := up n (fun j t => t + f j) a

/-- The variables of the objective function, `src/bobyqa.c:994-998`, `src/bobyqa.c:2238-2243` and
`src/bobyqa.c:1321-1325`. -/
def place (p : Par F) (s : St F) (v : Nat → F) : Nat → F := fun i =>
  if v i = s.su i then p.xu i else if v i = s.sl i then p.xl i else clamp (s.xbase i + v i) (p.xl i) (p.xu i)

/-- The objective function is called, `src/bobyqa.c:114`. -/
def call (calfun : Nat → (Nat → F) → F) (x : Nat → F) (s : St F) : St F :=
  { s with nf := s.nf + 1, fl := calfun s.nf x, log := (x, calfun s.nf x) :: s.log }

/-- The end with an error, `src/bobyqa.c:1343-1366`. -/
def fail (e : Status) (s : St F) : Lab × St F := (.done, { s with status := e })

/-! ### `prelim` -/

/-- The step along the coordinate `nfm` (points 2 to `n+1`), `src/bobyqa.c:1791-1796`. -/
def prelimA (p : Par F) (s : St F) (nf : Nat) : St F :=
  let nfm := nf - 1
  let stepa := if s.su nfm = 0 then -p.rhobeg else p.rhobeg
  { s with stepa := stepa, xpt := set2 s.xpt nf nfm stepa }

/-- The second step along a coordinate (points `n+2` to `2*n+1`), `src/bobyqa.c:1797-1807`. -/
def prelimB (p : Par F) (s : St F) (nf : Nat) : St F :=
  let nfx := nf - 1 - p.n
  let stepb := -p.rhobeg
  let stepb := if s.sl nfx = 0 then cmin (lit 2 1 * p.rhobeg) (s.su nfx) else stepb
  let stepb := if s.su nfx = 0 then cmax (-lit 2 1 * p.rhobeg) (s.sl nfx) else stepb
  { s with stepa := s.xpt (nf - p.n) nfx, stepb := stepb, xpt := set2 s.xpt nf nfx stepb }

/-- The indices `ipt` and `jpt` of the other points, `src/bobyqa.c:1809-1816`. -/
def prelimPair (p : Par F) (nf : Nat) : Nat × Nat :=
  let nfm := nf - 1
  let itemp := (nfm - p.np) / p.n
  let jpt := nfm - itemp * p.n - p.n
  let ipt := jpt + itemp
  if ipt > p.n then (jpt, ipt - p.n) else (ipt, jpt)

/-- Two coordinates are changed, `src/bobyqa.c:1809-1819`. -/
def prelimC (p : Par F) (s : St F) (nf : Nat) : St F :=
  let ipt := (prelimPair p nf).1
  let jpt := (prelimPair p nf).2
  let xpt := set2 s.xpt nf ipt (s.xpt (ipt + 1) ipt)
  { s with ipt := ipt, jpt := jpt, xpt := set2 xpt nf jpt (xpt (jpt + 1) jpt) }

/-- The new interpolation point, `src/bobyqa.c:1786-1820`; `nf` is already incremented. -/
def prelimPoint (p : Par F) (s : St F) (nf : Nat) : St F :=
  let nfm := nf - 1
  if nfm ≤ 2 * p.n then
    if 1 ≤ nfm ∧ nfm ≤ p.n then prelimA p s nf else if nfm > p.n then prelimB p s nf else s
  else prelimC p s nf

/-- The variables of the objective function in `prelim`, `src/bobyqa.c:1824-1832`. -/
def prelimX (p : Par F) (s : St F) (nf : Nat) : Nat → F := fun j =>
  if s.xpt nf j = s.su j then p.xu j
  else if s.xpt nf j = s.sl j then p.xl j
  else clamp (s.xbase j + s.xpt nf j) (p.xl j) (p.xu j)

/-- `FVAL` and `KOPT`, `src/bobyqa.c:1842-1848`. -/
def prelimStore (s : St F) : St F :=
  let fval := set1 s.fval s.nf s.fl
  if s.nf = 1 then { s with fval := fval, fbeg := s.fl, kopt := 1 }
  else { s with fval := fval, kopt := if s.fl < fval s.kopt then s.nf else s.kopt }

/-- The points `nf` and `nf-n` are exchanged, `src/bobyqa.c:1869-1879`. -/
def prelimSwap (p : Par F) (s : St F) : St F :=
  let nfx := s.nf - 1 - p.n
  if s.stepa * s.stepb < 0 then
    if s.fl < s.fval (s.nf - p.n) then
      let fval := set1 s.fval s.nf (s.fval (s.nf - p.n))
      let fval := set1 fval (s.nf - p.n) s.fl
      let xpt := set2 s.xpt (s.nf - p.n) nfx s.stepb
      { s with fval := fval, kopt := if s.kopt = s.nf then s.nf - p.n else s.kopt, xpt := set2 xpt s.nf nfx s.stepa }
    else s
  else s

/-- The model for the points 2 to `n+1`, `src/bobyqa.c:1856-1862`. -/
def prelimModelA (p : Par F) (s : St F) : St F :=
  let nfm := s.nf - 1
  let s := { s with gopt := set1 s.gopt nfm ((s.fl - s.fbeg) / s.stepa) }
  if p.npt < s.nf + p.n then
    let bmat := set2 s.bmat 1 nfm (-1 / s.stepa)
    let bmat := set2 bmat s.nf nfm (1 / s.stepa)
    { s with bmat := set2 bmat (p.npt + nfm) nfm (-lit 1 2 * (p.rhobeg * p.rhobeg)) }
  else s

/-- The quadratic model for the points `n+2` to `2*n+1`, before the exchange, `src/bobyqa.c:1864-1868`. -/
def prelimQuad (p : Par F) (s : St F) : St F :=
  let nfx := s.nf - 1 - p.n
  let temp := (s.fl - s.fbeg) / s.stepb
  let diff := s.stepb - s.stepa
  { s with hq := set2 s.hq nfx nfx (lit 2 1 * (temp - s.gopt nfx) / diff),
           gopt := set1 s.gopt nfx ((s.gopt nfx * s.stepb - temp * s.stepa) / diff) }

/-- `BMAT` and `ZMAT` for the points `n+2` to `2*n+1`, after the exchange, `src/bobyqa.c:1881-1886`. -/
def prelimModelB (p : Par F) (s : St F) : St F :=
  let nfx := s.nf - 1 - p.n
  let bmat := set2 s.bmat 1 nfx (-(s.stepa + s.stepb) / (s.stepa * s.stepb))
  let bmat := set2 bmat s.nf nfx (-lit 1 2 / s.xpt (s.nf - p.n) nfx)
  let bmat := set2 bmat (s.nf - p.n) nfx (-bmat 1 nfx - bmat s.nf nfx)
  let zmat := set2 s.zmat 1 nfx (sqrt (lit 2 1) / (s.stepa * s.stepb))
  let zmat := set2 zmat s.nf nfx (sqrt (lit 1 2) / (p.rhobeg * p.rhobeg))
  let zmat := set2 zmat (s.nf - p.n) nfx (-zmat 1 nfx - zmat s.nf nfx)
  { s with bmat := bmat, zmat := zmat }

/-- The model for the other points, `src/bobyqa.c:1891-1899`. -/
def prelimModelC (p : Par F) (s : St F) : St F :=
  let nfx := s.nf - 1 - p.n
  let recip := 1 / (p.rhobeg * p.rhobeg)
  let zmat := set2 s.zmat 1 nfx recip
  let zmat := set2 zmat s.nf nfx recip
  let zmat := set2 zmat (s.ipt + 1) nfx (-recip)
  let zmat := set2 zmat (s.jpt + 1) nfx (-recip)
  let temp := s.xpt s.nf s.ipt * s.xpt s.nf s.jpt
  { s with zmat := zmat, hq := set2 s.hq s.jpt s.ipt ((s.fbeg - s.fval (s.ipt + 1) - s.fval (s.jpt + 1) + s.fl) / temp) }

/-- The quadratic model, `BMAT` and `ZMAT`, and the exchange of points, `src/bobyqa.c:1854-1900`. -/
def prelimModel (p : Par F) (s : St F) : St F :=
  if s.nf ≤ 2 * p.n + 1 then
    if 2 ≤ s.nf ∧ s.nf ≤ p.n + 1 then prelimModelA p s
    else if p.n + 2 ≤ s.nf then prelimModelB p (prelimSwap p (prelimQuad p s))
    else s
  else prelimModelC p s

/-- The beginning of the iterations, `src/bobyqa.c:643-666`. -/
def begin (p : Par F) (s : St F) : Lab × St F :=
  let s := { s with xopt := fun i => s.xpt s.kopt i, xoptsq := acc p.n (fun i => s.xpt s.kopt i * s.xpt s.kopt i) 0, fsave := s.fval 1 }
  if s.nf < p.npt then fail .tooManyEvaluations s
  else (.l20, { s with kbase := 1, rho := p.rhobeg, delta := p.rhobeg, nresc := s.nf, ntrits := 0, diffa := 0, diffb := 0, itest := 0, nfsav := s.nf })

/-- One pass of the loop of `prelim`, `src/bobyqa.c:1784-1901`, and the test of its end. -/
def prelim (p : Par F) (calfun : Nat → (Nat → F) → F) (s : St F) : Lab × St F :=
  let s := prelimPoint p s (s.nf + 1)
  let x := prelimX p s (s.nf + 1)
  let s := prelimModel p (prelimStore (call calfun x { s with x := x }))
  if s.nf < p.npt ∧ s.nf < p.maxfun then (.pre, s) else begin p s

/-! ### The trust region step -/

/-- `g += H·v` with the matrix `HQ`, `src/bobyqa.c:672-680` and `src/bobyqa.c:1143-1149`. -/
def addHess (n : Nat) (hq : Nat → Nat → F) (v : Nat → F) (g : Nat → F) : Nat → F :=
  up n (fun j g => up j (fun i g =>
    let g := if i < j then set1 g j (g j + hq i j * v i) else g
    set1 g i (g i + hq i j * v j)) g) g

/-- `g += H·v` with the matrix defined by `PQ`, `src/bobyqa.c:682-691` and `src/bobyqa.c:1151-1160`. -/
def addPoints (n npt : Nat) (xpt : Nat → Nat → F) (pq v : Nat → F) (g : Nat → F) : Nat → F :=
  up npt (fun k g =>
    let temp := acc n (fun j => xpt k j * v j) 0 * pq k
    fun i => g i + temp * xpt k i) g

/-- `L20`, `src/bobyqa.c:669-692`. -/
def l20 (p : Par F) (s : St F) : Lab × St F :=
  if s.kopt ≠ s.kbase then
    let g := addHess p.n s.hq s.xopt s.gopt
    (.l60, { s with gopt := if s.nf > p.npt then addPoints p.n p.npt s.xpt s.pq s.xopt g else g })
  else (.l60, s)

/-- The end of `trsbox`, `src/bobyqa.c:2808-2820`: the new point. -/
def boxStep (s : St F) (t : Trs F) : Nat → F := fun i =>
  if t.xbdi i = 1 then s.su i
  else if t.xbdi i = -1 then s.sl i
  else clamp (s.xopt i + t.d i) (s.sl i) (s.su i)

/-- Is the accuracy of the model sufficient? `src/bobyqa.c:721-736`: some `bdtest` is less than `bdtol`. -/
def boundTest (p : Par F) (s : St F) (gnew : Nat → F) (bdtol : F) : Bool :=
  up p.n (fun j b =>
    let bdtest := if s.xnew j = s.su j then -gnew j else if s.xnew j = s.sl j then gnew j else bdtol
    b || (decide (bdtest < bdtol) &&
      let curv := acc p.npt (fun k => s.pq k * (s.xpt k j * s.xpt k j)) (s.hq j j)
      decide (bdtest + lit 1 2 * curv * s.rho < bdtol))) false

/-- The trust region step is short, `src/bobyqa.c:704-738`. -/
def short (p : Par F) (gnew : Nat → F) (s : St F) : Lab × St F :=
  let s := { s with distsq := lit 100 1 * s.rho * s.rho, ntrits := -1 }
  if s.nf ≤ s.nfsav + 2 then (.l650, s)
  else
    let errbig := cmax (cmax s.diffa s.diffb) s.diffc
    let frhosq := s.rho * lit 1 8 * s.rho
    if s.crvmin > 0 ∧ errbig > frhosq * s.crvmin then (.l650, s)
    else if boundTest p s gnew (errbig / s.rho) then (.l650, s)
    else (.l680, s)

/-- `L60`, `src/bobyqa.c:698-740`. -/
def l60 (p : Par F) (T : St F → Trs F) (s : St F) : Lab × St F :=
  let t := T s
  let xnew := boxStep s t
  let d := fun i => xnew i - s.xopt i
  let dsq := acc p.n (fun i => d i * d i) 0
  let s := { s with xnew := xnew, d := d, dsq := dsq, crvmin := t.crvmin, dnorm := cmin (sqrt dsq) s.delta }
  if s.dnorm < lit 1 2 * s.rho then short p t.gnew s
  else (.l90, { s with ntrits := s.ntrits + 1 })

/-! ### The shift of the origin -/

/-- `w[npt + k]`, `src/bobyqa.c:750-755`. -/
def shiftSum (p : Par F) (s : St F) (k : Nat) : F := acc p.n (fun i => s.xpt k i * s.xopt i) (-lit 1 2 * s.xoptsq)

/-- The changes to `BMAT` which do not depend on `ZMAT`, `src/bobyqa.c:749-765`. -/
def shiftB1 (p : Par F) (s : St F) : Nat → Nat → F :=
  let fracsq := s.xoptsq * lit 1 4
  up p.npt (fun k bmat =>
    let sum := shiftSum p s k
    let temp := fracsq - lit 1 2 * sum
    let w := fun i => bmat k i
    let vlag := fun i => sum * s.xpt k i + temp * s.xopt i
    fun a j => if p.npt < a ∧ j ≤ a - p.npt then bmat a j + w (a - p.npt) * vlag j + vlag (a - p.npt) * w j else bmat a j) s.bmat

/-- The changes to `BMAT` which depend on `ZMAT`, `src/bobyqa.c:768-793`. -/
def shiftB2 (p : Par F) (s : St F) (bmat : Nat → Nat → F) : Nat → Nat → F :=
  let fracsq := s.xoptsq * lit 1 4
  up p.nptm (fun jj bmat =>
    let vlag := fun k => shiftSum p s k * s.zmat k jj
    let sumz := acc p.npt (fun k => s.zmat k jj) 0
    let sumw := acc p.npt vlag 0
    let w := fun j => acc p.npt (fun k => vlag k * s.xpt k j) ((fracsq * sumz - lit 1 2 * sumw) * s.xopt j)
    fun a j =>
      if a ≤ p.npt then bmat a j + w j * s.zmat a jj
      else if j ≤ a - p.npt then bmat a j + w (a - p.npt) * w j else bmat a j) bmat

/-- `BMAT(npt + i, j) = BMAT(npt + j, i)`, `src/bobyqa.c:807`. -/
def symB (npt : Nat) (bmat : Nat → Nat → F) : Nat → Nat → F := fun a j =>
  if npt < a ∧ a - npt ≤ j then bmat (npt + j) (a - npt) else bmat a j

/-- `HQ`, `src/bobyqa.c:797-807`. -/
def shiftH (p : Par F) (s : St F) : Nat → Nat → F :=
  let sumpq := acc p.npt (fun k => s.pq k) 0
  let w := fun j => acc p.npt (fun k => s.pq k * s.xpt k j) (-lit 1 2 * sumpq * s.xopt j)
  fun i j => s.hq i j + w i * s.xopt j + s.xopt i * w j

/-- The origin becomes `xopt`, `src/bobyqa.c:747-818`. -/
def shift (p : Par F) (s : St F) : St F :=
  { s with bmat := symB p.npt (shiftB2 p s (shiftB1 p s)), hq := shiftH p s, xpt := fun k j => s.xpt k j - s.xopt j, xbase := fun i => s.xbase i + s.xopt i, xnew := fun i => s.xnew i - s.xopt i, sl := fun i => s.sl i - s.xopt i, su := fun i => s.su i - s.xopt i, xopt := fun _ => 0, xoptsq := 0 }

/-- `L90`, `src/bobyqa.c:746-823`. -/
def l90 (p : Par F) (s : St F) : Lab × St F :=
  let s := if s.dsq ≤ s.xoptsq * lit 1 1000 then shift p s else s
  (if s.ntrits = 0 then .l210 else .l230, s)

/-! ### `update` -/

/-- The rotations which put zeros in the row `knew` of `ZMAT`, `src/bobyqa.c:2892-2919`. -/
def rotate (p : Par F) (knew : Nat) (zmat : Nat → Nat → F) : Nat → Nat → F :=
  let ztest := up p.npt (fun k t => up p.nptm (fun j t => cmax t (fabs (zmat k j))) t) 0 * lit 1 (10 ^ 20)
  up (p.nptm - 1) (fun l zmat =>
    let j := l + 1
    let zmat :=
      if fabs (zmat knew j) > ztest then
        let temp := sqrt (zmat knew 1 * zmat knew 1 + zmat knew j * zmat knew j)
        let tempa := zmat knew 1 / temp
        let tempb := zmat knew j / temp
        fun i c =>
          if c = j then tempa * zmat i j - tempb * zmat i 1
          else if c = 1 then tempa * zmat i 1 + tempb * zmat i j else zmat i c
      else zmat
    set2 zmat knew j 0) zmat

/-- `update`, `src/bobyqa.c:2865-2950`: `BMAT`, `ZMAT` and `VLAG`. -/
def update (p : Par F) (bmat zmat : Nat → Nat → F) (vlag : Nat → F) (beta denom : F) (knew : Nat) :
    (Nat → Nat → F) × (Nat → Nat → F) × (Nat → F) :=
  let zmat := rotate p knew zmat
  let w := fun i => if i ≤ p.npt then zmat knew 1 * zmat i 1 else bmat knew (i - p.npt)
  let alpha := w knew
  let tau := vlag knew
  let vlag := set1 vlag knew (vlag knew - 1)
  let temp := sqrt denom
  let tempb := zmat knew 1 / temp
  let tempa := tau / temp
  let zmat' := fun i c => if c = 1 then tempa * zmat i 1 - tempb * vlag i else zmat i c
  let upd := fun i j =>
    let tempa := (alpha * vlag (p.npt + j) - tau * w (p.npt + j)) / denom
    let tempb := (-beta * w (p.npt + j) - tau * vlag (p.npt + j)) / denom
    bmat i j + tempa * vlag i + tempb * w i
  (fun i j => if i ≤ p.npt + j then upd i j else upd (p.npt + j) (i - p.npt), zmat', vlag)

/-! ### `rescue` -/

/-- `PTSAUX(1,j)` and `PTSAUX(2,j)`, `src/bobyqa.c:2057-2069`, once `SL` and `SU` are shifted. -/
def auxPair (delta sl su : F) : F × F :=
  let temp1 := cmin delta su
  let temp2 := cmax (-delta) sl
  let t := if temp1 + temp2 < 0 then (temp2, temp1) else (temp1, temp2)
  (t.1, if fabs t.2 < lit 1 2 * fabs t.1 then lit 1 2 * t.1 else t.2)

/-- `HQ` after the shift, `src/bobyqa.c:2037-2049`; `xpt` is already shifted. -/
def rescueH (p : Par F) (s : St F) (xpt : Nat → Nat → F) : Nat → Nat → F :=
  let sumpq := acc p.npt (fun k => s.pq k) 0
  let w := fun j => acc p.npt (fun k => s.pq k * xpt k j) (lit 1 2 * sumpq * s.xopt j)
  fun i j => s.hq i j + w i * s.xopt j + w j * s.xopt i

/-- The indices `ip` and `iq` of the provisional point `k > 2*n + 1`, `src/bobyqa.c:2112-2117`. -/
def rescuePair (p : Par F) (k : Nat) : Nat × Nat :=
  let iw := (k - p.np - 1) / p.n
  let ip := k - p.np - iw * p.n
  let iq := ip + iw
  (ip, if iq > p.n then iq - p.n else iq)

/-- `PTSID`, `src/bobyqa.c:2078-2118`. -/
def rescueId (p : Par F) : Nat → Option (Nat × Nat) := fun k =>
  if k = 1 then some (0, 0)
  else if k ≤ p.np then some (k - 1, 0)
  else if k ≤ p.np + p.n then some (0, k - p.np)
  else some (rescuePair p k)

/-- `BMAT` of the provisional points, `src/bobyqa.c:2079-2104`. -/
def rescueB (p : Par F) (aux1 aux2 : Nat → F) : Nat → Nat → F :=
  up p.n (fun j bmat =>
    let temp1 := aux1 j
    let temp2 := aux2 j
    let jp := j + 1
    let jpn := jp + p.n
    if jpn ≤ p.npt then
      let temp := 1 / (temp1 - temp2)
      let bmat := set2 bmat jp j (1 / temp1 - temp)
      let bmat := set2 bmat jpn j (1 / temp2 + temp)
      set2 bmat 1 j (-bmat jp j - bmat jpn j)
    else
      let temp := 1 / temp1
      let bmat := set2 bmat 1 j (-temp)
      let bmat := set2 bmat jp j temp
      set2 bmat (j + p.npt) j (-lit 1 2 * (temp1 * temp1))) (fun _ _ => 0)

/-- `ZMAT` of the provisional points, `src/bobyqa.c:2079-2124`. -/
def rescueZ (p : Par F) (aux1 aux2 : Nat → F) : Nat → Nat → F :=
  let zmat := up p.n (fun j zmat =>
    let temp1 := aux1 j
    let temp2 := aux2 j
    let jp := j + 1
    let jpn := jp + p.n
    if jpn ≤ p.npt then
      let temp := 1 / (temp1 - temp2)
      let zmat := set2 zmat 1 j (sqrt (lit 2 1) / fabs (temp1 * temp2))
      let temp := temp * zmat 1 j
      let zmat := set2 zmat jp j (temp * temp2)
      set2 zmat jpn j (-temp * temp1)
    else zmat) (fun _ _ => 0)
  up (p.npt - (2 * p.np - 1)) (fun l zmat =>
    let k := 2 * p.np - 1 + l
    let ip := (rescuePair p k).1
    let iq := (rescuePair p k).2
    let temp := 1 / (aux1 ip * aux1 iq)
    let zmat := set2 zmat 1 (k - p.np) temp
    let zmat := set2 zmat (ip + 1) (k - p.np) (-temp)
    let zmat := set2 zmat (iq + 1) (k - p.np) (-temp)
    set2 zmat k (k - p.np) temp) zmat

/-- The beginning of `rescue`, `src/bobyqa.c:2015-2128`. -/
def rescueInit (p : Par F) (s : St F) : St F :=
  let xpt := fun k j => s.xpt k j - s.xopt j
  let sl := fun j => s.sl j - s.xopt j
  let su := fun j => s.su j - s.xopt j
  let dist := fun k => acc p.n (fun j => xpt k j * xpt k j) 0
  let winc := up p.npt (fun k t => cmax t (dist k)) 0
  let aux1 := fun j => (auxPair s.delta (sl j) (su j)).1
  let aux2 := fun j => (auxPair s.delta (sl j) (su j)).2
  { s with xpt := xpt, xbase := fun j => s.xbase j + s.xopt j, sl := sl, su := su, xopt := fun _ => 0, hq := rescueH p s xpt, bmat := rescueB p aux1 aux2, zmat := rescueZ p aux1 aux2, res := { aux1 := aux1, aux2 := aux2, ptsid := rescueId p, wdist := dist, winc := winc, fbase := s.fval s.kopt, beta := 0, denom := 0, nrem := p.npt, kold := 1, knew := s.kopt, kpt := 1 } }

/-- `L190`, `src/bobyqa.c:832-838` and the beginning of `rescue`. -/
def l190 (p : Par F) (s : St F) : Lab × St F :=
  (.r80, rescueInit p { s with nfsav := s.nf, kbase := s.kopt })

/-- The rows `a` and `b` of a matrix are exchanged. -/
def swapRows (m : Nat → Nat → F) (a b : Nat) : Nat → Nat → F := fun i j =>
  if i = b then m a j else if i = a then m b j else m i j

/-- `L80` of `rescue`, `src/bobyqa.c:2127-2159`. -/
def r80 (p : Par F) (s : St F) : Lab × St F :=
  let r := s.res
  let bmat := swapRows s.bmat r.kold r.knew
  let zmat := swapRows s.zmat r.kold r.knew
  let ptsid := set1 (set1 r.ptsid r.kold (r.ptsid r.knew)) r.knew none
  let wdist := set1 r.wdist r.knew 0
  let r' := { r with ptsid := ptsid, wdist := wdist, nrem := r.nrem - 1 }
  if r.knew ≠ s.kopt then
    let vlag := set1 (set1 s.vlag r.kold (s.vlag r.knew)) r.knew (s.vlag r.kold)
    let u := update p bmat zmat vlag r.beta r.denom r.knew
    let s := { s with bmat := u.1, zmat := u.2.1, vlag := u.2.2, res := r' }
    if r'.nrem = 0 then (.l190b, s)
    else (.r120, { s with res := { r' with wdist := fun k => fabs (wdist k) } })
  else (.r120, { s with bmat := bmat, zmat := zmat, res := r' })

/-- The scalar product with the point `k` in `rescue`, `src/bobyqa.c:2304-2320`. -/
def rescueProd (p : Par F) (s : St F) (y : Nat → F) (k : Nat) : F :=
  if k ≠ s.kopt then
    match s.res.ptsid k with
    | none => acc p.n (fun j => y j * s.xpt k j) 0
    | some (ip, iq) =>
      let sum := if ip > 0 then y ip * s.res.aux1 ip else 0
      if iq > 0 then sum + y iq * (if ip ≠ 0 then s.res.aux1 iq else s.res.aux2 iq) else sum
  else 0

/-- `VLAG` and `BETA` in `rescue`, `src/bobyqa.c:2299-2361`. -/
def rescueVlag (p : Par F) (s : St F) (y : Nat → F) : (Nat → F) × F :=
  let w := fun k => let sum := rescueProd p s y k; lit 1 2 * sum * sum
  let sums := fun j => acc p.npt (fun k => s.zmat k j * w k) 0
  let vlag1 := fun k => acc p.nptm (fun j => sums j * s.zmat k j) (acc p.n (fun j => s.bmat k j * y j) 0)
  let beta := up p.nptm (fun j t => t - sums j * sums j) 0
  let sum1 := fun j => acc p.npt (fun k => s.bmat k j * w k) 0
  let sum2 := fun j => acc p.n (fun i => s.bmat (p.npt + i) j * y i) (sum1 j)
  let bsum := up p.n (fun j t => t + sum1 j * y j + sum2 j * y j) 0
  let distsq := acc p.n (fun j => y j * y j) 0
  let vlag := fun k => if k ≤ p.npt then vlag1 k else sum2 (k - p.npt)
  (set1 vlag s.kopt (vlag s.kopt + 1), lit 1 2 * distsq * distsq + beta - bsum)

/-- The choice of `KOLD`, `src/bobyqa.c:2368-2383`: `kold`, `denom` and `vlmxsq`. -/
def rescueOld (p : Par F) (s : St F) (vlag : Nat → F) (beta : F) : Nat × F × F :=
  up p.npt (fun k (t : Nat × F × F) =>
    let t :=
      if s.res.ptsid k ≠ none then
        let hdiag := acc p.nptm (fun j => s.zmat k j * s.zmat k j) 0
        let den := beta * hdiag + vlag k * vlag k
        if den > t.2.1 then (k, den, t.2.2) else t
      else t
    (t.1, t.2.1, cmax t.2.2 (vlag k * vlag k))) (s.res.kold, 0, 0)

/-- The original point to reinstate, `src/bobyqa.c:2165-2171`: `knew` and `dsqmin`. -/
def rescuePick (p : Par F) (s : St F) : Nat × F :=
  up p.npt (fun k (t : Nat × F) =>
    if s.res.wdist k > 0 ∧ (t.2 = 0 ∨ s.res.wdist k < t.2) then (k, s.res.wdist k) else t) (s.res.knew, 0)

/-- `L120` of `rescue`, `src/bobyqa.c:2161-2171` and `src/bobyqa.c:2299-2389`. -/
def r120 (p : Par F) (s : St F) : Lab × St F :=
  let pick := rescuePick p s
  if pick.2 = 0 then (.rpts, { s with res := { s.res with kpt := 1 } })
  else
    let knew := pick.1
    let vb := rescueVlag p s (fun j => s.xpt knew j)
    let old := rescueOld p s vb.1 vb.2
    let r := { s.res with knew := knew, beta := vb.2, kold := old.1, denom := old.2.1 }
    if old.2.1 ≤ old.2.2 * lit 1 100 then
      (.r120, { s with vlag := vb.1, res := { r with wdist := set1 r.wdist knew (-r.wdist knew - r.winc) } })
    else (.r80, { s with vlag := vb.1, res := r })

/-- The new position of the point `kpt`, `src/bobyqa.c:2189-2209`. -/
def rescuePoint (s : St F) (id : Nat × Nat) : Nat → F :=
  let v := fun _ => 0
  let v := if id.1 > 0 then set1 v id.1 (s.res.aux1 id.1) else v
  if id.2 > 0 then set1 v id.2 (if id.1 ≠ 0 then s.res.aux1 id.2 else s.res.aux2 id.2) else v

/-- The value of the model at the new point, `src/bobyqa.c:2212-2236`. -/
def rescueQuad (p : Par F) (s : St F) (id : Nat × Nat) : F :=
  let ip := id.1
  let iq := id.2
  let xp := s.res.aux1 ip
  let xq := if ip ≠ 0 then s.res.aux1 iq else s.res.aux2 iq
  let vquad := s.res.fbase
  let vquad := if ip > 0 then vquad + xp * (s.gopt ip + lit 1 2 * xp * s.hq ip ip) else vquad
  let vquad :=
    if iq > 0 then
      let vquad := vquad + xq * (s.gopt iq + lit 1 2 * xq * s.hq iq iq)
      if ip > 0 then vquad + xp * xq * s.hq (min ip iq) (max ip iq) else vquad
    else vquad
  up p.npt (fun k t =>
    let temp := 0
    let temp := if ip > 0 then temp + xp * s.xpt k ip else temp
    let temp := if iq > 0 then temp + xq * s.xpt k iq else temp
    t + lit 1 2 * s.pq k * temp * temp) vquad

/-- The update of `PQ` and `HQ`, `src/bobyqa.c:2268-2294`. -/
def rescueModel (p : Par F) (s : St F) (kpt : Nat) (diff : F) : (Nat → F) × (Nat → Nat → F) :=
  up p.npt (fun k (t : (Nat → F) × (Nat → Nat → F)) =>
    let sum := acc p.nptm (fun j => s.zmat k j * s.zmat kpt j) 0
    let temp := diff * sum
    match s.res.ptsid k with
    | none => (set1 t.1 k (t.1 k + temp), t.2)
    | some (ip, iq) =>
      let a1 := s.res.aux1
      if ip = 0 then (t.1, set2 t.2 iq iq (t.2 iq iq + temp * (s.res.aux2 iq * s.res.aux2 iq)))
      else
        let hq := set2 t.2 ip ip (t.2 ip ip + temp * (a1 ip * a1 ip))
        if iq > 0 then
          let hq := set2 hq iq iq (hq iq iq + temp * (a1 iq * a1 iq))
          (t.1, set2 hq (min ip iq) (max ip iq) (hq (min ip iq) (max ip iq) + temp * a1 ip * a1 iq))
        else (t.1, hq)) (s.pq, s.hq)

/-- The new point is put in `XPT`, `src/bobyqa.c:2186-2209`. -/
def rescueMove (s : St F) (id : Nat × Nat) : St F :=
  let kpt := s.res.kpt
  { s with hq := fun i j => s.hq i j + s.xpt kpt j * s.pq kpt * s.xpt kpt i, pq := set1 s.pq kpt 0, xpt := fun k j => if k = kpt then rescuePoint s id j else s.xpt k j }

/-- The value of the objective function at the new point is used, `src/bobyqa.c:2254-2295`. -/
def rescueTake (p : Par F) (vquad : F) (s : St F) : St F :=
  let kpt := s.res.kpt
  let fval := set1 s.fval kpt s.fl
  let diff := s.fl - vquad
  let m := rescueModel p s kpt diff
  { s with fval := fval, kopt := if s.fl < fval s.kopt then kpt else s.kopt, gopt := fun i => s.gopt i + diff * s.bmat kpt i, pq := m.1, hq := m.2, res := { s.res with ptsid := set1 s.res.ptsid kpt none, kpt := kpt + 1 } }

/-- The call of the objective function in `rescue`, `src/bobyqa.c:2238-2245`; the array of the variables is in
`w`, the array `x` is not changed. -/
def rescueCall (p : Par F) (calfun : Nat → (Nat → F) → F) (s : St F) : St F :=
  call calfun (place p s (fun i => s.xpt s.res.kpt i)) s

/-- One pass of the loop on the new interpolation points, `src/bobyqa.c:2177-2297`. -/
def rpts (p : Par F) (calfun : Nat → (Nat → F) → F) (s : St F) : Lab × St F :=
  if s.res.kpt ≤ p.npt then
    match s.res.ptsid s.res.kpt with
    | none => (.rpts, { s with res := { s.res with kpt := s.res.kpt + 1 } })
    | some id =>
      if p.maxfun ≤ s.nf then (.l190b, { s with res := { s.res with nrem := 0, kpt := 0 } })
      else
        let s := rescueMove s id
        (.rpts, rescueTake p (rescueQuad p s id) (rescueCall p calfun s))
  else (.l190b, s)

/-- After `rescue`, `src/bobyqa.c:843-862`; `kpt = 0` tells that `rescue` has reached the limit (`nf < 0`). -/
def l190b (p : Par F) (s : St F) : Lab × St F :=
  let s :=
    if s.kopt ≠ s.kbase then
      { s with xopt := fun i => s.xpt s.kopt i, xoptsq := acc p.n (fun i => s.xpt s.kopt i * s.xpt s.kopt i) 0 }
    else { s with xoptsq := 0 }
  if s.res.kpt = 0 then fail .tooManyEvaluations s
  else if s.nfsav < s.nf then (.l20, { s with nresc := s.nf, nfsav := s.nf })
  else if s.ntrits > 0 then (.l60, { s with nresc := s.nf })
  else (.l210, { s with nresc := s.nf })

/-! ### `altmov` -/

/-- The column `knew` of `H`, `src/bobyqa.c:1449-1458`. -/
def hcol (p : Par F) (s : St F) (k : Nat) : F := acc p.nptm (fun j => s.zmat s.knew j * s.zmat k j) 0

/-- The gradient of the Lagrange function at `xopt`, `src/bobyqa.c:1463-1476`. -/
def glag (p : Par F) (s : St F) (i : Nat) : F :=
  acc p.npt (fun k => acc p.n (fun j => s.xpt k j * s.xopt j) 0 * hcol p s k * s.xpt k i) (s.bmat s.knew i)

/-- A step along a line: the step, the value of the Lagrange function and the index of the bound
(`i` for the upper bound of `i`, `-i` for the lower bound). -/
structure Line (F : Type) where
  step : F
  vlag : F
  isbd : Int

/-- `SLBD`, `SUBD`, `ILBD` and `IUBD`, `src/bobyqa.c:1495-1525`. -/
def lineBounds (p : Par F) (s : St F) (k : Nat) (distsq : F) : (F × F) × (Int × Int) :=
  let subd := s.adelt / sqrt distsq
  let sumin := cmin 1 subd
  up p.n (fun i (t : (F × F) × (Int × Int)) =>
    let temp := s.xpt k i - s.xopt i
    if temp > 0 then
      let t := if t.1.1 * temp < s.sl i - s.xopt i then (((s.sl i - s.xopt i) / temp, t.1.2), (-(i : Int), t.2.2)) else t
      if t.1.2 * temp > s.su i - s.xopt i then ((t.1.1, cmax ((s.su i - s.xopt i) / temp) sumin), (t.2.1, (i : Int))) else t
    else if temp < 0 then
      let t := if t.1.1 * temp > s.su i - s.xopt i then (((s.su i - s.xopt i) / temp, t.1.2), ((i : Int), t.2.2)) else t
      if t.1.2 * temp < s.sl i - s.xopt i then ((t.1.1, cmax ((s.sl i - s.xopt i) / temp) sumin), (t.2.1, -(i : Int))) else t
    else t) ((-subd, subd), (0, 0))

/-- The best step along the line through the point `knew`, `src/bobyqa.c:1529-1549`. -/
def lineKnew (b : (F × F) × (Int × Int)) (dderiv : F) : Line F :=
  let slbd := b.1.1
  let subd := b.1.2
  let diff := dderiv - 1
  let l : Line F := ⟨slbd, slbd * (dderiv - slbd * diff), b.2.1⟩
  let temp := subd * (dderiv - subd * diff)
  let l := if fabs temp > fabs l.vlag then ⟨subd, temp, b.2.2⟩ else l
  let tempd := lit 1 2 * dderiv
  let tempa := tempd - diff * slbd
  let tempb := tempd - diff * subd
  if tempa * tempb < 0 then
    let temp := tempd * tempd / diff
    if fabs temp > fabs l.vlag then ⟨tempd / diff, temp, 0⟩ else l
  else l

/-- The best step along another line, `src/bobyqa.c:1553-1569`. -/
def lineOther (b : (F × F) × (Int × Int)) (dderiv : F) : Line F :=
  let slbd := b.1.1
  let subd := b.1.2
  let l : Line F := ⟨slbd, slbd * (1 - slbd), b.2.1⟩
  let temp := subd * (1 - subd)
  let l := if fabs temp > fabs l.vlag then ⟨subd, temp, b.2.2⟩ else l
  let l := if subd > lit 1 2 then (if fabs l.vlag < lit 1 4 then ⟨lit 1 2, lit 1 4, 0⟩ else l) else l
  { l with vlag := l.vlag * dderiv }

/-- The search along the lines, `src/bobyqa.c:1483-1582`: `presav`, `ksav`, `stpsav` and `ibdsav`. -/
def lineSearch (p : Par F) (s : St F) : F × Nat × F × Int :=
  let ha := lit 1 2 * hcol p s s.knew
  up p.npt (fun k (t : F × Nat × F × Int) =>
    if k = s.kopt then t
    else
      let dderiv := acc p.n (fun i => glag p s i * (s.xpt k i - s.xopt i)) 0
      let distsq := acc p.n (fun i => (s.xpt k i - s.xopt i) * (s.xpt k i - s.xopt i)) 0
      let b := lineBounds p s k distsq
      let l := if k = s.knew then lineKnew b dderiv else lineOther b dderiv
      let temp := l.step * (1 - l.step) * distsq
      let predsq := l.vlag * l.vlag * (l.vlag * l.vlag + ha * temp * temp)
      if predsq > t.1 then (predsq, k, l.step, l.isbd) else t) (0, 0, 0, 0)

/-- `XPT(ksav,i)`, also for `ksav = 0`: then it is the previous element of the workspace, which is
`XPT(npt,i-1)`, or `xbase[n]` for `i = 1`. -/
def xptAt (p : Par F) (s : St F) (k i : Nat) : F :=
  if k = 0 then (if i = 1 then s.xbase p.n else s.xpt p.npt (i - 1)) else s.xpt k i

/-- `XNEW` of `altmov`, `src/bobyqa.c:1577-1586`. -/
def altNew (p : Par F) (s : St F) : Nat → F :=
  let t := lineSearch p s
  let v := fun i => clamp (s.xopt i + t.2.2.1 * (xptAt p s t.2.1 i - s.xopt i)) (s.sl i) (s.su i)
  let v := if t.2.2.2 < 0 then set1 v (-t.2.2.2).toNat (s.sl (-t.2.2.2).toNat) else v
  if t.2.2.2 > 0 then set1 v t.2.2.2.toNat (s.su t.2.2.2.toNat) else v

/-- The variables of the loop which fixes components of the Cauchy step. -/
structure Fix (F : Type) where
  w : Nat → F
  wfixsq : F
  ggfree : F
  step : F

/-- The initial free components, `src/bobyqa.c:1594-1608`: `w` and `ggfree`. -/
def cauchyFree (p : Par F) (s : St F) (g : Nat → F) : (Nat → F) × F :=
  let bigstp := s.adelt + s.adelt
  let isFree := fun i => cmin (s.xopt i - s.sl i) (g i) > 0 ∨ cmax (s.xopt i - s.su i) (g i) < 0
  (fun i => if isFree i then bigstp else 0, up p.n (fun i t => if isFree i then t + g i * g i else t) 0)

/-- One pass of the loop which fixes components, `src/bobyqa.c:1615-1631`, when `temp > 0`. -/
def fixPass (p : Par F) (s : St F) (g : Nat → F) (c : Fix F) : Fix F :=
  let bigstp := s.adelt + s.adelt
  let step := sqrt ((s.adelt * s.adelt - c.wfixsq) / c.ggfree)
  up p.n (fun i (c : Fix F) =>
    if c.w i = bigstp then
      let temp := s.xopt i - step * g i
      if temp ≤ s.sl i then
        { c with w := set1 c.w i (s.sl i - s.xopt i), wfixsq := c.wfixsq + (s.sl i - s.xopt i) * (s.sl i - s.xopt i) }
      else if temp ≥ s.su i then
        { c with w := set1 c.w i (s.su i - s.xopt i), wfixsq := c.wfixsq + (s.su i - s.xopt i) * (s.su i - s.xopt i) }
      else { c with ggfree := c.ggfree + g i * g i }
    else c) { c with ggfree := 0, step := step }

/-- The loop which fixes components, `src/bobyqa.c:1612-1632`, at most `fuel` passes. -/
def fixLoop (p : Par F) (s : St F) (g : Nat → F) : Nat → Fix F → Fix F
  | 0, c => c
  | fuel + 1, c =>
    if s.adelt * s.adelt - c.wfixsq ≤ 0 then c
    else
      let c' := fixPass p s g c
      if c'.wfixsq > c.wfixsq ∧ c'.ggfree > 0 then fixLoop p s g fuel c' else c'

/-- `XALT` and `w`, `src/bobyqa.c:1636-1651`. -/
def cauchyPoint (s : St F) (g : Nat → F) (c : Fix F) : (Nat → F) × (Nat → F) :=
  let bigstp := s.adelt + s.adelt
  (fun i => if c.w i = bigstp then -c.step * g i else c.w i,
   fun i =>
    if c.w i = bigstp then clamp (s.xopt i + -c.step * g i) (s.sl i) (s.su i)
    else if c.w i = 0 then s.xopt i
    else if g i > 0 then s.sl i else s.su i)

/-- The Cauchy step for the gradient `g`, `src/bobyqa.c:1592-1678`: `xalt` and `cauchy`; `none` if `ggfree` is
zero.  There are at most `n + 1` passes of the inner loop, since each pass but the last one fixes a component.  If
`adelt*adelt` is not positive then the C code uses the previous value of `step`, here it is zero. -/
def cauchyStep (p : Par F) (s : St F) (second : Bool) (g : Nat → F) : Option ((Nat → F) × F) :=
  let free := cauchyFree p s g
  if free.2 = 0 then none
  else
    let c := fixLoop p s g (p.n + 1) ⟨free.1, 0, free.2, 0⟩
    let wx := cauchyPoint s g c
    let gw := acc p.n (fun i => g i * wx.1 i) 0
    let curv := up p.npt (fun k t =>
      let temp := acc p.n (fun j => s.xpt k j * wx.1 j) 0
      t + hcol p s k * temp * temp) 0
    let curv := if second then -curv else curv
    if curv > -gw ∧ curv < -(1 + sqrt (lit 2 1)) * gw then
      let scale := -gw / curv
      let temp := lit 1 2 * gw * scale
      some (fun i => clamp (s.xopt i + scale * wx.1 i) (s.sl i) (s.su i), temp * temp)
    else
      let temp := gw + lit 1 2 * curv
      some (wx.2, temp * temp)

/-- `XALT` and `CAUCHY`, `src/bobyqa.c:1588-1697`. -/
def altCauchy (p : Par F) (s : St F) : (Nat → F) × F :=
  match cauchyStep p s false (glag p s) with
  | none => (s.xalt, 0)
  | some (x1, c1) =>
    match cauchyStep p s true (fun i => -glag p s i) with
    | none => (x1, 0)
    | some (x2, c2) => if c1 > c2 then (x1, c1) else (x2, c2)

/-- `L210`, `src/bobyqa.c:874-880`. -/
def l210 (p : Par F) (s : St F) : Lab × St F :=
  let xnew := altNew p s
  let alt := altCauchy p s
  (.l230, { s with xnew := xnew, xalt := alt.1, cauchy := alt.2, alpha := hcol p s s.knew, d := fun i => xnew i - s.xopt i })

/-! ### The denominator -/

/-- `w[npt+k]`, the scalar products of `XPT` and `D`, `src/bobyqa.c:888-895`. -/
def ptsD (p : Par F) (s : St F) (k : Nat) : F := acc p.n (fun j => s.xpt k j * s.d j) 0

/-- `w[k]`, `src/bobyqa.c:893`. -/
def wvec (p : Par F) (s : St F) (k : Nat) : F :=
  ptsD p s k * (lit 1 2 * ptsD p s k + acc p.n (fun j => s.xpt k j * s.xopt j) 0)

/-- `VLAG` and `BETA`, `src/bobyqa.c:886-925`. -/
def vlagBeta (p : Par F) (s : St F) : (Nat → F) × F :=
  let w := wvec p s
  let sums := fun j => acc p.npt (fun k => s.zmat k j * w k) 0
  let vlag1 := fun k => acc p.nptm (fun j => sums j * s.zmat k j) (acc p.n (fun j => s.bmat k j * s.d j) 0)
  let beta := up p.nptm (fun j t => t - sums j * sums j) 0
  let sum1 := fun j => acc p.npt (fun k => w k * s.bmat k j) 0
  let sum2 := fun j => acc p.n (fun i => s.bmat (p.npt + j) i * s.d i) (sum1 j)
  let bsum := up p.n (fun j t => t + sum1 j * s.d j + sum2 j * s.d j) 0
  let dsq := acc p.n (fun j => s.d j * s.d j) 0
  let dx := acc p.n (fun j => s.d j * s.xopt j) 0
  let beta := dx * dx + dsq * (s.xoptsq + dx + dx + lit 1 2 * dsq) + beta - bsum
  let vlag := fun k => if k ≤ p.npt then vlag1 k else sum2 (k - p.npt)
  (set1 vlag s.kopt (vlag s.kopt + 1), beta)

/-- The choice of the point to replace, `src/bobyqa.c:957-985` and `src/bobyqa.c:1055-1084`, with the distances
to `y`, except the point `skip`: `scaden`, `biglsq`, `knew` and `denom`. -/
def pickKnew (p : Par F) (s : St F) (skip : Nat) (y : Nat → F) : F × F × Nat × F :=
  let delsq := s.delta * s.delta
  up p.npt (fun k (t : F × F × Nat × F) =>
    if k ≠ skip then
      let hdiag := acc p.nptm (fun j => s.zmat k j * s.zmat k j) 0
      let den := s.beta * hdiag + s.vlag k * s.vlag k
      let distsq := acc p.n (fun j => (s.xpt k j - y j) * (s.xpt k j - y j)) 0
      let temp := distsq / delsq
      let temp := cmax 1 (temp * temp)
      let t := if temp * den > t.1 then (temp * den, t.2.1, k, den) else t
      (t.1, cmax t.2.1 (temp * (s.vlag k * s.vlag k)), t.2.2.1, t.2.2.2)
    else t) (0, 0, 0, s.denom)

/-- `rescue` or an error, `src/bobyqa.c:941-946` and `src/bobyqa.c:986-991`. -/
def damaged (s : St F) : Lab × St F := if s.nf > s.nresc then (.l190, s) else fail .roundingErrors s

/-- `L230`, `src/bobyqa.c:886-992`. -/
def l230 (p : Par F) (s : St F) : Lab × St F :=
  let vb := vlagBeta p s
  let s := { s with vlag := vb.1, beta := vb.2, wd := ptsD p s, dsq := acc p.n (fun j => s.d j * s.d j) 0 }
  if s.ntrits = 0 then
    let s := { s with denom := s.vlag s.knew * s.vlag s.knew + s.alpha * s.beta }
    if s.denom < s.cauchy ∧ s.cauchy > 0 then
      (.l230, { s with xnew := s.xalt, d := fun i => s.xalt i - s.xopt i, cauchy := 0 })
    else if s.denom ≤ lit 1 2 * (s.vlag s.knew * s.vlag s.knew) then damaged s
    else (.l360, s)
  else
    let t := pickKnew p s s.kopt s.xopt
    let s := { s with knew := t.2.2.1, denom := t.2.2.2 }
    if t.1 ≤ lit 1 2 * t.2.1 then damaged s else (.l360, s)

/-! ### The evaluation -/

/-- The predicted change, `src/bobyqa.c:1018-1031`. -/
def predicted (p : Par F) (s : St F) : F :=
  let v := up p.n (fun j v => up j (fun i v =>
    let temp := s.d i * s.d j
    v + s.hq i j * (if i = j then lit 1 2 * temp else temp)) (v + s.d j * s.gopt j)) 0
  acc p.npt (fun k => lit 1 2 * s.pq k * (s.wd k * s.wd k)) v

/-- The errors of the model, `src/bobyqa.c:1032-1038`. -/
def errors (p : Par F) (s : St F) : St F :=
  let vquad := predicted p s
  let diff := s.f - s.fval s.kopt - vquad
  { s with vquad := vquad, diff := diff, diffc := s.diffb, diffb := s.diffa, diffa := fabs diff, nfsav := if s.dnorm > s.rho then s.nf else s.nfsav }

/-- The new radius, `src/bobyqa.c:1045-1051`. -/
def newDelta (s : St F) : F :=
  let ratio := (s.f - s.fval s.kopt) / s.vquad
  let delta :=
    if ratio ≤ lit 1 10 then cmin (s.delta * lit 1 2) s.dnorm
    else if ratio ≤ lit 7 10 then cmax (s.delta * lit 1 2) s.dnorm
    else cmax (s.delta * lit 1 2) (s.dnorm + s.dnorm)
  if delta ≤ s.rho * lit 3 2 then s.rho else delta

/-- `KNEW` and `DENOM` are chosen again if the new value is the best, `src/bobyqa.c:1054-1088`. -/
def repick (p : Par F) (s : St F) : St F :=
  if s.f < s.fval s.kopt then
    let t := pickKnew p s 0 s.xnew
    if t.1 ≤ lit 1 2 * t.2.1 then s else { s with knew := t.2.2.1, denom := t.2.2.2 }
  else s

/-- The second derivatives of the model, `src/bobyqa.c:1093-1108`, once `ZMAT` is updated. -/
def updateH (p : Par F) (s : St F) (zmat : Nat → Nat → F) : (Nat → F) × (Nat → Nat → F) :=
  let pqold := s.pq s.knew
  let hq := fun i j => s.hq i j + pqold * s.xpt s.knew j * s.xpt s.knew i
  (fun k => acc p.nptm (fun j => s.diff * zmat s.knew j * zmat k j) (set1 s.pq s.knew 0 k), hq)

/-- The gradient at the old `XOPT`, `src/bobyqa.c:1113-1132`; `xpt`, `bmat`, `zmat` are updated. -/
def updateG (p : Par F) (s : St F) (xpt bmat zmat : Nat → Nat → F) : Nat → F :=
  let w := fun i => acc p.npt (fun k =>
    acc p.nptm (fun j => zmat s.knew j * zmat k j) 0 * acc p.n (fun j => xpt k j * s.xopt j) 0 * xpt k i) (bmat s.knew i)
  fun i => s.gopt i + s.diff * w i

/-- The model and the points are updated, `src/bobyqa.c:1091-1132`. -/
def move (p : Par F) (s : St F) : St F :=
  let u := update p s.bmat s.zmat s.vlag s.beta s.denom s.knew
  let h := updateH p s u.2.1
  let xpt := fun k i => if k = s.knew then s.xnew i else s.xpt k i
  { s with bmat := u.1, zmat := u.2.1, vlag := u.2.2, pq := h.1, hq := h.2, fval := set1 s.fval s.knew s.f, xpt := xpt, gopt := updateG p s xpt u.1 u.2.1 }

/-- `KOPT`, `XOPT` and `GOPT` if the new value is the best, `src/bobyqa.c:1135-1162`. -/
def recenter (p : Par F) (fopt : F) (s : St F) : St F :=
  if s.f < fopt then
    let g := addPoints p.n p.npt s.xpt s.pq s.d (addHess p.n s.hq s.d s.gopt)
    { s with kopt := s.knew, xopt := s.xnew, xoptsq := acc p.n (fun i => s.xnew i * s.xnew i) 0, gopt := g }
  else s

/-- The least Frobenius norm interpolant, `src/bobyqa.c:1167-1196`: `pq` and the gradient at `xopt`. -/
def frobenius (p : Par F) (s : St F) : (Nat → F) × (Nat → F) :=
  let v := fun k => s.fval k - s.fval s.kopt
  let sums := fun j => acc p.npt (fun k => s.zmat k j * v k) 0
  let w := fun k => acc p.nptm (fun j => sums j * s.zmat k j) 0
  (w, fun i => up p.npt (fun k t => t + s.bmat k i * v k + s.xpt k i * (w k * acc p.n (fun j => s.xpt k j * s.xopt j) 0)) 0)

/-- The squares of the norms of the projected gradients, `src/bobyqa.c:1189-1209`: `gqsq` and `gisq`. -/
def gradNorms (p : Par F) (s : St F) (sum : Nat → F) : F × F :=
  let proj := fun i (g : F) => if s.xopt i = s.sl i then cmin 0 g else if s.xopt i = s.su i then cmax 0 g else g
  (acc p.n (fun i => proj i (s.gopt i) * proj i (s.gopt i)) 0, acc p.n (fun i => proj i (sum i) * proj i (sum i)) 0)

/-- The replacement of the model by the least Frobenius norm interpolant, `src/bobyqa.c:1166-1230`. -/
def tryFrobenius (p : Par F) (s : St F) : St F :=
  if s.ntrits > 0 then
    let fr := frobenius p s
    let g := gradNorms p s fr.2
    let itest := if g.1 < lit 10 1 * g.2 then 0 else s.itest + 1
    let s := { s with vlag := fun k => if k = 0 then s.vlag 0 else if k ≤ p.npt then s.fval k - s.fval s.kopt else fr.2 (k - p.npt) }
    if itest ≥ 3 then { s with itest := 0, gopt := fr.2, pq := fr.1, hq := fun _ _ => 0 }
    else { s with itest := itest }
  else s

/-- The next jump, `src/bobyqa.c:1231-1243`. -/
def afterMove (fopt : F) (s : St F) : Lab × St F :=
  if s.ntrits = 0 ∨ s.f ≤ fopt + lit 1 10 * s.vquad then (.l60, s)
  else
    let tempa := lit 2 1 * s.delta
    let tempb := lit 10 1 * s.rho
    (.l650, { s with distsq := cmax (tempa * tempa) (tempb * tempb) })

/-- The new value is included in the model, `src/bobyqa.c:1091-1243`. -/
def absorb (p : Par F) (s : St F) : Lab × St F :=
  if s.knew = 0 then (.wrong, s)
  else afterMove (s.fval s.kopt) (tryFrobenius p (recenter p (s.fval s.kopt) (move p s)))

/-- After the evaluation, `src/bobyqa.c:1016-1243`. -/
def assess (p : Par F) (s : St F) : Lab × St F :=
  let s := errors p s
  if s.ntrits > 0 then
    if s.vquad ≥ 0 then fail .stepFailed s
    else absorb p (repick p { s with ratio := (s.f - s.fval s.kopt) / s.vquad, delta := newDelta s })
  else absorb p s

/-- `L360`, `src/bobyqa.c:993-1243`. -/
def l360 (p : Par F) (calfun : Nat → (Nat → F) → F) (s : St F) : Lab × St F :=
  let s := { s with x := place p s s.xnew }
  if p.maxfun ≤ s.nf then fail .tooManyEvaluations s
  else
    let s := call calfun s.x s
    let s := { s with f := s.fl }
    if s.ntrits = -1 then (.done, { s with fsave := s.f }) else assess p s

/-! ### The end of an iteration -/

/-- The farthest point, `src/bobyqa.c:1245-1255`: `knew` and `distsq`. -/
def farthest (p : Par F) (s : St F) : Nat × F :=
  up p.npt (fun k (t : Nat × F) =>
    let sum := acc p.n (fun j => (s.xpt k j - s.xopt j) * (s.xpt k j - s.xopt j)) 0
    if sum > t.2 then (k, sum) else t) (0, s.distsq)

/-- The point `knew` is going to be moved, `src/bobyqa.c:1263-1274`. -/
def far (s : St F) : St F :=
  let dist := sqrt s.distsq
  let delta :=
    if s.ntrits = -1 then
      let delta := cmin (lit 1 10 * s.delta) (lit 1 2 * dist)
      if delta ≤ s.rho * lit 3 2 then s.rho else delta
    else s.delta
  let adelt := clamp (lit 1 10 * dist) s.rho delta
  { s with delta := delta, ntrits := 0, adelt := adelt, dsq := adelt * adelt }

/-- `L650`, `src/bobyqa.c:1244-1279`. -/
def l650 (p : Par F) (s : St F) : Lab × St F :=
  let t := farthest p s
  let s := { s with knew := t.1, distsq := t.2 }
  if s.knew > 0 then (.l90, far s)
  else if s.ntrits = -1 then (.l680, s)
  else if s.ratio > 0 ∨ cmax s.delta s.dnorm > s.rho then (.l60, s)
  else (.l680, s)

/-- The next value of `RHO`, `src/bobyqa.c:1286-1290`. -/
def newRho (p : Par F) (rho : F) : F :=
  let ratio := rho / p.rhoend
  if ratio ≤ lit 16 1 then p.rhoend else if ratio ≤ lit 250 1 then sqrt ratio * p.rhoend else lit 1 10 * rho

/-- `L680`, `src/bobyqa.c:1283-1317`. -/
def l680 (p : Par F) (s : St F) : Lab × St F :=
  if s.rho > p.rhoend then
    let rho := newRho p s.rho
    (.l60, { s with ratio := s.rho / p.rhoend, rho := rho, delta := cmax (lit 1 2 * s.rho) rho, ntrits := 0, nfsav := s.nf })
  else if s.ntrits = -1 then (.l360, s)
  else (.done, s)

/-- `done`, `src/bobyqa.c:1318-1341`; the value stored in `xbase[1]` is in `W(1)` at the end of `bobyqa_optimize`. -/
def finish (p : Par F) (s : St F) : Lab × St F :=
  let s := if s.fval s.kopt ≤ s.fsave then { s with x := place p s s.xopt, f := s.fval s.kopt } else s
  (.ret, if s.status = .success then { s with xbase := set1 s.xbase 1 s.f } else s)

/-- One step of the machine. -/
def step (p : Par F) (calfun : Nat → (Nat → F) → F) (T : St F → Trs F) : Lab × St F → Lab × St F
  | (.pre, s) => prelim p calfun s
  | (.l20, s) => l20 p s
  | (.l60, s) => l60 p T s
  | (.l90, s) => l90 p s
  | (.l190, s) => l190 p s
  | (.r80, s) => r80 p s
  | (.r120, s) => r120 p s
  | (.rpts, s) => rpts p calfun s
  | (.l190b, s) => l190b p s
  | (.l210, s) => l210 p s
  | (.l230, s) => l230 p s
  | (.l360, s) => l360 p calfun s
  | (.l650, s) => l650 p s
  | (.l680, s) => l680 p s
  | (.done, s) => finish p s
  | (.ret, s) => (.ret, s)
  | (.wrong, s) => (.wrong, s)

/-- Several steps of the machine. -/
def run (p : Par F) (calfun : Nat → (Nat → F) → F) (T : St F → Trs F) : Nat → Lab × St F → Lab × St F
  | 0, ls => ls
  | fuel + 1, ls => run p calfun T fuel (step p calfun T ls)

/-- The beginning of `bobyqb`, `src/bobyqa.c:620-636` and `src/bobyqa.c:1748-1780`: `x`, `sl` and `su` are
given, the other arrays of the workspace are those of `s`. -/
def start (x sl su : Nat → F) (s : St F) : Lab × St F :=
  (.pre, { s with x := x, sl := sl, su := su, xbase := x, xpt := fun _ _ => 0, bmat := fun _ _ => 0, hq := fun _ _ => 0, pq := fun _ => 0, zmat := fun _ _ => 0, adelt := 0, alpha := 0, cauchy := 0, denom := 0, diff := 0, diffc := 0, f := 0, knew := 0, stepa := 0, stepb := 0, fbeg := 0, ipt := 0, jpt := 0, nf := 0, status := .success, log := [] })

/-! ### `bobyqa_optimize` -/

/-- `x[j]`, `SL` and `SU`, `src/bobyqa.c:445-470`. -/
def adjust (rhobeg xl xu x : F) : F × F × F :=
  let temp := xu - xl
  let sl := xl - x
  let su := xu - x
  if sl ≥ -rhobeg then
    if sl ≥ 0 then (xl, 0, temp)
    else (xl + rhobeg, -rhobeg, cmax (xu - (xl + rhobeg)) rhobeg)
  else if su ≤ rhobeg then
    if su ≤ 0 then (xu, -temp, 0)
    else (xu - rhobeg, cmin (xl - (xu - rhobeg)) (-rhobeg), rhobeg)
  else (x, sl, su)

/-- Arguments of `bobyqa_optimize`; arrays start at 1 here; `scl` is `none` if it is `NULL`. -/
structure Args (F : Type) where
  n : Int
  npt : Int
  maximize : Bool
  x : Nat → F
  xl : Nat → F
  xu : Nat → F
  scl : Option (Nat → F)
  rhobeg : F
  rhoend : F
  maxfun : Int

/-- The scaling factors: `none` for an invalid one, `some none` without scaling, `src/bobyqa.c:376-390`. -/
def scaling (n : Nat) (scl : Option (Nat → F)) : Option (Option (Nat → F)) :=
  match scl with
  | none => some none
  | some s =>
    up n (fun j (t : Option (Option (Nat → F))) =>
      match t with
      | none => none
      | some o => if s j ≠ 1 then (if s j - s j ≠ 0 ∨ s j ≤ 0 then none else some (some s)) else some o) (some none)

/-- The index of the first variable whose bounds are too close, or zero, `src/bobyqa.c:441-448`. -/
def firstClose (n : Nat) (rhobeg : F) (xl xu : Nat → F) : Nat :=
  up n (fun j t => if t = 0 ∧ xu j - xl j < rhobeg + rhobeg then j else t) 0

/-- The state at the beginning of `bobyqb` in `bobyqa_optimize` with the scaling factors in use, or the status of an
error with the array of variables, `src/bobyqa.c:350-471`. -/
def prepare (a : Args F) (s : St F) : (Status × (Nat → F)) ⊕ (Par F × Option (Nat → F) × (Lab × St F)) :=
  if a.n < 2 then .inl (.badNvars, a.x)
  else if a.npt < a.n + 2 ∨ a.npt > (a.n + 2) * (a.n + 1) / 2 then .inl (.badNpt, a.x)
  else if a.rhoend ≤ 0 ∨ a.rhoend > a.rhobeg then .inl (.badRhoRange, a.x)
  else
    let n := a.n.toNat
    match scaling n a.scl with
    | none => .inl (.badScaling, a.x)
    | some scl =>
      let scaled := fun (v : Nat → F) => match scl with | none => v | some c => fun j => 1 / c j * v j
      let x := match scl with | none => a.x | some c => fun j => a.x j * (1 / c j)
      let xl := scaled a.xl
      let xu := scaled a.xu
      let t := fun j => adjust a.rhobeg (xl j) (xu j) (x j)
      let k := firstClose n a.rhobeg xl xu
      if k ≠ 0 then .inl (.tooClose, fun j => if j < k then (t j).1 else x j)
      else .inr (⟨n, a.npt.toNat, a.rhobeg, a.rhoend, a.maxfun, xl, xu⟩, scl, start (fun j => (t j).1) (fun j => (t j).2.1) (fun j => (t j).2.2) s)

/-- `scale(dst, n, scl, src)`, `src/bobyqa.c:173-182`, or nothing without scaling. -/
def unscale (scl : Option (Nat → F)) (x : Nat → F) : Nat → F :=
  match scl with | none => x | some c => fun j => c j * x j

/-- `CALL_OBJFUN`, `src/bobyqa.c:114`. -/
def objfun (obj : Nat → (Nat → F) → F) (maximize : Bool) (scl : Option (Nat → F)) : Nat → (Nat → F) → F :=
  fun i x => obj i (unscale scl x) * (if maximize then -1 else 1)

/-- `bobyqa_optimize`, `src/bobyqa.c:333-488`, with at most `fuel` steps: the status, the variables, the value of
`W(1)` and the calls of the objective function (the latest first), or `none` if it does not return after `fuel` steps. -/
def optimize (a : Args F) (obj : Nat → (Nat → F) → F) (T : Par F → St F → Trs F) (s : St F) (fuel : Nat) :
    Option (Status × (Nat → F) × F × List ((Nat → F) × F)) :=
  match prepare a s with
  | .inl e => some (e.1, e.2, s.xbase 1, [])
  | .inr (p, scl, ls) =>
    match run p (objfun obj a.maximize scl) (T p) fuel ls with
    | (.ret, s) =>
      let sgn := if a.maximize then -1 else 1
      some (s.status, unscale scl s.x, s.xbase 1 * sgn, s.log.map fun e => (unscale scl e.1, e.2 * sgn))
    | _ => none

end
end Opk.Bobyqa
