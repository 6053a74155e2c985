import Verif.Cobyla.Model

/-!
# Model of `src/newuoa.c`

The algorithm is a machine whose states are the labels of the code.  The same text of `src/newuoa.c` is compiled twice
(lines 735-1724): as `newuoa_optimize` and, for reverse communication, as `newuoa_iterate`.

Simplifications:
* arrays are functions of indices starting at 1; `HQ` has two indices (`HQ(ih)` with `ih = j(j-1)/2 + i` is
  `hq i j` for `i ≤ j`);
* `trsapp`, `biglag`, `bigden` and `update` are arbitrary functions of the state (`Subs`); `W` stands for the first
  `NPT` elements of the array `W`, which are those used after a call of the objective function;
* the integers do not overflow; nothing is printed;
* the results of `newuoa_optimize` are given with the list of the calls of the objective function.
-/
namespace Opk.Newuoa
open Linalg CMath Cobyla

/-- `newuoa_status`, `src/newuoa.h:43-61` (`initial` is `NEWUOA_INITIAL_ITERATE`). -/
inductive Status where
  | initial | iterate | success | badNvars | badNpt | badRhoRange | badScaling | roundingErrors | tooManyEvaluations
  | stepFailed | badAddress | corrupted
  deriving DecidableEq

/-- The labels; `ask` is the place where the objective function is called. -/
inductive Lab where
  | l50 | l310 | ask | l90 | l100 | l120 | l290 | l410 | l460 | l490 | done | ret
  deriving DecidableEq

/-- The constants of a run. -/
structure Par (F : Type) where
  n : Nat
  npt : Nat
  rhobeg : F
  rhoend : F
  maxfun : Int

/-- `NP`, `src/newuoa.c:858`. -/
def Par.np {F : Type} (p : Par F) : Nat := p.n + 1
/-- `NPTM`, `src/newuoa.c:860`. -/
def Par.nptm {F : Type} (p : Par F) : Nat := p.npt - p.np

/-- The variables, `src/newuoa.c:752-775`. -/
structure St (F : Type) where
  x : Nat → F
  xbase : Nat → F
  xopt : Nat → F
  xnew : Nat → F
  xpt : Nat → Nat → F
  fval : Nat → F
  gq : Nat → F
  hq : Nat → Nat → F
  pq : Nat → F
  bmat : Nat → Nat → F
  zmat : Nat → Nat → F
  d : Nat → F
  vlag : Nat → F
  w : Nat → F
  alpha : F
  beta : F
  crvmin : F
  delta : F
  diff : F
  diffa : F
  diffb : F
  diffc : F
  dnorm : F
  dsq : F
  dstep : F
  f : F
  fbeg : F
  fopt : F
  fsave : F
  ratio : F
  rho : F
  vquad : F
  xipt : F
  xjpt : F
  xoptsq : F
  idz : Nat
  ipt : Nat
  jpt : Nat
  itest : Nat
  knew : Int
  ksave : Int
  kopt : Nat
  nf : Nat
  nfsav : Nat
  status : Status
  log : List ((Nat → F) × F)

/-- The functions which are not modelled. -/
structure Subs (F : Type) where
  /-- `D`, `CRVMIN` and `W` after `trsapp`. -/
  trsapp : St F → (Nat → F) × F × (Nat → F)
  /-- `ALPHA`, `D`, `VLAG` and `W` after `biglag`. -/
  biglag : St F → F × (Nat → F) × (Nat → F) × (Nat → F)
  /-- `D`, `W`, `VLAG`, `BETA` and `XNEW` after `bigden`. -/
  bigden : St F → (Nat → F) × (Nat → F) × (Nat → F) × F × (Nat → F)
  /-- `BMAT`, `ZMAT`, `IDZ`, `VLAG` and `W` after `update`. -/
  update : St F → (Nat → Nat → F) × (Nat → Nat → F) × Nat × (Nat → F) × (Nat → F)

section
variable {F : Type} [Add F] [Sub F] [Mul F] [Div F] [Neg F] [Zero F] [One F] [DecidableEq F]
variable [LT F] [LE F] [DecidableLT F] [DecidableLE F] [CMath F]

/-- `sum += f(j)` for `j` from 1 to `n`. -/
def acc (n : Nat) (f : Nat → F) (a : F) : F := up n (fun j t => t + f j) a

/-- An element is negated if `j < IDZ`. -/
def signed (idz j : Nat) (a : F) : F := if j < idz then -a else a

/-! ### The first points -/

/-- Before the first point, `src/newuoa.c:985-1011`. -/
def init (s : St F) : St F :=
  { s with xbase := s.x, xpt := fun _ _ => 0, bmat := fun _ _ => 0, hq := fun _ _ => 0, pq := fun _ => 0, zmat := fun _ _ => 0, nf := 0 }

/-- The indices `ipt` and `jpt`, `src/newuoa.c:1023-1030`. -/
def pair (p : Par F) (nf : Nat) : Nat × Nat :=
  let nfm := nf - 1
  let itemp := (nfm - p.n - 1) / p.n
  let jpt := nfm - itemp * p.n - p.n
  let ipt := jpt + itemp
  if ipt > p.n then (jpt, ipt - p.n) else (ipt, jpt)

/-- Two coordinates are changed, `src/newuoa.c:1023-1040`; `nf` is already incremented. -/
def pointC (p : Par F) (s : St F) (nf : Nat) : St F :=
  let ipt := (pair p nf).1
  let jpt := (pair p nf).2
  let xipt := if s.fval (ipt + p.np) < s.fval (ipt + 1) then -p.rhobeg else p.rhobeg
  let xjpt := if s.fval (jpt + p.np) < s.fval (jpt + 1) then -p.rhobeg else p.rhobeg
  { s with ipt := ipt, jpt := jpt, xipt := xipt, xjpt := xjpt, xpt := set2 (set2 s.xpt nf ipt xipt) nf jpt xjpt }

/-- The next point, `src/newuoa.c:1013-1041`. -/
def point (p : Par F) (s : St F) (nf : Nat) : St F :=
  let nfm := nf - 1
  if nfm ≤ 2 * p.n then
    if 1 ≤ nfm ∧ nfm ≤ p.n then { s with xpt := set2 s.xpt nf nfm p.rhobeg }
    else if nfm > p.n then { s with xpt := set2 s.xpt nf (nfm - p.n) (-p.rhobeg) }
    else s
  else pointC p s nf

/-- `L50`, `src/newuoa.c:1012-1049`. -/
def l50 (p : Par F) (s : St F) : Lab × St F :=
  let nf := s.nf + 1
  let s := point p s nf
  (.l310, { s with nf := nf, x := fun j => s.xpt nf j + s.xbase j })

/-- `FVAL`, `FOPT` and `KOPT`, `src/newuoa.c:1051-1059`. -/
def store (s : St F) : St F :=
  let fval := set1 s.fval s.nf s.f
  if s.nf = 1 then { s with fval := fval, fbeg := s.f, fopt := s.f, kopt := 1 }
  else if s.f < s.fopt then { s with fval := fval, fopt := s.f, kopt := s.nf }
  else { s with fval := fval }

/-- The model for the points 2 to `n+1`, `src/newuoa.c:1065-1070`. -/
def modelA (p : Par F) (s : St F) : St F :=
  let nfm := s.nf - 1
  let s := { s with gq := set1 s.gq nfm ((s.f - s.fbeg) / p.rhobeg) }
  if p.npt < s.nf + p.n then
    let bmat := set2 s.bmat 1 nfm (-1 / p.rhobeg)
    let bmat := set2 bmat s.nf nfm (1 / p.rhobeg)
    { s with bmat := set2 bmat (p.npt + nfm) nfm (-lit 1 2 * (p.rhobeg * p.rhobeg)) }
  else s

/-- The model for the points `n+2` to `2*n+1`, `src/newuoa.c:1072-1080`. -/
def modelB (p : Par F) (s : St F) : St F :=
  let nfmm := s.nf - 1 - p.n
  let reciq := sqrt (lit 1 2) / (p.rhobeg * p.rhobeg)
  let bmat := set2 s.bmat (s.nf - p.n) nfmm (lit 1 2 / p.rhobeg)
  let bmat := set2 bmat s.nf nfmm (-lit 1 2 / p.rhobeg)
  let zmat := set2 s.zmat 1 nfmm (-reciq - reciq)
  let zmat := set2 zmat (s.nf - p.n) nfmm reciq
  let zmat := set2 zmat s.nf nfmm reciq
  let temp := (s.fbeg - s.f) / p.rhobeg
  { s with bmat := bmat, zmat := zmat, hq := set2 s.hq nfmm nfmm ((s.gq nfmm - temp) / p.rhobeg),
           gq := set1 s.gq nfmm (lit 1 2 * (s.gq nfmm + temp)) }

/-- The model for the other points, `src/newuoa.c:1085-1096`. -/
def modelC (p : Par F) (s : St F) : St F :=
  let nfmm := s.nf - 1 - p.n
  let recip := 1 / (p.rhobeg * p.rhobeg)
  let ipt := if s.xipt < 0 then s.ipt + p.n else s.ipt
  let jpt := if s.xjpt < 0 then s.jpt + p.n else s.jpt
  let zmat := set2 s.zmat 1 nfmm recip
  let zmat := set2 zmat s.nf nfmm recip
  let zmat := set2 zmat (ipt + 1) nfmm (-recip)
  let zmat := set2 zmat (jpt + 1) nfmm (-recip)
  { s with ipt := ipt, jpt := jpt, zmat := zmat,
           hq := set2 s.hq s.jpt s.ipt ((s.fbeg - s.fval (ipt + 1) - s.fval (jpt + 1) + s.f) / (s.xipt * s.xjpt)) }

/-- The model, `src/newuoa.c:1063-1097`. -/
def model (p : Par F) (s : St F) : St F :=
  let nfm := s.nf - 1
  if nfm ≤ 2 * p.n then
    if 1 ≤ nfm ∧ nfm ≤ p.n then modelA p s else if nfm > p.n then modelB p s else s
  else modelC p s

/-- The beginning of the iterations, `src/newuoa.c:1103-1113`. -/
def begin (p : Par F) (s : St F) : Lab × St F :=
  (.l90, { s with rho := p.rhobeg, delta := p.rhobeg, idz := 1, diffa := 0, diffb := 0, itest := 0,
                  xoptsq := acc p.n (fun i => s.xpt s.kopt i * s.xpt s.kopt i) 0, xopt := fun i => s.xpt s.kopt i })

/-- `L70`, `src/newuoa.c:1050-1113`. -/
def l70 (p : Par F) (s : St F) : Lab × St F :=
  let s := model p (store s)
  if s.nf < p.npt then (.l50, s) else begin p s

/-! ### The step -/

/-- The radius after a short step, `src/newuoa.c:1131-1135`. -/
def cut (s : St F) : F :=
  let delta := lit 1 10 * s.delta
  if delta ≤ s.rho * lit 3 2 then s.rho else delta

/-- The step is short, `src/newuoa.c:1130-1144`. -/
def short (s : St F) : Lab × St F :=
  let s := { s with knew := -1, ratio := -1, delta := cut s }
  if s.nf ≤ s.nfsav + 2 then (.l460, s)
  else if s.crvmin * lit 1 8 * s.rho * s.rho ≤ cmax (cmax s.diffa s.diffb) s.diffc then (.l460, s)
  else (.l490, s)

/-- `L100`, `src/newuoa.c:1119-1145`. -/
def l100 (p : Par F) (o : Subs F) (s : St F) : Lab × St F :=
  let s := { s with knew := 0 }
  let t := o.trsapp s
  let dsq := acc p.n (fun i => t.1 i * t.1 i) 0
  let s := { s with d := t.1, crvmin := t.2.1, w := t.2.2, dsq := dsq, dnorm := cmin (sqrt dsq) s.delta }
  if s.dnorm < lit 1 2 * s.rho then short s else (.l120, s)

/-- The changes of the shift which do not depend on `ZMAT`, `src/newuoa.c:1153-1172`: `(gq, xpt, bmat, w(npt+.))`. -/
def shiftA (p : Par F) (s : St F) : (Nat → F) × (Nat → Nat → F) × (Nat → Nat → F) × (Nat → F) :=
  let tempq := s.xoptsq * lit 1 4
  up p.npt (fun k (t : (Nat → F) × (Nat → Nat → F) × (Nat → Nat → F) × (Nat → F)) =>
    let sum := acc p.n (fun i => s.xpt k i * s.xopt i) 0
    let temp := s.pq k * sum
    let sum := sum - lit 1 2 * s.xoptsq
    let half := fun i => s.xpt k i - lit 1 2 * s.xopt i
    let wk := fun i => sum * half i + tempq * s.xopt i
    (fun i => t.1 i + temp * s.xpt k i,
     fun a i => if a = k then half i else t.2.1 a i,
     fun a j => if p.npt < a ∧ j ≤ a - p.npt then t.2.2.1 a j + t.2.2.1 k (a - p.npt) * wk j + wk (a - p.npt) * t.2.2.1 k j else t.2.2.1 a j,
     set1 t.2.2.2 k sum)) (s.gq, s.xpt, s.bmat, s.w)

/-- The revisions of `BMAT` that depend on `ZMAT`, `src/newuoa.c:1175-1204`. -/
def shiftB (p : Par F) (s : St F) (xpt : Nat → Nat → F) (sums : Nat → F) (bmat : Nat → Nat → F) : Nat → Nat → F :=
  let tempq := s.xoptsq * lit 1 4
  up p.nptm (fun k b =>
    let sumz := acc p.npt (fun i => s.zmat i k) 0
    let vl := fun j => acc p.npt (fun i => sums i * s.zmat i k * xpt i j) (tempq * sumz * s.xopt j)
    fun a j =>
      if a ≤ p.npt then b a j + signed s.idz k (vl j) * s.zmat a k
      else if j ≤ a - p.npt then b a j + signed s.idz k (vl (a - p.npt)) * vl j
      else b a j) bmat

/-- The gradient at the new origin, `src/newuoa.c:1215-1220`. -/
def shiftG (p : Par F) (s : St F) (gq : Nat → F) : Nat → F :=
  up p.n (fun j g => up j (fun i g =>
    let g := if i < j then set1 g j (g j + s.hq i j * s.xopt i) else g
    set1 g i (g i + s.hq i j * s.xopt j)) g) gq

/-- `XBASE` is shifted, `src/newuoa.c:1150-1230`. -/
def shift (p : Par F) (s : St F) : St F :=
  let t := shiftA p s
  let bmat := shiftB p s t.2.1 t.2.2.2 t.2.2.1
  let w := fun j => acc p.npt (fun k => s.pq k * t.2.1 k j) 0
  { s with gq := shiftG p s t.1,
           hq := fun i j => if i ≤ j then s.hq i j + w i * s.xopt j + s.xopt i * w j else s.hq i j,
           bmat := fun a j => if p.npt < a ∧ a - p.npt ≤ j then bmat (p.npt + j) (a - p.npt) else bmat a j,
           xpt := fun k j => t.2.1 k j - lit 1 2 * s.xopt j,
           xbase := fun j => s.xbase j + s.xopt j, xopt := fun _ => 0, xoptsq := 0 }

/-- The first `NPT` elements of `W_check`, `src/newuoa.c:1243-1252`. -/
def wcheck (p : Par F) (s : St F) : Nat → F := fun k =>
  let suma := acc p.n (fun j => s.xpt k j * s.d j) 0
  let sumb := acc p.n (fun j => s.xpt k j * s.xopt j) 0
  suma * (lit 1 2 * suma + sumb)

/-- `VLAG` and `BETA`, `src/newuoa.c:1243-1289`. -/
def lagrange (p : Par F) (s : St F) : St F :=
  let w := wcheck p s
  let t := up p.nptm (fun k (t : F × (Nat → F)) =>
    let sum := acc p.npt (fun i => s.zmat i k * w i) 0
    (if k < s.idz then t.1 + sum * sum else t.1 - sum * sum, fun i => t.2 i + signed s.idz k sum * s.zmat i k))
    ((0 : F), fun k => acc p.n (fun j => s.bmat k j * s.d j) 0)
  let row := fun j => acc p.npt (fun i => w i * s.bmat i j) 0
  let full := fun j => acc p.n (fun k => s.bmat (p.npt + j) k * s.d k) (row j)
  let bsum := acc p.n (fun j => row j * s.d j + full j * s.d j) 0
  let dx := acc p.n (fun j => s.d j * s.xopt j) 0
  let vlag := fun k => if k ≤ p.npt then t.2 k else full (k - p.npt)
  { s with w := w, vlag := set1 vlag s.kopt (vlag s.kopt + 1),
           beta := dx * dx + s.dsq * (s.xoptsq + dx + dx + lit 1 2 * s.dsq) + t.1 - bsum }

/-- `L120`, `src/newuoa.c:1149-1301`. -/
def l120 (p : Par F) (o : Subs F) (s : St F) : Lab × St F :=
  let s := if s.dsq ≤ s.xoptsq * lit 1 1000 then shift p s else s
  let s := if s.knew > 0 then
      let t := o.biglag s
      { s with alpha := t.1, d := t.2.1, vlag := t.2.2.1, w := t.2.2.2 }
    else s
  let s := lagrange p s
  let s := if s.knew > 0 ∧ fabs (1 + s.alpha * s.beta / (s.vlag s.knew.toNat * s.vlag s.knew.toNat)) ≤ lit 4 5 then
      let t := o.bigden s
      { s with d := t.1, w := t.2.1, vlag := t.2.2.1, beta := t.2.2.2.1, xnew := t.2.2.2.2 }
    else s
  (.l290, s)

/-- `L290`, `src/newuoa.c:1304-1309`. -/
def l290 (s : St F) : Lab × St F :=
  (.l310, { s with xnew := fun i => s.xopt i + s.d i, x := fun i => s.xbase i + (s.xopt i + s.d i), nf := s.nf + 1 })

/-- `L310`, `src/newuoa.c:1310-1316`. -/
def l310 (p : Par F) (s : St F) : Lab × St F :=
  if (s.nf : Int) > max p.maxfun 1 then (.done, { s with nf := s.nf - 1, status := .tooManyEvaluations }) else (.ask, s)

/-! ### After an evaluation -/

/-- The predicted change, `src/newuoa.c:1357-1372`. -/
def predicted (p : Par F) (s : St F) : F :=
  let q := up p.n (fun j t => up j (fun i t =>
    let temp := s.d i * s.xnew j + s.d j * s.xopt i
    t + (if i = j then lit 1 2 * temp else temp) * s.hq i j) (t + s.d j * s.gq j)) (0 : F)
  acc p.npt (fun k => s.pq k * s.w k) q

/-- The errors of the predictions, and the best point, `src/newuoa.c:1357-1393`. -/
def errors (p : Par F) (s : St F) : St F :=
  let vquad := predicted p s
  let diff := s.f - s.fopt - vquad
  let s := { s with vquad := vquad, diff := diff, diffc := s.diffb, diffb := s.diffa, diffa := fabs diff,
                    nfsav := if s.dnorm > s.rho then s.nf else s.nfsav, fsave := s.fopt, ksave := s.knew }
  if s.f < s.fopt then { s with fopt := s.f, xopt := s.xnew, xoptsq := acc p.n (fun i => s.xnew i * s.xnew i) 0 } else s

/-- The new radius, `src/newuoa.c:1405-1417`. -/
def newDelta (s : St F) : F :=
  let delta := if s.ratio ≤ lit 1 10 then lit 1 2 * s.dnorm
    else if s.ratio ≤ lit 7 10 then cmax (s.delta * lit 1 2) s.dnorm
    else cmax (s.delta * lit 1 2) (s.dnorm + s.dnorm)
  if delta ≤ s.rho * lit 3 2 then s.rho else delta

/-- The index of the point to be deleted, `src/newuoa.c:1420-1452`; zero if there is none. -/
def pickKnew (p : Par F) (s : St F) : Nat :=
  let tempa := cmax (lit 1 10 * s.delta) s.rho
  let rhosq := tempa * tempa
  (up p.npt (fun k (t : Nat × F) =>
    let hdiag := acc p.nptm (fun j => signed s.idz j 1 * (s.zmat k j * s.zmat k j)) 0
    let temp := fabs (s.beta * hdiag + s.vlag k * s.vlag k)
    let distsq := acc p.n (fun j => (s.xpt k j - s.xopt j) * (s.xpt k j - s.xopt j)) 0
    let temp := if distsq > rhosq then temp * (distsq / rhosq * (distsq / rhosq) * (distsq / rhosq)) else temp
    if temp > t.2 ∧ ¬ (s.f ≥ s.fsave ∧ k = s.kopt) then (k, temp) else t) (0, if s.f ≥ s.fsave then 1 else 0)).1

/-- After an evaluation, `src/newuoa.c:1347-1455`. -/
def after (p : Par F) (s : St F) : Lab × St F :=
  if s.nf ≤ p.npt then l70 p s
  else if s.knew = -1 then (.done, { s with status := .success })
  else
    let s := errors p s
    if s.knew > 0 then (.l410, s)
    else if s.vquad ≥ 0 then (.done, { s with status := .stepFailed })
    else
      let s := { s with ratio := (s.f - s.fsave) / s.vquad }
      let s := { s with delta := newDelta s }
      let s := { s with knew := pickKnew p s }
      if s.knew = 0 then (.l460, s) else (.l410, s)

/-! ### The next model -/

/-- The point is moved and the model is updated, `src/newuoa.c:1461-1490`. -/
def move (p : Par F) (o : Subs F) (s : St F) : St F :=
  let t := o.update s
  let k := s.knew.toNat
  let s := { s with bmat := t.1, zmat := t.2.1, idz := t.2.2.1, vlag := t.2.2.2.1, w := t.2.2.2.2, fval := set1 s.fval k s.f }
  let hq := fun j i => if j ≤ i then s.hq j i + s.pq k * s.xpt k i * s.xpt k j else s.hq j i
  let pq := up p.nptm (fun j q =>
    let temp := signed s.idz j (s.diff * s.zmat k j)
    fun a => q a + temp * s.zmat a j) (set1 s.pq k 0)
  { s with hq := hq, pq := pq, gq := fun i => s.gq i + s.diff * s.bmat k i, xpt := fun a i => if a = k then s.xnew i else s.xpt a i }

/-- The model is replaced by the least Frobenius norm interpolant, `src/newuoa.c:1520-1541`. -/
def frobenius (p : Par F) (s : St F) (vlag w : Nat → F) : St F :=
  let wz := fun j => signed s.idz j (acc p.npt (fun k => vlag k * s.zmat k j) 0)
  { s with gq := w, hq := fun _ _ => 0, pq := fun k => acc p.nptm (fun j => s.zmat k j * wz j) 0, vlag := vlag, w := wz, itest := 0 }

/-- The test of the model, `src/newuoa.c:1495-1544`. -/
def tryFrobenius (p : Par F) (s : St F) : St F :=
  if s.ksave = 0 ∧ s.delta = s.rho then
    if fabs s.ratio > lit 1 100 then { s with itest := 0 }
    else
      let gqsq := acc p.n (fun i => s.gq i * s.gq i) 0
      let vlag := fun k => if 1 ≤ k ∧ k ≤ p.npt then s.fval k - s.fval s.kopt else s.vlag k
      let w := fun i => acc p.npt (fun k => s.bmat k i * vlag k) 0
      let gisq := acc p.n (fun i => w i * w i) 0
      let itest := if gqsq < gisq * lit 100 1 then 0 else s.itest + 1
      if 3 ≤ itest then frobenius p s vlag w else { s with vlag := vlag, w := w, itest := itest }
  else s

/-- `L410`, `src/newuoa.c:1460-1558`. -/
def l410 (p : Par F) (o : Subs F) (s : St F) : Lab × St F :=
  let s := tryFrobenius p (move p o s)
  let s := { s with kopt := if s.f < s.fsave then s.knew.toNat else s.kopt }
  if s.f ≤ s.fsave + lit 1 10 * s.vquad ∨ s.ksave > 0 then (.l100, s) else (.l460, { s with knew := 0 })

/-- The farthest point, `src/newuoa.c:1560-1571`. -/
def farthest (p : Par F) (s : St F) : Nat × F :=
  up p.npt (fun k (t : Nat × F) =>
    let sum := acc p.n (fun j => (s.xpt k j - s.xopt j) * (s.xpt k j - s.xopt j)) 0
    if sum > t.2 then (k, sum) else t) (0, s.delta * lit 4 1 * s.delta)

/-- `L460`, `src/newuoa.c:1559-1585`; `KNEW` is -1 or 0 at the beginning. -/
def l460 (p : Par F) (s : St F) : Lab × St F :=
  let t := farthest p s
  let s := { s with knew := if t.1 = 0 then s.knew else t.1 }
  if s.knew > 0 then
    let dstep := cmax (cmin (lit 1 10 * sqrt t.2) (lit 1 2 * s.delta)) s.rho
    (.l120, { s with dstep := dstep, dsq := dstep * dstep })
  else if s.ratio > 0 ∨ cmax s.delta s.dnorm > s.rho then (.l100, s)
  else (.l490, s)

/-- The next value of `RHO`, `src/newuoa.c:1592-1599`. -/
def newRho (p : Par F) (rho : F) : F :=
  let ratio := rho / p.rhoend
  if ratio ≤ lit 16 1 then p.rhoend else if ratio ≤ lit 250 1 then sqrt ratio * p.rhoend else lit 1 10 * rho

/-- `L490`, `src/newuoa.c:1589-1632`. -/
def l490 (p : Par F) (s : St F) : Lab × St F :=
  if s.rho > p.rhoend then
    let rho := newRho p s.rho
    (.l90, { s with ratio := s.rho / p.rhoend, rho := rho, delta := cmax (lit 1 2 * s.rho) rho })
  else if s.knew = -1 then (.l290, s)
  else (.done, { s with status := .success })

/-- `done`, `src/newuoa.c:1633-1639`. -/
def finish (s : St F) : Lab × St F :=
  (.ret, if s.fopt ≤ s.f then { s with x := fun i => s.xbase i + s.xopt i, f := s.fopt } else s)

/-- One step of the machine; it waits at the label `ask`. -/
def step (p : Par F) (o : Subs F) : Lab × St F → Lab × St F
  | (.l50, s) => l50 p s
  | (.l310, s) => l310 p s
  | (.ask, s) => (.ask, s)
  | (.l90, s) => (.l100, { s with nfsav := s.nf })
  | (.l100, s) => l100 p o s
  | (.l120, s) => l120 p o s
  | (.l290, s) => l290 s
  | (.l410, s) => l410 p o s
  | (.l460, s) => l460 p s
  | (.l490, s) => l490 p s
  | (.done, s) => finish s
  | (.ret, s) => (.ret, s)

/-- The value `f` at `X` is stored, `src/newuoa.c:1329-1333`. -/
def put (f : F) (s : St F) : St F := { s with f := f, log := (s.x, f) :: s.log }

/-- The value of the objective function is known, `src/newuoa.c:1329-1333`. -/
def answer (p : Par F) (f : F) (s : St F) : Lab × St F := after p (put f s)

/-- The machine with the objective function. -/
def stepF (p : Par F) (o : Subs F) (calfun : Nat → (Nat → F) → F) : Lab × St F → Lab × St F
  | (.ask, s) => answer p (calfun s.log.length s.x) s
  | ls => step p o ls

/-- Several steps of the machine with the objective function. -/
def run (p : Par F) (o : Subs F) (calfun : Nat → (Nat → F) → F) : Nat → Lab × St F → Lab × St F
  | 0, ls => ls
  | fuel + 1, ls => run p o calfun fuel (stepF p o calfun ls)

/-! ### `newuoa_optimize` -/

/-- Arguments of `newuoa_optimize`; arrays start at 1 here; `scl` is `none` if it is `NULL`. -/
structure Args (F : Type) where
  n : Int
  npt : Int
  maximize : Bool
  x : Nat → F
  scl : Option (Nat → F)
  rhobeg : F
  rhoend : F
  maxfun : Int

/-- The scaling factors: `none` for an invalid one, `some none` without scaling, `src/newuoa.c:865-880`. -/
def scaling (n : Nat) (scl : Option (Nat → F)) : Option (Option (Nat → F)) :=
  match scl with
  | none => some none
  | some s =>
    up n (fun j (t : Option (Option (Nat → F))) =>
      match t with
      | none => none
      | some o => if s j ≠ 1 then (if s j - s j ≠ 0 ∨ s j ≤ 0 then none else some (some s)) else some o) (some none)

/-- Some variables are set, `src/newuoa.c:893-913`; the arrays are in the workspace given by the caller. -/
def fresh (s : St F) : St F :=
  { s with idz := 0, ipt := 0, itest := 0, jpt := 0, knew := 0, kopt := 0, nfsav := 0, alpha := 0, crvmin := 0, delta := 0,
           diffa := 0, diffb := 0, diffc := 0, dnorm := 0, f := 0, fbeg := 0, fopt := 0, ratio := 0, rho := 0, xoptsq := 0, log := [] }

/-- The state at the beginning of the iterations, or the status of an error; `s` holds the uninitialized variables and
the workspace, `src/newuoa.c:837-1011`. -/
def prepare (a : Args F) (s : St F) : Status ⊕ (Par F × Option (Nat → F) × (Lab × St F)) :=
  if a.n < 2 then .inl .badNvars
  else if a.npt < a.n + 2 ∨ a.npt > (a.n + 2) * (a.n + 1) / 2 then .inl .badNpt
  else if a.rhoend ≤ 0 ∨ a.rhoend > a.rhobeg then .inl .badRhoRange
  else
    match scaling a.n.toNat a.scl with
    | none => .inl .badScaling
    | some scl =>
      let x := match scl with | none => a.x | some c => fun j => a.x j / c j
      .inr (⟨a.n.toNat, a.npt.toNat, a.rhobeg, a.rhoend, a.maxfun⟩, scl, (.l50, init { fresh s with x := x }))

/-- The variables of the user, `src/newuoa.c:1332` and `src/newuoa.c:1643-1647` (where the product is the other way round). -/
def unscale (scl : Option (Nat → F)) (x : Nat → F) : Nat → F :=
  match scl with | none => x | some c => fun j => c j * x j

/-- The value for the algorithm, `src/newuoa.c:1332-1346`. -/
def objfun (obj : Nat → (Nat → F) → F) (maximize : Bool) (scl : Option (Nat → F)) : Nat → (Nat → F) → F :=
  fun i x => if maximize then -obj i (unscale scl x) else obj i (unscale scl x)

/-- `newuoa_optimize`, `src/newuoa.c:735-1724`, with at most `fuel` steps: the status, the variables, the value of
`work[0]` (if it is set) and the calls of the objective function (the latest first), or `none` if it does not return after
`fuel` steps. -/
def optimize (a : Args F) (o : Par F → Subs F) (obj : Nat → (Nat → F) → F) (s : St F) (fuel : Nat) :
    Option (Status × (Nat → F) × Option F × List ((Nat → F) × F)) :=
  match prepare a s with
  | .inl e => some (e, a.x, none, [])
  | .inr (p, scl, ls) =>
    match run p (o p) (objfun obj a.maximize scl) fuel ls with
    | (.ret, s) =>
      some (s.status, unscale scl s.x, some (if a.maximize then -s.f else s.f), s.log.map fun e => (unscale scl e.1, if a.maximize then -e.2 else e.2))
    | _ => none

/-! ### Reverse communication -/

/-- `newuoa_context`, `src/newuoa.c:453-519`: the constants, the saved variables, the number of calls and the status. -/
structure Ctx (F : Type) where
  par : Par F
  st : St F
  nevals : Nat
  status : Status

/-- `newuoa_create`, `src/newuoa.c:525-603`; `ok` tells whether `malloc` succeeds, `zero` is a state whose variables are
all zero. -/
def create (n npt : Int) (rhobeg rhoend : F) (maxfun : Int) (ok : Bool) (zero : St F) : Option (Ctx F) :=
  if n < 0 then none
  else if npt < n + 2 ∨ npt > (n + 2) * (n + 1) / 2 then none
  else if rhoend ≤ 0 ∨ rhoend > rhobeg then none
  else if maxfun < 1 then none
  else if ok then some ⟨⟨n.toNat, npt.toNat, rhobeg, rhoend, maxfun⟩, zero, 0, .iterate⟩ else none

/-- `newuoa_restart`, `src/newuoa.c:613-623`. -/
def restart (ctx : Option (Ctx F)) : Status × Option (Ctx F) :=
  match ctx with
  | none => (.badAddress, none)
  | some c => (.iterate, some { c with nevals := 0, status := .iterate })

/-- `newuoa_get_status`, `src/newuoa.c:625-633`. -/
def getStatus (ctx : Option (Ctx F)) : Status := match ctx with | none => .badAddress | some c => c.status

/-- `newuoa_get_nevals`, `src/newuoa.c:635-643`. -/
def getNevals (ctx : Option (Ctx F)) : Int := match ctx with | none => -1 | some c => c.nevals

/-- `newuoa_get_rho`, `src/newuoa.c:645-653`. -/
def getRho (ctx : Option (Ctx F)) : F := match ctx with | none => -1 | some c => c.st.rho

/-- Steps of the machine until it asks for a value or returns; `none` if this does not happen after `fuel` steps. -/
def go (p : Par F) (o : Subs F) : Nat → Lab × St F → Option (Lab × St F)
  | _, (.ask, s) => some (.ask, s)
  | _, (.ret, s) => some (.ret, s)
  | 0, _ => none
  | fuel + 1, ls => go p o fuel (step p o ls)

/-- The end of `newuoa_iterate`: the variables are saved. -/
def save (c : Ctx F) : Lab × St F → Status × (Nat → F) × Ctx F
  | (.ask, s) => (.iterate, s.x, { c with st := s, status := .iterate })
  | (_, s) => (s.status, s.x, { c with st := s, status := s.status })

/-- The first point is that of the caller: `L50`, `L310` and the value `f`. -/
def first (p : Par F) (f : F) (s : St F) : Lab × St F :=
  match l310 p (l50 p s).2 with
  | (.ask, s) => answer p f s
  | ls => ls

/-- `newuoa_iterate`, `src/newuoa.c:735-1724`: the status, the variables and the context, or `none` if it does not return
after `fuel` steps. -/
def iterate (o : Par F → Subs F) (fuel : Nat) (ctx : Option (Ctx F)) (f : F) (x : Option (Nat → F)) :
    Option (Status × Option (Nat → F) × Option (Ctx F)) :=
  match ctx with
  | none => some (.badAddress, x, none)
  | some c =>
    match x with
    | none => some (.badAddress, none, some { c with status := .badAddress })
    | some x =>
      if c.status ≠ .iterate then some (.corrupted, some x, some { c with status := .corrupted })
      else
        let c := { c with nevals := c.nevals + 1 }
        let ls := if c.nevals > 1 then answer c.par f { c.st with x := x }
          else first c.par f (init { c.st with x := x, log := [] })
        (go c.par (o c.par) fuel ls).map fun ls =>
          let t := save c ls
          (t.1, some t.2.1, some t.2.2)

end
end Opk.Newuoa
