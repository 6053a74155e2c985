import Verif.Bobyqa.Model
/-!
# BOBYQA: `trsbox`, `src/bobyqa.c:2396-2861`

The routine is a machine: a label and the values of the variables which live across labels.

* The conventions on arrays and on `HQ` are those of `Verif.Bobyqa.Model`.
* The label 190 is in `Bobyqa.boxStep` and in `Bobyqa.l60`: the machine stops there.
* The product by the matrix of the second derivatives (label 210) is a function; the array `HS` is zeroed before the loop
  instead of in the loop (no element is read before it is zeroed).
* `iu = (INTEGER)(angbd*17.0 + 3.1)` is the number of integers in 1, ..., 20 which are not greater than this value
  (`angbd` is between 0 and 1).
* `rdprev`, which the C code does not initialize, has any value at the beginning (given by the caller of the model).
-/
namespace Opk.Bobyqa
open Linalg CMath Cobyla

/-- The arguments of `trsbox` which are not outputs. -/
structure Box (F : Type) where
  n : Nat
  npt : Nat
  xpt : Nat → Nat → F
  xopt : Nat → F
  gopt : Nat → F
  hq : Nat → Nat → F
  pq : Nat → F
  sl : Nat → F
  su : Nat → F
  delta : F

/-- The labels of `trsbox`; `t210` is in the steps which jump to it. -/
inductive TLab where
  | t20 | t30 | t50 | t90 | t100 | t120 | t150 | t190
deriving DecidableEq, Repr

/-- The variables of `trsbox`. -/
structure Tb (F : Type) where
  d : Nat → F
  gnew : Nat → F
  xbdi : Nat → F
  s : Nat → F
  hs : Nat → F
  hred : Nat → F
  angbd : F
  beta : F
  crvmin : F
  delsq : F
  dredg : F
  dredsq : F
  ggsav : F
  gredsq : F
  qred : F
  rdnext : F
  rdprev : F
  sredg : F
  stepsq : F
  xsav : F
  iact : Nat
  itcsav : Nat
  iterc : Nat
  itermax : Int
  nact : Nat

section
variable {F : Type} [Add F] [Sub F] [Mul F] [Div F] [Neg F] [Zero F] [One F] [DecidableEq F]
variable [LT F] [LE F] [DecidableLT F] [DecidableLE F] [CMath F]

/-- `sum += f(i)` for the free variables, `if (xbdi[i] == zero)`. -/
def accF (n : Nat) (xbdi : Nat → F) (f : Nat → F) (a : F) : F := up n (fun i t => if xbdi i = 0 then t + f i else t) a

/-- The bound at which a variable is fixed at the beginning, `src/bobyqa.c:2499-2508`. -/
def fixed0 (b : Box F) (i : Nat) : F :=
  if b.xopt i ≤ b.sl i then (if b.gopt i ≥ 0 then -1 else 0)
  else if b.xopt i ≥ b.su i then (if b.gopt i ≤ 0 then 1 else 0)
  else 0

/-- The beginning of `trsbox`, `src/bobyqa.c:2478-2517`; `t` holds the variables and arrays which are not initialized. -/
def tInit (b : Box F) (t : Tb F) : TLab × Tb F :=
  (.t20, { t with angbd := 0, dredg := 0, dredsq := 0, ggsav := 0, gredsq := 0, rdnext := 0, sredg := 0, xsav := 0, iact := 0, itcsav := 0,
                  itermax := 0, iterc := 0, nact := up b.n (fun i m => if fixed0 b i ≠ 0 then m + 1 else m) 0,
                  xbdi := fixed0 b, d := fun _ => 0, gnew := b.gopt, delsq := b.delta * b.delta, qred := 0, crvmin := -1 })

/-- `HS`, the product of `S` by the second derivatives, `src/bobyqa.c:2828-2850`. -/
def mulHess (b : Box F) (s : Nat → F) : Nat → F :=
  up b.npt (fun k g =>
    if b.pq k ≠ 0 then
      let temp := acc b.n (fun j => b.xpt k j * s j) 0 * b.pq k
      fun i => g i + temp * b.xpt k i
    else g) (addHess b.n b.hq s (fun _ => 0))

/-- `L210`, `src/bobyqa.c:2827-2860`: the product and the jump. -/
def t210 (b : Box F) (t : Tb F) : TLab × Tb F :=
  let t := { t with hs := mulHess b t.s }
  if t.crvmin ≠ 0 then (.t50, t)
  else if t.iterc > t.itcsav then (.t150, t)
  else (.t120, { t with hred := t.hs })

/-- `L30`, `src/bobyqa.c:2526-2548`. -/
def t30 (b : Box F) (t : Tb F) : TLab × Tb F :=
  let s := fun i => if t.xbdi i ≠ 0 then 0 else if t.beta = 0 then -t.gnew i else t.beta * t.s i - t.gnew i
  let t := { t with s := s, stepsq := acc b.n (fun i => s i * s i) 0 }
  if t.stepsq = 0 then (.t190, t)
  else
    let t := if t.beta = 0 then { t with gredsq := t.stepsq, itermax := (t.iterc : Int) + b.n - t.nact } else t
    if t.gredsq * t.delsq ≤ t.qred * lit 1 10000 * t.qred then (.t190, t) else t210 b t

/-- `BLEN`, the step to the boundary of the trust region, `src/bobyqa.c:2568-2573`. -/
def boundary (stepsq resid ds : F) : F :=
  let temp := sqrt (stepsq * resid + ds * ds)
  if ds < 0 then (temp - ds) / stepsq else resid / (temp + ds)

/-- `STPLEN` and `IACT`, limited by the bounds, `src/bobyqa.c:2583-2597`. -/
def limited (b : Box F) (t : Tb F) (stplen : F) : F × Nat :=
  up b.n (fun i (r : F × Nat) =>
    if t.s i ≠ 0 then
      let xsum := b.xopt i + t.d i
      let temp := if t.s i > 0 then (b.su i - xsum) / t.s i else (b.sl i - xsum) / t.s i
      if temp < r.1 then (temp, i) else r
    else r) (stplen, 0)

/-- `CRVMIN`, `src/bobyqa.c:2603-2609`. -/
def newCrvmin (crvmin temp : F) (iact : Nat) : F :=
  if iact = 0 ∧ temp > 0 then
    let c := cmin crvmin temp
    if c = -1 then temp else c
  else crvmin

/-- The step, `src/bobyqa.c:2600-2621`: the new state and `SDEC`. -/
def tStep (b : Box F) (stplen : F) (iact : Nat) (shs : F) (t : Tb F) : Tb F × F :=
  if stplen > 0 then
    let gnew := fun i => t.gnew i + stplen * t.hs i
    let sdec := cmax (stplen * (t.gredsq - lit 1 2 * stplen * shs)) 0
    ({ t with iact := iact, iterc := t.iterc + 1, crvmin := newCrvmin t.crvmin (shs / t.stepsq) iact, ggsav := t.gredsq, gnew := gnew,
              gredsq := accF b.n t.xbdi (fun i => gnew i * gnew i) 0, d := fun i => t.d i + stplen * t.s i, qred := t.qred + sdec }, sdec)
  else ({ t with iact := iact }, 0)

/-- The variable `iact` is fixed, `src/bobyqa.c:2624-2632`. -/
def tFix (t : Tb F) : TLab × Tb F :=
  let t := { t with nact := t.nact + 1, xbdi := set1 t.xbdi t.iact (if t.s t.iact < 0 then -1 else 1),
                    delsq := t.delsq - t.d t.iact * t.d t.iact }
  if t.delsq ≤ 0 then (.t90, t) else (.t20, t)

/-- `L50`, `src/bobyqa.c:2550-2642`. -/
def t50 (b : Box F) (t : Tb F) : TLab × Tb F :=
  let resid := up b.n (fun i r => if t.xbdi i = 0 then r - t.d i * t.d i else r) t.delsq
  let ds := accF b.n t.xbdi (fun i => t.s i * t.d i) 0
  let shs := accF b.n t.xbdi (fun i => t.s i * t.hs i) 0
  if resid ≤ 0 then (.t90, t)
  else
    let blen := boundary t.stepsq resid ds
    let stplen := if shs > 0 then cmin blen (t.gredsq / shs) else blen
    let r := limited b t stplen
    let u := tStep b r.1 r.2 shs t
    if r.2 > 0 then tFix u.1
    else if r.1 < blen then
      if (u.1.iterc : Int) = u.1.itermax ∨ u.2 ≤ u.1.qred * lit 1 100 then (.t190, u.1)
      else (.t30, { u.1 with beta := u.1.gredsq / u.1.ggsav })
    else (.t90, u.1)

/-- `L100`, `src/bobyqa.c:2648-2666`. -/
def t100 (b : Box F) (t : Tb F) : TLab × Tb F :=
  if t.nact + 1 ≥ b.n then (.t190, t)
  else t210 b { t with dredsq := accF b.n t.xbdi (fun i => t.d i * t.d i) 0, dredg := accF b.n t.xbdi (fun i => t.d i * t.gnew i) 0,
                       gredsq := accF b.n t.xbdi (fun i => t.gnew i * t.gnew i) 0, s := fun i => if t.xbdi i = 0 then t.d i else 0, itcsav := t.iterc }

/-- The state of the loop on the bounds of the alternative iteration. -/
structure Ang (F : Type) where
  angbd : F
  iact : Nat
  xsav : F
  /-- the variable which is already at a bound, and the bound -/
  stop : Option (Nat × F)

/-- The limit due to a lower bound; for an upper bound the signs of `d` and `s` are changed, `src/bobyqa.c:2706-2715` and
`src/bobyqa.c:2716-2725`: `gap` is `tempa` or `tempb`, `room` is `xopt[i] - sl[i]` or `su[i] - xopt[i]`. -/
def angLimit (i : Nat) (gap room ssq s xsav : F) (a : Ang F) : Ang F :=
  let temp := ssq - room * room
  if temp > 0 then
    let temp := sqrt temp - s
    if a.angbd * temp > gap then { a with angbd := gap / temp, iact := i, xsav := xsav } else a
  else a

/-- One pass of the loop on the bounds, `src/bobyqa.c:2692-2727`.  The second square root is followed by `+ s[i]` in the C
code, here the sign of `s[i]` is changed. -/
def angPass (b : Box F) (t : Tb F) (s : Nat → F) (i : Nat) (a : Ang F) : Ang F :=
  if a.stop = none ∧ t.xbdi i = 0 then
    let tempa := b.xopt i + t.d i - b.sl i
    let tempb := b.su i - b.xopt i - t.d i
    if tempa ≤ 0 then { a with stop := some (i, -1) }
    else if tempb ≤ 0 then { a with stop := some (i, 1) }
    else
      let ssq := t.d i * t.d i + s i * s i
      angLimit i tempb (b.su i - b.xopt i) ssq (-s i) 1 (angLimit i tempa (b.xopt i - b.sl i) ssq (s i) (-1) a)
  else a

/-- `L120`, `src/bobyqa.c:2670-2728`. -/
def t120 (b : Box F) (t : Tb F) : TLab × Tb F :=
  let t := { t with iterc := t.iterc + 1 }
  let temp := t.gredsq * t.dredsq - t.dredg * t.dredg
  if temp ≤ t.qred * lit 1 10000 * t.qred then (.t190, t)
  else
    let temp := sqrt temp
    let s := fun i => if t.xbdi i = 0 then (t.dredg * t.d i - t.dredsq * t.gnew i) / temp else 0
    let a := up b.n (angPass b t s) ⟨1, 0, t.xsav, none⟩
    let t := { t with s := s, sredg := -temp, angbd := a.angbd, iact := a.iact, xsav := a.xsav }
    match a.stop with
    | some (i, v) => (.t100, { t with nact := t.nact + 1, xbdi := set1 t.xbdi i v })
    | none => t210 b t

/-- `iu`, `src/bobyqa.c:2749`. -/
def angCount (angbd : F) : Nat := up 20 (fun k m => if lit k 1 ≤ angbd * lit 17 1 + lit 31 10 then m + 1 else m) 0

/-- The reduction for the tangent `angt`, `src/bobyqa.c:2752-2754` and `src/bobyqa.c:2775-2777`. -/
def reduction (t : Tb F) (shs dhs dhd angt : F) : F :=
  let sth := (angt + angt) / (1 + angt * angt)
  let temp := shs + angt * (angt * dhd - dhs - dhs)
  sth * (angt * t.dredg - t.sredg - lit 1 2 * sth * temp)

/-- The state of the loop on the angles. -/
structure Scan (F : Type) where
  redmax : F
  isav : Nat
  redsav : F
  rdprev : F
  rdnext : F

/-- The search for the best angle, `src/bobyqa.c:2746-2763`; `red i` is the reduction for the angle number `i`. -/
def scan (red : Nat → F) (iu : Nat) (c : Scan F) : Scan F :=
  up iu (fun i (c : Scan F) =>
    if red i > c.redmax then { c with redmax := red i, isav := i, rdprev := c.redsav, redsav := red i }
    else if i = c.isav + 1 then { c with rdnext := red i, redsav := red i }
    else { c with redsav := red i }) c

/-- The tangent of half the angle, `src/bobyqa.c:2770-2773`; after the loop, `angt` is the one of the last pass. -/
def bestAngle (angbd : F) (iu : Nat) (c : Scan F) : F :=
  if c.isav < iu then
    let temp := (c.rdnext - c.rdprev) / (c.redmax + c.redmax - c.rdprev - c.rdnext)
    angbd * (lit c.isav 1 + lit 1 2 * temp) / lit iu 1
  else angbd * lit iu 1 / lit iu 1

/-- The alternative step, `src/bobyqa.c:2774-2796`. -/
def turn (b : Box F) (angt sdec : F) (t : Tb F) : Tb F :=
  let cth := (1 - angt * angt) / (1 + angt * angt)
  let sth := (angt + angt) / (1 + angt * angt)
  let gnew := fun i => t.gnew i + (cth - 1) * t.hred i + sth * t.hs i
  let d := fun i => if t.xbdi i = 0 then cth * t.d i + sth * t.s i else t.d i
  { t with gnew := gnew, d := d, dredg := accF b.n t.xbdi (fun i => d i * gnew i) 0, gredsq := accF b.n t.xbdi (fun i => gnew i * gnew i) 0,
           hred := fun i => cth * t.hred i + sth * t.hs i, qred := t.qred + sdec }

/-- `L150`, `src/bobyqa.c:2731-2807`. -/
def t150 (b : Box F) (t : Tb F) : TLab × Tb F :=
  let shs := accF b.n t.xbdi (fun i => t.s i * t.hs i) 0
  let dhs := accF b.n t.xbdi (fun i => t.d i * t.hs i) 0
  let dhd := accF b.n t.xbdi (fun i => t.d i * t.hred i) 0
  let iu := angCount t.angbd
  let c := scan (fun i => reduction t shs dhs dhd (t.angbd * lit i 1 / lit iu 1)) iu ⟨0, 0, 0, t.rdprev, t.rdnext⟩
  let t := { t with rdprev := c.rdprev, rdnext := c.rdnext }
  if c.isav = 0 then (.t190, t)
  else
    let angt := bestAngle t.angbd iu c
    let sdec := reduction t shs dhs dhd angt
    if sdec ≤ 0 then (.t190, t)
    else
      let t := turn b angt sdec t
      if t.iact > 0 ∧ c.isav = iu then (.t100, { t with nact := t.nact + 1, xbdi := set1 t.xbdi t.iact t.xsav })
      else if sdec > t.qred * lit 1 100 then (.t120, t)
      else (.t190, t)

/-- One step of the machine. -/
def tNext (b : Box F) : TLab × Tb F → TLab × Tb F
  | (.t20, t) => (.t30, { t with beta := 0 })
  | (.t30, t) => t30 b t
  | (.t50, t) => t50 b t
  | (.t90, t) => (.t100, { t with crvmin := 0 })
  | (.t100, t) => t100 b t
  | (.t120, t) => t120 b t
  | (.t150, t) => t150 b t
  | (.t190, t) => (.t190, t)

/-- Several steps of the machine. -/
def tRun (b : Box F) : Nat → TLab × Tb F → TLab × Tb F
  | 0, x => x
  | fuel + 1, x => tRun b fuel (tNext b x)

/-- `trsbox` before its label 190, with at most `fuel` steps; `none` if it does not reach this label. -/
def trsbox (b : Box F) (t : Tb F) (fuel : Nat) : Option (Trs F) :=
  match tRun b fuel (tInit b t) with
  | (.t190, t) => some ⟨t.d, t.gnew, t.xbdi, t.crvmin⟩
  | _ => none

/-- The arguments of `trsbox` in `bobyqb`, `src/bobyqa.c:698-701`. -/
def St.box (p : Par F) (s : St F) : Box F := ⟨p.n, p.npt, s.xpt, s.xopt, s.gopt, s.hq, s.pq, s.sl, s.su, s.delta⟩

end
end Opk.Bobyqa
