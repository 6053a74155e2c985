import Verif.Newuoa.Longest

/-!
# Model of `trsapp`

Simplifications: as for `biglag`, the table of the sines and of the cosines is given by a structure (`Trig`).  A division
by zero and the square root of a negative number are a distinct outcome (`none`).  The loops have a number of turns which
is an argument; to go beyond it is the outcome `none` too.
-/
namespace Opk.Newuoa
open Linalg CMath Cobyla Powell

set_option linter.unusedSectionVars false

section
variable {F : Type} [Add F] [_root_.Sub F] [Mul F] [Div F] [Neg F] [Zero F] [One F] [DecidableEq F]
variable [LT F] [LE F] [DecidableLT F] [DecidableLE F] [CMath F]

/-- `sethd`, `src/newuoa.c:2387-2423`: the product of the second derivatives of the model by a vector. -/
def sethd (p : Par F) (s : St F) (v : Nat → F) : Nat → F :=
  let hd := up p.npt (fun k (hd : Nat → F) =>
    let temp := acc p.n (fun j => s.xpt k j * v j) 0 * s.pq k
    fun i => hd i + temp * s.xpt k i) (fun _ => 0)
  up p.n (fun j g => up j (fun i g =>
    let g := if i < j then set1 g j (g j + s.hq i j * v i) else g
    set1 g i (g i + s.hq i j * v j)) g) hd

/-- The variables of the conjugate gradient iterations. -/
structure Cg (F : Type) where
  step : Nat → F
  hs : Nat → F
  d : Nat → F
  hd : Nat → F
  dd : F
  ds : F
  ss : F
  gg : F
  qred : F
  crvmin : F
  iterc : Nat

/-- What follows an iteration. -/
inductive Then where
  | again | edge | stop
  deriving DecidableEq

/-- A quotient, unless the divisor is zero. -/
def quot (a b : F) : Option F := if b = 0 then none else some (a / b)

/-- A square root, unless the number is negative. -/
def root (a : F) : Option F := if a < 0 then none else some (sqrt a)

/-- The curvature and the length, `src/newuoa.c:2506-2513`: `crvmin` and `alpha`. -/
def lengths (t : Cg F) (bstep dhd : F) : Option (F × F) :=
  if dhd > 0 then do
    let temp ← quot dhd t.dd
    let crvmin := if t.iterc + 1 = 1 then temp else cmin t.crvmin temp
    let temp ← quot t.gg dhd
    return (crvmin, cmin bstep temp)
  else some (t.crvmin, bstep)

/-- The direction of the next iteration, `src/newuoa.c:2532-2547`. -/
def redirect (n : Nat) (g : Nat → F) (delsq ggsav : F) (t : Cg F) : Option (Then × Cg F) := do
  let temp ← quot t.gg ggsav
  let d := fun i => temp * t.d i - g i - t.hs i
  let t := { t with d := d, dd := acc n (fun i => d i * d i) 0, ds := acc n (fun i => d i * t.step i) 0, ss := acc n (fun i => t.step i * t.step i) 0 }
  return (if t.ds ≤ 0 then .stop else if t.ss < delsq then .again else .edge, t)

/-- An iteration of the conjugate gradient method, `src/newuoa.c:2496-2548`; `H` is `sethd`. -/
def cgStep (n : Nat) (H : (Nat → F) → Nat → F) (g : Nat → F) (delsq ggbeg : F) (t : Cg F) : Option (Then × Cg F) := do
  let temp := delsq - t.ss
  let r ← root (t.ds * t.ds + t.dd * temp)
  let bstep ← quot temp (t.ds + r)
  let hd := H t.d
  let dhd := acc n (fun j => t.d j * hd j) 0
  let (crvmin, alpha) ← lengths t bstep dhd
  let qadd := alpha * (t.gg - lit 1 2 * alpha * dhd)
  let qred := t.qred + qadd
  let step := fun i => t.step i + alpha * t.d i
  let hs := fun i => t.hs i + alpha * hd i
  let gg := acc n (fun i => (g i + hs i) * (g i + hs i)) 0
  let u := { t with step := step, hs := hs, hd := hd, gg := gg, qred := qred, crvmin := crvmin, iterc := t.iterc + 1 }
  if alpha < bstep then
    if u.iterc ≥ n ∨ qadd ≤ qred * lit 1 100 ∨ gg ≤ ggbeg * lit 1 10000 then return (.stop, u)
    else redirect n g delsq t.gg u
  else return (.edge, u)

/-- The conjugate gradient iterations, `src/newuoa.c:2495-2550`: whether the boundary is reached. -/
def cgLoop (n : Nat) (H : (Nat → F) → Nat → F) (g : Nat → F) (delsq ggbeg : F) : Nat → Cg F → Option (Bool × Cg F)
  | 0, _ => none
  | fuel + 1, t =>
    match cgStep n H g delsq ggbeg t with
    | none => none
    | some (.again, u) => cgLoop n H g delsq ggbeg fuel u
    | some (.edge, u) => some (true, u)
    | some (.stop, u) => some (false, u)

/-- The search of the angle, `src/newuoa.c:2590-2614`; `g 0` is `qbeg`, `taumax` is `qmin` and `tauold` is `qsav`. -/
def valley (g : Nat → F) (tempa tempb : F) : Peak F :=
  let t := up 49 (fun i (t : Peak F) =>
    let q := g i
    let t := if q < t.taumax then { t with taumax := q, isave := i, tempa := t.tauold }
      else if i = t.isave + 1 then { t with tempb := q } else t
    { t with tauold := q }) ⟨g 0, 0, tempa, tempb, g 0⟩
  let t := if t.isave = 0 then { t with tempa := t.tauold } else t
  if t.isave = 49 then { t with tempb := g 0 } else t

/-- `parabolic_refinement`, `src/newuoa.c:438-448`, with the division by zero as an outcome. -/
def refined (fprev fbest fnext : F) : Option F :=
  if fprev ≠ fnext ∧ lit 2 1 * (fprev - fbest + (fnext - fbest)) = 0 then none else some (refinement fprev fbest fnext)

/-- The rotation of the step in the plane of `STEP` and `D`, `src/newuoa.c:2578-2630`, and whether it is the last one. -/
def swerve (T : Trig F) (n : Nat) (H : (Nat → F) → Nat → F) (g : Nat → F) (sg shs : F) (tempa tempb : F) (d : Nat → F) (t : Cg F) : Option (Bool × Cg F) := do
  let hd := H d
  let dg := acc n (fun i => d i * g i) 0
  let dhd := acc n (fun i => hd i * d i) 0
  let dhs := acc n (fun i => hd i * t.step i) 0
  let cf := lit 1 2 * (shs - dhd)
  let qbeg := sg + cf
  let k := valley (fun i => if i = 0 then qbeg else (sg + cf * T.tcos i) * T.tcos i + (dg + dhs * T.tcos i) * T.tsin i) tempa tempb
  let r ← refined k.tempa k.taumax k.tempb
  let angle := T.step * (T.ofNat k.isave + r)
  let cth := T.cos angle
  let sth := T.sin angle
  let step := fun i => cth * t.step i + sth * d i
  let hs := fun i => cth * t.hs i + sth * hd i
  let gg := acc n (fun i => (g i + hs i) * (g i + hs i)) 0
  let reduc := qbeg - (sg + cf * cth) * cth - (dg + dhs * cth) * sth
  let qred := t.qred + reduc
  let u := { t with step := step, hs := hs, d := d, hd := hd, gg := gg, qred := qred, iterc := t.iterc + 1 }
  if u.iterc < n then do
    let ratio ← quot reduc qred
    return (¬ ratio > lit 1 100, u)
  else return (true, u)

/-- An alternative iteration, `src/newuoa.c:2553-2630`, and whether it is the last one. -/
def edgeStep (T : Trig F) (n : Nat) (H : (Nat → F) → Nat → F) (g : Nat → F) (delsq ggbeg : F) (t : Cg F) : Option (Bool × Cg F) :=
  if t.gg ≤ ggbeg * lit 1 10000 then some (true, t)
  else do
    let sg := acc n (fun i => t.step i * g i) 0
    let shs := acc n (fun i => t.step i * t.hs i) 0
    let sgk := sg + shs
    let r ← root (t.gg * delsq)
    let angtest ← quot sgk r
    if angtest ≤ -lit 99 100 then return (true, t)
    else do
      let temp ← root (delsq * t.gg - sgk * sgk)
      let tempa ← quot delsq temp
      let tempb ← quot sgk temp
      swerve T n H g sg shs tempa tempb (fun i => tempa * (g i + t.hs i) - tempb * t.step i) t

/-- The alternative iterations, `src/newuoa.c:2552-2630`. -/
def edgeLoop (T : Trig F) (n : Nat) (H : (Nat → F) → Nat → F) (g : Nat → F) (delsq ggbeg : F) : Nat → Cg F → Option (Cg F)
  | 0, _ => none
  | fuel + 1, t =>
    match edgeStep T n H g delsq ggbeg t with
    | none => none
    | some (true, u) => some u
    | some (false, u) => edgeLoop T n H g delsq ggbeg fuel u

/-- The step and the curvature, `src/newuoa.c:2476-2631`, from the gradient `g` at `XOPT` and `hx`, the value of `HD` then; at
most `n` turns of each loop. -/
def minimize (T : Trig F) (n : Nat) (H : (Nat → F) → Nat → F) (g hx : Nat → F) (delta : F) : Option (Cg F) :=
  let delsq := delta * delta
  let d := fun i => -g i
  let dd := acc n (fun i => d i * d i) 0
  let t : Cg F := ⟨fun _ => 0, fun _ => 0, d, hx, dd, 0, 0, dd, 0, 0, 0⟩
  if dd = 0 then some t
  else
    match cgLoop n H g delsq dd n t with
    | none => none
    | some (false, t) => some t
    | some (true, t) => edgeLoop T n H g delsq dd n { t with crvmin := 0 }

/-- The gradient of the model at `XOPT`, `src/newuoa.c:2475-2480`. -/
def gradient (p : Par F) (s : St F) : Nat → F := fun i => s.gq i + sethd p s s.xopt i

/-- `trsapp`, `src/newuoa.c:2444-2632`, with the places of its arrays in `W` (`src/newuoa.c:1121-1122`): `D`, `CRVMIN` and `W`. -/
def trsapp (T : Trig F) (p : Par F) (s : St F) : Option ((Nat → F) × F × (Nat → F)) :=
  let g := gradient p s
  match minimize T p.n (sethd p s) g (sethd p s s.xopt) s.delta with
  | none => none
  | some t => some (t.step, t.crvmin, fun k =>
      if k ≤ p.n then t.d k else if k ≤ 2 * p.n then g (k - p.n) else if k ≤ 3 * p.n then t.hd (k - 2 * p.n) else t.hs (k - 3 * p.n))

end
end Opk.Newuoa
