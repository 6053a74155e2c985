import Verif.Newuoa.Keep
import Verif.Newuoa.Angle

/-!
# Model of `biglag`, and the step that it computes over the real numbers

Simplifications: the elements of the table `sin_cos_table` and the functions `sin` and `cos` are given by a structure
(`Trig`); over the real numbers, they are the sines and the cosines.
-/
namespace Opk.Newuoa
open Linalg CMath Cobyla Powell

set_option linter.unusedSectionVars false

/-- The functions `SIN` and `COS`, `angle_step` and the table, `src/newuoa.c:292-422`. -/
structure Trig (F : Type) where
  sin : F → F
  cos : F → F
  step : F
  tsin : Nat → F
  tcos : Nat → F
  ofNat : Nat → F

section
variable {F : Type} [Add F] [_root_.Sub F] [Mul F] [Div F] [Neg F] [Zero F] [One F] [DecidableEq F]
variable [LT F] [LE F] [DecidableLT F] [DecidableLE F] [CMath F]

/-- `parabolic_refinement`, `src/newuoa.c:438-448`. -/
def refinement (fprev fbest fnext : F) : F :=
  if fprev ≠ fnext then
    let a := fprev - fbest
    let b := fnext - fbest
    (a - b) / (lit 2 1 * (a + b))
  else 0

/-- The function on the circle, `src/newuoa.c:2343`. -/
def onCircle (c1 c2 c3 c4 c5 cth sth : F) : F := c1 + (c2 + c4 * cth) * cth + (c3 + c5 * cth) * sth

/-- The variables of the search of the angle. -/
structure Peak (F : Type) where
  taumax : F
  isave : Nat
  tempa : F
  tempb : F
  tauold : F

/-- The search of the angle, `src/newuoa.c:2333-2358`; `g 0` is `taubeg`. -/
def peak (g : Nat → F) (tempa tempb : F) : Peak F :=
  let t := up 49 (fun i (t : Peak F) =>
    let tau := g i
    let t := if fabs tau > fabs t.taumax then { t with taumax := tau, isave := i, tempa := t.tauold }
      else if i = t.isave + 1 then { t with tempb := tau } else t
    { t with tauold := tau }) ⟨g 0, 0, tempa, tempb, g 0⟩
  let t := if t.isave = 0 then { t with tempa := t.tauold } else t
  if t.isave = 49 then { t with tempb := g 0 } else t

/-- The product of a vector by the second derivatives, `src/newuoa.c:2241-2253` and `src/newuoa.c:2304-2315`. -/
def hessian (n npt : Nat) (xpt : Nat → Nat → F) (hcol : Nat → F) (v : Nat → F) : Nat → F := fun i =>
  acc npt (fun k => hcol k * acc n (fun j => xpt k j * v j) 0 * xpt k i) 0

/-- The variables of the iterations of `biglag`. -/
structure Turn (F : Type) where
  d : Nat → F
  gd : Nat → F
  s : Nat → F
  w : Nat → F
  tempa : F
  tempb : F

/-- One rotation in the plane of `D` and `S`, `src/newuoa.c:2300-2371`, and whether it is the last one. -/
def swing (T : Trig F) (n npt : Nat) (xpt : Nat → Nat → F) (hcol gc : Nat → F) (t : Turn F) (s : Nat → F) : Turn F × Bool :=
  let w := hessian n npt xpt hcol s
  let c1 := lit 1 2 * acc n (fun i => s i * w i) 0
  let c2 := acc n (fun i => t.d i * gc i) 0
  let c3 := acc n (fun i => s i * gc i) 0
  let c4 := lit 1 2 * acc n (fun i => t.d i * t.gd i) 0 - c1
  let c5 := acc n (fun i => s i * t.gd i) 0
  let taubeg := c1 + c2 + c4
  let k := peak (fun i => if i = 0 then taubeg else onCircle c1 c2 c3 c4 c5 (T.tcos i) (T.tsin i)) t.tempa t.tempb
  let angle := T.step * (T.ofNat k.isave + refinement k.tempa k.taumax k.tempb)
  let cth := T.cos angle
  let sth := T.sin angle
  let tau := onCircle c1 c2 c3 c4 c5 cth sth
  let d := fun i => cth * t.d i + sth * s i
  let gd := fun i => cth * t.gd i + sth * w i
  (⟨d, gd, fun i => gc i + gd i, w, k.tempa, k.tempb⟩, decide (fabs tau ≤ fabs taubeg * lit 11 10))

/-- The vector `S` of an iteration, `src/newuoa.c:2284-2299`; none if the iterations stop. -/
def across (n : Nat) (d s : Nat → F) : Option (Nat → F) :=
  let dd := acc n (fun i => d i * d i) 0
  let sp := acc n (fun i => d i * s i) 0
  let ss := acc n (fun i => s i * s i) 0
  let temp := dd * ss - sp * sp
  if temp ≤ dd * lit 1 100000000 * ss then none
  else
    let denom := sqrt temp
    some fun i => (dd * s i - sp * d i) / denom

/-- The iterations of `biglag`, `src/newuoa.c:2279-2372`, at most `fuel` ones. -/
def turns (T : Trig F) (n npt : Nat) (xpt : Nat → Nat → F) (hcol gc : Nat → F) : Nat → Turn F → Turn F
  | 0, t => t
  | fuel + 1, t =>
    match across n t.d t.s with
    | none => t
    | some s =>
      let r := swing T n npt xpt hcol gc t s
      if r.2 then r.1 else turns T n npt xpt hcol gc fuel r.1

/-- Before the iterations, `src/newuoa.c:2232-2278`, from the difference `D` of two points. -/
def turn0 (n npt : Nat) (xpt : Nat → Nat → F) (hcol gc : Nat → F) (delta : F) (d : Nat → F) : Turn F :=
  let dd := acc n (fun i => d i * d i) 0
  let gd := hessian n npt xpt hcol d
  let gg := acc n (fun i => gc i * gc i) 0
  let sp := acc n (fun i => d i * gc i) 0
  let dhd := acc n (fun i => d i * gd i) 0
  let scale := delta / sqrt dd
  let scale := if sp * dhd < 0 then -scale else scale
  let temp := if sp * sp > dd * lit 99 100 * gg then (1 : F) else 0
  let tau := scale * (fabs sp + lit 1 2 * scale * fabs dhd)
  let temp := if gg * (delta * delta) < tau * lit 1 100 * tau then (1 : F) else temp
  ⟨fun i => scale * d i, fun i => scale * gd i, fun i => gc i + temp * (scale * gd i), fun _ => 0, 0, 0⟩

/-- The column of the inverse matrix, `src/newuoa.c:2214-2227`. -/
def column (p : Par F) (s : St F) : Nat → F :=
  up p.nptm (fun j h => fun k => h k + signed s.idz j (s.zmat s.knew.toNat j) * s.zmat k j) (fun _ => 0)

/-- The gradient of the Lagrange function at `XOPT`, `src/newuoa.c:2236` and `src/newuoa.c:2241-2252`. -/
def slope (p : Par F) (s : St F) : Nat → F := fun i =>
  acc p.npt (fun k => column p s k * acc p.n (fun j => s.xpt k j * s.xopt j) 0 * s.xpt k i) (s.bmat s.knew.toNat i)

/-- `biglag`, `src/newuoa.c:2175-2376`: `ALPHA`, `D`, `VLAG` and the first elements of `W`. -/
def biglag (T : Trig F) (p : Par F) (s : St F) : F × (Nat → F) × (Nat → F) × (Nat → F) :=
  let hcol := column p s
  let gc := slope p s
  let t := turns T p.n p.npt s.xpt hcol gc p.n (turn0 p.n p.npt s.xpt hcol gc s.dstep fun i => s.xpt s.knew.toNat i - s.xopt i)
  (hcol s.knew.toNat, t.d, fun k => if k ≤ p.npt then hcol k else gc (k - p.npt),
    fun k => if k ≤ p.n then t.gd k else if k ≤ 2 * p.n then t.s (k - p.n) else t.w (k - 2 * p.n))

end
end Opk.Newuoa
