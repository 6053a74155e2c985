import Verif.Cobyla.Model
/-!
# COBYLA: the step `trstlp`, `src/cobyla.c:1098-1542`

* The arrays are functions of the indices of the C macros.  When no constraint is active
  (`NACT = 0`) the code may use the index 0: since `dx`, `z`, `zdota`, `vmultc`, `sdirn`,
  `dxnew` and `vmultd` follow each other in the workspace, `Z(i,0)` is `DX(i)`, `ZDOTA(0)` is
  `Z(n,n)` and `VMULTD(0)` is `DXNEW(n)`; the model does the same.  `IACT(0)` is out of the array
  `iact`: the result is `none`.
* The result is also `none` if the divisor of the step to the boundary of the trust region is zero
  (line 1423).
* Labels of the C code are the constructors of `Lab`.
-/
namespace Opk.Cobyla
open Linalg CMath

/-- The labels of `trstlp` where the execution can jump. -/
inductive Lab where
  | l60 | l70 | l260 | l320 | l340 | l480 | l490 | l500
deriving DecidableEq, Repr

/-- The variables of `trstlp` which are preserved when jumping to a label. -/
structure Tr (F : Type) where
  mcon : Nat
  nact : Nat
  nactx : Nat
  icon : Nat
  icount : Nat
  ifull : Nat
  resmax : F
  optold : F
  iact : Nat → Nat
  dx : Nat → F
  z : Nat → Nat → F
  zdota : Nat → F
  vmultc : Nat → F
  sdirn : Nat → F
  dxnew : Nat → F
  vmultd : Nat → F

/-- The arguments of `trstlp` which are not modified. -/
structure Lp (F : Type) where
  n : Nat
  m : Nat
  a : Nat → Nat → F
  b : Nat → F
  rho : F

section
variable {F : Type} [Add F] [Sub F] [Mul F] [Div F] [Neg F] [Zero F] [One F] [DecidableEq F]
variable [LT F] [LE F] [DecidableLT F] [DecidableLE F] [CMath F]

/-- `Z(i,k)`, see above for `k = 0`. -/
def Tr.zAt (t : Tr F) (i k : Nat) : F := if k = 0 then t.dx i else t.z i k

/-- `ZDOTA(k)`, see above for `k = 0`. -/
def Tr.zdotaAt (t : Tr F) (n k : Nat) : F := if k = 0 then t.z n n else t.zdota k

/-- `VMULTD(k)`, see above for `k = 0`. -/
def Tr.vmultdAt (t : Tr F) (n k : Nat) : F := if k = 0 then t.dxnew n else t.vmultd k

/-- `VMULTD(k) = v`, see above for `k = 0`. -/
def Tr.setVmultd (t : Tr F) (n k : Nat) (v : F) : Tr F :=
  if k = 0 then { t with dxnew := set1 t.dxnew n v } else { t with vmultd := set1 t.vmultd k v }

/-- Could the value be due to rounding errors?  (`acca` and `accb`, e.g. `src/cobyla.c:1194-1196`.) -/
def negligible (abs v : F) : Prop :=
  abs ≥ abs + lit 1 10 * v ∨ abs + lit 1 10 * v ≥ abs + lit 2 10 * v

instance (abs v : F) : Decidable (negligible abs v) := inferInstanceAs (Decidable (_ ∨ _))

/-- `Z` is the identity and `DX` is zero, `src/cobyla.c:1122-1128`. -/
def lpUnit (n : Nat) (t : Tr F) : Tr F :=
  up n (fun i t =>
    let z := up n (fun j z => set2 z i j 0) t.z
    { t with z := set2 z i i 1, dx := set1 t.dx i 0 }) t

/-- `RESMAX` and `ICON`, `src/cobyla.c:1129-1135`. -/
def lpWorst (q : Lp F) : F × Nat :=
  up q.m (fun k (st : F × Nat) => if q.b k > st.1 then (q.b k, k) else st) (0, 0)

/-- The beginning, `src/cobyla.c:1116-1144`; `t` is the initial contents of the workspace. -/
def lpInit (q : Lp F) (t : Tr F) : Lab × Tr F :=
  let t := lpUnit q.n { t with ifull := 1, mcon := q.m, nact := 0 }
  let w := lpWorst q
  let t := { t with resmax := w.1, icon := w.2, iact := up q.m (fun k iact => set1 iact k k) t.iact, vmultc := up q.m (fun k v => set1 v k (w.1 - q.b k)) t.vmultc }
  if w.1 = 0 then (.l480, t)
  else (.l60, { t with sdirn := up q.n (fun i v => set1 v i 0) t.sdirn })

/-- `OPTNEW`, `src/cobyla.c:1155-1162`. -/
def optnew (q : Lp F) (t : Tr F) : F :=
  if t.mcon = q.m then t.resmax else up q.n (fun i o => o - t.dx i * q.a i t.mcon) 0

/-- The Givens rotations for the new constraint, `src/cobyla.c:1185-1211`: `TOT` and `Z`. -/
def lpRotate (n nact : Nat) (g : Nat → F) (z : Nat → Nat → F) : F × (Nat → Nat → F) :=
  loop (fun j (st : F × (Nat → Nat → F)) =>
    let k := n - j
    let s := up n (fun i (s : F × F) => (s.1 + st.2 i k * g i, s.2 + fabs (st.2 i k * g i))) (0, 0)
    let sp := if negligible s.2 (fabs s.1) then 0 else s.1
    if st.1 = 0 then (sp, st.2)
    else
      let temp := sqrt (sp * sp + st.1 * st.1)
      let alpha := sp / temp
      let beta := st.1 / temp
      (temp, up n (fun i z =>
        let temp := alpha * z i k + beta * z i (k + 1)
        let z := set2 z i (k + 1) (alpha * z i (k + 1) - beta * z i k)
        set2 z i k temp) st.2)) (n - nact) (0, z)

/-- The multipliers of the new constraint, `src/cobyla.c:1232-1259` for one value of `k`:
`RATIO` and the variables. -/
def lpCombine (q : Lp F) (k : Nat) (st : F × Tr F) : Option (F × Tr F) :=
  let t := st.2
  let s := up q.n (fun i (s : F × F) => (s.1 + t.zAt i k * t.dxnew i, s.2 + fabs (t.zAt i k * t.dxnew i))) (0, 0)
  let acca := s.2 + lit 1 10 * fabs s.1
  let accb := s.2 + lit 2 10 * fabs s.1
  if s.2 < acca ∧ acca < accb then
    let temp := s.1 / t.zdotaAt q.n k
    if temp > 0 ∧ k = 0 then none
    else
      let ratio :=
        if temp > 0 ∧ t.iact k ≤ q.m then
          let tempa := t.vmultc k / temp
          if st.1 < 0 ∨ tempa < st.1 then tempa else st.1
        else st.1
      let t := if k ≥ 2 then { t with dxnew := up q.n (fun i v => set1 v i (v i - temp * q.a i (t.iact k))) t.dxnew } else t
      some (ratio, t.setVmultd q.n k temp)
  else some (st.1, t.setVmultd q.n k 0)

/-- The loop of `L_130`, `src/cobyla.c:1229-1261` (done once if `NACT = 0`). -/
def lpCombineAll (q : Lp F) (t : Tr F) : Option (F × Tr F) :=
  loop (fun j (st : Option (F × Tr F)) => st.bind (lpCombine q (t.nact - j))) (max 1 t.nact) (some (-1, t))

/-- The active constraint `ICON` is moved to the end of the list, `src/cobyla.c:1271-1298` and
`src/cobyla.c:1353-1380` (the caller checks that `ICON < NACT`). -/
def lpShift (q : Lp F) (t : Tr F) : Tr F :=
  let isave := t.iact t.icon
  let vsave := t.vmultc t.icon
  let t := loop (fun j (t : Tr F) =>
    let k := t.icon + j
    let kw := t.iact (k + 1)
    let sp := up q.n (fun i s => s + t.z i k * q.a i kw) 0
    let temp := sqrt (sp * sp + t.zdota (k + 1) * t.zdota (k + 1))
    let alpha := t.zdota (k + 1) / temp
    let beta := sp / temp
    let zdota := set1 t.zdota (k + 1) (alpha * t.zdota k)
    let zdota := set1 zdota k temp
    let z := up q.n (fun i z =>
      let temp := alpha * z i (k + 1) + beta * z i k
      let z := set2 z i (k + 1) (alpha * z i k - beta * z i (k + 1))
      set2 z i k temp) t.z
    { t with zdota := zdota, z := z, iact := set1 t.iact k kw, vmultc := set1 t.vmultc k (t.vmultc (k + 1)) }) (t.nact - t.icon) t
  { t with iact := set1 t.iact t.nact isave, vmultc := set1 t.vmultc t.nact vsave }

/-- `L_210`: the objective function stays the last active constraint, `src/cobyla.c:1313-1334`. -/
def lpLast (q : Lp F) (kk : Nat) (t : Tr F) : Option (Tr F) :=
  if t.mcon > q.m ∧ kk ≠ t.mcon then
    let k := t.nact - 1
    if k = 0 then none
    else
      let sp := up q.n (fun i s => s + t.z i k * q.a i kk) 0
      let temp := sqrt (sp * sp + t.zdota t.nact * t.zdota t.nact)
      let alpha := t.zdota t.nact / temp
      let beta := sp / temp
      let zdota := set1 t.zdota t.nact (alpha * t.zdota k)
      let zdota := set1 zdota k temp
      let z := up q.n (fun i z =>
        let temp := alpha * z i t.nact + beta * z i k
        let z := set2 z i t.nact (alpha * z i k - beta * z i t.nact)
        set2 z i k temp) t.z
      let iact := set1 t.iact t.nact (t.iact k)
      let vmultc := set1 t.vmultc k (t.vmultc t.nact)
      some { t with zdota := zdota, z := z, iact := set1 iact k kk, vmultc := set1 vmultc t.nact (t.vmultc k) }
  else some t

/-- The direction of stage one when a constraint is added, `src/cobyla.c:1339-1347`. -/
def lpDirection (q : Lp F) (t : Tr F) : Tr F :=
  let kk := t.iact t.nact
  let temp := up q.n (fun i s => s + t.sdirn i * q.a i kk) 0
  let temp := (temp - 1) / t.zdota t.nact
  { t with sdirn := up q.n (fun i v => set1 v i (v i - temp * t.z i t.nact)) t.sdirn }

/-- `L_210`, `src/cobyla.c:1310-1348`. -/
def lp210 (q : Lp F) (kk : Nat) (t : Tr F) : Option (Lab × Tr F) :=
  let iact := set1 t.iact t.icon (t.iact t.nact)
  match lpLast q kk { t with iact := set1 iact t.nact kk } with
  | none => none
  | some t => if t.mcon > q.m then some (.l320, t) else some (.l340, lpDirection q t)

/-- The new constraint replaces an active one, `src/cobyla.c:1262-1306`. -/
def lpReplace (q : Lp F) (kk : Nat) (ratio : F) (t : Tr F) : Option (Lab × Tr F) :=
  if ratio < 0 then some (.l490, t)
  else
    let t := { t with vmultc := up t.nact (fun k v => set1 v k (cmax 0 (v k - ratio * t.vmultd k))) t.vmultc }
    let t := if t.icon < t.nact then lpShift q t else t
    let temp := up q.n (fun i s => s + t.z i t.nact * q.a i kk) 0
    if temp = 0 then some (.l490, t)
    else
      let vmultc := set1 t.vmultc t.icon 0
      lp210 q kk { t with zdota := set1 t.zdota t.nact temp, vmultc := set1 vmultc t.nact ratio }

/-- A constraint is added, `src/cobyla.c:1181-1306`. -/
def lpAdd (q : Lp F) (t : Tr F) : Option (Lab × Tr F) :=
  let kk := t.iact t.icon
  let t := { t with dxnew := up q.n (fun i v => set1 v i (q.a i kk)) t.dxnew }
  let r := lpRotate q.n t.nact t.dxnew t.z
  let t := { t with z := r.2 }
  if r.1 ≠ 0 then
    let vmultc := set1 t.vmultc t.icon (t.vmultc (t.nact + 1))
    lp210 q kk { t with nact := t.nact + 1, zdota := set1 t.zdota (t.nact + 1) r.1, vmultc := set1 vmultc (t.nact + 1) 0 }
  else
    match lpCombineAll q t with
    | none => none
    | some (ratio, t) => lpReplace q kk ratio t

/-- `L_70`, `src/cobyla.c:1154-1180`. -/
def lp70 (q : Lp F) (t : Tr F) : Option (Lab × Tr F) :=
  let o := optnew q t
  let go := fun t : Tr F => if t.icon ≤ t.nact then some (Lab.l260, t) else lpAdd q t
  if t.icount = 0 ∨ o < t.optold then go { t with optold := o, nactx := t.nact, icount := 3 }
  else if t.nact > t.nactx then go { t with nactx := t.nact, icount := 3 }
  else
    let t := { t with icount := t.icount - 1 }
    if t.icount = 0 then some (.l490, t) else go t

/-- `L_260`, `src/cobyla.c:1352-1393`. -/
def lp260 (q : Lp F) (t : Tr F) : Option (Lab × Tr F) :=
  if t.icon = 0 then none
  else
    let t := if t.icon < t.nact then lpShift q t else t
    let t := { t with nact := t.nact - 1 }
    if t.mcon > q.m then some (.l320, t)
    else
      let temp := up q.n (fun i s => s + t.sdirn i * t.z i (t.nact + 1)) 0
      some (.l340, { t with sdirn := up q.n (fun i v => set1 v i (v i - temp * t.z i (t.nact + 1))) t.sdirn })

/-- `L_320`, `src/cobyla.c:1396-1400`. -/
def lp320 (q : Lp F) (t : Tr F) : Tr F :=
  let temp := 1 / t.zdotaAt q.n t.nact
  { t with sdirn := up q.n (fun i v => set1 v i (temp * t.zAt i t.nact)) t.sdirn }

/-- `DD`, `SD` and `SS`, `src/cobyla.c:1408-1417`. -/
def lpNorms (q : Lp F) (t : Tr F) : F × F × F :=
  up q.n (fun i (s : F × F × F) =>
    (if fabs (t.dx i) ≥ lit 1 1000000 * q.rho then s.1 - t.dx i * t.dx i else s.1,
      s.2.1 + t.sdirn i * t.dx i, s.2.2 + t.sdirn i * t.sdirn i)) (q.rho * q.rho, 0, 0)

/-- The divisor of the step, `src/cobyla.c:1419-1423`. -/
def lpDivisor (s : F × F × F) : F :=
  let temp := sqrt (s.2.2 * s.1)
  let temp := if fabs s.2.1 ≥ lit 1 1000000 * temp then sqrt (s.2.2 * s.1 + s.2.1 * s.2.1) else temp
  temp + s.2.1

/-- `DXNEW = DX + STEP*SDIRN`, `src/cobyla.c:1436-1438` and `src/cobyla.c:1479-1481`. -/
def lpMove (q : Lp F) (step : F) (t : Tr F) : Tr F :=
  { t with dxnew := up q.n (fun i v => set1 v i (t.dx i + step * t.sdirn i)) t.dxnew }

/-- The greatest residual of the active constraints, `src/cobyla.c:1441-1449`. -/
def lpResidual (q : Lp F) (t : Tr F) : F :=
  up t.nact (fun k r =>
    let kk := t.iact k
    cmax r (up q.n (fun i s => s - q.a i kk * t.dxnew i) (q.b kk))) 0

/-- One multiplier, `src/cobyla.c:1458-1473`. -/
def lpMultiplier (q : Lp F) (k : Nat) (t : Tr F) : Tr F :=
  let s := up q.n (fun i (s : F × F) => (s.1 + t.zAt i k * t.dxnew i, s.2 + fabs (t.zAt i k * t.dxnew i))) (0, 0)
  let zdotw := if negligible s.2 (fabs s.1) then 0 else s.1
  let v := zdotw / t.zdotaAt q.n k
  let t := t.setVmultd q.n k v
  if k < 2 then t
  else { t with dxnew := up q.n (fun i w => set1 w i (w i - v * q.a i (t.iact k))) t.dxnew }

/-- The multipliers, `src/cobyla.c:1456-1476`. -/
def lpMultipliers (q : Lp F) (t : Tr F) : Tr F :=
  let t := loop (fun j (u : Tr F) => lpMultiplier q (t.nact - j) u) (max 1 t.nact) t
  if t.mcon > q.m ∧ t.vmultdAt q.n t.nact < 0 then t.setVmultd q.n t.nact 0 else t

/-- The residuals of the other constraints, `src/cobyla.c:1482-1498`. -/
def lpOthers (q : Lp F) (t : Tr F) : Tr F :=
  { t with vmultd := loop (fun j v =>
      let k := t.nact + 1 + j
      let kk := t.iact k
      let s := up q.n (fun i (s : F × F) => (s.1 + q.a i kk * t.dxnew i, s.2 + fabs (q.a i kk * t.dxnew i)))
        (t.resmax - q.b kk, t.resmax + fabs (q.b kk))
      set1 v k (if negligible s.2 (fabs s.1) then 0 else s.1)) (t.mcon - t.nact) t.vmultd }

/-- `RATIO` and `ICON`, `src/cobyla.c:1501-1511`. -/
def lpRatio (t : Tr F) : F × Nat :=
  up t.mcon (fun k (st : F × Nat) =>
    if t.vmultd k < 0 then
      let temp := t.vmultc k / (t.vmultc k - t.vmultd k)
      if temp < st.1 then (temp, k) else st
    else st) (1, 0)

/-- `DX` and `VMULTC` are updated, `src/cobyla.c:1514-1521`. -/
def lpUpdate (q : Lp F) (ratio : F) (t : Tr F) : Tr F :=
  let temp := 1 - ratio
  { t with dx := up q.n (fun i v => set1 v i (temp * v i + ratio * t.dxnew i)) t.dx, vmultc := up t.mcon (fun k v => set1 v k (cmax 0 (temp * v k + ratio * t.vmultd k))) t.vmultc }

/-- The step is taken, `src/cobyla.c:1436-1527`; `full` tells whether `STEP == STPFUL`. -/
def lpTake (q : Lp F) (step : F) (full : Bool) (t : Tr F) : Lab × Tr F :=
  let resold := t.resmax
  let t := lpMove q step t
  let t : Tr F := if t.mcon = q.m then { t with resmax := lpResidual q t } else t
  let t : Tr F := lpOthers q (lpMove q step (lpMultipliers q t))
  let r := lpRatio t
  let t : Tr F := { lpUpdate q r.1 t with icon := r.2 }
  let t : Tr F := if t.mcon = q.m then { t with resmax := resold + r.1 * (t.resmax - resold) } else t
  if t.icon > 0 then (.l70, t) else if full then (.l500, t) else (.l480, t)

/-- `L_340`, `src/cobyla.c:1407-1527`. -/
def lp340 (q : Lp F) (t : Tr F) : Option (Lab × Tr F) :=
  let s := lpNorms q t
  if s.1 ≤ 0 then some (.l490, t)
  else if lpDivisor s = 0 then none
  else
    let stpful := s.1 / lpDivisor s
    if t.mcon = q.m then
      if negligible stpful t.resmax then some (.l480, t)
      else
        let step := cmin stpful t.resmax
        some (lpTake q step (decide (step = stpful)) t)
    else some (lpTake q stpful (decide (stpful = stpful)) t)

/-- `L_480`, `src/cobyla.c:1528-1533`. -/
def lp480 (q : Lp F) (t : Tr F) : Tr F :=
  { t with mcon := q.m + 1, icon := q.m + 1, iact := set1 t.iact (q.m + 1) (q.m + 1), vmultc := set1 t.vmultc (q.m + 1) 0 }

/-- The code from a label to the next one. -/
def lpStep (q : Lp F) : Lab × Tr F → Option (Lab × Tr F)
  | (.l60, t) => some (.l70, { t with optold := 0, icount := 0 })
  | (.l70, t) => lp70 q t
  | (.l260, t) => lp260 q t
  | (.l320, t) => some (.l340, lp320 q t)
  | (.l340, t) => lp340 q t
  | (.l480, t) => some (.l60, lp480 q t)
  | (.l490, t) => if t.mcon = q.m then some (.l480, t) else some (.l500, { t with ifull := 0 })
  | (.l500, t) => some (.l500, t)

/-- `fuel` jumps at most. -/
def lpRun (q : Lp F) : Nat → Lab × Tr F → Option (Tr F)
  | _, (.l500, t) => some t
  | 0, _ => none
  | fuel + 1, js => (lpStep q js).bind (lpRun q fuel)

/-- `trstlp`, `src/cobyla.c:1098-1542`; `t` is the initial contents of the workspace; `none` if
more than `fuel` jumps are necessary or in the cases above. -/
def trstlp (q : Lp F) (fuel : Nat) (t : Tr F) : Option (Tr F) := lpRun q fuel (lpInit q t)

/-- The contents of the workspace before the first call, any contents would do. -/
def zeroTr : Tr F :=
  { mcon := 0, nact := 0, nactx := 0, icon := 0, icount := 0, ifull := 0, resmax := 0, optold := 0, iact := fun _ => 0, dx := fun _ => 0, z := fun _ _ => 0, zdota := fun _ => 0, vmultc := fun _ => 0, sdirn := fun _ => 0, dxnew := fun _ => 0, vmultd := fun _ => 0 }

/-- The arguments of the call, `src/cobyla.c:791-792`. -/
def Lp.of (p : Par F) (s : St F) : Lp F := ⟨p.n, p.m, s.a, s.con, s.rho⟩

end
end Opk.Cobyla
