import Verif.Linalg.Model
/-!
# COBYLA: `src/cobyla.c`

The same source file is compiled twice by the C code: for the reverse communication routine
`cobyla_iterate` and for the direct routine `cobyla_optimize`.  The part between two evaluations
is shared and is modelled once, label by label.

* Arrays are functions of the indices of the C macros (starting at 1); the partition of the
  workspace is in `Verif.Powell.Layout`.  The variable `W(j)` of lines 683-690 and the array
  `w` are not part of the state: they are written before they are read.
* Messages and `iprint` are not represented, neither is `errno`.
* The step of `trstlp` (`src/cobyla.c:1098-1542`) is a parameter `T` of the model, any function
  of the whole state: what is proved for every `T` holds for the step computed by `trstlp`, if
  `trstlp` returns.  `Verif.Cobyla.Trstlp` is the model of `trstlp` and `lpT` (`Verif.Cobyla.Region`)
  is the function `T` made with it.
* Overflows of integers are not represented.
-/
namespace Opk.Cobyla
open Linalg CMath

/-- `LOOP(var,num)`, `src/cobyla.c:78`. -/
def up {α : Type} (n : Nat) (body : Nat → α → α) (s : α) : α := loop (fun k => body (k + 1)) n s

/-- `v[i] = a` for an array with one index. -/
def set1 {F : Type} (v : Nat → F) (i : Nat) (a : F) : Nat → F := fun k => if k = i then a else v k

/-- `v(i,j) = a` for an array with two indices. -/
def set2 {F : Type} (v : Nat → Nat → F) (i j : Nat) (a : F) : Nat → Nat → F :=
  fun k l => if k = i ∧ l = j then a else v k l

/-- `cobyla_status`, `src/cobyla.h:51-64` (`initial` is `COBYLA_INITIAL_ITERATE`). -/
inductive Status where
  | initial | iterate | success | badNvars | badNcons | badRhoRange | badScaling | roundingErrors
  | tooManyEvaluations | badAddress | corrupted
deriving DecidableEq, Repr

/-- Where the execution goes on: `call` is `goto call_calcfc`, `again` is `goto L_140`, `best s`
is `goto L_600` with the status `s`, `done` is the end with `COBYLA_SUCCESS` (line 974),
`wrong` is an access with index `JDROP = 0` (out of the arrays). -/
inductive Jump where
  | call | again | best (s : Status) | done | wrong
deriving DecidableEq, Repr

/-- The parameters. -/
structure Par (F : Type) where
  /-- number of variables -/
  n : Nat
  /-- number of constraints -/
  m : Nat
  rhobeg : F
  rhoend : F
  maxfun : Int

/-- The variables which are preserved between evaluations and the arrays, `src/cobyla.c:165-196`. -/
structure St (F : Type) where
  nfvals : Nat
  parmu : F
  parsig : F
  prerec : F
  prerem : F
  rho : F
  f : F
  resmax : F
  ibrnch : Nat
  iflag : Nat
  ifull : Nat
  jdrop : Nat
  x : Nat → F
  con : Nat → F
  vsig : Nat → F
  veta : Nat → F
  sigbar : Nat → F
  dx : Nat → F
  sim : Nat → Nat → F
  simi : Nat → Nat → F
  datmat : Nat → Nat → F
  a : Nat → Nat → F

namespace Par
variable {F : Type}
abbrev np (p : Par F) : Nat := p.n + 1
abbrev mp (p : Par F) : Nat := p.m + 1
abbrev mpp (p : Par F) : Nat := p.m + 2
end Par

section
variable {F : Type} [Add F] [Sub F] [Mul F] [Div F] [Neg F] [Zero F] [One F] [DecidableEq F]
variable [LT F] [LE F] [DecidableLT F] [DecidableLE F] [CMath F]

/-- `SIM` and `SIMI` for the initial simplex, `src/cobyla.c:493-502`. -/
def initSimplex (n : Nat) (rho : F) (x : Nat → F) (sims : (Nat → Nat → F) × (Nat → Nat → F)) :
    (Nat → Nat → F) × (Nat → Nat → F) :=
  let temp := 1 / rho
  up n (fun i ss =>
    let ss := (set2 ss.1 i (n + 1) (x i), ss.2)
    let ss := up n (fun j (ss : (Nat → Nat → F) × (Nat → Nat → F)) => (set2 ss.1 i j 0, set2 ss.2 i j 0)) ss
    (set2 ss.1 i i rho, set2 ss.2 i i temp)) sims

/-- Initialization, `src/cobyla.c:475-502` (in the direct routine `prerec`, `prerem` and
`parsig` are not initialized, they are not used before being set). -/
def init (p : Par F) (x : Nat → F) (s : St F) : St F :=
  let ss := initSimplex p.n p.rhobeg x (s.sim, s.simi)
  { s with nfvals := 0, parmu := 0, parsig := 0, prerec := 0, prerem := 0, rho := p.rhobeg, ibrnch := 0, iflag := 0, jdrop := p.np, x := x, sim := ss.1, simi := ss.2 }

/-- The greatest violation of the constraints, `src/cobyla.c:556-572`. -/
def worst (m : Nat) (c : Nat → F) : F :=
  up m (fun k resmax => if resmax < -c k then -c k else resmax) 0

/-- The count of evaluations and the array `CON` after an evaluation, `src/cobyla.c:553-577`. -/
def record (p : Par F) (f : F) (c : Nat → F) (s : St F) : St F :=
  let resmax := worst p.m c
  let con := up p.m (fun k con => set1 con k (c k)) s.con
  let con := set1 con p.mp f
  let con := set1 con p.mpp resmax
  { s with nfvals := s.nfvals + 1, f := f, resmax := resmax, con := con }

/-- `DATMAT(k,j) = CON(k)` for all `k`, `src/cobyla.c:585-587` and `src/cobyla.c:918-920`. -/
def store (mpp : Nat) (con : Nat → F) (j : Nat) (d : Nat → Nat → F) : Nat → Nat → F :=
  up mpp (fun k d => set2 d k j (con k)) d

/-- `SIM` and `SIMI` when the new vertex of the initial simplex is better than the pole,
`src/cobyla.c:602-609`. -/
def exchangeRow (jdrop : Nat) (rho : F) (ss : (Nat → Nat → F) × (Nat → Nat → F)) :
    (Nat → Nat → F) × (Nat → Nat → F) :=
  up jdrop (fun k (ss : (Nat → Nat → F) × (Nat → Nat → F)) =>
    let sim := set2 ss.1 jdrop k (-rho)
    let temp := loop (fun i t => t - ss.2 (k + i) k) (jdrop + 1 - k) 0
    (sim, set2 ss.2 jdrop k temp)) ss

/-- The exchange of the new vertex of the initial simplex with the pole, `src/cobyla.c:593-611`. -/
def exchange (p : Par F) (s : St F) : St F :=
  if s.jdrop ≤ p.n then
    if s.datmat p.mp p.np ≤ s.f then
      { s with x := set1 s.x s.jdrop (s.sim s.jdrop p.np) }
    else
      let sim := set2 s.sim s.jdrop p.np (s.x s.jdrop)
      let datmat := up p.mpp (fun k d =>
        let d := set2 d k s.jdrop (d k p.np)
        set2 d k p.np (s.con k)) s.datmat
      let ss := exchangeRow s.jdrop s.rho (sim, s.simi)
      { s with sim := ss.1, simi := ss.2, datmat := datmat }
  else s

/-- `L_550`, `src/cobyla.c:936-958`: the range `(cmin, cmax)` of the row `k` of `DATMAT`. -/
def range (p : Par F) (s : St F) (k : Nat) : F × F :=
  up p.n (fun i (c : F × F) => (cmin c.1 (s.datmat k i), cmax c.2 (s.datmat k i)))
    (s.datmat k p.np, s.datmat k p.np)

/-- `L_550`, `src/cobyla.c:935-958`: the new value of `PARMU` when `RHO` is reduced. -/
def resetMu (p : Par F) (s : St F) : F :=
  if s.parmu > 0 then
    let denom := up p.mp (fun k denom =>
      let (lo, hi) := range p s k
      if k ≤ p.m ∧ lo < lit 1 2 * hi then
        let temp := cmax hi 0 - lo
        if denom ≤ 0 then temp else cmin denom temp
      else denom) (0 : F)
    let (lo, hi) := range p s p.mp
    if denom = 0 then 0
    else if hi - lo < s.parmu * denom then (hi - lo) / denom
    else s.parmu
  else s.parmu

/-- `L_550`, `src/cobyla.c:924-974`. -/
def reduce (p : Par F) (s : St F) : Jump × St F :=
  if s.iflag = 0 then (.again, { s with ibrnch := 0 })
  else if s.rho > p.rhoend then
    let rho := lit 1 2 * s.rho
    let rho := if rho ≤ lit 3 2 * p.rhoend then p.rhoend else rho
    (.again, { s with rho := rho, parmu := resetMu p s })
  else (.done, s)

/-- `SIMI(j,:)·DX`, `src/cobyla.c:863-866`. -/
def inner (n : Nat) (simi : Nat → Nat → F) (dx : Nat → F) (j : Nat) : F :=
  up n (fun i t => t + simi j i * dx i) 0

/-- The updates of `SIM` and `SIMI` when `DX` replaces a column of `SIM`,
`src/cobyla.c:758-778` and `src/cobyla.c:899-917`. -/
def replace (n jdrop : Nat) (dx : Nat → F) (ss : (Nat → Nat → F) × (Nat → Nat → F)) :
    (Nat → Nat → F) × (Nat → Nat → F) :=
  let sim := up n (fun i sim => set2 sim i jdrop (dx i)) ss.1
  let temp := inner n ss.2 dx jdrop
  let simi := up n (fun i simi => set2 simi jdrop i (simi jdrop i / temp)) ss.2
  let simi := up n (fun j simi =>
    if j ≠ jdrop then
      let temp := inner n simi dx j
      up n (fun i simi => set2 simi j i (simi j i - temp * simi jdrop i)) simi
    else simi) simi
  (sim, simi)

/-- `L_440`, `src/cobyla.c:847-853`: `TRURED` and `PREREM`. -/
def reduction (p : Par F) (s : St F) : F × F :=
  let vmold := s.datmat p.mp p.np + s.parmu * s.datmat p.mpp p.np
  let vmnew := s.f + s.parmu * s.resmax
  if s.parmu = 0 ∧ s.f = s.datmat p.mp p.np then (s.datmat p.mpp p.np - s.resmax, s.prerec)
  else (vmold - vmnew, s.prerem)

/-- The first choice of `JDROP`, and `SIGBAR`, `src/cobyla.c:860-873`: `ratio`, `jdrop`, `sigbar`. -/
def chooseDrop (p : Par F) (trured : F) (s : St F) : F × Nat × (Nat → F) :=
  up p.n (fun j (st : F × Nat × (Nat → F)) =>
    let temp := fabs (inner p.n s.simi s.dx j)
    let sigbar := set1 st.2.2 j (temp * s.vsig j)
    if temp > st.1 then (temp, j, sigbar) else (st.1, st.2.1, sigbar))
    (if trured ≤ 0 then 1 else 0, 0, s.sigbar)

/-- The value of `l`, `src/cobyla.c:876-894`: `edgmax` and `l`. -/
def chooseFar (p : Par F) (trured : F) (sigbar : Nat → F) (s : St F) : F × Nat :=
  up p.n (fun j (st : F × Nat) =>
    if sigbar j ≥ s.parsig ∨ sigbar j ≥ s.vsig j then
      let temp :=
        if trured > 0 then sqrt (up p.n (fun i t => t + (s.dx i - s.sim i j) * (s.dx i - s.sim i j)) 0)
        else s.veta j
      if temp > st.1 then (temp, j) else st
    else st) (lit 11 10 * s.rho, 0)

/-- `L_440`, `src/cobyla.c:855-924`, once `TRURED` and `PREREM` are known. -/
def judgeStep (p : Par F) (trured : F) (s : St F) : Jump × St F :=
  let drop := chooseDrop p trured s
  let far := chooseFar p trured drop.2.2 s
  let jdrop := if far.2 > 0 then far.2 else drop.2.1
  let s := { s with sigbar := drop.2.2, jdrop := jdrop }
  if jdrop = 0 then reduce p s
  else
    let ss := replace p.n jdrop s.dx (s.sim, s.simi)
    let s := { s with sim := ss.1, simi := ss.2, datmat := store p.mpp s.con jdrop s.datmat }
    if trured > 0 ∧ trured ≥ lit 1 10 * s.prerem then (.again, s) else reduce p s

/-- `L_440`, `src/cobyla.c:847-924`: does the trial point replace a vertex? -/
def judge (p : Par F) (s : St F) : Jump × St F :=
  judgeStep p (reduction p s).1 { s with prerem := (reduction p s).2 }

/-- The next vertex of the initial simplex or the first iteration, `src/cobyla.c:612-618`. -/
def nextVertex (p : Par F) (s : St F) : Jump × St F :=
  if s.nfvals ≤ p.n then
    (.call, { s with jdrop := s.nfvals, x := set1 s.x s.nfvals (s.x s.nfvals + s.rho) })
  else (.again, { s with ibrnch := 1 })

/-- A vertex has been evaluated, `src/cobyla.c:588-618`. -/
def complete (p : Par F) (s : St F) : Jump × St F :=
  if s.nfvals > p.np then (.again, { s with ibrnch := 1 }) else nextVertex p (exchange p s)

/-- A point has been evaluated, `src/cobyla.c:578-618`. -/
def place (p : Par F) (s : St F) : Jump × St F :=
  if s.ibrnch = 1 then judge p s
  else complete p { s with datmat := store p.mpp s.con s.jdrop s.datmat }

/-- After an evaluation, `src/cobyla.c:553-618`. -/
def newEval (p : Par F) (f : F) (c : Nat → F) (s : St F) : Jump × St F := place p (record p f c s)

/-- The index of the best vertex, `src/cobyla.c:622-632`: `phimin` and `nbest`. -/
def findBest (p : Par F) (s : St F) : F × Nat :=
  up p.n (fun j (st : F × Nat) =>
    let temp := s.datmat p.mp j + s.parmu * s.datmat p.mpp j
    if temp < st.1 then (temp, j)
    else if temp = st.1 ∧ s.parmu = 0 then
      if s.datmat p.mpp j < s.datmat p.mpp st.2 then (st.1, j) else st
    else st) (s.datmat p.mp p.np + s.parmu * s.datmat p.mpp p.np, p.np)

/-- `SIM` and `SIMI` when the vertex `nbest` becomes the pole, `src/cobyla.c:642-652`. -/
def switchSim (n nbest : Nat) (ss : (Nat → Nat → F) × (Nat → Nat → F)) :
    (Nat → Nat → F) × (Nat → Nat → F) :=
  up n (fun i (ss : (Nat → Nat → F) × (Nat → Nat → F)) =>
    let temp := ss.1 i nbest
    let sim := set2 ss.1 i nbest 0
    let sim := set2 sim i (n + 1) (sim i (n + 1) + temp)
    let st := up n (fun k (st : (Nat → Nat → F) × F) => (set2 st.1 i k (st.1 i k - temp), st.2 - ss.2 k i)) (sim, 0)
    (st.1, set2 ss.2 nbest i st.2)) ss

/-- The best vertex becomes the pole, `src/cobyla.c:621-653`. -/
def pole (p : Par F) (s : St F) : St F :=
  let nbest := (findBest p s).2
  if nbest ≤ p.n then
    let datmat := up p.mpp (fun i d =>
      let temp := d i p.np
      let d := set2 d i p.np (d i nbest)
      set2 d i nbest temp) s.datmat
    let ss := switchSim p.n nbest (s.sim, s.simi)
    { s with datmat := datmat, sim := ss.1, simi := ss.2 }
  else s

/-- The error of the inverse, `src/cobyla.c:657-668`. -/
def inverseError (n : Nat) (sim simi : Nat → Nat → F) : F :=
  up n (fun i error =>
    up n (fun j error =>
      let temp := up n (fun k t => t + simi i k * sim k j) (if i = j then -1 else 0)
      cmax error (fabs temp)) error) 0

/-- The linear models, `src/cobyla.c:681-693`: `CON` and `A`. -/
def linear (p : Par F) (s : St F) : (Nat → F) × (Nat → Nat → F) :=
  up p.mp (fun k (st : (Nat → F) × (Nat → Nat → F)) =>
    let con := set1 st.1 k (-s.datmat k p.np)
    let w := fun j => s.datmat k j + con k
    let a := up p.n (fun i a =>
      let temp := up p.n (fun j t => t + w j * s.simi j i) 0
      set2 a i k (if k = p.mp then -temp else temp)) st.2
    (con, a)) (s.con, s.a)

/-- `VSIG`, `VETA` and `IFLAG`, `src/cobyla.c:697-711`. -/
def quality (p : Par F) (s : St F) : (Nat → F) × (Nat → F) × Nat :=
  up p.n (fun j (st : (Nat → F) × (Nat → F) × Nat) =>
    let wsig := up p.n (fun i t => t + s.simi j i * s.simi j i) 0
    let weta := up p.n (fun i t => t + s.sim i j * s.sim i j) 0
    let vsig := set1 st.1 j (1 / sqrt wsig)
    let veta := set1 st.2.1 j (sqrt weta)
    (vsig, veta, if vsig j < lit 1 4 * s.rho ∨ veta j > lit 21 10 * s.rho then 0 else st.2.2))
    (s.vsig, s.veta, 1)

/-- The vertex to drop, `src/cobyla.c:715-730`. -/
def dropVertex (p : Par F) (s : St F) : Nat :=
  let st := up p.n (fun j (st : F × Nat) => if s.veta j > st.1 then (s.veta j, j) else st) (lit 21 10 * s.rho, 0)
  if st.2 = 0 then
    (up p.n (fun j (st : F × Nat) => if s.vsig j < st.1 then (s.vsig j, j) else st) st).2
  else st.2

/-- The sign of the step to the new vertex, `src/cobyla.c:737-756`. -/
def stepSign (p : Par F) (dx : Nat → F) (s : St F) : F :=
  let st := up p.mp (fun k (st : F × F × F) =>
    let sum := up p.n (fun i t => t + s.a i k * dx i) 0
    if k < p.mp then
      let temp := s.datmat k p.np
      (cmax st.1 (-sum - temp), cmax st.2.1 (sum - temp), sum)
    else (st.1, st.2.1, sum)) (0, 0, 0)
  if s.parmu * (st.1 - st.2.1) > st.2.2 + st.2.2 then -1 else 1

/-- A new vertex to improve the simplex, `src/cobyla.c:715-779`. -/
def newVertex (p : Par F) (s : St F) : Jump × St F :=
  let jdrop := dropVertex p s
  if jdrop = 0 then (.wrong, s)
  else
    let temp := lit 1 2 * s.rho * s.vsig jdrop
    let dx := up p.n (fun i dx => set1 dx i (temp * s.simi jdrop i)) s.dx
    let dxsign := stepSign p dx s
    let dx := up p.n (fun i dx => set1 dx i (dx i * dxsign)) dx
    let ss := replace p.n jdrop dx (s.sim, s.simi)
    let x := up p.n (fun j x => set1 x j (ss.1 j p.np + dx j)) s.x
    (.call, { s with jdrop := jdrop, dx := dx, sim := ss.1, simi := ss.2, x := x })

/-- The predictions of the linear models, `src/cobyla.c:807-816`: `resnew` and `sum`. -/
def predict (p : Par F) (s : St F) : F × F :=
  up p.mp (fun k (st : F × F) =>
    let sum := up p.n (fun i t => t - s.a i k * s.dx i) (s.con k)
    (if k < p.mp then cmax st.1 sum else st.1, sum)) (0, 0)

/-- Is another vertex better than the pole? `src/cobyla.c:829-836`. -/
def poleBeaten (p : Par F) (s : St F) : Bool :=
  let phi := s.datmat p.mp p.np + s.parmu * s.datmat p.mpp p.np
  up p.n (fun j b =>
    let temp := s.datmat p.mp j + s.parmu * s.datmat p.mpp j
    b || decide (temp < phi) || (decide (temp = phi ∧ s.parmu = 0) && decide (s.datmat p.mpp j < s.datmat p.mpp p.np))) false

/-- The trial point, `src/cobyla.c:829-846`; `raised` tells whether `PARMU` has been increased. -/
def trial (p : Par F) (raised : Bool) (sum : F) (s : St F) : Jump × St F :=
  if raised && poleBeaten p s then (.again, s)
  else
    let x := up p.n (fun i x => set1 x i (s.sim i p.np + s.dx i)) s.x
    (.call, { s with prerem := s.parmu * s.prerec - sum, x := x, ibrnch := 1 })

/-- The value of `BARMU`, `src/cobyla.c:822-823`. -/
def barmu (p : Par F) (s : St F) : F :=
  let prerec := s.datmat p.mpp p.np - (predict p s).1
  if prerec > 0 then (predict p s).2 / prerec else 0

/-- `PREREC` and `PARMU`, `src/cobyla.c:807-846`. -/
def increaseMu (p : Par F) (s : St F) : Jump × St F :=
  trial p (decide (s.parmu < lit 3 2 * barmu p s)) (predict p s).2
    { s with prerec := s.datmat p.mpp p.np - (predict p s).1, parmu := if s.parmu < lit 3 2 * barmu p s then lit 2 1 * barmu p s else s.parmu }

/-- `L_370` after `trstlp`, `src/cobyla.c:795-846`. -/
def trust (p : Par F) (s : St F) : Jump × St F :=
  if s.ifull = 0 ∧ up p.n (fun i t => t + s.dx i * s.dx i) 0 < lit 1 4 * s.rho * s.rho then
    reduce p { s with ibrnch := 1 }
  else increaseMu p { s with con := set1 s.con p.mp 0 }

/-- The choice between a better simplex and a trial point, `src/cobyla.c:713-846`; the step of
`trstlp` (`DX` and `IFULL`) is `T` of the state at line 791. -/
def branch (p : Par F) (T : St F → (Nat → F) × Nat) (s : St F) : Jump × St F :=
  if s.ibrnch = 1 ∨ s.iflag = 1 then trust p { s with dx := (T s).1, ifull := (T s).2 }
  else newVertex p s

/-- `VSIG`, `VETA`, `IFLAG` and `PARSIG`, `src/cobyla.c:695-711`. -/
def assess (p : Par F) (s : St F) : St F :=
  { s with vsig := (quality p s).1, veta := (quality p s).2.1, iflag := (quality p s).2.2, parsig := lit 1 4 * s.rho }

/-- The iteration once the pole is the best vertex, `src/cobyla.c:655-846`. -/
def passPole (p : Par F) (T : St F → (Nat → F) × Nat) (s : St F) : Jump × St F :=
  if inverseError p.n s.sim s.simi > lit 1 10 then (.best .roundingErrors, s)
  else branch p T (assess p { s with con := (linear p s).1, a := (linear p s).2 })

/-- From `L_140` to the next jump, `src/cobyla.c:621-846`. -/
def pass (p : Par F) (T : St F → (Nat → F) × Nat) (s : St F) : Jump × St F := passPole p T (pole p s)

/-- The pole is returned, `src/cobyla.c:976-981`. -/
def takePole (p : Par F) (s : St F) : St F :=
  { s with x := up p.n (fun i x => set1 x i (s.sim i p.np)) s.x, f := s.datmat p.mp p.np, resmax := s.datmat p.mpp p.np }

/-- The test of `call_calcfc`, `src/cobyla.c:527-533`, and the ends, `src/cobyla.c:974-982`: the
new status; `none` for an execution which goes on or accesses out of the arrays. -/
def settle (p : Par F) : Jump × St F → Option (Status × St F)
  | (.call, s) =>
    if p.maxfun ≤ s.nfvals ∧ s.nfvals > 0 then some (.tooManyEvaluations, takePole p s)
    else some (.iterate, s)
  | (.best e, s) => some (e, takePole p s)
  | (.done, s) => some (.success, if s.ifull ≠ 1 then takePole p s else s)
  | (.again, _) => none
  | (.wrong, _) => none

/-- The iterations from `L_140` until something else than `goto L_140`; at most `fuel` of them. -/
def passes (p : Par F) (T : St F → (Nat → F) × Nat) : Nat → Jump × St F → Jump × St F
  | 0, js => js
  | fuel + 1, (.again, s) => passes p T fuel (pass p T s)
  | _ + 1, js => js

/-- The code executed after an evaluation until the next one or the end, `src/cobyla.c:545-1010`;
`none` if more than `fuel` iterations of the algorithm are necessary or in case of an access out
of the arrays. -/
def resume (p : Par F) (T : St F → (Nat → F) × Nat) (fuel : Nat) (f : F) (c : Nat → F) (s : St F) :
    Option (Status × St F) :=
  settle p (passes p T fuel (newEval p f c s))

/-- `struct cobyla_context_`, `src/cobyla.c:163-196`: the parameters, the status and the variables. -/
structure Ctx (F : Type) where
  par : Par F
  status : Status
  st : St F

/-- The contents of the workspace filled with zeros, `src/cobyla.c:220`. -/
def zeroSt : St F :=
  { nfvals := 0, parmu := 0, parsig := 0, prerec := 0, prerem := 0, rho := 0, f := 0, resmax := 0, ibrnch := 0, iflag := 0, ifull := 0, jdrop := 0, x := fun _ => 0, con := fun _ => 0, vsig := fun _ => 0, veta := fun _ => 0, sigbar := fun _ => 0, dx := fun _ => 0, sim := fun _ _ => 0, simi := fun _ _ => 0, datmat := fun _ _ => 0, a := fun _ _ => 0 }

/-- `cobyla_create`, `src/cobyla.c:198-247`; `room` tells whether `malloc` succeeds. -/
def create (n m : Int) (rhobeg rhoend : F) (maxfun : Int) (room : Bool) : Option (Ctx F) :=
  if n < 1 ∨ m < 0 ∨ rhobeg < rhoend ∨ rhoend ≤ 0 ∨ maxfun < 1 then none
  else if !room then none
  else some ⟨⟨n.toNat, m.toNat, rhobeg, rhoend, maxfun⟩, .iterate, zeroSt⟩

/-- `cobyla_restart`, `src/cobyla.c:257-267`. -/
def restart : Option (Ctx F) → Status × Option (Ctx F)
  | none => (.badAddress, none)
  | some ctx => (.iterate, some { ctx with status := .iterate, st := { ctx.st with nfvals := 0 } })

/-- `cobyla_get_status`, `src/cobyla.c:269-277`. -/
def getStatus : Option (Ctx F) → Status
  | none => .badAddress
  | some ctx => ctx.status

/-- `cobyla_get_nevals`, `src/cobyla.c:279-287`. -/
def getNevals : Option (Ctx F) → Int
  | none => -1
  | some ctx => ctx.st.nfvals

/-- `cobyla_get_rho`, `src/cobyla.c:289-297`. -/
def getRho : Option (Ctx F) → F
  | none => -1
  | some ctx => ctx.st.rho

/-- `cobyla_get_last_f`, `src/cobyla.c:299-307`. -/
def getLastF : Option (Ctx F) → F
  | none => -1
  | some ctx => ctx.st.f

/-- `cobyla_iterate`, `src/cobyla.c:341-1013`: `x` and `c` are the contents of the arrays of the
caller, if they are not `NULL`.  The result is the returned status and the context, whose member
`st.x` is the contents of the array `x` on return; `none` as for `resume`. -/
def iterate (T : St F → (Nat → F) × Nat) (fuel : Nat) (ctx : Option (Ctx F)) (f : F)
    (x c : Option (Nat → F)) : Option (Status × Option (Ctx F)) :=
  match ctx with
  | none => some (.badAddress, none)
  | some ctx =>
    match x with
    | none => some (.badAddress, some { ctx with status := .badAddress })
    | some x =>
      if c.isNone ∧ ctx.par.m > 0 then some (.badAddress, some { ctx with status := .badAddress })
      else if ctx.status ≠ .iterate then some (.corrupted, some { ctx with status := .corrupted })
      else
        let s := if ctx.st.nfvals = 0 then init ctx.par x ctx.st else { ctx.st with x := x }
        match resume ctx.par T fuel f (c.getD fun _ => 0) s with
        | none => none
        | some (status, s) => some (status, some { ctx with status := status, st := s })

/-- The evaluations of the direct routine, `src/cobyla.c:527-1013`: `calcfc k x` is the reply
(function and constraints) of the `k`-th call of the user function at `x` (already multiplied by
the scaling factors); at most `count` evaluations, each followed by at most `fuel` iterations. -/
def evals (p : Par F) (T : St F → (Nat → F) × Nat) (calcfc : Nat → (Nat → F) → F × (Nat → F)) (fuel : Nat) :
    Nat → St F → Option (Status × St F)
  | 0, _ => none
  | count + 1, s =>
    let r := calcfc s.nfvals s.x
    match resume p T fuel r.1 r.2 s with
    | some (.iterate, s) => evals p T calcfc fuel count s
    | r => r

/-- The scaling factors to use, `src/cobyla.c:431-446`: `none` for `COBYLA_BAD_SCALING`. -/
def scaling (n : Nat) : Option (Nat → F) → Option (Option (Nat → F))
  | none => some none
  | some scl =>
    let st := up n (fun i (st : Option Bool) => match st with
      | none => none
      | some b =>
        if scl i ≠ 1 then
          if scl i - scl i ≠ 0 ∨ scl i ≤ 0 then none else some true
        else some b) (some false)
    st.map fun b => if b then some scl else none

/-- `scale`, `src/cobyla.c:115-124`. -/
def scale (n : Nat) (scl src dst : Nat → F) : Nat → F := up n (fun i dst => set1 dst i (scl i * src i)) dst

/-- The variables are divided by the scaling factors, if any, `src/cobyla.c:447-452`. -/
def rescale (n : Nat) (scl : Option (Nat → F)) (x : Nat → F) : Nat → F :=
  match scl with
  | none => x
  | some scl => up n (fun i x => set1 x i (x i / scl i)) x

/-- The variables are multiplied by the scaling factors, if any, `src/cobyla.c:536-541` and
`src/cobyla.c:988-990`. -/
def unscale (n : Nat) (scl : Option (Nat → F)) (x : Nat → F) : Nat → F :=
  match scl with
  | none => x
  | some scl => scale n scl x x

/-- The call of the user function, `src/cobyla.c:534-552`. -/
def reply (n : Nat) (scl : Option (Nat → F)) (maximize : Bool) (calcfc : Nat → (Nat → F) → F × (Nat → F)) (k : Nat)
    (x : Nat → F) : F × (Nat → F) :=
  let r := calcfc k (unscale n scl x)
  (if maximize then -r.1 else r.1, r.2)

/-- What `cobyla_optimize` returns: the status, `x`, `work[0]`, `work[1]` and `iact[0]`. -/
structure Result (F : Type) where
  status : Status
  x : Nat → F
  f : F
  resmax : F
  nfvals : Nat

/-- `cobyla_optimize`, `src/cobyla.c:344-1013`: either the status for wrong arguments, or the
result.  `w` is the initial contents of the workspace (any state). -/
def optimize (T : St F → (Nat → F) × Nat) (fuel count : Nat) (n m : Int) (maximize : Bool)
    (calcfc : Nat → (Nat → F) → F × (Nat → F)) (x : Nat → F) (scl : Option (Nat → F))
    (rhobeg rhoend : F) (maxfun : Int) (w : St F) : Option (Status ⊕ Result F) :=
  if n < 1 then some (.inl .badNvars)
  else if m < 0 then some (.inl .badNcons)
  else if rhoend ≤ 0 ∨ rhoend > rhobeg then some (.inl .badRhoRange)
  else
    match scaling n.toNat scl with
    | none => some (.inl .badScaling)
    | some scl =>
      let p : Par F := ⟨n.toNat, m.toNat, rhobeg, rhoend, maxfun⟩
      match evals p T (reply p.n scl maximize calcfc) fuel count (init p (rescale p.n scl x) w) with
      | none => none
      | some (status, s) =>
        some (.inr ⟨status, unscale p.n scl s.x, if maximize then -s.f else s.f, s.resmax, s.nfvals⟩)

end
end Opk.Cobyla
