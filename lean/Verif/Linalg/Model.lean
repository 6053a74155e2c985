import Verif.Arith.Model
/-!
# Linear algebra on arrays, level 1: `src/linalg.c:42-713`

The memory is a function from (integer) addresses to numbers; an array `x` is the address of its
first element, so that arrays may overlap.  Indices are mathematical integers: overflows of
`n*incx` for an `opk_index` are not represented.  Every access to memory is explicit, so that
what is read and written can be stated.  `F` is the type of the numbers, its operations obey no
law in this file.
-/
namespace Opk.Linalg

/-- Memory of numbers. -/
abbrev Mem (F : Type) := Int → F

/-- `a[..] = v`. -/
def put {F : Type} (m : Mem F) (a : Int) (v : F) : Mem F := fun b => if b = a then v else m b

/-- The successive values `0, 1, .., n - 1` of a counter: `body 0`, then `body 1`, etc. -/
def loop {α : Type} (body : Nat → α → α) : Nat → α → α
  | 0, s => s
  | n + 1, s => body n (loop body n s)

/-- Number of iterations of `for (i = lo; i < hi; i += step)` with `step > 0`. -/
def trips (lo hi step : Int) : Nat := ((hi - lo + step - 1) / step).toNat

/-- `for (i = lo; i < hi; i += step) body(i)` with `step > 0`; see `forUp_unfold`. -/
def forUp {α : Type} (lo hi step : Int) (body : Int → α → α) (s : α) : α :=
  loop (fun k => body (lo + k * step)) (trips lo hi step) s

/-- `for (i = hi; i > lo; --i) body(i)`; see `forDown_unfold`. -/
def forDown {α : Type} (hi lo : Int) (body : Int → α → α) (s : α) : α :=
  loop (fun k => body (hi - k)) (hi - lo).toNat s

/-- `START_0`, `src/linalg.c:49`. -/
def start0 (number step : Int) : Int := if step ≥ 0 then 0 else (1 - number) * step

/-- `UNROLL_4a`, `src/linalg.c:72-84` (`n & 3` is `n % 4`: two's complement). -/
def unroll4a {α : Type} (n : Int) (op : Int → α → α) (s : α) : α :=
  let m := n % 4
  let s := forUp 0 m 1 op s
  forUp m n 4 (fun i s => op (i + 3) (op (i + 2) (op (i + 1) (op i s)))) s

/-- `UNROLL_8a`, `src/linalg.c:100-116`. -/
def unroll8a {α : Type} (n : Int) (op : Int → α → α) (s : α) : α :=
  let m := n % 8
  let s := forUp 0 m 1 op s
  forUp m n 8 (fun i s => op (i + 7) (op (i + 6) (op (i + 5) (op (i + 4)
    (op (i + 3) (op (i + 2) (op (i + 1) (op i s)))))))) s

/-- The temporary variables `t0, t1, t2, t3`. -/
structure T4 (F : Type) where
  t0 : F
  t1 : F
  t2 : F
  t3 : F

/-- `UNROLL_4b`, `src/linalg.c:86-98`, for an operation `t += term(i)` on the temporary variables. -/
def unroll4b {F : Type} [Add F] (n : Int) (term : Int → F) (t : T4 F) : T4 F :=
  let m := n % 4
  let t := forUp 0 m 1 (fun i t => { t with t0 := t.t0 + term i }) t
  forUp m n 4 (fun i t =>
    let t := { t with t0 := t.t0 + term i }
    let t := { t with t1 := t.t1 + term (i + 1) }
    let t := { t with t2 := t.t2 + term (i + 2) }
    { t with t3 := t.t3 + term (i + 3) }) t

/-- `SWAP`, `src/linalg.c:54`: `t = *a; *a = *b; *b = t`. -/
def swapAt {F : Type} (m : Mem F) (a b : Int) : Mem F :=
  let t := m a
  let m := put m a (m b)
  put m b t

section level1
variable {F : Type} [Add F] [Sub F] [Mul F] [Div F] [Neg F] [Zero F] [One F] [DecidableEq F]
variable [LT F] [LE F] [DecidableLT F] [DecidableLE F]

/-- `OPK_AMAX`, `src/linalg.c:155-179`. -/
def amax (n x incx : Int) (mem : Mem F) : F :=
  let a : F := 0
  if n < 1 ∨ incx < 1 then a
  else
    let b := a
    let (a, b) :=
      if incx = 1 then
        forUp 0 n 1 (fun i (a, b) =>
          let a := if mem (x + i) < a then mem (x + i) else a
          let b := if mem (x + i) > b then mem (x + i) else b
          (a, b)) (a, b)
      else
        let m := n * incx
        forUp 0 m incx (fun i (a, b) =>
          let a := if mem (x + i) < a then mem (x + i) else a
          let b := if mem (x + i) > b then mem (x + i) else b
          (a, b)) (a, b)
    let a := -a
    if a ≥ b then a else b

/-- `OPK_SWAP`, `src/linalg.c:187-230`. -/
def swap (n x incx y incy : Int) (mem : Mem F) : Mem F :=
  if n ≤ 0 ∨ x = y then mem
  else if incx = incy then
    if incx = 1 then unroll4a n (fun j m => swapAt m (x + j) (y + j)) mem
    else
      (forUp 0 n 1 (fun _ (s : Int × Mem F) =>
        let (ix, m) := s
        let m := swapAt m (x + ix) (y + ix)
        (ix + incx, m)) (start0 n incx, mem)).2
  else if incx = 1 then
    (forUp 0 n 1 (fun i (s : Int × Mem F) =>
      let (iy, m) := s
      let m := swapAt m (x + i) (y + iy)
      (iy + incy, m)) (start0 n incy, mem)).2
  else if incy = 1 then
    (forUp 0 n 1 (fun i (s : Int × Mem F) =>
      let (ix, m) := s
      let m := swapAt m (x + ix) (y + i)
      (ix + incx, m)) (start0 n incx, mem)).2
  else
    (forUp 0 n 1 (fun _ (s : Int × Int × Mem F) =>
      let (ix, iy, m) := s
      let m := swapAt m (x + ix) (y + iy)
      (ix + incx, iy + incy, m)) (start0 n incx, start0 n incy, mem)).2.2

/-- `OPK_SCAL`, `src/linalg.c:238-277`. -/
def scal (n : Int) (a : F) (x incx : Int) (mem : Mem F) : Mem F :=
  if n ≤ 0 ∨ a = 1 then mem
  else if incx = 1 then
    if a = 0 then unroll8a n (fun i m => put m (x + i) 0) mem
    else if a = -1 then unroll8a n (fun i m => put m (x + i) (-m (x + i))) mem
    else unroll8a n (fun i m => put m (x + i) (m (x + i) * a)) mem
  else if incx > 0 then
    let m' := n * incx
    if a = 0 then forUp 0 m' incx (fun i m => put m (x + i) 0) mem
    else if a = -1 then forUp 0 m' incx (fun i m => put m (x + i) (-m (x + i))) mem
    else forUp 0 m' incx (fun i m => put m (x + i) (m (x + i) * a)) mem
  else mem

/-- The loops of `OPK_COPY` and `OPK_AXPY` when one of the increments is not 1: the indices
`ix` and `iy` run with steps `dx` and `dy`; `src/linalg.c:303-323, 348-371, 378-401, 408-431`. -/
def strided (n : Int) (op : Int → Int → Mem F → Mem F) (ix dx iy dy : Int) (mem : Mem F) : Mem F :=
  (forUp 0 n 1 (fun _ (s : Int × Int × Mem F) =>
    let (ix, iy, m) := s
    let m := op ix iy m
    (ix + dx, iy + dy, m)) (ix, iy, mem)).2.2

/-- `OPK_COPY`, `src/linalg.c:285-325`.  (When an increment is 1 the corresponding index is the
counter of the loop.) -/
def copy (n x incx y incy : Int) (mem : Mem F) : Mem F :=
  if n ≤ 0 ∨ (incx = incy ∧ x = y) then mem
  else
    let op := fun (ix iy : Int) (m : Mem F) => put m (y + iy) (m (x + ix))
    if incx = 1 then
      if incy = 1 then unroll8a n (fun i m => op i i m) mem
      else strided n op 0 1 (start0 n incy) incy mem
    else
      if incy = 1 then strided n op (start0 n incx) incx 0 1 mem
      else strided n op (start0 n incx) incx (start0 n incy) incy mem

/-- The four loops of `OPK_AXPY` for one kind of operation, `src/linalg.c:343-372`,
`373-402`, `403-432`. -/
def axpyLoops (op : Int → Int → Mem F → Mem F) (n incx incy : Int) (mem : Mem F) : Mem F :=
  if incx = 1 then
    if incy = 1 then unroll4a n (fun i m => op i i m) mem
    else strided n op 0 1 (start0 n incy) incy mem
  else
    if incy = 1 then strided n op (start0 n incx) incx 0 1 mem
    else strided n op (start0 n incx) incx (start0 n incy) incy mem

/-- `OPK_AXPY`, `src/linalg.c:333-433`. -/
def axpy (n : Int) (a : F) (x incx y incy : Int) (mem : Mem F) : Mem F :=
  if n ≤ 0 ∨ a = 0 then mem
  else if a = 1 then
    axpyLoops (fun ix iy m => put m (y + iy) (m (y + iy) + m (x + ix))) n incx incy mem
  else if a = -1 then
    axpyLoops (fun ix iy m => put m (y + iy) (m (y + iy) - m (x + ix))) n incx incy mem
  else
    axpyLoops (fun ix iy m => put m (y + iy) (m (y + iy) + a * m (x + ix))) n incx incy mem

/-- The loops of `OPK_DOT` when one of the increments is not 1, `src/linalg.c:460-479`. -/
def dotStrided (n x ix dx y iy dy : Int) (mem : Mem F) (t0 : F) : F :=
  (forUp 0 n 1 (fun _ (s : Int × Int × F) =>
    let (ix, iy, t0) := s
    let t0 := t0 + mem (x + ix) * mem (y + iy)
    (ix + dx, iy + dy, t0)) (ix, iy, t0)).2.2

/-- `OPK_DOT`, `src/linalg.c:441-481`. -/
def dot (n x incx y incy : Int) (mem : Mem F) : F :=
  let t0 : F := 0
  if n ≤ 0 then t0
  else if incx = 1 then
    if incy = 1 then
      let t := unroll4b n (fun i => mem (x + i) * mem (y + i)) ⟨t0, t0, t0, t0⟩
      (t.t0 + t.t1) + (t.t2 + t.t3)
    else dotStrided n x 0 1 y (start0 n incy) incy mem t0
  else
    if incy = 1 then dotStrided n x (start0 n incx) incx y 0 1 mem t0
    else dotStrided n x (start0 n incx) incx y (start0 n incy) incy mem t0

/-- `OPK_ASUM`, `src/linalg.c:489-511`. -/
def asum [CMath F] (n x incx : Int) (mem : Mem F) : F :=
  let t0 : F := 0
  if n < 1 ∨ incx < 1 then t0
  else if incx = 1 then
    let t := unroll4b n (fun i => CMath.fabs (mem (x + i))) ⟨t0, t0, t0, t0⟩
    (t.t0 + t.t1) + (t.t2 + t.t3)
  else
    let m := n * incx
    forUp 0 m incx (fun i t0 => t0 + CMath.fabs (mem (x + i))) t0

/-- `OPK_SUM`, `src/linalg.c:519-541`. -/
def sum (n x incx : Int) (mem : Mem F) : F :=
  let t0 : F := 0
  if n < 1 ∨ incx < 1 then t0
  else if incx = 1 then
    let t := unroll4b n (fun i => mem (x + i)) ⟨t0, t0, t0, t0⟩
    (t.t0 + t.t1) + (t.t2 + t.t3)
  else
    let m := n * incx
    forUp 0 m incx (fun i t0 => t0 + mem (x + i)) t0

/-- `OPK_NRM2`, `src/linalg.c:549-598`. -/
def nrm2 [CMath F] (n x incx : Int) (mem : Mem F) : F :=
  if n < 1 ∨ incx < 1 then 0
  else
    let a := mem x
    let b := a
    let (a, b) :=
      if incx = 1 then
        forUp 1 n 1 (fun i (a, b) =>
          let a := if mem (x + i) < a then mem (x + i) else a
          let b := if mem (x + i) > b then mem (x + i) else b
          (a, b)) (a, b)
      else
        let m := n * incx
        forUp incx m incx (fun i (a, b) =>
          let a := if mem (x + i) < a then mem (x + i) else a
          let b := if mem (x + i) > b then mem (x + i) else b
          (a, b)) (a, b)
    let a := -a
    let a := if a < b then b else a
    if a ≤ 0 then 0
    else
      let s : F := 0
      let b := 1 / a
      let s :=
        if incx = 1 then
          forUp 0 n 1 (fun i s =>
            let t := b * mem (x + i)
            s + t * t) s
        else
          let m := n * incx
          forUp 0 m incx (fun i s =>
            let t := b * mem (x + i)
            s + t * t) s
      a * CMath.sqrt s

/-- `OPK_IAMAX`, `src/linalg.c:606-636`. -/
def iamax [CMath F] (n x incx : Int) (mem : Mem F) : Int :=
  if n < 1 ∨ incx < 1 then 0
  else if n = 1 then 1
  else
    let amax := CMath.fabs (mem x)
    let imax : Int := 0
    let imax :=
      if incx = 1 then
        (forUp 1 n 1 (fun i (s : F × Int) =>
          let (amax, imax) := s
          let t := CMath.fabs (mem (x + i))
          if t > amax then (t, i) else (amax, imax)) (amax, imax)).2
      else
        (forUp 1 n 1 (fun i (s : Int × F × Int) =>
          let (ix, amax, imax) := s
          let t := CMath.fabs (mem (x + ix))
          if t > amax then (ix + incx, t, i) else (ix + incx, amax, imax)) (incx, amax, imax)).2.2
    imax + 1

/-- `OPK_ZERO`, `src/linalg.c:695-712`. -/
def zero (n x incx : Int) (mem : Mem F) : Mem F :=
  if n ≥ 1 then
    if incx = 1 then unroll8a n (fun i m => put m (x + i) 0) mem
    else if incx > 1 then
      let m' := n * incx
      forUp 0 m' incx (fun i m => put m (x + i) 0) mem
    else mem
  else mem

end level1
end Opk.Linalg
