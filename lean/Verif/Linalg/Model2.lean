import Verif.Linalg.Model
/-!
# Linear algebra on arrays, level 2: `src/linalg.c:715-1263`

Matrix-vector products and triangular systems.  Matrices are stored by columns: the element of
row `i` and column `j` (from 0) of a matrix `a` of leading dimension `lda` is at address
`a + j*lda + i`.  The routines return a code and the memory.
-/
namespace Opk.Linalg

/-- `opk_blas_trans`, `src/optimpack-linalg.h:100-104`; `other` is any other integer. -/
inductive Trans where
  | noTrans | trans | conjTrans
  | other (value : Int)
  deriving DecidableEq, Repr

/-- `opk_blas_uplo`, `src/optimpack-linalg.h:107-110`. -/
inductive Uplo where
  | upper | lower
  | other (value : Int)
  deriving DecidableEq, Repr

/-- `opk_blas_diag`, `src/optimpack-linalg.h:113-116`. -/
inductive Diag where
  | nonUnit | unit
  | other (value : Int)
  deriving DecidableEq, Repr

/-- `for (i = lo; i < hi; ++i) { body(i, ix); ix += dx; }`. -/
def walkUp {α : Type} (lo hi ix dx : Int) (body : Int → Int → α → α) (s : α) : α :=
  (forUp lo hi 1 (fun i (st : Int × α) => (st.1 + dx, body i st.1 st.2)) (ix, s)).2

/-- `for (i = hi; i > lo; --i) { body(i, ix); ix -= dx; }`. -/
def walkDown {α : Type} (hi lo ix dx : Int) (body : Int → Int → α → α) (s : α) : α :=
  (forDown hi lo (fun i (st : Int × α) => (st.1 - dx, body i st.1 st.2)) (ix, s)).2

/-- `for (i = lo; i < hi; ++i) { ix += dx; body(i, ix); }`. -/
def stepUp {α : Type} (lo hi ix dx : Int) (body : Int → Int → α → α) (s : α) : α :=
  (forUp lo hi 1 (fun i (st : Int × α) => (st.1 + dx, body i (st.1 + dx) st.2)) (ix, s)).2

/-- `for (i = hi; i > lo; --i) { ix -= dx; body(i, ix); }`. -/
def stepDown {α : Type} (hi lo ix dx : Int) (body : Int → Int → α → α) (s : α) : α :=
  (forDown hi lo (fun i (st : Int × α) => (st.1 - dx, body i (st.1 - dx) st.2)) (ix, s)).2

section level2
variable {F : Type} [Add F] [Sub F] [Mul F] [Div F] [Neg F] [Zero F] [One F] [DecidableEq F]

/-- First part of `OPK_GEMV`, `y := beta*y`, `src/linalg.c:800-826`. -/
def gemvScale (leny : Int) (beta : F) (y ky incy : Int) (mem : Mem F) : Mem F :=
  if beta ≠ 1 then
    if incy = 1 then
      if beta = 0 then forUp 0 leny 1 (fun i m => put m (y + i) 0) mem
      else forUp 0 leny 1 (fun i m => put m (y + i) (m (y + i) * beta)) mem
    else
      if beta = 0 then walkUp 0 leny ky incy (fun _ iy m => put m (y + iy) 0) mem
      else walkUp 0 leny ky incy (fun _ iy m => put m (y + iy) (m (y + iy) * beta)) mem
  else mem

/-- `y := alpha*A*x + y`, `src/linalg.c:829-856`. -/
def gemvN (m n : Int) (alpha : F) (a lda x kx incx y ky incy : Int) (mem : Mem F) : Mem F :=
  if incy = 1 then
    walkUp 0 n kx incx (fun j jx mem =>
      if mem (x + jx) ≠ 0 then
        let temp := alpha * mem (x + jx)
        forUp 0 m 1 (fun i mem => put mem (y + i) (mem (y + i) + temp * mem (a + (j * lda + i)))) mem
      else mem) mem
  else
    walkUp 0 n kx incx (fun j jx mem =>
      if mem (x + jx) ≠ 0 then
        let temp := alpha * mem (x + jx)
        walkUp 0 m ky incy (fun i iy mem => put mem (y + iy) (mem (y + iy) + temp * mem (a + (j * lda + i)))) mem
      else mem) mem

/-- `y := alpha*A'*x + y`, `src/linalg.c:857-882`. -/
def gemvT (m n : Int) (alpha : F) (a lda x kx incx y ky incy : Int) (mem : Mem F) : Mem F :=
  if incx = 1 then
    walkUp 0 n ky incy (fun j jy mem =>
      let temp := forUp 0 m 1 (fun i temp => temp + mem (a + (j * lda + i)) * mem (x + i)) 0
      put mem (y + jy) (mem (y + jy) + alpha * temp)) mem
  else
    walkUp 0 n ky incy (fun j jy mem =>
      let temp := walkUp 0 m kx incx (fun i ix temp => temp + mem (a + (j * lda + i)) * mem (x + ix)) 0
      put mem (y + jy) (mem (y + jy) + alpha * temp)) mem

/-- `OPK_GEMV`, `src/linalg.c:733-885`. -/
def gemv (trans : Trans) (m n : Int) (alpha : F) (a lda x incx : Int) (beta : F) (y incy : Int) (mem : Mem F) : Int × Mem F :=
  let notrans := decide (trans = .noTrans)
  let go (lenx leny : Int) : Int × Mem F :=
    if m < 0 then (2, mem)
    else if n < 0 then (3, mem)
    else if lda < m ∨ lda < 1 then (6, mem)
    else if incx = 0 then (8, mem)
    else if incy = 0 then (11, mem)
    else if m = 0 ∨ n = 0 ∨ (alpha = 0 ∧ beta = 1) then (0, mem)
    else
      let kx := start0 lenx incx
      let ky := start0 leny incy
      let mem := gemvScale leny beta y ky incy mem
      if alpha ≠ 0 then
        if notrans then (0, gemvN m n alpha a lda x kx incx y ky incy mem)
        else (0, gemvT m n alpha a lda x kx incx y ky incy mem)
      else (0, mem)
  if notrans then go n m
  else if trans = .trans ∨ trans = .conjTrans then go m n
  else (1, mem)

/-- The loops of `OPK_TRMV` without transposition, `src/linalg.c:965-1021`. -/
def trmvN (upper nounit : Bool) (n a lda x kx incx : Int) (mem : Mem F) : Mem F :=
  if upper then
    if incx = 1 then
      forUp 0 n 1 (fun j mem =>
        if mem (x + j) ≠ 0 then
          let temp := mem (x + j)
          let mem := forUp 0 j 1 (fun i mem => put mem (x + i) (mem (x + i) + temp * mem (a + (j * lda + i)))) mem
          if nounit then put mem (x + j) (mem (x + j) * mem (a + (j * lda + j))) else mem
        else mem) mem
    else
      walkUp 0 n kx incx (fun j jx mem =>
        if mem (x + jx) ≠ 0 then
          let temp := mem (x + jx)
          let mem := walkUp 0 j kx incx (fun i ix mem => put mem (x + ix) (mem (x + ix) + temp * mem (a + (j * lda + i)))) mem
          if nounit then put mem (x + jx) (mem (x + jx) * mem (a + (j * lda + j))) else mem
        else mem) mem
  else
    if incx = 1 then
      forDown (n - 1) (-1) (fun j mem =>
        if mem (x + j) ≠ 0 then
          let temp := mem (x + j)
          let mem := forDown (n - 1) j (fun i mem => put mem (x + i) (mem (x + i) + temp * mem (a + (j * lda + i)))) mem
          if nounit then put mem (x + j) (mem (x + j) * mem (a + (j * lda + j))) else mem
        else mem) mem
    else
      let kx := kx + (n - 1) * incx
      walkDown (n - 1) (-1) kx incx (fun j jx mem =>
        if mem (x + jx) ≠ 0 then
          let temp := mem (x + jx)
          let mem := walkDown (n - 1) j kx incx (fun i ix mem => put mem (x + ix) (mem (x + ix) + temp * mem (a + (j * lda + i)))) mem
          if nounit then put mem (x + jx) (mem (x + jx) * mem (a + (j * lda + j))) else mem
        else mem) mem

/-- The loops of `OPK_TRMV` with transposition, `src/linalg.c:1022-1072`. -/
def trmvT (upper nounit : Bool) (n a lda x kx incx : Int) (mem : Mem F) : Mem F :=
  if upper then
    if incx = 1 then
      forDown (n - 1) (-1) (fun j mem =>
        let temp := mem (x + j)
        let temp := if nounit then temp * mem (a + (j * lda + j)) else temp
        let temp := forDown (j - 1) (-1) (fun i temp => temp + mem (a + (j * lda + i)) * mem (x + i)) temp
        put mem (x + j) temp) mem
    else
      walkDown (n - 1) (-1) (kx + (n - 1) * incx) incx (fun j jx mem =>
        let temp := mem (x + jx)
        let temp := if nounit then temp * mem (a + (j * lda + j)) else temp
        let temp := stepDown (j - 1) (-1) jx incx (fun i ix temp => temp + mem (a + (j * lda + i)) * mem (x + ix)) temp
        put mem (x + jx) temp) mem
  else
    if incx = 1 then
      forUp 0 n 1 (fun j mem =>
        let temp := mem (x + j)
        let temp := if nounit then temp * mem (a + (j * lda + j)) else temp
        let temp := forUp (j + 1) n 1 (fun i temp => temp + mem (a + (j * lda + i)) * mem (x + i)) temp
        put mem (x + j) temp) mem
    else
      walkUp 0 n kx incx (fun j jx mem =>
        let temp := mem (x + jx)
        let temp := if nounit then temp * mem (a + (j * lda + j)) else temp
        let temp := stepUp (j + 1) n jx incx (fun i ix temp => temp + mem (a + (j * lda + i)) * mem (x + ix)) temp
        put mem (x + jx) temp) mem

/-- The checks of the arguments of `OPK_TRMV`, `src/linalg.c:924-959`, and `OPK_TRSV`, `src/linalg.c:1115-1150`: either a
code, or the values of `upper`, `notrans` and `nounit`; `n = 0` also returns. -/
def triArgs (uplo : Uplo) (trans : Trans) (diag : Diag) (n lda incx : Int) : Except Int (Bool × Bool × Bool) := do
  let upper ← match uplo with
    | .upper => .ok true
    | .lower => .ok false
    | .other _ => .error 1
  let notrans ← match trans with
    | .noTrans => .ok true
    | .trans => .ok false
    | .conjTrans => .ok false
    | .other _ => .error 2
  let nounit ← match diag with
    | .nonUnit => .ok true
    | .unit => .ok false
    | .other _ => .error 3
  if n < 0 then .error 4
  else if lda < n ∨ lda < 1 then .error 6
  else if incx = 0 then .error 8
  else if n = 0 then .error 0
  else .ok (upper, notrans, nounit)

/-- `OPK_TRMV`, `src/linalg.c:903-1076`. -/
def trmv (uplo : Uplo) (trans : Trans) (diag : Diag) (n a lda x incx : Int) (mem : Mem F) : Int × Mem F :=
  match triArgs uplo trans diag n lda incx with
  | .error code => (code, mem)
  | .ok (upper, notrans, nounit) =>
    let kx := start0 n incx
    if notrans then (0, trmvN upper nounit n a lda x kx incx mem)
    else (0, trmvT upper nounit n a lda x kx incx mem)

/-- The loops of `OPK_TRSV` without transposition, `src/linalg.c:1158-1210` (indices from 1). -/
def trsvN (upper nounit : Bool) (n a lda x kx incx : Int) (mem : Mem F) : Mem F :=
  if upper then
    if incx = 1 then
      forDown n 0 (fun j mem =>
        if mem (x + (j - 1)) ≠ 0 then
          let mem := if nounit then put mem (x + (j - 1)) (mem (x + (j - 1)) / mem (a + (j - 1 + lda * (j - 1)))) else mem
          let temp := mem (x + (j - 1))
          forDown (j - 1) 0 (fun i mem => put mem (x + (i - 1)) (mem (x + (i - 1)) - temp * mem (a + (i - 1 + lda * (j - 1))))) mem
        else mem) mem
    else
      walkDown n 0 (kx + (n - 1) * incx) incx (fun j jx mem =>
        if mem (x + (jx - 1)) ≠ 0 then
          let mem := if nounit then put mem (x + (jx - 1)) (mem (x + (jx - 1)) / mem (a + (j - 1 + lda * (j - 1)))) else mem
          let temp := mem (x + (jx - 1))
          stepDown (j - 1) 0 jx incx (fun i ix mem => put mem (x + (ix - 1)) (mem (x + (ix - 1)) - temp * mem (a + (i - 1 + lda * (j - 1))))) mem
        else mem) mem
  else
    if incx = 1 then
      forUp 1 (n + 1) 1 (fun j mem =>
        if mem (x + (j - 1)) ≠ 0 then
          let mem := if nounit then put mem (x + (j - 1)) (mem (x + (j - 1)) / mem (a + (j - 1 + lda * (j - 1)))) else mem
          let temp := mem (x + (j - 1))
          forUp (j + 1) (n + 1) 1 (fun i mem => put mem (x + (i - 1)) (mem (x + (i - 1)) - temp * mem (a + (i - 1 + lda * (j - 1))))) mem
        else mem) mem
    else
      walkUp 1 (n + 1) kx incx (fun j jx mem =>
        if mem (x + (jx - 1)) ≠ 0 then
          let mem := if nounit then put mem (x + (jx - 1)) (mem (x + (jx - 1)) / mem (a + (j - 1 + lda * (j - 1)))) else mem
          let temp := mem (x + (jx - 1))
          stepUp (j + 1) (n + 1) jx incx (fun i ix mem => put mem (x + (ix - 1)) (mem (x + (ix - 1)) - temp * mem (a + (i - 1 + lda * (j - 1))))) mem
        else mem) mem

/-- The loops of `OPK_TRSV` with transposition, `src/linalg.c:1211-1259`. -/
def trsvT (upper nounit : Bool) (n a lda x kx incx : Int) (mem : Mem F) : Mem F :=
  if upper then
    if incx = 1 then
      forUp 1 (n + 1) 1 (fun j mem =>
        let temp := mem (x + (j - 1))
        let temp := forUp 1 j 1 (fun i temp => temp - mem (a + (i - 1 + lda * (j - 1))) * mem (x + (i - 1))) temp
        put mem (x + (j - 1)) (if nounit then temp / mem (a + (j - 1 + lda * (j - 1))) else temp)) mem
    else
      walkUp 1 (n + 1) kx incx (fun j jx mem =>
        let temp := mem (x + (jx - 1))
        let temp := walkUp 1 j kx incx (fun i ix temp => temp - mem (a + (i - 1 + lda * (j - 1))) * mem (x + (ix - 1))) temp
        put mem (x + (jx - 1)) (if nounit then temp / mem (a + (j - 1 + lda * (j - 1))) else temp)) mem
  else
    if incx = 1 then
      forDown n 0 (fun j mem =>
        let temp := mem (x + (j - 1))
        let temp := forDown n j (fun i temp => temp - mem (a + (i - 1 + lda * (j - 1))) * mem (x + (i - 1))) temp
        put mem (x + (j - 1)) (if nounit then temp / mem (a + (j - 1 + lda * (j - 1))) else temp)) mem
    else
      let kx := kx + (n - 1) * incx
      walkDown n 0 kx incx (fun j jx mem =>
        let temp := mem (x + (jx - 1))
        let temp := walkDown n j kx incx (fun i ix temp => temp - mem (a + (i - 1 + lda * (j - 1))) * mem (x + (ix - 1))) temp
        put mem (x + (jx - 1)) (if nounit then temp / mem (a + (j - 1 + lda * (j - 1))) else temp)) mem

/-- `OPK_TRSV`, `src/linalg.c:1095-1262`. -/
def trsv (uplo : Uplo) (trans : Trans) (diag : Diag) (n a lda x incx : Int) (mem : Mem F) : Int × Mem F :=
  match triArgs uplo trans diag n lda incx with
  | .error code => (code, mem)
  | .ok (upper, notrans, nounit) =>
    let kx := if incx ≥ 0 then 1 else 1 + (1 - n) * incx
    if notrans then (0, trsvN upper nounit n a lda x kx incx mem)
    else (0, trsvT upper nounit n a lda x kx incx mem)

end level2
end Opk.Linalg
