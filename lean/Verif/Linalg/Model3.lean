import Verif.Linalg.Model2
/-!
# Linear algebra on arrays, level 3: `src/linalg.c:1265-1730`

Matrix-matrix products, symmetric updates and the Cholesky factorization.
-/
namespace Opk.Linalg

section level3
variable {F : Type} [Add F] [Sub F] [Mul F] [Div F] [Neg F] [Zero F] [One F] [DecidableEq F]

/-- The multiplication of a column by `beta`: `if (beta == ZERO) .. else if (beta != ONE) ..`,
`src/linalg.c:1362-1370`, `1399-1407`, `1552-1560`, `1571-1579`; `C i` is the address of `c(i,j)`. -/
def scaleCol (lo hi : Int) (beta : F) (C : Int → Int) (mem : Mem F) : Mem F :=
  if beta = 0 then forUp lo hi 1 (fun i mem => put mem (C i) 0) mem
  else if beta ≠ 1 then forUp lo hi 1 (fun i mem => put mem (C i) (mem (C i) * beta)) mem
  else mem

/-- All columns when `alpha` is zero, `src/linalg.c:1340-1354`, `1517-1547`: `for (i = lo(j); i < hi(j); ++i)`. -/
def scaleAll (n : Int) (lo hi : Int → Int) (beta : F) (C : Int → Int → Int) (mem : Mem F) : Mem F :=
  if beta = 0 then forUp 0 n 1 (fun j mem => forUp (lo j) (hi j) 1 (fun i mem => put mem (C i j) 0) mem) mem
  else forUp 0 n 1 (fun j mem => forUp (lo j) (hi j) 1 (fun i mem => put mem (C i j) (mem (C i j) * beta)) mem) mem

/-- A column updated by a combination of columns: `src/linalg.c:1361-1378`, `1398-1415`, `1551-1568`, `1570-1587`;
`B l` is the address of the coefficient of the column `l` whose elements are at `A i l`. -/
def combineCol (lo hi k : Int) (alpha beta : F) (A : Int → Int → Int) (B : Int → Int) (C : Int → Int) (mem : Mem F) : Mem F :=
  let mem := scaleCol lo hi beta C mem
  forUp 0 k 1 (fun l mem =>
    if mem (B l) ≠ 0 then
      let temp := alpha * mem (B l)
      forUp lo hi 1 (fun i mem => put mem (C i) (mem (C i) + temp * mem (A i l))) mem
    else mem) mem

/-- A column updated by inner products: `src/linalg.c:1382-1394`, `1419-1431`, `1594-1605`, `1608-1619`. -/
def productCol (lo hi k : Int) (alpha beta : F) (A : Int → Int → Int) (B : Int → Int) (C : Int → Int) (mem : Mem F) : Mem F :=
  forUp lo hi 1 (fun i mem =>
    let temp := forUp 0 k 1 (fun l temp => temp + mem (A l i) * mem (B l)) 0
    if beta = 0 then put mem (C i) (alpha * temp)
    else put mem (C i) (alpha * temp + beta * mem (C i))) mem

/-- `OPK_GEMM`, `src/linalg.c:1283-1439`. -/
def gemm (transa transb : Trans) (m n k : Int) (alpha : F) (a lda b ldb : Int) (beta : F) (c ldc : Int) (mem : Mem F) : Int × Mem F :=
  let C := fun i j => c + (i + ldc * j)
  let B := fun i j => b + (i + ldb * j)
  let A := fun i j => a + (i + lda * j)
  let go (nota notb : Bool) (nrowa nrowb : Int) : Int × Mem F :=
    if m < 0 then (3, mem)
    else if n < 0 then (4, mem)
    else if k < 0 then (5, mem)
    else if lda < 1 ∨ lda < nrowa then (8, mem)
    else if ldb < 1 ∨ ldb < nrowb then (10, mem)
    else if ldc < 1 ∨ ldc < m then (13, mem)
    else if m = 0 ∨ n = 0 ∨ (beta = 1 ∧ (alpha = 0 ∨ k = 0)) then (0, mem)
    else if alpha = 0 then (0, scaleAll n (fun _ => 0) (fun _ => m) beta C mem)
    else
      (0, forUp 0 n 1 (fun j mem =>
        if notb then
          if nota then combineCol 0 m k alpha beta A (fun l => B l j) (fun i => C i j) mem
          else productCol 0 m k alpha beta A (fun l => B l j) (fun i => C i j) mem
        else
          if nota then combineCol 0 m k alpha beta A (fun l => B j l) (fun i => C i j) mem
          else productCol 0 m k alpha beta A (fun l => B j l) (fun i => C i j) mem) mem)
  let withA (nota : Bool) (nrowa : Int) : Int × Mem F :=
    match transb with
    | .noTrans => go nota true nrowa k
    | .trans => go nota false nrowa n
    | .conjTrans => go nota false nrowa n
    | .other _ => (1, mem)
  match transa with
  | .noTrans => withA true m
  | .trans => withA false k
  | .conjTrans => withA false k
  | .other _ => (1, mem)

/-- `OPK_SYRK`, `src/linalg.c:1468-1626`; the macro `a(a1,a2)` is written with `ldc`, `src/linalg.c:1478`. -/
def syrk (uplo : Uplo) (trans : Trans) (n k : Int) (alpha : F) (a lda : Int) (beta : F) (c ldc : Int) (mem : Mem F) : Int × Mem F :=
  let C := fun i j => c + (j * ldc + i)
  let A := fun i j => a + (j * ldc + i)
  let go (upper notrans : Bool) (nrowa : Int) : Int × Mem F :=
    if n < 0 then (3, mem)
    else if k < 0 then (4, mem)
    else if lda < 1 ∨ lda < nrowa then (7, mem)
    else if ldc < 1 ∨ ldc < n then (10, mem)
    else if n = 0 ∨ (beta = 1 ∧ (alpha = 0 ∨ k = 0)) then (0, mem)
    else if alpha = 0 then
      if upper then (0, scaleAll n (fun _ => 0) (fun j => j + 1) beta C mem)
      else (0, scaleAll n (fun j => j) (fun _ => n) beta C mem)
    else if notrans then
      if upper then (0, forUp 0 n 1 (fun j mem => combineCol 0 (j + 1) k alpha beta A (fun l => A j l) (fun i => C i j) mem) mem)
      else (0, forUp 0 n 1 (fun j mem => combineCol j n k alpha beta A (fun l => A j l) (fun i => C i j) mem) mem)
    else
      if upper then (0, forUp 0 n 1 (fun j mem => productCol 0 (j + 1) k alpha beta A (fun l => A l j) (fun i => C i j) mem) mem)
      else (0, forUp 0 n 1 (fun j mem => productCol j n k alpha beta A (fun l => A l j) (fun i => C i j) mem) mem)
  let withUplo (upper : Bool) : Int × Mem F :=
    match trans with
    | .noTrans => go upper true n
    | .trans => go upper false k
    | .conjTrans => go upper false k
    | .other _ => (2, mem)
  match uplo with
  | .upper => withUplo true
  | .lower => withUplo false
  | .other _ => (1, mem)

/-- A loop `for (j = lo; j <= hi; ++j) { .. return code; .. }`: the body either returns a code and a memory, or a memory to continue with. -/
def forReturn (body : Int → Mem F → (Int × Mem F) ⊕ Mem F) (lo hi : Int) (mem : Mem F) : Int × Mem F :=
  match loop (fun k (st : (Int × Mem F) ⊕ Mem F) =>
      match st with
      | .inl r => .inl r
      | .inr mem => body (lo + k) mem) (hi + 1 - lo).toNat (.inr mem) with
  | .inl r => r
  | .inr mem => (0, mem)

/-- One iteration for the factorization `A = U'*U`, `src/linalg.c:1681-1698`. -/
def potf2Upper [LE F] [DecidableLE F] [CMath F] (n a lda : Int) (j : Int) (mem : Mem F) : (Int × Mem F) ⊕ Mem F :=
  let A := fun i j => a + (i - 1 + lda * (j - 1))
  let ajj := mem (A j j) - dot (j - 1) (A 1 j) 1 (A 1 j) 1 mem
  if ajj ≤ 0 then .inl (j, put mem (A j j) ajj)
  else
    let ajj := CMath.sqrt ajj
    let mem := put mem (A j j) ajj
    if j < n then
      let mem := (gemv .trans (j - 1) (n - j) (-1) (A 1 (j + 1)) lda (A 1 j) 1 1 (A j (j + 1)) lda mem).2
      .inr (scal (n - j) (1 / ajj) (A j (j + 1)) lda mem)
    else .inr mem

/-- One iteration for the factorization `A = L*L'`, `src/linalg.c:1706-1723`. -/
def potf2Lower [LE F] [DecidableLE F] [CMath F] (n a lda : Int) (j : Int) (mem : Mem F) : (Int × Mem F) ⊕ Mem F :=
  let A := fun i j => a + (i - 1 + lda * (j - 1))
  let ajj := mem (A j j) - dot (j - 1) (A j 1) lda (A j 1) lda mem
  if ajj ≤ 0 then .inl (j, put mem (A j j) ajj)
  else
    let ajj := CMath.sqrt ajj
    let mem := put mem (A j j) ajj
    if j < n then
      let mem := (gemv .noTrans (n - j) (j - 1) (-1) (A (j + 1) 1) lda (A j 1) lda 1 (A (j + 1) j) 1 mem).2
      .inr (scal (n - j) (1 / ajj) (A (j + 1) j) 1 mem)
    else .inr mem

/-- `OPK_POTF2`, `src/linalg.c:1644-1733`. -/
def potf2 [LE F] [DecidableLE F] [CMath F] (uplo : Uplo) (n a lda : Int) (mem : Mem F) : Int × Mem F :=
  if n < 0 then (-2, mem)
  else if lda < 1 ∨ lda < n then (-4, mem)
  else if n = 0 then (0, mem)
  else
    match uplo with
    | .upper => forReturn (potf2Upper n a lda) 1 n mem
    | .lower => forReturn (potf2Lower n a lda) 1 n mem
    | .other _ => (-1, mem)

end level3
end Opk.Linalg
