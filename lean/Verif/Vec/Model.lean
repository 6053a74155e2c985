/-!
# Vectors: `src/algebra.c:155-454` and `src/simple_vector.c:83-397, 925-1033`

The memory is a function from addresses to numbers, so that vectors may share (or partially
overlap) their storage.  `F` is the type of the numbers; its operations obey no law in this
file (they may round).  `cast : F → F` is the conversion of a `double` to the floating point
type `REAL` of the elements of the vector (the identity for double precision vectors).
`none` is undefined behaviour.  Out of range memory accesses of a vector with less than
`size` elements cannot be expressed: the storage given by the caller is assumed large enough.
-/
namespace Opk.Vec

/-- Memory. -/
abbrev Mem (F : Type) := Nat → F

/-- `x[a] = v`. -/
def put {F : Type} (m : Mem F) (a : Nat) (v : F) : Mem F := fun b => if b = a then v else m b

/-- A (simple) vector: address of the structure, space it belongs to (`owner`), address of
the first element (`data`); `src/simple_vector.c:73-81`. -/
structure Vec where
  addr : Nat
  space : Nat
  data : Nat
  deriving DecidableEq, Repr

/-- Element `j` of a vector in memory `m`. -/
def Vec.el {F : Type} (v : Vec) (m : Mem F) (j : Nat) : F := m (v.data + j)

/-- `for (j = 0; j < n; ++j) body(j)`. -/
def loop {α : Type} (body : Nat → α → α) : Nat → α → α
  | 0, s => s
  | n + 1, s => body n (loop body n s)

section ops
variable {F : Type} [Add F] [Sub F] [Mul F] [Neg F] [Zero F] [One F] [DecidableEq F]
variable (cast : F → F)

/-- `fill`, `src/simple_vector.c:162-178`. -/
def sfill (n : Nat) (x : Vec) (alpha : F) (m : Mem F) : Mem F :=
  if alpha = 0 then loop (fun j m => put m (x.data + j) 0) n m
  else loop (fun j m => put m (x.data + j) (cast alpha)) n m

/-- `norm1`, `src/simple_vector.c:180-191` (`abs` is `fabs` or `fabsf`). -/
def snorm1 (abs : F → F) (n : Nat) (x : Vec) (m : Mem F) : F :=
  loop (fun j r => r + abs (x.el m j)) n 0

/-- `norm2`, `src/simple_vector.c:193-205`. -/
def snorm2 (sqrt : F → F) (n : Nat) (x : Vec) (m : Mem F) : F :=
  sqrt (loop (fun j r => r + x.el m j * x.el m j) n 0)

/-- `norminf`, `src/simple_vector.c:207-221`. -/
def snorminf [LT F] [DecidableRel (α := F) (· < ·)] (abs : F → F) (n : Nat) (x : Vec) (m : Mem F) : F :=
  loop (fun j r => if r < abs (x.el m j) then abs (x.el m j) else r) n 0

/-- `dot`, `src/simple_vector.c:223-236`. -/
def sdot (n : Nat) (x y : Vec) (m : Mem F) : F :=
  loop (fun j r => r + x.el m j * y.el m j) n 0

/-- `dot3`, `src/simple_vector.c:238-253`. -/
def sdot3 (n : Nat) (w x y : Vec) (m : Mem F) : F :=
  loop (fun j r => r + w.el m j * x.el m j * y.el m j) n 0

/-- `memcpy(dst, src, n*sizeof(REAL))`: undefined behaviour if the blocks overlap. -/
def memcpy (n : Nat) (dst src : Nat) (m : Mem F) : Option (Mem F) :=
  if dst + n ≤ src ∨ src + n ≤ dst then some (loop (fun j m' => put m' (dst + j) (m (src + j))) n m)
  else none

/-- `copy`, `src/simple_vector.c:255-264`. -/
def scopy (n : Nat) (dst src : Vec) (m : Mem F) : Option (Mem F) :=
  if dst.data ≠ src.data then memcpy n dst.data src.data m else some m

/-- `swap`, `src/simple_vector.c:266-280`. -/
def sswap (n : Nat) (x y : Vec) (m : Mem F) : Mem F :=
  if x.data ≠ y.data then
    loop (fun j m =>
      let t := x.el m j
      put (put m (x.data + j) (y.el m j)) (y.data + j) t) n m
  else m

/-- `scale`, `src/simple_vector.c:282-296`. -/
def sscale (n : Nat) (dst : Vec) (alpha : F) (src : Vec) (m : Mem F) : Mem F :=
  loop (fun j m => put m (dst.data + j) (cast alpha * src.el m j)) n m

/-- `product`, `src/simple_vector.c:298-309`. -/
def sproduct (n : Nat) (dst w x : Vec) (m : Mem F) : Mem F :=
  loop (fun j m => put m (dst.data + j) (w.el m j * x.el m j)) n m

/-- `axpby`, `src/simple_vector.c:311-375`: one loop for each special case. -/
def saxpby (n : Nat) (dst : Vec) (alpha : F) (x : Vec) (beta : F) (y : Vec) (m : Mem F) : Mem F :=
  if alpha = 1 then
    if beta = 1 then loop (fun j m => put m (dst.data + j) (x.el m j + y.el m j)) n m
    else if beta = -1 then loop (fun j m => put m (dst.data + j) (x.el m j - y.el m j)) n m
    else loop (fun j m => put m (dst.data + j) (x.el m j + cast beta * y.el m j)) n m
  else if alpha = -1 then
    if beta = 1 then loop (fun j m => put m (dst.data + j) (y.el m j - x.el m j)) n m
    else if beta = -1 then loop (fun j m => put m (dst.data + j) (-(y.el m j) - x.el m j)) n m
    else loop (fun j m => put m (dst.data + j) (cast beta * y.el m j - x.el m j)) n m
  else
    if beta = 1 then loop (fun j m => put m (dst.data + j) (cast alpha * x.el m j + y.el m j)) n m
    else if beta = -1 then
      loop (fun j m => put m (dst.data + j) (cast alpha * x.el m j - y.el m j)) n m
    else
      loop (fun j m => put m (dst.data + j) (cast alpha * x.el m j + cast beta * y.el m j)) n m

/-- `axpbypcz`, `src/simple_vector.c:377-397`. -/
def saxpbypcz (n : Nat) (dst : Vec) (alpha : F) (x : Vec) (beta : F) (y : Vec) (gamma : F) (z : Vec)
    (m : Mem F) : Mem F :=
  loop (fun j m => put m (dst.data + j)
    (cast alpha * x.el m j + cast beta * y.el m j + cast gamma * z.el m j)) n m

/-! ## Public interface (`src/algebra.c`) -/

/-- Effect of a call which returns nothing: the new memory and whether `opk_error` has been
called (vectors which do not belong to the same space). -/
structure Eff (F : Type) where
  mem : Mem F
  error : Bool

/-- Normal completion. -/
def fine (m : Mem F) : Option (Eff F) := some { mem := m, error := false }

/-- `BAD_VECTORS(...)`, `src/algebra.c:147-152`. -/
def badVectors (m : Mem F) : Option (Eff F) := some { mem := m, error := true }

/-- Completion of an operation which may be undefined. -/
def lift (r : Option (Mem F)) : Option (Eff F) := r.map fun m => { mem := m, error := false }

/-- Number of elements of each space (`vspace->size`). -/
abbrev Sizes := Nat → Nat

/-- `opk_vfill`, `src/algebra.c:270-276`; `opk_vzero` (262-268) is `vfill ... 0`. -/
def vfill (size : Sizes) (x : Vec) (alpha : F) (m : Mem F) : Option (Eff F) :=
  fine (sfill cast (size x.space) x alpha m)

/-- `opk_vzero`, `src/algebra.c:262-268`. -/
def vzero (size : Sizes) (x : Vec) (m : Mem F) : Option (Eff F) :=
  fine (sfill cast (size x.space) x 0 m)

/-- `opk_vcopy`, `src/algebra.c:278-290`. -/
def vcopy (size : Sizes) (dst src : Vec) (m : Mem F) : Option (Eff F) :=
  if src.addr ≠ dst.addr then
    if src.space ≠ dst.space then badVectors m
    else lift (scopy (size dst.space) dst src m)
  else fine m

/-- `opk_vscale`, `src/algebra.c:292-310`. -/
def vscale (size : Sizes) (dst : Vec) (alpha : F) (src : Vec) (m : Mem F) : Option (Eff F) :=
  if src.space ≠ dst.space then badVectors m
  else if alpha = 1 then
    if src.addr ≠ dst.addr then lift (scopy (size dst.space) dst src m) else fine m
  else if alpha = 0 then fine (sfill cast (size dst.space) dst 0 m)
  else fine (sscale cast (size dst.space) dst alpha src m)

/-- `opk_vswap`, `src/algebra.c:312-324`. -/
def vswap (size : Sizes) (x y : Vec) (m : Mem F) : Option (Eff F) :=
  if x.addr ≠ y.addr then
    if y.space ≠ x.space then badVectors m
    else fine (sswap (size x.space) x y m)
  else fine m

/-- Result of a call which returns a number; `error` as in `Eff`. -/
structure Val (F : Type) where
  val : F
  error : Bool

/-- `opk_vdot`, `src/algebra.c:326-337`. -/
def vdot (size : Sizes) (x y : Vec) (m : Mem F) : Val F :=
  if y.space ≠ x.space then { val := 0, error := true }
  else { val := sdot (size x.space) x y m, error := false }

/-- `opk_vdot3`, `src/algebra.c:339-349`. -/
def vdot3 (size : Sizes) (w x y : Vec) (m : Mem F) : Val F :=
  if w.space ≠ w.space ∨ x.space ≠ w.space ∨ y.space ≠ w.space then { val := 0, error := true }
  else { val := sdot3 (size w.space) w x y m, error := false }

/-- `opk_vnorm2`, `src/algebra.c:350-356`. -/
def vnorm2 (sqrt : F → F) (size : Sizes) (x : Vec) (m : Mem F) : F := snorm2 sqrt (size x.space) x m

/-- `opk_vnorm1`, `src/algebra.c:358-364`. -/
def vnorm1 (abs : F → F) (size : Sizes) (x : Vec) (m : Mem F) : F := snorm1 abs (size x.space) x m

/-- `opk_vnorminf`, `src/algebra.c:366-372`. -/
def vnorminf [LT F] [DecidableRel (α := F) (· < ·)] (abs : F → F) (size : Sizes) (x : Vec)
    (m : Mem F) : F := snorminf abs (size x.space) x m

/-- `opk_vproduct`, `src/algebra.c:374-385`. -/
def vproduct (size : Sizes) (dst x y : Vec) (m : Mem F) : Option (Eff F) :=
  if x.space ≠ dst.space ∨ y.space ≠ dst.space then badVectors m
  else fine (sproduct (size dst.space) dst x y m)

/-- `opk_vaxpby`, `src/algebra.c:387-411`. -/
def vaxpby (size : Sizes) (dst : Vec) (alpha : F) (x : Vec) (beta : F) (y : Vec) (m : Mem F) :
    Option (Eff F) :=
  if x.space ≠ dst.space ∨ y.space ≠ dst.space then badVectors m
  else if alpha = 0 then
    if beta = 0 then fine (sfill cast (size dst.space) dst 0 m)
    else fine (sscale cast (size dst.space) dst beta y m)
  else
    if beta = 0 then fine (sscale cast (size dst.space) dst alpha x m)
    else fine (saxpby cast (size dst.space) dst alpha x beta y m)

/-- `opk_vaxpbypcz`, `src/algebra.c:413-454`. -/
def vaxpbypcz (size : Sizes) (dst : Vec) (alpha : F) (x : Vec) (beta : F) (y : Vec) (gamma : F)
    (z : Vec) (m : Mem F) : Option (Eff F) :=
  if x.space ≠ dst.space ∨ y.space ≠ dst.space ∨ z.space ≠ dst.space then badVectors m
  else
    let n := size dst.space
    if alpha = 0 then
      if beta = 0 then
        if gamma = 0 then fine (sfill cast n dst 0 m)
        else fine (sscale cast n dst gamma z m)
      else
        if gamma = 0 then fine (sscale cast n dst beta y m)
        else fine (saxpby cast n dst beta y gamma z m)
    else
      if beta = 0 then
        if gamma = 0 then fine (sscale cast n dst alpha x m)
        else fine (saxpby cast n dst alpha x gamma z m)
      else
        if gamma = 0 then fine (saxpby cast n dst alpha x beta y m)
        else fine (saxpbypcz cast n dst alpha x beta y gamma z m)

/-! ## Access to the components -/

/-- Status codes used here (`src/optimpack.h:286-326`). -/
inductive Status where
  | success | illegalAddress | outOfBoundsIndex | invalidArgument | badSpace
  deriving DecidableEq, Repr

/-- `opk_vpeek`, `src/algebra.c:161-172`, with `peek` of `src/simple_vector.c:108-114`.
`ptr` is the destination variable (`none`: `NULL`). -/
def vpeek (size : Sizes) (v : Option Vec) (k : Int) (ptr : Option F) (m : Mem F) :
    Status × Option F :=
  match v, ptr with
  | some v, some p =>
    if k < 0 ∨ k ≥ size v.space then (.outOfBoundsIndex, some p)
    else (.success, some (v.el m k.toNat))
  | _, p => (.illegalAddress, p)

/-- `opk_vpoke`, `src/algebra.c:174-185`, with `poke` of `src/simple_vector.c:116-122`. -/
def vpoke (size : Sizes) (v : Option Vec) (k : Int) (value : F) (m : Mem F) : Status × Mem F :=
  match v with
  | none => (.illegalAddress, m)
  | some v =>
    if k < 0 ∨ k ≥ size v.space then (.outOfBoundsIndex, m)
    else (.success, put m (v.data + k.toNat) (cast value))

/-- Element types of `opk_eltype`; any other integer is `other`. -/
inductive ElType where
  | float | double | other
  deriving DecidableEq, Repr

/-- `opk_vimport`, `src/algebra.c:187-204`, with `import` of `src/simple_vector.c:124-141`
(simple vectors implement `import`).  `src` is an array outside of the modelled memory; an
array of floats or of doubles is read into numbers. -/
def vimport (size : Sizes) (dst : Option Vec) (src : Option (Nat → F)) (type : ElType) (n : Int)
    (m : Mem F) : Status × Mem F :=
  match dst, src with
  | some dst, some src =>
    if type = .other then (.invalidArgument, m)
    else if n ≠ size dst.space then (.invalidArgument, m)
    else (.success, loop (fun i m => put m (dst.data + i) (cast (src i))) (size dst.space) m)
  | _, _ => (.illegalAddress, m)

/-- `opk_vexport`, `src/algebra.c:206-223`, with `export` of `src/simple_vector.c:143-160`;
`toFloat` is the conversion to single precision.  Returns the contents of `dst`. -/
def vexport (toFloat : F → F) (size : Sizes) (dst : Option (Nat → F)) (type : ElType) (n : Int)
    (src : Option Vec) (m : Mem F) : Status × Option (Nat → F) :=
  match dst, src with
  | some dst, some src =>
    if type = .other then (.invalidArgument, some dst)
    else if n ≠ size src.space then (.invalidArgument, some dst)
    else
      if type = .float then
        (.success, some (loop (fun i d => put d i (toFloat (src.el m i))) (size src.space) dst))
      else
        (.success, some (loop (fun i d => put d i (src.el m i)) (size src.space) dst))
  | d, _ => (.illegalAddress, d)

end ops

/-! ## Wrapped vectors -/

/-- State of a wrapped vector: `data`, `client_data`, `free_client_data` (0 is `NULL`). -/
structure Wrapped where
  data : Nat
  free : Nat
  client : Nat
  deriving DecidableEq, Repr

/-- A call `free_client_data(client_data)`. -/
abbrev FreeCall := Nat × Nat

/-- `WRAP_VECTOR`, `src/simple_vector.c:930-951`, for a space of the right kind and when the
allocation succeeds: `none` means that `NULL` is returned (`errno = EFAULT`). -/
def wrap (data free client : Nat) : Option Wrapped :=
  if data = 0 then none else some { data := data, free := free, client := client }

/-- `REWRAP_VECTOR`, `src/simple_vector.c:995-1033`, for a non `NULL` vector of the right kind:
status, new state and calls made to the client callbacks. -/
def rewrap (s : Wrapped) (data free client : Nat) : Status × Wrapped × List FreeCall :=
  if data = 0 then (.illegalAddress, s, [])
  else
    let calls := if s.free ≠ 0 ∧ (s.free ≠ free ∨ s.client ≠ client) then [(s.free, s.client)] else []
    (.success, { data := data, free := free, client := client }, calls)

/-- `finalize`, `src/simple_vector.c:98-106`: calls made when the vector is destroyed. -/
def finalizeVector (s : Wrapped) : List FreeCall := if s.free ≠ 0 then [(s.free, s.client)] else []

/-- A sequence of calls to `REWRAP_VECTOR`. -/
def rewraps (s : Wrapped) : List (Nat × Nat × Nat) → Wrapped × List FreeCall
  | [] => (s, [])
  | (d, f, c) :: l =>
    let r := rewrap s d f c
    let r' := rewraps r.2.1 l
    (r'.1, r.2.2 ++ r'.2)

/-- Whole life of a wrapped vector: wrap, any number of re-wraps, last drop. -/
def life (data free client : Nat) (l : List (Nat × Nat × Nat)) : Option (List FreeCall) :=
  match wrap data free client with
  | none => none
  | some s => let r := rewraps s l; some (r.2 ++ finalizeVector r.1)

end Opk.Vec
