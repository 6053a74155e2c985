/-!
# Model of `src/utils.c`

Undefined behaviour (reading or writing outside of an array, reading a string
which is not terminated) is the outcome `none`.
-/
namespace Opk.Utils

/-- A byte of memory (`char`); `0` is the terminating `'\0'`. -/
abbrev Byte := UInt8

/-- C library `strlen` on the array `mem`, used at `src/utils.c:41`.
`none` if the array has no terminator (undefined behaviour). -/
def strlen : List Byte → Option Nat
  | [] => none
  | c :: cs => if c = 0 then some 0 else (strlen cs).map (· + 1)

/-- C library `memcpy(dst, src, n)`, used at `src/utils.c:45` and `src/utils.c:51`.
`none` if either array has less than `n` bytes (undefined behaviour).  Source and
destination are distinct arrays (the caller must not overlap them). -/
def memcpy (dst src : List Byte) (n : Nat) : Option (List Byte) :=
  if n ≤ dst.length ∧ n ≤ src.length then some (src.take n ++ dst.drop n) else none

/-- `dst[i] = c`, `none` when out of bounds (undefined behaviour). -/
def store (dst : List Byte) (i : Nat) (c : Byte) : Option (List Byte) :=
  if i < dst.length then some (dst.set i c) else none

/-- Line `src/utils.c:41`: `src == NULL || src[0] == '\0' ? 0 : strlen(src)`. -/
def sourceLength : Option (List Byte) → Option Nat
  | none => some 0
  | some mem =>
    match mem with
    | [] => none
    | c :: _ => if c = 0 then some 0 else strlen mem

/-- `opk_copy_string`, `src/utils.c:38-59`.  `dst`/`src` are `none` for `NULL`;
`dst` holds the contents of the destination array (whose length may differ from
the announced `size`).  The result is the new contents of the destination and
the returned value. -/
def copyString (dst : Option (List Byte)) (size : Nat) (src : Option (List Byte)) :
    Option (Option (List Byte) × Nat) := do
  let length ← sourceLength src
  match dst with
  | none => return (none, length + 1)
  | some d =>
    if size > length then
      if length > 0 then
        match src with
        | none => none                      -- `memcpy` from `NULL`
        | some s => let d' ← memcpy d s (length + 1); return (some d', length + 1)
      else
        let d' ← store d 0 0; return (some d', length + 1)
    else
      let d1 ← (if size > 1 then
          match src with
          | none => none                    -- `memcpy` from `NULL`
          | some s => memcpy d s (size - 1)
        else some d)
      let d2 ← (if size > 0 then store d1 (size - 1) 0 else some d1)
      return (some d2, length + 1)

/-! ## Error handler, `src/utils.c:61-88` -/

/-- Value of the static variable `error_handler` (`src/utils.c:68`): the default
handler (which prints the message and aborts) or a client function, identified
by a number. -/
inductive Handler where
  | default
  | client (id : Nat)
  deriving DecidableEq, Repr

/-- `opk_get_error_handler`, `src/utils.c:70-74`. -/
def getErrorHandler (h : Handler) : Handler := h

/-- `opk_set_error_handler`, `src/utils.c:76-82`.  Argument `none` is `NULL`.
Returns the new value of the static variable and the returned handler. -/
def setErrorHandler (h : Handler) (new : Option Nat) : Handler × Handler :=
  let old := h
  ((match new with
    | none => Handler.default
    | some id => Handler.client id), old)

/-- What an error call does: either the process is aborted by the default handler
(`src/utils.c:61-66`) or the client function is called with the message. -/
inductive ErrEffect where
  | abort (msg : String)
  | call (id : Nat) (msg : String)
  deriving DecidableEq, Repr

/-- `opk_error`, `src/utils.c:84-88`. -/
def opkError (h : Handler) (msg : String) : ErrEffect :=
  match h with
  | .default => .abort msg
  | .client id => .call id msg

/-- A client call on the error handler API. -/
inductive HOp where
  | set (new : Option Nat)
  | get
  | error (msg : String)

/-- Observable result of a call. -/
inductive HOut where
  | handler (h : Handler)
  | effect (e : ErrEffect)
  deriving DecidableEq, Repr

/-- One API call on the static variable. -/
def hstep (h : Handler) : HOp → Handler × HOut
  | .set new => let r := setErrorHandler h new; (r.1, .handler r.2)
  | .get => (h, .handler (getErrorHandler h))
  | .error msg => (h, .effect (opkError h msg))

/-- A sequence of API calls: final state and outputs in order. -/
def hrun (h : Handler) : List HOp → Handler × List HOut
  | [] => (h, [])
  | op :: ops =>
    let r := hstep h op
    let r' := hrun r.1 ops
    (r'.1, r.2 :: r'.2)

/-! ## Status and constants tables -/

/-- `OPK_STATUS_LIST_`, `src/optimpack.h:286-326`: value, name and text. -/
def statusList : List (Int × String × String) := [
  ( 0, "OPK_SUCCESS", "Success"),
  ( 1, "OPK_INVALID_ARGUMENT", "Invalid argument"),
  ( 2, "OPK_INSUFFICIENT_MEMORY", "Insufficient memory"),
  ( 3, "OPK_ILLEGAL_ADDRESS", "Illegal address"),
  ( 4, "OPK_NOT_IMPLEMENTED", "Not implemented"),
  ( 5, "OPK_CORRUPTED_WORKSPACE", "Corrupted workspace"),
  ( 6, "OPK_BAD_SPACE", "Bad variable space"),
  ( 7, "OPK_OUT_OF_BOUNDS_INDEX", "Out of bounds index"),
  ( 8, "OPK_NOT_STARTED", "Line search not started"),
  ( 9, "OPK_NOT_A_DESCENT", "Not a descent direction"),
  (10, "OPK_STEP_CHANGED", "Step changed"),
  (11, "OPK_STEP_OUTSIDE_BRACKET", "Step outside bracket"),
  (12, "OPK_STPMIN_GT_STPMAX", "Lower step bound larger than upper bound"),
  (13, "OPK_STPMIN_LT_ZERO", "Minimal step length less than zero"),
  (14, "OPK_STEP_LT_STPMIN", "Step lesser than lower bound"),
  (15, "OPK_STEP_GT_STPMAX", "Step greater than upper bound"),
  (16, "OPK_FTOL_TEST_SATISFIED", "Convergence within variable tolerance"),
  (17, "OPK_GTOL_TEST_SATISFIED", "Convergence within function tolerance"),
  (18, "OPK_XTOL_TEST_SATISFIED", "Convergence within gradient tolerance"),
  (19, "OPK_STEP_EQ_STPMAX", "Step blocked at upper bound"),
  (20, "OPK_STEP_EQ_STPMIN", "Step blocked at lower bound"),
  (21, "OPK_ROUNDING_ERRORS_PREVENT_PROGRESS", "Rounding errors prevent progress"),
  (22, "OPK_NOT_POSITIVE_DEFINITE", "Operator is not positive definite"),
  (23, "OPK_BAD_PRECONDITIONER", "Preconditioner is not positive definite"),
  (24, "OPK_INFEASIBLE_BOUNDS", "Box set is infeasible"),
  (25, "OPK_WOULD_BLOCK", "Variables cannot be improved (would block)"),
  (26, "OPK_UNDEFINED_VALUE", "Undefined value"),
  (27, "OPK_TOO_MANY_EVALUATIONS", "Too many evaluations"),
  (28, "OPK_TOO_MANY_ITERATIONS", "Too many iterations")]

/-- `opk_get_reason`, `src/utils.c:90-99`: a `switch` on the status, `""` by
default.  The `switch` is modelled by a search in the list of cases. -/
def getReason (status : Int) : String :=
  match statusList.find? (fun e => e.1 == status) with
  | some e => e.2.2
  | none => ""

/-- `opk_guess_status`, `src/utils.c:101-115`, for the values of the three
`errno` macros of the platform (assumed defined and distinct). -/
def guessStatus (ENOMEM EFAULT EINVAL : Int) (code : Int) : Int :=
  if code = ENOMEM then 2
  else if code = EFAULT then 3
  else if code = EINVAL then 1
  else -1

/-- The tests following those on `OPK_STATUS_LIST_` in `opk_get_integer_constant`,
`src/utils.c:132-192`, in order, with the values of the constants declared in
`src/optimpack.h` (lines 403-412 booleans and element types, 1038-1046 tasks,
1165-1170 line search tasks, 1374-1389 NLCG rules, 1533-1554 bound types,
1605-1608 orientation, 1788-1794 scaling, 1857 variants, 1978-1982 algorithms,
2177-2188 fmin). -/
def otherConstants : List (String × Int) := [
  ("OPK_TRUE", 1), ("OPK_FALSE", 0),
  ("OPK_FLOAT", 0), ("OPK_DOUBLE", 1),
  ("OPK_TASK_ERROR", -1), ("OPK_TASK_START", 0), ("OPK_TASK_COMPUTE_FG", 1),
  ("OPK_TASK_NEW_X", 2), ("OPK_TASK_FINAL_X", 3), ("OPK_TASK_WARNING", 4),
  ("OPK_LNSRCH_ERROR", -1), ("OPK_LNSRCH_SEARCH", 0), ("OPK_LNSRCH_CONVERGENCE", 1),
  ("OPK_LNSRCH_WARNING", 2),
  ("OPK_NLCG_FLETCHER_REEVES", 1), ("OPK_NLCG_HESTENES_STIEFEL", 2),
  ("OPK_NLCG_POLAK_RIBIERE_POLYAK", 3), ("OPK_NLCG_FLETCHER", 4),
  ("OPK_NLCG_LIU_STOREY", 5), ("OPK_NLCG_DAI_YUAN", 6), ("OPK_NLCG_PERRY_SHANNO", 7),
  ("OPK_NLCG_HAGER_ZHANG", 8), ("OPK_NLCG_POWELL", 256), ("OPK_NLCG_SHANNO_PHUA", 512),
  ("OPK_NLCG_POLAK_RIBIERE_POLYAK", 3),
  ("OPK_BOUND_NONE", 0), ("OPK_BOUND_SCALAR_FLOAT", 1), ("OPK_BOUND_SCALAR_DOUBLE", 2),
  ("OPK_BOUND_STATIC_FLOAT", 3), ("OPK_BOUND_STATIC_DOUBLE", 4),
  ("OPK_BOUND_VOLATILE_FLOAT", 5), ("OPK_BOUND_VOLATILE_DOUBLE", 6), ("OPK_BOUND_VECTOR", 7),
  ("OPK_ASCENT", -1), ("OPK_DESCENT", 1),
  ("OPK_SCALING_NONE", 0), ("OPK_SCALING_OREN_SPEDICATO", 1),
  ("OPK_SCALING_BARZILAI_BORWEIN", 2),
  ("OPK_LBFGS", 0), ("OPK_VMLMB", 1), ("OPK_BLMVM", 2),
  ("OPK_ALGORITHM_NLCG", 0), ("OPK_ALGORITHM_VMLMB", 1),
  ("OPK_FMIN_BOUNDED_BY_A", 1), ("OPK_FMIN_BOUNDED_BY_B", 2), ("OPK_FMIN_SMOOTH", 4),
  ("OPK_FMIN_ERROR", -1), ("OPK_FMIN_START", 0), ("OPK_FMIN_FX", 1), ("OPK_FMIN_NEWX", 2),
  ("OPK_FMIN_CONVERGENCE", 3)]

/-- The sequence of `TEST(sym)` of `src/utils.c:126-192`. -/
def constantTests : List (String × Int) :=
  statusList.map (fun e => (e.2.1, e.1)) ++ otherConstants

/-- The chain of `if (strcmp(name, #sym) == 0) { *ptr = sym; return OPK_SUCCESS; }`.
Result: returned status and new value of `*ptr`. -/
def testChain (name : String) (ptr : Int) : List (String × Int) → Int × Int
  | [] => (1, ptr)
  | (sym, val) :: rest => if name = sym then (0, val) else testChain name ptr rest

/-- `opk_get_integer_constant`, `src/utils.c:117-197`; `name = none` is `NULL`,
`ptr` is the previous value of the output variable (`none` if `ptr` is `NULL`,
in which case the value goes to a local variable). -/
def getIntegerConstant (name : Option String) (ptr : Option Int) : Int × Option Int :=
  match name with
  | none => (1, ptr)
  | some s =>
    if s = "" then (1, ptr)
    else
      let r := testChain s (ptr.getD 0) constantTests
      (r.1, ptr.map (fun _ => r.2))

end Opk.Utils
