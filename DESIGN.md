# Formal model of emmt/OptimPack in Lean 4

## 1. What is in this directory

* `properties.jsonl` : the semantic properties (C01, C02, ...).
* `lean/Verif/` : the model (`*/Model.lean`), small independent specifications
  (`*/Spec.lean` when needed), helper lemmas (`*/Lemmas.lean`) and the property
  theorems (`*/Props.lean`), imported by `lean/Verif.lean`.
* `MANIFEST.json` : property -> theorem names and status.
* `seeded/LOG.jsonl` : mutation experiments (wrong programs that the theorems
  reject).

## 2. Trusted base

* Lean 4.33.0 kernel and Mathlib (read-only, imported module by module).
* Axioms: at most `propext`, `Classical.choice`, `Quot.sound` (checked with
  `#print axioms` on every theorem listed in `MANIFEST.json`).  No own axiom,
  no `sorry`, no `native_decide`, no `bv_decide`.
* The reading of the C source: the model is a manual transcription of the C
  code; each definition cites the file and lines it models and says where it
  simplifies.  The code is neither compiled nor run here.

### Modelling conventions

* **Arithmetic.**  Three levels are used and each theorem says which:
  1. *any arithmetic*: the type of numbers is any linear order with arbitrary
     `+ - * /` (no law is assumed).  This covers finite IEEE doubles with any
     rounding (NaN excluded since it is not linearly ordered).
  2. *exact arithmetic*: a linear ordered field (`ℝ`, `ℚ`), no rounding and no
     overflow.  This is the usual setting for the mathematics of the algorithms.
  3. *integers*: `Int`/`Nat` for `opk_index`/`ptrdiff_t`; overflow of
     `ptrdiff_t` is not modelled (sizes bounded by addressable memory).
* **Memory.**  A pointer argument that may be `NULL` is an `Option`.  A function
  writing through a pointer returns the new contents.  Vectors are named cells
  of a store so that aliasing (the same vector passed twice) is expressed.
  Reads/writes outside of an array are a distinct outcome of the model, never a
  default value.
* **Loops** are structural recursions on the trip count or folds; `goto` based
  state machines (reverse communication) are step functions on an explicit state.
* **Callers** (objective functions, user operators) are arbitrary: either a
  function parameter or an arbitrary list of answers (adversarial).

## 3. Plan, property by property

| Id | Module | What is modelled | How it is proved |
|----|--------|------------------|------------------|
| C01 | Utils | `opk_copy_string` byte loop on a buffer | induction on the string; length/prefix/untouched bytes; round trip |
| C02 | Utils | handler cell and get/set/call | induction over histories against a one-cell spec |
| C03 | Utils | status table, constants table, errno map | finite tables lifted to all ints/strings |
| C04 | Heap | object heap, counts, references between objects, recursive release | invariant count = owners, by induction over histories; emptiness |
| C05 | Vec | peek/poke/import/export with checks | array laws |
| C06 | Vec | scale/axpby/axpbypcz dispatch and loops on a store with aliasing | case analysis on coefficients, loop invariants |
| C07 | Vec | dot/norms/product/copy/swap/fill loops | loop = sum / max |
| C08 | Vec | wrap/rewrap/finalize with callback log | history invariant |
| C09 | Box | 9-case projection | componentwise, nearest point |
| C10 | Box | 9-case direction projection | componentwise, existence of alpha |
| C11 | Box | 9-case free-variable mask | componentwise equality |
| C12 | Box | step limit scan | loop invariants for min/min+/max |
| C13 | Box | API checks, `opk_new_boxset` | decision logic |
| C14 | LineSearch | `opk_lnsrch_start` | decision logic; NULL case is a finding |
| C15 | LineSearch | `opk_lnsrch_iterate` + the three methods | invariant over histories, any arithmetic |
| C16, C17 | LineSearch | backtracking | per-step facts, contraction, termination, differentiable functions |
| C18 | LineSearch | non-monotone ring buffer | ring buffer = last m values |
| C19 | LineSearch | csrch convergence test | invariant on ftest/gtest |
| C20 | LineSearch | `opk_cstep` | real analysis of the four cases |
| C21 | LineSearch | same | negation with a witness + partial |
| C54 | LineSearch | `csrch_iterate` + `opk_cstep` over reals with NaN | invariant per kind of state (free, bracketed, both stages), adversarial values and derivatives |
| C22, C23 | Vmlmb | full reverse-communication state machine over vectors | invariant over histories, adversarial caller |
| C24 | Vmlmb | two-loop recursion | induction on pairs: equals product of BFGS updates, positive definite |
| C25-C28 | Vmlmb, Nlcg | state machines with any line search | invariant over histories |
| C29 | Vmlmb | save_memory vs not | simulation |
| C30, C31, C58, C59 | Nlcg | update rules, constructor, initial steps | algebra; negation with witness |
| C32 | Driver | argument checks, object graph, allocation failures | decision logic + heap, simulation of the optimizers |
| C33-C37, C60-C62 | Fmin | reverse and direct versions | invariants over histories, simulation; negations for get_final, SMOOTH, continuation |
| C38-C41 | Lcg | PLCG/LCG/TRCG state machines | invariants, orthogonality by induction, dimension argument |
| C42 | Linalg | strided level 1 BLAS on a flat memory, arrays may overlap | loops of any unrolling = one canonical loop |
| C43-C45 | Linalg | GEMV, TRMV, TRSV, GEMM, SYRK | canonical loops, frame and reads in any arithmetic, values in exact arithmetic; negation for SYRK |
| C46 | Linalg | POTF2 | invariant over columns; Gram matrices, leading minors |
| C47, C63-C65 | Gqt | GQT, ESTSV on the same memory | loop invariant: restoration in any arithmetic; duality in exact arithmetic; negation for the norm |
| C48 | Powell | the offsets of the arrays in the workspaces of NEWUOA, BOBYQA, COBYLA | sums of sizes |
| C49, C71 | Bobyqa | all of `bobyqa_optimize` but the iterations of `trsbox`, whose step is a parameter | invariants over executions, any arithmetic |
| C72, C73 | Bobyqa | same | an invariant for each label of `bobyqb`, `rescue` and `prelim`, exact arithmetic |
| C79, C80 | Bobyqa | `trsbox` as a machine whose states are its labels | an invariant for each label; the reduction grows by a factor on each alternative iteration, and it is bounded; exact arithmetic |
| C81 | Bobyqa | `bobyqa_optimize` with the step of `trsbox` | the predicted change is the change of the model, which does not depend on the origin |
| C82 | Bobyqa | `bobyqa_optimize`, any objective function, any step of `trsbox` | induction on the remaining budget; between two calls the radius takes finitely many values, `rescue` is entered at most once and its loop makes a lexicographic measure of `WDIST` decrease; exact arithmetic |
| C74-C76 | Newuoa | `newuob` and `newuoa_iterate` label by label, the subproblems being parameters | an invariant for each label, any arithmetic without NaN; simulation of reverse communication |
| C77, C78 | Newuoa | same | a measure decreasing between two evaluations: radius, trust region radius, counters |
| C83 | Newuoa, Powell | `newuoa_optimize` with `update` and `biglag` | the arrays hold the inverse of the interpolation matrix (block matrix algebra for the rank two update and for the shift of the origin), the conditions of interpolation at each label; the angle of `biglag` keeps the Lagrange function away from zero (mean of a trigonometric polynomial on fifty points); real numbers |
| C84 | Newuoa, Powell | same as C83, quadratic objective function | the Lagrange functions make the values at the points a bijection (dimension of the space of the quadratic functions) |
| C85 | Newuoa, Powell | same as C83 | the inverse matrix makes the change of the model a combination of the Lagrange functions, which is orthogonal to all the other changes |
| C86 | LineSearch | `csrch_iterate`, `opk_cstep` with an arbitrary caller | each step either multiplies the distance to the best step (not bracketed) or is inside the bracket; a bisection at least every other step; real numbers with NaN |
| C87 | Vmlmb | `opk_iterate_vmlmb` with a caller who answers from `F` and `G` | Zoutendijk: the Wolfe conditions and the Lipschitz constant give a minimum decrease per iteration; no search is infinite (C86); real numbers |
| C88 | Vmlmb | the same with the two-loop recursion and the default `epsilon` | the eigenvalues of the limited memory BFGS matrix are bounded by constants of the function and of the memory (C24); real numbers |
| C89 | Newuoa | same as C83 with `trsapp` and `sethd` | the conjugate directions are conjugate (the set of the previous directions and what is orthogonal to it), the reduction bounds the length of the path; on the sphere the model is a trigonometric polynomial of degree two and the parabola through three samples is within 4/10000 of it; real numbers |
| C90 | Nlcg | `opk_iterate_nlcg` with a caller who answers from `F` and `G` | as C87, with a bound of the squared length of the direction over the squared slope which is constant (angle test; strongly convex functions), or grows linearly (Dai and Yuan; Fletcher and Reeves with Al-Baali's bounds) so that the harmonic series gives the contradiction; real numbers |
| C91 | Bobyqa, Newuoa, Powell | any objective function and any step of the trust region; npt <= maxfun; real numbers | arrays of `prelim` point by point (two points per axis, whose offsets depend on the bounds, then two axes), then the inverse matrix and the value of the model in closed form |
| C92 | Bobyqa, Newuoa, Powell | any objective function and any step of the trust region; real numbers; no condition if npt = n + 2, otherwise `Steady`: at the calls, no element of `ZMAT` out of its first column, if it is not null, is at most 1e-20 times the largest one (such elements are dropped by `update`, after which the inverse is not exact) | an invariant for each label: the Lagrange functions of the inverse matrix, the step of `altmov` has a Lagrange function which is not null, hence the denominator is positive, the exchange of a point by the formula of Powell, and the move of the origin |
| C93 | Bobyqa, Newuoa, Powell | any objective function, any interpolation points within the bounds, any contents of `BMAT`, `ZMAT` and `VLAG` before `rescue`, a model which interpolates before it; real numbers; no condition if npt = n + 2, otherwise `Neat`: the condition of C92 for the rows used by `update` in `rescue` | the provisional points have an inverse matrix in closed form; each exchange with an original point is the update of C92 for the points `mixed` (an original point or a provisional one); each new point adds to the model a multiple of its Lagrange function; the exchanges end since the number of points to exchange falls |
| C94 | Bobyqa, Newuoa, Powell | any objective function and any step of the trust region; real numbers; no condition if npt = n + 2, otherwise `Steady` as for C92 | the change of the model is a combination of the Lagrange functions of the new points, whose second derivatives are orthogonal to those of the quadratic functions which are null at the points; in the first model each second derivative is null or is given by the values |
| C95 | Bobyqa, Newuoa, Cobyla | any arithmetic (`v * 1 = v` for the maximization by BOBYQA, where the sign is a factor), accepted arguments | the two executions are the same machine with the same objective function |
| C96 | Bobyqa, Newuoa, Cobyla | any arithmetic; a linear order for "at least one call" | *partial*: the code changes the variables with `BOBYQA_TOO_CLOSE` (`bobyqa_too_close_changes`) |
| C97 | Cobyla | exact arithmetic, at most one constraint | *partial*: with two constraints the step depends on the value of the objective function at the pole (`Demo.cobyla_constant`); simulation of two executions |
| C98 | Cobyla | exact arithmetic, at most one constraint | *partial*: with two constraints a trial point may be uphill (`Demo.cobyla_uphill`) |
| C99 | Newuoa | exact arithmetic, any ordered field; the subroutines do not use the function values (proved for `trsapp`, `biglag` and `update`, a hypothesis for `bigden`) | |
| C100 | Bobyqa | exact arithmetic, any ordered field; the trust region subroutine does not use the function values (proved for `trsbox`) | |
| C101 | Newuoa | exact arithmetic, any ordered field; the subroutines do not use the base point (proved for `trsapp`, `biglag` and `update`, a hypothesis for `bigden`) | each step commutes with the translation |
| C102 | Bobyqa | exact arithmetic, any ordered field; `trsbox` does not use the base point (proved for the one of the code) | each step commutes with the translation |
| C50, C51, C66, C67 | Cobyla | all of `cobyla_iterate` and `cobyla_optimize`, the step of the subproblem being a parameter | invariants over histories; negation for the returned point |
| C68 | Cobyla | same | a measure decreasing on the internal loop: radius, penalty, merit function |
| C69, C70 | Cobyla | `trstlp` label by label | invariant of the active set (QR factorization by rotations) |

### Parts of the code which are modelled

| File | Modelled | Not modelled |
|------|----------|--------------|
| `src/utils.c` | string copy, error handler cell, status and constant tables, errno map | printing of messages |
| `src/algebra.c` | objects and reference counts, vectors (single and double share one model), argument checks, operators (checks) | the operations of user defined vector spaces are arbitrary functions |
| bounds: `src/simple_vector.c`, `src/algebra.c` | all box projections, step limits, free variables | - |
| `src/lnsrch.c` | the three line searches, their constructors, start, iterate, queries | - |
| `src/vmlmb.c` | constructor, start, iterate, directions, description | - |
| `src/nlcg.c` | constructor, start, iterate, all update rules, description | - |
| `src/driver.c` | all the functions | partial overlap of the arrays of the client |
| `src/fmin.c` | all the functions | - |
| `src/lcg.c` | PLCG, LCG, TRCG | - |
| `src/linalg.c` | level 1 (amax, swap, scal, copy, axpy, dot, asum, sum, nrm2, iamax, zero), level 2, level 3, potf2 | overflows of `opk_index`; the single and double precision versions share one model |
| `src/gqtpar.c` | GQT, ESTSV | NULL output pointers (the values are just not stored) |
| `src/cobyla.c` | create, restart, queries, iterate, optimize with scaling and maximization, `trstlp` | printing; that `trstlp` returns is not claimed; the step is an arbitrary function in C50, C51, C66-C68 and any step with the proved properties of `trstlp` in C69, C70 |
| `src/bobyqa.c` | `bobyqa_optimize`, `bobyqb`, `prelim`, `rescue`, `altmov`, `update` and `trsbox` as machines whose states are the labels | printing; in `bobyqb` the step of `trsbox` is a parameter (C49, C71 to C73 hold for any step), related to the model of `trsbox` by `IsTrsbox` for C81; `HQ` is a matrix with two indices (the packing is not modelled); arrays are functions from 1; `PTSID` holds the two indices instead of their packing in a floating point number; the status of an error in `rescue` |
| `src/newuoa.c` | `newuoa_optimize` with scaling and maximization, `newuoa_create`, `newuoa_restart`, queries, `newuoa_iterate`, as a machine whose states are the labels | printing; `trsapp`, `biglag`, `bigden` and `update` are arbitrary functions of the state writing the arrays they write in the code, except for C83 to C85 and C89 where `update` and `biglag` are modelled too (the table of sines is exact) and `bigden` is proved unused, and for C89 where `trsapp` is modelled too (a division by zero and the square root of a negative number are distinct outcomes); `HQ` is a matrix with two indices; arrays are functions from 1 |
| Yorick bindings (`yorick/`), CUTEst interface (`cutest/`), `tests/`, `tools/` | - | not modelled |


## 4. Findings

Places where the code does not do what its documentation (or the property)
says.  Each one is a theorem (a negation with a witness), the property is then
`partial` in the manifest.

* C52: `opk_hold_object(NULL)` dereferences its argument.
* C14: `opk_lnsrch_start(NULL, ...)` and `opk_lnsrch_iterate(NULL, ...)` return
  the status `OPK_ILLEGAL_ADDRESS` (3) as a task; no task has this value, in
  particular it is not `OPK_LNSRCH_ERROR` (-1)
  (`LineSearch.null_not_an_error`).
* C21: `opk_lnsrch_iterate` replaces a convergence by a warning
  `STEP_EQ_STPMIN`/`STEP_EQ_STPMAX` when the current step is equal to a bound
  (`LineSearch.converged_not_reported`); optimizers take a warning as a failure.
* C54 (holds): in the first stage of the Moré-Thuente search the cubic step of
  the fourth case of `opk_cstep` may be the square root of a negative number
  when `ftol > gtol/4` (`LineSearch.cubic_step_undefined`); `csrch_iterate` turns
  the NaN into `stp = stx`, a spurious warning of rounding errors follows.
* C17: `ftol = 1/2` is accepted by `opk_lnsrch_new_backtrack` though the search may
  then never stop (`LineSearch.backtrack_half_never_stops`).
* C53: a NaN function value makes the backtracking line search ask for a NaN step
  when `amin < 1/2` (`LineSearch.backtrack_nan`).
* C55: NaN parameters are accepted by the constructors of line searches
  (`LineSearch.constructor_nan`); `opk_lnsrch_new_nonmonotone` tests `sigma1`
  twice and never `sigma2`.
* C27: none of the optimizers checks the warnings of rounding errors of the
  Moré-Thuente search; with real numbers and `4 ftol <= gtol` there are none
  (`LineSearch.csrch_calls_sure`).
* C31: the options `fmin` and `fmin_given` of NLCG have no effect
  (`Nlcg.fmin_ignored`, `Nlcg.Demo.fmin_not_honoured`).
* C32: the allocation of the driver itself is not checked (`driver.c:343`,
  `Driver.first_allocation_undefined`); `opk_get_description(NULL, ..)`
  dereferences its argument (`Driver.description_null_undefined`);
  `OPK_BOUND_VECTOR` bounds are accepted by the checks but never lead to an
  optimizer (`Driver.new_optimizer_leak_free_partial`).
* C33: with rounding an exclusive bound may be evaluated
  (`Fmin.exclusive_bound_hit`).
* C34: a NaN value is kept as the minimum (`Fmin.nan_is_kept`).
* C35: `maxeval = 0` means unlimited (`Fmin.zero_budget_unlimited`).
* C37: `opk_fmin_get_final` reports an interval with `xmin` as one of its ends
  (`Fmin.final_interval_wrong`, `Fmin.final_interval_misses`).
* C40: a restart of TRCG with `|x| >= delta` returns TRUNCATED and leaves `r = b`
  (`Lcg.trcg_restart_outside`).
* C41: the documentation of PLCG announces an error for an operator which is not
  positive definite, the code returns NON_CONVEX (`Lcg.plcg_nonConvex`).
* C42: SWAP has no effect when the arrays start at the same address, even with
  different increments (hypothesis of `Linalg.swap_spec`).
* C43: GEMV does not multiply `y` by `beta` when `m = 0` or `n = 0`
  (`Linalg.gemv_empty`).
* C45: GEMM returns 1 (instead of 2) for an illegal `transb`
  (`Linalg.gemm_body`); SYRK reads `A` with the leading dimension of `C`
  (`Linalg.syrk_incorrect`).
* C46: POTF2 does not check its first argument when `n = 0`
  (`Linalg.potf2_code`).
* C47: when GQT returns 1 with `par > 0`, the norm of `x` may be far from `delta`
  (`Gqt.Demo.gqt_norm_not_close`), the documentation says it is within
  `rtol*delta`; with `n = 0`, ESTSV accesses `r(1,1)` and `z(1)`.
* C63: when `b = 0` the code 1 is returned by the test `xnorm == 0` whatever the
  accuracy (hypothesis `b != 0` of `Gqt.gqt_relative`).
* C56: the description of NLCG overflows a buffer of 80 bytes
  (`Nlcg.description_overflow`, `Nlcg.default_description_overflow`).
* C57: a step equal to a limit of the line search is refused by VMLMB
  (`Vmlmb.step_at_limit_fails`).
* C60, C61: the flag SMOOTH of `opk_fmin` is ignored (`Fmin.smooth_flag_ignored`);
  continuing a converged search breaks the bracket (`Fmin.continuation_breaks`).
* C62: the relative precision is never reached when the minimizer is 0
  (`Fmin.no_convergence_at_zero`).
* C67: after COBYLA_SUCCESS, a point worse than the best evaluated one may be
  returned: the last requested point is taken if the last step was a full one,
  without comparing its value (`Cobyla.cobyla_not_best`).
* C70: in `trstlp`, the branch which exchanges an active constraint tests
  `icon < nact` where `icon` is the entering constraint, never in this range:
  the last active constraint is always the one which leaves, and not the one
  chosen by the ratio test (`iout` is not used).  This does not break C69 and C70,
  but the objective may leave the active set in stage two and no termination of
  `trstlp` is claimed.
* BOBYQA: with the status `BOBYQA_STEP_FAILED` the last evaluated point is ignored even if it is the best one
  (`Bobyqa.Demo.bobyqa_step_failed`, with a step that is not the one of `trsbox`: this status means that the predicted
  reduction is not positive).
* BOBYQA: `maxfun` is not validated, the objective function is called once even if `maxfun <= 0`; hence `max(1, maxfun)`
  in C71.
* BOBYQA: the first element of the workspace is the best value only with the status `BOBYQA_SUCCESS`.
* C96: BOBYQA: with the status `BOBYQA_TOO_CLOSE` the variables before the faulty one may have been moved away from their
  bounds, and all of them are still divided by the scaling factors (`Variables.bobyqa_too_close_changes`).
* C97, C98: COBYLA: `CON(M+1)` is minus the value of the objective function at the pole when `trstlp` is called; in the
  second stage the code replaces the last active constraint, which is the objective function, and not that of the ratio
  test (`src/cobyla.c:1262-1306`); the objective function is then treated as the constraint that its predicted value is
  not negative.  With two constraints the points depend on a constant added to the objective function, and a trial point
  may be worse than the feasible best vertex even for affine functions (`Cobyla.Demo.cobyla_constant`,
  `Cobyla.Demo.cobyla_uphill`).
* BOBYQA: with scaling factors the points given to the objective function are products, which may be out of the bounds
  because of rounding errors; they are within the bounds in exact arithmetic (`Bobyqa.optimize_feasible_scaled`), and in
  any arithmetic without scaling (`Bobyqa.optimize_feasible`).
* NEWUOA: a comment of `src/newuoa.c` (line 733) says that `10*NDIM` elements are used by `W`; the code uses `11*NDIM` and
  the workspace is large enough.
* C75: NEWUOA: when `maxfun < npt` the variables are `xbase + xopt` where `xopt` has never been set: they are the point of
  no call in general (`Newuoa.optimize_unset`, `Newuoa.Demo.newuoa_best_false`).
* C83 (holds): NEWUOA: `update` (`src/newuoa.c:2719-2724`) tests the sign of a square root to choose between two formulas; with
  exact arithmetic `idz` is always 1, the other branches and `bigden` are never entered (`Newuoa.no_bigden`).
* C89: NEWUOA: `trsapp` (`src/newuoa.c:2572-2574`) divides by `sqrt(delsq*gg - sgk*sgk)`, which is zero when the gradient of the model
  on the boundary is a positive multiple of the step: the test `angtest <= -0.99` excludes the negative multiples only.  It cannot
  happen at the first rotation, hence not with two variables (`Newuoa.minimize_spec`).
* NEWUOA: `newuoa_create` accepts `n < 2` (refused by `newuoa_optimize`); `newuoa_get_rho` after a restart gives the radius
  of the previous run until the interpolation points are evaluated.
