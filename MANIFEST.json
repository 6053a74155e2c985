{
 "claims": [
  {
   "property": "C01",
   "status": "proved",
   "theorems": [
    "Opk.Utils.copyString_spec",
    "Opk.Utils.copyString_null",
    "Opk.Utils.copyString_roundtrip"
   ],
   "note": "opk_copy_string for every destination size and source string, including NULL arguments."
  },
  {
   "property": "C02",
   "status": "proved",
   "theorems": [
    "Opk.Utils.hrun_state",
    "Opk.Utils.hrun_outputs"
   ],
   "note": "Every history of set/get/error calls; abort of the default handler is an output event."
  },
  {
   "property": "C03",
   "status": "proved",
   "theorems": [
    "Opk.Utils.getReason_eq_empty_iff",
    "Opk.Utils.getReason_injective",
    "Opk.Utils.getIntegerConstant_spec",
    "Opk.Utils.declared_functional",
    "Opk.Utils.guessStatus_spec"
   ],
   "note": "All integers and all names; the tables are transcribed from the header."
  },
  {
   "property": "C04",
   "status": "proved",
   "theorems": [
    "Opk.Heap.run_safe",
    "Opk.Heap.released_iff_unreachable",
    "Opk.Heap.released_once",
    "Opk.Heap.no_leak",
    "Opk.Heap.references_exact"
   ],
   "note": "Every correct client history; members are of a lower class than their container (no cycles)."
  },
  {
   "property": "C05",
   "status": "proved",
   "theorems": [
    "Opk.Vec.poke_peek",
    "Opk.Vec.peek_spec",
    "Opk.Vec.access_errors",
    "Opk.Vec.import_export",
    "Opk.Vec.transfer_errors"
   ],
   "note": "Any size, index, contents, element conversion; storage of the caller assumed large enough."
  },
  {
   "property": "C06",
   "status": "proved",
   "theorems": [
    "Opk.Vec.vscale_spec",
    "Opk.Vec.vaxpby_spec",
    "Opk.Vec.vaxpbypcz_spec",
    "Opk.Vec.combine_refused"
   ],
   "note": "Arithmetic may round: only x+y=y+x, x-y=x+(-y), 1x=x, (-1)x=-x, 0x=0, 0+x=x are used; storages of dst and of each source are equal or disjoint."
  },
  {
   "property": "C07",
   "status": "proved",
   "theorems": [
    "Opk.Vec.vdot_spec",
    "Opk.Vec.vnorm12_spec",
    "Opk.Vec.vnorminf_spec",
    "Opk.Vec.vproduct_spec",
    "Opk.Vec.vcopy_spec",
    "Opk.Vec.vfill_spec",
    "Opk.Vec.vswap_spec"
   ],
   "note": "Sums in exact arithmetic; max norm and element-wise operations for any arithmetic."
  },
  {
   "property": "C08",
   "status": "proved",
   "theorems": [
    "Opk.Vec.wrapped_life",
    "Opk.Vec.wrap_null"
   ],
   "note": "Every sequence of re-wraps."
  },
  {
   "property": "C09",
   "status": "proved",
   "theorems": [
    "Opk.Box.project_variables",
    "Opk.Box.project_variables_idempotent",
    "Opk.Box.project_variables_nearest"
   ],
   "note": "first two for any arithmetic on a linear order (NaN excluded), nearest point in exact arithmetic"
  },
  {
   "property": "C10",
   "status": "proved",
   "theorems": [
    "Opk.Box.project_direction",
    "Opk.Box.project_direction_angle"
   ],
   "note": "exact arithmetic (ordered field)"
  },
  {
   "property": "C100",
   "status": "proved",
   "theorems": [
    "Opk.Bobyqa.Constant.bobyqa_constant",
    "Opk.Bobyqa.Constant.blind_code"
   ],
   "note": "exact arithmetic, any ordered field; bobyqa_constant is for any trust region subroutine which does not use the function values, blind_code shows that trsbox of the code is one"
  },
  {
   "property": "C101",
   "status": "proved",
   "theorems": [
    "Opk.Newuoa.Translate.newuoa_translate",
    "Opk.Newuoa.Translate.blind_code"
   ],
   "note": "exact arithmetic, any ordered field; for any subroutines which do not use the base point; blind_code shows that trsapp, biglag and update of the code do not, it is a hypothesis for bigden"
  },
  {
   "property": "C102",
   "status": "proved",
   "theorems": [
    "Opk.Bobyqa.Translate.bobyqa_translate",
    "Opk.Bobyqa.Translate.lineSearch_none",
    "Opk.Bobyqa.Translate.blind_code"
   ],
   "note": "exact arithmetic, any ordered field; for any trsbox which does not use the base point and the bounds of the caller, blind_code shows that the one of the code does not"
  },
  {
   "property": "C11",
   "status": "proved",
   "theorems": [
    "Opk.Box.free_variables"
   ],
   "note": "exact arithmetic (ordered field)"
  },
  {
   "property": "C12",
   "status": "proved",
   "theorems": [
    "Opk.Box.step_limits"
   ],
   "note": "exact arithmetic; structure Limits lists the documented meaning; smin1<=smax needs a non-zero direction"
  },
  {
   "property": "C13",
   "status": "proved",
   "theorems": [
    "Opk.Box.convexset_checks",
    "Opk.Box.convexset_can",
    "Opk.Box.operator_checks",
    "Opk.Box.new_boxset"
   ],
   "note": ""
  },
  {
   "property": "C14",
   "status": "partial",
   "theorems": [
    "Opk.LineSearch.start_checks",
    "Opk.LineSearch.null_not_an_error",
    "Opk.LineSearch.null_queries"
   ],
   "note": "Proved for every non NULL line search, any arithmetic.  The part about NULL is false of the code: null_not_an_error shows that the returned task is 3, not OPK_LNSRCH_ERROR (-1)."
  },
  {
   "property": "C15",
   "status": "proved",
   "theorems": [
    "Opk.LineSearch.steps_in_bounds",
    "Opk.LineSearch.protocol",
    "Opk.LineSearch.stop_at_current_step",
    "Opk.LineSearch.stop_at_current_step_all",
    "Opk.LineSearch.backtrack_method",
    "Opk.LineSearch.nonmonotone_method",
    "Opk.LineSearch.csrch_method"
   ],
   "note": "any arithmetic on a linear order, any history of calls"
  },
  {
   "property": "C16",
   "status": "proved",
   "theorems": [
    "Opk.LineSearch.backtrack_sufficient_decrease",
    "Opk.LineSearch.backtrack_steps_decrease"
   ],
   "note": "the first (iff) for any arithmetic, the second in exact arithmetic"
  },
  {
   "property": "C17",
   "status": "proved",
   "theorems": [
    "Opk.LineSearch.backtrack_terminates",
    "Opk.LineSearch.backtrack_bound_exists",
    "Opk.LineSearch.backtrack_finds_step",
    "Opk.LineSearch.backtrack_half_never_stops"
   ],
   "note": "exact arithmetic; the last theorem shows that the accepted limit value ftol=1/2 is a case where the search may never stop"
  },
  {
   "property": "C18",
   "status": "proved",
   "theorems": [
    "Opk.LineSearch.nonmonotone_reference"
   ],
   "note": "any arithmetic"
  },
  {
   "property": "C19",
   "status": "proved",
   "theorems": [
    "Opk.LineSearch.csrch_strong_wolfe"
   ],
   "note": "any arithmetic for the reported convergence"
  },
  {
   "property": "C20",
   "status": "proved",
   "theorems": [
    "Opk.LineSearch.cstep_interval",
    "Opk.LineSearch.cstep_rejects",
    "Opk.LineSearch.bracket_contains_minimum"
   ],
   "note": "exact arithmetic with undefined operations made explicit (Num), rejects in any arithmetic"
  },
  {
   "property": "C21",
   "status": "partial",
   "theorems": [
    "Opk.LineSearch.converged_is_reported_partial",
    "Opk.LineSearch.converged_at_bound_is_a_warning",
    "Opk.LineSearch.converged_not_reported"
   ],
   "note": "False of the code when the step was already equal to a bound: a converged search is then reported as a warning (witness converged_not_reported).  The partial theorem covers steps strictly inside the bounds."
  },
  {
   "property": "C22",
   "status": "proved",
   "theorems": [
    "Opk.Vmlmb.iterates_feasible"
   ],
   "note": "exact arithmetic; box set modelled from src/box.c; any line search"
  },
  {
   "property": "C23",
   "status": "proved",
   "theorems": [
    "Opk.Vmlmb.memory_pairs"
   ],
   "note": "any arithmetic"
  },
  {
   "property": "C24",
   "status": "proved",
   "theorems": [
    "Opk.Vmlmb.bfgs_direction"
   ],
   "note": "exact arithmetic"
  },
  {
   "property": "C25",
   "status": "proved",
   "theorems": [
    "Opk.Vmlmb.search_started",
    "Opk.Nlcg.search_started"
   ],
   "note": "In exact arithmetic with an exact square root. A line search which cannot be started because the limits of the step given by the caller do not contain 1 is the only other outcome."
  },
  {
   "property": "C26",
   "status": "proved",
   "theorems": [
    "Opk.Vmlmb.convergence_test",
    "Opk.Nlcg.convergence_test"
   ],
   "note": "For any arithmetic with a total order (no NaN)."
  },
  {
   "property": "C27",
   "status": "proved",
   "theorems": [
    "Opk.Vmlmb.backtrack_decrease",
    "Opk.Vmlmb.csrch_decrease",
    "Opk.Vmlmb.backtrack_strict_decrease",
    "Opk.Vmlmb.csrch_decrease_real",
    "Opk.Vmlmb.csrch_strict_decrease",
    "Opk.Nlcg.backtrack_decrease",
    "Opk.Nlcg.csrch_decrease",
    "Opk.Nlcg.backtrack_strict_decrease",
    "Opk.Nlcg.csrch_decrease_real",
    "Opk.Nlcg.csrch_strict_decrease"
   ],
   "note": "Both optimizers, with or without bounds for VMLMB. A step is also accepted when the search warns of rounding errors; with real numbers and 4 ftol <= gtol this never happens, whatever the history of the calls (Opk.LineSearch.csrch_calls_sure)."
  },
  {
   "property": "C28",
   "status": "proved",
   "theorems": [
    "Opk.Vmlmb.protocol",
    "Opk.Vmlmb.error_absorbing",
    "Opk.Nlcg.protocol",
    "Opk.Nlcg.error_absorbing"
   ],
   "note": "Both optimizers, any arithmetic with a total order."
  },
  {
   "property": "C29",
   "status": "proved",
   "theorems": [
    "Opk.Vmlmb.save_memory_transparent"
   ],
   "note": "any arithmetic, any line search, any convex set, any history"
  },
  {
   "property": "C30",
   "status": "proved",
   "theorems": [
    "Opk.Nlcg.new_direction"
   ],
   "note": "Exact arithmetic with an exact square root, along whole sessions of a caller."
  },
  {
   "property": "C31",
   "status": "partial",
   "theorems": [
    "Opk.Nlcg.fmin_ignored",
    "Opk.Nlcg.Demo.fmin_not_honoured",
    "Opk.Nlcg.initial_step"
   ],
   "note": "The property does not hold: the constructor sets fmin_given to FALSE, so the options fmin and fmin_given have no effect (fmin_ignored, with the witness fmin_not_honoured). initial_step gives the step actually used, based on 2|f|."
  },
  {
   "property": "C32",
   "status": "partial",
   "theorems": [
    "Opk.Driver.new_optimizer_leak_free_partial",
    "Opk.Driver.first_allocation_undefined",
    "Opk.Driver.destroyed_later",
    "Opk.Driver.transparent",
    "Opk.Driver.getters",
    "Opk.Driver.null_optimizer",
    "Opk.Driver.null_array",
    "Opk.Driver.description_null_undefined"
   ],
   "note": "Proved: for every argument combination and every pattern of allocation failures except the first allocation, opk_new_optimizer is defined, either fails and restores the heap exactly or returns an optimizer whose destruction restores it, and succeeds iff the arguments are valid when memory is available; start/iterate/getters equal those of the optimizer used directly on the client arrays, for every history; NULL arrays and NULL optimizers give the documented results. Negations: the allocation of the driver itself is not checked (driver.c:343), a failure there is a NULL dereference; opk_get_description dereferences a NULL optimizer. Also a consequence of the first theorem: OPK_BOUND_VECTOR bounds are accepted by the checks but can never lead to an optimizer. Partially overlapping arrays are not modelled."
  },
  {
   "property": "C33",
   "status": "partial",
   "theorems": [
    "Opk.Fmin.exclusive_bounds",
    "Opk.Fmin.exclusive_interval",
    "Opk.Fmin.reverse_exclusive_bounds",
    "Opk.Fmin.never_beyond_partial",
    "Opk.Fmin.exclusive_bound_hit"
   ],
   "note": "Proved in exact arithmetic for every function (infinite and NaN values included), both interfaces. With rounding: never beyond the bound if the interpolated point stays between the two others (never_beyond_partial). The full statement is false with rounding: if a and b are adjacent numbers the function is evaluated at the exclusive bound (exclusive_bound_hit)."
  },
  {
   "property": "C34",
   "status": "partial",
   "theorems": [
    "Opk.Fmin.best_point_partial",
    "Opk.Fmin.no_bracket",
    "Opk.Fmin.nan_is_kept"
   ],
   "note": "Proved in exact arithmetic for every function without NaN values. False if an evaluation gives NaN: it is returned as the minimum (nan_is_kept)."
  },
  {
   "property": "C35",
   "status": "proved",
   "theorems": [
    "Opk.Fmin.budget",
    "Opk.Fmin.terminates",
    "Opk.Fmin.returns_unique",
    "Opk.Fmin.reverse_count",
    "Opk.Fmin.zero_budget_unlimited"
   ],
   "note": "Any arithmetic, any function. The documentation says that maxeval is a limit if it is non-negative; for maxeval = 0 there is no limit (zero_budget_unlimited)."
  },
  {
   "property": "C36",
   "status": "proved",
   "theorems": [
    "Opk.Fmin.same_evaluations",
    "Opk.Fmin.same_result",
    "Opk.Fmin.configure"
   ],
   "note": "Any arithmetic, any function (NaN included), for opk_fmin without budget, since the reverse communication has none."
  },
  {
   "property": "C37",
   "status": "partial",
   "theorems": [
    "Opk.Fmin.final_interval_one_sided",
    "Opk.Fmin.final_interval_wrong",
    "Opk.Fmin.final_interval_misses",
    "Opk.Fmin.final_point_partial"
   ],
   "note": "Negation: the reported interval always has xmin as one of its ends; witness where the minimizer is outside. The point, value, count and other end are right (final_point_partial)."
  },
  {
   "property": "C38",
   "status": "proved",
   "theorems": [
    "Opk.Lcg.plcg_residuals",
    "Opk.Lcg.plcg_no_error",
    "Opk.Lcg.plcg_step"
   ],
   "note": "Exact arithmetic, any n, any symmetric operators (no sign assumed), any caller which computes what it is asked for, arrays apart (z may be the same as q)."
  },
  {
   "property": "C39",
   "status": "proved",
   "theorems": [
    "Opk.Lcg.plcg_conjugate",
    "Opk.Lcg.plcg_optimal",
    "Opk.Lcg.plcg_terminates",
    "Opk.Lcg.plcg_solves",
    "Opk.Lcg.plcg_witness",
    "Opk.Lcg.plcg_step"
   ],
   "note": "Exact arithmetic; orthogonality of the residuals is in the metric of the preconditioner."
  },
  {
   "property": "C40",
   "status": "proved",
   "theorems": [
    "Opk.Lcg.trcg_region",
    "Opk.Lcg.trcg_residuals",
    "Opk.Lcg.trcg_conjugate",
    "Opk.Lcg.trcg_step",
    "Opk.Lcg.trcg_terminates",
    "Opk.Lcg.trcg_monotone",
    "Opk.Lcg.trcg_restart_outside"
   ],
   "note": "Exact arithmetic with exact square roots, operator possibly indefinite. A non-convex preconditioner is reported with the norm of x less than delta. After a restart with x out of the region r is not the residual (trcg_restart_outside)."
  },
  {
   "property": "C41",
   "status": "proved",
   "theorems": [
    "Opk.Lcg.plcg_protocol",
    "Opk.Lcg.plcg_terminal",
    "Opk.Lcg.plcg_nonConvex",
    "Opk.Lcg.plcg_frame",
    "Opk.Lcg.lcg_no_precond",
    "Opk.Lcg.trcg_protocol",
    "Opk.Lcg.trcg_terminal",
    "Opk.Lcg.trcg_nonConvex",
    "Opk.Lcg.trcg_frame"
   ],
   "note": "Any arithmetic without NaN, any contents of memory, any layout of the arrays."
  },
  {
   "property": "C42",
   "status": "proved",
   "theorems": [
    "Opk.Linalg.copy_spec",
    "Opk.Linalg.swap_spec",
    "Opk.Linalg.zero_spec",
    "Opk.Linalg.nothing",
    "Opk.Linalg.axpy_frame",
    "Opk.Linalg.axpy_reads",
    "Opk.Linalg.dot_reads",
    "Opk.Linalg.reads_one",
    "Opk.Linalg.axpy_spec",
    "Opk.Linalg.scal_spec",
    "Opk.Linalg.dot_spec",
    "Opk.Linalg.sum_spec",
    "Opk.Linalg.asum_spec",
    "Opk.Linalg.amax_spec",
    "Opk.Linalg.iamax_spec",
    "Opk.Linalg.nrm2_spec"
   ],
   "note": "For every n, increment and memory. Values of copy, swap and zero in any arithmetic, the others in exact arithmetic; what is read or written in any arithmetic."
  },
  {
   "property": "C43",
   "status": "proved",
   "theorems": [
    "Opk.Linalg.gemv_code",
    "Opk.Linalg.gemv_empty",
    "Opk.Linalg.gemv_frame",
    "Opk.Linalg.gemv_reads",
    "Opk.Linalg.gemv_spec"
   ],
   "note": "gemv_code, gemv_empty, gemv_frame and gemv_reads hold in any arithmetic and also when the arrays overlap; gemv_spec is in exact arithmetic when y does not overlap A and x. When m = 0 or n = 0 the code does not scale y by beta (gemv_empty)."
  },
  {
   "property": "C44",
   "status": "proved",
   "theorems": [
    "Opk.Linalg.tri_code",
    "Opk.Linalg.tri_frame",
    "Opk.Linalg.tri_reads",
    "Opk.Linalg.trmv_spec",
    "Opk.Linalg.trsv_spec",
    "Opk.Linalg.trmv_trsv"
   ],
   "note": "tri_code, tri_frame and tri_reads (the other triangle, and the diagonal of a unit matrix, are never read) hold in any arithmetic; the product and the solution are exact when x does not overlap the elements of the matrix which are used, and for the solution when the diagonal is not zero."
  },
  {
   "property": "C45",
   "status": "partial",
   "theorems": [
    "Opk.Linalg.gemm_body",
    "Opk.Linalg.gemm_frame",
    "Opk.Linalg.gemm_spec",
    "Opk.Linalg.syrk_body",
    "Opk.Linalg.syrk_frame",
    "Opk.Linalg.syrk_actual",
    "Opk.Linalg.syrk_spec_partial",
    "Opk.Linalg.syrk_incorrect"
   ],
   "note": "GEMM is correct in exact arithmetic. SYRK addresses A with the leading dimension of C (src/linalg.c:1478): syrk_incorrect is the negation of the property with a witness, syrk_actual tells what is computed, and syrk_spec_partial proves the property when lda = ldc or A has at most one column. Missing: nothing that the code satisfies."
  },
  {
   "property": "C46",
   "status": "proved",
   "theorems": [
    "Opk.Linalg.potf2_code",
    "Opk.Linalg.potf2_frame",
    "Opk.Linalg.potf2_factor",
    "Opk.Linalg.potf2_posDef",
    "Opk.Linalg.potf2_minor"
   ],
   "note": "Codes and frame in any arithmetic; factor (and its uniqueness), positive definiteness, first leading block which is not positive definite, and first leading minor which is not positive in exact arithmetic with exact square roots. The elements of the factored rows and the non positive pivot are in place on failure (potf2_run)."
  },
  {
   "property": "C47",
   "status": "partial",
   "theorems": [
    "Opk.Gqt.gqt_terminates",
    "Opk.Gqt.gqt_restores",
    "Opk.Gqt.gqt_relative",
    "Opk.Gqt.Demo.gqt_norm_not_close"
   ],
   "note": "Termination, codes, restoration and frame in any arithmetic; the bound norm(x) <= (1+rtol)*delta in exact arithmetic. The last part (norm close to delta when par > 0) is false: negation with a witness (gqt_norm_not_close), the convergence may come from the test on the reduction of f. Precondition 1 <= n <= lda: with n = 0 ESTSV reads r(1,1) and writes z(1)."
  },
  {
   "property": "C48",
   "status": "proved",
   "theorems": [
    "Opk.Powell.cobyla_workspace",
    "Opk.Powell.newuoa_workspace",
    "Opk.Powell.bobyqa_workspace",
    "Opk.Powell.cobyla_size_tight",
    "Opk.Powell.newuoa_size_tight",
    "Opk.Powell.bobyqa_size_tight",
    "Opk.Powell.triangle_index"
   ],
   "note": "Offsets as computed by the code; elements of all arrays, including the sub-arrays passed to the subroutines, are inside the documented size and have distinct addresses. Integer overflow of the sizes is not considered. newuoa and bobyqa: n + 2 <= npt as checked by the code."
  },
  {
   "property": "C49",
   "status": "proved",
   "theorems": [
    "Opk.Bobyqa.optimize_feasible",
    "Opk.Bobyqa.bobyqb_feasible",
    "Opk.Bobyqa.optimize_feasible_scaled"
   ],
   "note": "without scaling: any arithmetic with a linear order (no NaN), any step of trsbox; with scaling: exact arithmetic (rounding errors of the products by the scaling factors are not bounded)"
  },
  {
   "property": "C50",
   "status": "proved",
   "theorems": [
    "Opk.Cobyla.cobyla_exact",
    "Opk.Cobyla.cobyla_optimize_consistent"
   ],
   "note": "Exact arithmetic (ordered field with square roots), any step of the subproblem, x not modified between calls."
  },
  {
   "property": "C51",
   "status": "proved",
   "theorems": [
    "Opk.Cobyla.cobyla_budget",
    "Opk.Cobyla.cobyla_radius",
    "Opk.Cobyla.cobyla_protocol",
    "Opk.Cobyla.cobyla_null",
    "Opk.Cobyla.evals_budget"
   ],
   "note": "Budget, protocol and schedule in any arithmetic; bounds of rho in exact arithmetic."
  },
  {
   "property": "C52",
   "status": "partial",
   "theorems": [
    "Opk.Heap.hold_null_undefined",
    "Opk.Heap.null_object_partial"
   ],
   "note": "False of the code for opk_hold_object: NULL is dereferenced although documented as a no-op."
  },
  {
   "property": "C53",
   "status": "partial",
   "theorems": [
    "Opk.LineSearch.nan_bisection_partial",
    "Opk.LineSearch.backtrack_nan"
   ],
   "note": "False of the code for backtracking with amin<1/2 (backtrack_nan: the next step is NaN and the search then fails).  nan_bisection_partial: true when amin>=1/2 and for the nonmonotone search."
  },
  {
   "property": "C54",
   "status": "proved",
   "theorems": [
    "Opk.LineSearch.csrch_never_fails",
    "Opk.LineSearch.iterate_safe",
    "Opk.LineSearch.start_inv"
   ],
   "note": "Exact arithmetic with NaN for the square root of a negative number and the division by zero. Any values and derivatives are supplied, any prior state of the line search; never an error, and the step is always a number within the bounds. cubic_step_undefined shows that opk_cstep itself may compute NaN when ftol > gtol/4, which csrch_iterate absorbs."
  },
  {
   "property": "C55",
   "status": "partial",
   "theorems": [
    "Opk.LineSearch.constructor_parameters",
    "Opk.LineSearch.constructor_nan"
   ],
   "note": "Proved (iff) for ordered numbers; constructor_nan shows that NaN parameters are accepted."
  },
  {
   "property": "C56",
   "status": "partial",
   "theorems": [
    "Opk.Nlcg.description_partial",
    "Opk.Nlcg.description_overflow",
    "Opk.Nlcg.default_description_overflow",
    "Opk.Vmlmb.description_fits"
   ],
   "note": "The property does not hold: with the Polak-Ribiere-Polyak (the default) or Fletcher method and both options, the text built by opk_get_nlcg_description overflows its local buffer of 80 bytes (description_overflow, default_description_overflow). It holds for all other settings (description_partial) and for the variable metric optimizer (description_fits)."
  },
  {
   "property": "C57",
   "status": "partial",
   "theorems": [
    "Opk.Vmlmb.acceptable_step_partial",
    "Opk.Vmlmb.step_at_limit_fails",
    "Opk.Vmlmb.acceptable_step_refused"
   ],
   "note": "False of the code when the step is equal to a limit of the line search (for instance the step to the last bound): OPK_TASK_ERROR is returned (general theorem and witness).  Proved when the step is strictly between the limits."
  },
  {
   "property": "C58",
   "status": "proved",
   "theorems": [
    "Opk.Nlcg.never_restarts",
    "Opk.Nlcg.hagerZhang_descent",
    "Opk.Nlcg.daiYuan_descent",
    "Opk.Nlcg.fletcher_descent",
    "Opk.Nlcg.perryShanno_descent"
   ],
   "note": "Exact arithmetic with an exact square root."
  },
  {
   "property": "C59",
   "status": "proved",
   "theorems": [
    "Opk.Nlcg.initial_step"
   ],
   "note": "Exact arithmetic with an exact square root."
  },
  {
   "property": "C60",
   "status": "partial",
   "theorems": [
    "Opk.Fmin.smooth_flag_ignored"
   ],
   "note": "Negation: the flag has no effect on the evaluations and on the result."
  },
  {
   "property": "C61",
   "status": "partial",
   "theorems": [
    "Opk.Fmin.continuation_breaks",
    "Opk.Fmin.continuation_inaccurate"
   ],
   "note": "Negation: continuing after a convergence in the reduction loop is either rejected or breaks the bracket and the count."
  },
  {
   "property": "C62",
   "status": "proved",
   "theorems": [
    "Opk.Fmin.minimizer_in_interval",
    "Opk.Fmin.accuracy",
    "Opk.Fmin.shrinks",
    "Opk.Fmin.unimodal_terminates",
    "Opk.Fmin.no_convergence_at_zero"
   ],
   "note": "Exact arithmetic (Archimedean field for termination). If the minimizer is zero the relative precision is never reached (no_convergence_at_zero)."
  },
  {
   "property": "C63",
   "status": "proved",
   "theorems": [
    "Opk.Gqt.gqt_value",
    "Opk.Gqt.gqt_relative",
    "Opk.Gqt.gqt_absolute"
   ],
   "note": "Exact arithmetic (ordered field with square roots)."
  },
  {
   "property": "C64",
   "status": "proved",
   "theorems": [
    "Opk.Gqt.estsv_spec",
    "Opk.Gqt.estsv_frame"
   ],
   "note": "Exact arithmetic for the norms, any arithmetic for the frame."
  },
  {
   "property": "C65",
   "status": "proved",
   "theorems": [
    "Opk.Gqt.gqt_newton"
   ],
   "note": "Exact arithmetic."
  },
  {
   "property": "C66",
   "status": "proved",
   "theorems": [
    "Opk.Cobyla.cobyla_exact",
    "Opk.Cobyla.cobyla_no_wrong",
    "Opk.Cobyla.cobyla_optimize_consistent"
   ],
   "note": "Exact arithmetic, any step of the subproblem. In the direct routine the objective is a function of the variables."
  },
  {
   "property": "C67",
   "status": "partial",
   "theorems": [
    "Opk.Cobyla.cobyla_not_best",
    "Opk.Cobyla.cobyla_best"
   ],
   "note": "Negation with a witness: after COBYLA_SUCCESS a point worse than the best one may be returned. Proved: the best one is returned after COBYLA_TOO_MANY_EVALUATIONS; after COBYLA_SUCCESS the returned point is the last evaluated one or is not worse than all the evaluations but the last one."
  },
  {
   "property": "C68",
   "status": "proved",
   "theorems": [
    "Opk.Cobyla.cobyla_iterate_ends",
    "Opk.Cobyla.cobyla_optimize_ends"
   ],
   "note": "Archimedean exact arithmetic. The step of the subproblem is any total function: that trstlp itself returns is not claimed."
  },
  {
   "property": "C69",
   "status": "proved",
   "theorems": [
    "Opk.Cobyla.cobyla_region",
    "Opk.Cobyla.trustStep_lpT",
    "Opk.Cobyla.trstlp_spec"
   ],
   "note": "Exact arithmetic; for any step with the properties that trstlp is proved to have when it returns."
  },
  {
   "property": "C70",
   "status": "proved",
   "theorems": [
    "Opk.Cobyla.cobyla_region",
    "Opk.Cobyla.trustStep_lpT",
    "Opk.Cobyla.trstlp_spec",
    "Opk.Cobyla.trstlp_defined"
   ],
   "note": "Exact arithmetic; for any step with the properties that trstlp is proved to have when it returns."
  },
  {
   "property": "C71",
   "status": "proved",
   "theorems": [
    "Opk.Bobyqa.optimize_budget",
    "Opk.Bobyqa.bobyqb_budget"
   ],
   "note": "any arithmetic, any step of trsbox"
  },
  {
   "property": "C72",
   "status": "proved",
   "theorems": [
    "Opk.Bobyqa.optimize_best",
    "Opk.Bobyqa.bobyqb_best"
   ],
   "note": "exact arithmetic, any step of trsbox; the exception for STEP_FAILED is needed (Opk.Bobyqa.Demo.bobyqa_step_failed)"
  },
  {
   "property": "C73",
   "status": "proved",
   "theorems": [
    "Opk.Bobyqa.bobyqb_ok",
    "Opk.Bobyqa.bobyqb_never_wrong"
   ],
   "note": "exact arithmetic, any step of trsbox; the properties are those of Opk.Bobyqa.Ok (Full, Kn)"
  },
  {
   "property": "C74",
   "status": "proved",
   "theorems": [
    "Opk.Newuoa.optimize_result",
    "Opk.Newuoa.newuoa_iterate_bounds"
   ],
   "note": "fields budget, status and some_call of Opk.Newuoa.Result; the laws of arithmetic are those of Opk.Newuoa.Laws (true of floating point numbers without NaN)"
  },
  {
   "property": "C75",
   "status": "partial",
   "theorems": [
    "Opk.Newuoa.optimize_result",
    "Opk.Newuoa.newuoa_iterate_best",
    "Opk.Newuoa.optimize_unset",
    "Opk.Newuoa.Demo.newuoa_too_few_calls",
    "Opk.Newuoa.Demo.newuoa_best_false"
   ],
   "note": "The value is always the best one, and the variables when npt <= maxfun; otherwise the code violates the property: the variables depend on an array of the workspace which has not been set (optimize_unset, negation newuoa_best_false)."
  },
  {
   "property": "C76",
   "status": "proved",
   "theorems": [
    "Opk.Newuoa.converse_optimize",
    "Opk.Newuoa.iterate_misused",
    "Opk.Newuoa.iterate_null",
    "Opk.Newuoa.iterate_null_x",
    "Opk.Newuoa.iterate_status"
   ],
   "note": "any steps of the subproblems; n at least 2 (newuoa_create accepts less)"
  },
  {
   "property": "C77",
   "status": "proved",
   "theorems": [
    "Opk.Newuoa.newuoa_optimize_ends",
    "Opk.Newuoa.newuoa_iterate_ends"
   ],
   "note": "exact arithmetic (Archimedean ordered field with square roots), the subproblems trsapp, biglag, bigden are arbitrary functions (they are assumed to return)"
  },
  {
   "property": "C78",
   "status": "proved",
   "theorems": [
    "Opk.Newuoa.newuoa_iterate_bounds",
    "Opk.Newuoa.iterate_status"
   ],
   "note": "exact arithmetic; conversations are Opk.Newuoa.Talk"
  },
  {
   "property": "C79",
   "status": "proved",
   "theorems": [
    "Opk.Bobyqa.trsbox_good",
    "Opk.Bobyqa.boxStep_eq"
   ],
   "note": "exact arithmetic with exact square roots"
  },
  {
   "property": "C80",
   "status": "proved",
   "theorems": [
    "Opk.Bobyqa.trsbox_ends",
    "Opk.Bobyqa.trsbox_null_iff",
    "Opk.Bobyqa.trsbox_descent"
   ],
   "note": "Archimedean ordered field with square roots, in particular the real numbers"
  },
  {
   "property": "C81",
   "status": "proved",
   "theorems": [
    "Opk.Bobyqa.optimize_never_failed",
    "Opk.Bobyqa.optimize_best_always",
    "Opk.Bobyqa.predicted_eq",
    "Opk.Bobyqa.shift_quad",
    "Opk.Bobyqa.exists_trsbox"
   ],
   "note": "the step is a function that agrees with trsbox; there is one as trsbox ends"
  },
  {
   "property": "C82",
   "status": "proved",
   "theorems": [
    "Opk.Bobyqa.optimize_ends",
    "Opk.Bobyqa.optimize_total",
    "Opk.Bobyqa.bobyqb_ends"
   ],
   "note": "exact arithmetic with exact square roots; the time taken by the objective function is not modelled"
  },
  {
   "property": "C83",
   "status": "proved",
   "theorems": [
    "Opk.Newuoa.newuoa_interpolates",
    "Opk.Newuoa.newuoa_denominator",
    "Opk.Newuoa.optimize_interpolates",
    "Opk.Newuoa.biglag_ok",
    "Opk.Newuoa.update_good",
    "Opk.Newuoa.Begun.interp",
    "Opk.Newuoa.Begun.inverse",
    "Opk.Newuoa.keep_stepF",
    "Opk.Newuoa.no_bigden",
    "Opk.Newuoa.run_begins"
   ],
   "note": "real numbers, the sines and cosines of the table being exact; trsapp is arbitrary; bigden is never called with exact arithmetic (no_bigden), hence it is arbitrary; idz is always 1; one objective function (deterministic); both in the variables of the algorithm and through newuoa_optimize"
  },
  {
   "property": "C84",
   "status": "proved",
   "theorems": [
    "Opk.Newuoa.newuoa_quadratic",
    "Opk.Newuoa.newuoa_quadratic_descent",
    "Opk.Newuoa.Core.exact",
    "Opk.Powell.quadratic_unique"
   ],
   "note": "real numbers, as for C83; trsapp is arbitrary"
  },
  {
   "property": "C85",
   "status": "proved",
   "theorems": [
    "Opk.Newuoa.newuoa_first_least",
    "Opk.Newuoa.newuoa_least_frobenius",
    "Opk.Newuoa.better_moves"
   ],
   "note": "Real numbers, trsapp and bigden arbitrary, update and biglag as modelled. The competing functions are all the quadratic functions with the interpolated values. A run that reaches the replacement of a point is exhibited (Opk.Newuoa.reaches)."
  },
  {
   "property": "C86",
   "status": "proved",
   "theorems": [
    "Opk.LineSearch.csrch_ends",
    "Opk.LineSearch.csrch_no_rounding_warning",
    "Opk.LineSearch.no_infinite_search",
    "Opk.LineSearch.csrch_calls_sure"
   ],
   "note": "Exact real arithmetic with NaN for a division by zero and for the square root of a negative number. The hypothesis stpmin > 0 is needed: with stpmin = 0 and values always too high, the interval of search shrinks for ever. The number of evaluations is finite but has no bound which depends only on the arguments, since it depends on the width of the first interval."
  },
  {
   "property": "C87",
   "status": "proved",
   "theorems": [
    "Opk.Vmlmb.vmlmb_ends",
    "Opk.Vmlmb.run_ends",
    "Opk.LineSearch.iterate_lift"
   ],
   "note": "Exact arithmetic (real numbers). G need not be the derivative of F. run_ends is the same with any lower bound of the cosine of the angle between the directions and the gradients."
  },
  {
   "property": "C88",
   "status": "proved",
   "theorems": [
    "Opk.Vmlmb.vmlmb_ends_convex",
    "Opk.Vmlmb.metric_bounded"
   ],
   "note": "Exact arithmetic (real numbers). Uses the characterization of the search direction of C24 and the termination theorem of C87."
  },
  {
   "property": "C89",
   "status": "proved",
   "theorems": [
    "Opk.Newuoa.newuoa_reduces",
    "Opk.Newuoa.optimize_reduces",
    "Opk.Newuoa.newuoa_quadratic_reduces",
    "Opk.Newuoa.trsapp_spec",
    "Opk.Newuoa.minimize_spec"
   ],
   "note": "Exact arithmetic (real numbers). The bound of 150 variables and the exclusion of an outward gradient (three variables or more) are hypotheses of the theorems, stated in the property; minimize_spec says that the conjugate gradient iterations and the first rotation never divide by zero."
  },
  {
   "property": "C90",
   "status": "proved",
   "theorems": [
    "Opk.Nlcg.nlcg_ends"
   ],
   "note": "Exact arithmetic (real numbers). The default rule (Polak, Ribiere and Polyak) with the default epsilon = 0 is not covered: global convergence is known to need more than the strong Wolfe conditions. The session may also end by a failure of the line search."
  },
  {
   "property": "C91",
   "status": "proved",
   "theorems": [
    "Opk.Bobyqa.bobyqa_first",
    "Opk.Bobyqa.optimize_first",
    "Opk.Bobyqa.first_l20",
    "Opk.Powell.Axes.good"
   ],
   "note": "real numbers; any step of trsbox; the hypothesis npt <= maxfun is needed for an iteration to begin"
  },
  {
   "property": "C92",
   "status": "proved",
   "theorems": [
    "Opk.Bobyqa.bobyqa_interpolates",
    "Opk.Bobyqa.optimize_interpolates",
    "Opk.Bobyqa.bobyqa_denominator",
    "Opk.Bobyqa.optimize_clean",
    "Opk.Bobyqa.optimize_returns",
    "Opk.Bobyqa.bobyqa_quadratic",
    "Opk.Bobyqa.bobyqa_first_quadratic",
    "Opk.Bobyqa.Steady.single",
    "Opk.Bobyqa.keep_step"
   ],
   "note": "real numbers; any step of trsbox (optimize_clean and optimize_returns: the steps of the modelled trsbox); unconditional for npt = n + 2; for more points under the hypothesis Steady, stated in the property: update drops the elements of ZMAT which are at most 1e-20 times the largest one, after which the inverse is not exact"
  },
  {
   "property": "C93",
   "status": "proved",
   "theorems": [
    "Opk.Bobyqa.rescue_matches",
    "Opk.Bobyqa.rescue_restores",
    "Opk.Bobyqa.rescue_mends",
    "Opk.Bobyqa.rescue_first",
    "Opk.Bobyqa.hurt_r80",
    "Opk.Bobyqa.prov_r80",
    "Opk.Bobyqa.fill_take",
    "Opk.Bobyqa.back_l20"
   ],
   "note": "Real numbers (rescue_restores: any ordered field with square roots). The hypothesis Neat (about the rotations of update in rescue) is void for npt = n + 2. In exact arithmetic rescue is never called (C92), so the theorem begins at the call of rescue with arbitrary arrays BMAT, ZMAT and VLAG; the hypotheses which remain (Ok, Hurt) are those which hold at the iterations, and rescue_mends begins with the first iteration of bobyqb and any arrays."
  },
  {
   "property": "C94",
   "status": "proved",
   "theorems": [
    "Opk.Bobyqa.bobyqa_least_frobenius",
    "Opk.Bobyqa.optimize_least",
    "Opk.Bobyqa.bobyqa_first_least",
    "Opk.Bobyqa.absorb_least",
    "Opk.Bobyqa.combine_least",
    "Opk.Bobyqa.first_least",
    "Opk.Bobyqa.model_hess"
   ],
   "note": "Real numbers. The condition on the small elements of ZMAT is the hypothesis Steady, which is void for npt = n + 2. The example four_run meets all the hypotheses."
  },
  {
   "property": "C95",
   "status": "proved",
   "theorems": [
    "Opk.Variables.bobyqa_maximize",
    "Opk.Variables.bobyqa_scaled",
    "Opk.Variables.bobyqa_scaled_ones",
    "Opk.Variables.newuoa_maximize",
    "Opk.Variables.newuoa_scaled",
    "Opk.Variables.newuoa_scaled_ones",
    "Opk.Variables.cobyla_maximize",
    "Opk.Variables.cobyla_scaled",
    "Opk.Variables.cobyla_scaled_ones"
   ],
   "note": "Any arithmetic. For BOBYQA the sign is a factor, hence the hypothesis v*1 = v of bobyqa_maximize."
  },
  {
   "property": "C96",
   "status": "partial",
   "theorems": [
    "Opk.Variables.bobyqa_refused_partial",
    "Opk.Variables.bobyqa_refused_returns",
    "Opk.Variables.bobyqa_too_close_changes",
    "Opk.Variables.bobyqa_refused_false",
    "Opk.Variables.newuoa_refused",
    "Opk.Variables.newuoa_accepted",
    "Opk.Variables.cobyla_refused"
   ],
   "note": "The code violates the property: with the status BOBYQA_TOO_CLOSE the variables have been divided by the scaling factors, and those before the faulty one moved with respect to their bounds (bobyqa_too_close_changes, bobyqa_refused_false). All the rest is proved: the status, no call, the variables unchanged with the other statuses."
  },
  {
   "property": "C97",
   "status": "partial",
   "theorems": [
    "Opk.Cobyla.cobyla_constant_partial",
    "Opk.Cobyla.cobyla_iterate_constant_partial",
    "Opk.Cobyla.trstlp_const",
    "Opk.Cobyla.Demo.cobyla_constant",
    "Opk.Cobyla.Demo.cobyla_points_zero",
    "Opk.Cobyla.Demo.cobyla_points_ten"
   ],
   "note": "Proved with at most one constraint. False with two constraints: CON(M+1), minus the value of the objective function at the pole, is used by trstlp as the right hand side of a constraint when the objective function is no longer active in the second stage (cobyla_constant)."
  },
  {
   "property": "C98",
   "status": "partial",
   "theorems": [
    "Opk.Cobyla.cobyla_descends_partial",
    "Opk.Cobyla.trstlp_gain",
    "Opk.Cobyla.Demo.cobyla_uphill",
    "Opk.Cobyla.Demo.trstlp_uphill"
   ],
   "note": "Proved with at most one constraint. False with two constraints: an execution with affine functions where the trial point is worse than the feasible best vertex (cobyla_uphill)."
  },
  {
   "property": "C99",
   "status": "proved",
   "theorems": [
    "Opk.Newuoa.newuoa_constant",
    "Opk.Newuoa.newuoa_iterate_constant",
    "Opk.Newuoa.blind_code"
   ],
   "note": "Exact arithmetic (any ordered field). The subroutines trsapp, biglag, bigden and update do not use the function values: this is proved for trsapp, biglag and update of the model (blind_code) and is a hypothesis for bigden, whose arguments do not contain them."
  }
 ]
}
