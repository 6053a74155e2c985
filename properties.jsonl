{"id": "C01", "title": "String copy never overruns and reports the needed size", "statement": "opk_copy_string(dst,size,src) returns strlen(src)+1 (1 for a NULL or empty source), writes only inside dst[0..size-1], and whenever dst is non-NULL and size>0 leaves in dst a NUL-terminated prefix of src (the whole of src if and only if the returned value is <= size). Calling it again with a buffer of the returned size recovers src exactly.", "quantifier": "every source string, every buffer length and previous buffer contents, including NULL source/destination and size 0", "why_tests_cant": "off-by-one at an arbitrary length boundary; a test samples a few lengths", "anchors": ["src/utils.c: opk_copy_string", "src/driver.c: opk_get_name, opk_get_description"]}
{"id": "C02", "title": "Error handler register behaves as a single cell", "statement": "opk_set_error_handler returns the handler in force before the call; after any sequence of set calls the handler invoked by opk_error (and returned by opk_get_error_handler) is the last one set, where NULL stands for the default handler, which aborts.", "quantifier": "every finite history of set/get/error calls", "why_tests_cant": "history property over unbounded call sequences", "anchors": ["src/utils.c: opk_get_error_handler, opk_set_error_handler, opk_error"]}
{"id": "C03", "title": "Status and constant tables are total and consistent", "statement": "opk_get_reason gives a non-empty distinct text for each of the declared statuses and the empty string for every other integer; opk_get_integer_constant returns OPK_SUCCESS exactly for the declared names, storing that name's declared value, and otherwise returns OPK_INVALID_ARGUMENT and leaves the output untouched; opk_guess_status maps errno values as documented.", "quantifier": "every integer status code, every string", "why_tests_cant": "the domain (all strings, all integers) is infinite", "anchors": ["src/utils.c: opk_get_reason, opk_guess_status, opk_get_integer_constant", "src/optimpack.h: OPK_STATUS_LIST_"]}
{"id": "C04", "title": "Reference counting is safe and leak free", "statement": "For every history of object creations (objects may hold references on already existing objects), holds and drops in which a client only uses references it owns: the reference count reported equals the number of client references plus the number of references held by live objects, no object is released while a reference to it exists, no object is released twice, and when the clients have dropped all their references no object remains allocated.", "quantifier": "every history of create/hold/drop over any number of objects and any (acyclic) sharing pattern", "why_tests_cant": "depends on unbounded histories and sharing patterns", "anchors": ["src/algebra.c: opk_allocate_object, opk_hold_object, opk_drop_object, opk_get_object_references, finalize_vector", "src/vmlmb.c: finalize_vmlmb", "src/nlcg.c: finalize_nlcg", "src/driver.c: finalize_optimizer"]}
{"id": "C05", "title": "Component access obeys the array laws", "statement": "opk_vpoke followed by opk_vpeek at the same index returns the poked value and leaves all other components unchanged; an out of range index yields OPK_OUT_OF_BOUNDS_INDEX, a NULL argument OPK_ILLEGAL_ADDRESS, without any effect; opk_vimport followed by opk_vexport with matching sizes returns the imported array and mismatched sizes are rejected without any effect.", "quantifier": "every vector size, index (any sign), value and vector contents", "why_tests_cant": "quantifies over all sizes/indices", "anchors": ["src/algebra.c: opk_vpeek, opk_vpoke, opk_vimport, opk_vexport", "src/simple_vector.c: PEEK, POKE, IMPORT, EXPORT"]}
{"id": "C06", "title": "Linear combinations are exact for every coefficient and aliasing", "statement": "opk_vscale, opk_vaxpby and opk_vaxpbypcz store alpha*x, alpha*x+beta*y and alpha*x+beta*y+gamma*z in every component of dst whatever the coefficients (all the special cases for 0, 1, -1 give the general formula) and whichever of the arguments are the same vector; no other vector is modified; vectors of different spaces raise an error and leave dst unchanged.", "quantifier": "all coefficients, all vector contents and sizes, all aliasing patterns between destination and sources, all space assignments", "why_tests_cant": "27+ special-case code paths times aliasing patterns times contents", "anchors": ["src/algebra.c: opk_vscale, opk_vaxpby, opk_vaxpbypcz", "src/simple_vector.c: SCALE, AXPBY, AXPBYPCZ"]}
{"id": "C07", "title": "Inner products, norms and element-wise operations match their definition", "statement": "opk_vdot, opk_vdot3, opk_vnorm1, opk_vnorm2, opk_vnorminf return sum(x*y), sum(w*x*y), sum|x|, sqrt(sum x^2), max|x|; opk_vproduct, opk_vcopy, opk_vfill, opk_vzero and opk_vswap have exactly the documented effect, in place included.", "quantifier": "all sizes and contents, all aliasing patterns", "why_tests_cant": "infinite input domain", "anchors": ["src/algebra.c", "src/simple_vector.c: DOT, DOT3, NORM1, NORM2, NORMINF, PRODUCT, COPY, SWAP"]}
{"id": "C08", "title": "Client data of a wrapped vector is released exactly once", "statement": "Over any history of wrap / re-wrap / final drop of a wrapped vector, each (callback,data) pair handed to the library is called exactly once with its data when it is replaced by a different pair or when the vector is destroyed, and never otherwise.", "quantifier": "every sequence of re-wraps with arbitrary (possibly NULL, possibly equal) callbacks and data", "why_tests_cant": "history property", "anchors": ["src/simple_vector.c: WRAP, REWRAP, FINALIZE_VECTOR"]}
{"id": "C09", "title": "Projection of the variables onto a box", "statement": "For a box with lower<=upper, opk_project_variables yields a point of the box, leaves feasible points unchanged, is idempotent, is the closest point of the box component by component (hence in every separable norm), may be applied in place, for each of the nine combinations of absent/scalar/vector bounds.", "quantifier": "every vector size, contents and bounds, each of 9 bound kinds", "why_tests_cant": "all real vectors and bounds", "anchors": ["src/simple_vector.c: BOXPROJVAR", "src/algebra.c: opk_project_variables, boxset_projvar"]}
{"id": "C10", "title": "Projection of a search direction onto a box", "statement": "For feasible x, opk_project_direction keeps exactly the components of d along which a sufficiently small positive step x+orient*alpha*d stays feasible and zeroes the others; the result is a feasible direction; it is the directional derivative of the projection and makes a non-negative inner product with d.", "quantifier": "every size, x, d, bounds, orientation, 9 bound kinds", "why_tests_cant": "existential over alpha, universal over reals", "anchors": ["src/simple_vector.c: BOXPROJDIR", "src/algebra.c: opk_project_direction"]}
{"id": "C100", "title": "A constant added to the objective function does not change what BOBYQA does", "statement": "If a constant is added to all the values of the objective function, bobyqa_optimize calls it at the same points in the same order and returns the same status and variables; in case of success the returned value is increased by the constant, otherwise the first element of the workspace is the same (also for a maximization, with scaling factors, and when the interpolation points are rescued).", "quantifier": "every objective function, number of variables and of points, starting point, bounds, scaling factors, radii, limit and contents of the workspace; exact arithmetic", "why_tests_cant": "two whole executions are compared, for all the functions and all the constants", "anchors": ["src/bobyqa.c: bobyqa_optimize"]}
{"id": "C101", "title": "NEWUOA does not depend on the origin of the variables", "statement": "If the objective function f(x) is replaced by f(x - t) and the starting point by x0 + t, newuoa_optimize calls the objective function at the same points translated by t, in the same order, and returns the same status, the same value and the variables translated by t (also for a maximization and with non zero scaling factors).", "quantifier": "every translation, objective function, number of variables and of points, starting point, scaling factors, radii, limit and contents of the workspace; exact arithmetic", "why_tests_cant": "two whole executions are compared, for all the functions and all the translations", "anchors": ["src/newuoa.c: newuoa_optimize"]}
{"id": "C102", "title": "BOBYQA does not depend on the origin of the variables", "statement": "If the objective function f(x) is replaced by f(x - t) and the starting point and the bounds are translated by t, bobyqa_optimize calls the objective function at the same points translated by t, in the same order, and returns the same status, the variables translated by t and, in case of success, the same value (also for a maximization and with non zero scaling factors).  The variables returned with the status BOBYQA_TOO_CLOSE are the scaled ones when there are scaling factors, hence they are not compared in this case.", "quantifier": "every translation, objective function, number of variables and of points, starting point, bounds, scaling factors, radii, limit and contents of the workspace; exact arithmetic", "why_tests_cant": "two whole executions, with the calls of rescue, are compared for all the functions and all the translations; altmov reads the base point by an index out of XPT when it finds no line, and it must be shown that this value is multiplied by zero", "anchors": ["src/bobyqa.c: bobyqa_optimize", "src/bobyqa.c: bobyqb", "src/bobyqa.c: altmov", "src/bobyqa.c: rescue"]}
{"id": "C11", "title": "Free variables agree with the projected direction", "statement": "opk_get_free_variables sets a 0/1 mask; for each bounded kind of box, a component is free if and only if the projected direction is non-zero there, so mask*d equals the projected direction; with no bounds at all every variable is free.", "quantifier": "every size, x, d, bounds, orientation, 9 bound kinds", "why_tests_cant": "agreement of two independently written 9-way routines on all inputs", "anchors": ["src/simple_vector.c: BOXFREEVAR, BOXPROJDIR", "src/algebra.c: opk_get_free_variables"]}
{"id": "C12", "title": "Step limits have their documented meaning", "statement": "For feasible x, opk_get_step_limits returns 0<=smin1<=smin2, smin2>0, and smin1<=smax if d is not null: no bound is overstepped for any 0<=alpha<=smin1 (and smin1 is the largest such step); for a projected direction smin1=smin2; variables which can move at all do not overstep their bounds for 0<=alpha<=smin2; and for every alpha>=smax the projected point equals the one at smax, which is the smallest such step.", "quantifier": "every size, x, d, bounds, orientation, 9 bound kinds, every step alpha", "why_tests_cant": "universal over alpha and reals", "anchors": ["src/simple_vector.c: BOXSTEPLIM", "src/algebra.c: opk_get_step_limits"]}
{"id": "C13", "title": "Argument validation of convex set and operator calls", "statement": "Projection, free-variable, step-limit and operator calls return OPK_ILLEGAL_ADDRESS for a NULL argument, OPK_BAD_SPACE for vectors of the wrong space, OPK_NOT_IMPLEMENTED for a missing method, in this order of precedence, and call the implementation exactly when none applies; opk_new_boxset accepts exactly the consistent (type,address) pairs.", "quantifier": "every combination of NULL-ness, spaces, provided methods and bound types", "why_tests_cant": "combinatorial decision table", "anchors": ["src/algebra.c: opk_project_variables, opk_project_direction, opk_get_free_variables, opk_get_step_limits, opk_apply_direct, opk_apply_adjoint, opk_apply_inverse, opk_new_boxset, set_bound"]}
{"id": "C14", "title": "Line search start checks its arguments", "statement": "opk_lnsrch_start accepts exactly 0<=stpmin<=stp<=stpmax with a strictly negative directional derivative, otherwise the task is an error with the status naming the first violated condition; a NULL line search is reported as an error.", "quantifier": "all real arguments", "why_tests_cant": "infinite domain", "anchors": ["src/lnsrch.c: opk_lnsrch_start"]}
{"id": "C15", "title": "Line search steps stay within their bounds and the protocol is enforced", "statement": "Along any history of opk_lnsrch_iterate calls after a successful start, with arbitrary function values and derivatives, the current step stays in [stpmin,stpmax]; when the search stops the step is the one just evaluated; once stopped (or if the caller altered the step) every further iterate call is an error until the next start.", "quantifier": "every history of (f,g) values returned by the caller, for every line search method, in any arithmetic", "why_tests_cant": "adversarial unbounded histories", "anchors": ["src/lnsrch.c: opk_lnsrch_iterate, backtrack_iterate, nonmonotone_iterate, csrch_iterate, opk_cstep"]}
{"id": "C16", "title": "Converged backtracking search satisfies the sufficient decrease condition", "statement": "When the backtracking line search reports convergence, f(stp) <= f(0) + ftol*stp*f'(0); while it continues, the next step is strictly smaller and positive.", "quantifier": "every start and every sequence of function values", "why_tests_cant": "adversarial histories of real numbers", "anchors": ["src/lnsrch.c: backtrack_start, backtrack_iterate"]}
{"id": "C17", "title": "Backtracking search terminates", "statement": "With stpmin>0 and ftol<1/2 the backtracking search stops after a number of iterations bounded by the ratio stp/stpmin alone; with stpmin=0 and a function differentiable at 0 with negative derivative it stops with a step satisfying the sufficient decrease condition.", "quantifier": "every function, every start, every ftol in (0,1/2), amin in (0,1)", "why_tests_cant": "termination for all inputs", "anchors": ["src/lnsrch.c: backtrack_iterate"]}
{"id": "C18", "title": "Non-monotone search compares with the maximum of the last m values", "statement": "Across successive searches with the same non-monotone line search object, the value of reference at each start is the maximum of the function values of the last min(m, number of starts) starts; convergence implies f <= reference + ftol*stp*f'(0).", "quantifier": "every history of starts, every memory m>=1", "why_tests_cant": "ring buffer over unbounded histories", "anchors": ["src/lnsrch.c: nonmonotone_start, nonmonotone_iterate"]}
{"id": "C19", "title": "Converged cubic search satisfies the strong Wolfe conditions", "statement": "When the More-Thuente line search reports convergence, f(stp) <= f(0)+ftol*stp*f'(0) and |f'(stp)| <= gtol*|f'(0)|.", "quantifier": "every history of values and derivatives", "why_tests_cant": "adversarial histories", "anchors": ["src/lnsrch.c: csrch_start, csrch_iterate"]}
{"id": "C20", "title": "The cubic step keeps a valid interval of uncertainty", "statement": "opk_cstep keeps the best end point (least function value) with a derivative pointing into the interval, the new interval is bounded by the current step and an old end point, once a minimiser is bracketed the new step lies inside the bracketing interval, otherwise in [stpmin,stpmax]; inconsistent arguments are rejected without modification.", "quantifier": "all real end points, values and derivatives satisfying the documented preconditions", "why_tests_cant": "four-way case analysis with real arithmetic and square roots", "anchors": ["src/lnsrch.c: opk_cstep"]}
{"id": "C21", "title": "A line search that has converged is reported as converged", "statement": "If the method's convergence test is satisfied at the current step then opk_lnsrch_iterate returns OPK_LNSRCH_CONVERGENCE.", "quantifier": "every start, step (bounds included) and function value", "why_tests_cant": "boundary case stp==stpmin or stp==stpmax", "anchors": ["src/lnsrch.c: opk_lnsrch_iterate", "src/vmlmb.c: opk_iterate_vmlmb"]}
{"id": "C22", "title": "Bound constrained optimization only evaluates feasible points", "statement": "Every time opk_start/opk_iterate (VMLMB with bounds) requests OPK_TASK_COMPUTE_FG, the variables lie within the bounds.", "quantifier": "every objective function (arbitrary values and gradients returned by the caller), every feasible box, every start, every memory size, every number of iterations", "why_tests_cant": "unbounded histories against an adversarial objective", "anchors": ["src/vmlmb.c: opk_start_vmlmb, opk_iterate_vmlmb, apply, update"]}
{"id": "C23", "title": "Variable metric memory holds the latest steps", "statement": "At any time 0<=mp<=m and for each 1<=j<=mp the saved pair j is the difference of variables and (projected) gradients over the j-th most recent iteration since the last reset; memory slots in use are never overwritten by the current iterate, with or without the memory saving option.", "quantifier": "every history, memory size m>=1, both values of save_memory", "why_tests_cant": "circular buffer aliasing over unbounded histories", "anchors": ["src/vmlmb.c: slot, update, opk_iterate_vmlmb, opk_get_vmlmb_s, opk_get_vmlmb_y, opk_get_vmlmb_mp"]}
{"id": "C24", "title": "The variable metric direction is the BFGS direction and is an ascent direction", "statement": "The two-loop recursion returns H*g where H is obtained from gamma*I by the BFGS updates with the saved pairs of positive curvature; H is symmetric positive definite, so the direction has a strictly positive inner product with any non-zero gradient.", "quantifier": "every number of saved pairs and dimension, every vectors", "why_tests_cant": "algebraic identity over all recursion depths and dimensions", "anchors": ["src/vmlmb.c: apply, update"]}
{"id": "C25", "title": "The line search is only started along a descent direction", "statement": "Whenever the VMLMB or NLCG optimizer starts a line search, the directional derivative it announces is the inner product of the search direction with the gradient (exactly) and is strictly negative unless the (projected) gradient is zero.", "quantifier": "every history, every update rule", "why_tests_cant": "adversarial histories", "anchors": ["src/vmlmb.c: opk_iterate_vmlmb", "src/nlcg.c: opk_iterate_nlcg"]}
{"id": "C26", "title": "Convergence is announced exactly on the gradient test", "statement": "OPK_TASK_FINAL_X is returned after an accepted evaluation if and only if ||g|| <= max(0,gatol,grtol*||ginit||), with the projected gradient for bound constrained problems and ginit the gradient at the first evaluation; otherwise OPK_TASK_NEW_X.", "quantifier": "every history, all tolerances", "why_tests_cant": "adversarial histories", "anchors": ["src/vmlmb.c: opk_iterate_vmlmb", "src/nlcg.c: opk_iterate_nlcg"]}
{"id": "C27", "title": "Successive iterates do not increase the objective", "statement": "With a monotone line search, between successive OPK_TASK_NEW_X/FINAL_X the objective strictly decreases, by at least the Armijo amount: with backtracking for any arithmetic; with the line search of Moré and Thuente, in exact arithmetic and for 4 ftol <= gtol (as by default), without exception, and for any arithmetic and parameters unless the search warns of rounding errors.", "quantifier": "every history and objective, unbounded number of iterations", "why_tests_cant": "global property of an unbounded run", "anchors": ["src/vmlmb.c: opk_iterate_vmlmb", "src/nlcg.c: opk_iterate_nlcg", "src/lnsrch.c"]}
{"id": "C28", "title": "Optimizer task protocol and counters", "statement": "From opk_start, the pending task follows COMPUTE_FG -> {COMPUTE_FG, NEW_X, FINAL_X, ERROR}, NEW_X/FINAL_X -> {COMPUTE_FG, ERROR}; ERROR is absorbing until the next start; evaluations counts the COMPUTE_FG tasks answered, iterations counts the accepted line searches, iterations < evaluations, restarts <= iterations.", "quantifier": "every history of calls", "why_tests_cant": "state machine over unbounded histories", "anchors": ["src/vmlmb.c: opk_start_vmlmb, opk_iterate_vmlmb", "src/nlcg.c: opk_start_nlcg, opk_iterate_nlcg", "src/driver.c: opk_start, opk_iterate"]}
{"id": "C29", "title": "Memory saving does not change the iterates", "statement": "Two VMLMB optimizers created with the same arguments except the option save_memory (with the same mem) go through the same tasks, statuses, steps and counters and store the same variables for any history of calls: storing the current point in the slot of the oldest pair loses nothing.", "quantifier": "every objective, every history", "why_tests_cant": "relational property over unbounded runs", "anchors": ["src/vmlmb.c: opk_iterate_vmlmb"]}
{"id": "C30", "title": "Conjugate gradient update formulas", "statement": "For each rule (Fletcher-Reeves, Hestenes-Stiefel, Polak-Ribiere-Polyak, Fletcher, Liu-Storey, Dai-Yuan, Perry-Shanno, Hager-Zhang) the new direction computed is the published formula in terms of gradients and previous direction; with the Powell option beta>=0; a zero denominator leads to a restart along the gradient.", "quantifier": "all gradients, directions and steps in any dimension", "why_tests_cant": "algebraic identities over all vectors", "anchors": ["src/nlcg.c: update_* functions"]}
{"id": "C31", "title": "The minimal function value option of NLCG is honoured", "statement": "When fmin is given in the options of opk_new_nlcg_optimizer, the first step is based on f-fmin.", "quantifier": "all options", "why_tests_cant": "an ignored option is not visible from a converged run", "anchors": ["src/nlcg.c: opk_new_nlcg_optimizer, opk_iterate_nlcg"]}
{"id": "C32", "title": "The simple driver is transparent and leak free", "statement": "opk_new_optimizer validates its arguments as documented; opk_start/opk_iterate return what the underlying optimizer returns on the wrapped arrays; NULL arguments give a documented result; after opk_destroy_optimizer every object created by the library on behalf of this optimizer is released.", "quantifier": "all argument combinations and histories", "why_tests_cant": "resource property over all failure points", "anchors": ["src/driver.c"]}
{"id": "C33", "title": "Univariate minimization respects exclusive bounds", "statement": "opk_fmin and the reverse communication version never evaluate the function at or beyond an exclusive bound; when both ends are exclusive all evaluation points are strictly inside the interval.", "quantifier": "every function (arbitrary, even non-deterministic or infinite values), every interval, flags, precision and budget", "why_tests_cant": "adversarial function values over unbounded runs", "anchors": ["src/fmin.c: opk_fmin_next, opk_fmin, opk_fmin_with_context"]}
{"id": "C34", "title": "Univariate minimization maintains a bracket and returns the best point", "statement": "When opk_fmin returns 0 or 1, xlo < xmin < xhi (or reversed interval), f(xmin) is the smallest of all the values of the function at all evaluated points and f(xlo), f(xhi) are the values at these points (or the bound).", "quantifier": "every function, interval, flags, budget", "why_tests_cant": "adversarial function values", "anchors": ["src/fmin.c: opk_fmin"]}
{"id": "C35", "title": "Univariate minimization respects its evaluation budget", "statement": "The number of evaluations never exceeds max(maxeval, number of initial evaluations (1 to 3)) and the reported count is exact; with a positive budget the routine terminates.", "quantifier": "every function and budget", "why_tests_cant": "termination for every function", "anchors": ["src/fmin.c: opk_fmin, opk_fmin_next"]}
{"id": "C36", "title": "Reverse communication and direct univariate minimizers coincide", "statement": "Driving opk_fmin_next with a function evaluates the same points in the same order as opk_fmin called with this function and converges on the same result.", "quantifier": "every function, interval, flags, precision", "why_tests_cant": "relational property over unbounded runs", "anchors": ["src/fmin.c: opk_fmin_next, opk_fmin"]}
{"id": "C37", "title": "The final interval reported by the reverse communication minimizer contains the minimizer", "statement": "opk_fmin_get_final returns the same interval end points and values as opk_fmin: xlo and xup are the two ends of the bracket around xmin.", "quantifier": "every state reached after convergence", "why_tests_cant": "a converged interval is so small that a wrong end is not noticed", "anchors": ["src/fmin.c: opk_fmin_get_final"]}
{"id": "C38", "title": "Linear conjugate gradients maintain the true residual", "statement": "At each OPK_CG_NEWX the residual vector equals b-A.x and rho holds its (preconditioned) squared norm, provided the caller computes q=A.p and z=Q.r as requested, with or without an initial x.", "quantifier": "every dimension, operator, preconditioner, number of iterations", "why_tests_cant": "invariant over unbounded runs", "anchors": ["src/lcg.c: opk_dplcg, opk_dlcg"]}
{"id": "C39", "title": "Linear conjugate gradients reach the solution in at most n steps", "statement": "In exact arithmetic with A symmetric positive definite, residuals are mutually orthogonal, directions are A-conjugate, each step minimizes the quadratic along the direction, and the exact solution is reached after at most n iterations.", "quantifier": "every dimension n, every SPD operator, every right hand side and start", "why_tests_cant": "classical finite termination theorem for all n", "anchors": ["src/lcg.c: opk_dplcg, opk_dlcg"]}
{"id": "C40", "title": "Truncated conjugate gradients stay in the trust region", "statement": "During opk_dtrcg every iterate satisfies ||x||<=delta, with equality when the state is OPK_CG_TRUNCATED (or non-convex), rho[4] holds ||x||, and the quadratic decreases at each step.", "quantifier": "every dimension, operator (even indefinite), radius", "why_tests_cant": "invariant over unbounded runs", "anchors": ["src/lcg.c: opk_dtrcg"]}
{"id": "C41", "title": "Conjugate gradients protocol", "statement": "The state machine only moves as documented; terminal states (FINISH, NON_CONVEX, TRUNCATED, ERROR) never modify the vectors; an indefinite operator or preconditioner is detected exactly when p'.A.p<=0 or r'.z<0.", "quantifier": "every call in every state", "why_tests_cant": "exhaustive state/inputs", "anchors": ["src/lcg.c"]}
{"id": "C42", "title": "Basic linear algebra on strided vectors", "statement": "copy, swap, scal, axpy, dot, asum, sum, nrm2, amax, iamax, zero act as their mathematical definition on the n elements selected by the increment (including negative increments) and touch no other memory element.", "quantifier": "every n, increments of any sign, memory contents", "why_tests_cant": "unrolled loops with all remainders and strides", "anchors": ["src/linalg.c: AMAX, SWAP, SCAL, COPY, AXPY, DOT, ASUM, SUM, NRM2, IAMAX, ZERO"]}
{"id": "C43", "title": "Matrix-vector product", "statement": "gemv computes y = alpha*op(A)*x + beta*y for every transposition, increments, coefficients and positive sizes, touching only y (when m = 0 or n = 0 nothing is modified, even if beta is not 1); illegal arguments return the documented code with no effect; x and A are not read when alpha is zero, nor y when beta is zero.", "quantifier": "every m, n, lda, increments, contents", "why_tests_cant": "infinite domain, special cases for 0 and 1", "anchors": ["src/linalg.c: GEMV"]}
{"id": "C44", "title": "Triangular solve inverts triangular product", "statement": "trmv computes x := op(A)*x with A triangular (unit or not) and trsv computes the solution of op(A)*x = b when the diagonal is non-zero; they are mutual inverses; only the specified triangle is read.", "quantifier": "every n, lda, increment, uplo, trans, diag, contents", "why_tests_cant": "induction over n", "anchors": ["src/linalg.c: TRMV, TRSV"]}
{"id": "C45", "title": "Matrix-matrix product and symmetric rank-k update", "statement": "gemm computes C = alpha*op(A)*op(B)+beta*C; syrk computes the triangle of C = alpha*A*A'+beta*C (or A'*A) for every leading dimensions lda>=rows of A and ldc>=n.", "quantifier": "every sizes, leading dimensions, coefficients and contents", "why_tests_cant": "leading dimensions that differ are rarely tested", "anchors": ["src/linalg.c: GEMM, SYRK"]}
{"id": "C46", "title": "Cholesky factorization", "statement": "potf2 returns 0 if and only if the symmetric matrix is positive definite, and then the triangle holds the factor U with U'.U=A (or L.L'=A) with positive diagonal; otherwise it returns the order of the first non positive leading minor; the opposite triangle is not modified.", "quantifier": "every n, lda, contents", "why_tests_cant": "induction over n", "anchors": ["src/linalg.c: POTF2"]}
{"id": "C47", "title": "Trust region subproblem solver", "statement": "opk_dgqt returns after at most max(1, itmax) iterations with one of the documented codes 1 to 4; on exit A is the full symmetric matrix given by its upper triangle, b is unchanged, and nothing else than a, x, z, wa1 and wa2 has been written; with the code 1, norm(x) <= (1 + rtol)*delta and, if the returned parameter is positive, abs(norm(x) - delta) <= rtol*delta.", "quantifier": "every size n >= 1, symmetric matrix, vector b, delta, tolerances, initial parameter and non overlapping arrays; any arithmetic for the termination and the restoration", "why_tests_cant": "the domain is infinite, the loop has several early exits and two kinds of iterations, the restoration must hold on all of them", "anchors": ["src/gqtpar.c:72-357 OPK_GQT", "src/optimpack.h:2285-2414 opk_dgqt"]}
{"id": "C48", "title": "Workspaces of the Powell optimizers are large enough and non overlapping", "statement": "The documented workspace sizes of cobyla, newuoa and bobyqa contain all the arrays into which the workspace is partitioned, and these arrays are pairwise disjoint.", "quantifier": "every n, m, npt accepted by the argument checks", "why_tests_cant": "polynomial inequality over all sizes", "anchors": ["src/cobyla.c: cobyla_create, cobyla_optimize", "src/newuoa.c: newuoa_create, newuoa_optimize", "src/bobyqa.c: bobyqa_optimize"]}
{"id": "C49", "title": "BOBYQA only evaluates feasible points", "statement": "With xl<=xu, all points at which bobyqa calls the objective function satisfy xl<=x<=xu exactly.", "quantifier": "every objective function, every bounds, in any arithmetic", "why_tests_cant": "adversarial objective, unbounded runs", "anchors": ["src/bobyqa.c: bobyqb, prelim, rescue"]}
{"id": "C50", "title": "COBYLA keeps the inverse of the simplex matrix", "statement": "Throughout the iterations, in exact arithmetic, the matrix SIMI is the inverse of the matrix SIM of simplex displacements, vertices exchanges and replacements included.", "quantifier": "every dimension, every sequence of updates", "why_tests_cant": "invariant over unbounded runs", "anchors": ["src/cobyla.c: cobyla_optimize, cobyla_iterate"]}
{"id": "C51", "title": "COBYLA evaluation budget and trust region schedule", "statement": "COBYLA never asks for more than maxfun evaluations, rho is non-increasing, stays in [rhoend,rhobeg], and is reduced a number of times bounded by the ratio rhobeg/rhoend; COBYLA_SUCCESS implies rho=rhoend; calling cobyla_iterate when the status is not COBYLA_ITERATE is an error.", "quantifier": "every objective/constraints, every history of calls", "why_tests_cant": "unbounded histories", "anchors": ["src/cobyla.c: cobyla_create, cobyla_iterate, cobyla_restart"]}
{"id": "C52", "title": "NULL is accepted by the reference counting functions", "statement": "Holding, dropping or querying the reference count of a NULL object does nothing (hold returns NULL, the count is 0), as documented.", "quantifier": "every heap state", "why_tests_cant": "The behaviour must hold in every state of the object graph; a test with one NULL pointer only shows a crash on one platform.", "anchors": ["src/algebra.c:opk_hold_object", "src/algebra.c:opk_drop_object", "src/optimpack.h:435-477"]}
{"id": "C53", "title": "Undefined function values in a line search", "statement": "If the objective function returns an undefined value (NaN) at the trial step, the line search with backtracking shrinks the step by bisection and goes on with a defined step.", "quantifier": "every step, every bounds, every parameters accepted by the constructors", "why_tests_cant": "NaN answers can occur at any point of any history", "anchors": ["src/lnsrch.c: backtrack_iterate", "src/lnsrch.c: nonmonotone_iterate"]}
{"id": "C54", "title": "The cubic line search never fails after a valid start", "statement": "After a valid start with 0<=ftol<1 and ftol<=gtol, when the caller evaluates at the requested steps, the Moré-Thuente line search never reports an error (inconsistent interval, not a descent direction): it converges, warns or goes on; in exact arithmetic.", "quantifier": "every function values and derivatives, every number of iterations, all bounds", "why_tests_cant": "unbounded number of iterations over all reals", "anchors": ["src/lnsrch.c: csrch_iterate", "src/lnsrch.c: opk_cstep"]}
{"id": "C55", "title": "Line search constructors validate their parameters", "statement": "Constructors of line searches return an object if and only if the parameters have the documented ranges; the object is initially not started.", "quantifier": "every parameters, undefined values (NaN) included", "why_tests_cant": "all doubles", "anchors": ["src/lnsrch.c: opk_lnsrch_new_backtrack", "src/lnsrch.c: opk_lnsrch_new_nonmonotone", "src/lnsrch.c: opk_lnsrch_new_csrch"]}
{"id": "C56", "title": "The description of an optimizer fits in the buffer used to build it", "statement": "For every valid combination of method flags, opk_get_nlcg_description does not write outside its local buffer and copies at most size bytes to the caller.", "quantifier": "all 8 methods, both options, all sizes of the destination", "why_tests_cant": "a stack overflow by a few bytes is silent; all the combinations and sizes must be covered", "anchors": ["src/nlcg.c: opk_get_nlcg_description"]}
{"id": "C57", "title": "An acceptable trial point becomes the new iterate", "statement": "When the function value (and derivative) at the trial point satisfies the conditions of the line search, opk_iterate_vmlmb accepts this point and returns OPK_TASK_NEW_X or OPK_TASK_FINAL_X, including when the step reaches the last bound.", "quantifier": "every line search, every state of the optimizer, all bounds", "why_tests_cant": "depends on the exact equality of the step with the limit computed from the bounds; all configurations of bounds", "anchors": ["src/vmlmb.c: opk_iterate_vmlmb", "src/lnsrch.c: opk_lnsrch_iterate"]}
{"id": "C58", "title": "Conjugate gradient directions are descent directions without restart", "statement": "With the line search of More and Thuente with gtol < 1 and epsilon = 0, the methods of Dai-Yuan, Perry-Shanno and Fletcher (and Hager-Zhang when its beta is not zero) never restart the recurrence at a new iterate accepted without warning where the gradient is not zero: the direction of the published formula is a descent direction. The direction of Hager and Zhang always satisfies d.g <= -7/8 |g|^2.", "quantifier": "every objective, every sequence of actions of the caller, any dimension", "why_tests_cant": "property of an unbounded run for any objective, relating the line search and the update formula", "anchors": ["src/nlcg.c: update_* functions, opk_iterate_nlcg", "src/lnsrch.c: opk_csrch"]}
{"id": "C59", "title": "Initial steps of the conjugate gradient line searches", "statement": "Along the steepest descent direction the initial step alpha is such that alpha*|g|^2 = 2|f| if f is not zero, and otherwise alpha*|g| = delta*|x| (or delta if x = 0); along a conjugate direction the initial step is the last one or, with OPK_NLCG_SHANNO_PHUA, such that the change predicted at first order is that of the previous search.", "quantifier": "every sequence of actions of the caller", "why_tests_cant": "formulas which only influence the efficiency are not checked by a converged run", "anchors": ["src/nlcg.c: opk_iterate_nlcg"]}
{"id": "C60", "title": "The smooth flag selects Brent's algorithm", "statement": "With OPK_FMIN_SMOOTH set in flags, opk_fmin uses Brent's algorithm instead of the golden section (documentation in optimpack.h).", "quantifier": "every function, interval, flags, precision and budget", "why_tests_cant": "the result is correct anyway: only the sequence of evaluations tells, for all functions", "anchors": ["src/optimpack.h:2166-2205", "src/fmin.c: opk_fmin"]}
{"id": "C61", "title": "A converged univariate search can be continued", "statement": "After OPK_FMIN_CONVERGENCE, opk_fmin_next can be called again (possibly after a change of the precision) to continue the search: the three points still bracket the minimum and the count of evaluations remains exact.", "quantifier": "every function and every state reached by convergence", "why_tests_cant": "depends on the stage where convergence occurred, and on function values", "anchors": ["src/fmin.c:233-390", "src/fmin.c:419-421"]}
{"id": "C62", "title": "Univariate minimization is accurate and terminates for unimodal functions", "statement": "For a strictly unimodal function (on the open side of the exclusive bounds), the final interval contains the minimizer; when opk_fmin returns 0 the error on the minimizer is less than prec times the largest magnitude of the points of the interval; without budget it returns 0 if the minimizer is not zero, each evaluation after the bracketing dividing the width by the golden ratio.", "quantifier": "every strictly unimodal function, interval, flags, positive precision", "why_tests_cant": "quantifies over all unimodal functions and unbounded runs", "anchors": ["src/fmin.c: opk_fmin"]}
{"id": "C63", "title": "The value of a trust region step has the announced accuracy", "statement": "In exact arithmetic, the value returned by opk_dgqt is f(x) = (1/2)*x'*A*x + b'*x at the returned x. With the code 1 (and b not zero), f(x) <= (1 - rtol)^2*f(v) for every v in the ball of radius delta and A + par*I is positive definite; with the code 2, norm(x) <= delta, and f(v) >= -atol for every v of the ball.", "quantifier": "every size n >= 1, symmetric matrix (definite or not), b, delta > 0, 0 <= rtol <= 1, atol >= 0, initial parameter, number of iterations", "why_tests_cant": "a comparison with all the points of the ball, the convergence may come from four different tests and from previous iterations", "anchors": ["src/gqtpar.c:72-357 OPK_GQT", "src/optimpack.h:2300-2340"]}
{"id": "C64", "title": "Estimate of the smallest singular value", "statement": "opk_destsv leaves the triangular matrix R unchanged, only writes z, and returns svmin >= 0 and z with norm(z) = 1 and norm(R*z) = svmin.", "quantifier": "every upper triangular matrix (singular or not) of size n >= 1, every leading dimension, exact arithmetic (the frame: any arithmetic)", "why_tests_cant": "scalings depend on the data, infinitely many matrices", "anchors": ["src/gqtpar.c:361-458 OPK_ESTSV", "src/optimpack.h:2448-2490 opk_destsv"]}
{"id": "C65", "title": "A Newton step inside the trust region is returned at once", "statement": "If A is positive definite, if the minimizer of the quadratic function is in the ball and no positive initial parameter is given, opk_dgqt returns 1 after one iteration with par = 0 and x the exact minimizer.", "quantifier": "every size, positive definite matrix, b, delta > 0, rtol >= 0, exact arithmetic", "why_tests_cant": "relies on bounds of the eigenvalues of any matrix", "anchors": ["src/gqtpar.c:105-215 OPK_GQT"]}
{"id": "C66", "title": "COBYLA returns a point it has evaluated", "statement": "When COBYLA stops, the variables, the objective function value and the greatest constraint violation which are reported are those of one of the evaluations made by the caller; between two calls the vertices of the simplex are evaluated points with their own values. COBYLA_ROUNDING_ERRORS is not reported in exact arithmetic and no array is accessed with a null vertex index. In the direct routine the objective function at the returned variables is the returned value, with or without scaling and maximization.", "quantifier": "every objective and constraints, every dimension, every history of calls, restarts included, any step of the linear programming subproblem", "why_tests_cant": "invariant over unbounded runs with vertex exchanges and replacements", "anchors": ["src/cobyla.c: cobyla_iterate, cobyla_optimize, L_140, L_440, L_600, L_620"]}
{"id": "C67", "title": "COBYLA returns the best evaluated point of an unconstrained problem", "statement": "Without constraints, the point returned by COBYLA has the least objective value among all the evaluations.", "quantifier": "every objective function, every dimension, radii and budget", "why_tests_cant": "the returned point depends on the last branch of the algorithm; a converged run is close to the minimum anyway", "anchors": ["src/cobyla.c: L_600, L_620, end of the iterations with COBYLA_SUCCESS"]}
{"id": "C68", "title": "COBYLA computes for a finite time between two evaluations", "statement": "Given the answer of the caller, cobyla_iterate returns: the internal loop on label L_140 (new optimal vertex, new penalty parameter, new trust region radius) is executed finitely many times before the next evaluation or the end. cobyla_optimize returns as well.", "quantifier": "every objective and constraints, every history, any step of the linear programming subproblem", "why_tests_cant": "absence of an infinite loop for all real inputs", "anchors": ["src/cobyla.c: L_140, L_370, L_550"]}
{"id": "C69", "title": "COBYLA evaluates within its trust region", "statement": "Each point requested after the first one is, up to a relative error n*1E-12 due to the tolerance of the step, within a distance rho of a point already evaluated, rho being the current radius, and not closer than rho/2 to this point.", "quantifier": "every objective and constraints, every dimension, every history", "why_tests_cant": "metric property of all the points of unbounded runs", "anchors": ["src/cobyla.c: L_140 to L_440, trstlp"]}
{"id": "C70", "title": "COBYLA steps do not increase the predicted constraint violation", "statement": "When the requested point comes from the linear programming subproblem, there are n+1 affinely independent evaluated points such that the affine interpolants of the constraints predict, at the requested point, a violation which is not greater than that of one of these evaluated points.", "quantifier": "every objective and constraints, every dimension, every history", "why_tests_cant": "depends on the numerical solution of a linear program in every iteration", "anchors": ["src/cobyla.c: trstlp, L_370"]}
{"id": "C71", "title": "BOBYQA respects the budget of evaluations", "statement": "bobyqa_optimize calls the objective function at most max(1, maxfun) times.", "quantifier": "every objective function, every value of maxfun (negative included), in any arithmetic", "why_tests_cant": "the calls are at three places (initialization, rescue, iterations); rescue is rare", "anchors": ["src/bobyqa.c: bobyqb, prelim, rescue"]}
{"id": "C72", "title": "BOBYQA returns the best evaluated point", "statement": "If the arguments are accepted, the variables at the end of bobyqa_optimize are those of the call of the objective function which gave the best value (least, or greatest for a maximization), and w[0] is this value on success; with the status STEP_FAILED, this holds for all the calls but the last one.", "quantifier": "every objective function, every bounds, radii, number of interpolation points, budget, with or without scaling, exact arithmetic", "why_tests_cant": "the best point is tracked through exchanges of points, shifts of the origin and rescue", "anchors": ["src/bobyqa.c: bobyqb (done), prelim, rescue, bobyqa_optimize"]}
{"id": "C73", "title": "BOBYQA keeps evaluated feasible interpolation points and valid indices", "statement": "After the initialization, at any time the npt interpolation points are within the bounds and are points where the objective function has been called, with the recorded values; the index of the best one is that of the least value among all the calls; when a point is replaced, its index is between 1 and npt.", "quantifier": "every objective function, every step of the trust region subproblem, exact arithmetic", "why_tests_cant": "internal state after arbitrary histories, including rescue", "anchors": ["src/bobyqa.c: bobyqb, prelim, rescue, update"]}
{"id": "C74", "title": "NEWUOA respects the budget of evaluations and reports why it stops", "statement": "newuoa_optimize calls the objective function at most max(1, maxfun) times; if the arguments are refused the function is not called, the variables are unchanged and the status tells why; otherwise the status is SUCCESS, TOO_MANY_EVALUATIONS (and then the budget is spent) or STEP_FAILED.", "quantifier": "every objective function, every arguments, every step of the subproblems, any arithmetic without NaN", "why_tests_cant": "the loop is a state machine with about ten labels and the counter is tested at one of them only", "anchors": ["src/newuoa.c: newuoa_optimize, newuob, newuoa_iterate"]}
{"id": "C75", "title": "NEWUOA returns the best evaluated point", "statement": "If the arguments are accepted, the variables at the end of newuoa_optimize are those of the call of the objective function which gave the best value (least, or greatest for a maximization), and work[0] is this value; the same for the variables at the end of a conversation with newuoa_iterate.", "quantifier": "every objective function, every radii, number of interpolation points, budget, with or without scaling, every step of the subproblems, any arithmetic without NaN", "why_tests_cant": "the best point is tracked through exchanges of points and shifts of the origin, for any history of values", "anchors": ["src/newuoa.c: newuob, newuoa_iterate, newuoa_optimize"]}
{"id": "C76", "title": "NEWUOA by reverse communication is the same algorithm as newuoa_optimize", "statement": "A caller which evaluates the function at each point requested by newuoa_iterate, from a new context, makes the same calls as newuoa_optimize on a workspace filled with zeros, and gets the same status and variables at the end; get_status and get_nevals tell the status and the number of calls. Calling newuoa_iterate after the end is an error which leaves the variables unchanged.", "quantifier": "every objective function, every accepted arguments, any arithmetic without NaN", "why_tests_cant": "equality of two programs for all the histories", "anchors": ["src/newuoa.c: newuoa_create, newuoa_iterate, newuoa_restart, newuoa_get_status, newuoa_get_nevals"]}
{"id": "C77", "title": "NEWUOA ends and asks for points in a finite number of operations", "statement": "newuoa_optimize ends, and each call of newuoa_iterate returns: there is no infinite loop between two evaluations of the function.", "quantifier": "every objective function (even one which gives different values at the same point), every step of the subproblems (even not reducing the model), exact arithmetic", "why_tests_cant": "termination", "anchors": ["src/newuoa.c: newuob, labels L90, L100, L290, L410, L460, L490"]}
{"id": "C78", "title": "NEWUOA: counter, budget and radius seen by the caller", "statement": "At any time of a conversation with newuoa_iterate, get_nevals is the number of values which have been given since the last restart; it is not greater than maxfun, less if a new value is requested, equal if the status is TOO_MANY_EVALUATIONS; once the interpolation points are evaluated, get_rho is between rhoend and rhobeg; it is rhoend in case of success.", "quantifier": "every history of calls, including restarts, values in any order, exact arithmetic", "why_tests_cant": "invariant over all the histories", "anchors": ["src/newuoa.c: newuoa_get_rho, newuoa_get_nevals, label L490"]}
{"id": "C79", "title": "The trust region step of BOBYQA is feasible and reduces the model", "statement": "When trsbox ends, the step is in the trust region, the point is within the bounds, the variables declared fixed are exactly at their bounds, the gradient returned is the one of the model at the new point, and the model is strictly reduced unless the step is null.", "quantifier": "every quadratic model (any Hessian, explicit and implicit parts), bounds, trust region radius, number of variables, exact arithmetic", "why_tests_cant": "the step is the result of conjugate gradient iterations, variables fixed one by one and rotations on the boundary of the trust region; the updates of the gradient and of the predicted reduction are incremental", "anchors": ["src/bobyqa.c: trsbox"]}
{"id": "C80", "title": "The trust region step of BOBYQA ends and is null only at a stationary point", "statement": "trsbox always ends; if the bounds are not degenerate and the radius is not zero, the step is null if and only if the first order conditions are met at the current point (a variable with a positive derivative is at its lower bound, with a negative derivative at its upper bound).", "quantifier": "every quadratic model, bounds, trust region radius, number of variables, exact arithmetic", "why_tests_cant": "the loops have no counter: termination depends on the growth of the predicted reduction and on the number of fixed variables", "anchors": ["src/bobyqa.c: trsbox"]}
{"id": "C81", "title": "BOBYQA never fails to reduce its model in exact arithmetic", "statement": "With the step computed by trsbox, bobyqa_optimize never returns the status STEP_FAILED, and the variables at the end are always those of the call of the objective function which gave the best value.", "quantifier": "every objective function, every bounds, radii, number of interpolation points, budget, with or without scaling, exact arithmetic", "why_tests_cant": "the predicted change is recomputed by bobyqb from the explicit and implicit second derivatives after possible shifts of the origin; the equality with the reduction obtained by trsbox is an invariant of all the updates", "anchors": ["src/bobyqa.c: bobyqb, trsbox"]}
{"id": "C82", "title": "BOBYQA ends", "statement": "bobyqa_optimize always ends: it cannot loop without calling the objective function. With the step computed by trsbox, it ends with a status other than STEP_FAILED and the variables are those of the call which gave the best value.", "quantifier": "every objective function, every step of trsbox (the last sentence: the step computed by trsbox), every bounds, radii, number of interpolation points, budget, with or without scaling, exact arithmetic", "why_tests_cant": "the control flow is a graph of labels with cycles (rescue, alternative steps, reductions of the radius) which do not all evaluate the objective function", "anchors": ["src/bobyqa.c: bobyqa_optimize, bobyqb, rescue"]}
{"id": "C83", "title": "The quadratic model of NEWUOA interpolates the objective function", "statement": "Each time that NEWUOA computes a step (in the trust region, or to improve the positions of the points) and each time that it asks for a value after the NPT first ones, its quadratic model takes the values of the objective function at NPT points which have been evaluated and differ from each other, one of which is the best point found so far. The updates of the inverse matrix never divide by zero.", "quantifier": "every objective function, every starting point, scaling, radii, number of variables, number of interpolation points accepted by newuoa_optimize, at every iteration; every step of trsapp; real numbers", "why_tests_cant": "the model is never checked against the points by the code: the conditions hold because of an invariant of four arrays (the factored inverse of the interpolation matrix, the points, the implicit second derivatives, the values) through rotations, rank two updates and shifts of the origin, which tests sample on a few runs where rounding errors hide small mistakes", "anchors": ["src/newuoa.c: newuob, update, biglag"]}
{"id": "C84", "title": "NEWUOA knows a quadratic objective function exactly", "statement": "If the objective function is quadratic and the number of interpolation points is (n+1)(n+2)/2, then from the first iteration to the last one the quadratic model of NEWUOA is the objective function. Hence each value asked for at a trust region step is less than all the values before, or NEWUOA stops with the status STEP_FAILED.", "quantifier": "every quadratic function (convex or not) of any number of variables, every starting point and radii, every step of trsapp, every iteration; real numbers", "why_tests_cant": "it needs the uniqueness of the interpolant at each set of points that the algorithm may reach; tests see finitely many functions and the rounding errors", "anchors": ["src/newuoa.c: newuob, update, biglag"]}
{"id": "C85", "title": "NEWUOA minimizes the Frobenius norm of the change of the second derivatives", "statement": "The matrix of the second derivatives of the first model of NEWUOA has the least Frobenius norm among those of all the quadratic functions which take the first values. Each time a point is replaced, the change of the matrix of the second derivatives of the model has the least Frobenius norm among all the quadratic functions which take the values of the objective function at the new points; or, when the code decides to replace the model, the matrix itself has the least Frobenius norm.", "quantifier": "every objective function, number of variables and of points, starting point, radii, every step of trsapp, every iteration, every competing quadratic function; real numbers", "why_tests_cant": "the minimality is against all the quadratic functions which interpolate the values, at each set of points that the algorithm may reach", "anchors": ["src/newuoa.h:64-70", "src/newuoa.c: newuob, update, biglag"]}
{"id": "C86", "title": "A cubic line search always ends", "statement": "Once started with valid arguments, a positive lower bound of the steps, a positive xtol and 0 <= ftol <= gtol, ftol < 1, a Moré and Thuente line search (opk_lnsrch_new_csrch) asks for a finite number of values, whatever the values and the derivatives given by the caller, even if they do not come from a function. If moreover 4 ftol <= gtol, then the search never ends with the status ROUNDING_ERRORS_PREVENT_PROGRESS.", "quantifier": "every infinite sequence of finite answers of the caller, every tolerances and bounds as stated, every initial step, value and slope; real numbers with NaN for the undefined operations", "why_tests_cant": "the search may change stages, extrapolate and bisect in any order, and the answers of the caller are arbitrary: no finite set of functions covers the infinite sequences of answers; with stpmin = 0 the same code may run for ever", "anchors": ["src/lnsrch.c: csrch_iterate", "src/lnsrch.c: opk_cstep"]}
{"id": "C87", "title": "VMLMB without bounds ends on a stationary point of a smooth function, or says why not", "statement": "If the function is bounded below and its gradient is Lipschitz continuous, if the option epsilon is positive and gatol or grtol is positive, then a caller who answers all the requests of the optimizer (L-BFGS, no bounds, Moré and Thuente line search with 0 < 4 ftol <= gtol < 1 and xtol > 0, 0 < stpmin <= 1 <= stpmax) gets after a finite number of calls either OPK_TASK_FINAL_X, and then the norm of the gradient at x is at most max(0, gatol, grtol*||g_1||) and the function is not larger than at the start, or OPK_TASK_ERROR with one of the three documented reasons of the line search (step at its lower bound, step at its upper bound, xtol). There are at most (f(x1) - fmin)/c iterations, with c = ftol (1 - gtol) epsilon^2 tol^2 / L.", "quantifier": "every such function and gradient in any dimension, every initial point, every size of the memory, every accepted options; exact arithmetic", "why_tests_cant": "termination for all smooth functions is a statement on infinite sequences of requests; a test only sees some functions and some starting points", "anchors": ["src/vmlmb.c: opk_iterate_vmlmb", "src/vmlmb.c: opk_new_vmlmb_optimizer", "src/lnsrch.c: csrch_iterate"]}
{"id": "C88", "title": "VMLMB without bounds ends for a strongly convex function, with the default options", "statement": "If the function is bounded below and its gradient is Lipschitz continuous (constant L) and strongly monotone (constant mu > 0), then whatever epsilon in [0,1) (zero is the default) and the number of memorized steps, a caller who answers all the requests of the optimizer (L-BFGS, no bounds, Moré and Thuente line search, other parameters as in C87) gets after a finite number of calls either OPK_TASK_FINAL_X, and then the norm of the gradient at x is at most max(0, gatol, grtol*||g_1||), or OPK_TASK_ERROR with one of the three documented reasons of the line search. The number of iterations is bounded by a constant which only depends on mu, L, the options, f(x1) - fmin and ||g_1||.", "quantifier": "every such function and gradient in any dimension, every initial point, every size of the memory, every accepted options; exact arithmetic", "why_tests_cant": "the bound relies on the conditioning of the implicit BFGS matrix, which is never formed by the code, for all the sequences of steps", "anchors": ["src/vmlmb.c: opk_iterate_vmlmb", "src/vmlmb.c: apply", "src/vmlmb.c: update", "src/lnsrch.c: csrch_iterate"]}
{"id": "C89", "title": "The trust region steps of NEWUOA stay in the region and reduce the model; NEWUOA_STEP_FAILED is not returned", "statement": "With at most 150 variables: each time that NEWUOA asks for a value at a trust region step, the point is within DELTA of the best point found so far and the quadratic model is strictly lower there than the best value found so far; newuoa_optimize never returns NEWUOA_STEP_FAILED. With three variables or more, this assumes that at no iteration the gradient of the model at a point of the boundary of the trust region is a positive multiple of the step to that point, which is the only case where trsapp may divide by zero; with two variables there is no such hypothesis. For a quadratic objective function with (n+1)(n+2)/2 points, each trust region step is a strict descent.", "quantifier": "every objective function, starting point, scaling, radii, number of points accepted by newuoa_optimize, every iteration; real numbers, exact sines and cosines", "why_tests_cant": "trsapp mixes truncated conjugate gradients, whose step is bounded by a quadratic equation, with rotations on the sphere whose angle comes from fifty samples and a parabola: that the refined angle can never lose the reduction got before is a bound over all trigonometric polynomials, and the division by zero needs an exact alignment which random tests do not meet", "anchors": ["src/newuoa.c: trsapp, sethd, parabolic_refinement, newuob"]}
{"id": "C90", "title": "NLCG ends on a stationary point of a smooth function, or says why not", "statement": "If the function is bounded below and its gradient is Lipschitz continuous, and if gatol or grtol is positive, then a caller who answers all the requests of the nonlinear conjugate gradient optimizer (Moré and Thuente line search with 0 < 4 ftol <= gtol < 1 and xtol > 0, 0 < stpmin <= 1 <= stpmax) gets after a finite number of calls, none of which has an undefined behaviour, either OPK_TASK_FINAL_X, and then the norm of the gradient at x is at most max(0, gatol, grtol*||g_1||) and the function is not larger than at the start, or OPK_TASK_ERROR with one of the three documented reasons of the line search (step at its lower bound, step at its upper bound, xtol). This is so for all the update rules if epsilon is positive and, for any epsilon, for the rule of Dai and Yuan, for the rule of Fletcher and Reeves if gtol < 1/2 (the default is 0.1), and for the rules of Hager and Zhang and of Perry and Shanno if the function is strongly convex.", "quantifier": "every such function and gradient in any dimension, every initial point, every accepted options and flags; exact arithmetic", "why_tests_cant": "termination for all smooth functions is a statement on infinite sequences of requests, and for the rules of Dai and Yuan and of Fletcher and Reeves it rests on a divergent series; a test only sees some functions and some starting points", "anchors": ["src/nlcg.c: opk_iterate_nlcg", "src/nlcg.c: opk_new_nlcg_optimizer", "src/nlcg.c: update rules", "src/lnsrch.c: csrch_iterate"]}
{"id": "C91", "title": "The first quadratic model of BOBYQA interpolates the objective function", "statement": "If maxfun is at least npt, then bobyqa_optimize, with valid arguments, begins its first iteration after exactly npt calls of the objective function, at npt distinct points. The quadratic model of the first iteration, with its gradient moved to the best point, takes the value of the objective function (its opposite for a maximization, in the scaled variables) at these npt points, one of which is the best one, and the arrays BMAT and ZMAT hold the inverse of the matrix of the interpolation conditions with the least Frobenius norm. This holds whatever the bounds which are active at the start: the offsets of the points along an axis are rhobeg and -rhobeg, or rhobeg and 2 rhobeg, or -rhobeg and -2 rhobeg.", "quantifier": "every objective function, starting point, bounds, scaling, radii, number of variables and number of points accepted by bobyqa_optimize; real numbers", "why_tests_cant": "the arrays are built by formulas which depend on n, on npt and on the bounds active at the start: a test only sees some of these combinations, and a wrong element of BMAT or ZMAT does not change the first steps enough to be seen", "anchors": ["src/bobyqa.c: prelim", "src/bobyqa.c: bobyqb, L20", "src/bobyqa.c: bobyqa_optimize"]}
{"id": "C92", "title": "The quadratic model of BOBYQA interpolates the objective function at all the iterations", "statement": "At any time of any iteration of bobyqa_optimize, the quadratic model takes the values of the objective function (its opposite for a maximization, in the scaled variables) at npt points among those of the calls, one of which is the best one, and the arrays BMAT and ZMAT hold the inverse of the matrix of the interpolation conditions with the least Frobenius norm. The denominator of the update is positive at each call, the function rescue is never called, and the status BOBYQA_ROUNDING_ERRORS is never returned. If the objective function is quadratic and npt = (n+1)(n+2)/2, then the model is the objective function. For npt = n + 2 this holds without any condition, and with the steps of trsbox the only statuses returned for valid arguments are BOBYQA_SUCCESS and BOBYQA_TOO_MANY_EVALUATIONS. For more points this holds as long as, at the calls so far, no element of ZMAT (but those of the first column) which is not null is at most 1e-20 times the largest one: update replaces such an element by zero without a rotation.", "quantifier": "every objective function, starting point, bounds, scaling, radii, number of variables and number of points accepted by bobyqa_optimize, any step of the trust region; real numbers", "why_tests_cant": "the model is updated by formulas of order n squared at each iteration, and the errors of rounding and the call of rescue hide a wrong formula: a test cannot tell a wrong update from an inaccurate one", "anchors": ["src/bobyqa.c: bobyqb", "src/bobyqa.c: update", "src/bobyqa.c: altmov", "src/bobyqa.c: bobyqa_optimize"]}
{"id": "C93", "title": "The function rescue of BOBYQA ends and repairs the arrays of the interpolation", "statement": "When rescue is called while the quadratic model takes the values of the objective function at the interpolation points, and whatever the contents of the arrays BMAT, ZMAT and VLAG (this is what rescue is for), it ends after a finite number of steps. Then either the iterations go on with arrays BMAT and ZMAT which hold the inverse of the matrix of the interpolation conditions of the new set of npt points, and with a model which takes the values of the objective function at npt different points among those of the calls, one of which is the best of all the calls, all of them within the bounds; or the limit on the number of calls is reached and the status is BOBYQA_TOO_MANY_EVALUATIONS. There is no condition for npt = n + 2; for more points no element of a row of ZMAT used by update, if it is not null and not in the first column, is at most 1e-20 times the largest one.", "quantifier": "every objective function, any number of variables and of points, any interpolation points within the bounds, any contents of BMAT, ZMAT and VLAG; real numbers", "why_tests_cant": "rescue is called after severe rounding errors only, which a test can hardly provoke, and its effect depends on which provisional points are exchanged with the original ones, in what order", "anchors": ["src/bobyqa.c: rescue", "src/bobyqa.c: bobyqb", "src/bobyqa.c: update"]}
{"id": "C94", "title": "BOBYQA minimizes the Frobenius norm of the change of the second derivatives", "statement": "The matrix of the second derivatives of the first model of BOBYQA has the least Frobenius norm among those of all the quadratic functions which take the first values. Each time a point is replaced after a call of the objective function, the change of the matrix of the second derivatives of the model has the least Frobenius norm among all the quadratic functions which take the values of the objective function at the new set of points; or, when the code decides to replace the model, the matrix itself has the least Frobenius norm. There is no condition for npt = n + 2; for more points this holds as long as, at the calls so far, no element of ZMAT (but those of the first column) which is not null is at most 1e-20 times the largest one.", "quantifier": "every objective function, number of variables and of points, starting point, bounds, scaling, radii, every step of the trust region, every iteration, every competing quadratic function; real numbers", "why_tests_cant": "the minimality is against all the quadratic functions which interpolate the values, at each set of points that the algorithm may reach", "anchors": ["src/bobyqa.h: bobyqa", "src/bobyqa.c: bobyqb", "src/bobyqa.c: prelim", "src/bobyqa.c: update"]}
{"id": "C95", "title": "Maximization is a change of sign and scaling a change of variables", "statement": "For cobyla_optimize, bobyqa_optimize and newuoa_optimize with accepted arguments, to maximize a function gives the same status, the same variables and the same calls at the same points, with opposite values, as to minimize its opposite; to give valid scaling factors gives the same status, the same values and the same calls as to give none with the objective function (and the constraints) of the scaled variables, the initial variables and the bounds being divided by the factors and the points being multiplied by them; scaling factors which are all equal to one have no effect at all.", "quantifier": "every objective function, number of variables, starting point, bounds, factors, radii, limit on the number of calls, initial contents of the workspace and step of the trust region; any arithmetic (for the maximization by BOBYQA, an arithmetic where v*1 = v)", "why_tests_cant": "two whole executions are compared, for all the objective functions and all the factors, at all the calls", "anchors": ["src/bobyqa.c: bobyqa_optimize", "src/newuoa.c: newuoa_optimize", "src/cobyla.c: cobyla_optimize"]}
{"id": "C96", "title": "Refused arguments are refused before any call and leave the variables unchanged", "statement": "cobyla_optimize, bobyqa_optimize and newuoa_optimize return the status of the first wrong argument (in the order of the checks: number of variables, then of points or of constraints, radii, scaling factors, bounds) without any call of the objective function and leave the variables unchanged; they call the objective function at least once with all other arguments.", "quantifier": "every argument, objective function and contents of the workspace", "why_tests_cant": "the arguments are arbitrary, with all the combinations of wrong ones", "anchors": ["src/bobyqa.c: bobyqa_optimize", "src/newuoa.c: newuoa_optimize", "src/cobyla.c: cobyla_optimize"]}
{"id": "C97", "title": "A constant added to the objective function does not change what COBYLA does", "statement": "If a constant is added to all the values of the objective function, cobyla_optimize makes the same calls at the same points and returns the same status, variables, number of evaluations and greatest violation, and the function value is increased by the constant; with cobyla_iterate the same replies with the constant added lead to the same status, variables, radius and number of evaluations.", "quantifier": "every objective function, constraints, number of variables and of constraints, starting point, scaling factors, radii, limits and sequence of calls; exact arithmetic", "why_tests_cant": "two whole executions are compared, for all the functions and all the constants; the violation needs at least two constraints and a special position of the gradients", "anchors": ["src/cobyla.c: cobyla_optimize", "src/cobyla.c: cobyla_iterate", "src/cobyla.c: trstlp"]}
{"id": "C98", "title": "From a feasible best vertex, the trial points of COBYLA are not uphill for the linear model", "statement": "When cobyla_iterate requests the evaluation of a trial point, there are n+1 evaluations which are not in a hyperplane, one of which is the best one for the objective function plus a non-negative multiple of the greatest violation; if this one is feasible, the affine function which interpolates the values of the objective function at these evaluations is not greater at the trial point than there.", "quantifier": "every sequence of calls which leaves the variables unchanged between the calls, whatever the replies, radii and numbers of variables and of constraints; exact arithmetic", "why_tests_cant": "the replies are arbitrary and the property is about all the trial points of all the executions; the violation needs at least two constraints and a special position of the gradients", "anchors": ["src/cobyla.c: cobyla_iterate", "src/cobyla.c: trstlp"]}
{"id": "C99", "title": "A constant added to the objective function does not change what NEWUOA does", "statement": "If a constant is added to all the values of the objective function, newuoa_optimize calls it at the same points in the same order and returns the same status and variables, and the returned value is increased by the constant (also for a maximization and with scaling factors); with newuoa_iterate the same values with the constant added ask for the same points and lead to the same status, radius and number of evaluations.", "quantifier": "every objective function, number of variables and of points, starting point, scaling factors, radii, limit, contents of the workspace and sequence of calls (also with newuoa_restart); exact arithmetic", "why_tests_cant": "two whole executions are compared, for all the functions and all the constants", "anchors": ["src/newuoa.c: newuoa_optimize", "src/newuoa.c: newuoa_iterate"]}
