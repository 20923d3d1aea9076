{"id": "C01", "title": "Sparse matrix-vector product is the dense product", "statement": "For every well-formed compressed-column matrix and input vector, the product kernel behind all residual computations leaves in the output vector exactly the old (or zero) contents plus/minus the dense matrix-vector product; it touches no memory outside the arrays and depends on no uninitialised cell.", "quantifier": "every column-compressed matrix (any shape, empty rows/columns, repeated entries, no entries), every vector, all four combinations of the accumulate/sign flags", "why_tests_cant": "Tests run a handful of matrices; index arithmetic over jc/ir has unboundedly many shapes, and an out-of-bounds read is invisible to a test that happens to read mapped memory.", "anchors": ["src/spla.c: sparseMV", "src/spla.c: vadd", "src/spla.c: vsubscale"]}
{"id": "C02", "title": "Transposed product and adjointness", "statement": "The transposed product kernel leaves old (or zero) contents plus/minus A'x (with the diagonal left out when requested), and the two kernels are adjoint: <Ax,y> = <x,A'y> in exact arithmetic.", "quantifier": "every column-compressed matrix, all vectors, all flag combinations", "why_tests_cant": "Adjointness is an identity over all vectors and all sparsity patterns; sampling cannot establish it.", "anchors": ["src/spla.c: sparseMtVm", "src/spla.c: sparseMV", "src/spla.c: eddot"]}
{"id": "C03", "title": "Transposition is exact and its index map is right", "statement": "Transposing a well-formed sparse matrix yields a well-formed matrix with (At)_{ji} = A_{ij} for all i,j, with sorted row indices in each column, and the returned map sends the position of each entry in A to the position of the same entry in At.", "quantifier": "every well-formed column-compressed matrix of any shape, including those without entries", "why_tests_cant": "Counting-sort bookkeeping must be right for all sparsity patterns; the no-entry matrix is a corner that ordinary tests skip and that reads uninitialised memory only sometimes visibly.", "anchors": ["src/splamm.c: transposeSparseMatrix", "src/splamm.c: newSparseMatrix", "src/splamm.c: spla_cumsum"]}
{"id": "C04", "title": "Symmetric permutation is P K P'", "statement": "Given the upper triangle of a symmetric matrix and the inverse of any permutation, the permuted matrix is again upper triangular, represents exactly the symmetrically permuted matrix, and the returned map gives for each old entry its new position.", "quantifier": "every upper-triangular column-compressed matrix and every permutation of its indices", "why_tests_cant": "n! permutations times all sparsity patterns.", "anchors": ["src/splamm.c: permuteSparseSymmetricMatrix", "src/splamm.c: pinv"]}
{"id": "C05", "title": "KKT matrix assembly is exactly the documented block matrix", "statement": "For every consistent problem (G, optional A, linear, second-order and exponential cones; a matrix with rows has at least one stored entry, see C03 for the others) the assembled KKT matrix is upper triangular, fills exactly the allocated number of entries, and equals the documented block matrix [dI A' G'; A -dI 0; G 0 -V0] with two extra rows per second-order cone; the sign vector has +1 on x-rows, the u-rows of second-order cones, and -1 elsewhere.", "quantifier": "all dimensions, all sparsity patterns of A and G, all lists of cone sizes, with and without equality constraints", "why_tests_cant": "The assembly code walks five interacting indices (row, column, entry, diagonal, cone); a miscounted entry corrupts memory only for particular cone mixes.", "anchors": ["src/preproc.c: createKKT_U", "src/preproc.c: ECOS_setup"]}
{"id": "C06", "title": "Updating problem data equals setting up from scratch", "statement": "After new matrix values are installed through the update call, the permuted KKT matrix used by the next solve is the one a fresh setup with the new values would produce (same pattern), entry for entry.", "quantifier": "every problem structure, every fill-reducing ordering, every sequence of data updates", "why_tests_cant": "The chain A->At->K->PKP' of index maps must commute for all patterns and orderings; a wrong map silently solves a different problem.", "anchors": ["src/ecos.c: ECOS_updateData", "src/preproc.c: ECOS_setup (AtoK, GtoK, PK)"]}
{"id": "C07", "title": "Triangular solves are exact", "statement": "Forward solve, diagonal solve and backward solve return the exact solution (in exact arithmetic) of Lx=b, Dx=b, L'x=b for every unit lower triangular L in compressed columns and every nonzero diagonal.", "quantifier": "all dimensions, all strictly-lower-triangular patterns, all right-hand sides", "why_tests_cant": "Quantifies over all patterns and right-hand sides.", "anchors": ["external/ldl/src/ldl.c: LDL_lsolve2", "external/ldl/src/ldl.c: LDL_dsolve", "external/ldl/src/ldl.c: LDL_ltsolve"]}
{"id": "C08", "title": "Factorisation never breaks down and pivots have the prescribed sign", "statement": "Whatever matrix values are supplied, the numeric factorisation completes, never reports failure, and every pivot is nonzero with the sign prescribed by the sign vector; hence the diagonal solve never divides by zero and a solve never returns the fatal code because of factorisation.", "quantifier": "every matrix content, every sign vector in {-1,+1}^n, any positive regularisation", "why_tests_cant": "Singular or ill-conditioned pivots arise at unpredictable iterates; a test cannot visit all matrices.", "anchors": ["external/ldl/src/ldl.c: LDL_numeric2", "src/kkt.c: kkt_factor"]}
{"id": "C09", "title": "Factorisation reproduces the matrix", "statement": "The computed L and D satisfy L D L' = K + R with R the diagonal dynamic regularisation actually applied (zero when no pivot needed it), and the symbolic phase predicts exactly the fill used, so no write leaves the allocated factor.", "quantifier": "every symmetric matrix given by its upper triangle, all patterns and values", "why_tests_cant": "Elimination-tree fill logic depends on the pattern globally; only a proof covers all patterns.", "anchors": ["external/ldl/src/ldl.c: LDL_symbolic2", "external/ldl/src/ldl.c: LDL_numeric2"]}
{"id": "C10", "title": "Factor-and-solve solves the linear system", "statement": "Permuting the right-hand side, the three triangular solves and un-permuting together return the exact solution of the (regularised) KKT system when arithmetic is exact.", "quantifier": "all KKT matrices, all orderings, all right-hand sides", "why_tests_cant": "Composition over all permutations and patterns.", "anchors": ["src/kkt.c: kkt_solve", "src/kkt.c: kkt_factor"]}
{"id": "C11", "title": "Iterative refinement never returns something worse and is bounded", "statement": "The number of refinement steps reported lies between 0 and the configured maximum, and the residual norm of the returned solution is never larger than that of the unrefined solution.", "quantifier": "every system, every right-hand side, every configured maximum", "why_tests_cant": "The undo branch triggers only on error growth, which needs special numerics to hit.", "anchors": ["src/kkt.c: kkt_solve"]}
{"id": "C12", "title": "Equilibration factors are positive and constant on each cone", "statement": "After setup every scaling factor is strictly positive, and all rows belonging to the same second-order or exponential cone get the same factor, so that scaling maps the cone onto itself.", "quantifier": "all matrices (zero rows/columns included), all cone partitions", "why_tests_cant": "Positivity/uniformity must hold for every matrix and cone layout; failure would silently change the feasible set.", "anchors": ["src/equil.c: use_ruiz_equilibration", "src/equil.c: set_equilibration"]}
{"id": "C13", "title": "The caller's data arrays are given back unchanged", "statement": "In exact arithmetic, G, A, h and b hold their original values after cleanup, and c holds its original values after every solve.", "quantifier": "every problem, every sequence setup, solve*, cleanup, every exit code", "why_tests_cant": "Must hold on all exit paths, including the numerical-failure returns that tests rarely trigger.", "anchors": ["src/equil.c: set_equilibration, unset_equilibration", "src/ecos.c: ECOS_solve, backscale", "src/preproc.c: ECOS_cleanup"]}
{"id": "C14", "title": "Solutions of the scaled problem map to solutions of the user's problem", "statement": "If the internal iterate satisfies the scaled problem (equalities, conic inequalities, dual equation, cone memberships) then the variables handed back satisfy the user's original problem, and the reported primal/dual objective are those of the returned variables.", "quantifier": "all problems, all iterates with tau>0", "why_tests_cant": "An identity over all data; tests check particular numbers within tolerances.", "anchors": ["src/ecos.c: backscale", "src/equil.c: set_equilibration", "src/ecos.c: updateStatistics"]}
{"id": "C15", "title": "Single-entry updates change exactly one entry of the user's data", "statement": "Updating entry i of h (or c) makes the next solve see exactly that new value in the user's units and leaves every other entry unchanged, also with equilibration.", "quantifier": "all indices, values and equilibration factors, every sequence of updates", "why_tests_cant": "Sequence- and scaling-dependent; needs an identity over all factors.", "anchors": ["src/ecos.c: ecos_updateDataEntry_h, ecos_updateDataEntry_c"]}
{"id": "C16", "title": "Initial slack/dual points are strictly inside the cone", "statement": "The shift used to initialise s and z returns a point strictly inside the product of the nonnegative orthant and second-order cones for every input vector, shifted by a multiple of the cone identity only.", "quantifier": "all vectors, all cone lists", "why_tests_cant": "All vectors; a boundary input that maps onto the boundary would make the scaling undefined.", "anchors": ["src/cone.c: bring2cone"]}
{"id": "C17", "title": "Nesterov-Todd scaling point", "statement": "For s,z strictly inside the cone the computed scaling W satisfies W z = W^{-1} s = lambda (and lambda is strictly inside the cone), in exact arithmetic with residuals above the safe-division floor; when s or z is outside, this is reported.", "quantifier": "all cone lists, all strictly interior s and z", "why_tests_cant": "Algebraic identity for all interior points in all dimensions.", "anchors": ["src/cone.c: updateScalings", "src/cone.c: scale"]}
{"id": "C18", "title": "Scaling and unscaling are inverse", "statement": "unscale(scale(x)) = x = scale(unscale(x)) and scaling is a symmetric linear map, for every scaling produced from interior points.", "quantifier": "all vectors, all cone lists, all valid scalings", "why_tests_cant": "Identity over all vectors/dimensions.", "anchors": ["src/cone.c: scale, unscale, updateScalings"]}
{"id": "C19", "title": "The sparse expanded cone block represents W^2", "statement": "Eliminating the two auxiliary variables of every second-order cone from the expanded block used in the KKT system gives exactly W squared; the multiply-add routine used for refinement computes exactly that block times the vector.", "quantifier": "all cone lists, all scalings produced from interior points, all vectors", "why_tests_cant": "Algebraic identity with square roots whose arguments must be shown nonnegative for all points.", "anchors": ["src/cone.c: scale2add, updateScalings", "src/kkt.c: kkt_update"]}
{"id": "C20", "title": "Conic division inverts the conic product", "statement": "For u with nonzero determinant on every cone, dividing u\\(u o w) returns w; dividing is total for interior u.", "quantifier": "all cone lists and vectors", "why_tests_cant": "Identity over all dimensions.", "anchors": ["src/cone.c: conicProduct, conicDivision"]}
{"id": "C21", "title": "Line search keeps the iterate in the cone and the step in range", "statement": "The returned step lies in [minimum step, maximum step]; unless it was raised to the minimum step, moving along the direction by it keeps scaled slacks, scaled multipliers, tau and kappa inside their cones (strictly after the safety factor).", "quantifier": "all cone lists, all interior lambda, all directions", "why_tests_cant": "All directions in all dimensions; an error shows up only when a later cone is binding.", "anchors": ["src/ecos.c: lineSearch, ECOS_solve"]}
{"id": "C22", "title": "Centering parameter and step bounds", "statement": "At every iteration the centering parameter lies in its documented range and the combined step never exceeds gamma times the maximum step.", "quantifier": "every execution", "why_tests_cant": "All executions of the numeric loop.", "anchors": ["src/ecos.c: ECOS_solve (1330-1420)"]}
{"id": "C23", "title": "A solve always ends within the iteration limit with a documented code", "statement": "Every solve performs at most maxit+1 passes of the main loop and returns one of the documented exit codes; the internal 'not converged yet' value is never returned to the user.", "quantifier": "every numerical behaviour (including NaN and infinities), every interrupt schedule, every setting of maxit", "why_tests_cant": "Quantifies over all numerical behaviours and interrupt schedules.", "anchors": ["src/ecos.c: ECOS_solve, checkExitConditions", "include/ecos.h: exit codes"]}
{"id": "C24", "title": "OPTIMAL means the tolerances hold for what is returned", "statement": "If a solve returns the optimal code (or its reduced-accuracy variant), the residuals and gap recorded in info satisfy the documented tolerances (or the reduced ones), and they are the residuals of the iterate that is handed back.", "quantifier": "every numerical behaviour, every history of best iterates", "why_tests_cant": "The best-iterate restore paths depend on the whole iteration history.", "anchors": ["src/ecos.c: checkExitConditions, ECOS_solve, compareStatistics, saveIterateAsBest, restoreBestIterate"]}
{"id": "C25", "title": "Infeasibility codes come with a certificate", "statement": "If a solve returns primal infeasible, the returned dual direction satisfies h'z+b'y<0 with relative dual residual below tolerance; in exact arithmetic every feasible point would have to be larger than an explicit bound. Symmetrically for dual infeasible.", "quantifier": "every problem and execution", "why_tests_cant": "A Farkas argument over all feasible points.", "anchors": ["src/ecos.c: checkExitConditions, updateStatistics, computeResiduals"]}
{"id": "C26", "title": "Returned statistics describe the returned iterate of this solve", "statement": "On every normal return the variables handed back are an iterate produced by this very solve and info describes that iterate; nothing uninitialised or left over from an earlier solve is returned.", "quantifier": "every history (number of iterations, interrupts, NaNs, earlier solves of the same workspace)", "why_tests_cant": "Depends on the history, in particular interrupts or failures before the first best iterate has been saved.", "anchors": ["src/ecos.c: ECOS_solve, saveIterateAsBest, restoreBestIterate, compareStatistics"]}
{"id": "C27", "title": "Interrupts are honoured and the signal handler is restored", "statement": "An interrupt arriving at any time during a solve makes the solve return at the next check with the interrupt code (or an already reached (reduced accuracy) verdict), and on return the signal handler that was active before the call is active again.", "quantifier": "every arrival time of the signal, every exit path", "why_tests_cant": "All interleavings of signal and loop; all exit paths.", "anchors": ["src/ctrlc.c: init_ctrlc, remove_ctrlc, check_ctrlc, handle_ctrlc", "src/ecos.c: ECOS_solve"]}
{"id": "C28", "title": "Solving the same workspace again gives the same answer", "statement": "Calling solve twice on an unchanged workspace gives the same exit code and the same iterate.", "quantifier": "every problem and execution", "why_tests_cant": "State that leaks from one solve to the next shows up only on particular exit paths.", "anchors": ["src/ecos.c: ECOS_solve, init", "src/kkt.c: kkt_init"]}
{"id": "C29", "title": "Exponential cone membership tests", "statement": "The primal/dual feasibility tests for exponential cones accept exactly the points with positive second/third (dual: sign-correct) components that satisfy the defining inequality, and any accepted primal-dual pair has nonnegative inner product.", "quantifier": "all real points", "why_tests_cant": "All points of a curved boundary; NaN/zero corner cases.", "anchors": ["src/expcone.c: evalExpPrimalFeas, evalExpDualFeas"]}
{"id": "C30", "title": "Exponential cone derivatives", "statement": "The gradient and Hessian used for the exponential cone are the true first and second derivatives of the dual barrier at every strictly feasible dual point, satisfy the logarithmic homogeneity identities <g,z>=-3 and Hz=-g, and the Hessian product routine uses the same matrix.", "quantifier": "all strictly feasible dual points", "why_tests_cant": "Identity on an open set.", "anchors": ["src/expcone.c: evalExpGradient, evalExpHessian, evalBarrierValue, scaleToAddExpcone"]}
{"id": "C31", "title": "Exponential cone line search is bounded and its result feasible", "statement": "The backtracking search tries at most the configured number of steps; if it returns a step (not the failure value), the trial point at that step passed the primal and dual feasibility tests of every exponential cone and kept tau and kappa positive; the reported counters add up to the number of rejected trials.", "quantifier": "every numerical behaviour, every number of cones", "why_tests_cant": "All numerical behaviours, early-exit paths of nested loops.", "anchors": ["src/ecos.c: expConeLineSearch"]}
{"id": "C32", "title": "Initial exponential cone point is interior", "statement": "The starting point used for exponential-cone problems is strictly inside the linear, second-order and exponential cones and their duals.", "quantifier": "all cone lists", "why_tests_cant": "Transcendental inequalities and all cone lists.", "anchors": ["src/cone.c: unitInitialization"]}
{"id": "C33", "title": "Branching loses no integer point", "statement": "Splitting a node of the search tree produces two nodes whose boxes together contain every integer-feasible point of the parent, for any splitting variable and any fractional value.", "quantifier": "all nodes, all split variables, all values within the machine-integer range, all tolerances in [0,1)", "why_tests_cant": "All real split values, including negative and near-integral ones, where truncating casts behave differently.", "anchors": ["ecos_bb/ecos_bb.c: branch", "include/ecos_bb.h: pfloat_floor, pfloat_ceil"]}
{"id": "C34", "title": "Rounding helpers agree with floor/ceiling/nearest", "statement": "Away from integers (by more than the tolerance) the floor and ceiling helpers return the mathematical floor and ceiling and differ by one; the rounding helper returns a nearest integer; no value needs more than a tolerance of slack.", "quantifier": "all real values in machine-integer range, all tolerances in [0,1/2)", "why_tests_cant": "All reals; truncation toward zero flips behaviour for negative values.", "anchors": ["include/ecos_bb.h: pfloat_round, pfloat_ceil, pfloat_floor, float_eqls"]}
{"id": "C35", "title": "Reported mixed-integer solutions are integral and feasible", "statement": "Whenever the mixed-integer solver reports a solution (optimal or iteration limit with feasible point), every declared boolean/integer variable is within the integer tolerance of an admissible integer, the point was returned by a continuous solve of a restriction of the problem, and the reported objective is the objective of that point.", "quantifier": "every behaviour of the continuous solver that returns finite points (strong branching: that is deterministic), at least one declared variable, every branching strategy, every node order and random sequence", "why_tests_cant": "All search histories.", "anchors": ["ecos_bb/ecos_bb.c: get_bounds, store_solution, load_solution, ECOS_BB_solve, get_ret_code"]}
{"id": "C36", "title": "Mixed-integer optimality", "statement": "If the continuous solver is exact on every subproblem, then an 'optimal' answer has an objective within the absolute or relative gap tolerance of the best integer-feasible objective, and an 'infeasible' answer means no integer-feasible point exists.", "quantifier": "all problems whose relaxations the continuous solver solves exactly up to a slack, with finite points and declared variables inside +-8388608 (the box the solver imposes), all strategies (strong branching: deterministic solver), all node selections, all random sequences", "why_tests_cant": "Soundness of pruning over all search trees.", "anchors": ["ecos_bb/ecos_bb.c: ECOS_BB_solve, get_next_node, get_global_L, get_bounds, should_continue, strong branching functions"]}
{"id": "C37", "title": "Search is bounded and stays inside the node arrays", "statement": "The mixed-integer search solves at most the configured number of nodes, always terminates, never addresses a node outside the allocated arrays, and returns one of the documented codes.", "quantifier": "every behaviour of the continuous solver that leaves the problem arrays well-formed (strong branching: that is deterministic), every strategy, every setting with positive node limit, at least one declared variable; the only other outcome is a conversion of an out-of-range value to a machine integer, or an endless unlucky draw in the random strategy", "why_tests_cant": "All search histories.", "anchors": ["ecos_bb/ecos_bb.c: ECOS_BB_solve, branch, get_next_node, get_ret_code", "ecos_bb/ecos_bb_preproc.c: ECOS_BB_setup"]}
{"id": "C38", "title": "Bounds of a search node are imposed on the declared variables", "statement": "Solving a node imposes exactly 0<=x_i<=1 (or the fixed value) on each declared boolean and lb<=x_j<=ub on each declared integer variable, and leaves the user's constraints as they are.", "quantifier": "all lists of boolean and integer variables (any order, interleaved), all node states", "why_tests_cant": "All index lists: tests use sorted lists with booleans first.", "anchors": ["ecos_bb/ecos_bb_preproc.c: socp_to_ecos_bb, ECOS_BB_setup", "ecos_bb/ecos_bb.c: set_prob"]}
{"id": "C39", "title": "Updating an entry of h in the mixed-integer solver", "statement": "Updating entry i of h through the mixed-integer interface changes the right-hand side of the user's i-th inequality and nothing else.", "quantifier": "all problems with any number of boolean and integer variables", "why_tests_cant": "Depends on the mix of variable kinds.", "anchors": ["ecos_bb/ecos_bb.c: updateDataEntry_h", "ecos_bb/ecos_bb_preproc.c: socp_to_ecos_bb"]}
{"id": "C40", "title": "Cleanup frees everything exactly once", "statement": "Setup followed by cleanup frees every allocated block exactly once except the solution vectors the caller asked to keep, for every problem shape; failed setups leave nothing allocated.", "quantifier": "all problem shapes, with/without equality constraints, all keepvars values, all failure paths of setup", "why_tests_cant": "All combinations of optional blocks; leaks are invisible to functional tests.", "anchors": ["src/preproc.c: ECOS_setup, ECOS_cleanup"]}
{"id": "C41", "title": "Inconsistent dimensions are rejected", "statement": "Setup returns a workspace only if the cone sizes add up to the number of inequality rows; otherwise it returns NULL without touching the caller's arrays.", "quantifier": "all dimension arguments", "why_tests_cant": "All argument combinations.", "anchors": ["src/preproc.c: ECOS_setup"]}
{"id": "C42", "title": "Each iteration reduces the residuals by the advertised factor", "statement": "With exact linear solves, one interior-point iteration multiplies every linear residual (primal, dual, homogeneous) by 1 - step*(1-sigma), and the complementarity changes accordingly.", "quantifier": "all problems with symmetric cones, all interior iterates", "why_tests_cant": "Identity over all iterates; tests only observe convergence.", "anchors": ["src/ecos.c: ECOS_solve, computeResiduals, RHS_affine, RHS_combined", "src/kkt.c: kkt_solve"]}
{"id": "C43", "title": "Residual and gap statistics are the mathematical ones", "statement": "The reported primal cost, dual cost, gap and residual numbers equal their documented formulas for the current iterate, and with zero residuals the reported gap equals primal minus dual objective.", "quantifier": "all problems and iterates", "why_tests_cant": "Identity over all data.", "anchors": ["src/ecos.c: computeResiduals, updateStatistics"]}
{"id": "C44", "title": "A zero relative or absolute gap verdict never comes from comparing with NaN", "statement": "Comparisons used for stopping treat undefined statistics (NaN) as 'condition not met': no exit with optimal/infeasible code can be triggered by a NaN residual, and the choice of the best iterate never prefers an iterate with undefined merit.", "quantifier": "all combinations of finite, infinite and NaN statistics", "why_tests_cant": "NaN combinations are not produced by ordinary tests.", "anchors": ["src/ecos.c: checkExitConditions, compareStatistics"]}
{"id": "C45", "title": "Mixed-integer cleanup frees everything exactly once", "statement": "Setup of the mixed-integer solver followed by its cleanup frees every block exactly once, never touches a struct already freed, and leaves allocated only the continuous solution vectors the caller asked to keep; settings passed by the caller are not freed.", "quantifier": "all problem shapes, own or default settings, all keepvars values", "why_tests_cant": "All combinations of optional blocks; double frees and leaks depend on the shape.", "anchors": ["ecos_bb/ecos_bb_preproc.c: ECOS_BB_setup, ECOS_BB_cleanup"]}
{"id": "C46", "title": "No history of calls leads outside the memory", "statement": "After a set-up of a consistent problem, any sequence of solves, data updates, entry updates and settings changes, and the final restoring of the caller's arrays, never accesses memory outside an allocated block, never follows a null pointer, never converts a number that does not fit, and ends; the only unwritten memory a call may read is the best iterate, in a solve that stops in its first pass before any best iterate was stored.", "quantifier": "all problem shapes and values (NaN and infinities included), all orderings, all sequences of calls with arguments of the documented length, all interrupt schedules, all settings", "why_tests_cant": "All histories, sizes, cone combinations and numerical behaviours.", "anchors": ["src/ecos.c: ECOS_solve, ECOS_updateData, ecos_updateDataEntry_h, ecos_updateDataEntry_c", "src/preproc.c: ECOS_setup, ECOS_cleanup", "src/kkt.c", "src/cone.c", "src/expcone.c"]}
{"id": "C47", "title": "The answer of a solve does not depend on earlier calls", "statement": "Two workspaces of the same structure that hold the same problem data, equilibration and settings give the same exit code, the same iterate and the same statistics when solved with the same interrupt schedule, whatever solves, updates and settings changes went before in each; nothing an earlier solve left in the KKT system, the scalings, the best iterate or the statistics is read before it is written.", "quantifier": "all problem structures and values, all orderings, all pairs of call histories, all interrupt schedules that do not stop the first pass", "why_tests_cant": "State leaking from one call to the next is visible only for particular histories; allocated but unwritten memory happens to be zero in tests.", "anchors": ["src/ecos.c: ECOS_solve, init, saveIterateAsBest, restoreBestIterate", "src/kkt.c: kkt_init, kkt_update, kkt_factor, kkt_solve", "src/preproc.c: ECOS_setup"]}
{"id": "C48", "title": "The iterates of a solve stay strictly inside the cone", "statement": "Every solve starts strictly inside all cones with tau = kappa = 1. The iterate at the beginning of every later pass has slacks and multipliers strictly inside the linear and second-order cones and tau, kappa positive, as long as the iterates before it are above the floors built into the scaling and every step was longer than the shortest step the line search returns. Without exponential cones and with the default gamma only the floors matter: an iterate that is not inside was reached by the shortest step, and then the pass that finds it is the last one.", "quantifier": "all problems, all reachable workspaces, all passes of all solves, exact arithmetic", "why_tests_cant": "An iterate outside the cone makes square roots and logarithms undefined only in some later pass, and only for problems where the step length is decided by the one bound that was computed wrongly; a test sees a NUMERICS exit at most.", "anchors": ["src/ecos.c: init, lineSearch, ECOS_solve", "src/cone.c: bring2cone, unitInitialization, updateScalings", "src/expcone.c: expConeLineSearch"]}
{"id": "C49", "title": "What the exit codes say about the problem the caller put in", "statement": "Whatever the history of a workspace (set-up, data updates, entry updates, changed settings, earlier solves that did not end outside the cone), when a solve returns the code for optimal and finite variables, these variables meet the tolerances for the problem the caller put in last: the residuals of the caller's equality, inequality and dual equations, each row divided by its equilibration factor, are below feastol times the scale of data and variables, the gap meets abstol or reltol, and the reported objectives are the caller's c'x and -b'y-h'z. With z in the dual cone no feasible point of the caller's problem is cheaper by more than the gap plus feastol times norms of data and points. When the code is primal or dual infeasible, the variables are a certificate for the caller's problem: every feasible point has a scaled norm above reltol/feastol. In exact arithmetic and without exponential cones, the s and z handed back are strictly inside the cones and tau, kappa positive, unless iterates fell below the floors of the scaling or the shortest step was taken.", "quantifier": "all problems with finite data, all orderings, all call histories, all interrupt schedules, all settings; numbers include infinities and NaN (cones: exact arithmetic)", "why_tests_cant": "A test sees one problem with one history; a wrong factor in the scaling or unscaling shifts the accuracy by a small amount that no test on a well-scaled problem notices, and updates after solves multiply the combinations.", "anchors": ["src/ecos.c: ECOS_solve, computeResiduals, updateStatistics, checkExitConditions, backscale, ECOS_updateData, ecos_updateDataEntry_h, ecos_updateDataEntry_c", "src/equil.c: set_equilibration, unset_equilibration", "src/preproc.c: ECOS_setup"]}
{"id": "C50", "title": "AMD's input check accepts exactly the valid patterns", "statement": "AMD_valid answers INVALID exactly if Ap[0] is not 0, the column pointers decrease somewhere, or a row index is outside 0..n-1; otherwise it answers OK exactly if every column is sorted without duplicates, and OK_BUT_JUMBLED if not. It reads nothing outside the arrays as long as Ai has as many entries as the largest column pointer, and whatever it accepts it has read completely. The condition is needed: for Ap = [0,5,2] and two row indices it reads beyond the end of Ai before it looks at Ap[2].", "quantifier": "all n, all contents of the arrays", "why_tests_cant": "The wrong answers of such a check sit in single cells of arrays of any length: the last column, the first entry of a column compared with the last of the one before, an empty column; the out-of-bounds read shows only with a malformed pointer array and usually does not crash.", "anchors": ["external/amd/src/amd_valid.c: AMD_valid"]}
{"id": "C51", "title": "AMD counts the neighbours in the graph of A + A'", "statement": "For every sorted pattern AMD_aat stores in Len[x], for every node x, the number of nodes y other than x such that (x,y) or (y,x) is an entry, each counted once, and returns the total, which lies between nz-n and 2*nz. No access outside the arrays.", "quantifier": "all n, all sorted patterns", "why_tests_cant": "The two triangles are merged in one pass with a moving pointer per column; an entry counted twice or missed depends on the interleaving of all columns, and only makes the later workspace too short.", "anchors": ["external/amd/src/amd_aat.c: AMD_aat"]}
{"id": "C52", "title": "AMD's sorting keeps the entries", "statement": "From every valid pattern, sorted or not, with or without duplicates, AMD_preprocess makes a valid pattern, sorted and without duplicates, whose entries are exactly those of the transpose. No access outside the arrays.", "quantifier": "all n, all valid patterns", "why_tests_cant": "Duplicates are removed with a flag per row that is not reset between columns; whether that loses an entry depends on the order in which equal rows come in different columns.", "anchors": ["external/amd/src/amd_preprocess.c: AMD_preprocess"]}
{"id": "C53", "title": "AMD returns a permutation, for every matrix", "statement": "For every n and all arrays, AMD_order has no undefined behaviour and ends (Ai must have as many entries as the largest column pointer). It answers INVALID exactly for invalid patterns, OUT_OF_MEMORY exactly if the workspace nzaat + nzaat/5 + 7n does not fit the integer type (it does if 2*nz + 2*nz/5 + 7*n does), and otherwise OK for sorted and OK_BUT_JUMBLED for other patterns. With OK and OK_BUT_JUMBLED, P is a permutation of 0..n-1; this holds even if nothing is known about the arrays. The same workspace is always large enough: the quotient graph with its garbage collection, hash buckets, degree lists, element absorption, mass elimination, path compression and postordering never leaves its arrays.", "quantifier": "all n, all patterns, all dense-row bounds, all sizes of the integer type", "why_tests_cant": "The elimination works in place in one array shared by all lists, with negative numbers as links and flags; garbage collection, absorption and mass elimination happen in combinations that depend on the whole matrix.", "anchors": ["external/amd/src/amd_order.c: AMD_order", "external/amd/src/amd_1.c: AMD_1", "external/amd/src/amd_2.c: AMD_2", "external/amd/src/amd_postorder.c: AMD_postorder", "external/amd/src/amd_post_tree.c: AMD_post_tree"]}
{"id": "C54", "title": "ECOS_setup with its real ordering: when it succeeds, and what follows", "statement": "ECOS_setup, AMD included, has no undefined behaviour for any consistent problem and any values. It returns a workspace exactly if no column of A and of G holds a row twice and AMD's workspace fits the integer type (it does if 2*nnz + 2*nnz/5 + 7*dim of the KKT matrix does); the order of rows within the caller's columns does not matter. With duplicate entries it returns a null pointer after it has scaled the caller's arrays. With the workspace it returns, every sequence of calls is safe in the sense of C46, and the answers mean what C49 says, without assumptions about the ordering.", "quantifier": "all problems, all values, all call histories", "why_tests_cant": "Whether the KKT matrix reaches AMD sorted depends on the transposition, the assembly of all cone blocks and the caller's order of rows together; the failure with duplicates looks like a memory problem to the caller.", "anchors": ["src/preproc.c: ECOS_setup, createKKT_U", "src/splamm.c: transposeSparseMatrix", "external/amd/src/amd_order.c: AMD_order"]}
{"id": "C55", "title": "Mixed-integer solver with its real continuous solver: memory safety for every call history", "statement": "For every consistent problem with at least one declared variable (all distinct), a positive node limit and a strategy other than strong branching, ECOS_BB_setup gives a workspace in order, or dereferences the null pointer of a failed ECOS_setup; nothing else can go wrong. With the built-in ordering the set-up succeeds if no column of A or G has two entries in one row (up to the integer size limit), and crashes if one has. From then on every sequence of ECOS_BB_solve (with interrupts at any time and any random numbers), updateDataEntry_h/_c with indices in range and changes of settings (not of the node limit) stays inside all arrays. The only possible undefined behaviours are: a continuous solve that stops in its first pass reads a best iterate that was never stored; a value of a declared variable does not fit the integer type; random branching never picks an admissible variable.", "quantifier": "all problems, all numeric values including NaN and infinities, all interrupts, all random numbers, all call histories", "why_tests_cant": "A search makes any number of continuous solves on one workspace, each of which may stop with any code; safety of a later solve depends on what all earlier ones left in the shared arrays.", "anchors": ["ecos_bb/ecos_bb.c: ECOS_BB_solve", "ecos_bb/ecos_bb_preproc.c: ECOS_BB_setup, updateDataEntry_h, updateDataEntry_c", "src/ecos.c: ECOS_solve"]}
{"id": "C56", "title": "The branch-and-bound search makes progress", "statement": "If the continuous solver returns finite points that respect the node's bounds up to less than the integrality tolerance (< 1/2), and accepted points have their declared integers between a and b, then the search creates at most 2^nb * prod(b-a+1) nodes, whatever the node limit. If the limit is larger, ECOS_BB_solve does not answer with an iteration-limit code, and with an exact continuous solver and a feasible integer point it answers 'optimal' with an objective within the tolerances of the best.", "quantifier": "all problems, all continuous solvers with the stated contract, all node limits, all branching strategies", "why_tests_cant": "A search that stops making progress looks like a hard instance: it ends with the iteration-limit code. The bound is over all trees and all splits.", "anchors": ["ecos_bb/ecos_bb.c: ECOS_BB_solve, branch, get_branch_var, get_branch_var_reliable, get_next_node"]}
{"id": "C57", "title": "Mixed-integer solver: what an 'optimal' answer says about the caller's problem", "statement": "After any history of set-up, solves, entry updates and changed settings (strategy other than strong branching), if ECOS_BB_solve answers 'optimal' (0, or 10 at the node limit), the returned x, y, z, s meet the solver's tolerances for the caller's own equality and inequality rows (row by row in units of the stored equilibration), with integer bounds on every declared variable, and the reported objectives are those of this problem. An interrupted search is not answered 'infeasible'.", "quantifier": "all problems with finite data, all call histories, all interrupts, all random numbers, any number of nodes", "why_tests_cant": "The answer is put together by augmentation, equilibration, rewriting of bounds before each of any number of continuous solves, and a copy of the best point; an error in any of them shows only for some instances and histories, and a wrong point may look plausible.", "anchors": ["ecos_bb/ecos_bb.c: ECOS_BB_solve, get_bounds, set_prob, store_solution, load_solution, get_ret_code", "ecos_bb/ecos_bb_preproc.c: ECOS_BB_setup, socp_to_ecos_bb, updateDataEntry_h, updateDataEntry_c", "src/ecos.c: ECOS_solve"]}
{"id": "C58", "title": "Primal barrier of the exponential cone", "statement": "The value the code uses for the primal exponential cone barrier is the convex conjugate of the dual barrier: at every point strictly inside the cone the supremum of -<s,z>-F(z) over the interior of the dual cone is attained, and evalBarrierValue returns the sum of dual barriers and these suprema up to an error of 1.2e-8 divided by the logarithmic distance of the point from the boundary. wrightOmega returns the solution of w + log w = z to within 1e-9 for every z >= 0.", "quantifier": "all primal points strictly inside the cone (relative distance at least 4e-9 for the error bound), all arguments z >= 0, any number of cones", "why_tests_cant": "A supremum over an open cone, and an error bound on an unbounded interval, cannot be sampled.", "anchors": ["src/wright_omega.c: wrightOmega", "src/expcone.c: evalBarrierValue"]}
{"id": "C59", "title": "A mixed-integer solve does not depend on history", "statement": "Two ECOS_BB workspaces that hold the same problem, settings and declared variables give the same answer when solved, whatever was solved in them before: the same exit code, node count, incumbent values of x, y, z, s, bounds and objective. In particular solving a workspace a second time gives the answer of the first solve.", "quantifier": "all problems, all earlier histories of the two workspaces, all sequences of random numbers, any number of nodes", "why_tests_cant": "The leftovers of earlier solves range over all histories; tests compare a few pairs of runs, and pseudo-random branching may agree on all of them.", "anchors": ["ecos_bb/ecos_bb.c: ECOS_BB_solve", "ecos_bb/ecos_bb.c: initialize_root", "ecos_bb/ecos_bb.c: get_bounds", "ecos_bb/ecos_bb.c: branch", "ecos_bb/ecos_bb_preproc.c: ECOS_BB_setup"]}
{"id": "C60", "title": "Equilibration with alternating norms, and without equilibration", "statement": "With the build option ALTERNATING_EQUIL, set-up divides each row of A by its 2-norm and each row of G by its norm, rows of one cone by the root of the mean square of their norms, then each column of the result by its norm (norms below 1/1000 count as 1). So the scaled matrix has columns of norm exactly 1 or below 1/1000, all factors are at least 1/1000 and equal on each cone, and removing the equilibration gives the caller's data back. Without an algorithm all factors are 1. No access leaves an array.", "quantifier": "all matrices and vectors, all cone layouts, with and without equality constraints", "why_tests_cant": "No test builds this variant; the norms and the cone averages must be right for every pattern and every layout of cones.", "anchors": ["src/equil.c: use_alternating_norm_equilibration", "src/equil.c: sum_sq_rows, sum_sq_cols", "src/equil.c: set_equilibration, unset_equilibration"]}
{"id": "C61", "title": "What the default equilibration achieves", "statement": "Set-up makes three passes; each divides every row and column of the current matrices by the root of its maximum norm (rows of one cone by the root of the sum of their norms, roots below 1/1000 count as 1), and the workspace keeps the products of the factors. Afterwards no entry of A and G is larger than 1 in magnitude, whatever the data and the cones, and no factor is below 1e-9. If all cones are half lines and the maximum norms of all rows and columns lie between lo and hi, with lo at least 1e-6 and lo/hi at least 1e-12, they lie between the eighth root of lo/hi and 1 afterwards.", "quantifier": "all matrices and vectors, all cone layouts, with and without equality constraints", "why_tests_cant": "A solver with badly scaled data still answers most test problems; a wrong norm or a skipped pass shows up only as lost accuracy on some problems.", "anchors": ["src/equil.c: use_ruiz_equilibration", "src/equil.c: max_rows, max_cols, equilibrate_rows, equilibrate_cols", "src/equil.c: set_equilibration"]}
{"id": "C62", "title": "Mixed-integer searches that end at the root", "statement": "The search first calls the continuous solver with the booleans free in [0, 1] and the integers within ±8388608. If this call is refused, ECOS_BB_solve answers 'no solution' (1, or 11 with the node limit 1). If it is accepted and all declared variables lie within the tolerance of integers, it answers 'optimal' (0, or 10 with the node limit 1), the bounds are the objective of this point, and x, y, z, s, kap, tau and info are those of this call; in particular a problem without declared variables gets the answer of one continuous solve. A point that was found is never answered by 'no solution', and 'optimal' is never answered without a point.", "quantifier": "all problems, settings with a gap tolerance of at least 0, and continuous solvers that keep to their arrays", "why_tests_cant": "The node limits 0 and 1, objectives that are not a number and problems without declared variables are corner cases outside every test; the wrong code is a legal one.", "anchors": ["ecos_bb/ecos_bb.c: ECOS_BB_solve", "ecos_bb/ecos_bb.c: get_bounds", "ecos_bb/ecos_bb.c: initialize_root", "ecos_bb/ecos_bb.c: get_ret_code"]}
{"id": "C63", "title": "The mixed-integer solver without integer variables is the continuous solver", "statement": "If no variable is declared boolean or integer, ECOS_BB_setup makes the workspace that ECOS_setup makes of the same arrays, and ECOS_BB_solve makes one call of ECOS_solve. If this call answers optimal, inaccurate optimal, iteration limit or numerical problems, with a finite objective, the answer is 0 (10 with the node limit 1) and x, y, z, s, kap, tau and info are those of ECOS_solve; for its other answers (infeasible, unbounded, interrupted, outside the cone) it is 1 (11 with the node limit 1). Where ECOS_setup gives a null pointer, ECOS_BB_setup crashes.", "quantifier": "all consistent problems, orderings, node limits of at least 1, gap tolerances of at least 0, interrupts", "why_tests_cant": "The test problems of the mixed-integer solver all declare variables, and a copy of the matrix that differs in one entry or a solution loaded from the wrong array changes results only for particular data.", "anchors": ["ecos_bb/ecos_bb_preproc.c: ECOS_BB_setup", "ecos_bb/ecos_bb_preproc.c: socp_to_ecos_bb", "ecos_bb/ecos_bb.c: ECOS_BB_solve"]}
{"id": "C64", "title": "Interrupts of a mixed-integer solve, and the caller's signal handler", "statement": "However often the user presses Ctrl-C during ECOS_BB_solve and the calls around it, the signal handler that was active before the call is active again afterwards, and an interrupted search says so: it does not answer 'optimal' or 'infeasible' for a part of the tree that it dropped because of the interrupt.", "quantifier": "all consistent problems with declared variables, all histories of calls after set-up, all interrupt schedules over all continuous solves", "why_tests_cant": "The tests send no signals; which continuous solve and which pass an interrupt hits decides which nodes are dropped.", "anchors": ["ecos_bb/ecos_bb.c: ECOS_BB_solve", "ecos_bb/ecos_bb.c: get_bounds", "src/ctrlc.c: init_ctrlc, remove_ctrlc", "src/ecos.c: ECOS_solve"]}
{"id": "C65", "title": "How many continuous problems one mixed-integer solve solves", "statement": "Whatever the workspace holds, ECOS_BB_solve calls ECOS_solve at least once and, with a node limit of N and n declared variables, at most (2N - 1)(t + 2) times, where t = 0 for the branching strategies that make no trial solves (most infeasible, random, pseudocost) and t = 1 + 2n for strong and reliability branching. With k passes of the search, k at most N - 1, the count is between 1 + 2k and (1 + 2k)(t + 2). Over a history of calls without trial solves the total lies between the number S of mixed-integer solves and 2(2N - 1)S. Each of these calls ends with a documented code and, unless it is FATAL, within the iteration limit of the continuous solver, so the passes of one mixed-integer solve are bounded by the product.", "quantifier": "all workspaces (also corrupted ones), all numbers, all settings, all interrupt schedules, all values of rand, all histories of calls", "why_tests_cant": "Tests see single runs; the bound has to hold for every tree and for every outcome of every node solve, including failed and interrupted ones.", "anchors": ["ecos_bb/ecos_bb.c: ECOS_BB_solve", "ecos_bb/ecos_bb.c: get_bounds", "ecos_bb/ecos_bb.c: should_continue", "ecos_bb/ecos_bb.c: get_branch_var_strong_branching"]}
{"id": "C66", "title": "The caller's data after a mixed-integer session", "statement": "ECOS_BB_setup copies G and h but takes the caller's own arrays A, b and c into the continuous workspace. No call (solves with any settings, updates of h and c, changed settings) changes A, G, b or the scaling factors after the set-up, for any number type; and ECOS_BB_cleanup puts the caller's numbers back into A and b, in exact arithmetic. ECOS_BB_solve also leaves c as it found it. (The last sentence is false: every continuous solve that ends with OUTCONE leaves c divided by the factors once more.)", "quantifier": "all problems and declarations of ECOS_BB_setup, all histories of calls, all settings, all interrupt schedules; for the matrices also all number types and all workspaces", "why_tests_cant": "Scaling is undone on exits of the continuous solver that depend on the run; tests reach only some of the exits, and a search makes many solves in a row.", "anchors": ["ecos_bb/ecos_bb_preproc.c: ECOS_BB_setup", "ecos_bb/ecos_bb_preproc.c: ECOS_BB_cleanup", "ecos_bb/ecos_bb.c: ECOS_BB_solve", "src/equil.c: unset_equilibration", "src/ecos.c: ECOS_solve"]}
{"id": "C67", "title": "The times the solver reports", "statement": "toc returns the time since tic: for any two readings of the clock the subtraction of seconds and nanoseconds does not overflow, is exact and normalised, and is not negative if the clock did not go back; times of adjacent intervals add up. The timer does not change what ECOS_solve computes, and after every ECOS_solve info->tsolve is the time of that call. (The last part is false: a solve that returns OUTCONE leaves info->tsolve as it was; after a first solve it is memory that was never written.)", "quantifier": "all readings of a POSIX clock with 64-bit seconds, all workspaces, all exits", "why_tests_cant": "The borrow in the subtraction depends on the instant of the call, and the missing time on an exit few problems take.", "anchors": ["src/timer.c: tic", "src/timer.c: toc", "src/ecos.c: ECOS_solve", "src/preproc.c: ECOS_setup", "include/ecos.h: stats"]}
{"id": "C68", "title": "The infeasibility flags agree with the exit code", "statement": "After every ECOS_solve info->pinf is 1 if the exit code is 1 or 11 (primal infeasible, or close to it) and 0 otherwise, and info->dinf is 1 if the code is 2 or 12 (unbounded, or close to it) and 0 otherwise, whatever an earlier solve left in the flags and on every exit, including the iteration limit, an interrupt, numerical problems, a step out of the cone and a failed factorisation.", "quantifier": "all numbers, all workspaces and settings, all interrupts, all exits", "why_tests_cant": "The flags are written in four places and copied in none; a stale flag shows only for particular sequences of solves and exits, among them the recovery of the best iterate.", "anchors": ["src/ecos.c: checkExitConditions", "src/ecos.c: init", "src/ecos.c: restoreBestIterate", "src/ecos.c: ECOS_solve", "include/ecos.h: stats"]}
{"id": "C69", "title": "The statistics after a mixed-integer solve", "statement": "After every ECOS_BB_solve the statistics in ecos_prob->info have been written, and are those of the continuous solve that gave the answer: for an answer with a point (0 or 10) all fields are those of the one solve that found the point, both infeasibility flags are 0 and the iteration count is within the limit of the continuous solver. (For an answer without a point this is false: load_solution overwrites *info with what an earlier search stored, in a new workspace with memory that was never written.)", "quantifier": "all sessions of a mixed-integer workspace, all interrupts, all exits", "why_tests_cant": "The statistics are copied out and back in; a mix of two solves, or memory that was never written, looks like plausible numbers.", "anchors": ["ecos_bb/ecos_bb.c: store_solution", "ecos_bb/ecos_bb.c: load_solution", "ecos_bb/ecos_bb.c: ECOS_BB_solve", "ecos_bb/ecos_bb_preproc.c: ECOS_BB_setup"]}
