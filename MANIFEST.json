{
 "claims": [
  {
   "property": "C01",
   "status": "proved",
   "theorems": [
    "Ecos.C01_sparseMV_exact",
    "Ecos.C01_sparseMV_safe"
   ],
   "note": "value over exact reals, memory safety for every number type"
  },
  {
   "property": "C02",
   "status": "proved",
   "theorems": [
    "Ecos.C02_sparseMtVm_exact",
    "Ecos.C02_sparseMtVm_safe",
    "Ecos.C02_adjoint"
   ],
   "note": "value over exact reals, memory safety for every number type"
  },
  {
   "property": "C03",
   "status": "partial",
   "theorems": [
    "Ecos.C03_transpose_partial",
    "Ecos.C03_transpose_map",
    "Ecos.C03_transpose_empty_violated"
   ],
   "note": "proved for matrices with at least one entry; for matrices with rows but no entries the code returns unwritten column pointers, the negation is proved"
  },
  {
   "property": "C04",
   "status": "proved",
   "theorems": [
    "Ecos.C04_permute",
    "Ecos.C04_pinv"
   ],
   "note": ""
  },
  {
   "property": "C05",
   "status": "proved",
   "theorems": [
    "Ecos.Asm.C05_assembled",
    "Ecos.Asm.C05_setup",
    "Ecos.Asm.C05_no_entries_violated"
   ],
   "note": "any pattern, any mix of cones, with and without A, any ordering; every cone has dimension > 0; a matrix with rows must have a stored entry (for the others set-up reads unwritten column pointers, negation proved). C05_assembled is on the assembled matrix, C05_setup on the permuted matrix the factorisation gets after the whole of ECOS_setup"
  },
  {
   "property": "C06",
   "status": "proved",
   "theorems": [
    "Ecos.Asm.C06_update",
    "Ecos.Asm.C06_solve",
    "Ecos.Asm.C06_null_violated"
   ],
   "note": "for every workspace obtained from set-up by any sequence of whole-data and single-entry updates, settings changes and solves (any exit code, any numbers, any interrupts). Without equations a call whose new G lies apart from the old one dereferences a null pointer (proved: C06_null_violated), so that call is excluded. C06_solve: the next solve gives the answer of a solve of the fresh workspace (first pass not stopped at once)"
  },
  {
   "property": "C07",
   "status": "proved",
   "theorems": [
    "Ecos.Fact.C07_lsolve",
    "Ecos.Fact.C07_dsolve",
    "Ecos.Fact.C07_ltsolve",
    "Ecos.Fact.C07_safe"
   ],
   "note": "Exact over the reals; C07_safe is memory safety for any arithmetic."
  },
  {
   "property": "C08",
   "status": "proved",
   "theorems": [
    "Ecos.Fact.C08_completes",
    "Ecos.Fact.C08_factor",
    "Ecos.Fact.C08_pivots",
    "Ecos.Fact.C08_no_fatal"
   ],
   "note": "Completion and memory safety for any arithmetic (also with NaN and infinities); pivots nonzero with the prescribed sign over the reals, eps >= 0 and delta > 0. With a negative iteration limit the solve does return FATAL, without factoring (see C23)."
  },
  {
   "property": "C09",
   "status": "proved",
   "theorems": [
    "Ecos.Fact.C09_reproduces",
    "Ecos.Fact.C08_completes"
   ],
   "note": "The matrix may not store an entry twice (the code lets the last one win)."
  },
  {
   "property": "C10",
   "status": "proved",
   "theorems": [
    "Ecos.Fact.C10_solves"
   ],
   "note": "Forward, diagonal and backward solve with the permuted right-hand side; iterative refinement is C11."
  },
  {
   "property": "C11",
   "status": "proved",
   "theorems": [
    "Ecos.Fact.C11_bounded",
    "Ecos.Fact.C11_not_worse"
   ],
   "note": "C11_bounded: for any arithmetic, no access outside the arrays and the step count is between 0 and max(0, nitref). C11_not_worse: in exact arithmetic the max norm of the residual (sysRes: the residual as the code forms it from A, G, the cone blocks and the static regularisation) of the returned solution is at most that of the unrefined one. The code's residual has sign slips in the regularisation of two rows per second-order cone; see DESIGN section 5."
  },
  {
   "property": "C12",
   "status": "proved",
   "theorems": [
    "Ecos.Equil.C12_factors",
    "Ecos.Equil.C12_cone",
    "Ecos.Equil.C12_dual_cone"
   ],
   "note": "Factors found by set-up are positive and equal on each cone; scaling by them maps the cone onto itself (and the dual cone)."
  },
  {
   "property": "C13",
   "status": "partial",
   "theorems": [
    "Ecos.Equil.C13_round_trip",
    "Ecos.Equil.C13_solve_data",
    "Ecos.Equil.C13_c_restored_partial",
    "Ecos.Equil.C13_given_back_partial",
    "Ecos.Run.C27_C13_outcone_violated"
   ],
   "note": "A, G, b, h: proved for every exit code and every number of solves. c: proved for every exit code but OUTCONE; for OUTCONE the claim is false (concrete run: C27_C13_outcone_violated), and C13_solve_data says what c holds then. Exact arithmetic, as the claim says."
  },
  {
   "property": "C14",
   "status": "proved",
   "theorems": [
    "Ecos.Equil.C14_solution",
    "Ecos.Equil.C14_objective",
    "Ecos.Equil.C14_returned"
   ],
   "note": "Exact arithmetic. C14_returned links the statement to what a solve hands back."
  },
  {
   "property": "C15",
   "status": "proved",
   "theorems": [
    "Ecos.Equil.C15_h",
    "Ecos.Equil.C15_c",
    "Ecos.Equil.C15_sequence"
   ],
   "note": "Exact arithmetic. That the next solve reads these arrays is C13_solve_data/ProbIs."
  },
  {
   "property": "C16",
   "status": "proved",
   "theorems": [
    "Ecos.Cones.C16_bring2cone"
   ],
   "note": "Over the reals, every list of cones, every vector. The shift is alpha*e with alpha >= 1/100."
  },
  {
   "property": "C17",
   "status": "proved",
   "theorems": [
    "Ecos.Scaling.C17_scaling_point",
    "Ecos.Scaling.C17_outside_reported",
    "Ecos.Scaling.C17_linear_outside_violated"
   ],
   "note": "Exact arithmetic; hypotheses: s, z strictly interior and above the SAFEDIV_POS floors. The report is given for second-order cones with nonpositive determinant; the linear part is never checked (witness)."
  },
  {
   "property": "C18",
   "status": "proved",
   "theorems": [
    "Ecos.Scaling.C18_inverse"
   ],
   "note": "For every scaling produced by updateScalings from interior points above the floors; W is exhibited as a symmetric linear map."
  },
  {
   "property": "C19",
   "status": "proved",
   "theorems": [
    "Ecos.Scaling.C19_expanded_block"
   ],
   "note": "scale2add adds B x; eliminating the additional variables of B gives W^2. Existence and uniqueness of the eliminated variables included."
  },
  {
   "property": "C20",
   "status": "proved",
   "theorems": [
    "Ecos.Cones.C20_product",
    "Ecos.Cones.C20_division_inverts",
    "Ecos.Cones.C20_division_total",
    "Ecos.Cones.C20_floor_violated"
   ],
   "note": "Division inverts the product when entries and determinants reach the floor EPS of SAFEDIV_POS; below the floor the claim is false (witness). Totality holds in every arithmetic."
  },
  {
   "property": "C21",
   "status": "proved",
   "theorems": [
    "Ecos.Line.C21_linesearch",
    "Ecos.Line.C21_skipped_cone_violated"
   ],
   "note": "Step lengths accepted by lineSearch keep linear and second-order parts, tau and kappa in the cone, over the reals, from interior points. A cone skipped by `continue` (only when lambda is not interior) is a proved violation."
  },
  {
   "property": "C22",
   "status": "proved",
   "theorems": [
    "Ecos.C22_ranges",
    "Ecos.C22_centering_ieee",
    "Ecos.C22_nan"
   ],
   "note": "ranges over exact reals; in IEEE comparisons the centering parameter is in range unless the affine step is NaN, in which case it is NaN (C22_nan)"
  },
  {
   "property": "C23",
   "status": "proved",
   "theorems": [
    "Ecos.C23_documented",
    "Ecos.C23_pass_bound",
    "Ecos.C23_iterations"
   ],
   "note": "every number type, every interrupt schedule, every maxit"
  },
  {
   "property": "C24",
   "status": "partial",
   "theorems": [
    "Ecos.C24_optimal_tolerances",
    "Ecos.C24_optimal_iterate",
    "Ecos.Run.C26_stale_violated"
   ],
   "note": "tolerances proved for codes 0 and 10; that info describes the returned iterate of this solve proved for code 0; for code 10 it is false when the solve stops in pass 0 (run with a stale best iterate), otherwise covered by C26_returned_partial"
  },
  {
   "property": "C25",
   "status": "proved",
   "theorems": [
    "Ecos.StatProps.C25_tests",
    "Ecos.StatProps.C25_solve",
    "Ecos.StatProps.C25_primal_bound",
    "Ecos.StatProps.C25_dual_bound",
    "Ecos.StatProps.C25_primal_user",
    "Ecos.StatProps.C25_dual_user"
   ],
   "note": "Over the extended reals, for finite data and iterates. Codes 1 and 2 for all executions; 11 and 12 when at least one iteration was made (without one the best iterate is stale, see C26). With the default tolerances the bound reltol/tol is 1: the certificate excludes feasible points of scaled norm at most 1 only."
  },
  {
   "property": "C26",
   "status": "partial",
   "theorems": [
    "Ecos.C26_returned_partial",
    "Ecos.C26_stale",
    "Ecos.Run.C26_fresh_violated",
    "Ecos.Run.C26_fresh_interrupt_violated",
    "Ecos.Run.C26_stale_violated"
   ],
   "note": "proved for every solve that does not stop in pass 0 by restoring a best iterate; violated in that case, with concrete runs"
  },
  {
   "property": "C27",
   "status": "partial",
   "theorems": [
    "Ecos.C27_handler_restored",
    "Ecos.C27_interrupt_ends",
    "Ecos.C27_no_spurious",
    "Ecos.C27_handler_left_violated",
    "Ecos.Run.C27_C13_outcone_violated"
   ],
   "note": "proved for all returns but OUTCONE/FATAL; after OUTCONE the handler stays installed (proved, with a run)"
  },
  {
   "property": "C28",
   "status": "partial",
   "theorems": [
    "Ecos.Asm.C28_again_partial",
    "Ecos.Run.C28_outcone_violated"
   ],
   "note": "violated: after a solve that ends with OUTCONE the objective is left divided by the equilibration, and the same call gives another x (concrete run). C28_again_partial: in exact arithmetic every other exit code gives the same answer again (code, iterate, statistics, signal state), provided the iteration limit is not 0 and no interrupt arrives before the first pass; with rounding c * e / e need not be c, for that see C47"
  },
  {
   "property": "C29",
   "status": "proved",
   "theorems": [
    "Ecos.Exp.C29_primal",
    "Ecos.Exp.C29_dual",
    "Ecos.Exp.C29_pair",
    "Ecos.Exp.C29_primal_violated",
    "Ecos.Exp.C29_dual_violated",
    "Ecos.Exp.C29_pair_violated"
   ],
   "note": "Exact characterisation of both tests on finite points of the extended reals. Boundary points with a zero divisor are accepted although outside the cones: proved violations; pairs without them have nonnegative inner product."
  },
  {
   "property": "C30",
   "status": "proved",
   "theorems": [
    "Ecos.Exp.C30_gradient",
    "Ecos.Exp.C30_hessian",
    "Ecos.Exp.C30_product",
    "Ecos.Exp.C30_barrier_value"
   ],
   "note": "Frechet derivatives over the reals at every strictly feasible dual point; also positive definiteness."
  },
  {
   "property": "C31",
   "status": "partial",
   "theorems": [
    "Ecos.C31_linesearch_partial",
    "Ecos.Run.C31_tau_violated"
   ],
   "note": "bound, counters and feasibility tests proved for every number type; positivity of tau/kappa is not ensured by the code (run)"
  },
  {
   "property": "C32",
   "status": "proved",
   "theorems": [
    "Ecos.Exp.C32_initial"
   ],
   "note": "For every list of cones and every positive scaling."
  },
  {
   "property": "C33",
   "status": "proved",
   "theorems": [
    "Ecos.BB.C33_branch_covers"
   ],
   "note": "every node state, split variable, finite split value in int range"
  },
  {
   "property": "C34",
   "status": "proved",
   "theorems": [
    "Ecos.BB.C34_rounding",
    "Ecos.BB.C34_float_eqls",
    "Ecos.BB.C34_ceil_of_integer_tol_zero"
   ],
   "note": "C34_ceil_of_integer_tol_zero records the one departure (at an integer, tolerance 0)"
  },
  {
   "property": "C35",
   "status": "proved",
   "theorems": [
    "Ecos.BB.C35_reported_solution",
    "Ecos.BB.C35_integral"
   ],
   "note": "solver arbitrary except: finite points; deterministic for strong branching; for integrality it respects node bounds up to eps"
  },
  {
   "property": "C36",
   "status": "proved",
   "theorems": [
    "Ecos.BB.C36_optimal",
    "Ecos.BB.C36_infeasible",
    "Ecos.BB.C36_unbounded_reported_infeasible"
   ],
   "note": "third theorem records that an unbounded relaxation is reported as infeasible"
  },
  {
   "property": "C37",
   "status": "proved",
   "theorems": [
    "Ecos.BB.C37_search_bounded",
    "Ecos.BB.C37_search_returns"
   ],
   "note": "outcomes other than a documented code are only the out-of-range cast and the unbounded random draw; C37_search_returns excludes both"
  },
  {
   "property": "C38",
   "status": "partial",
   "theorems": [
    "Ecos.BB.C38_node_bounds_partial",
    "Ecos.BB.C38_augmented",
    "Ecos.BB.C38_order_violated",
    "Ecos.BB.C38_unchecked_violated"
   ],
   "note": "proved for increasing lists with booleans before integers; for other orders the code imposes the bounds on other variables, and for repeated or out-of-range variables the set-up reads unwritten memory, both proved by witnesses"
  },
  {
   "property": "C39",
   "status": "partial",
   "theorems": [
    "Ecos.BB.C39_update_h_partial",
    "Ecos.BB.C39_integer_vars_violated"
   ],
   "note": "proved without integer variables; with integer variables the wrong row is changed, the negation is proved for every such problem"
  },
  {
   "property": "C40",
   "status": "partial",
   "theorems": [
    "Ecos.Ledger.C40_cleanup_partial",
    "Ecos.Ledger.C40_dims_leak_violated",
    "Ecos.Ledger.C40_amd_leak_violated"
   ],
   "note": "proved for every successful set-up; both failing set-ups leak (proved)"
  },
  {
   "property": "C41",
   "status": "proved",
   "theorems": [
    "Ecos.C41_dims",
    "Ecos.C41_success"
   ],
   "note": "every number type; dimensions are naturals"
  },
  {
   "property": "C42",
   "status": "proved",
   "theorems": [
    "Ecos.Dir.C42_pass",
    "Ecos.Dir.C42_inexact",
    "Ecos.Dir.C42_residuals",
    "Ecos.Dir.C42_complementarity",
    "Ecos.Dir.C42_feasible"
   ],
   "note": "over the reals, no exponential cones, as the claim says. C42_pass: every pass of every solve is such an iteration (model of the whole pass: rhs, solves, scaling, centring, step). C42_inexact gives the residuals for any answer of the linear solver; the complementarity part assumes that no division by lambda is stopped by its floor (safediv), else the code does something else"
  },
  {
   "property": "C43",
   "status": "partial",
   "theorems": [
    "Ecos.StatProps.C43_formulas",
    "Ecos.StatProps.C43_solve",
    "Ecos.StatProps.C43_gap",
    "Ecos.StatProps.C43_gap_tau_violated"
   ],
   "note": "All numbers are the documented ones. The last part of the claim is false unless tau = 1: with zero residuals the gap is tau^2 times the difference of the reported objectives (proved, with a witness for tau = 2)."
  },
  {
   "property": "C44",
   "status": "proved",
   "theorems": [
    "Ecos.C44_optimal",
    "Ecos.C44_dual_infeasible",
    "Ecos.C44_primal_infeasible",
    "Ecos.C44_solve",
    "Ecos.C44_compare"
   ],
   "note": "reals with infinities and NaN under the IEEE comparison rules"
  },
  {
   "property": "C45",
   "status": "proved",
   "theorems": [
    "Ecos.Ledger.C45_bb_cleanup"
   ],
   "note": "every shape"
  },
  {
   "property": "C46",
   "status": "proved",
   "theorems": [
    "Ecos.Asm.C46_setup",
    "Ecos.Asm.C46_setup_succeeds",
    "Ecos.Asm.C46_call",
    "Ecos.Asm.C46_history",
    "Ecos.Asm.C46_solve",
    "Ecos.Asm.C46_cleanup"
   ],
   "note": "for every number type (so for doubles with rounding, NaN and infinities). A matrix with rows has at least one entry (C03/C05), no new G apart from the old one without equations (C06_null_violated); the only undefined behaviour left is the one of C26 (best iterate read before there is one), and C46_call says exactly which calls can have it (iteration limit 0, interrupt before the first pass, or a first primal cost that is NaN)"
  },
  {
   "property": "C47",
   "status": "proved",
   "theorems": [
    "Ecos.Asm.C47_same",
    "Ecos.Asm.C06_solve"
   ],
   "note": "for every number type. Excluded are the solves that C26 shows reading an unwritten best iterate: iteration limit 0, interrupt before the first pass, or a first primal cost that is NaN. Compared are the exit code, x, y, z, s, kappa, tau, the iteration number, the signal state, and (unless the iteration limit is negative) the statistics except info.pinf and info.dinf, which a solve need not write"
  },
  {
   "property": "C48",
   "status": "proved",
   "theorems": [
    "Ecos.Dir.C48_start",
    "Ecos.Dir.C48_pass",
    "Ecos.Dir.C48_iterates",
    "Ecos.Dir.C48_symmetric"
   ],
   "note": "over the reals. Covers the linear and second-order cones and tau, kappa, also for problems that have exponential cones as well; the exponential cones themselves only at the start (C48_start) - what their line search tests is C31. StepRange: 0 <= gamma < 1, 0 <= bk_scale <= 1. The floors are the EPS of safeDiv_pos (Scaling.Floors)"
  },
  {
   "property": "C49",
   "status": "proved",
   "theorems": [
    "Ecos.Asm.C49_optimal",
    "Ecos.Asm.C49_value",
    "Ecos.Asm.C49_infeasible",
    "Ecos.Asm.C49_no_small_point",
    "Ecos.Asm.C49_cones"
   ],
   "note": "C49_optimal and C49_infeasible over XR (reals with infinities and NaN): the variables handed back and the three or four tolerances used must be finite, tau positive. The gap tested by the code is the gap of the scaled iterate, that is tau^2 s'z of what is handed back; Accurate says so. Membership of z in the dual cone is a hypothesis of C49_value and C49_no_small_point; C49_cones gives it over the reals for problems without exponential cones."
  },
  {
   "property": "C50",
   "status": "proved",
   "theorems": [
    "Ecos.Amd.C50_valid",
    "Ecos.Amd.C50_accepted",
    "Ecos.Amd.C50_reads_past"
   ],
   "note": "C50_reads_past is the input for which the check itself reads outside Ai; C50_accepted needs no assumption about the arrays"
  },
  {
   "property": "C51",
   "status": "proved",
   "theorems": [
    "Ecos.Amd.C51_aat"
   ],
   "note": "sorted input, which is what AMD_order passes; the bounds are those of the ASSERT at amd_order.c:143 (which would fail for inputs with duplicates, where nz counts them)"
  },
  {
   "property": "C52",
   "status": "proved",
   "theorems": [
    "Ecos.Amd.C52_preprocess"
   ],
   "note": ""
  },
  {
   "property": "C53",
   "status": "proved",
   "theorems": [
    "Ecos.Amd.C53_order",
    "Ecos.Amd.C53_workspace",
    "Ecos.Amd.C53_sound"
   ],
   "note": "malloc is assumed to succeed; idxint unbounded in the arithmetic, imax is Int_MAX in the test of amd_order.c:160 and in clear_flag; the bound for dense rows (a float computation) is arbitrary; Info statistics not modelled. Nothing is said about the quality of the ordering"
  },
  {
   "property": "C54",
   "status": "proved",
   "theorems": [
    "Ecos.Asm.C54_setup",
    "Ecos.Asm.C54_size",
    "Ecos.Asm.C54_succeeds",
    "Ecos.Asm.C54_duplicates",
    "Ecos.Asm.C54_dup_example",
    "Ecos.Asm.C54_history",
    "Ecos.Asm.C54_optimal",
    "Ecos.Asm.C54_infeasible"
   ],
   "note": "C54_setup, C54_history for every number type; C54_optimal, C54_infeasible over XR as C49. PatGood as in C46 (a matrix with rows has an entry, C03)"
  },
  {
   "property": "C55",
   "status": "proved",
   "theorems": [
    "Ecos.BB.C55_setup",
    "Ecos.BB.C55_call",
    "Ecos.BB.C55_history",
    "Ecos.BB.C55_setup_succeeds",
    "Ecos.BB.C55_duplicates_crash",
    "Ecos.BB.C55_strong_branching_violated"
   ],
   "note": "for every number type whose < satisfies LtLaws (irreflexive etc., NaN allowed); strong branching (strategy 1) is excluded in the statement, it is treated in C33-C37 under a determinism hypothesis; C55_strong_branching_violated is the reason: a concrete run of the real solver that writes out of bounds"
  },
  {
   "property": "C56",
   "status": "partial",
   "theorems": [
    "Ecos.BB.C56_terminates_partial",
    "Ecos.BB.C56_finds_optimum_partial",
    "Ecos.BB.C56_default_strategy_violated"
   ],
   "note": "proved for most-infeasible, strong (with the determinism hypothesis of C33-C37), pseudocost and random branching; reliability branching (the default) violates it: it uses up the node limit on a problem with one integer variable (third theorem)"
  },
  {
   "property": "C57",
   "status": "partial",
   "theorems": [
    "Ecos.BB.C57_accurate_partial",
    "Ecos.BB.C57_rows",
    "Ecos.BB.C57_violated",
    "Ecos.BB.C57_interrupt_violated"
   ],
   "note": "over XR (reals with infinities and NaN); proved when the continuous solve the answer comes from ended with 0 or 10: the search also takes points of solves that ended with -1 or -2 and answers 0 (C57_violated), and answers 'infeasible' after an interrupt (C57_interrupt_violated). Right-hand side updates as the code does them with integer variables (C39). NaN objective excluded"
  },
  {
   "property": "C58",
   "status": "proved",
   "theorems": [
    "Ecos.Exp.C58_omega",
    "Ecos.Exp.C58_primal",
    "Ecos.Exp.C58_barrier_value"
   ],
   "note": "over the reals (exact arithmetic; the constants of the series as in the code). IsConj is stated with the dual barrier of C30 and the dual cone as the set of functionals positive on the cone"
  },
  {
   "property": "C59",
   "status": "partial",
   "theorems": [
    "Ecos.BB.C59_same_partial",
    "Ecos.BB.C59_real_partial",
    "Ecos.BB.C59_again_partial",
    "Ecos.BB.C59_default_strategy_violated"
   ],
   "note": "proved for most-infeasible branching (strategy 0), with an abstract deterministic continuous solver and with the real one: two runs in step (Lemmas/BBSame). For all the other strategies (1, 2, the default 3, and 4) the property is false and the negation is proved on concrete runs: rand() is never seeded and the pseudocost tables are cleared by set-up only. Asked of the continuous solves (GoodSolves, on the workspaces a node can have): maxit not 0, no NaN or interrupt at iteration 0 (then C47 fails), and booleans inside (-1/2, 3/2)"
  },
  {
   "property": "C60",
   "status": "proved",
   "theorems": [
    "Ecos.Equil.C60_alternating",
    "Ecos.Equil.C60_restore",
    "Ecos.Equil.C60_none",
    "Ecos.Equil.C60_safe"
   ],
   "note": "the factors, norms and the way back over the reals (exact arithmetic); memory safety for every number type. C12_cone, C14_solution and C14_objective apply to these factors as they stand, since they ask for Fac.Ok and ScaledBy only"
  },
  {
   "property": "C61",
   "status": "proved",
   "theorems": [
    "Ecos.Equil.C61_passes",
    "Ecos.Equil.C61_balances"
   ],
   "note": "over the reals (exact arithmetic); Lemmas/EquilRuiz.setEquilibration_res gives the same recursion for every number type"
  },
  {
   "property": "C62",
   "status": "partial",
   "theorems": [
    "Ecos.BB.C62_root_partial",
    "Ecos.BB.C62_continuous_partial",
    "Ecos.BB.C62_no_nodes_violated",
    "Ecos.BB.C62_one_node_violated",
    "Ecos.BB.C62_found_but_denied_violated",
    "Ecos.BB.C62_nan_violated"
   ],
   "note": "the answers for a refused root, an integral root and a problem without declared variables are proved in full. The last sentence of the statement is false and its negation is proved: with the node limit 1 the answer is 11 although rounding has found a point, with an objective that is not a number the answer is 0 with nothing stored, and with the node limit 0 the root record itself is outside the array"
  },
  {
   "property": "C63",
   "status": "proved",
   "theorems": [
    "Ecos.BB.C63_setup",
    "Ecos.BB.C63_plain"
   ],
   "note": "set-up for every number type, the solve over reals with infinities and NaN"
  },
  {
   "property": "C64",
   "status": "partial",
   "theorems": [
    "Ecos.BB.C64_handler_partial",
    "Ecos.BB.C64_history",
    "Ecos.BB.C64_trace",
    "Ecos.BB.C64_histories",
    "Ecos.BB.C64_lost_violated",
    "Ecos.BB.C64_outcone_violated",
    "Ecos.BB.C64_never_told_violated",
    "Ecos.BB.C64_interrupt_optimal_violated"
   ],
   "note": "proved for all strategies and any workspace (C64_trace): the handler is restored unless one of the continuous solves, listed in order, ended with OUTCONE or FATAL. The rest is false and its negation is proved: after OUTCONE the handler of ECOS stays for all later calls; no answer ever says 'interrupted'; one interrupt turns the answer of a small problem into 'optimal' for a point that is not"
  },
  {
   "property": "C65",
   "status": "proved",
   "theorems": [
    "Ecos.BB.C65_calls",
    "Ecos.BB.realEnv_counts",
    "Ecos.BB.C65_solves",
    "Ecos.BB.C65_history",
    "Ecos.BB.bbSolve_path",
    "Ecos.BB.C65_passes"
   ],
   "note": "for every run that ends without undefined behaviour and within the fuel of the model; no assumption on the workspace"
  },
  {
   "property": "C66",
   "status": "partial",
   "theorems": [
    "Ecos.BB.C66_matrices",
    "Ecos.BB.C66_given_back",
    "Ecos.BB.C66_session",
    "Ecos.BB.C66_costs_partial",
    "Ecos.BB.C66_costs_histories",
    "Ecos.BB.C66_costs_session",
    "Ecos.BB.C66_costs_violated"
   ],
   "note": "A, G, b and the factors: proved for all histories; A and b given back by the clean-up: proved over the reals; that the clean-up runs after any valid calls: proved for any numbers with an order (C66_session). c: proved to be divided by the factors once per continuous solve that ends with OUTCONE, so unchanged without one (over histories: the number asked for last, divided some number of times by the factor); unchanged in general is false (C66_costs_violated, a run)"
  },
  {
   "property": "C67",
   "status": "partial",
   "theorems": [
    "Ecos.Timer.C67_elapsed",
    "Ecos.Timer.C67_toc",
    "Ecos.Timer.C67_nested",
    "Ecos.Timer.C67_solve_partial",
    "Ecos.Timer.C67_untimed_violated"
   ],
   "note": "the difference is exact on integers, its conversion to seconds over the reals. tsolve: written on every exit but OUTCONE (any numbers, any workspace); on that exit the claim is false (C67_untimed_violated, a run)"
  },
  {
   "property": "C68",
   "status": "proved",
   "theorems": [
    "Ecos.Flags.C68_flags",
    "Ecos.Flags.C68_same"
   ],
   "note": "any number type, any workspace, no hypothesis but that the call returns; examples: an optimal and an unbounded run with wrong flags before"
  },
  {
   "property": "C69",
   "status": "partial",
   "theorems": [
    "Ecos.BB.C69_found_partial",
    "Ecos.BB.C69_unwritten_violated",
    "Ecos.BB.C69_interrupted_violated"
   ],
   "note": "answers with a point: extended reals, any session without strong branching, reported bound not NaN. Answers without a point: false, for every continuous solver that refuses the root (C69_unwritten_violated), and by a run of the real one"
  }
 ]
}