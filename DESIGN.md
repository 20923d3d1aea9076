# Formal model of ECOS / ECOS_BB in Lean 4 — design

Source: embotech/ecos as found in /repo (read as text, never built or run).
Default build configuration: `CONEMODE=0`, `EXPCONE`, `STATICREG=1`, `DELTASTAT=7e-8`,
`EQUILIBRATE=1`/`RUIZ_EQUIL`/`EQUIL_ITERS=3`, `CTRLC=1`, `DLONG`, `pfloat=double`.

## 1. Trusted base

* The Lean 4 kernel and the three standard axioms `propext`, `Classical.choice`, `Quot.sound`
  (every theorem; many use fewer). No axiom of ours, no `sorry`, no `native_decide`/`bv_decide`.
* The transcription of the C text into Lean: each definition cites file and lines, and lists
  its simplifications. Reading mistakes there are not caught by the kernel.
* Standard C facts not modelled: object layout, alignment, `malloc` failure (assumed to succeed),
  64-bit overflow of `idxint` (indices are unbounded naturals), printing, timing.

## 2. Modelling decisions

**Undefined behaviour is an outcome.** Every function that touches memory lives in
`M α = Except UB α`, with outcomes `oob` (index outside the array), `uninit` (read of a
never-written cell), `nullDeref`, `castRange` (float to int out of range), `fuel` (a `while` loop
did not end within the fuel given by the caller; the theorems show it never happens).
A C array is `Buf α = Array (Option α)`: `none` is a never-written cell.
`malloc` gives all-`none` cells. Loops are an explicit `loop lo hi state body`.

**Numbers.** Functions are generic in the number type `F` with uninterpreted operations
(`+,-,*,/,neg, <, <=, ==, sqrt, log, fabs, (int)cast, isnan, isinf`, decimal literals).
* Theorems about memory, control flow, indices, exit codes hold for *every* `F`, thus also
  for IEEE doubles with their rounding.
* Theorems about algebra instantiate `F = ℝ` (exact arithmetic; stated as such).
* Theorems about NaN and infinities instantiate `F = XR`
  (reals extended by `+inf`, `-inf`, `nan` with IEEE comparison rules, exact otherwise, one zero).

* `Fx` (fixed point, 80 fractional bits, infinities, NaN) makes whole solves computable; it is used
  only for concrete runs checked by the kernel (`decide +kernel`): witnesses of violations and runs
  meeting the hypotheses of theorems.

**Scratch arrays** (`work1`-`work6`, `Pattern`, `Flag`, `lambda`, `dsaff`, `dsaff_by_W`,
`W_times_dzaff`) are fresh, unwritten buffers in every call or pass; the code never relies on their
earlier content, and reading one before writing it is the outcome `uninit`.
`checkExitConditions` reads its inputs up front.

The transcription was also executed with `Float` on linear, second-order and exponential-cone
programs, infeasible and unbounded ones: it returned the right codes and solutions (a test, not a proof;
`Props/DriverExample.lean` has kernel-checked runs of the same kind with `Fx`).

**Indices** are `Nat`; negative user-supplied indices are outside the model (in C they are
out-of-bounds at once). `Parent[i] == -1` in LDL is kept as `Int`.

**AMD** is modelled in `Model/Amd.lean` on integers (its arrays hold negative links and flags). In the set-up theorems C05, C06, C46–C49 the
ordering is a parameter (any function whose results are permutations); `Model/SetupAmd.lean` puts AMD in its place, and C54 discharges the
assumption.

**Not modelled**: AMD's `Info` statistics and debug code,
the Windows and macOS variants of timer.c, printing, the MATLAB/Python front ends, `runecos`, CONEMODE 1/2 code, Windows ctrl-c code. The alternatives to Ruiz
equilibration are modelled on their own (`Model/EquilAlt.lean`, C60), the set-up model uses Ruiz as the default build does.

## 3. Layout

* `Verif/Core/*`   monad, buffers, loops, number classes, Hoare rules
* `Verif/Model/*`  the transcription, one file per C file
* `Verif/Spec/*`   small independent specifications (dense matrices, cones, problems)
* `Verif/Lemmas/*` helper lemmas
* `Verif/Props/*`  the property theorems (`C01_...`), each with an `example` meeting its hypotheses

## 4. Properties

| id | modelled | how proved / why not |
|---|---|---|
| C01 | spla.c `sparseMV` | loop invariants; result = dense sum over ℝ; safety for all F |
| C02 | spla.c `sparseMtVm`, `eddot` | same; adjointness by sum exchange |
| C03 | splamm.c transpose, cumsum, newSparseMatrix | counting-sort invariant; for nnz=0 the code leaves `jc` unwritten: negation proved, positive theorem for nnz>0 |
| C04 | splamm.c permute, pinv | counting-sort invariant over the upper triangle |
| C05 | preproc.c `createKKT_U` | column-by-column invariant (`Lemmas/Asm1`-`Asm4`); dense equality with `Spec/Kkt.kktDoc`; carried through permutation to the end of `ECOS_setup` (`Lemmas/Setup1`) |
| C06 | ecos.c `ECOS_updateData`, maps of `ECOS_setup` | composition of C03, C04, C05; the invariant `Live` (`Lemmas/Setup1`, `Upd1`-`Upd3`) is kept by updates and by whole solves (`Lemmas/Dir1`-`Dir6`) |
| C07 | ldl.c solves | invariant by induction on columns |
| C08 | ldl.c `LDL_numeric2` | pivot step case split; return value |
| C09 | ldl.c symbolic + numeric | elimination-tree theory, row-by-row invariant |
| C10 | kkt.c solve path | C07 + C09 + permutation |
| C11 | kkt.c `kkt_solve` loop | state machine invariant |
| C12 | equil.c | positivity / uniformity invariants over three Ruiz passes |
| C13 | equil.c set/unset, backscale | field algebra; OUTCONE return violates it for c: negation |
| C14 | backscale + equil | linear algebra over ℝ |
| C15 | updateDataEntry_* | direct |
| C16 | cone.c `bring2cone` | max-invariant over the cones |
| C17-C19 | cone.c scaling | SOC algebra (hyperbolic Householder) over ℝ |
| C20 | conic product/division | algebra over ℝ |
| C21 | ecos.c `lineSearch` | SOC algebra; the `continue` that skips `cone_start` violates it: negation |
| C22 | ECOS_solve | clamp lemmas |
| C23, C24, C26, C27 | ECOS_solve driver | invariants of the main loop with arbitrary numerics; uninitialised best iterate: negation |
| C25 | exit conditions | Farkas argument over ℝ |
| C28 | ECOS_solve | C47 and the restoring of `c` (C13) over ℝ; negation via OUTCONE |
| C29, C32 | expcone.c, unitInitialization | real logarithm inequalities |
| C30 | expcone.c | `HasDerivAt` computations |
| C31 | expConeLineSearch | loop invariants, all F |
| C33, C34 | branch, rounding helpers | integer/real arithmetic |
| C35-C37 | whole ECOS_BB search | invariants over the search loop with an arbitrary (resp. exact) continuous solver |
| C38, C39 | socp_to_ecos_bb, set_prob, updateDataEntry_h | index reasoning; violated for unsorted/mixed lists and for integer variables: negations |
| C40, C41 | setup/cleanup allocation ledger | multiset equality; failure paths leak: negation |
| C42 | search direction | the pass as `PcStep` (from the functional specs of RHS_affine, RHS_combined, the two direction routines and the step), then linear algebra over ℝ |
| C43 | statistics | algebra over ℝ |
| C44 | exit conditions, compareStatistics | XR case analysis |
| C45 | ECOS_BB_setup/cleanup ledger | as C40, with aliasing of the structs |
| C46 | set-up, solve, updates, settings, unset equilibration | `Live` is an invariant of every call; whole solves by `Dir.ecosSolve_runs` (pass by pass: residuals, statistics, scalings, KKT update, factorisation, solves, refinement, line searches, step) |
| C47 | ECOS_solve after any history | monotonicity in unwritten memory (`Lemmas/Mono1`-`Mono7`): every routine run on a workspace with fewer written cells gives, if it gives anything, the same result; `blank w` keeps data and settings only and still runs without undefined behaviour (`Dir.ecosSolve_runs`), so two workspaces with the same data agree with the common blank one |
| C48 | whole solve | induction over the passes: C16/C32 for the start; `Moved.ls` records how `passTail` chose the step; C21 (`lineF_spec`) in scaled coordinates, carried back by `wF_int` (the scaling maps exactly the interior to the interior) |
| C49 | from the caller's data to the caller's answer | `Session` (histories with the problem put in last) keeps `Owns` (the workspace holds that problem scaled by the factors it stores, C12/C13/C15 over XR via `eqXR`); the measured iterate is the returned one scaled (`returned_iter`, from C26), so C43's statistics and C24/C25's tests become statements about the caller's problem (`accurate_of`, `userPrimal`, `userDual`); weak duality with Cauchy–Schwarz gives the bounds; C48 gives the cones |
| C50 | amd_valid.c | loop invariants on the verdict; `valid_reads` in partial correctness; counterexample by evaluation |
| C51 | amd_aat.c | the walk over both triangles (`Lemmas/Amd22` `walk_ok`) emits every pair of neighbours once; counts as cardinalities |
| C52 | amd_preprocess.c | counting sort with flags, invariant `Mk` (`Lemmas/Amd25`) |
| C53 | amd_order.c, amd_1.c, amd_2.c, amd_postorder.c, amd_post_tree.c | one invariant for the quotient graph (`Lemmas/Amd0`–`Amd17`: space, degree lists, links, weights `Nv`, flags `W`), its preservation by garbage collection, element construction, scan, approximate degrees, hash buckets; then path compression, `Forest`, postorder (`Amd18`–`Amd20`), numbering (`Amd21`), the graph of A + A' (`Amd22`, `Amd23`), check and sorting (`Amd24`, `Amd25`), assembly (`Amd26`) |
| C54 | `ECOS_setup` with AMD | the columns of the KKT matrix are strictly increasing iff A and G have no duplicates (`Lemmas/KktPat`); C53; then C46, C49 |
| C55 | ECOS_BB_setup, ECOS_BB_solve, updates, around the real `ECOS_solve` | `Model/BBReal` plugs the model of `ECOS_solve` into the search; `Live` of C46 gives the contract of the search (`Lemmas/BBReal`), C38 the start state (`Lemmas/BBStart`) |
| C56 | node count of the search | every split node's relaxed point is off the integers by more than the tolerance and inside its box, so both children keep an integer point: each node has a share of the integer points, enough for both children of its split even after strong branching has tightened the box (`Lemmas/BBTree`, carried through the search as the field `tree` of `SInv`) |
| C57 | from the caller's mixed-integer problem to the answer | `MISession` keeps `MIHolds`: the augmented problem, its factors (`Frame`), user rows of `h`; every node problem has integer bounds (`hbnd`, `iids` of the search invariant), so `Owns` of C49 holds at every continuous solve, and its exit tests (`optimal_of`) speak about the caller's rows |
| C58 | wright_omega.c, expcone.c:72-111 | residual of the first guess bounded by integrating its derivative (first branch) and by a third order expansion (second branch); one round leaves a fourth order residual (`round_residual`); the supremum is computed by maximising in each coordinate in turn, attained at the point with `a = 1/(o-1)` |
| C59 | two runs of the mixed-integer search on workspaces with the same problem | simulation of two runs (`Lemmas/BBSame`): the relation `Sim` equates everything the search reads before it writes it; what is left over from earlier runs (arrays of the incumbent, unused nodes, `x` of the continuous workspace, pseudocosts) may differ. The continuous solves are paired by C47 (`solve_blank`), on the workspaces a node can have (`NodeWork`) |
| C60 | equil.c:54-75, 115-208, 349-365 | exact values of the sums (`accSq`, `segSum`, `Averaged` in `Lemmas/EquilAlt`) for every number type, rewritten to `Finset` sums over the reals; column norms from `sqNorm_div` |
| C61 | equil.c:27-113, 210-347 | exact recursion of the passes (`accMax`, `Totalled`, `Passes` in `Lemmas/EquilRuiz`) for every number type; `fmax` is `max` over the reals; bound from `|v| ≤ √r √c`, balance from an entry that attains a norm |
| C62 | ecos_bb.c:889-1060, 1070-1185 | the run through the root computed step by step from `initRoot_rep`, without the invariant of the search and without `0 < nb + ni`; for the node limit 1 the field `openU` of `BPost`; negations by concrete runs |
| C63 | ecos_bb_preproc.c:40-331, ecos_bb.c:1125-1185 | the arrays of the augmented problem compared with the user's entry by entry, then `C62_continuous_partial` for the real continuous solver (`real_contract`) |
| C64 | ctrlc.c:80-112, ecos.c:1109, 1172, 1613, ecos_bb.c:889-1185 | what every continuous solve keeps of the state the search does not look at is kept by the search (`solve_keeps`: the predicate is added to the contract of the solver, then `bbSolve_ok`); the handler by the cases of `ecosSolve_cases`; without any assumption on workspace and strategy by listing the continuous solves (`Path`, `bbSolve_keeps`: what each of them keeps the search keeps); negations by concrete runs and in general |
| C65 | ecos_bb.c:400, 522-888, 889-1040, 1064-1185 | a pre-order on states, `Sp μ k a b` (between 0 and `k` calls were made, settings and sizes kept), composed along every function of the search (`Lemmas/BBCount`); the search by induction on its fuel; `C65_calls` for any continuous solver, `C65_solves` and `C65_history` for the one of ECOS, `C65_passes` with C23 for each call |
| C66 | ecos_bb_preproc.c:155-358, ecos.c:1172-1180, 1613-1680, equil.c:369-405 | `bbSolve_keeps` for what a continuous solve keeps by C13; costs by induction along the list of continuous solves (`Path`); clean-up by the exact factors of `ecosSetup_ok` and `restoreMat_ok`; negation by a run |
| C67 | timer.c:81-102, ecos.c:1102-1118, 1300-1307, 1600-1603, preproc.c:738-744 | linear integer arithmetic; `ecosSolve` with a timer refines `ecosSolve`, the exits by `leaves_early` and `leaves_code`; negation by a run |
| C68 | ecos.c:145-170, 173-260, 436-441, 1120-1310 | both flags down at the head of every pass, by induction over `AtHead`; every way out by `Leaves` and the cases of `checkExitConditions` |
| C69 | ecos_bb.c:854-887, 1042, 1174, ecos_bb_preproc.c:276 | the solve the answer came from (`origin`, as for C57), C68 and C23 on it; negation from C62 and by a run |

The table is refined as the work proceeds (section 5 lists the findings about the code).

## 5. Findings (places where the code does not satisfy the stated property)

"Proved" names the theorem that shows it in the model; the others are read off the text and are
covered by a hypothesis or a `_partial` theorem as said.

* `transposeSparseMatrix` with no entries leaves the column pointers of the result unwritten
  (proved: `C03_transpose_empty_violated`).
* A solve that returns OUTCONE does not write `info->tsolve`; `ECOS_setup` allocates `*info` with `malloc` and does not write it either, so after a first
  solve of this kind the field is indeterminate (proved: `C67_untimed_violated`).
* Mixed-integer search:
  * a node solve that ends with OUTCONE leaves the caller's costs divided by the scaling factors, for the rest of the search and after it (proved:
    `C66_costs_partial`, `C66_costs_violated`);
  * an unbounded relaxation is reported as infeasible (proved: `C36_unbounded_reported_infeasible`);
  * `pfloat_ceil` at a nonnegative integer with tolerance 0 returns x+1 (proved:
    `C34_ceil_of_integer_tol_zero`);
  * values of magnitude 2^31 or more are converted to `int`, which is undefined (outcome `castRange`);
  * integer points beyond +-8388608 are excluded by the bounds the solver adds (`Covered` in C36);
  * a NaN objective at an integral root makes the solver answer "optimal" without a stored solution
    (hypothesis `Finite` in C35; proved: `C62_nan_violated`, and for every such root `C62_root_partial`);
  * strong branching solves the node again; if the second solve returns an integral point, the split
    index stays -1 and branching writes in front of the node arrays (hypothesis `Deterministic`; proved to happen with the real
    continuous solver and one interrupt: `C55_strong_branching_violated`);
  * with no declared variable the arrays have no node rows (hypothesis `0 < nb + ni`; the search is then one continuous solve,
    `C62_continuous_partial`, `C63_plain`);
  * with the node limit 0 the root record is outside its array (proved: `C62_no_nodes_violated`);
  * reliability branching, the default, never resets `split_idx` to -1 (strong branching does, ecos_bb.c:548), while
    `check_infeasible_bool_var`/`_int_var` only set it if it is -1 (:420, :449). If a trial solve finds one side infeasible, the node is split at
    whatever is in its record (index 0, value 0.0 after `calloc`, or the parent's split) and the tightened bound is put back: no progress until the
    node limit, answer "iteration limit" (proved: `C56_default_strategy_violated`). It also reads `x` after the trial solves have overwritten it
    (modelled as is);
  * a node whose solve is interrupted or ends with `OUTCONE` is pruned as infeasible, so an interrupted root is answered "infeasible" (proved:
    `C57_interrupt_violated`), and an interrupt later on gives "optimal" for a point that is not (proved: `C64_interrupt_optimal_violated`). The search
    goes on after an interrupt, and no code says that there was one (`C64_never_told_violated`);
  * after a node solve with `OUTCONE` the signal handler of ECOS stays installed, for all later calls as well (proved: `C64_outcone_violated`,
    `C64_lost_violated`);
  * codes -1 and -2 (iteration limit, numerics) are accepted for a node, so the point of an "optimal" answer may violate constraints
    (proved: `C57_violated`);
  * a continuous solve that ends with `OUTCONE` leaves the costs divided by the equilibration; all later nodes, and later searches, minimise
    these costs (exponents `k` in `NodeOf.cost`);
  * the bounds +-8388608 of integer variables count in the norm of `h`, so the relative tolerance of the inequalities, 1e-8 times that norm,
    is about 0.1 for every problem with an integer variable that is not bounded further (`C57_rows`);
  * at the root `global_U` is set to `INF` even if the rounded point was stored; with the node limit 1 the answer is "no solution" (11) while
    the workspace shows that point (proved: `C62_one_node_violated`, `C62_found_but_denied_violated`).
* Set-up of the mixed-integer solver:
  * bound rows are laid out in column order, bounds are written in list order with booleans first; for
    lists in another order the bounds of one variable are imposed on another
    (proved: `C38_order_violated`);
  * a variable declared twice (or as boolean and integer, or beyond the last variable) leaves right-hand
    sides of bound rows unwritten, and the equilibration of the set-up reads them (`C38_augmented` shows which ones are
    written; runs: `C38_unchecked_violated`);
  * `updateDataEntry_h` leaves out the rows of the integer variables from its offset: with integer
    variables it changes another row (proved: `C39_integer_vars_violated`).
* Driver `ECOS_solve`:
  * a solve that stops in pass 0 (maxit = 0, interrupt, NaN cost) compares with and restores a best
    iterate this solve never saved: uninitialised memory on the first solve (proved:
    `Run.C26_fresh_violated`, `Run.C26_fresh_interrupt_violated`), the answer of an earlier solve
    otherwise, even after the data was changed (proved: `C26_stale`, `Run.C26_stale_violated`);
  * the `OUTCONE` and `FATAL` returns skip `backscale` and `remove_ctrlc`: the handler of ECOS stays
    installed, `c` stays scaled, the next solve scales it again (proved: `C27_handler_left_violated`,
    `Run.C27_C13_outcone_violated`, `Run.C28_outcone_violated`);
  * an interrupt in a pass that is found unreliable or stalled is answered `NUMERICS`; one that arrives
    after the last check is swallowed (`C27_interrupt_ends` states what holds);
  * `compareStatistics` tests `!= ECOS_NAN`, which is always true, so its middle branch is dead
    (`C44_compare`).
* Exponential line search:
  * the centrality test accepts trial points with `tau <= 0`, `kappa <= 0` or outside the symmetric cones,
    because the barrier of such a point is `-INF` (proved: `Run.C31_tau_violated`);
  * it multiplies by `gamma` a step that already contains `gamma`;
  * NaN passes the primal and dual feasibility tests.
* `lineSearch`: the `continue` for a cone with nonpositive residual skips the advance of `cone_start`
  (proved: `Line.C21_skipped_cone_violated`).
* Equilibration: after a solve that returns `OUTCONE` the costs `c` stay divided by the factors
  (proved: `Run.C27_C13_outcone_violated`; `Equil.C13_solve_data` says exactly what `c` holds).
* After a mixed-integer solve that found no point `load_solution` copies a `*info` that was never written (proved: `C69_unwritten_violated`).
* A NaN affine step gives a NaN centering parameter (proved: `C22_nan`).
* `ECOS_updateData` dereferences `w->A` when there are no equality constraints (proved: `Asm.C06_null_violated`).
* Iterative refinement: the residual of the last row of an expanded second-order cone uses the wrong sign
  of the static regularisation, the `u` row leaves it out; `vadd` at init has the wrong sign for the `u`
  row (harmless, the term is 0).
* `wrightOmega` multiplies the last two Taylor terms by `q` where the powers `r` are meant; harmless, since the
  two rounds that follow still reach 1e-9 (C58).
* ecos_bb.c:265, 371, ecos_bb_preproc.c:261-265: the default branching strategy depends on the history of the process: `rand()` is never seeded, and the
  pseudocosts learnt by one `ECOS_BB_solve` are still there in the next. The same workspace solved twice can return two different optimal points
  (proved: `C59_default_strategy_violated`).
* Set-up failure paths leak (proved: `Ledger.C40_dims_leak_violated`, `Ledger.C40_amd_leak_violated`); the AMD
  failure path leaves the caller's arrays equilibrated. `ECOS_BB_setup` dereferences the result of a failed
  `ECOS_setup` (proved: `C55_duplicates_crash`).
* `updateScalings` never checks the linear part (proved: `Scaling.C17_linear_outside_violated`).
* Conic division divides by at least `EPS` (`SAFEDIV_POS`), so it does not invert the product below
  (proved: `Cones.C20_floor_violated`).
* The feasibility tests of the exponential cone accept points outside when the divisor is zero
  (proved: `Exp.C29_primal_violated`, `Exp.C29_dual_violated`, `Exp.C29_pair_violated`).
* `G` with no entries and `m > 0` (or `A` with no entries and `p > 0`): the transpose leaves the column
  pointers unwritten, set-up reads them (proved: `Asm.C05_no_entries_violated`). `G` or `A` null with rows: null dereference.
* A matrix with a repeated entry in a column: the numeric factorisation lets the last one win, the matrix-vector
  products add them up (`Fact.ent`; C09 and C10 therefore assume that no entry is stored twice).
  With the real ordering such a problem never gets that far: AMD answers `OK_BUT_JUMBLED`, `ECOS_setup` accepts only `AMD_OK`
  (preproc.c:931) and returns a null pointer with the caller's arrays already scaled (proved: `Asm.C54_duplicates`,
  `Asm.C54_dup_example`). So `C46_setup_succeeds`, which assumes an ordering that never fails, does not apply to AMD as
  it stands; `C54_succeeds` replaces it.
* `AMD_valid` reads `Ai` up to `Ap[j+1]` before it knows that the pointers increase to `Ap[n]` (proved:
  `Amd.C50_reads_past`). `ECOS_setup` never passes such pointers.
* AMD: the comment in amd_2.c that the ordering "can operate with no elbow room" is not backed by the invariant: two garbage
  collections while one element is built would spoil the count `knt1`. With the elbow room of n that `AMD_1` passes there is
  at most one per pivot, which is what C53 proves. The ASSERT amd_order.c:143 (`nz - n <= nzaat`) fails in debug builds for inputs with
  duplicates.
* Statistics: with the scaled iterate the reported gap is `tau^2 * (pcost - dcost)` (`Stats.C43_*`), not the difference
  of the reported costs.
* The default tolerances make the bound of the infeasibility certificate a statement with right-hand side 1, i.e. the
  exit tests compare with tolerances, not with zero (`Stats.C25_*` carry the tolerance).
