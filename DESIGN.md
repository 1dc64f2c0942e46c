# Formal model of rehuel — design

Target: `/repo` (Pakketeretet2/rehuel, C++ ODE library), read as text, never built or run.
Tool: Lean 4.33.0 with Mathlib.  Project: `/verif/lean`, modules `Verif.*`.

## 1. Trusted base

* The Lean kernel, and the axioms `propext`, `Classical.choice`, `Quot.sound` (section 7 lists them per theorem).
  No own axioms, no `sorry`, no `native_decide`, no `bv_decide`.
* The hand transcription of the C++ text into Lean definitions.  Every definition that models code
  carries a comment with file and lines; every simplification is stated in that comment.
* The reading of the C++ standard and of the Armadillo documentation for the constructs used
  (`std::map::operator[]` inserts, `assert` disappears under `NDEBUG`, out-of-range `operator[]` on
  `std::vector` is undefined, `arma::inv` of a singular matrix throws, `arma::solve` and `+` check sizes,
  `% 0` and signed overflow are undefined).

## 2. How the code is modelled

**Scalars.** The integrator code is transcribed once, over an arbitrary type `F` with `+ - * / -` and a
small class `Scalar F` (literals, `<`, `<=`, `==`, `abs`, `sqrt`, `pow`, `is_finite`).  No law is assumed
of these operations.  Instances:
* `ℝ`: exact arithmetic (`Real.sqrt`, `Real.rpow`).  Lean's convention `x / 0 = 0` and `Real.sqrt` of a negative
  number `= 0` differ from IEEE; no theorem over `ℝ` relies on them for a division the code can reach with divisor 0
  except where its comment says so.
* `FP` (`Verif.FP`): an executable model of IEEE binary64: NaN, ±inf, signed zero, subnormals, overflow, rounding to
  nearest even, all operations exact-then-round; `sqrt` is correctly rounded; `pow` is a parameter (`class Libm`), because C
  does not fix its result.  The model was compared with the Lean runtime's hardware `Float` on 40 000 random pairs for
  `+ - * /` and the comparisons (no disagreement); this comparison is a sanity check and no theorem depends on it.
  C81 proves that the operations of the model are the correctly rounded ones of IEEE 754.
* `ℚ` (only literals) and `QS d = ℚ(√d)` (`Verif.QuadField`): used to evaluate tableaux with surds in the kernel.

Theorems about bookkeeping (lengths, counters, first sample, streams, call counts) are proved for
*every* `F`, so they hold for hardware doubles including NaN.  Theorems about order or algebra are
proved over `ℝ`; that is said in each statement ("exact arithmetic").  Real-arithmetic results do not transfer
automatically to doubles; C61 is an example where the double behaviour differs.

**Control.** A C++ function body is a total Lean function into `Outcome`:
`ret` (returned value), `assertFail`, `throws`, `ub` (undefined behaviour).  A `while` loop is a step
function `body : S → LoopStep S R` iterated by `runLoop body fuel s : Option (Outcome R)`; `none` means
"still running after `fuel` iterations".  Safety theorems quantify over every `fuel`; termination is
`∃ fuel, runLoop … = some …`; divergence is `∀ fuel, runLoop … = none`.  The flag `nd` stands for `NDEBUG`
(assertions compiled out).

**User functor.** A pure function `f : F → Vec F n → Vec F n` (and Jacobian).  The model threads a ghost log of
the calls made, so call counts and call times can be stated.  `Verif.Effects` and `Verif.EffectsMs` transcribe the integrators a second time for functors with
state, exceptions and other effects; C121 and C122 relate the two transcriptions.  Copying a functor is assumed to copy its state.

**Linear algebra.** Armadillo calls (`solve`, `inv`, `lu`, `solve(trimatl/trimatu)`) are parameters of the model (`LinAlg`),
total functions that may report failure.  Theorems that need correct linear algebra take the hypotheses
`LinAlg.Exact` (`solve`, `inv` and the triangular solves are right when the matrix is invertible, `inv` fails otherwise, a returned
`lu` is a permuted triangular factorisation) and `LinAlg.Sound` (a returned triangular solve is right even for a singular
factor).  `laReal` is a concrete instance over `ℝ`;
`laReal_exact` and `laReal_sound` prove both hypotheses for it, with existence of the pivoted LU factorisation proved in `Verif.LUExists`.

**Stage solver.** `newton_solve_stages` is a template; `Verif.Irk` models the instantiation used by `irk_guts`
(`adaptive_step = false`, `PLU = true`), `Verif.StageVariants` all four; C111_instance proves that they agree where they overlap.

**Complex arithmetic** of `stability_region/main.cpp` is exact (`ℂ`).

**Not modelled.** Wall-clock time inside a run (`my_timer` is modelled by itself, `elapsed_time` is dropped from the results), text formatting of streams (a line is a
pair of time and value), `std::cerr` logging, memory exhaustion, 64-bit overflow of step counters (counters are ℕ),
summation order inside BLAS (sums are left folds in index order; irrelevant over `ℝ`), dead variables, the C interface
header, the LaTeX notes, the test programs (except the functors of test/newton.cpp and the assertions evaluated in `Verif.Prop.RepoTests`).

## 3. Modules

| module | content |
|---|---|
| `Verif.Core` | scalars, literals, outcomes, loops, induction principles for loops |
| `Verif.CyclicBuffer` | cyclic_buffer.hpp |
| `Verif.Methods` | enums.hpp, name maps of erk.cpp / irk.cpp |
| `Verif.Options` | options.hpp |
| `Verif.Coeffs`, `Verif.ErkTableau`, `Verif.IrkTableau` | `solver_coeffs`, get_coefficients, verify_solver_coeffs |
| `Verif.Erk` | erk.hpp: erk_guts, odeint |
| `Verif.LinAlg`, `Verif.LUExists` | interface of the Armadillo solvers; an exact instance |
| `Verif.Newton` | newton.hpp: newton_iterate, broyden_iterate, dispatch, approx_jacobi_matrix, verify_jacobi_matrix |
| `Verif.Irk` | irk.hpp: newton_solve_stages, irk_guts, odeint |
| `Verif.StageVariants` | irk.hpp: newton_solve_stages with its template parameters (C111) |
| `Verif.Interp` | irk.cpp: expand, collocation_interpolate_coeffs, project_b, merge_rk_output, factorial, binom_coeff |
| `Verif.Multistep` | multistep.hpp |
| `Verif.TestEq` | test_equations.hpp |
| `Verif.Stability` | stability_region/main.cpp |
| `Verif.Example` | examples/example_equations.cpp |
| `Verif.Programs` | reports and small programs: timing breakdown (irk.hpp), tableau printer, buffer iterators, print_output, run_batch, main of stability_region |
| `Verif.FP` | IEEE binary64 |
| `Verif.QuadField` | exact arithmetic in ℚ(√d) |
| `Verif.Spec.Contractive` | Euclidean norm, contractive equations, derivatives of a solution |
| `Verif.Spec.RK`, `Verif.Spec.Trees` | independent specifications: textbook Runge-Kutta step, rooted trees and Butcher's conditions |
| `Verif.Order` | from order conditions on tableaux (quadrature, simplifying assumptions) to trees |
| `Verif.Erk{Lemmas,Real,Run,Returns,Shipped,Term,AdaptTerm,Growth}` | invariants of the explicit loop, shipped explicit tableaux, termination |
| `Verif.Butcher`, `Verif.ButcherExact` | B-series of the stages and of the exact solution; Butcher's theorem on the local error |
| `Verif.Converge`, `Verif.Erk{Converge,StepCount}` | discrete Gronwall inequality, convergence of explicit methods, step sizes near a solution |
| `Verif.ConvergeImplicit`, `Verif.Irk{Newton,Converge}` | existence of implicit stages, Newton iterates stay near zero, final residual, local error of a returned step |
| `Verif.ZeroStable`, `Verif.Newton{Converge,Local}`, `Verif.MsConverge` | zero-stability of linear multistep recursions, trace of a Newton run and contraction near the identity and near a regular root, first-order convergence of Adams-Bashforth and BDF |
| `Verif.GammaEig` | real eigenvalues of the tableaux by interval arithmetic (for C90) |
| `Verif.FloatArith`, `Verif.ErkFloat`, `Verif.FloatInst` | arithmetic with rounding errors, error analysis of an explicit run in it, exact arithmetic, binary64 and a family of precisions as instances (for C91, C92) |
| `Verif.ErkDrift`, `Verif.AbDrift` | one step in rounded arithmetic as an exact step plus a small error, and the resulting drift of linear invariants of explicit and Adams-Bashforth runs (for C134) |
| `Verif.ErkSens` | difference of two Runge-Kutta steps with explicit constants (for C135) |
| `Verif.ErkLinear` | an explicit step on a linear system is a polynomial of the matrix; series of nilpotent maps (for C138) |
| `Verif.BStable`, `Verif.BStableShipped`, `Verif.BStableRun` | energy identity and perturbed steps, the shipped tableaux in ℚ(√d), accepted steps of runs (C94, C95) |
| `Verif.BdfStable` | G-norm of BDF2, growth from a root outside the unit circle, residual of a successful solve, completion of the bootstrap (C96, C97) |
| `Verif.ErkQuiet`, `Verif.IrkQuiet` | step sequence of a run whose error estimates vanish (C98) |
| `Verif.TestFunctors` | test/newton.cpp: the functors of the Newton tests (C99) |
| `Verif.Timer` | my_timer.hpp and the time printed by print_performance (C101) |
| `Verif.Messages` | newton.cpp: status_message (C100) |
| `Verif.Broyden` | trace of `broyden_iterate`, Euclidean length, Sherman-Morrison identity and bounded deterioration (C33, C85) |
| `Verif.FPLemmas` | rounding lemmas; `Prop.FPSpec`, `Prop.FPSpecial` relate the model to the definition of IEEE 754 (C81) |
| `Verif.IrkComplete` | stage residual after the first Newton pass, steps near a solution (for C82) |
| `Verif.Prop.IrkExamples`, `Verif.Prop.EqExamples` | only `example`s: the theorems applied to concrete runs |
| `Verif.Newton{Lemmas,Real}` | invariants of the Newton iterations |
| `Verif.Irk{Lemmas,Stage,Real,Total,Shipped,Small,Loop}` | invariants of the implicit loop and stage solver, totality, shipped implicit tableaux, small steps, termination |
| `Verif.InterpLemmas`, `Verif.MultistepLemmas`, `Verif.Stability{Lemmas,Rat,Erk,All,Grid}` | helper lemmas |
| `Verif.Prop.*` | the property theorems, named after the property (`C01_…`), each followed by an `example` with concrete data |

## 4. Per property

"partial" means: the statement is false of the code as it stands and the refutation is proved with the part that holds, or a stated part is missing.

| id | title | status | how | theorems | note |
|---|---|---|---|---|---|
| C01 | History buffer returns the most recent values | proved | abstract list of pushes; refinement invariant over all push histories | `C01_most_recent`, `C01_index_total`, `C01_copy` | all element types, periods >= 1, histories |
| C02 | History buffer never touches memory outside its storage | proved | storage access returns `ub` outside bounds; invariant; iff for the assertions | `C02_memory_safe`, `C02_period_nonpositive` |  |
| C03 | Resized buffer behaves as a fresh buffer | partial | refutation for every non-trivial history (size_ kept, storage emptied) + positive part | `C03_refuted`, `C03_push_after_resize_ub`, `C03_resize_partial` | false of the code: after resize every push is an out-of-bounds write and size() is stale |
| C04 | Reading a buffer does not change it | partial | `end()` writes `current_`: refutation with a reachable state; positive part for the const observers | `C04_refuted`, `C04_end_partial` | false of the code: end() assigns current_; exact condition under which it is harmless is proved |
| C05 | Method names and codes round-trip for ever | proved | stateful maps as association functions; induction on lookup histories | `C05_round_trip` |  |
| C06 | Unknown method names resolve to 0 and never to a method | proved | same model | `C06_unknown_name`, `C06_resolves_or_zero`, `C06_select` |  |
| C07 | all_method_names lists exactly the methods | partial | refutation after one failed lookup + positive part for known lookups | `C07_refuted`, `C07_listing_partial` | false of the code: failed lookups insert their name into the listing |
| C08 | Coefficients verify exactly for the supported methods | proved | tableaux as data over any F; decision over all ints by cases | `C08_erk`, `C08_erk_unsupported`, `C08_irk`, `C08_irk_unsupported` | both dispatch tables, any arithmetic |
| C09 | Output option bits are independent | proved | BitVec 64, induction on call sequences | `C09_bits_independent`, `C09_stream_set` |  |
| C10 | Explicit integrator records parallel samples starting at the initial condition | proved | loop invariant, any F | `C10_parallel_records`, `C10_odeint` | any arithmetic |
| C11 | Explicit integrator: times increase strictly and end exactly at t1 | proved | loop invariant over ℝ | `C11_times`, `C11_odeint` | exact arithmetic |
| C12 | Every explicit sample obeys the Runge-Kutta formula of the chosen method | proved | stage loop = unique solution of the stage equations; invariant over samples; spec is the textbook definition (`Spec.RK`) | `C12_guts`, `C12_odeint` | exact arithmetic |
| C13 | Adaptive explicit integrator accepts only steps within tolerance | proved | loop invariant over ℝ with independent norm spec | `C13_within_tolerance` | exact arithmetic |
| C14 | Explicit integrator counters are truthful | proved | ghost call log, invariant, any F | `C14_counters` | any arithmetic |
| C15 | Right-hand side is never evaluated outside the interval | proved | ghost call log over ℝ, nodes in [0,1]; and the calls are made at reachable states | `C15_calls_in_interval`, `C15_calls_reachable` | exact arithmetic |
| C16 | First-same-as-last is an optimisation only | proved | simulation between two runs over ℝ | `C16_guts`, `C16_fsal_transparent` | exact arithmetic |
| C17 | max_steps bounds the number of steps | partial | sharp bound max_steps+1 proved for both integrators, refutation of the documented bound | `C17_refuted`, `C17_max_steps_partial`, `C17_irk_refuted`, `C17_irk_max_steps_partial` | false of both integrators by one step; sharp bound max_steps+1 proved in any arithmetic |
| C18 | max_dt bounds the step size | partial | bound proved for all later steps, and for the first when dt0 <= max_dt; refutation | `C18_refuted`, `C18_max_dt_partial`, `C18_irk_max_dt_partial` | false of the code for the first step only |
| C19 | Fixed-step explicit integration terminates on a uniform grid | proved | explicit trajectory by induction | `C19_fixed_grid` | exact arithmetic |
| C20 | Adaptive explicit integration terminates for bounded right-hand sides | proved | lower bound on step size from bounded f, measure argument | `C20_adaptive_terminates` | exact arithmetic, bounded right-hand side |
| C21 | A rejected step changes nothing but the step size | proved | one-step theorem, any F for state, ℝ for step size; both integrators | `C21_reject_keeps_state`, `C21_retry_smaller`, `C21_irk_reject` |  |
| C22 | Explicit methods integrate polynomials exactly | proved | quadrature exactness lifted through the run | `C22_polynomial_exact`, `C22_embedded_exact` | exact arithmetic |
| C23 | Explicit tableaux have their declared orders | proved | rooted trees as an inductive type, elementary weights, enumeration up to the order proved complete | `C23_order_conditions` |  |
| C24 | Linear invariants are preserved by the explicit integrators | proved | run invariant | `C24_linear_invariant` | exact arithmetic |
| C25 | Invalid intervals and step sizes are refused | proved | case analysis; NaN case with a generic scalar whose comparisons are false, with and without NDEBUG | `C25_erk_refused`, `C25_odeint_refused`, `C25_irk_refused`, `C25_irk_odeint_refused`, `C25_no_nan_accepted`, `C25_nan_asserts`, `C25_nan_accepted_ndebug`, `C25_irk_nan_asserts`, `C25_irk_lu_asserts`, `C25_irk_decided` | both integrators |
| C26 | Explicit integrator streams accepted samples | partial | refutation (old time with new value, also for rejected attempts) + what is written exactly | `C26_refuted`, `C26_stream_partial` | false of the code: old time paired with new value, rejected attempts written too |
| C27 | Newton success means convergence | proved | iteration invariant, any F | `C27_returns`, `C27_success`, `C27_last_iteration`, `C27_tol_unused`, `C27_negative_maxit` | any scalar arithmetic in which 0 < -1 is false |
| C28 | Newton option dispatch selects the requested variant | proved | dispatch table as data; all 32 combinations; evaluation counts of the selected variant | `C28_dispatch`, `C28_evaluations` | the generic run evaluates f and J the number of times the selected variant implies |
| C29 | max_step limits every Newton update | partial | Newton part proved; Broyden part refuted, actual bound proved | `C29_newton_step_bound`, `C29_refuted`, `C29_broyden_step_partial` | true for newton_iterate; false for broyden_iterate (the limiter omits the damping factor), bound max_step*sqrt(1+\|F\|^2) proved |
| C30 | Newton solves affine systems exactly | proved | direct over ℝ with LinAlg.Exact | `C30_affine` | exact arithmetic, exact linear solver |
| C31 | Preconditioning does not change Newton's result | proved | simulation | `C31_precondition_irrelevant` | hypothesis: Jacobian invertible at every point (otherwise both variants report or throw) |
| C32 | Broyden updates satisfy the secant equation | proved | algebra over ℝ | `C32_secant` | exact arithmetic |
| C33 | Broyden success means convergence | partial | refutation + always-SUCCESS theorem; exact stopping rule from the trace of the loop | `C33_refuted`, `C33_always_success`, `C33_stop_partial` | false of the code: the function always returns SUCCESS; proved instead: exactly when it stops, so SUCCESS with iters < maxit does mean that a test was met |
| C34 | Jacobian check detects wrong Jacobians | partial | returns true for every input (any F with ordinary comparisons) | `C34_refuted`, `C34_always_true` | false of the code: the function compares a matrix with itself and always returns true |
| C35 | Finite-difference Jacobian is exact for quadratics | proved | algebra over ℝ | `C35_entries`, `C35_points`, `C35_quadratic_exact`, `C35_quadratic_map` | exact arithmetic |
| C36 | Stage solver contract | proved | iteration invariant, any F; the linear equation solved by each pass over ℝ; NDEBUG variant never succeeds | `C36_contract`, `C36_evaluations`, `C36_ndebug_throws`, `C36_newton_equation` |  |
| C37 | Implicit update equals the Runge-Kutta formula up to the stage residual | proved | linear algebra over ℝ; for linear systems every accepted step is exactly the Runge-Kutta step | `C37_update`, `C37_run`, `C37_affine` |  |
| C38 | Implicit integrator records consistent samples | proved | loop invariant | `C38_records`, `C38_lengths`, `C38_times` |  |
| C39 | Implicit integrator counters are truthful | proved | loop invariant, any F | `C39_counters`, `C39_calls` |  |
| C40 | Adaptive implicit integrator accepts only converged steps within tolerance | proved | loop invariant | `C40_accepted`, `C40_tolerance` |  |
| C41 | Implicit integrator streams exactly the accepted samples | proved | loop invariant, any F | `C41_stream` |  |
| C42 | Implicit integrator records the stages | partial | always zero: refutation and theorem | `C42_refuted`, `C42_stages_zero_partial` | false of the code: the stored stages are the zero vectors the output is initialised with |
| C43 | Every implemented implicit method can integrate | partial | refutations per method; adaptive runs of the seven other methods never throw when the matrices met are regular | `C43_refuted`, `C43_adaptive_partial`, `C43_fixed_never_steps`, `C43_uninitialised`, `C43_implicit_euler`, `C43_singular` | false of the code for five of the twelve methods and for all fixed-step runs; adaptive runs of the other seven proved never to throw |
| C44 | Linear invariants are preserved by the implicit integrators | proved | run invariant | `C44_linear` |  |
| C45 | Coefficient-list expansion is polynomial multiplication | proved | semantic valuation; homomorphism | `C45_product`, `C45_size`, `C45_order`, `C45_assoc`, `C45_unit` | expand is the multiplication of factors; value, size, order of terms |
| C46 | Collocation interpolation coefficients integrate the Lagrange basis | proved | against Mathlib's Lagrange basis and interval integral | `C46_total`, `C46_lagrange`, `C46_one_node` | for two or more distinct nodes, exact arithmetic; the one-node case returns 0 and is proved separately |
| C47 | Dense output reproduces the method at its nodes | proved | exact evaluation | `C47_radau32`, `C47_radau53` | exact arithmetic |
| C48 | Merging outputs concatenates and accumulates | partial | record algebra; the two evaluation counters are dropped (refutation) | `C48_refuted`, `C48_merge_partial`, `C48_assoc`, `C48_accept_frac_weights` | false of the code: fun_evals and jac_evals of the second output are dropped; everything else proved |
| C49 | Implicit tableaux are consistent and have their declared orders | partial | exact evaluation in ℚ(√d), simplifying conditions; embedded part false for some methods | `C49_row_sums`, `C49_order_conditions`, `C49_embedded_partial`, `C49_embedded_fails`, `C49_embedded_exact`, `C49_refuted` | row sums and declared orders proved for all eight closed-form methods; embedded orders hold for two methods, proved to fail for five, with the sizes of the defects |
| C50 | Adams-Bashforth formulas are exact for polynomials | proved | polynomial algebra; step formula; sharpness | `C50_exact`, `C50_step`, `C50_sharp`, `C50_current_time` | note: all slopes are taken at the current time, so for time-dependent right-hand sides the step is not the textbook one (C50_current_time) |
| C51 | BDF formulas are exact for polynomials | proved | polynomial algebra; sharpness | `C51_exact`, `C51_sharp` |  |
| C52 | Multistep starting values approximate the solution | partial | refutation: all starting values equal y0; starting times proved | `C52_refuted`, `C52_bootstrap_partial`, `C52_outcome`, `C52_lag` | false of the code: every starting value equals y0 because the bootstrap integrator runs with NO_OUTPUT; the starting times are proved |
| C53 | Multistep time grid | proved | loop invariant over ℝ | `C53_adams_bashforth`, `C53_bdf`, `C53_ab_grid`, `C53_bdf_grid`, `C53_ab_returns`, `C53_bdf_returns`, `C53_ab_bad_order`, `C53_ab_large_order` | termination is relative to the bootstrap runs of the implicit integrator |
| C54 | BDF samples solve the BDF equation or failure is reported | proved | loop invariant; for linear systems the BDF equation holds exactly | `C54_samples`, `C54_failure`, `C54_bad_order`, `C54_affine` |  |
| C55 | Shipped Jacobians are the derivatives | partial | component HasDerivAt; three_body refuted | `C55_refuted`, `C55_jacobian_partial`, `C55_three_body_never`, `C55_three_body_entries`, `C55_three_body_force` | false of the code: three_body::jac is the derivative at no state; every other shipped equation proved; the entries of three_body::jac are determined (derivatives of the forces, negated, in the wrong columns, with two slips) |
| C56 | Shipped closed-form solutions solve their equations | proved | HasDerivAt | `C56_exponential`, `C56_harmonic`, `C56_stiff` |  |
| C57 | Chemical test problems conserve mass | proved | algebra + C24, C44 and the multistep invariants | `C57_orthogonal`, `C57_orthogonal_jac`, `C57_erk`, `C57_irk`, `C57_adams_bashforth`, `C57_bdf` |  |
| C58 | Three-body forces are consistent | partial | refutation; x-momentum proved, exact y-drift | `C58_refuted`, `C58_momentum_x_partial`, `C58_momentum_y`, `C58_resume` | false of the code: dydt[9] uses the x difference; x momentum proved, y drift given exactly; the state stored for three-body-resume shows both |
| C59 | Stability function is the amplification factor | proved | complex linear algebra; lifted to the two integrators | `C59_returns`, `C59_throws`, `C59_step`, `C59_erk`, `C59_irk` |  |
| C60 | Recommended stiff methods are A-stable and L-stable | proved | explicit rational functions, \|R\|² <= 1 by positivity of polynomial certificates; lifted to runs | `C60_A_stable`, `C60_L_stable`, `C60_run`, `C60_harmonic`, `C60_not_explicit` |  |
| C61 | Hitting t1 exactly in binary64 | partial | concrete binary64 witness; positive part by Sterbenz' lemma | `C61_refuted`, `C61_overshoots`, `C61_run_overshoots`, `C61_sterbenz_partial`, `C92_completes` | false in binary64: overshoot by one ulp; holds when t1/2 <= t; for whole fixed-step runs see C92: exact if t1 = 0 or 2 dt <= \|t1\| |
| C62 | Recorded times never decrease in binary64 | proved | FP monotonicity of rounded addition | `C62_times_monotone` | binary64; hypotheses: arguments are doubles, t1-t0 does not overflow, dt >= 0, pow of a base that is neither negative nor -0 is not negative |
| C63 | Integrators always make progress | partial | diverging runs of both integrators; positive parts: fixed steps (any F), explicit: only rejections can loop, implicit: locally bounded right-hand sides end | `C63_refuted`, `C63_diverges`, `C63_only_rejections_partial`, `C63_fixed_terminates`, `C63_stall`, `C63_irk_refuted`, `C63_irk_diverges`, `C63_irk_only_rejections_partial`, `C63_irk_terminates_partial` | false of the code: rejected attempts are not counted; fixed-step part proved in any arithmetic; implicit integrator proved to end for locally bounded right-hand sides when the Newton limit is at least 2 |
| C64 | Binomial coefficients | partial | Int overflow as `ub` | `C64_refuted`, `C64_value_partial`, `C64_overflow`, `C64_factorial` | false of the code for k > n (binom_coeff(0,1)=1); value proved for k <= n without overflow |
| C65 | Stability region file holds the stability function of the named method | partial | refutation (ERK branch); implicit branch and the grid of points proved; no denominator vanishes at any of the 32000 points (integer evaluation in the kernel) | `C65_refuted`, `C65_explicit`, `C65_implicit_partial`, `C65_grid`, `C65_limit_points`, `C65_written` | false of the code: the ERK branch asks irk::get_coefficients, so every value is 1; proved for the implicit methods; C65_written says for which names a file is written |
| C66 | Stability limit table is written for every method | partial | refutation (empty b2); exact extent over all strings | `C66_refuted`, `C66_no_embedded`, `C66_exact`, `C66_unknown`, `C66_outcome` | false of the code: the three methods without embedded weights throw; C66_exact: every other name is handled |
| C67 | Adaptive implicit integration without a step limit completes on linear and on bounded problems | proved | small steps converge in one Newton pass with error O(h²), so an infinite run has steps → 0, which the controller excludes; regularity of `I - h A⊗J` from A-stability and an invariant-subspace argument | `C67_bounded`, `C67_affine`, `C67_stiff_success`, `C67_harmonic` | exact arithmetic, exact linear algebra |
| C68 | Command line of the example program | partial | separate grammar (`CliOpt`, `render`, `effect`); induction over the arguments both ways | `C68_refuted`, `C68_ub`, `C68_accepts_partial`, `C68_status`, `C68_settings` | false of the code: --out-interval as last argument reads argv[argc]; exactly these command lines are proved to be the exceptions |
| C69 | No undefined behaviour in the example program | partial | uninitialised members and locals as `none`, their use as `ub`; case analysis over all equations with C71 | `C69_refuted`, `C69_exact`, `C69_defined_partial` | false of the code: time_internals is never initialised, the masses of the three-body problem may stay uninitialised; two methods have uninitialised orders; the exact extent is proved |
| C70 | Exit status of the example program | proved | case analysis over all paths of `main`; the problem integrated is the one requested, against an independent table of problems; success parts from C67 with the eigenvalues of the two test equations, from C19 and from C73 | `C70_exit`, `C70_problem`, `C70_success`, `C70_fixed_step`, `C70_explicit` | success part in exact arithmetic |
| C71 | No undefined operation in the integrators | partial | every `ub` outcome of the loop bodies and of the Newton iteration is excluded, then induction over the runs | `C71_erk`, `C71_irk_partial`, `C71_irk_exact`, `C71_refuted` | false for LOBATTO_IIIA_127 and GAUSS_LEGENDRE_147 (uninitialised orders); proved for all other methods, and the exact extent, in any arithmetic |
| C72 | Decimal implicit tableaux satisfy the simplifying conditions up to rounding | proved | the literals are evaluated as exact rationals by the kernel, then transferred to the real tableau | `C72_simplifying` | residuals per method: RADAU_IIA_95 5e-17, RADAU_IIA_137 2e-39 (embedded 3e-18), LOBATTO_IIIA_127 and GAUSS_LEGENDRE_147 2e-18 |
| C73 | Adaptive explicit integration terminates for right-hand sides of linear growth | proved | discrete Gronwall inequality as loop invariant bounds all stages; then the termination measure of C20 | `C73_adaptive_terminates`, `C73_lipschitz` | exact arithmetic |
| C74 | The explicit integrators converge with their declared order | proved | Butcher's theorem proved from the rooted-tree order conditions (C23): B-series expansion of the stages and of the exact solution, local error O(h^(p+1)); then a discrete Gronwall argument in a tube around the solution | `C74_convergence`, `C74_fixed_step`, `C74_adaptive`, `C74_adaptive_completes` | exact arithmetic |
| C75 | The recorded error estimate is of the order of the embedded pair plus one | proved | difference of two B-series which agree up to order q (C23), uniformly on a ball; loop invariant keeps the run in the tube of C74 | `C75_estimate_order` | exact arithmetic |
| C76 | The number of steps of the adaptive explicit integrator is O(abs_tol^(-1/(q+1))) | proved | loop invariant: the proposed step is at least the bound or reaches t1; uses C75's estimate and the controller formula | `C76_step_count` | exact arithmetic |
| C77 | The implicit integrators converge with their declared order up to the Newton tolerance | proved | the implicit stages exist and are unique near the solution (Banach) and satisfy the local error bound of C74's B-series; simplified Newton started at 0 stays near 0 (increments are at most dt times a constant), its final residual is bounded by the tolerances, the stage map is Lipschitz-invertible; discrete Gronwall with a per-step defect | `C77_convergence`, `C77_max_dt`, `C77_affine`, `C77_stiff_completes` | exact arithmetic, the five closed-form tableaux that can return a run (200, 220 and 240 have no embedded weights or a singular matrix, C43) |
| C78 | adams_bashforth converges with its order | partial | zero-stability of the Adams recursion (error recursion with l1-bounded weights, discrete Gronwall), Lipschitz constant on a tube around the solution; the sum of the coefficients is one, so the wrong starting values and times cost O(h) | `C78_refuted`, `C78_first_order_partial`, `C78_order_one` | false for orders 2 to 5 (the starting values all equal y0, C52): proved for y' = v with an error of dt v at the first sample; the exact extent, convergence of order one for orders 1 to 5, is proved |
| C79 | bdf converges with its order and completes | partial | zero-stability of BDF 1 to 6 through explicit power series certificates (multiplier polynomials with l1-bounded inverse), Newton contraction near the identity for small steps, induction along the run | `C79_refuted`, `C79_first_order_partial`, `C79_order_one`, `C79_completes` | the order is false for 2 to 6 (the starting values all equal y0, C52): proved for y' = v; the exact extent, convergence of order one for orders 1 to 6, and completion with SUCCESS are proved |
| C80 | newton_iterate converges locally: quadratically with refreshed matrices, at least linearly otherwise | proved | trace of the run (C27), perturbation of a regular matrix, mean value inequality with a Lipschitz derivative, contraction with rate function phi iterated along the run; the damping factor differs from one by the square of the residual | `C80_quadratic`, `C80_linear` | exact arithmetic, exact solutions of the linear systems |
| C81 | The floating-point arithmetic of the model is IEEE 754 binary64, round to nearest even | proved | no representable number lies strictly between two neighbouring multiples of the last place; the square root is computed from an integer square root with 61 bits and a sticky bit, whose interval contains no rounding boundary; comparisons agree with the order of the extended reals, signs, infinities and NaN follow the rules of the standard (case distinction) | `FP.FP_nearest`, `FP.FP_tie_even`, `FP.FP_overflow`, `FP.FP_add`, `FP.FP_sub`, `FP.FP_mul`, `FP.FP_div`, `FP.FP_sqrt`, `FP.FP_lt`, `FP.FP_le`, `FP.FP_eq`, `FP.FP_add_sign`, `FP.FP_mul_sign`, `FP.FP_div_sign`, `FP.FP_add_nan`, `FP.FP_mul_nan`, `FP.FP_div_nan`, `FP.FP_sqrt_nan`, `FP.FP_inf`, `FP.FP_div_zero`, `FP.FP_neg_abs` | about the model of the arithmetic, not about the library; std::pow is a parameter and not covered |
| C82 | the adaptive implicit integrators complete nonlinear problems when max_dt is small, with order two whatever the Newton tolerances, and no better | proved | the first Newton pass from the zero vector leaves a stage residual of order h^(r+1) (mean value inequality with the Jacobi matrix at (t,y)); local error bound of C77; invariant of the loop: the state stays within one of u; hence all matrices are regular, no call throws, and the termination argument of C43 applies; (c) computes the stage solve explicitly and sums over the accepted steps | `C82_completes`, `C82_convergence`, `C82_order_sharp` | exact arithmetic, exact linear solvers; (c) is a finding about the interplay of the fixed Newton tolerance with the declared order |
| C83 | the error estimate of the implicit integrator is that of formulas (8.19) and (8.20) | partial | invariant with a ghost history of the passes (Newton failure, failed error test, accepted); algebra of C37 for both weight vectors; for the refutation an explicit estimate for constant right-hand sides | `C83_run_partial`, `C83_affine_partial`, `C83_refuted` | the claim is refuted (a factor dt too much, visible for y' = 1 on [0,1/2] with RADAU_IIA_32); proved instead: the recorded estimate is h times the solution of (8.19), or of (8.20) exactly on the first error test and after a failed one, with the stage values of the step itself; for affine problems the stage residual in it vanishes and (I - gamma h J) est = h (embedded - new value) |
| C84 | the default calls are sane solvers | proved | the settings are computed from the default constructors; C13, C12, C23 and C73 on the explicit side, C37, C40, C49 and C67 on the implicit one; C36 for the release build | `erkDefault_settings`, `C84_erk_steps`, `C84_erk_completes`, `irkDefault_settings`, `C84_irk_steps`, `C84_irk_completes`, `C84_irk_release_throws` | exact arithmetic, exact linear solvers; the throw in release builds is a finding |
| C85 | Broyden's method converges locally | proved | trace of the loop; Sherman-Morrison identity between the updates of the matrix and of its inverse; bounded deterioration in the Euclidean operator norm | `C85_recurrence`, `C85_converges`, `C85_scalar_affine` | exact arithmetic; no step limit |
| C86 | The integrators honour the output options | partial | invariant over the loop; records theorem C38; counterexample from C19 | `C86_refuted`, `C86_erk_ignores`, `C86_erk_no_stream`, `C86_irk_partial` | false of the explicit integrator, which ignores disable_store_in_vectors and output_interval (C86_erk_ignores); proved for the implicit one |
| C87 | Every implemented implicit method is A-stable | partial | Faddeev-LeVerrier coefficients in ℚ(√d) checked by the kernel; the polynomial (1+ε)\|D\|²−\|N\|² in −Re z and (Im z)² has non-negative coefficients | `C87_refuted`, `C87_fails`, `C87_rounded`, `C87_exact_partial`, `C87_L_stable`, `C87_run` | false for the four methods given by decimal numbers, whose rounded entries amplify on the imaginary axis (C87_fails); their \|R\|² exceeds 1 by at most 1e-14, 1e-36, 1e-15, 1e-14 (C87_rounded); exact for the eight others |
| C88 | The embedded stability region is that of the embedded formula | partial | uniqueness of the stages; refutation by RADAU_IIA_32 at the first grid point | `C88_refuted`, `C88_values`, `C88_gamma_zero_partial` | false for the methods with gamma ≠ 0: the program leaves out the term gamma*z (C88_values gives the value written) |
| C89 | The three-body system conserves its energy | partial | derivative along the solution; refutation by a concrete state | `C89_refuted`, `C89_mass`, `C89_rate`, `C89_conserved_partial` | false of the code: kin_energy leaves out the masses and the force on the second body is wrong; C89_rate gives the exact rate of change |
| C90 | gamma is a real eigenvalue of the tableau's matrix | partial | intermediate value theorem and interval arithmetic on the characteristic polynomial, evaluated by the kernel | `C90_refuted`, `C90_far`, `C90_near_partial`, `C90_explicit` | false for RADAU_IIA_32 and LOBATTO_IIIA_127, and in the seventh digit for LOBATTO_IIIC_85; an eigenvalue exists within the rounding of gamma for the four other methods |
| C91 | The explicit integrators converge in arithmetic with rounding errors | proved | rounding errors of every operation of a step bounded in an axiomatic arithmetic, discrete Gronwall; binary64 and a family of precisions shown to be instances | `C91_convergence`, `C91_fixed_step`, `C91_perturbed`, `C91_example` | C and h0 depend on the right-hand side, the solution, the method and the interval but not on the arithmetic; they are not given explicitly, so for binary64 alone (u = 2^-53 fixed) the bound says something only if C N < 2^53; C91_fixed_step adds that runs with fixed steps and a step limit return |
| C92 | Fixed-step runs in binary64 reach the end of the interval | proved | nearest rounding: relative error of sums (exact when subnormal), Sterbenz, the rounding error of a difference is a double, so at most two clipped steps; induction on the number of full steps | `C92_completes`, `C92_stalls` |  |
| C93 | Units, names and affine changes of variables do not matter to the explicit integrators | proved | simulation: every function of the step commutes with the change of variables; induction over the passes | `C93_equivariant`, `C93_units`, `C93_fixed` | exact real arithmetic; in binary64 the sums are rounded differently after a renumbering of the unknowns |
| C94 | The implicit methods are B-stable | partial | energy identity with the matrix of algebraic stability (a rank-one square for the stiffly accurate methods, checked in Q(sqrt d)), coercivity of the inverse for the Newton defects, induction over the accepted steps; counterexample with an explicit first stage | `C94_refuted`, `C94_fails`, `C94_inner`, `C94_bstable_partial`, `C94_rounded`, `C94_run`, `C94_affine`, `C94_completes` | refuted as stated: LOBATTO_IIIA_43 and LOBATTO_IIIA_127 are not B-stable (C94_fails); proved for all other tableaux with exact coefficients in any inner product, for the decimal ones up to the rounding of the coefficients, and for whole runs of RADAU_IIA_32/53 (any equation, Newton defects included) and of the five stiff methods on linear systems, which are shown to complete; exact arithmetic |
| C95 | The order of the Radau methods does not depend on the stiffness | proved | stage order conditions B(p), C(p) checked in Q(sqrt d); Taylor's formula with remainder; stability with defects of C94; induction over the accepted steps | `C95_convergence`, `C95_completes` | exact arithmetic; on linear systems the run is shown to complete |
| C96 | bdf is stable on contractive systems whatever the stiffness | partial | Dahlquist's G-norm of BDF2 and induction over the steps; for the refutation a root of the formula outside the unit circle with rational coordinates and the quotient polynomial as a functional that grows geometrically; completion from C67 for the bootstrap | `C96_refuted`, `C96_low_order`, `C96_linear_partial`, `C96_equilibrium_partial`, `C96_nonlinear_partial`, `C96_completes` | refuted for orders 3 to 6 (C96_refuted: completed runs on rotating, decaying planar systems that grow without bound); proved for orders 1 and 2 (C96_low_order) with the constants 1 and sqrt 2, for two runs, for variable coefficients and for non-linear systems with the solver's defect; completion on linear systems at every order; exact arithmetic |
| C97 | The error of bdf of order 1 and 2 does not depend on the stiffness | proved | Taylor's formula for the defect of the solution, G-stability of C96, induction over the steps | `C97_convergence` | order one is all there is (C79_refuted: the starting values are all the initial value); exact arithmetic |
| C98 | Tightening the tolerances makes an adaptive run converge | partial | The step sequence of a run whose estimates are all zero does not depend on the tolerances; it ends by C20 (implicit: C67), so its nodes are finite; a polynomial vanishing on them, and an invariant of the loop | `C98_refuted`, `C98_blind`, `C98_max_dt_partial`, `C98_implicit_refuted`, `C98_implicit_blind` | refuted for every embedded explicit method and every implicit method that can be run (C98_blind: for each interval, initial step and max_dt a smooth right-hand side vanishing at every time the run looks at; the run returns SUCCESS with the starting value for all tolerances while the solution moves by 1); what remains: convergence when max_dt and the initial step shrink too (C98_max_dt_partial; C82_completes for the implicit methods); exact arithmetic |
| C99 | The functors of the Newton tests return the derivative of what they compute | partial | Fréchet derivatives of polynomials and square roots; the sum over the entries is split into pairs | `C99_refuted`, `C99_higher_hessian_iff`, `C99_rosenbrock_gradient`, `C99_rosenbrock_hessian`, `C99_rosenbrock_root`, `C99_higher_gradient`, `C99_inverse_power`, `C99_jacobian_partial`, `C99_higher_root`, `C99_expected_root`, `C99_not_quadratic` | refuted: the off-diagonal entries of the Hessian of higher_order_rosenbrock_func are zero, which is right exactly where b x_{i+1} = 0 for every pair (C99_higher_hessian_iff); the gradients and the other matrices are right (C99_jacobian_partial); with that matrix Newton's method is not quadratically convergent (C99_not_quadratic) and the expected root {a, a*a} is a critical point only for a = 0 and a = 1 (C99_expected_root); exact arithmetic |
| C100 | Every status of the non-linear solvers has its own message | proved | Case distinction on the codes; the traces of the solvers (C27, C33, C36) | `C100_injective`, `C100_newton`, `C100_broyden`, `C100_stages` | INCREMENT_DIVERGE and ITERATION_ERROR_TOO_LARGE are never reported; any arithmetic |
| C101 | The timer measures the time between two readings in milliseconds | proved | Exact identities; in binary64 the integers are exact, the two roundings are estimated and the sign follows from monotonicity of rounding | `C101_elapsed`, `C101_toc`, `C101_performance`, `C101_us_unused`, `FP.C101_binary64`, `FP.C101_us_binary64` | in exact arithmetic the unit us is used for a duration of zero only, because its threshold is one tick of the clock (C101_us_unused); in binary64 also for one microsecond across the turn of a second (C101_us_binary64) |
| C102 | Explicit runs do not increase the energy of the harmonic oscillator | partial | The oscillator as a complex number, C59 for runs, the modulus of the stability polynomial on the imaginary axis | `C102_refuted`, `C102_factor`, `C102_grows`, `C102_decays_partial`, `C102_fixed` | refuted: explicit Euler and Cash-Karp increase the energy in every step of whatever length, Fehlberg in every step up to 2/\|w\| (C102_grows); it is true of RUNGE_KUTTA_4, BOGACKI_SHAMPINE_32 and DORMAND_PRINCE_54 with explicit bounds, sharp for the first two (C102_decays_partial); the factor of every step is computed (C102_factor, C102_fixed); exact arithmetic |
| C103 | Every adaptive integrator, every default call and the bootstrap complete on short intervals | proved | Bounds on a ball by compactness, the loop stays in the ball on a short interval, termination argument of C20/C67 with this invariant | `C103_erk`, `C103_irk`, `C103_default_erk`, `C103_default_irk`, `C103_bootstrap`, `C103_bdf`, `C103_adams_bashforth` | exact arithmetic and exact linear algebra; implicit methods 210, 211, 230, 231, 232; removes the hypothesis of C78/C79 that the run returns |
| C104 | The Adams-Bashforth loop has the order of the method for accurate starting values | partial | Refuted by y' = 2t with exact starting values; proved for autonomous problems by zero-stability, the moments of the coefficients and Taylor expansion of the solution (derivatives of the solution from those of f) | `C104_refuted`, `C104_autonomous_partial` | false for orders 2 to 5 when the right-hand side depends on the time: all slopes are evaluated at the current time, so y' = 2t gives Euler's method whatever the starting values. Proved for right-hand sides that do not depend on the time; the run also returns with SUCCESS. |
| C105 | The BDF loop has the order of the method for accurate starting values | proved | Zero-stability certificate of BDF, moments of the coefficients, Taylor expansion, residual of the accepted Newton iterate bounded by h times the step tolerance | `C105_order` | exact arithmetic and exact linear algebra; any Jacobi matrix function that is continuous, correct or not; the shipped bootstrap delivers delta = O(h) only (C79) |
| C106 | On autonomous problems Adams-Bashforth of order k >= 2 computes the solution delayed by k-1 steps | proved | First order convergence bounds the differences of the starting values, the first k values after the bootstrap are O(h^2) accurate for the delayed solution, then C104's argument for the delayed grid | `C106_delay` | generalises C52_lag from constant right-hand sides; the bootstrap stores y0 for every starting sample (C51) |
| C107 | Units, names and changes of variables do not matter to the implicit integrators | partial | Simulation: stage equations, Newton increments (exact linear algebra commutes with the change), error estimate and controller; induction over the passes. Refuted with a constant right-hand side and lam = 2 | `C107_refuted`, `C107_equivariant_partial`, `C107_units_partial` | false for changes of the unit of time: the error estimate is multiplied by dt once more than in formulas (8.19) and (8.20) (C83), so a run with the time in half seconds accepts and rejects other steps. Proved for lam = 1 (another origin of time, isometries, other units, signs and order of the unknowns). |
| C108 | Only finite values are reported as a success | partial | NaN propagation through the error estimate; rounding lemmas for the growth of the step size until the end of the interval; loop invariants; evaluation of one run in the kernel for the overflow | `C108_refuted`, `C108_overflow`, `C108_sticky`, `C108_nan_succeeds`, `C108_first_partial` | false: an infinite new value makes the tolerance infinite, the scaled error is NaN or zero, and the step is accepted (C108_overflow, with and without assertions). A NaN never goes away (C108_sticky); without assertions a run with a NaN component always ends with SUCCESS because a NaN error is never rejected and the step grows by 3.6 (C108_nan_succeeds; pow(NaN, y) = NaN for y > 0). Proved: with assertions an adaptive run never records a NaN directly after finite values (C108_first_partial). |
| C109 | The step size never becomes zero | partial | Rounding lemmas for the controller; invariant of the loop (time and step size unchanged); evaluation of the first attempt in the kernel | `C109_refuted`, `C109_overflow_zero`, `C109_absorbing`, `C109_hangs`, `C109_positive_partial` | false: if err_tot overflows, err_inv = 0 and the new step size is zero (C109_overflow_zero); zero steps are followed by zero steps for ever (C109_absorbing), so odeint never returns for a right-hand side that is zero up to t = 1 and 2^700 afterwards, with default options (C109_hangs). Assumed of pow: pow(0, y) = 0 for y > 0 and not negative for bases that are not negative. Proved: the step stays positive for errors up to 2^500 and steps from 2^-500 (C109_positive_partial; pow(x, y) >= min(x, 1) for y in (0, 1]). |
| C110 | A right-hand side that cannot be evaluated ends an implicit run with an error | partial | NaN propagation through residual, permutation and triangular solves; induction on the Newton passes; invariant of the step loop | `C110_refuted`, `C110_never_returns`, `C110_hangs`, `C110_no_success_partial` | false for adaptive runs: a NaN residual passes neither convergence test nor any divergence test, the iteration uses up maxit, the step is repeated with 0.7 dt for ever, and max_steps counts accepted steps only (C110_never_returns from any state, C110_hangs for whole runs, C110_refuted for RADAU_IIA_53 with max_steps = 10). Proved: whatever is returned has the status GENERAL_ERROR and belongs to a fixed-step run (C110_no_success_partial). Assumed of the linear algebra (NanLinAlg): lu produces a factorisation, triangular solves pass a NaN on. |
| C111 | The template parameters of the stage solver | proved | run of the template as a sequence of iterates by induction on the passes; simulation between factorised and plain variants; geometric decrease of the residual | `C111_instance`, `C111_contract`, `C111_plu`, `C111_ndebug`, `C111_affine`, `C111_affine_eventually`, `C111_damping` | C111_instance: the instance <false,true> is the solver of the other theorems. C111_plu: with assertions both settings of PLU_decomposition have the same outcome over ℝ. C111_ndebug: without assertions the factorised variants throw, the others are unchanged. C111_affine: each pass multiplies the residual by 1 - s. C111_damping: a linear equation on which the default variant gives up and the integrator's succeeds. |
| C112 | Dense output has the order of the stages | proved | moments from C46_lagrange and Lagrange interpolation of powers; bounded basis on [0,1]; stage errors by a maximum argument; quadrature_bound for the defect | `C112_weights`, `C112_order`, `C112_run`, `C112_exponent` | C112_exponent: for y' = t^2 the dense output of RADAU_IIA_32 at theta = 1/2 is off by exactly h^3/24 although the step itself is exact there. The order is stated for the methods whose tableau is given in closed form; RADAU_IIA_95 and RADAU_IIA_137 have rounded decimals (C112_weights covers them). |
| C113 | Samples of bdf lag by k + 1/2 steps | proved | certificates of zero-stability with the root 1 divided out give a decaying solution of the homogeneous recurrence that starts like k + 1/2 - i; comparison sequence u - (k + 1/2) h w + h p_i w0; stability with summable residuals | `C113_lag`, `C113_autonomous`, `C113_lower` | Order 1 has no parasitic part and its own first-order truncation error; it is covered by C79. The existence of w is a hypothesis (for autonomous problems it is u'). 1e-10 is the tolerance of the Newton solver in the code. |
| C114 | Multistep runs do not depend on the variables | partial | the grids correspond, the values by strong induction; for bdf a simulation of the Newton iteration in both variables; witness: y' = y^2 switched on in the last step, measured in a unit 1e5 times as large | `C114_adams_bashforth`, `C114_bdf_partial`, `C114_refuted` | Refuted for other units of the unknowns (C114_refuted): the Newton tolerance 1e-10 of bdf is absolute, so the number of Newton steps depends on the unit. Proved for adams_bashforth in full and for bdf under changes that keep the maximum norm. Exact arithmetic and linear algebra. That both runs return is assumed: the bootstrap is an adaptive implicit run with an absolute tolerance. |
| C115 | Integrators do not look beyond the interval | partial | the two loops agree step by step because the clipped step never passes t1 and the nodes lie in [0, 1]; agreement of the stage equations on the segment; witness: a slope that is switched on behind t1 | `C115_erk`, `C115_irk`, `C115_adams_bashforth`, `C115_adams_bashforth_output`, `C115_bdf_partial`, `C115_refuted` | Refuted for bdf (C115_refuted): it steps with the full dt while t < t1 and hence evaluates the right-hand side behind t1. Real arithmetic (with rounding t + c dt can exceed t1 by an ulp). The nodes of all methods lie in [0, 1], which is part of the proof. |
| C116 | The report on the timings is right | partial | list arithmetic over ℝ; refutation with a concrete list | `C116_lines_partial`, `C116_refuted` | The claim is false (C116_refuted: two seconds are reported as 0.2 s). C116_lines_partial determines unit, times and percentages for every list of timings; the numbers in ms and all percentages are right. |
| C117 | Iterating over the buffer | partial | iterators with optional members; reading an absent one is `ub` | `C117_walk_ub`, `C117_print_partial`, `C117_refuted`, `C117_increment` | The claim is false (C117_refuted); C117_walk_ub: any use of the iterators is undefined, for every buffer; C117_print_partial: what print_internal_state shows. |
| C118 | Outcome of the stability program | partial | composition of the outcomes of C65 and C66 with the tableau printer | `C118_outcome`, `C118_refuted`, `C118_printed` | The claim is false (C118_refuted); C118_outcome determines the outcome for all argument lists, including the printing of the tableau, which never reads outside the matrices. |
| C119 | Outcome of a batch of runs | partial | evaluation of the start of the first run in any arithmetic; bitwise arithmetic on ℤ | `C119_ub`, `C119_status`, `C119_refuted` | The claim is false (C119_refuted). C119_ub: never a defined result. C119_status: exactly when the combined status is 0. |
| C120 | Availability of dense output and of printed output | proved | decision over the methods; bookkeeping invariant C10 of the run | `C120_explicit`, `C120_implicit`, `C120_print_erk`, `C120_fixed_width`, `C120_user`, `C120_print_exact` | All parts proved; C120_print_erk holds for every arithmetic. |
| C121 | Functors with effects | proved | simulation: every part of the effectful code makes a list of calls and then does what the pure code does; induction over the loops | `C121_erk`, `C121_irk`, `C121_erk_returns`, `C121_irk_returns`, `C121_erk_counting`, `C121_irk_counting`, `C121_erk_exceptions`, `C121_irk_exceptions` | A second transcription of both integrators with effects (Verif.Effects), related to the first one. The pure theorems carry over to such functors. |
| C122 | Functors with effects in the multistep integrators | partial | simulation as for C121; copies modelled by running on the state and dropping the result | `C122_adams_bashforth_partial`, `C122_bdf_partial`, `C122_bdf_state_partial`, `C122_newton`, `C122_refuted` | The claim is false (C122_refuted: ten steps of bdf that a counting functor does not see). C122_bdf_partial and C122_bdf_state_partial say what happens instead; C122_adams_bashforth_partial and C122_newton hold in full. |
| C123 | The log and the counters are true for every functor | proved | Hoare-style triples with the sequence of calls as ghost state; loop invariants | `C123_erk`, `C123_irk` | Hoare triples over the effectful model of C121; example with a functor whose answers change after the first call. |
| C124 | Which options can change the numbers of a run | proved | simulation between two loops; a loop with an extra exit | `C124_erk_max_steps`, `C124_erk_fixed`, `C124_erk_output`, `C124_irk_max_steps`, `C124_irk_output` | Relational: two-run properties (non-interference of the options). Examples are runs in binary64, evaluated by the kernel. |
| C125 | Runs can be interrupted, resumed and prolonged | proved | uniqueness of explicit steps, the grid of C19 | `C125_values`, `C125_horizon`, `C125_restart` | For the first-same-as-last methods this says that starting afresh with f(t1, y1) and continuing with the cached last stage are the same. |
| C126 | The multistep integrators take the intended number of steps in binary64 | partial | C53 for any arithmetic, the error of sums of doubles from C92, induction over the grid | `C126_refuted`, `C126_tenth`, `C126_adams_bashforth_partial`, `C126_bdf_partial`, `C126_exact`, `C126_ab_returns`, `C126_bdf_returns`, `C126_stalls` | The claim that the number of steps is the intended one is refuted by the step 0.1; the loop neither shortens the last step nor computes the times as multiples. |
| C127 | adams_bashforth converges in arithmetic with rounding errors | proved | rounding error of one step (AbFloat.lean), the times stay near an exact grid, a discrete Gronwall argument over the samples | `C127_convergence`, `C127_perturbed`, `C127_returns`, `C127_runs`, `C127_example` |  |
| C128 | bdf converges in arithmetic with rounding errors, with wrong Jacobi matrices and inexact linear algebra | proved | rounding errors of the BDF equation and of its matrix (BdfFloat.lean), an inexact Newton iteration contracts down to the rounding level, the errors satisfy a perturbed BDF recursion (BdfFloatRun.lean), zero-stability (ZeroStable.lean) | `C128_convergence`, `C128_perturbed`, `C128_example` |  |
| C129 | The implicit Runge-Kutta integrators converge in arithmetic with rounding errors, with wrong Jacobi matrices and inexact linear algebra | proved | rounding errors of the stage equations and of their matrix, an inexact simplified Newton iteration contracts down to the rounding level and the stopping tests bound what is left (IrkFloat.lean), one step (IrkFloatStep.lean), discrete Gronwall over the loop of irk_guts (IrkFloatRun.lean) | `C129_convergence`, `C129_perturbed` | The step sizes are a hypothesis on the run (StepsWithin). It is proved from max_dt in exact arithmetic. |
| C130 | In binary64 the times of the implicit integrators never decrease and max_dt bounds their steps, whatever the functor and the linear algebra return | proved | sign-bit calculus for binary64 and the controller's proposal (IrkFP.lean), invariant of the loop: time, step, earlier steps and errors without sign bit; growth of newton_max_iter; C129 for the corollary | `C130_times_monotone`, `C130_steps`, `C130_convergence` | pow is a parameter of the model; what is assumed about it is stated. |
| C131 | Implicit runs damp the harmonic oscillator by an exact factor | proved | The modulus of the stability function on the imaginary axis is computed from the numerators and denominators of C60; C59 carries it to every accepted step. The total bound is an induction over the recorded samples, since each step loses at most its leading term times an energy that is at most the initial one. The example is a complete run over 1000 time units that keeps 0.9999 of the energy but not all of it. | `C131_loss`, `C131_factor`, `C131_decreases`, `C131_total`, `C131_max_dt` | Real arithmetic and exact, sound linear algebra. IMPLICIT_EULER has no embedded weights and is not among the methods for which complete runs are shown to exist (C67). Factor and total bound are stated for runs that record every step. |
| C132 | The coefficients computed in double precision are within rounding of the exact ones | proved | The model of IEEE arithmetic is evaluated by the kernel (decide +kernel); the exact coefficients are elements of Q(sqrt d), whose square root is enclosed between rationals 2^-80 apart. | `C132_implicit`, `C132_explicit`, `C132_sums_irk`, `C132_sums_erk` | The interpolation matrices are not included. It makes C130_convergence hold for all five runnable implicit methods. |
| C133 | The shipped test equations in binary64: accuracy of right-hand sides and Jacobi matrices, and of all integrators on them | proved | deep embedding of the expressions, induction over them for the rounding error, combined with C91, C92, C127, C128 and C130 | `C133_equations`, `C133_rhs`, `C133_jac`, `C133_explicit`, `C133_adaptive`, `C133_adams_bashforth`, `C133_bdf`, `C133_implicit` | The constants are not explicit.  three_body has square roots and quotients of unknowns and is not covered. |
| C134 | Linear invariants drift by accumulated rounding only | proved | a step in rounded arithmetic is an exact step plus an error of size dt (u + eps) + u, the exact step keeps w.y, induction over the run with the error bounds of C91 and C127 | `C134_drift`, `C134_mass`, `C134_sharp`, `C134_adams_bashforth`, `C134_mass_adams_bashforth` | The constants are not explicit.  Implicit runs are not covered: there w.y also changes with the errors of the linear solver. |
| C135 | Explicit runs depend on their data with explicit constants | proved | the differences of the stages are bounded one after another with constants computed from the tableau by the kernel, then a discrete Gronwall inequality; for EULER Taylor expansion of the solution | `C135_stability`, `C135_fixed`, `C135_euler`, `C135_euler_run` | Exact arithmetic.  The constants k are upper bounds computed from the absolute values of the coefficients and are not sharp. |
| C136 | EULER keeps concentrations non-negative if the steps are short enough | proved | induction over the samples: the step is y + h f(t,y), and w.y is conserved (C24) | `C136_positive`, `C136_run`, `C136_rober`, `C136_dimer`, `C136_kinetic4`, `C136_negative` | Exact arithmetic; EULER only.  The limits are sufficient, their sharpness is not claimed. |
| C137 | adams_bashforth of order 1 is EULER up to the last sample | proved | both sample lists satisfy the recurrence of Euler's method on the grid t0 + i min(dt, t1-t0); induction over the index | `C137_same`, `C137_returns` | Exact arithmetic; in binary64 the two loops round differently (C126). |
| C138 | Explicit runs on linear systems: the step is a polynomial of the matrix, and exact for nilpotent ones | proved | the stages are polynomials of h L with coefficients A^j (1,...,1), tabulated and checked by the kernel; the series of a nilpotent map solves the equation and is multiplicative | `C138_step`, `C138_exact`, `C138_sharp`, `C138_estimate`, `C138_completes` | Exact arithmetic. |
| C139 | Superposition: explicit runs on linear systems are linear in the initial value | proved | the stages of an explicit step on a linear system are linear in the initial value; induction over the samples | `C139_runs`, `C139_fixed` | Exact arithmetic. Adaptive runs choose their steps by the norm of the estimate and record different times in general. |
| C140 | EULER respects comparison: larger data give larger runs if the steps are short enough | proved | one step of EULER is monotone if lam h <= 1; induction over the samples | `C140_comparison`, `C140_bounds` | Exact arithmetic, max_steps < 0. |

## 5. Disagreements between the code and its documentation or evident intent

Each item marked with a theorem is proved of the model; the others are read off the text.

*Buffers and names.* `resize` leaves `size_` and empties the storage (`C03_refuted`); `end()` assigns a member (`C04_refuted`); a failed
name lookup adds the name to `all_method_names` (`C07_refuted`).

*Explicit integrator.* One step more than `max_steps` (`C17_refuted`); the first step ignores `max_dt` (`C18_refuted`); the stream
gets the old time with the new value, also for rejected attempts (`C26_refuted`); rejected attempts count toward no
limit, so a run can loop for ever (`C63_refuted`); with NDEBUG a NaN error estimate is accepted (`C25_nan_accepted_ndebug`); the
last time can exceed `t1` by one ulp (`C61_refuted`).

The explicit integrator ignores `disable_store_in_vectors` and `output_interval` (`C86_erk_ignores`).  `common_solver_options::internal_solver` is read
nowhere, so the documented choice between Broyden and Newton has no effect.

*Newton.* `newton_iterate` never looks at `tol` (`C27_tol_unused`); `broyden_iterate` always returns SUCCESS (`C33_always_success`)
and its step limiter ignores the damping (`C29_refuted`); `verify_jacobi_matrix` compares a matrix with itself
(`C34_always_true`); the LU branch of the generic Newton lacks a minus sign but is dead.

*Implicit integrator.* Stored stages are always zero (`C42_refuted`); fixed-step runs throw as soon as Newton
succeeds (`C43_fixed_never_steps`); IMPLICIT_EULER has an empty `b2` and throws (`C43_implicit_euler`); the methods with singular A
throw (`C43_singular`); GAUSS_LEGENDRE_147 and LOBATTO_IIIA_127 have uninitialised orders (`C43_uninitialised`); LOBATTO_IIIA_85, LOBATTO_IIIC_127,
GAUSS_LEGENDRE_63 and GAUSS_LEGENDRE_105 are enumerated but not implemented (`C08_irk_unsupported`); five embedded formulas miss their declared order
(`C49_embedded_fails`); the call of `arma::lu` stands inside `assert`, so with NDEBUG no stage solve ever
succeeds (`C36_ndebug_throws`); a Newton limit of 1 or less never terminates in adaptive mode (`C63_irk_diverges`);
`refresh_jac = 0` and `output_interval = 0` divide by zero; `output_interval > 1` may omit `t1`; the Jacobian is
"refreshed" at the same point (t, y) every time; the error estimate has an extra factor dt
(`C83_refuted`); with NDEBUG the four-argument call throws on every interval (`C84_irk_release_throws`); a fixed Newton
tolerance limits the order of all implicit methods to two (`C82_order_sharp`).

*Interpolation and merge.* One node gives coefficients 0 (`C46_one_node`); `merge_rk_output` drops `fun_evals` and `jac_evals`
(`C48_refuted`); `binom_coeff` is wrong for k > n and overflows from n = 13 (`C64_refuted`, `C64_overflow`).

*Multistep.* All starting values are y0 (`C52_refuted`); Adams-Bashforth takes all slopes at the current time
(`C50_current_time`); orders above 5 or below 1 are not refused (`C53_ab_bad_order`, `C53_ab_large_order`).  Because of the
starting values every order converges with order one only (`C78_refuted`, `C78_first_order_partial`, `C79_refuted`,
`C79_first_order_partial`).

*Test equations.* `three_body::fun` uses the x difference in `dydt[9]` (`C58_refuted`); `three_body::jac` is the derivative
nowhere (`C55_three_body_never`); `kin_energy` ignores the masses.

*Stability program.* The branch for explicit methods asks the table of the implicit ones and writes 1 everywhere (`C65_explicit`);
methods without embedded weights throw in `stability_limit` (`C66_no_embedded`); an unrecognised name throws
(`C66_unknown`).  The embedded region leaves out the weight `gamma` (`C88_values`).  The rounded decimal tableaux are not exactly A-stable
(`C87_fails`); the excess is of the size of the rounding (`C87_rounded`).  `gamma` is not an eigenvalue of the matrix for RADAU_IIA_32 and LOBATTO_IIIA_127, and that of LOBATTO_IIIC_85 is wrong from
the seventh digit on (`C90_far`).  The Lobatto IIIA methods are not B-stable: on a contractive equation two of their steps can move apart
(`C94_fails`); neither ever returns a run, so no result of the library is affected.

*Stiff systems and `bdf`.* The orders 3 to 6 are unstable on some contractive linear systems (`C96_refuted`); nothing in the code or its comments
limits them to eigenvalues near the negative axis.  Orders 1 and 2 are stable for all of them.

*Tolerances.* An error estimate of exactly zero is always accepted and lets the step grow by 3.6, so the step sequence of a run that sees
nothing is the same for all tolerances; whatever lies between its nodes is never seen (`C98_blind`, `C98_implicit_blind`).  Only `max_dt` protects against this.

*Newton tests.* The Hessian of `higher_order_rosenbrock_func` (test/newton.cpp 85) has zeros where `-4 b x_{i+1}` belongs; the tests pass
because they allow 10000 iterations (`C99_higher_hessian_iff`, `C99_not_quadratic`).  The expected root `{a, a*a}` is one for `a = 1` only by
coincidence: the function differs from `rosenbrock_func` by an exchange of the variables (`C99_expected_root`).

*Timer.* `print_performance` switches to microseconds below one microsecond, the resolution of the clock, so that it prints them for a
duration of zero only (`C101_us_unused`).

*Oscillator.* Cash–Karp and explicit Euler increase the energy of the harmonic oscillator in every step, Fehlberg in every step that is not large
(`C102_grows`); the classical method, Bogacki–Shampine and Dormand–Prince do not (`C102_decays_partial`).

*Three bodies.* The block of `three_body::jac` that belongs to the forces holds the negated derivatives with respect to the places, in the
columns of the momenta, with `r13_2` for `r13_3` in `J(11,7)` and `r13_3` for `r12_3` in `J(9,9)` (`C55_three_body_entries`).

*Multistep times.* `adams_bashforth_step` evaluates all slopes at the current time, so that the order is one for `y' = 2t` even
with exact starting values (`C104_refuted`); with the shipped bootstrap the error is `-(k-1) h u'` to leading order on autonomous ones (`C106_delay`).  A run of `bdf` of
order 2 to 6 is late by `k + 1/2` steps (`C113_autonomous`).

*Energy.* `three_body::kin_energy` leaves out the masses although the variables are momenta (`C89_mass`, `C89_rate`).

*Overflow.* A new value that is infinite makes the tolerance infinite and is accepted; the run reports SUCCESS (`C108_overflow`).  A NaN is
caught by `assert(err_tot >= 0.0)` only; with `NDEBUG` it is accepted, the step grows, and the run ends with SUCCESS (`C108_nan_succeeds`).  If the
square of the error overflows, the next step size is zero and the run never ends (`C109_hangs`).
An adaptive implicit run whose right-hand side returns a NaN never ends either: the stage solver reports MAXIT_EXCEEDED, the step is
repeated with 0.7 dt for ever, and `max_steps` counts accepted steps only (`C110_hangs`).

*Stored state.* The y-component of the total momentum of the second stored state of the three-body problem is -0.93884, that of
the first one 2, although the motion of three bodies conserves it (the shipped equation conserves the first component only, `C58_resume`).

*Example program.* `--out-interval` as last argument reads `argv[argc]` (`C68_ub`); `time_internals` is never initialised, so every
run without `--time-internals` copies an indeterminate `bool` (`C69_exact`); the masses of the three-body problem are uninitialised if
the standard input ends early, because the result of `read_param` is ignored; numbers are read with `std::stof`, i.e. in single
precision; the solution is not printed when no output file is given.  `run_batch` is dead code: it combines statuses with `&` and
passes three initial values to the two-dimensional Van der Pol equation.  test_orders/main.cpp and test_adaptive_step/main.cpp
call functions with signatures that no longer exist and are not modelled.


*Stage solver.* The defaults of the template parameters of `newton_solve_stages` are not those of the integrators: the damped variant needs many
passes for a linear equation and gives up where the other succeeds (`C111_damping`).  test_adaptive_step/main.cpp sets `refresh_jac = false`,
i.e. 0, which newton.hpp 70 documents as allowed; in `newton_solve_stages` it is a division by zero.

*Dense output.* Between the samples RADAU_IIA_32 has order 2 only although the step has order 3 (`C112_exponent`).

*End of the interval.* `bdf` takes full steps while `t < t1` and therefore evaluates the right-hand side behind `t1`, where it need not be defined
(`C115_refuted`); the bootstrap of both multistep integrators makes its `k - 1` (`k`) steps without looking at `t1`.

*Units.* The Newton tolerance `dx_delta = 1e-10` in `bdf` is absolute: the results depend on the unit in which the unknowns are measured
(`C114_refuted`).

*Reports and small programs.* The timing breakdown divides milliseconds by 10000 to get seconds (`C116_refuted`) and prints 0/0 for a total of 0.
The iterators of `cyclic_buffer` never initialise their members (`C117_walk_ub`).  `cyclic_buffer::operator=` compares an object with a pointer and does not
compile when it is used.  The stability program throws for unknown names and for the methods without embedded weights (`C118_outcome`).
`run_batch` (not called) is undefined and combines statuses with `&` (`C119_ub`, `C119_status`).  The padding argument of `to_fixed_w_string` has no effect,
no explicit method sets `b_interp`, so that `erk::project_b` cannot be used (`C120_explicit`).  `restore_state` is empty, `verify_solver_options` is never called.

*Tests of the repository.* `test_test_equations` relies on `verify_jacobi_matrix`, which always returns true (C34); `test_multistep.cpp` contains no assertion;
the tests in `armadillo.cpp` are empty.

*Copies of the functor.* `newton_multistep_helper` in `bdf` has a member `functor_type func` (multistep.hpp 304), not a reference: all calls after the
bootstrap act on copies (`C122_bdf_partial`, `C122_bdf_state_partial`); counters and caches in the functor are lost.  Everywhere else the functor is passed by reference.

*Smaller observations.* The list of values tried in `stability_limit` contains 0.5 twice (main.cpp 86).  The only `catch` in the library (newton.hpp 458) encloses linear algebra but no call of
the functor, so exceptions of the functor always reach the caller (`C121_erk`, `C121_irk`, `C122_newton`).

*Coefficients.* The embedded weights of LOBATTO_IIIA_127 differ from the weights by `gamma` in the first entry only; as its first stage is the value at the start of the step, the embedded formula is the method itself and estimates nothing (the method throws anyway).  In double precision the weights of most methods do not sum to one exactly, and the
rows of the matrices do not sum exactly to the abscissae (`C132_sums_irk`, `C132_sums_erk`); everything is within rounding of the exact numbers (`C132_implicit`, `C132_explicit`).

*Number of steps.* A multistep run over ten steps of 0.1 takes eleven of them in double precision, because the times are accumulated (C126).

*Damping.* All implicit methods that can be run lose energy of the harmonic oscillator in every step; the loss is determined exactly (`C131_loss`).
## 6. Mutation testing

`seeded/LOG.jsonl` has one line per wrong program tried: 463 so far.  Each is a single edit of a definition of the model, made in a copy outside this directory, followed by a build of everything.

Two ways of counting were used.

* The first batches stop at the first module that fails.  Their outcome is "first failure".  It says that the edit is noticed, possibly by a helper lemma only.
* The later batches go on.  Every proof that breaks is replaced in the copy by a placeholder, the build is repeated until it passes, and the theorems that then depend on a placeholder are reported.  Their outcome is "property theorems lost".  It says that a theorem of `MANIFEST.json` no longer has a proof.

411 edits were noticed the first time.  The others are explained in the `note` of their line, and fall into three groups.

* 40 edits showed that a theorem said too little.  The line names the theorem that was strengthened or added.  Most of them concern what is not a number of the solution: settings passed on, text printed, sample points of the stability region, the embedded weights, which failure is reported.
* 11 edits change nothing that can be observed.  They touch dead branches, padding entries of tables, values never read, and code whose behaviour is undefined with or without the edit.
* 1 edit corrects one of several wrong Jacobi matrix entries.  The refutation uses another entry.

What this does not show: an edit that keeps the proofs intact was only looked for among the edits tried.  Theorems that compare the binary64 program with the real program (C91, C132 and others) cannot notice an edit of the shared definition that changes both sides.  The coefficients themselves are fixed by C23, C49, C50, C51 and C72.

## 7. Axioms per theorem

From `#print axioms`.  "Standard" is `propext`, `Classical.choice`, `Quot.sound`.

* no axioms: `C01_copy`
* only propext: `C03_push_after_resize_ub`, `C07_refuted`, `C117_walk_ub`, `C28_dispatch`
* only propext, Quot.sound: `C05_round_trip`, `C06_resolves_or_zero`, `C06_select`, `C06_unknown_name`, `C07_listing_partial`, `C100_newton`, `C117_increment`, `C119_status`, `C120_fixed_width`, `C120_print_exact`, `C27_last_iteration`, `C27_negative_maxit`, `C27_tol_unused`, `C45_assoc`, `C45_product`, `C45_size`, `C45_unit`, `C64_factorial`, `C64_overflow`, `C64_value_partial`
* standard: `C01_index_total`, `C01_most_recent`, `C02_memory_safe`, `C02_period_nonpositive`, `C03_refuted`, `C03_resize_partial`, `C04_end_partial`, `C04_refuted`, `C08_erk`, `C08_erk_unsupported`, `C08_irk`, `C08_irk_unsupported`, `C09_bits_independent`, `C09_stream_set`, `C100_broyden`, `C100_injective`, `C100_stages`, `C101_elapsed`, `C101_performance`, `C101_toc`, `C101_us_unused`, `C102_decays_partial`, `C102_factor`, `C102_fixed`, `C102_grows`, `C102_refuted`, `C103_adams_bashforth`, `C103_bdf`, `C103_bootstrap`, `C103_default_erk`, `C103_default_irk`, `C103_erk`, `C103_irk`, `C104_autonomous_partial`, `C104_refuted`, `C105_order`, `C106_delay`, `C107_equivariant_partial`, `C107_refuted`, `C107_units_partial`, `C108_first_partial`, `C108_nan_succeeds`, `C108_overflow`, `C108_refuted`, `C108_sticky`, `C109_absorbing`, `C109_hangs`, `C109_overflow_zero`, `C109_positive_partial`, `C109_refuted`, `C10_odeint`, `C10_parallel_records`, `C110_hangs`, `C110_never_returns`, `C110_no_success_partial`, `C110_refuted`, `C111_affine`, `C111_affine_eventually`, `C111_contract`, `C111_damping`, `C111_instance`, `C111_ndebug`, `C111_plu`, `C112_exponent`, `C112_order`, `C112_run`, `C112_weights`, `C113_autonomous`, `C113_lag`, `C113_lower`, `C114_adams_bashforth`, `C114_bdf_partial`, `C114_refuted`, `C115_adams_bashforth`, `C115_adams_bashforth_output`, `C115_bdf_partial`, `C115_erk`, `C115_irk`, `C115_refuted`, `C116_lines_partial`, `C116_refuted`, `C117_print_partial`, `C117_refuted`, `C118_outcome`, `C118_printed`, `C118_refuted`, `C119_refuted`, `C119_ub`, `C11_odeint`, `C11_times`, `C120_explicit`, `C120_implicit`, `C120_print_erk`, `C120_user`, `C121_erk`, `C121_erk_counting`, `C121_erk_exceptions`, `C121_erk_returns`, `C121_irk`, `C121_irk_counting`, `C121_irk_exceptions`, `C121_irk_returns`, `C122_adams_bashforth_partial`, `C122_bdf_partial`, `C122_bdf_state_partial`, `C122_newton`, `C122_refuted`, `C123_erk`, `C123_irk`, `C124_erk_fixed`, `C124_erk_max_steps`, `C124_erk_output`, `C124_irk_max_steps`, `C124_irk_output`, `C125_horizon`, `C125_restart`, `C125_values`, `C126_ab_returns`, `C126_adams_bashforth_partial`, `C126_bdf_partial`, `C126_bdf_returns`, `C126_exact`, `C126_refuted`, `C126_stalls`, `C126_tenth`, `C127_convergence`, `C127_example`, `C127_perturbed`, `C127_returns`, `C127_runs`, `C128_convergence`, `C128_example`, `C128_perturbed`, `C129_convergence`, `C129_perturbed`, `C12_guts`, `C12_odeint`, `C130_convergence`, `C130_steps`, `C130_times_monotone`, `C131_decreases`, `C131_factor`, `C131_loss`, `C131_max_dt`, `C131_total`, `C132_explicit`, `C132_implicit`, `C132_sums_erk`, `C132_sums_irk`, `C133_adams_bashforth`, `C133_adaptive`, `C133_bdf`, `C133_equations`, `C133_explicit`, `C133_implicit`, `C133_jac`, `C133_rhs`, `C134_adams_bashforth`, `C134_drift`, `C134_mass`, `C134_mass_adams_bashforth`, `C134_sharp`, `C135_euler`, `C135_euler_run`, `C135_fixed`, `C135_stability`, `C136_dimer`, `C136_kinetic4`, `C136_negative`, `C136_positive`, `C136_rober`, `C136_run`, `C137_returns`, `C137_same`, `C138_completes`, `C138_estimate`, `C138_exact`, `C138_sharp`, `C138_step`, `C139_fixed`, `C139_runs`, `C13_within_tolerance`, `C140_bounds`, `C140_comparison`, `C14_counters`, `C15_calls_in_interval`, `C15_calls_reachable`, `C16_fsal_transparent`, `C16_guts`, `C17_irk_max_steps_partial`, `C17_irk_refuted`, `C17_max_steps_partial`, `C17_refuted`, `C18_irk_max_dt_partial`, `C18_max_dt_partial`, `C18_refuted`, `C19_fixed_grid`, `C20_adaptive_terminates`, `C21_irk_reject`, `C21_reject_keeps_state`, `C21_retry_smaller`, `C22_embedded_exact`, `C22_polynomial_exact`, `C23_order_conditions`, `C24_linear_invariant`, `C25_erk_refused`, `C25_irk_decided`, `C25_irk_lu_asserts`, `C25_irk_nan_asserts`, `C25_irk_odeint_refused`, `C25_irk_refused`, `C25_nan_accepted_ndebug`, `C25_nan_asserts`, `C25_no_nan_accepted`, `C25_odeint_refused`, `C26_refuted`, `C26_stream_partial`, `C27_returns`, `C27_success`, `C28_evaluations`, `C29_broyden_step_partial`, `C29_newton_step_bound`, `C29_refuted`, `C30_affine`, `C31_precondition_irrelevant`, `C32_secant`, `C33_always_success`, `C33_refuted`, `C33_stop_partial`, `C34_always_true`, `C34_refuted`, `C35_entries`, `C35_points`, `C35_quadratic_exact`, `C35_quadratic_map`, `C36_contract`, `C36_evaluations`, `C36_ndebug_throws`, `C36_newton_equation`, `C37_affine`, `C37_run`, `C37_update`, `C38_lengths`, `C38_records`, `C38_times`, `C39_calls`, `C39_counters`, `C40_accepted`, `C40_tolerance`, `C41_stream`, `C42_refuted`, `C42_stages_zero_partial`, `C43_adaptive_partial`, `C43_fixed_never_steps`, `C43_implicit_euler`, `C43_refuted`, `C43_singular`, `C43_uninitialised`, `C44_linear`, `C45_order`, `C46_lagrange`, `C46_one_node`, `C46_total`, `C47_radau32`, `C47_radau53`, `C48_accept_frac_weights`, `C48_assoc`, `C48_merge_partial`, `C48_refuted`, `C49_embedded_exact`, `C49_embedded_fails`, `C49_embedded_partial`, `C49_order_conditions`, `C49_refuted`, `C49_row_sums`, `C50_current_time`, `C50_exact`, `C50_sharp`, `C50_step`, `C51_exact`, `C51_sharp`, `C52_bootstrap_partial`, `C52_lag`, `C52_outcome`, `C52_refuted`, `C53_ab_bad_order`, `C53_ab_grid`, `C53_ab_large_order`, `C53_ab_returns`, `C53_adams_bashforth`, `C53_bdf`, `C53_bdf_grid`, `C53_bdf_returns`, `C54_affine`, `C54_bad_order`, `C54_failure`, `C54_samples`, `C55_jacobian_partial`, `C55_refuted`, `C55_three_body_entries`, `C55_three_body_force`, `C55_three_body_never`, `C56_exponential`, `C56_harmonic`, `C56_stiff`, `C57_adams_bashforth`, `C57_bdf`, `C57_erk`, `C57_irk`, `C57_orthogonal`, `C57_orthogonal_jac`, `C58_momentum_x_partial`, `C58_momentum_y`, `C58_refuted`, `C58_resume`, `C59_erk`, `C59_irk`, `C59_returns`, `C59_step`, `C59_throws`, `C60_A_stable`, `C60_L_stable`, `C60_harmonic`, `C60_not_explicit`, `C60_run`, `C61_overshoots`, `C61_refuted`, `C61_run_overshoots`, `C61_sterbenz_partial`, `C62_times_monotone`, `C63_diverges`, `C63_fixed_terminates`, `C63_irk_diverges`, `C63_irk_only_rejections_partial`, `C63_irk_refuted`, `C63_irk_terminates_partial`, `C63_only_rejections_partial`, `C63_refuted`, `C63_stall`, `C64_refuted`, `C65_explicit`, `C65_grid`, `C65_implicit_partial`, `C65_limit_points`, `C65_refuted`, `C65_written`, `C66_exact`, `C66_no_embedded`, `C66_outcome`, `C66_refuted`, `C66_unknown`, `C67_affine`, `C67_bounded`, `C67_harmonic`, `C67_stiff_success`, `C68_accepts_partial`, `C68_refuted`, `C68_settings`, `C68_status`, `C68_ub`, `C69_defined_partial`, `C69_exact`, `C69_refuted`, `C70_exit`, `C70_explicit`, `C70_fixed_step`, `C70_problem`, `C70_success`, `C71_erk`, `C71_irk_exact`, `C71_irk_partial`, `C71_refuted`, `C72_simplifying`, `C73_adaptive_terminates`, `C73_lipschitz`, `C74_adaptive`, `C74_adaptive_completes`, `C74_convergence`, `C74_fixed_step`, `C75_estimate_order`, `C76_step_count`, `C77_affine`, `C77_convergence`, `C77_max_dt`, `C77_stiff_completes`, `C78_first_order_partial`, `C78_order_one`, `C78_refuted`, `C79_completes`, `C79_first_order_partial`, `C79_order_one`, `C79_refuted`, `C80_linear`, `C80_quadratic`, `C82_completes`, `C82_convergence`, `C82_order_sharp`, `C83_affine_partial`, `C83_refuted`, `C83_run_partial`, `C84_erk_completes`, `C84_erk_steps`, `C84_irk_completes`, `C84_irk_release_throws`, `C84_irk_steps`, `C85_converges`, `C85_recurrence`, `C85_scalar_affine`, `C86_erk_ignores`, `C86_erk_no_stream`, `C86_irk_partial`, `C86_refuted`, `C87_L_stable`, `C87_exact_partial`, `C87_fails`, `C87_refuted`, `C87_rounded`, `C87_run`, `C88_gamma_zero_partial`, `C88_refuted`, `C88_values`, `C89_conserved_partial`, `C89_mass`, `C89_rate`, `C89_refuted`, `C90_explicit`, `C90_far`, `C90_near_partial`, `C90_refuted`, `C91_convergence`, `C91_example`, `C91_fixed_step`, `C91_perturbed`, `C92_completes`, `C92_completes`, `C92_stalls`, `C93_equivariant`, `C93_fixed`, `C93_units`, `C94_affine`, `C94_bstable_partial`, `C94_completes`, `C94_fails`, `C94_inner`, `C94_refuted`, `C94_rounded`, `C94_run`, `C95_completes`, `C95_convergence`, `C96_completes`, `C96_equilibrium_partial`, `C96_linear_partial`, `C96_low_order`, `C96_nonlinear_partial`, `C96_refuted`, `C97_convergence`, `C98_blind`, `C98_implicit_blind`, `C98_implicit_refuted`, `C98_max_dt_partial`, `C98_refuted`, `C99_expected_root`, `C99_higher_gradient`, `C99_higher_hessian_iff`, `C99_higher_root`, `C99_inverse_power`, `C99_jacobian_partial`, `C99_not_quadratic`, `C99_refuted`, `C99_rosenbrock_gradient`, `C99_rosenbrock_hessian`, `C99_rosenbrock_root`, `FP.C101_binary64`, `FP.C101_us_binary64`, `FP.FP_add`, `FP.FP_add_nan`, `FP.FP_add_sign`, `FP.FP_div`, `FP.FP_div_nan`, `FP.FP_div_sign`, `FP.FP_div_zero`, `FP.FP_eq`, `FP.FP_inf`, `FP.FP_le`, `FP.FP_lt`, `FP.FP_mul`, `FP.FP_mul_nan`, `FP.FP_mul_sign`, `FP.FP_nearest`, `FP.FP_neg_abs`, `FP.FP_overflow`, `FP.FP_sqrt`, `FP.FP_sqrt_nan`, `FP.FP_sub`, `FP.FP_tie_even`, `erkDefault_settings`, `irkDefault_settings`
