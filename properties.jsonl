{"id": "C01", "title": "History buffer returns the most recent values", "statement": "After constructing cyclic_buffer(p) with p >= 1 and pushing any sequence of n values, size() is min(n,p), empty() is true exactly when n = 0, and b[i] is the i-th most recently pushed value for every i < size().", "quantifier": "every element type, every period p >= 1, every finite push history, every valid index", "why_tests_cant": "The doubled storage wraps with period p after 2p-1 pushes; a test sees a few lengths, the claim is about all periods and histories.", "anchors": ["cyclic_buffer.hpp: cyclic_buffer::push_back, operator[], size, empty"]}
{"id": "C02", "title": "History buffer never touches memory outside its storage", "statement": "For a buffer constructed with period p >= 1, no push writes outside the 2p storage cells, and on a non-empty buffer operator[](i) is accepted by its assertions exactly when i < size() (an empty buffer accepts only i = 0); every accepted access is inside storage. A buffer with period 0 makes the first push an out-of-bounds write.", "quantifier": "every period, every push history, every index", "why_tests_cant": "Out-of-bounds access on a particular wrap position may be silent in a test run.", "anchors": ["cyclic_buffer.hpp: push_back, operator[]"]}
{"id": "C03", "title": "Resized buffer behaves as a fresh buffer", "statement": "After resize(m) a cyclic_buffer can be used like a newly constructed buffer of period m: size() is 0 and pushes are stored.", "quantifier": "every history before the resize, every m, every history after it", "why_tests_cant": "Needs every prior state; the test-suite never calls resize.", "anchors": ["cyclic_buffer.hpp: resize, push_back, size"]}
{"id": "C04", "title": "Reading a buffer does not change it", "statement": "Observers of a cyclic_buffer (size, empty, period, current, operator[], begin, end) leave later observations unchanged.", "quantifier": "every reachable buffer state and every observer", "why_tests_cant": "A mutation by an observer shows only when a later read depends on it.", "anchors": ["cyclic_buffer.hpp: end, begin, operator[]"]}
{"id": "C05", "title": "Method names and codes round-trip for ever", "statement": "For every enumerated method m, name_to_method(method_to_name(m)) == m, in the erk and in the irk table, after any history of earlier lookups (known or unknown names and codes).", "quantifier": "every enumerated method and every history of lookups", "why_tests_cant": "Lookups use std::map::operator[] and mutate the tables, so the claim ranges over call histories.", "anchors": ["erk.cpp: method_to_name, name_to_method", "irk.cpp: method_to_name, name_to_method", "enums.hpp: FOREACH_ERK_METHOD, FOREACH_IRK_METHOD"]}
{"id": "C06", "title": "Unknown method names resolve to 0 and never to a method", "statement": "name_to_method(s) is 0 for every string s that is not a method name, after any history of lookups; so the 'if (method)' idiom of the example program never selects a wrong solver.", "quantifier": "every string, every lookup history", "why_tests_cant": "Infinite input domain and history dependence.", "anchors": ["erk.cpp: name_to_method", "irk.cpp: name_to_method", "examples/example_equations.cpp: int_equation"]}
{"id": "C07", "title": "all_method_names lists exactly the methods", "statement": "all_method_names() returns exactly the enumerated method names, whatever was looked up before.", "quantifier": "every lookup history", "why_tests_cant": "History dependence: a failed lookup earlier in the process changes later listings.", "anchors": ["erk.cpp: all_method_names", "irk.cpp: all_method_names"]}
{"id": "C08", "title": "Coefficients verify exactly for the supported methods", "statement": "verify_solver_coeffs(get_coefficients(m)) is true exactly for the implemented method codes and false for every other int, so odeint with an unsupported code stops at its assertion and never integrates with garbage coefficients.", "quantifier": "every int m, both tables", "why_tests_cant": "All 2^32 codes.", "anchors": ["erk.cpp: get_coefficients, verify_solver_coeffs", "irk.cpp: get_coefficients, verify_solver_coeffs", "erk.hpp: odeint", "irk.hpp: odeint"]}
{"id": "C09", "title": "Output option bits are independent", "statement": "For every initial 64-bit output mode and every sequence of set_output_stream / enable_store_in_vectors / disable_store_in_vectors calls, store_in_vectors() and write_to_file() report exactly the last relevant request, no call disturbs the other flag or any other bit, and starting from the default object write_to_file() is true only if a stream was set.", "quantifier": "every 64-bit mode, every call sequence", "why_tests_cant": "Bit manipulation over 2^64 modes and unbounded sequences.", "anchors": ["options.hpp: output_options"]}
{"id": "C10", "title": "Explicit integrator records parallel samples starting at the initial condition", "statement": "Whenever erk::odeint / erk_guts returns, t_vals, y_vals, stages, err_est and err have the same length, which is 1 + number of accepted steps, and the first sample is (t0, y0). Holds for any arithmetic, including IEEE doubles with NaN and infinities.", "quantifier": "every right-hand side, interval, initial value, options, coefficients, and every scalar arithmetic", "why_tests_cant": "All inputs and all executions of an unbounded loop.", "anchors": ["erk.hpp: erk_guts"]}
{"id": "C11", "title": "Explicit integrator: times increase strictly and end exactly at t1", "statement": "When erk_guts returns with status SUCCESS the recorded times strictly increase, all lie in [t0, t1], and the last one is t1 (exact arithmetic); with status ERROR_MAX_STEPS_EXCEEDED the last one is < t1.", "quantifier": "every right-hand side, options, tableau, t0 < t1, dt > 0 in exact arithmetic", "why_tests_cant": "Unbounded loop with adaptive step selection.", "anchors": ["erk.hpp: erk_guts"]}
{"id": "C12", "title": "Every explicit sample obeys the Runge-Kutta formula of the chosen method", "statement": "Every recorded sample is obtained from the previous one by exactly one step of the textbook Runge-Kutta method with the coefficients of the chosen method and step size t_{k+1}-t_k.", "quantifier": "every right-hand side, options, explicit tableau, every accepted step (exact arithmetic)", "why_tests_cant": "Equality of an in-place stage loop with the mathematical definition for all f.", "anchors": ["erk.hpp: erk_guts", "erk.cpp: get_coefficients"]}
{"id": "C13", "title": "Adaptive explicit integrator accepts only steps within tolerance", "statement": "With adaptive stepping every accepted step's recorded error estimate is the weighted RMS norm of the embedded difference and is < 1; the recorded err is max(norm, 1e-17).", "quantifier": "every right-hand side, tolerances, interval (exact arithmetic), every accepted step", "why_tests_cant": "All accepted steps of all runs.", "anchors": ["erk.hpp: erk_guts"]}
{"id": "C14", "title": "Explicit integrator counters are truthful", "statement": "On SUCCESS attempt = accepted + reject_err and accept_frac = accepted/attempt; on ERROR_MAX_STEPS_EXCEEDED attempt = accepted + reject_err + 1; fun_evals is exactly the number of times the user's right-hand side was called, which is s per attempt, or 1 + (s-1) per attempt for first-same-as-last methods.", "quantifier": "every run, any scalar arithmetic", "why_tests_cant": "Counting over unbounded executions.", "anchors": ["erk.hpp: erk_guts, rk_output::counters"]}
{"id": "C15", "title": "Right-hand side is never evaluated outside the interval", "statement": "erk::odeint with any of the shipped methods calls the user's right-hand side only at times in [t0, t1] (exact arithmetic), including in rejected attempts.", "quantifier": "every call made in every run", "why_tests_cant": "A right-hand side undefined outside the interval fails only for unlucky step choices.", "anchors": ["erk.hpp: erk_guts", "erk.cpp: get_coefficients"]}
{"id": "C16", "title": "First-same-as-last is an optimisation only", "statement": "For the shipped FSAL methods (BOGACKI_SHAMPINE_32, DORMAND_PRINCE_54) the returned times, values, stages, errors and step counts equal those of the same method with the FSAL reuse turned off; only fun_evals differs (exact arithmetic).", "quantifier": "every right-hand side and every run, including after rejected steps", "why_tests_cant": "Correctness of stage reuse across accept/reject sequences.", "anchors": ["erk.hpp: apply_fsal, erk_guts", "erk.cpp: get_coefficients"]}
{"id": "C17", "title": "max_steps bounds the number of steps", "statement": "With max_steps = N >= 0 the explicit and implicit integrators accept at most N steps and report ERROR_MAX_STEPS_EXCEEDED when more would be needed.", "quantifier": "every run", "why_tests_cant": "Off-by-one at the bound for every N.", "anchors": ["erk.hpp: erk_guts", "irk.hpp: irk_guts", "options.hpp: max_steps"]}
{"id": "C18", "title": "max_dt bounds the step size", "statement": "With adaptive stepping and max_dt > 0 no accepted step is longer than max_dt.", "quantifier": "every accepted step of every run", "why_tests_cant": "All steps of all runs.", "anchors": ["erk.hpp: erk_guts", "irk.hpp: irk_guts", "options.hpp: max_dt"]}
{"id": "C19", "title": "Fixed-step explicit integration terminates on a uniform grid", "statement": "With adaptive stepping off, dt > 0 and t0 < t1 the explicit integrator terminates (exact arithmetic), after ceil((t1-t0)/dt) steps, with times t0 + k*dt except for the last, which is t1.", "quantifier": "every right-hand side, t0 < t1, dt > 0", "why_tests_cant": "Termination and step count for all inputs.", "anchors": ["erk.hpp: erk_guts"]}
{"id": "C20", "title": "Adaptive explicit integration terminates for bounded right-hand sides", "statement": "If the right-hand side is bounded, abs_tol > 0, rel_tol >= 0 and max_dt is unset or positive, the adaptive explicit integrator with an embedded pair terminates for every interval and initial step (exact arithmetic).", "quantifier": "every bounded right-hand side, tolerance, interval, initial step", "why_tests_cant": "Termination of a feedback controller.", "anchors": ["erk.hpp: erk_guts"]}
{"id": "C21", "title": "A rejected step changes nothing but the step size", "statement": "A rejected attempt leaves the current time, value and all recorded samples unchanged and retries with a step at most 0.9 times as long.", "quantifier": "every rejected attempt of every run (exact arithmetic for the step size)", "why_tests_cant": "All rejection points.", "anchors": ["erk.hpp: erk_guts"]}
{"id": "C22", "title": "Explicit methods integrate polynomials exactly", "statement": "For y' = g(t) with g a polynomial of degree < order, every sample recorded by erk::odeint with that method equals the exact solution (exact arithmetic); the embedded formula is exact for degree < order2.", "quantifier": "every polynomial right-hand side up to the degree, every step sequence, every shipped explicit method", "why_tests_cant": "Infinitely many polynomials and grids.", "anchors": ["erk.cpp: get_coefficients", "erk.hpp: erk_guts"]}
{"id": "C23", "title": "Explicit tableaux have their declared orders", "statement": "For every rooted tree with at most `order` nodes the elementary weight of the shipped tableau equals 1/density (Butcher's order conditions), and likewise for the embedded weights up to `order2`.", "quantifier": "all rooted trees up to the order, all shipped explicit methods", "why_tests_cant": "Numerical order tests are approximate and sample a few problems.", "anchors": ["erk.cpp: get_coefficients"]}
{"id": "C24", "title": "Linear invariants are preserved by the explicit integrators", "statement": "If w.f(t,y) = 0 for all t,y then w.y is the same for every recorded sample of erk::odeint (exact arithmetic).", "quantifier": "every right-hand side with a linear invariant, every run", "why_tests_cant": "All right-hand sides and grids.", "anchors": ["erk.hpp: erk_guts"]}
{"id": "C25", "title": "Invalid intervals and step sizes are refused", "statement": "erk_guts and irk_guts stop at an assertion, and never return a solution, when t1 <= t0 or dt <= 0 (assertions enabled, exact arithmetic); if the error estimate is not a number the run stops at an assertion instead of accepting the step.", "quantifier": "every such input", "why_tests_cant": "All inputs including NaN.", "anchors": ["erk.hpp: erk_guts", "irk.hpp: irk_guts"]}
{"id": "C26", "title": "Explicit integrator streams accepted samples", "statement": "With an output stream set, the lines written by erk::odeint are the accepted samples (t, y(t)), one per accepted step.", "quantifier": "every run", "why_tests_cant": "Depends on which attempts are rejected.", "anchors": ["erk.hpp: erk_guts", "options.hpp: output_options"]}
{"id": "C27", "title": "Newton success means convergence", "statement": "newton_iterate reports SUCCESS only if the last increment was below dx_delta, fewer than maxit iterations were used and the residual is finite; with any other status it returns the initial guess unchanged; it never uses more than maxit iterations.", "quantifier": "every functor, initial guess and options with maxit >= 0, any scalar arithmetic", "why_tests_cant": "All functors.", "anchors": ["newton.hpp: newton_iterate_impl, newton_iterate"]}
{"id": "C28", "title": "Newton option dispatch selects the requested variant", "statement": "newton_iterate runs the variant whose compile-time flags equal the run-time options (Jacobian refresh, preconditioning, timing, step limiting, quiet), for all 32 combinations.", "quantifier": "every options value", "why_tests_cant": "A transposed row in the 32-row table affects one combination.", "anchors": ["newton.hpp: newton_iterate"]}
{"id": "C29", "title": "max_step limits every Newton update", "statement": "With max_step > 0 every update made by newton_iterate and by broyden_iterate has Euclidean length at most max_step (exact arithmetic).", "quantifier": "every functor, every iteration", "why_tests_cant": "All iterations of all runs.", "anchors": ["newton.hpp: newton_iterate_impl, broyden_iterate"]}
{"id": "C30", "title": "Newton solves affine systems exactly", "statement": "For F(x) = M x + q with M invertible, full steps and maxit >= 3, newton_iterate returns the exact root with SUCCESS after at most two iterations (exact arithmetic, exact linear solver).", "quantifier": "every invertible M, q, initial guess", "why_tests_cant": "All affine systems.", "anchors": ["newton.hpp: newton_iterate_impl"]}
{"id": "C31", "title": "Preconditioning does not change Newton's result", "statement": "newton_iterate gives the same result and status with precondition on and off (exact arithmetic, exact linear solver, Jacobi scaling).", "quantifier": "every functor and options", "why_tests_cant": "All functors.", "anchors": ["newton.hpp: newton_iterate_impl"]}
{"id": "C32", "title": "Broyden updates satisfy the secant equation", "statement": "After each Broyden update with non-zero denominator the inverse-Jacobian approximation maps the last change of the residual to the last change of x (exact arithmetic).", "quantifier": "every functor, every iteration", "why_tests_cant": "All iterations.", "anchors": ["newton.hpp: broyden_iterate"]}
{"id": "C33", "title": "Broyden success means convergence", "statement": "broyden_iterate reports SUCCESS only if the residual is below tol or the last increment is below dx_delta.", "quantifier": "every functor and options", "why_tests_cant": "All functors.", "anchors": ["newton.hpp: broyden_iterate"]}
{"id": "C34", "title": "Jacobian check detects wrong Jacobians", "statement": "verify_jacobi_matrix returns false when the supplied Jacobian differs from the finite-difference Jacobian.", "quantifier": "every functor and point", "why_tests_cant": "All functors.", "anchors": ["newton.hpp: verify_jacobi_matrix"]}
{"id": "C35", "title": "Finite-difference Jacobian is exact for quadratics", "statement": "approx_jacobi_matrix(y, F, h) equals the true Jacobian for every F whose components are polynomials of degree <= 2 and every h != 0, and evaluates F only at y and y +- h e_j.", "quantifier": "every quadratic map, point and h", "why_tests_cant": "All maps.", "anchors": ["newton.hpp: approx_jacobi_matrix"]}
{"id": "C36", "title": "Stage solver contract", "statement": "newton_solve_stages returns SUCCESS only if the squared residual of the stage equations is below Rtol^2 or the last Newton increment is below xtol; otherwise MAXIT_EXCEEDED; no other status is possible; its evaluation counters are exact.", "quantifier": "every functor, tableau, options, any scalar arithmetic", "why_tests_cant": "All runs.", "anchors": ["irk.hpp: newton_solve_stages, construct_R"]}
{"id": "C37", "title": "Implicit update equals the Runge-Kutta formula up to the stage residual", "statement": "The new value formed from the stages is y + dt*sum b_i f(t+c_i dt, y+Y_i) plus the residual weighted with inv(A)^T b; with a zero residual it is exactly the Runge-Kutta step.", "quantifier": "every right-hand side, invertible tableau, stage vector (exact arithmetic)", "why_tests_cant": "All f.", "anchors": ["irk.hpp: irk_guts, construct_R"]}
{"id": "C38", "title": "Implicit integrator records consistent samples", "statement": "Whenever irk_guts returns, the five record vectors have equal length, the first sample is (t0,y0), the times strictly increase within [t0,t1], and exactly the accepted steps whose index is a multiple of output_interval are recorded (when storing is on); with output_interval 1 and SUCCESS the last recorded time is t1.", "quantifier": "every run (order claims in exact arithmetic)", "why_tests_cant": "Unbounded loop.", "anchors": ["irk.hpp: irk_guts", "options.hpp: output_options"]}
{"id": "C39", "title": "Implicit integrator counters are truthful", "statement": "On SUCCESS attempt = accepted + reject_err + reject_newton, newton_success = accepted + reject_err, newton_maxit_exceed = reject_newton, the other two failure counters are 0, and fun_evals / jac_evals are exactly the number of user calls.", "quantifier": "every run, any scalar arithmetic", "why_tests_cant": "Counting over unbounded executions.", "anchors": ["irk.hpp: irk_guts, rk_output::counters"]}
{"id": "C40", "title": "Adaptive implicit integrator accepts only converged steps within tolerance", "statement": "Every accepted adaptive step comes from a stage solve with status SUCCESS and has error estimate <= 1.", "quantifier": "every accepted step", "why_tests_cant": "All runs.", "anchors": ["irk.hpp: irk_guts"]}
{"id": "C41", "title": "Implicit integrator streams exactly the accepted samples", "statement": "With a stream set, irk_guts writes one line per accepted step whose index is a multiple of output_interval, containing the time and value of that step, and nothing else.", "quantifier": "every run, any scalar arithmetic", "why_tests_cant": "Depends on reject pattern.", "anchors": ["irk.hpp: irk_guts"]}
{"id": "C42", "title": "Implicit integrator records the stages", "statement": "The stages vector of irk::rk_output contains the stage values of each recorded step (as documented, for dense output).", "quantifier": "every run", "why_tests_cant": "All runs.", "anchors": ["irk.hpp: irk_guts, rk_output"]}
{"id": "C43", "title": "Every implemented implicit method can integrate", "statement": "irk::odeint with any method accepted by verify_solver_coeffs integrates, adaptively or with fixed step, without throwing.", "quantifier": "every supported method, both modes", "why_tests_cant": "Depends on singularity of A and on empty vectors.", "anchors": ["irk.hpp: irk_guts, odeint", "irk.cpp: get_coefficients"]}
{"id": "C44", "title": "Linear invariants are preserved by the implicit integrators", "statement": "If w.f = 0 and w.J = 0 identically then w.y is the same for every sample recorded by irk_guts, even when Newton has not fully converged (exact arithmetic, exact linear solver).", "quantifier": "every such right-hand side, every run", "why_tests_cant": "All runs.", "anchors": ["irk.hpp: irk_guts, newton_solve_stages"]}
{"id": "C45", "title": "Coefficient-list expansion is polynomial multiplication", "statement": "expand(c1,c2) encodes the product of the sums encoded by c1 and c2, has c1.size()*c2.size() terms in row-major order, is associative, and has { {} } as unit.", "quantifier": "all coefficient lists, all values of the symbols", "why_tests_cant": "All lists.", "anchors": ["irk.cpp: expand"]}
{"id": "C46", "title": "Collocation interpolation coefficients integrate the Lagrange basis", "statement": "For any two or more distinct nodes c, row j of collocation_interpolate_coeffs(c), evaluated through project_b, is the integral from 0 to theta of the j-th Lagrange basis polynomial on c.", "quantifier": "every number of nodes >= 2, all distinct real nodes, every theta", "why_tests_cant": "Unbounded number of nodes.", "anchors": ["irk.cpp: collocation_interpolate_coeffs, project_b"]}
{"id": "C47", "title": "Dense output reproduces the method at its nodes", "statement": "For RADAU_IIA_32 and RADAU_IIA_53 project_b(1) is the weight vector b, project_b(c_i) is row i of A and project_b(0) is 0 (exact arithmetic).", "quantifier": "all nodes of the exact-coefficient collocation methods", "why_tests_cant": "Tests compare with approximate equality.", "anchors": ["irk.cpp: project_b, get_coefficients"]}
{"id": "C48", "title": "Merging outputs concatenates and accumulates", "statement": "merge_rk_output(a,b) concatenates the five record vectors in order, or-combines the status so that it is SUCCESS only if both are, adds elapsed time and every counter, weights accept_frac by sample counts, and is associative on records and counters.", "quantifier": "every pair / triple of outputs", "why_tests_cant": "All outputs.", "anchors": ["irk.cpp: merge_rk_output"]}
{"id": "C49", "title": "Implicit tableaux are consistent and have their declared orders", "statement": "For the shipped implicit methods with exact coefficients the row sums of A equal c, and the simplifying conditions that give the declared order hold for (A,b,c); the embedded weights (with the gamma term) satisfy the order conditions up to order2.", "quantifier": "all rooted trees up to the order / all monomials up to the degree, all shipped methods with closed-form coefficients", "why_tests_cant": "Numerical tests are approximate.", "anchors": ["irk.cpp: get_coefficients"]}
{"id": "C50", "title": "Adams-Bashforth formulas are exact for polynomials", "statement": "The order-k Adams-Bashforth weights (k = 1..5) integrate every polynomial of degree < k over one step exactly, and one step applies exactly these weights to the k most recent values.", "quantifier": "every polynomial of degree < k, every step size, every history", "why_tests_cant": "All polynomials.", "anchors": ["multistep.hpp: adams_bashforth_step"]}
{"id": "C51", "title": "BDF formulas are exact for polynomials", "statement": "The order-k BDF coefficients (k = 1..6) satisfy the BDF relation exactly for every polynomial of degree <= k.", "quantifier": "every polynomial of degree <= k, every step size", "why_tests_cant": "All polynomials.", "anchors": ["multistep.hpp: bdf"]}
{"id": "C52", "title": "Multistep starting values approximate the solution", "statement": "The history used to start the multistep methods contains the solution values at t0, t0+dt, ..., computed by the bootstrap integrator.", "quantifier": "every right-hand side, order, dt", "why_tests_cant": "All right-hand sides.", "anchors": ["multistep.hpp: bootstrap_history"]}
{"id": "C53", "title": "Multistep time grid", "statement": "adams_bashforth and bdf (when they succeed) return times t0 + k*dt, with equally many values, the last time being the first grid point >= t1 that is at least the bootstrap end; status SUCCESS.", "quantifier": "every right-hand side, order, interval (exact arithmetic)", "why_tests_cant": "Unbounded loop.", "anchors": ["multistep.hpp: adams_bashforth, bdf"]}
{"id": "C54", "title": "BDF samples solve the BDF equation or failure is reported", "statement": "Every sample recorded by bdf after the bootstrap is the result of a Newton solve that reported SUCCESS on the BDF equation built from the k most recent samples; a failed solve ends the run with INTERNAL_SOLVE_FAILURE and keeps the samples so far; orders outside 1..6 give GENERAL_ERROR with empty output.", "quantifier": "every right-hand side, order, run", "why_tests_cant": "All runs.", "anchors": ["multistep.hpp: bdf"]}
{"id": "C55", "title": "Shipped Jacobians are the derivatives", "statement": "For every shipped test equation jac(t,y) is the derivative of fun(t,.) at y.", "quantifier": "every equation, parameter, time and state where fun is differentiable", "why_tests_cant": "verify_jacobi_matrix samples points; derivative must hold everywhere.", "anchors": ["test_equations.hpp"]}
{"id": "C56", "title": "Shipped closed-form solutions solve their equations", "statement": "exponential::sol, harmonic::sol and stiff_eq::sol satisfy y' = fun(t,y) for all t and the stated initial values.", "quantifier": "all times and parameters", "why_tests_cant": "All t.", "anchors": ["test_equations.hpp"]}
{"id": "C57", "title": "Chemical test problems conserve mass", "statement": "rober conserves y0+y1+y2, dimer y0+2y1, kinetic_4 y0+2y1+3y2+4y3: their right-hand sides are orthogonal to these, hence every erk run conserves them exactly (exact arithmetic).", "quantifier": "all states, rates, runs", "why_tests_cant": "All states.", "anchors": ["test_equations.hpp: rober, dimer, kinetic_4"]}
{"id": "C58", "title": "Three-body forces are consistent", "statement": "three_body::fun conserves total linear momentum in both coordinates.", "quantifier": "all states and masses", "why_tests_cant": "All states.", "anchors": ["test_equations.hpp: three_body"]}
{"id": "C59", "title": "Stability function is the amplification factor", "statement": "For y' = lambda*y one Runge-Kutta step with an invertible stage system multiplies y by stability_function(lambda*dt, A, b).", "quantifier": "every lambda, dt, tableau with invertible I - zA", "why_tests_cant": "All z.", "anchors": ["stability_region/main.cpp: stability_function", "erk.hpp: erk_guts", "irk.hpp: irk_guts"]}
{"id": "C60", "title": "Recommended stiff methods are A-stable and L-stable", "statement": "For IMPLICIT_EULER, RADAU_IIA_32, RADAU_IIA_53, LOBATTO_IIIC_43, LOBATTO_IIIC_64 and LOBATTO_IIIC_85 |R(z)| <= 1 for every complex z with Re z <= 0, and R(z) -> 0 as |z| -> infinity.", "quantifier": "all z in the left half plane", "why_tests_cant": "Uncountably many z.", "anchors": ["irk.cpp: get_coefficients", "README.md"]}
{"id": "C61", "title": "Hitting t1 exactly in binary64", "statement": "In IEEE binary64 round-to-nearest arithmetic the clipping 'if (t+dt > t1) dt = t1 - t; t += dt' ends exactly at t1.", "quantifier": "all finite doubles t < t1", "why_tests_cant": "2^128 pairs; the failing ones are ties.", "anchors": ["erk.hpp: erk_guts", "irk.hpp: irk_guts"]}
{"id": "C62", "title": "Recorded times never decrease in binary64", "statement": "In IEEE binary64 arithmetic the recorded times of the explicit integrator never decrease, whatever the right-hand side does.", "quantifier": "every run in binary64", "why_tests_cant": "All runs.", "anchors": ["erk.hpp: erk_guts"]}
{"id": "C63", "title": "Integrators always make progress", "statement": "The integrators terminate whenever max_steps >= 0 (each loop iteration either records progress or counts toward a limit).", "quantifier": "every run", "why_tests_cant": "Non-termination cannot be observed by a test.", "anchors": ["erk.hpp: erk_guts", "irk.hpp: irk_guts"]}
{"id": "C64", "title": "Binomial coefficients", "statement": "binom_coeff(n,b) equals n choose b for 0 <= n,b <= 12 without int overflow, and overflows (undefined behaviour) for n >= 13.", "quantifier": "all ints in range", "why_tests_cant": "Overflow boundary.", "anchors": ["irk.cpp: factorial, binom_coeff"]}
{"id": "C65", "title": "Stability region file holds the stability function of the named method", "statement": "For every implemented method every line 'x y v' written by stability_region has v = |R(x + iy)| with R the stability function of that method.", "quantifier": "every method name, every line", "why_tests_cant": "A plausible-looking file; the wrong table is only visible by comparison with the mathematics.", "anchors": ["stability_region/main.cpp: stability_region, rk_to_stab_region"]}
{"id": "C66", "title": "Stability limit table is written for every method", "statement": "stability_limit writes its complete table (35 lines) for every implemented method.", "quantifier": "every method name", "why_tests_cant": "Depends on the shape of every tableau and on singular points of I - zA.", "anchors": ["stability_region/main.cpp: stability_limit"]}
{"id": "C67", "title": "Adaptive implicit integration without a step limit completes on linear and on bounded problems", "statement": "With valid options (Newton limit >= 2, non-zero Newton tolerance, abs_tol > 0, rel_tol >= 0) and no step limit irk::odeint terminates for every right-hand side that is bounded with bounded Jacobian and for every linear system y' = J y + g(t); for the stiff methods and J with spectrum in the closed left half plane it returns SUCCESS with last time t1.", "quantifier": "all such systems, intervals, initial values, initial steps, tolerances", "why_tests_cant": "Termination over unbounded many steps and all systems; a stall (step sizes tending to zero) is only visible in the limit.", "anchors": ["irk.hpp: irk_guts", "irk.hpp: odeint", "newton.hpp: newton_solve_stages"]}
{"id": "C68", "title": "Command line of the example program", "statement": "parse_opts of the example program returns 0 exactly for sequences of complete options with values of the right kind, applied in order, returns 1 exactly when complete options are followed by -h/--help, otherwise -1, -2 or an exception, and never reads beyond argv.", "quantifier": "all argument lists, all number readers", "why_tests_cant": "Unboundedly many argument lists; a read of argv[argc] often goes unnoticed.", "anchors": ["examples/example_equations.cpp: parse_opts"]}
{"id": "C69", "title": "No undefined behaviour in the example program", "statement": "For every complete command line and every standard input main executes no undefined operation (no read of an uninitialised member or local, none in the integrators).", "quantifier": "all complete command lines, inputs, runs", "why_tests_cant": "Reading an indeterminate value usually has no visible effect in a test.", "anchors": ["examples/example_equations.cpp: user_options, set_irk_options, solve_three_body, main"]}
{"id": "C70", "title": "Exit status of the example program", "statement": "main returns 3 exactly without arguments; 0 only after a help request or an integration over the requested span, with the requested method, tolerances and initial step, that returned SUCCESS; 2 only after an integration with another status; otherwise 1 or -1. With valid settings it returns 0: for the stiff test equation and for decaying exponentials with a stiff method, for the stiff test equation and every exponential with an explicit embedded method, and for every equation with an explicit method without embedded formula.", "quantifier": "all argument lists, inputs, arithmetics; all valid settings for the success part", "why_tests_cant": "All command lines and all runs; success needs termination of the integrator for all settings.", "anchors": ["examples/example_equations.cpp: main, int_equation, solve_exponential, solve_stiff_equation"]}
{"id": "C71", "title": "No undefined operation in the integrators", "statement": "With an output stream set whenever writing is requested (and for irk: Newton options, refresh_jac != 0, output_interval != 0) no step of erk::odeint or irk::odeint with an implemented method executes an undefined operation.", "quantifier": "all right-hand sides, arithmetics, linear algebra results, options, runs", "why_tests_cant": "Undefined operations depend on the data-dependent path and need not be visible.", "anchors": ["erk.hpp: erk_guts, odeint", "irk.hpp: irk_guts, newton_solve_stages, odeint"]}
{"id": "C72", "title": "Decimal implicit tableaux satisfy the simplifying conditions up to rounding", "statement": "The tableaux of RADAU_IIA_95, RADAU_IIA_137, LOBATTO_IIIA_127 and GAUSS_LEGENDRE_147, given by decimal expansions, satisfy the simplifying conditions B(p), C(s), D(r) of their families and the quadrature conditions of the embedded weights with residuals of at most 1e-16.", "quantifier": "every condition of every decimal tableau (exact arithmetic on the literals)", "why_tests_cant": "A wrong digit in a literal changes the results only slightly and only for the affected method.", "anchors": ["irk.cpp: get_coefficients"]}
{"id": "C73", "title": "Adaptive explicit integration terminates for right-hand sides of linear growth", "statement": "If the right-hand side grows at most linearly (in particular if it is Lipschitz in y uniformly on the interval), abs_tol > 0, rel_tol >= 0, the adaptive explicit integrator with an embedded pair returns for every interval, initial value, initial step, max_dt and max_steps, with SUCCESS when there is no step limit (exact arithmetic).", "quantifier": "every right-hand side of linear growth, tolerance, interval, initial value and step", "why_tests_cant": "Termination of a feedback controller coupled to an unbounded state.", "anchors": ["erk.hpp: erk_guts"]}
{"id": "C74", "title": "The explicit integrators converge with their declared order", "statement": "Let u solve u' = f(t,u) on [t0,t1] and let f be p times continuously differentiable, p being the declared order of the explicit method. Then there are C and h0 > 0 such that every run started at u(t0) with steps at most h <= h0 has all samples within C h^p of u. With a fixed step dt <= h0 the integrator completes; with an embedded pair and max_dt <= h0, dt <= max_dt it completes as well. No global Lipschitz condition on f is needed (exact arithmetic).", "quantifier": "every smooth problem with a solution on the interval, method, option set, step sequence", "why_tests_cant": "Convergence is a statement about all right-hand sides and a limit of step sizes; a convergence test samples one problem and a few steps.", "anchors": ["erk.hpp: erk_guts, odeint", "erk.cpp: get_coefficients"]}
{"id": "C75", "title": "The recorded error estimate is of the order of the embedded pair plus one", "statement": "Near a solution, the error estimate stored with each accepted step of size h is at most M h^(q+1), q being the smaller of the two declared orders; M depends on the problem and the method only, not on tolerances or options (exact arithmetic).", "quantifier": "every smooth problem, embedded explicit method, option set with max_dt small enough, every accepted step", "why_tests_cant": "Asymptotic statement over all right-hand sides.", "anchors": ["erk.hpp: erk_guts", "erk.hpp: rk_output"]}
{"id": "C76", "title": "The number of steps of the adaptive explicit integrator is O(abs_tol^(-1/(q+1)))", "statement": "Near a solution every accepted step, except the one ending at t1, is at least min(dt, max_dt, c abs_tol^(1/(q+1))), q being the smaller declared order; hence the number of samples is at most (t1-t0) divided by this bound, plus two; c depends on the problem and the method only (exact arithmetic).", "quantifier": "every smooth problem, embedded explicit method, tolerance, option set with max_dt small enough", "why_tests_cant": "Complexity bound over all problems and tolerances.", "anchors": ["erk.hpp: erk_guts"]}
{"id": "C77", "title": "The implicit integrators converge with their declared order up to the Newton tolerance", "statement": "Let u solve u' = f(t,u) on [t0,t1], f being p times continuously differentiable, p the declared order of the implicit method, and let the supplied Jacobi matrix be continuous. Then there are C and h0 > 0 such that every run from u(t0) with N steps, all at most h <= h0, has all samples within C (h^p + N (tol + h dx_delta)) of u, tol and dx_delta being the Newton tolerances, as long as this bound is at most one. For linear systems the Newton term is absent; if the system has no unstable modes the stiff methods complete with error at most C max_dt^p (exact arithmetic).", "quantifier": "every smooth problem with a solution on the interval, methods RADAU_IIA_32/53, LOBATTO_IIIC_43/64/85 (the closed-form tableaux that can return a run), option set, step sequence, exact solver of the linear systems", "why_tests_cant": "Convergence is a statement about all right-hand sides and a limit of step sizes; it also depends on which root of the stage equations Newton's method reaches.", "anchors": ["irk.hpp: irk_guts, newton_solve_stages, odeint", "irk.cpp: get_coefficients"]}
{"id": "C78", "title": "adams_bashforth converges with its order", "statement": "Let u solve u' = f(t,u) on [t0,t1], f being k times continuously differentiable. Then there are C and h0 > 0 such that in every returning run of adams_bashforth of order k (1 to 5) from u(t0) with dt <= h0 every sample at a time up to t1 is within C dt^k of u (exact arithmetic).", "quantifier": "every smooth problem with a solution on the interval, orders 1 to 5, every step size below a threshold, every returning run", "why_tests_cant": "Convergence is a statement about all right-hand sides and a limit of step sizes.", "anchors": ["multistep.hpp: adams_bashforth, bootstrap_multistep"]}
{"id": "C79", "title": "bdf converges with its order and completes", "statement": "Let u solve u' = f(t,u) on [t0,T], f being k times continuously differentiable, with a continuous Jacobi matrix. Then there are C and h0 > 0 such that in every returning run of bdf of order k (1 to 6) from u(t0) with dt <= h0 every sample at a time up to T is within C dt^k of u; if t1 < T and dt is small enough the run ends with SUCCESS (exact arithmetic).", "quantifier": "every smooth problem with a solution on the interval, orders 1 to 6, every step size below a threshold, every returning run", "why_tests_cant": "Convergence is a statement about all right-hand sides and a limit of step sizes; it needs the zero-stability of the BDF recursions and the behaviour of Newton's method in every step.", "anchors": ["multistep.hpp: bdf, bootstrap_multistep", "newton.hpp: newton_iterate"]}
{"id": "C80", "title": "newton_iterate converges locally: quadratically with refreshed matrices, at least linearly otherwise", "statement": "Let s be a root of a function that is twice continuously differentiable at s, the supplied matrix being its Jacobi matrix near s and regular at s. Then there are r, kappa > 0 such that newton_iterate with refreshed Jacobi matrices, without a bound on the step, from any x within r of s returns; on SUCCESS the error is at most (kappa |x-s|)^(2^iters) / kappa and at most 4 kappa dx_delta^2; SUCCESS comes after at most K+1 iterations if (3/2) r (1/2)^(2^K-1) < dx_delta and maxit >= K+2. Without refreshing, and with one derivative only, the same holds with a linear rate q, for every q in (0,1/2] and r depending on q. Damping (limit_step) and preconditioning do not matter (exact arithmetic).", "quantifier": "every function with a regular root, every initial guess in a ball, every option set without a bound on the step, every exact solver", "why_tests_cant": "Rates of convergence concern limits; tests see a few iterations of a few functions.", "anchors": ["newton.hpp: newton_iterate_impl, newton_iterate"]}
{"id": "C81", "title": "The floating-point arithmetic of the model is IEEE 754 binary64, round to nearest even", "statement": "Every operation +, -, *, / and the square root on finite doubles returns the representable number nearest to the exact result; ties go to the even significand; overflow happens exactly from 2^1024 - 2^970 on. Comparisons are those of the extended reals and false for NaN; signs (also of zeros), infinities, division by zero and the invalid operations that give NaN follow the standard. (Soundness of the arithmetic in which C25, C61 and C62 are stated; literals are rounded the same way.)", "quantifier": "all doubles, including zeros, infinities and NaN; all exact rational results", "why_tests_cant": "There are 2^128 pairs of doubles; a wrong rounding in the model would make the floating-point theorems meaningless.", "anchors": ["all files: arithmetic on double"]}
{"id": "C82", "title": "the adaptive implicit integrators complete nonlinear problems when max_dt is small, with order two whatever the Newton tolerances, and no better", "statement": "Let u solve u' = f(t,u) on [t0,t1] from the initial value. (a) There are C and h0 > 0, depending only on the problem and on the method (RADAU_IIA_32, RADAU_IIA_53, LOBATTO_IIIC_43, _64, _85), such that with max_dt <= h0 the adaptive integrator returns SUCCESS at t1 and every recorded value is within C max_dt^r of u: r = 2 for a C2 function with its Jacobi matrix, r = 1 for a C1 function with any continuous matrix; for every Newton tolerance other than 0, every iteration limit >= 2, every abs_tol > 0 and rel_tol >= 0. (b) Every returned run with bounded steps has these errors. (c) Order two is the best possible for a fixed Newton tolerance: for y0' = 1, y1' = (y0 - t)^2 every step of length h <= h1 makes an error of exactly h^3/3, so a run of k steps ends with an error of at least (t1-t0)^3/(3 k^2), whatever the declared order (3 to 8) (exact arithmetic).", "quantifier": "every smooth nonlinear problem with a solution, every option set as above, five methods, every tolerance", "why_tests_cant": "Completion and orders concern all step sizes below a bound and all tolerances; a test sees a few runs.", "anchors": ["irk.hpp: irk_guts, newton_solve_stages, odeint"]}
{"id": "C83", "title": "the error estimate of the implicit integrator is that of formulas (8.19) and (8.20)", "statement": "The comments of irk_guts name the formulas (8.19) and (8.20) of Hairer and Wanner for the error estimate: the solution of (I - gamma h J) err = gamma h f(t, v) + (embedded minus method), with v = y, respectively v = y + err on the first pass and after a rejected step. Every recorded estimate is this vector (claim). In fact it is h times it.", "quantifier": "every returned run of every tableau, every right-hand side with exact linear solvers; regular I - gamma h J", "why_tests_cant": "The scale of an estimate cannot be seen from a run that meets its tolerance; a wrong scale only changes the step sizes.", "anchors": ["irk.hpp: irk_guts lines 690-731, 763, 845"]}
{"id": "C84", "title": "the default calls are sane solvers", "statement": "odeint(func, t0, t1, y0) is documented as a sane default solver, explicit (a la ode45) or implicit (a la ode15s). Explicit: every step is one of an embedded explicit pair of orders 5 and 4 with weighted error below one for abs_tol 1e-3 and rel_tol 1e-4; for right-hand sides of at most linear growth the call returns SUCCESS at t1. Implicit (build with assertions): every step is one of a method of order 5 up to the Newton tolerances 1e-5 and 1e-4, with the weighted estimate at most one; for stiff linear problems the call returns SUCCESS at t1. In a build with NDEBUG the implicit default call throws on every interval.", "quantifier": "every right-hand side, interval and initial value (completion: linear growth, respectively linear with no eigenvalue in the right half-plane)", "why_tests_cant": "A test calls the default solver on a few problems in one build.", "anchors": ["erk.hpp: odeint (four arguments)", "irk.hpp: odeint (four arguments)", "options.hpp: common_solver_options"]}
{"id": "C85", "title": "Broyden's method converges locally", "statement": "Without a step limit broyden_iterate is Broyden's good method with damping 1/sqrt(1+|F|^2) started with the unit matrix. If the Jacobi matrix at the root is within 1/8 of the unit matrix and F is nearly linear around it, then every update from a nearby start reduces the Euclidean distance to the root by at least a quarter, and with enough permitted iterations the returned point is within 5/4 tol or 3 sqrt(n) dx_delta of the root. For scalar affine F every update after the first reduces the error from any starting point, and cubically in the end.", "quantifier": "every dimension, function, starting point in the ball, tolerance and iteration limit", "why_tests_cant": "A test tries a few functions and starting points.", "anchors": ["newton.hpp: broyden_iterate lines 266-349"]}
{"id": "C86", "title": "The integrators honour the output options", "statement": "With storing disabled a run keeps only the initial sample; with storing enabled it keeps every output_interval-th accepted step; lines go to the stream exactly if one is set, one for every output_interval-th accepted step.", "quantifier": "every right-hand side, option set, method and execution, in any arithmetic", "why_tests_cant": "A test looks at a few runs with a few option combinations.", "anchors": ["options.hpp: output_options lines 96-134", "irk.hpp: irk_guts lines 825-842", "erk.hpp: erk_guts lines 424-450"]}
{"id": "C87", "title": "Every implemented implicit method is A-stable", "statement": "At every point of the closed left half-plane the stability function of every implemented implicit method exists and has modulus at most 1.", "quantifier": "every point of the closed left half-plane, every implemented implicit method; for runs every linear problem, step sequence and number of steps", "why_tests_cant": "A program can plot the region on a grid; a violation of size 1e-16 between or beyond the grid points is invisible, and so is its absence.", "anchors": ["irk.cpp: get_coefficients lines 236-670", "irk.hpp: irk_guts lines 560-845"]}
{"id": "C88", "title": "The embedded stability region is that of the embedded formula", "statement": "The values written for the embedded region are the moduli of the factors by which the embedded formula of the integrator multiplies the solution of y' = \u03bby.", "quantifier": "every implemented implicit method and every line of the file", "why_tests_cant": "A plot looks plausible whichever formula it shows.", "anchors": ["stability_region/main.cpp lines 47-79, 107-136", "irk.hpp: irk_guts lines 691-707", "irk.hpp: solver_coeffs lines 84-85"]}
{"id": "C89", "title": "The three-body system conserves its energy", "statement": "Along every motion of three_body without coincident bodies the sum of kin_energy and pot_energy does not change.", "quantifier": "all positive masses, all solutions, all times", "why_tests_cant": "A test sees the energy of one orbit within the discretisation error.", "anchors": ["test_equations.hpp: three_body::fun lines 263-305", "test_equations.hpp: three_body::kin_energy, pot_energy lines 424-460"]}
{"id": "C90", "title": "gamma is a real eigenvalue of the tableau's matrix", "statement": "For every implemented implicit method that sets gamma, gamma is a real eigenvalue of A, as the comments in irk.cpp say.", "quantifier": "all implemented implicit methods; exact arithmetic", "why_tests_cant": "A numerical eigenvalue agrees within its own rounding error; integrating with a wrong gamma only changes the step sizes.", "anchors": ["irk.cpp: get_coefficients lines 321, 347, 370-371, 422-423, 515, 602, 659"]}
{"id": "C91", "title": "The explicit integrators converge in arithmetic with rounding errors", "statement": "For a right-hand side p times continuously differentiable (p the order of the method) there are constants C and h0 > 0, the same for every arithmetic, such that every explicit run in an arithmetic of unit roundoff u, with step sizes of at most h <= h0, a right-hand side computed to accuracy eps, an initial value accurate to e0 and N samples is finite and within C (h^p + eps + e0 + N u) of the solution at all samples, as long as this bound is at most one.", "quantifier": "all explicit methods, all smooth right-hand sides, all arithmetics with bounded relative rounding error (exact arithmetic, binary64, any larger precision), all runs", "why_tests_cant": "A test computes in one precision and cannot tell rounding errors from discretisation errors.", "anchors": ["erk.hpp: erk_guts lines 263-463", "erk.hpp: odeint lines 480-495", "erk.cpp: get_coefficients"]}
{"id": "C92", "title": "Fixed-step runs in binary64 reach the end of the interval", "statement": "In binary64, a fixed-step explicit run without step limit over [t0,t1] whose step is at least 2^-51 max(|t0|,|t1|) ends with status SUCCESS after at most 8(t1-t0)/dt+4 samples; its last time is at least t1, at most 2^-51 max(|t0|,|t1|) beyond it, and exactly t1 if t1 = 0 or 2 dt <= |t1|. With a step of at most 2^-54 t0, t0 > 0, it never ends.", "quantifier": "all explicit methods, all right-hand sides (NaN and infinite values included), all finite doubles t0 < t1 and dt within 2^1022", "why_tests_cant": "The step count and the last time depend on the rounding of every addition t += dt; a test sees a few triples of doubles.", "anchors": ["erk.hpp: erk_guts lines 263-463 (clipping 268-273, 332-334; t += dt 435)", "erk.hpp: odeint lines 480-495"]}
{"id": "C93", "title": "Units, names and affine changes of variables do not matter to the explicit integrators", "statement": "If g is the right-hand side f after an affine change of time t -> lam t + tau (lam > 0) and of the unknowns y -> L y + c that leaves the error norm alone (or with fixed steps: any L, even singular or to another dimension), then the explicit integrator applied to g does exactly what it does for f: the same outcome after the same number of passes, the same counters, and the transformed times, values, stages, error estimates, calls and file lines. In particular the unknowns may be renumbered, change sign and be measured in another unit (abs_tol with them), and time may be measured in another unit from another instant (max_dt with it).", "quantifier": "all explicit methods, all right-hand sides, all options, all runs (returning or not), exact arithmetic", "why_tests_cant": "A metamorphic test compares two runs of one problem and one method; the statement is about every run.", "anchors": ["erk.hpp: erk_guts lines 263-463", "erk.hpp: odeint lines 480-495"]}
{"id": "C94", "title": "The implicit methods are B-stable", "statement": "On every contractive equation (<f(t,y)-f(t,z), y-z> <= 0) two steps of an implemented implicit method of the same size h >= 0 end no further apart than they started. On runs: the distance of the computed values to an equilibrium does not grow, up to what the Newton iteration leaves, whatever the step sizes and the stiffness.", "quantifier": "all contractive right-hand sides in all dimensions (linear or not), all step sizes, all implemented implicit methods; all runs", "why_tests_cant": "Stiff non-linear stability is a statement about all right-hand sides and step sizes; a numerical experiment on a linear test equation cannot see it.", "anchors": ["irk.cpp: get_coefficients", "irk.hpp: irk_guts, newton_solve_stages, odeint"]}
{"id": "C95", "title": "The order of the Radau methods does not depend on the stiffness", "statement": "RADAU_IIA_32 and RADAU_IIA_53 converge on contractive equations with order 2 and 3 (their stage order) with a constant that depends on the method only: for a solution u whose derivative of order p+1 is bounded by M, every run with steps at most h is within |y0-u(t0)| + C((t1-t0) M h^p + N delta) of u, N being the number of accepted steps and delta what the Newton iteration leaves (zero for linear equations). No derivative of f and no limit on h enters.", "quantifier": "all contractive equations in all dimensions, all smooth solutions, all runs with steps at most h", "why_tests_cant": "Order reduction shows only for particular stiff problems; a test measures one problem at a time.", "anchors": ["irk.cpp: get_coefficients lines of RADAU_IIA_32, RADAU_IIA_53", "irk.hpp: irk_guts, newton_solve_stages, odeint"]}
{"id": "C96", "title": "bdf is stable on contractive systems whatever the stiffness", "statement": "On a contractive linear system (<f(t,y)-f(t,z), y-z> <= 0) with an equilibrium the samples of bdf of a given order and step size stay bounded however far one integrates. On contractive non-linear systems two runs stay together up to what the Newton iteration leaves.", "quantifier": "orders 1 to 6, all contractive systems in all dimensions, all step sizes, all end times", "why_tests_cant": "Instability shows only for particular eigenvalues and step sizes and only after many steps.", "anchors": ["multistep.hpp 201-347: bdf"]}
{"id": "C97", "title": "The error of bdf of order 1 and 2 does not depend on the stiffness", "statement": "On a contractive system with a solution u on [t0,T] whose first and second derivatives are bounded by M1 and M2, every sample of bdf of order 1 or 2 at a time up to T is within 4|y0-u(t0)| + 8 M1 h + 48 (T-t0) M2 h of u, plus six times the number of steps times what the solver leaves (zero for linear systems); h = min(dt, t1-t0).", "quantifier": "all contractive systems in all dimensions, all solutions with bounded second derivative, all step sizes, all returning runs", "why_tests_cant": "Order reduction shows only for particular stiff problems; a test measures one problem at a time.", "anchors": ["multistep.hpp 201-347: bdf"]}
{"id": "C98", "title": "Tightening the tolerances makes an adaptive run converge", "statement": "For every smooth problem with a solution on the whole interval the final value of an adaptive explicit or implicit run is as close to the solution as wanted once abs_tol, rel_tol and the tolerances of Newton's method are small enough.", "quantifier": "all methods with an embedded formula, all smooth problems, all initial steps, all max_dt, all tolerances", "why_tests_cant": "A test tries a few problems on which the estimate works; the failing problem depends on the step sequence and must fail for every tolerance at once.", "anchors": ["erk.hpp 263-463: erk_guts", "erk.hpp 367-415: error estimate and step-size controller", "irk.hpp 509-869: irk_guts", "irk.hpp 688-801: error estimate and step-size controller"]}
{"id": "C99", "title": "The functors of the Newton tests return the derivative of what they compute", "statement": "For rosenbrock_func, higher_order_rosenbrock_func and inverse_power, the matrix returned by jac is the derivative of fun wherever fun is defined, and fun is the gradient of f.", "quantifier": "all parameters, all states, all numbers of pairs", "why_tests_cant": "The test only observes that the iteration converges in at most 10000 steps; it converges with a wrong matrix too, linearly instead of quadratically.", "anchors": ["test/newton.cpp 7-40: rosenbrock_func", "test/newton.cpp 44-94: higher_order_rosenbrock_func", "test/newton.cpp 99-129: inverse_power", "test/newton.cpp 162: expected root"]}
{"id": "C100", "title": "Every status of the non-linear solvers has its own message", "statement": "status_message gives different texts for different named codes and for all other codes; the results of newton_iterate, broyden_iterate and newton_solve_stages always have a named code.", "quantifier": "all codes, all problems, options and linear solvers, any arithmetic", "why_tests_cant": "The texts of failures are only seen when the failures occur; two of the five never do.", "anchors": ["newton.cpp 6-22: status_message", "newton.hpp 45-51: newton_solve_ret_codes", "irk.hpp 456-490: status of newton_solve_stages"]}
{"id": "C101", "title": "The timer measures the time between two readings in milliseconds", "statement": "get_elapsed returns the time between the two readings in milliseconds, finite, non-negative and accurate in binary64 if the clock does not go back; toc prints it in milliseconds and seconds; number and unit printed by print_performance denote it.", "quantifier": "all pairs of readings up to 2^43 seconds apart, all messages", "why_tests_cant": "A test cannot fix the two readings of the clock; the turn of a second and the loss of accuracy in the difference need particular values.", "anchors": ["my_timer.hpp 72-90: toc", "my_timer.hpp 142-149: get_elapsed", "examples/example_equations.cpp 251-261: print_performance"]}
{"id": "C102", "title": "Explicit runs do not increase the energy of the harmonic oscillator", "statement": "For every explicit method there is a step size below which no run for the test equation harmonic increases y0^2 + y1^2.", "quantifier": "all methods, frequencies, initial values, options, step sequences", "why_tests_cant": "The growth per step is of order h^6 for the fifth order methods; it shows only after a very long time.", "anchors": ["erk.hpp 263-463: erk_guts", "erk.cpp: tableaux", "test_equations.hpp: harmonic"]}
{"id": "C103", "title": "Every adaptive integrator, every default call and the bootstrap complete on short intervals", "statement": "For every bound R on the initial data there are a length d > 0 and a speed B, depending on the right-hand side, R and the method only, such that the adaptive explicit integrators (continuous f) and implicit integrators (continuously differentiable f, any continuous matrix as Jacobi matrix) complete with SUCCESS on every interval of length at most d, whatever the tolerances, Newton options, initial step and max_dt, and no sample is farther than B (t - t0) from y0. So do the default calls. For small steps the bootstrap of the multistep methods returns; hence bdf and adams_bashforth return SUCCESS on every interval on which the solution exists, with samples within C dt of it.", "quantifier": "all right-hand sides of the stated smoothness, initial data, options, methods (exact arithmetic)", "why_tests_cant": "Termination for all right-hand sides without any growth condition, with one length for all tolerances and starting points, cannot be sampled.", "anchors": ["erk.hpp 263-463: erk_guts", "irk.hpp: irk_guts, newton_solve_stages", "multistep.hpp 115-144: bootstrap_history", "multistep.hpp: adams_bashforth, bdf"]}
{"id": "C104", "title": "The Adams-Bashforth loop has the order of the method for accurate starting values", "statement": "For every order k from 1 to 5, every k times continuously differentiable right-hand side and every solution u on [t0,T] there are C and eta > 0 such that the loop of adams_bashforth, started from k samples on the grid of spacing h <= eta within delta <= eta of u, has errors of at most C (delta + h^k) at all samples up to T.", "quantifier": "all right-hand sides of the stated smoothness, starting values, steps, end times (exact arithmetic)", "why_tests_cant": "An order statement for all problems and all small steps; the refutation concerns the limit h to 0.", "anchors": ["multistep.hpp 65-111: adams_bashforth_step", "multistep.hpp 178-197: adams_bashforth after the bootstrap"]}
{"id": "C105", "title": "The BDF loop has the order of the method for accurate starting values", "statement": "For every order k from 1 to 6, every k times continuously differentiable right-hand side with a continuous Jacobi matrix and every solution u on [t0,T] there are C and eta > 0 such that the loop of bdf, started from k+1 samples on the grid of spacing h <= eta within delta <= eta of u, returns; every sample up to T has an error of at most C (delta + h^k + 1e-10), where 1e-10 is the step tolerance of the Newton solver, and of at most C (delta + h); if t1 + h <= T the status is SUCCESS and the last time is at least t1.", "quantifier": "all right-hand sides of the stated smoothness, starting values, steps, end times (exact arithmetic)", "why_tests_cant": "An order statement for all problems and all small steps, with the accuracy of the inner solver accounted for.", "anchors": ["multistep.hpp 263-347: bdf after the bootstrap", "newton.hpp 362-: newton_iterate_impl"]}
{"id": "C106", "title": "On autonomous problems Adams-Bashforth of order k >= 2 computes the solution delayed by k-1 steps", "statement": "For every order k from 2 to 5, every k times continuously differentiable right-hand side that does not depend on the time and every solution u on [t0,T] there are C and eta > 0 such that in every returning run of adams_bashforth from u(t0) with dt <= eta the samples at times t <= T from index k-1 on are within C h^2 of u(t - (k-1)h), and their error is -(k-1) h u'(t) up to C h^2.", "quantifier": "all autonomous right-hand sides of the stated smoothness, initial steps, end times (exact arithmetic)", "why_tests_cant": "Identifies the leading error term for every problem; tests with a tolerance cannot tell a first order error with a known constant from a correct method.", "anchors": ["multistep.hpp 115-144: bootstrap_history", "multistep.hpp 147-197: adams_bashforth"]}
{"id": "C107", "title": "Units, names and changes of variables do not matter to the implicit integrators", "statement": "Let t -> lam t + tau with lam > 0 and y -> L y + c be changes of the time and of the unknowns, where L multiplies lengths by mu and leaves the error norm as it is, and let the problem, max_dt, abs_tol and the tolerances of the Newton iteration be expressed in the new variables. Then irk::odeint has the same outcome after the same number of passes, the same counters, and returns the transformed records.", "quantifier": "all problems, changes of variables, options, methods, intervals and both build modes (exact arithmetic, exact linear algebra)", "why_tests_cant": "A statement about pairs of runs for all problems and all changes of variables; tests use one set of units.", "anchors": ["irk.hpp 366-493: construct_R, newton_solve_stages", "irk.hpp 509-869: irk_guts", "irk.hpp 714-731: the error estimate"]}
{"id": "C108", "title": "Only finite values are reported as a success", "statement": "An explicit run in binary64 that starts from finite values and returns SUCCESS has recorded finite values only: an overflow or an invalid operation leads to a rejected step, an error status or an assertion.", "quantifier": "all right-hand sides, methods, options, intervals and both build modes (binary64)", "why_tests_cant": "Overflow and NaN occur for particular right-hand sides in the middle of a run; the tests integrate smooth, bounded problems.", "anchors": ["erk.hpp 357-398: new value, error estimate, acceptance", "erk.hpp 379: assert(err_tot >= 0.0)", "erk.hpp 400-415: step size controller"]}
{"id": "C109", "title": "The step size never becomes zero", "statement": "In binary64 an attempted step of an explicit method (not below 2^-500), from finite values and with a right-hand side with finite values, is followed by a step size that is not zero, so that the run makes progress.", "quantifier": "all methods, right-hand sides, states and step sizes (binary64, every pow)", "why_tests_cant": "Needs an error estimate whose square overflows; the failure is a run that does not end.", "anchors": ["erk.hpp 357-385: err = sqrt(err_tot/n)", "erk.hpp 400-415: step size controller", "erk.hpp 330-335: the loop and the clipping of dt"]}
{"id": "C110", "title": "A right-hand side that cannot be evaluated ends an implicit run with an error", "statement": "If at the initial point (or at any later state) the stages of an implicit method cannot be evaluated, because the right-hand side returns a NaN whatever the step size and the iterate, irk::odeint ends and does not report SUCCESS.", "quantifier": "all methods, right-hand sides, dimensions, intervals, step sizes, options (binary64, assertions on), every linear algebra that passes NaN on", "why_tests_cant": "The failure is a run that does not end, in a state that the smooth test problems never reach; max_steps does not stop it.", "anchors": ["irk.hpp 458-493: Newton iteration of the stages and its tests Rnorm2 < Rtol^2, xnorm2 < xtol^2", "irk.hpp 613-617: max_steps", "irk.hpp 635-664: retry with dt*0.7"]}
{"id": "C111", "title": "The template parameters of the stage solver", "statement": "newton_solve_stages keeps its contract for every choice of adaptive_step and PLU_decomposition: the iterates start from 0 and follow the (damped) simplified Newton directions of I - dt*A\u2297J(t,y); SUCCESS means that the last pass met one of the tests, MAXIT_EXCEEDED that none of maxit - 1 passes did, and the counters are exact. PLU_decomposition does not change the outcome in exact arithmetic; undamped passes solve affine stage equations at once, damped ones after finitely many passes.", "quantifier": "all four instances, every arithmetic (contract, NDEBUG), exact arithmetic (affine equations, comparison of instances), all methods, right-hand sides, options", "why_tests_cant": "The integrators use one instance, the only test another; the remaining ones are never compiled, and whether they agree cannot be seen from one converged call.", "anchors": ["irk.hpp 395-397: template parameters", "irk.hpp 422-436: refresh_jacobi_matrix", "irk.hpp 441-493: damping, directions, tests", "test/irk.cpp 251-296: irk_calc_stages uses the defaults"]}
{"id": "C112", "title": "Dense output has the order of the stages", "statement": "For every method with interpolation data project_b(theta) returns one weight per stage and these weights integrate every polynomial of degree below the number of stages from 0 to theta. With them, the dense output of a step of RADAU_IIA_32, RADAU_IIA_53 and LOBATTO_IIIC_85 agrees with the solution up to C M h^(p+1) and (1 + C L h) times the error at the start of the step, uniformly in 0 \u2264 theta \u2264 1, with p = 2, 3, 4; this holds between consecutive samples of runs on affine right-hand sides. The exponent cannot be improved for RADAU_IIA_32.", "quantifier": "all theta, steps, right-hand sides with a Lipschitz constant, solutions with p+1 derivatives; every run on affine right-hand sides", "why_tests_cant": "Tests of interpolation compare a few values with a hand calculation; the uniform order between the samples needs the moments of the weights for all theta and the errors of the stages.", "anchors": ["irk.cpp 111-210: collocation coefficients", "irk.cpp 731-747: project_b", "irk.cpp 288-436: tableaux with b_interp"]}
{"id": "C113", "title": "Samples of bdf lag by k + 1/2 steps", "statement": "The bootstrap of bdf of order k stores the initial value with the first k + 1 times. As a consequence, for k = 2, ..., 6 the sample stored with the time t is u(t) - (k + 1/2) h w(t) up to C (h^2 + h mu^i + 1e-10), where h is the step, i the index, mu < 1, and w solves the variational equation with w(t0) = f(t0, u(t0)); for right-hand sides that do not depend on time w = u', i.e. the whole run is late by k + 1/2 steps. Hence the error is of first order and no better.", "quantifier": "all orders 2 to 6; all twice continuously differentiable right-hand sides with a solution up to T; any continuous matrix function as Jacobian; all dt up to some eta; every returning run with exact linear algebra; every sample up to T", "why_tests_cant": "A test at one step size sees an error without knowing its cause; the exact leading term for all problems needs zero-stability, the decay of the parasitic part of the starting values and the linearised error equation.", "anchors": ["multistep.hpp 116-146: bootstrap_history", "multistep.hpp 202-357: bdf"]}
{"id": "C114", "title": "Multistep runs do not depend on the variables", "statement": "adams_bashforth and bdf commute with changes of the unit and origin of time and with changes of the unknowns: if the right-hand sides correspond, the two runs have the same status, corresponding times and corresponding values. For adams_bashforth every affine change of the unknowns is allowed (also into another dimension), for bdf those that keep the maximum norm.", "quantifier": "all right-hand sides and Jacobians that correspond; all changes with a positive unit of time; all intervals, step sizes, initial values, orders, bootstraps and fuels; every pair of returning runs", "why_tests_cant": "Invariance under all changes of variables is not a finite set of runs; the failing unit has to be constructed from the tolerance in the code.", "anchors": ["multistep.hpp 116-146: bootstrap_history", "multistep.hpp 152-200: adams_bashforth", "multistep.hpp 202-357: bdf, 283: dx_delta = 1e-10"]}
{"id": "C115", "title": "Integrators do not look beyond the interval", "statement": "The result of an integrator depends on the right-hand side (and the Jacobian) between t0 and t1 only: runs for two right-hand sides that agree there are equal, whatever they are elsewhere. True for odeint with explicit and implicit methods; for adams_bashforth if the order - 1 steps of the bootstrap fit in the interval, or, for every pair of returning runs, without that; for bdf if the functions agree up to one step behind t1.", "quantifier": "all pairs of right-hand sides that agree on the interval; all methods, options, output options, step sizes, initial values; all intervals with t0 <= t1 (or debug builds); all fuels, i.e. also runs that do not end", "why_tests_cant": "A test uses one right-hand side that is defined everywhere; that no execution looks beyond the interval is a statement about all of them.", "anchors": ["erk.hpp 298-521", "irk.hpp 551-757", "multistep.hpp 116-357"]}
{"id": "C116", "title": "The report on the timings is right", "statement": "The times printed by irk's timing breakdown, read in the unit printed with them, are the times measured, and the percentages are the shares of the total. False for totals above 1000 ms: they are converted with the factor 10000, so that a tenth of the time is reported; proved: exactly which unit, times and percentages are printed.", "quantifier": "all lists of timings", "why_tests_cant": "No test reads the report, and runs of more than a second are rare in tests.", "anchors": ["irk.hpp 328-360: timing breakdown"]}
{"id": "C117", "title": "Iterating over the buffer", "statement": "A loop from begin() to end() over a cyclic_buffer visits the stored values, the newest first. False: the iterator's members are never initialised, so that every comparison, increment and dereference is undefined, for every buffer; print_internal_state is shown to print the storage with exactly one mark at the current entry.", "quantifier": "all buffers, all push histories", "why_tests_cant": "Uninitialised members may hold a plausible value in a test run; undefined behaviour does not show.", "anchors": ["cyclic_buffer.hpp 131-211: iterators, print_internal_state"]}
{"id": "C118", "title": "Outcome of the stability program", "statement": "The program stability_region returns 0 and writes three complete files for every method name, and returns -1 otherwise. False: for unknown names and for methods without embedded weights it ends with an uncaught exception; proved: its outcome and the sizes of its files for every argument list.", "quantifier": "all argument lists (all strings)", "why_tests_cant": "Argument lists are unbounded; the failing methods are not in the documentation's examples.", "anchors": ["stability_region/main.cpp 139-174: main", "irk.cpp 809-837: printing of a tableau"]}
{"id": "C119", "title": "Outcome of a batch of runs", "statement": "run_batch returns a status that is 0 only if all four runs succeed. False twice: it copies an uninitialised option before the first run (undefined), and it combines the statuses with a bitwise and, which is 0 as soon as one run succeeds or the failures have no bit in common.", "quantifier": "all arithmetics, all linear algebra, all statuses", "why_tests_cant": "The function is not called by any test, and a status of 0 looks like success.", "anchors": ["examples/example_equations.cpp 417-450: run_batch"]}
{"id": "C120", "title": "Availability of dense output and of printed output", "statement": "Dense output exists for exactly RADAU_IIA_32, RADAU_IIA_53, RADAU_IIA_95, RADAU_IIA_137 and LOBATTO_IIIC_85 and for no explicit method; in the other cases project_b ends with an assertion or an exception. print_output prints the result of every explicit run, one line per recorded time with all components. to_fixed_w_string returns exactly max(length, width) characters and ignores its padding argument.", "quantifier": "all methods, all theta, all runs, all strings", "why_tests_cant": "The tests use one method with dense output and never ask an explicit method for it.", "anchors": ["erk.cpp 281-299: project_b", "irk.cpp 731-747: project_b", "examples/example_equations.cpp 196-207: print_output", "newton.hpp 155-173: to_fixed_w_string"]}
{"id": "C121", "title": "Functors with effects", "statement": "The integrators touch the user's functor only through the calls of their log. For a functor with internal state, or one that throws, fails an assertion or is undefined somewhere, but whose answers are those of a pure function: the run makes the calls of the pure run in the same order; if a call does not return, odeint ends the way the call does (no exception is caught or replaced); otherwise the output is the same and the functor's state is the one after these calls. A functor that counts its calls ends with the numbers reported in the output; a functor that throws outside a domain makes odeint throw exactly when the unguarded run makes a call outside the domain.", "quantifier": "all functors with any state type and any effects, all methods, arithmetics, linear algebra, options, including runs that do not end", "why_tests_cant": "Tests use functors without state; the order and number of calls as seen by the functor are not observed.", "anchors": ["erk.hpp 263-495: guts, odeint", "irk.hpp 366-898: stage solver, guts, odeint", "functor.hpp 35-71: the functor interface"]}
{"id": "C122", "title": "Functors with effects in the multistep integrators", "statement": "The Newton solver and the multistep integrators make their calls on the user's functor, and a functor with state ends in the state after all these calls. False for bdf: its Newton helper stores the functor by value, so that all calls after the bootstrap are made on copies, which are thrown away; a functor that counts its calls does not see them. Proved: for adams_bashforth the run makes the calls of the bootstrap and exactly order calls per step, in any order the compiler chooses, and ends like the first call that does not return; for bdf exactly which calls are made on copies, that their exceptions end the run, and that for every functor whatsoever the state after the run is the one after the bootstrap; the Newton solver calls its functor as often as its counters say.", "quantifier": "all functors with any state type and effects, all orders, arithmetics, linear algebra, including runs that do not end", "why_tests_cant": "A copied functor gives the same numbers; only a functor with state shows the difference, and the tests have none.", "anchors": ["multistep.hpp 65-197: Adams-Bashforth and bootstrap", "multistep.hpp 287-342: the helper with its member func, the loop of bdf", "newton.hpp 362-544: the Newton iteration"]}
{"id": "C123", "title": "The log and the counters are true for every functor", "statement": "Nothing is assumed about the functor: its answers may depend on its own state, on earlier calls, on anything. Whenever erk_guts returns, the functor is in the state after exactly the calls of the log in their order; fun_evals is their number and equals [fsal] + (s - [fsal]) times the number of accepted and rejected steps; attempt, reject_err and the status agree as in C14; the five record vectors have equal lengths and start at (t0, y0). Whenever irk_guts returns, the functor is in the state after a sequence of calls whose right-hand sides and Jacobi matrices are the logged ones, fun_evals and jac_evals are their numbers, the counters satisfy the identities of C39, and the records are parallel and start at (t0, y0).", "quantifier": "every functor with effects and every state type, every tableau, option and arithmetic", "why_tests_cant": "A right-hand side with memory (hysteresis, caches, random forcing) is outside every test, and there are infinitely many.", "anchors": ["erk.hpp 263-463: erk_guts", "irk.hpp 366-493: construct_R, newton_solve_stages", "irk.hpp 509-869: irk_guts"]}
{"id": "C124", "title": "Which options can change the numbers of a run", "statement": "Two runs that differ in one option only are compared, in any arithmetic. (a) max_steps: the run with the stricter limit either does exactly what the other does or returns ERROR_MAX_STEPS_EXCEEDED, and then its records, its calls and its file are prefixes of those of the other run and its counters do not exceed the other's (erk_guts and irk_guts). (b) With adaptive_step_size off, erk_guts ignores rel_tol, abs_tol and max_dt. (c) The output options change nothing in erk_guts but the lines written. (d) In irk_guts a run with output_interval = k > 0 takes the same steps, makes the same calls and reports the same counters as the run that keeps everything; it keeps every k-th sample of it (all five records), or the initial one only when vectors are switched off.", "quantifier": "every right-hand side, tableau, option, initial value, linear algebra and arithmetic", "why_tests_cant": "Two runs would have to be compared for every pair of option values and every problem; no test compares two runs.", "anchors": ["erk.hpp 263-463: erk_guts", "erk.hpp 337-343: max_steps", "erk.hpp 424-430: output", "irk.hpp 509-869: irk_guts", "irk.hpp 612-616: max_steps", "irk.hpp 820-845: output"]}
{"id": "C125", "title": "Runs can be interrupted, resumed and prolonged", "statement": "Over the reals, for the nine explicit methods. (values) Two runs of the same method for the same right-hand side that visit the same times from some sample on, and agree in that sample, agree in all following values and stages, whatever their options, tolerances, step sizes and cached stages. (horizon) With a fixed step, a run to t1 and a run to t1' >= t1 agree in all samples of the shorter one but its last. (restart) With a fixed step, the run from t0 to t2 is the run from t0 to a grid point t1 = t0 + N dt followed by the run from t1 to t2 started with the last value of the first, without its first sample.", "quantifier": "every right-hand side, initial value, interval, step, N and end", "why_tests_cant": "A semigroup law relates three runs for every split point and right-hand side; no test makes more than one run of a problem.", "anchors": ["erk.hpp 263-463: erk_guts", "erk.hpp 314-327, 443-446: first same as last", "erk.hpp 480-495: odeint"]}
{"id": "C126", "title": "The multistep integrators take the intended number of steps in binary64", "statement": "Claim: in binary64, adams_bashforth with the step 1/N takes N steps from 0 to 1. Refuted: for every right-hand side, order and linear algebra, a run from 0 to 1 with the step 0.1 that returns has 12 samples and ends at 1.0999999999999999, since the tenth time is 0.9999999999999999; the same holds for successful runs of bdf. What holds: the recorded times are finite, do not decrease, differ from the exact grid t0 + i dt by at most i 2^-52 max(|t0|, |last time|), the last one is not before t1 and the one before it is before t1 unless it belongs to the start-up, and the number of steps is the intended one up to the accumulated error. If t0 and the step are integers in units of a power of two and stay below 2^53 units, the times are exact and the number of samples is max(order, ceil((t1 - t0)/dt) + 1). If the step is at least 2^-51 times the larger end point, runs return whenever the bootstrap does. If the step is at most 2^-54 times a positive t0, adams_bashforth never returns and bdf returns only after a failure of the non-linear solver.", "quantifier": "every right-hand side, initial value, linear algebra, order, interval and step in binary64", "why_tests_cant": "The test programs look at the values, not at the number of samples or the end; the extra step appears only for steps that are not dyadic, and the stalls only for extreme ratios.", "anchors": ["multistep.hpp 147-197: adams_bashforth", "multistep.hpp 201-347: bdf", "multistep.hpp 115-143: bootstrap_history"]}
{"id": "C127", "title": "adams_bashforth converges in arithmetic with rounding errors", "statement": "Let U solve U' = f(t,U) on [a,b] with f continuously differentiable, and let delta > 0. There is a constant C, the same for every arithmetic and every order up to 5, such that in an arithmetic with unit roundoff u on numbers up to B >= C, with a computed right-hand side accurate to eps near the solution and an initial value accurate to e0, every run of adams_bashforth over an interval within [a+delta, b-delta] that returns N samples with C (dt + eps + e0 + N u) <= 1 has all its samples finite and within C (dt + eps + e0 + N u) of the solution at the recorded times. If C (dt + eps + e0 + u/h) <= 1, where h is the step in use, and the starting values can be computed, the run returns with at most 2 (t1 - t0)/h + 7/h samples and the error is at most C (dt + eps + e0 + u/h). The first power of dt is the best possible: the starting values are all y0 (C52) and the slopes are evaluated at one time.", "quantifier": "every problem with continuously differentiable right-hand side, every order from 1 to 5, every arithmetic with rounding errors (exact arithmetic, binary64 and binary arithmetic of any precision are instances), every computed right-hand side of the stated accuracy", "why_tests_cant": "A test uses one arithmetic, one problem and a few step sizes; it cannot separate rounding from discretisation or bound their sum for all problems.", "anchors": ["multistep.hpp 65-111: adams_bashforth_step", "multistep.hpp 115-143: bootstrap_history", "multistep.hpp 147-197: adams_bashforth"]}
{"id": "C128", "title": "bdf converges in arithmetic with rounding errors, with wrong Jacobi matrices and inexact linear algebra", "statement": "Let U solve U' = f(t,U) on [a,b] with f continuously differentiable, let delta > 0 and let the order be 1 to 6. For every bound Jb there is a constant C such that in an arithmetic with unit roundoff u on numbers up to B >= C, with a computed right-hand side accurate to eps near the solution, any matrix function with row sums up to Jb in the place of the Jacobi matrix, a solver that leaves a residual of at most rho in systems near the identity, and an initial value accurate to e0, every run of bdf over an interval within [a+delta, b-delta] that returns N samples with C (dt + eps + e0 + N (u + rho)) <= 1 has all its samples finite and within C (dt + eps + e0 + N (u + rho)) of the solution at the recorded times, whether or not the run ends with SUCCESS. Neither the tolerance of the Newton iteration nor the accuracy of the Jacobi matrix enters. The first power of dt is the best possible since the starting values are all y0 (C52).", "quantifier": "every problem with continuously differentiable right-hand side, every order from 1 to 6, every arithmetic with rounding errors (exact arithmetic, binary64 and binary arithmetic of any precision are instances), every computed right-hand side, matrix function and linear solver of the stated accuracy", "why_tests_cant": "A test uses one arithmetic, one Jacobi matrix and a few step sizes; it cannot separate rounding, the linear solver, the Newton iteration and the discretisation or bound their sum for all problems.", "anchors": ["multistep.hpp 202-350: bdf", "newton.hpp 364-555: newton_iterate_impl"]}
{"id": "C129", "title": "The implicit Runge-Kutta integrators converge in arithmetic with rounding errors, with wrong Jacobi matrices and inexact linear algebra", "statement": "Let U solve U' = f(t,U) on [a,b] with f p times continuously differentiable, p being the declared order of RADAU_IIA_32, RADAU_IIA_53, LOBATTO_IIIC_43, LOBATTO_IIIC_64 or LOBATTO_IIIC_85, and let delta > 0. For every bound Jb there are constants C and h0 > 0 such that in an arithmetic with unit roundoff u on numbers up to B >= C, with tableau entries accurate to u, a computed right-hand side accurate to eps near the solution, any matrix function with row sums up to Jb in the place of the Jacobi matrix, a factorisation that leaves a residual of at most rho in systems near the identity, an inverse of the tableau accurate to rho and an initial value accurate to e0, every run over an interval within [a+delta, b-delta] whose step sizes are finite and between 0 and h <= h0 and which accepts N-1 steps has every sample it stores or streams finite and within X = C (h^p + eps + e0 + N (u + rho + min(h^2, tol + h dx_delta + sqrt u))) of the solution at the recorded time, provided X <= 1, for every combination of the other options and whatever status the run ends with. The square root comes from the stopping tests, which compare squares of norms with squares of tolerances.", "quantifier": "every problem with sufficiently smooth right-hand side, each of the five implicit methods that can run, every arithmetic with rounding errors (exact arithmetic, binary64 and binary arithmetic of any precision are instances), every computed right-hand side, matrix function and linear algebra of the stated accuracy, all options", "why_tests_cant": "A test uses one arithmetic, one Jacobi matrix and a few tolerances; it cannot separate rounding, the linear solver, the Newton iteration and the discretisation or bound their sum for all problems.", "anchors": ["irk.hpp 328-360: construct_R and construct_J", "irk.hpp 398-493: newton_solve_stages", "irk.hpp 509-869: irk_guts"]}
{"id": "C130", "title": "In binary64 the times of the implicit integrators never decrease and max_dt bounds their steps, whatever the functor and the linear algebra return", "statement": "In binary64 arithmetic, for every right-hand side, Jacobi matrix and linear algebra (NaN and infinities included), every tableau and all options: if t0, t1, max_dt and the initial step are doubles, t0 and t1 are finite, t1-t0 does not overflow, the initial step is not NaN and has no sign bit (with assertions enabled nothing is asked of it), pow gives no sign bit to the power of a number without one, and max_dt is positive or maxit times (16 + the number of accepted steps) is at most 2^56, then the times irk_guts stores never decrease, and t0 followed by the times it streams never decreases. If moreover t0 < t1 and max_dt is positive and finite, every step size at the head of the loop is finite, not negative, not -0 and at most the larger of max_dt and the initial step. Hence for RADAU_IIA_32, RADAU_IIA_53, LOBATTO_IIIC_43, LOBATTO_IIIC_64 and LOBATTO_IIIC_85 the convergence bound of C129 holds in binary64 with h = max(max_dt, initial step) and without a hypothesis on the steps of the run.", "quantifier": "all binary64 inputs, functors, linear algebra routines, tableaux and options; every state of every run", "why_tests_cant": "Step sizes depend on quotients of error norms and earlier step sizes, on NaN comparisons in std::min and on signed zeros; tests visit a few well-behaved runs.", "anchors": ["irk.hpp 604-612: clipping of the step", "irk.hpp 644-664: step after a failed stage solve", "irk.hpp 771-801: step size controller", "irk.hpp 813-855: accepted and rejected steps"]}
{"id": "C131", "title": "Implicit runs damp the harmonic oscillator by an exact factor", "statement": "For the shipped test equation harmonic and the methods IMPLICIT_EULER, RADAU_IIA_32, RADAU_IIA_53, LOBATTO_IIIC_43, LOBATTO_IIIC_64 and LOBATTO_IIIC_85, with exact linear algebra and real arithmetic: every accepted step of length h multiplies the energy y0^2+y1^2 by 1 - L((w h)^2), where L(s) is s/(1+s), s^2/(36+4s+s^2), s^3/(3600+216s+9s^2+s^3), s^3/(576+36s+s^3), s^4/(129600+5760s+144s^2+s^4) and s^5/(45158400+1512000s+28800s^2+400s^3+s^5). Hence 0 < L < 1, and for w and y0 different from 0 the recorded energies are positive and strictly decreasing for all options, step sizes and output intervals. If no step is longer than sigma (in particular sigma = max_dt when the initial step is at most max_dt), the part of the energy lost up to time t is at most |w| (t-t0) (|w| sigma)^(2l-1)/K with l = 1, 2, 3, 3, 4, 5 and K = 1, 36, 3600, 576, 129600, 45158400.", "quantifier": "all frequencies, initial values, intervals, options, tolerances, step sequences and lengths of runs; real arithmetic, every exact linear algebra", "why_tests_cant": "a test sees one step sequence and one final energy; the adaptive controller chooses the steps, so neither the exact factor nor the strict decrease for all of them can be observed", "anchors": ["irk.hpp 510-880: irk_guts", "irk.hpp 401-500: newton_solve_stages", "irk.cpp 215-689: tableaux", "test_equations.hpp 62-86: harmonic"]}
{"id": "C132", "title": "The coefficients computed in double precision are within rounding of the exact ones", "statement": "For each of the 12 implemented implicit and 6 implemented explicit methods, every number of the tableau that get_coefficients computes in binary64 (A, b, c, b2 and gamma, square roots included) is finite and differs from the exact coefficient x by at most 2^-54 (1+|x|) (implicit) or 2^-53 (1+|x|) (explicit). Added without rounding, the weights miss 1 by at most 2^-54, and the rows of A miss the nodes by at most 2^-53 (implicit) or 11 * 2^-54 (explicit); the weights sum up to 1 exactly for IMPLICIT_EULER, RADAU_IIA_32, RADAU_IIA_53, LOBATTO_IIIA_127, GAUSS_LEGENDRE_42, EULER and CASH_KARP_54 and for no other method.", "quantifier": "all implemented methods and all their coefficients; every pow of the C library", "why_tests_cant": "the exact coefficients are irrational, a test can only compare doubles with doubles; the convergence theorems in binary64 need the distance to the real number", "anchors": ["irk.cpp 215-689: get_coefficients (implicit)", "erk.cpp 9-221: get_coefficients (explicit)"]}
{"id": "C133", "title": "The shipped test equations in binary64: accuracy of right-hand sides and Jacobi matrices, and of all integrators on them", "statement": "All test equations except three_body are written with + - *, negation, literals and divisions by a parameter. Hence, along every continuous curve U, the right-hand side and the Jacobi matrix computed in an arithmetic with unit roundoff u are finite and within K u of the exact ones at all points within two of U, and the row sums of the matrix are bounded, K and the bound being the same for every arithmetic. Consequently, in binary64, for double precision parameters and the exact solution U on [a,b]: a run of an explicit method of order q with fixed steps dt that are not below 2^-51 times the larger end point and no step limit returns with status 0, ends at t1 up to 2^-51 max(|t0|,|t1|), and everything it records is within X = C (dt^q + e0 + 2^-53/dt) of the solution if X <= 1. Runs of adaptive explicit methods, of adams_bashforth, of bdf and of the five usable implicit methods that return are accurate to the bounds of C91, C127, C128 and C130 with nothing assumed of right-hand side and Jacobi matrix; the accuracy of the linear algebra remains a hypothesis for the last two.", "quantifier": "all shipped equations but three_body, all double precision parameters, solutions, intervals, steps, initial values and options; C and the largest step depend on the equation and the solution only", "why_tests_cant": "a test compares a few runs with a closed form where there is one; that rounding errors in the right-hand sides are harmless for all states and parameters, and that runs end for all steps, needs the error analysis", "anchors": ["test_equations.hpp 37-250: the equations", "test_equations.hpp 484-543: kinetic_4, lorenz", "erk.hpp 262-495: erk_guts, odeint", "irk.hpp 510-880: irk_guts", "multistep.hpp 146-200: adams_bashforth", "multistep.hpp 200-347: bdf"]}
{"id": "C134", "title": "Linear invariants drift by accumulated rounding only", "statement": "Let w.f = 0 for the right-hand side f, so that w.y is constant along solutions. In exact arithmetic the explicit integrators and adams_bashforth keep w.y exactly (C24, C57). In an arithmetic with unit roundoff u and a right-hand side that is within eps of f, every value recorded by an explicit or adams_bashforth run of N samples changes w.y by at most C' (N u + eps): the discretisation error, of order dt^q, does not enter the bound. C' depends on the equation, the solution and the method only; the run has to stay within the range where C91 or C127 bound its error by one. In binary64, for rober, dimer and kinetic_4 with double precision parameters, the mass therefore changes by at most C' N 2^-53. Rounding does change it: one EULER step with dt = 1/2 for rober from (1,0,0) loses the mass 5/2^58.", "quantifier": "all right-hand sides with a linear invariant, all arithmetics with a unit roundoff, all runnable explicit methods and Adams-Bashforth orders 1 to 5, all steps, intervals and initial values; binary64 for the shipped chemical equations", "why_tests_cant": "a test sees the drift of one run, and cannot tell a small discretisation error from rounding; that the drift is independent of the order and the step size except through the number of steps needs the proof", "anchors": ["erk.hpp 262-495: erk_guts, odeint", "multistep.hpp 146-200: adams_bashforth", "test_equations.hpp 37-250: rober, dimer", "test_equations.hpp 484-543: kinetic_4"]}
{"id": "C135", "title": "Explicit runs depend on their data with explicit constants", "statement": "Let f be Lipschitz in y with constant L in the maximum norm and let g differ from f by at most eps. Two runs of the same explicit method, one for f from y0 and one for g from z0, that use the same times and steps h with L h <= 1/10 differ at time t by at most exp(k L (t-t0)) (|y0-z0| + k eps (t-t0)), where k = 1 for EULER, 1.06 for RUNGE_KUTTA_4 and BOGACKI_SHAMPINE_32, 1.1 for CASH_KARP_54, 3.4 for DORMAND_PRINCE_54 and 2.15 for FEHLBERG_54. With fixed steps both runs return with SUCCESS on the same grid. Moreover every value recorded by EULER with steps of at most h is within exp(L (t-t0)) (|y0-U(t0)| + (t-t0) M h/2) of the exact solution U, M being a Lipschitz constant of U'.", "quantifier": "all right-hand sides with a Lipschitz constant, all perturbations of it, all initial values, intervals, steps and options; fixed and adaptive runs with equal times", "why_tests_cant": "a test compares a few pairs of runs; the bound for all perturbations with the constants of each tableau needs a proof", "anchors": ["erk.hpp 262-495: erk_guts, odeint", "erk.cpp 25-203: the tableaux"]}
{"id": "C136", "title": "EULER keeps concentrations non-negative if the steps are short enough", "statement": "Let w.f = 0 and let f_k(y) >= -lam y_k on the states that are non-negative and have the initial value of w.y. Then every run of EULER from a non-negative state with steps h, lam h <= 1, records only non-negative states with the initial w.y, however many steps it takes. For rober with total mass S it suffices that 0.04 dt <= 1 and 3e7 S dt <= 1, for dimer that 2 rate S dt <= 1 and dt <= rate, for kinetic_4 that 2 S dt, (S+b2) dt, (S+b3) dt and b4 dt are at most 1; the runs return with SUCCESS at t1. Longer steps do lead to negative concentrations: with dt = 1/10 the second step for rober from (1,0,0) ends with y_1 < -47, and the run reports SUCCESS.", "quantifier": "all non-negative initial states, rates, intervals, steps within the limits and options", "why_tests_cant": "a test follows a few runs for a while; that the simplex is never left, for any number of steps, needs an invariant", "anchors": ["erk.hpp 262-495: erk_guts, odeint", "erk.cpp 25-32: EXPLICIT_EULER", "test_equations.hpp 150-203: rober, dimer", "test_equations.hpp 484-515: kinetic_4"]}
{"id": "C137", "title": "adams_bashforth of order 1 is EULER up to the last sample", "statement": "In exact arithmetic adams_bashforth of order 1 with dt > 0 and t0 < t1 returns for every right-hand side and every linear algebra, as it needs no starting values. It records as many samples as the run of EULER with the same right-hand side, interval, initial value and dt, which returns with SUCCESS, and all samples at times not behind t1 are the same, time and value. Only the last one can differ: EULER shortens its last step to end at t1, adams_bashforth does not.", "quantifier": "all right-hand sides, initial values, intervals, step sizes, build modes, options of EULER without a limit on the steps (max_steps < 0)", "why_tests_cant": "two independently written loops are compared on all inputs; tests compare them on a few", "anchors": ["multistep.hpp 146-200: adams_bashforth", "erk.hpp 262-495: erk_guts, odeint", "erk.cpp 25-32: EXPLICIT_EULER"]}
{"id": "C138", "title": "Explicit runs on linear systems: the step is a polynomial of the matrix, and exact for nilpotent ones", "statement": "In exact arithmetic consecutive samples of every explicit run, adaptive or not, on y' = L y, L a linear map, obey y' = sum over j <= p of h^j/j! L^j y plus c h^(p+1) L^(p+1) y, h the distance of the times, with p = 1, 4, 3, 5, 5, 5 and c = 0, 0, 0, 1/800, 1/600, 1/2080 for EULER, RK4, BOGACKI_SHAMPINE_32, CASH_KARP_54, DORMAND_PRINCE_54, FEHLBERG_54. If L^(p+1) = 0, all samples lie on the solution, whatever the steps and the tolerances. If only L^(p+2) = 0, each step misses the solution through its start by exactly e h^(p+1) L^(p+1) y with a constant e of the method that is not zero. The error estimate recorded by an adaptive run is a polynomial of h L applied to y that starts with the power q + 1, q the order of the embedded weights; it vanishes if L^(q+1) = 0. Adaptive runs of the methods with embedded weights return with SUCCESS at t1 for every L.", "quantifier": "all linear maps, dimensions, initial values, intervals, options, methods, returned runs", "why_tests_cant": "the exact local error of all steps of all runs on all linear systems", "anchors": ["erk.cpp 25-203: tableaux", "erk.hpp 262-495: erk_guts, odeint"]}
{"id": "C139", "title": "Superposition: explicit runs on linear systems are linear in the initial value", "statement": "In exact arithmetic, for a right-hand side linear in y (its matrix may depend on the time) the values of the run from a y0 + b z0 are a times the values of the run from y0 plus b times those of the run from z0, whenever the three runs of the method record the same times. With fixed steps they always do, and all three return with SUCCESS.", "quantifier": "all linear time-dependent systems, dimensions, initial values, coefficients, intervals, step sizes, explicit methods", "why_tests_cant": "relates three runs for all systems and coefficients", "anchors": ["erk.hpp 262-495: erk_guts, odeint", "erk.cpp 25-203: tableaux"]}
{"id": "C140", "title": "EULER respects comparison: larger data give larger runs if the steps are short enough", "statement": "In exact arithmetic, let f <= g componentwise and let g be quasi-monotone with constant lam: raising y to z lowers component k of g by at most lam (z_k - y_k). Fixed-step EULER runs for f from y0 and for g from z0 >= y0 with lam dt <= 1 return with SUCCESS, record the same times up to t1, and every value of the first is at most that of the second, componentwise. If f is quasi-monotone between two vectors a <= b with 0 <= f(t, a) and f(t, b) <= 0, all values of a run starting between them stay between them.", "quantifier": "all quasi-monotone right-hand sides, dimensions, initial values, intervals, step sizes", "why_tests_cant": "an ordering of two runs for all right-hand sides of a class and all step sizes up to a stated limit", "anchors": ["erk.hpp 262-495: erk_guts, odeint", "erk.cpp 25-32: EXPLICIT_EULER"]}
