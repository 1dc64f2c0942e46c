{
 "claims": [
  {
   "property": "C01",
   "status": "proved",
   "theorems": [
    "Verif.C01_most_recent",
    "Verif.C01_index_total",
    "Verif.C01_copy"
   ],
   "note": "all element types, periods >= 1, histories"
  },
  {
   "property": "C02",
   "status": "proved",
   "theorems": [
    "Verif.C02_memory_safe",
    "Verif.C02_period_nonpositive"
   ],
   "note": ""
  },
  {
   "property": "C03",
   "status": "partial",
   "theorems": [
    "Verif.C03_refuted",
    "Verif.C03_push_after_resize_ub",
    "Verif.C03_resize_partial"
   ],
   "note": "false of the code: after resize every push is an out-of-bounds write and size() is stale"
  },
  {
   "property": "C04",
   "status": "partial",
   "theorems": [
    "Verif.C04_refuted",
    "Verif.C04_end_partial"
   ],
   "note": "false of the code: end() assigns current_; exact condition under which it is harmless is proved"
  },
  {
   "property": "C05",
   "status": "proved",
   "theorems": [
    "Verif.C05_round_trip"
   ],
   "note": ""
  },
  {
   "property": "C06",
   "status": "proved",
   "theorems": [
    "Verif.C06_unknown_name",
    "Verif.C06_resolves_or_zero",
    "Verif.C06_select"
   ],
   "note": ""
  },
  {
   "property": "C07",
   "status": "partial",
   "theorems": [
    "Verif.C07_refuted",
    "Verif.C07_listing_partial"
   ],
   "note": "false of the code: failed lookups insert their name into the listing"
  },
  {
   "property": "C08",
   "status": "proved",
   "theorems": [
    "Verif.C08_erk",
    "Verif.C08_erk_unsupported",
    "Verif.C08_irk",
    "Verif.C08_irk_unsupported"
   ],
   "note": "both dispatch tables, any arithmetic"
  },
  {
   "property": "C09",
   "status": "proved",
   "theorems": [
    "Verif.C09_bits_independent",
    "Verif.C09_stream_set"
   ],
   "note": ""
  },
  {
   "property": "C10",
   "status": "proved",
   "theorems": [
    "Verif.C10_parallel_records",
    "Verif.C10_odeint"
   ],
   "note": "any arithmetic"
  },
  {
   "property": "C11",
   "status": "proved",
   "theorems": [
    "Verif.C11_times",
    "Verif.C11_odeint"
   ],
   "note": "exact arithmetic"
  },
  {
   "property": "C12",
   "status": "proved",
   "theorems": [
    "Verif.C12_guts",
    "Verif.C12_odeint"
   ],
   "note": "exact arithmetic"
  },
  {
   "property": "C13",
   "status": "proved",
   "theorems": [
    "Verif.C13_within_tolerance"
   ],
   "note": "exact arithmetic"
  },
  {
   "property": "C14",
   "status": "proved",
   "theorems": [
    "Verif.C14_counters"
   ],
   "note": "any arithmetic"
  },
  {
   "property": "C15",
   "status": "proved",
   "theorems": [
    "Verif.C15_calls_in_interval",
    "Verif.C15_calls_reachable"
   ],
   "note": "exact arithmetic"
  },
  {
   "property": "C16",
   "status": "proved",
   "theorems": [
    "Verif.C16_guts",
    "Verif.C16_fsal_transparent"
   ],
   "note": "exact arithmetic"
  },
  {
   "property": "C17",
   "status": "partial",
   "theorems": [
    "Verif.C17_refuted",
    "Verif.C17_max_steps_partial",
    "Verif.C17_irk_refuted",
    "Verif.C17_irk_max_steps_partial"
   ],
   "note": "false of both integrators by one step; sharp bound max_steps+1 proved in any arithmetic"
  },
  {
   "property": "C18",
   "status": "partial",
   "theorems": [
    "Verif.C18_refuted",
    "Verif.C18_max_dt_partial",
    "Verif.C18_irk_max_dt_partial"
   ],
   "note": "false of the code for the first step only"
  },
  {
   "property": "C19",
   "status": "proved",
   "theorems": [
    "Verif.C19_fixed_grid"
   ],
   "note": "exact arithmetic"
  },
  {
   "property": "C20",
   "status": "proved",
   "theorems": [
    "Verif.C20_adaptive_terminates"
   ],
   "note": "exact arithmetic, bounded right-hand side"
  },
  {
   "property": "C21",
   "status": "proved",
   "theorems": [
    "Verif.C21_reject_keeps_state",
    "Verif.C21_retry_smaller",
    "Verif.C21_irk_reject"
   ],
   "note": ""
  },
  {
   "property": "C22",
   "status": "proved",
   "theorems": [
    "Verif.C22_polynomial_exact",
    "Verif.C22_embedded_exact"
   ],
   "note": "exact arithmetic"
  },
  {
   "property": "C23",
   "status": "proved",
   "theorems": [
    "Verif.C23_order_conditions"
   ],
   "note": ""
  },
  {
   "property": "C24",
   "status": "proved",
   "theorems": [
    "Verif.C24_linear_invariant"
   ],
   "note": "exact arithmetic"
  },
  {
   "property": "C25",
   "status": "proved",
   "theorems": [
    "Verif.C25_erk_refused",
    "Verif.C25_odeint_refused",
    "Verif.C25_irk_refused",
    "Verif.C25_irk_odeint_refused",
    "Verif.C25_no_nan_accepted",
    "Verif.C25_nan_asserts",
    "Verif.C25_nan_accepted_ndebug",
    "Verif.C25_irk_nan_asserts",
    "Verif.C25_irk_lu_asserts",
    "Verif.C25_irk_decided"
   ],
   "note": "both integrators"
  },
  {
   "property": "C26",
   "status": "partial",
   "theorems": [
    "Verif.C26_refuted",
    "Verif.C26_stream_partial"
   ],
   "note": "false of the code: old time paired with new value, rejected attempts written too"
  },
  {
   "property": "C27",
   "status": "proved",
   "theorems": [
    "Verif.C27_returns",
    "Verif.C27_success",
    "Verif.C27_last_iteration",
    "Verif.C27_tol_unused",
    "Verif.C27_negative_maxit"
   ],
   "note": "any scalar arithmetic in which 0 < -1 is false"
  },
  {
   "property": "C28",
   "status": "proved",
   "theorems": [
    "Verif.C28_dispatch",
    "Verif.C28_evaluations"
   ],
   "note": "the generic run evaluates f and J the number of times the selected variant implies"
  },
  {
   "property": "C29",
   "status": "partial",
   "theorems": [
    "Verif.C29_newton_step_bound",
    "Verif.C29_refuted",
    "Verif.C29_broyden_step_partial"
   ],
   "note": "true for newton_iterate; false for broyden_iterate (the limiter omits the damping factor), bound max_step*sqrt(1+|F|^2) proved"
  },
  {
   "property": "C30",
   "status": "proved",
   "theorems": [
    "Verif.C30_affine"
   ],
   "note": "exact arithmetic, exact linear solver"
  },
  {
   "property": "C31",
   "status": "proved",
   "theorems": [
    "Verif.C31_precondition_irrelevant"
   ],
   "note": "hypothesis: Jacobian invertible at every point (otherwise both variants report or throw)"
  },
  {
   "property": "C32",
   "status": "proved",
   "theorems": [
    "Verif.C32_secant"
   ],
   "note": "exact arithmetic"
  },
  {
   "property": "C33",
   "status": "partial",
   "theorems": [
    "Verif.C33_refuted",
    "Verif.C33_always_success",
    "Verif.C33_stop_partial"
   ],
   "note": "false of the code: the function always returns SUCCESS; proved instead: exactly when it stops, so SUCCESS with iters < maxit does mean that a test was met"
  },
  {
   "property": "C34",
   "status": "partial",
   "theorems": [
    "Verif.C34_refuted",
    "Verif.C34_always_true"
   ],
   "note": "false of the code: the function compares a matrix with itself and always returns true"
  },
  {
   "property": "C35",
   "status": "proved",
   "theorems": [
    "Verif.C35_entries",
    "Verif.C35_points",
    "Verif.C35_quadratic_exact",
    "Verif.C35_quadratic_map"
   ],
   "note": "exact arithmetic"
  },
  {
   "property": "C36",
   "status": "proved",
   "theorems": [
    "Verif.C36_contract",
    "Verif.C36_evaluations",
    "Verif.C36_ndebug_throws",
    "Verif.C36_newton_equation"
   ],
   "note": ""
  },
  {
   "property": "C37",
   "status": "proved",
   "theorems": [
    "Verif.C37_update",
    "Verif.C37_run",
    "Verif.C37_affine"
   ],
   "note": ""
  },
  {
   "property": "C38",
   "status": "proved",
   "theorems": [
    "Verif.C38_records",
    "Verif.C38_lengths",
    "Verif.C38_times"
   ],
   "note": ""
  },
  {
   "property": "C39",
   "status": "proved",
   "theorems": [
    "Verif.C39_counters",
    "Verif.C39_calls"
   ],
   "note": ""
  },
  {
   "property": "C40",
   "status": "proved",
   "theorems": [
    "Verif.C40_accepted",
    "Verif.C40_tolerance"
   ],
   "note": ""
  },
  {
   "property": "C41",
   "status": "proved",
   "theorems": [
    "Verif.C41_stream"
   ],
   "note": ""
  },
  {
   "property": "C42",
   "status": "partial",
   "theorems": [
    "Verif.C42_refuted",
    "Verif.C42_stages_zero_partial"
   ],
   "note": "false of the code: the stored stages are the zero vectors the output is initialised with"
  },
  {
   "property": "C43",
   "status": "partial",
   "theorems": [
    "Verif.C43_refuted",
    "Verif.C43_adaptive_partial",
    "Verif.C43_fixed_never_steps",
    "Verif.C43_uninitialised",
    "Verif.C43_implicit_euler",
    "Verif.C43_singular"
   ],
   "note": "false of the code for five of the twelve methods and for all fixed-step runs; adaptive runs of the other seven proved never to throw"
  },
  {
   "property": "C44",
   "status": "proved",
   "theorems": [
    "Verif.C44_linear"
   ],
   "note": ""
  },
  {
   "property": "C45",
   "status": "proved",
   "theorems": [
    "Verif.C45_product",
    "Verif.C45_size",
    "Verif.C45_order",
    "Verif.C45_assoc",
    "Verif.C45_unit"
   ],
   "note": "expand is the multiplication of factors; value, size, order of terms"
  },
  {
   "property": "C46",
   "status": "proved",
   "theorems": [
    "Verif.C46_total",
    "Verif.C46_lagrange",
    "Verif.C46_one_node"
   ],
   "note": "for two or more distinct nodes, exact arithmetic; the one-node case returns 0 and is proved separately"
  },
  {
   "property": "C47",
   "status": "proved",
   "theorems": [
    "Verif.C47_radau32",
    "Verif.C47_radau53"
   ],
   "note": "exact arithmetic"
  },
  {
   "property": "C48",
   "status": "partial",
   "theorems": [
    "Verif.C48_refuted",
    "Verif.C48_merge_partial",
    "Verif.C48_assoc",
    "Verif.C48_accept_frac_weights"
   ],
   "note": "false of the code: fun_evals and jac_evals of the second output are dropped; everything else proved"
  },
  {
   "property": "C49",
   "status": "partial",
   "theorems": [
    "Verif.C49_row_sums",
    "Verif.C49_order_conditions",
    "Verif.C49_embedded_partial",
    "Verif.C49_embedded_fails",
    "Verif.C49_embedded_exact",
    "Verif.C49_refuted"
   ],
   "note": "row sums and declared orders proved for all eight closed-form methods; embedded orders hold for two methods, proved to fail for five, with the sizes of the defects"
  },
  {
   "property": "C50",
   "status": "proved",
   "theorems": [
    "Verif.C50_exact",
    "Verif.C50_step",
    "Verif.C50_sharp",
    "Verif.C50_current_time"
   ],
   "note": "note: all slopes are taken at the current time, so for time-dependent right-hand sides the step is not the textbook one (C50_current_time)"
  },
  {
   "property": "C51",
   "status": "proved",
   "theorems": [
    "Verif.C51_exact",
    "Verif.C51_sharp"
   ],
   "note": ""
  },
  {
   "property": "C52",
   "status": "partial",
   "theorems": [
    "Verif.C52_refuted",
    "Verif.C52_bootstrap_partial",
    "Verif.C52_outcome",
    "Verif.C52_lag"
   ],
   "note": "false of the code: every starting value equals y0 because the bootstrap integrator runs with NO_OUTPUT; the starting times are proved"
  },
  {
   "property": "C53",
   "status": "proved",
   "theorems": [
    "Verif.C53_adams_bashforth",
    "Verif.C53_bdf",
    "Verif.C53_ab_grid",
    "Verif.C53_bdf_grid",
    "Verif.C53_ab_returns",
    "Verif.C53_bdf_returns",
    "Verif.C53_ab_bad_order",
    "Verif.C53_ab_large_order"
   ],
   "note": "termination is relative to the bootstrap runs of the implicit integrator"
  },
  {
   "property": "C54",
   "status": "proved",
   "theorems": [
    "Verif.C54_samples",
    "Verif.C54_failure",
    "Verif.C54_bad_order",
    "Verif.C54_affine"
   ],
   "note": ""
  },
  {
   "property": "C55",
   "status": "partial",
   "theorems": [
    "Verif.C55_refuted",
    "Verif.C55_jacobian_partial",
    "Verif.C55_three_body_never",
    "Verif.C55_three_body_entries",
    "Verif.C55_three_body_force"
   ],
   "note": "false of the code: three_body::jac is the derivative at no state; every other shipped equation proved; the entries of three_body::jac are determined (derivatives of the forces, negated, in the wrong columns, with two slips)"
  },
  {
   "property": "C56",
   "status": "proved",
   "theorems": [
    "Verif.C56_exponential",
    "Verif.C56_harmonic",
    "Verif.C56_stiff"
   ],
   "note": ""
  },
  {
   "property": "C57",
   "status": "proved",
   "theorems": [
    "Verif.C57_orthogonal",
    "Verif.C57_orthogonal_jac",
    "Verif.C57_erk",
    "Verif.C57_irk",
    "Verif.C57_adams_bashforth",
    "Verif.C57_bdf"
   ],
   "note": ""
  },
  {
   "property": "C58",
   "status": "partial",
   "theorems": [
    "Verif.C58_refuted",
    "Verif.C58_momentum_x_partial",
    "Verif.C58_momentum_y",
    "Verif.C58_resume"
   ],
   "note": "false of the code: dydt[9] uses the x difference; x momentum proved, y drift given exactly; the state stored for three-body-resume shows both"
  },
  {
   "property": "C59",
   "status": "proved",
   "theorems": [
    "Verif.C59_returns",
    "Verif.C59_throws",
    "Verif.C59_step",
    "Verif.C59_erk",
    "Verif.C59_irk"
   ],
   "note": ""
  },
  {
   "property": "C60",
   "status": "proved",
   "theorems": [
    "Verif.C60_A_stable",
    "Verif.C60_L_stable",
    "Verif.C60_run",
    "Verif.C60_harmonic",
    "Verif.C60_not_explicit"
   ],
   "note": ""
  },
  {
   "property": "C61",
   "status": "partial",
   "theorems": [
    "Verif.C61_refuted",
    "Verif.C61_overshoots",
    "Verif.C61_run_overshoots",
    "Verif.C61_sterbenz_partial",
    "Verif.C92_completes"
   ],
   "note": "false in binary64: overshoot by one ulp; holds when t1/2 <= t; for whole fixed-step runs see C92: exact if t1 = 0 or 2 dt <= |t1|"
  },
  {
   "property": "C62",
   "status": "proved",
   "theorems": [
    "Verif.C62_times_monotone"
   ],
   "note": "binary64; hypotheses: arguments are doubles, t1-t0 does not overflow, dt >= 0, pow of a base that is neither negative nor -0 is not negative"
  },
  {
   "property": "C63",
   "status": "partial",
   "theorems": [
    "Verif.C63_refuted",
    "Verif.C63_diverges",
    "Verif.C63_only_rejections_partial",
    "Verif.C63_fixed_terminates",
    "Verif.C63_stall",
    "Verif.C63_irk_refuted",
    "Verif.C63_irk_diverges",
    "Verif.C63_irk_only_rejections_partial",
    "Verif.C63_irk_terminates_partial"
   ],
   "note": "false of the code: rejected attempts are not counted; fixed-step part proved in any arithmetic; implicit integrator proved to end for locally bounded right-hand sides when the Newton limit is at least 2"
  },
  {
   "property": "C64",
   "status": "partial",
   "theorems": [
    "Verif.C64_refuted",
    "Verif.C64_value_partial",
    "Verif.C64_overflow",
    "Verif.C64_factorial"
   ],
   "note": "false of the code for k > n (binom_coeff(0,1)=1); value proved for k <= n without overflow"
  },
  {
   "property": "C65",
   "status": "partial",
   "theorems": [
    "Verif.C65_refuted",
    "Verif.C65_explicit",
    "Verif.C65_implicit_partial",
    "Verif.C65_grid",
    "Verif.C65_limit_points",
    "Verif.C65_written"
   ],
   "note": "false of the code: the ERK branch asks irk::get_coefficients, so every value is 1; proved for the implicit methods; C65_written says for which names a file is written"
  },
  {
   "property": "C66",
   "status": "partial",
   "theorems": [
    "Verif.C66_refuted",
    "Verif.C66_no_embedded",
    "Verif.C66_exact",
    "Verif.C66_unknown",
    "Verif.C66_outcome"
   ],
   "note": "false of the code: the three methods without embedded weights throw; C66_exact: every other name is handled"
  },
  {
   "property": "C67",
   "status": "proved",
   "theorems": [
    "Verif.C67_bounded",
    "Verif.C67_affine",
    "Verif.C67_stiff_success",
    "Verif.C67_harmonic"
   ],
   "note": "exact arithmetic, exact linear algebra"
  },
  {
   "property": "C68",
   "status": "partial",
   "theorems": [
    "Verif.C68_refuted",
    "Verif.C68_ub",
    "Verif.C68_accepts_partial",
    "Verif.C68_status",
    "Verif.C68_settings"
   ],
   "note": "false of the code: --out-interval as last argument reads argv[argc]; exactly these command lines are proved to be the exceptions"
  },
  {
   "property": "C69",
   "status": "partial",
   "theorems": [
    "Verif.C69_refuted",
    "Verif.C69_exact",
    "Verif.C69_defined_partial"
   ],
   "note": "false of the code: time_internals is never initialised, the masses of the three-body problem may stay uninitialised; two methods have uninitialised orders; the exact extent is proved"
  },
  {
   "property": "C70",
   "status": "proved",
   "theorems": [
    "Verif.C70_exit",
    "Verif.C70_problem",
    "Verif.C70_success",
    "Verif.C70_fixed_step",
    "Verif.C70_explicit"
   ],
   "note": "success part in exact arithmetic"
  },
  {
   "property": "C71",
   "status": "partial",
   "theorems": [
    "Verif.C71_erk",
    "Verif.C71_irk_partial",
    "Verif.C71_irk_exact",
    "Verif.C71_refuted"
   ],
   "note": "false for LOBATTO_IIIA_127 and GAUSS_LEGENDRE_147 (uninitialised orders); proved for all other methods, and the exact extent, in any arithmetic"
  },
  {
   "property": "C72",
   "status": "proved",
   "theorems": [
    "Verif.C72_simplifying"
   ],
   "note": "residuals per method: RADAU_IIA_95 5e-17, RADAU_IIA_137 2e-39 (embedded 3e-18), LOBATTO_IIIA_127 and GAUSS_LEGENDRE_147 2e-18"
  },
  {
   "property": "C73",
   "status": "proved",
   "theorems": [
    "Verif.C73_adaptive_terminates",
    "Verif.C73_lipschitz"
   ],
   "note": "exact arithmetic"
  },
  {
   "property": "C74",
   "status": "proved",
   "theorems": [
    "Verif.C74_convergence",
    "Verif.C74_fixed_step",
    "Verif.C74_adaptive",
    "Verif.C74_adaptive_completes"
   ],
   "note": "exact arithmetic"
  },
  {
   "property": "C75",
   "status": "proved",
   "theorems": [
    "Verif.C75_estimate_order"
   ],
   "note": "exact arithmetic"
  },
  {
   "property": "C76",
   "status": "proved",
   "theorems": [
    "Verif.C76_step_count"
   ],
   "note": "exact arithmetic"
  },
  {
   "property": "C77",
   "status": "proved",
   "theorems": [
    "Verif.C77_convergence",
    "Verif.C77_max_dt",
    "Verif.C77_affine",
    "Verif.C77_stiff_completes"
   ],
   "note": "exact arithmetic, the five closed-form tableaux that can return a run (200, 220 and 240 have no embedded weights or a singular matrix, C43)"
  },
  {
   "property": "C78",
   "status": "partial",
   "theorems": [
    "Verif.C78_refuted",
    "Verif.C78_first_order_partial",
    "Verif.C78_order_one"
   ],
   "note": "false for orders 2 to 5 (the starting values all equal y0, C52): proved for y' = v with an error of dt v at the first sample; the exact extent, convergence of order one for orders 1 to 5, is proved"
  },
  {
   "property": "C79",
   "status": "partial",
   "theorems": [
    "Verif.C79_refuted",
    "Verif.C79_first_order_partial",
    "Verif.C79_order_one",
    "Verif.C79_completes"
   ],
   "note": "the order is false for 2 to 6 (the starting values all equal y0, C52): proved for y' = v; the exact extent, convergence of order one for orders 1 to 6, and completion with SUCCESS are proved"
  },
  {
   "property": "C80",
   "status": "proved",
   "theorems": [
    "Verif.C80_quadratic",
    "Verif.C80_linear"
   ],
   "note": "exact arithmetic, exact solutions of the linear systems"
  },
  {
   "property": "C81",
   "status": "proved",
   "theorems": [
    "Verif.FP.FP_nearest",
    "Verif.FP.FP_tie_even",
    "Verif.FP.FP_overflow",
    "Verif.FP.FP_add",
    "Verif.FP.FP_sub",
    "Verif.FP.FP_mul",
    "Verif.FP.FP_div",
    "Verif.FP.FP_sqrt",
    "Verif.FP.FP_lt",
    "Verif.FP.FP_le",
    "Verif.FP.FP_eq",
    "Verif.FP.FP_add_sign",
    "Verif.FP.FP_mul_sign",
    "Verif.FP.FP_div_sign",
    "Verif.FP.FP_add_nan",
    "Verif.FP.FP_mul_nan",
    "Verif.FP.FP_div_nan",
    "Verif.FP.FP_sqrt_nan",
    "Verif.FP.FP_inf",
    "Verif.FP.FP_div_zero",
    "Verif.FP.FP_neg_abs"
   ],
   "note": "about the model of the arithmetic, not about the library; std::pow is a parameter and not covered"
  },
  {
   "property": "C82",
   "status": "proved",
   "theorems": [
    "Verif.C82_completes",
    "Verif.C82_convergence",
    "Verif.C82_order_sharp"
   ],
   "note": "exact arithmetic, exact linear solvers; (c) is a finding about the interplay of the fixed Newton tolerance with the declared order"
  },
  {
   "property": "C83",
   "status": "partial",
   "theorems": [
    "Verif.C83_run_partial",
    "Verif.C83_affine_partial",
    "Verif.C83_refuted"
   ],
   "note": "the claim is refuted (a factor dt too much, visible for y' = 1 on [0,1/2] with RADAU_IIA_32); proved instead: the recorded estimate is h times the solution of (8.19), or of (8.20) exactly on the first error test and after a failed one, with the stage values of the step itself; for affine problems the stage residual in it vanishes and (I - gamma h J) est = h (embedded - new value)"
  },
  {
   "property": "C84",
   "status": "proved",
   "theorems": [
    "Verif.erkDefault_settings",
    "Verif.C84_erk_steps",
    "Verif.C84_erk_completes",
    "Verif.irkDefault_settings",
    "Verif.C84_irk_steps",
    "Verif.C84_irk_completes",
    "Verif.C84_irk_release_throws"
   ],
   "note": "exact arithmetic, exact linear solvers; the throw in release builds is a finding"
  },
  {
   "property": "C85",
   "status": "proved",
   "theorems": [
    "Verif.C85_recurrence",
    "Verif.C85_converges",
    "Verif.C85_scalar_affine"
   ],
   "note": "exact arithmetic; no step limit"
  },
  {
   "property": "C86",
   "status": "partial",
   "theorems": [
    "Verif.C86_refuted",
    "Verif.C86_erk_ignores",
    "Verif.C86_erk_no_stream",
    "Verif.C86_irk_partial"
   ],
   "note": "false of the explicit integrator, which ignores disable_store_in_vectors and output_interval (C86_erk_ignores); proved for the implicit one"
  },
  {
   "property": "C87",
   "status": "partial",
   "theorems": [
    "Verif.C87_refuted",
    "Verif.C87_fails",
    "Verif.C87_rounded",
    "Verif.C87_exact_partial",
    "Verif.C87_L_stable",
    "Verif.C87_run"
   ],
   "note": "false for the four methods given by decimal numbers, whose rounded entries amplify on the imaginary axis (C87_fails); their |R|\u00b2 exceeds 1 by at most 1e-14, 1e-36, 1e-15, 1e-14 (C87_rounded); exact for the eight others"
  },
  {
   "property": "C88",
   "status": "partial",
   "theorems": [
    "Verif.C88_refuted",
    "Verif.C88_values",
    "Verif.C88_gamma_zero_partial"
   ],
   "note": "false for the methods with gamma \u2260 0: the program leaves out the term gamma*z (C88_values gives the value written)"
  },
  {
   "property": "C89",
   "status": "partial",
   "theorems": [
    "Verif.C89_refuted",
    "Verif.C89_mass",
    "Verif.C89_rate",
    "Verif.C89_conserved_partial"
   ],
   "note": "false of the code: kin_energy leaves out the masses and the force on the second body is wrong; C89_rate gives the exact rate of change"
  },
  {
   "property": "C90",
   "status": "partial",
   "theorems": [
    "Verif.C90_refuted",
    "Verif.C90_far",
    "Verif.C90_near_partial",
    "Verif.C90_explicit"
   ],
   "note": "false for RADAU_IIA_32 and LOBATTO_IIIA_127, and in the seventh digit for LOBATTO_IIIC_85; an eigenvalue exists within the rounding of gamma for the four other methods"
  },
  {
   "property": "C91",
   "status": "proved",
   "theorems": [
    "Verif.C91_convergence",
    "Verif.C91_fixed_step",
    "Verif.C91_perturbed",
    "Verif.C91_example"
   ],
   "note": "C and h0 depend on the right-hand side, the solution, the method and the interval but not on the arithmetic; they are not given explicitly, so for binary64 alone (u = 2^-53 fixed) the bound says something only if C N < 2^53; C91_fixed_step adds that runs with fixed steps and a step limit return"
  },
  {
   "property": "C92",
   "status": "proved",
   "theorems": [
    "Verif.C92_completes",
    "Verif.C92_stalls"
   ],
   "note": ""
  },
  {
   "property": "C93",
   "status": "proved",
   "theorems": [
    "Verif.C93_equivariant",
    "Verif.C93_units",
    "Verif.C93_fixed"
   ],
   "note": "exact real arithmetic; in binary64 the sums are rounded differently after a renumbering of the unknowns"
  },
  {
   "property": "C94",
   "status": "partial",
   "theorems": [
    "Verif.C94_refuted",
    "Verif.C94_fails",
    "Verif.C94_inner",
    "Verif.C94_bstable_partial",
    "Verif.C94_rounded",
    "Verif.C94_run",
    "Verif.C94_affine",
    "Verif.C94_completes"
   ],
   "note": "refuted as stated: LOBATTO_IIIA_43 and LOBATTO_IIIA_127 are not B-stable (C94_fails); proved for all other tableaux with exact coefficients in any inner product, for the decimal ones up to the rounding of the coefficients, and for whole runs of RADAU_IIA_32/53 (any equation, Newton defects included) and of the five stiff methods on linear systems, which are shown to complete; exact arithmetic"
  },
  {
   "property": "C95",
   "status": "proved",
   "theorems": [
    "Verif.C95_convergence",
    "Verif.C95_completes"
   ],
   "note": "exact arithmetic; on linear systems the run is shown to complete"
  },
  {
   "property": "C96",
   "status": "partial",
   "theorems": [
    "Verif.C96_refuted",
    "Verif.C96_low_order",
    "Verif.C96_linear_partial",
    "Verif.C96_equilibrium_partial",
    "Verif.C96_nonlinear_partial",
    "Verif.C96_completes"
   ],
   "note": "refuted for orders 3 to 6 (C96_refuted: completed runs on rotating, decaying planar systems that grow without bound); proved for orders 1 and 2 (C96_low_order) with the constants 1 and sqrt 2, for two runs, for variable coefficients and for non-linear systems with the solver's defect; completion on linear systems at every order; exact arithmetic"
  },
  {
   "property": "C97",
   "status": "proved",
   "theorems": [
    "Verif.C97_convergence"
   ],
   "note": "order one is all there is (C79_refuted: the starting values are all the initial value); exact arithmetic"
  },
  {
   "property": "C98",
   "status": "partial",
   "theorems": [
    "Verif.C98_refuted",
    "Verif.C98_blind",
    "Verif.C98_max_dt_partial",
    "Verif.C98_implicit_refuted",
    "Verif.C98_implicit_blind"
   ],
   "note": "refuted for every embedded explicit method and every implicit method that can be run (C98_blind: for each interval, initial step and max_dt a smooth right-hand side vanishing at every time the run looks at; the run returns SUCCESS with the starting value for all tolerances while the solution moves by 1); what remains: convergence when max_dt and the initial step shrink too (C98_max_dt_partial; C82_completes for the implicit methods); exact arithmetic"
  },
  {
   "property": "C99",
   "status": "partial",
   "theorems": [
    "Verif.C99_refuted",
    "Verif.C99_higher_hessian_iff",
    "Verif.C99_rosenbrock_gradient",
    "Verif.C99_rosenbrock_hessian",
    "Verif.C99_rosenbrock_root",
    "Verif.C99_higher_gradient",
    "Verif.C99_inverse_power",
    "Verif.C99_jacobian_partial",
    "Verif.C99_higher_root",
    "Verif.C99_expected_root",
    "Verif.C99_not_quadratic"
   ],
   "note": "refuted: the off-diagonal entries of the Hessian of higher_order_rosenbrock_func are zero, which is right exactly where b x_{i+1} = 0 for every pair (C99_higher_hessian_iff); the gradients and the other matrices are right (C99_jacobian_partial); with that matrix Newton's method is not quadratically convergent (C99_not_quadratic) and the expected root {a, a*a} is a critical point only for a = 0 and a = 1 (C99_expected_root); exact arithmetic"
  },
  {
   "property": "C100",
   "status": "proved",
   "theorems": [
    "Verif.C100_injective",
    "Verif.C100_newton",
    "Verif.C100_broyden",
    "Verif.C100_stages"
   ],
   "note": "INCREMENT_DIVERGE and ITERATION_ERROR_TOO_LARGE are never reported; any arithmetic"
  },
  {
   "property": "C101",
   "status": "proved",
   "theorems": [
    "Verif.C101_elapsed",
    "Verif.C101_toc",
    "Verif.C101_performance",
    "Verif.C101_us_unused",
    "Verif.FP.C101_binary64",
    "Verif.FP.C101_us_binary64"
   ],
   "note": "in exact arithmetic the unit us is used for a duration of zero only, because its threshold is one tick of the clock (C101_us_unused); in binary64 also for one microsecond across the turn of a second (C101_us_binary64)"
  },
  {
   "property": "C102",
   "status": "partial",
   "theorems": [
    "Verif.C102_refuted",
    "Verif.C102_factor",
    "Verif.C102_grows",
    "Verif.C102_decays_partial",
    "Verif.C102_fixed"
   ],
   "note": "refuted: explicit Euler and Cash-Karp increase the energy in every step of whatever length, Fehlberg in every step up to 2/|w| (C102_grows); it is true of RUNGE_KUTTA_4, BOGACKI_SHAMPINE_32 and DORMAND_PRINCE_54 with explicit bounds, sharp for the first two (C102_decays_partial); the factor of every step is computed (C102_factor, C102_fixed); exact arithmetic"
  },
  {
   "property": "C103",
   "status": "proved",
   "theorems": [
    "Verif.C103_erk",
    "Verif.C103_irk",
    "Verif.C103_default_erk",
    "Verif.C103_default_irk",
    "Verif.C103_bootstrap",
    "Verif.C103_bdf",
    "Verif.C103_adams_bashforth"
   ],
   "note": "exact arithmetic and exact linear algebra; implicit methods 210, 211, 230, 231, 232; removes the hypothesis of C78/C79 that the run returns"
  },
  {
   "property": "C104",
   "status": "partial",
   "theorems": [
    "Verif.C104_refuted",
    "Verif.C104_autonomous_partial"
   ],
   "note": "false for orders 2 to 5 when the right-hand side depends on the time: all slopes are evaluated at the current time, so y' = 2t gives Euler's method whatever the starting values. Proved for right-hand sides that do not depend on the time; the run also returns with SUCCESS."
  },
  {
   "property": "C105",
   "status": "proved",
   "theorems": [
    "Verif.C105_order"
   ],
   "note": "exact arithmetic and exact linear algebra; any Jacobi matrix function that is continuous, correct or not; the shipped bootstrap delivers delta = O(h) only (C79)"
  },
  {
   "property": "C106",
   "status": "proved",
   "theorems": [
    "Verif.C106_delay"
   ],
   "note": "generalises C52_lag from constant right-hand sides; the bootstrap stores y0 for every starting sample (C51)"
  },
  {
   "property": "C107",
   "status": "partial",
   "theorems": [
    "Verif.C107_refuted",
    "Verif.C107_equivariant_partial",
    "Verif.C107_units_partial"
   ],
   "note": "false for changes of the unit of time: the error estimate is multiplied by dt once more than in formulas (8.19) and (8.20) (C83), so a run with the time in half seconds accepts and rejects other steps. Proved for lam = 1 (another origin of time, isometries, other units, signs and order of the unknowns)."
  },
  {
   "property": "C108",
   "status": "partial",
   "theorems": [
    "Verif.C108_refuted",
    "Verif.C108_overflow",
    "Verif.C108_sticky",
    "Verif.C108_nan_succeeds",
    "Verif.C108_first_partial"
   ],
   "note": "false: an infinite new value makes the tolerance infinite, the scaled error is NaN or zero, and the step is accepted (C108_overflow, with and without assertions). A NaN never goes away (C108_sticky); without assertions a run with a NaN component always ends with SUCCESS because a NaN error is never rejected and the step grows by 3.6 (C108_nan_succeeds; pow(NaN, y) = NaN for y > 0). Proved: with assertions an adaptive run never records a NaN directly after finite values (C108_first_partial)."
  },
  {
   "property": "C109",
   "status": "partial",
   "theorems": [
    "Verif.C109_refuted",
    "Verif.C109_overflow_zero",
    "Verif.C109_absorbing",
    "Verif.C109_hangs",
    "Verif.C109_positive_partial"
   ],
   "note": "false: if err_tot overflows, err_inv = 0 and the new step size is zero (C109_overflow_zero); zero steps are followed by zero steps for ever (C109_absorbing), so odeint never returns for a right-hand side that is zero up to t = 1 and 2^700 afterwards, with default options (C109_hangs). Assumed of pow: pow(0, y) = 0 for y > 0 and not negative for bases that are not negative. Proved: the step stays positive for errors up to 2^500 and steps from 2^-500 (C109_positive_partial; pow(x, y) >= min(x, 1) for y in (0, 1])."
  },
  {
   "property": "C110",
   "status": "partial",
   "theorems": [
    "Verif.C110_refuted",
    "Verif.C110_never_returns",
    "Verif.C110_hangs",
    "Verif.C110_no_success_partial"
   ],
   "note": "false for adaptive runs: a NaN residual passes neither convergence test nor any divergence test, the iteration uses up maxit, the step is repeated with 0.7 dt for ever, and max_steps counts accepted steps only (C110_never_returns from any state, C110_hangs for whole runs, C110_refuted for RADAU_IIA_53 with max_steps = 10). Proved: whatever is returned has the status GENERAL_ERROR and belongs to a fixed-step run (C110_no_success_partial). Assumed of the linear algebra (NanLinAlg): lu produces a factorisation, triangular solves pass a NaN on."
  },
  {
   "property": "C111",
   "status": "proved",
   "theorems": [
    "Verif.C111_instance",
    "Verif.C111_contract",
    "Verif.C111_plu",
    "Verif.C111_ndebug",
    "Verif.C111_affine",
    "Verif.C111_affine_eventually",
    "Verif.C111_damping"
   ],
   "note": "C111_instance: the instance <false,true> is the solver of the other theorems. C111_plu: with assertions both settings of PLU_decomposition have the same outcome over \u211d. C111_ndebug: without assertions the factorised variants throw, the others are unchanged. C111_affine: each pass multiplies the residual by 1 - s. C111_damping: a linear equation on which the default variant gives up and the integrator's succeeds."
  },
  {
   "property": "C112",
   "status": "proved",
   "theorems": [
    "Verif.C112_weights",
    "Verif.C112_order",
    "Verif.C112_run",
    "Verif.C112_exponent"
   ],
   "note": "C112_exponent: for y' = t^2 the dense output of RADAU_IIA_32 at theta = 1/2 is off by exactly h^3/24 although the step itself is exact there. The order is stated for the methods whose tableau is given in closed form; RADAU_IIA_95 and RADAU_IIA_137 have rounded decimals (C112_weights covers them)."
  },
  {
   "property": "C113",
   "status": "proved",
   "theorems": [
    "Verif.C113_lag",
    "Verif.C113_autonomous",
    "Verif.C113_lower"
   ],
   "note": "Order 1 has no parasitic part and its own first-order truncation error; it is covered by C79. The existence of w is a hypothesis (for autonomous problems it is u'). 1e-10 is the tolerance of the Newton solver in the code."
  },
  {
   "property": "C114",
   "status": "partial",
   "theorems": [
    "Verif.C114_adams_bashforth",
    "Verif.C114_bdf_partial",
    "Verif.C114_refuted"
   ],
   "note": "Refuted for other units of the unknowns (C114_refuted): the Newton tolerance 1e-10 of bdf is absolute, so the number of Newton steps depends on the unit. Proved for adams_bashforth in full and for bdf under changes that keep the maximum norm. Exact arithmetic and linear algebra. That both runs return is assumed: the bootstrap is an adaptive implicit run with an absolute tolerance."
  },
  {
   "property": "C115",
   "status": "partial",
   "theorems": [
    "Verif.C115_erk",
    "Verif.C115_irk",
    "Verif.C115_adams_bashforth",
    "Verif.C115_adams_bashforth_output",
    "Verif.C115_bdf_partial",
    "Verif.C115_refuted"
   ],
   "note": "Refuted for bdf (C115_refuted): it steps with the full dt while t < t1 and hence evaluates the right-hand side behind t1. Real arithmetic (with rounding t + c dt can exceed t1 by an ulp). The nodes of all methods lie in [0, 1], which is part of the proof."
  },
  {
   "property": "C116",
   "status": "partial",
   "theorems": [
    "Verif.C116_lines_partial",
    "Verif.C116_refuted"
   ],
   "note": "The claim is false (C116_refuted: two seconds are reported as 0.2 s). C116_lines_partial determines unit, times and percentages for every list of timings; the numbers in ms and all percentages are right."
  },
  {
   "property": "C117",
   "status": "partial",
   "theorems": [
    "Verif.C117_walk_ub",
    "Verif.C117_print_partial",
    "Verif.C117_refuted",
    "Verif.C117_increment"
   ],
   "note": "The claim is false (C117_refuted); C117_walk_ub: any use of the iterators is undefined, for every buffer; C117_print_partial: what print_internal_state shows."
  },
  {
   "property": "C118",
   "status": "partial",
   "theorems": [
    "Verif.C118_outcome",
    "Verif.C118_refuted",
    "Verif.C118_printed"
   ],
   "note": "The claim is false (C118_refuted); C118_outcome determines the outcome for all argument lists, including the printing of the tableau, which never reads outside the matrices."
  },
  {
   "property": "C119",
   "status": "partial",
   "theorems": [
    "Verif.C119_ub",
    "Verif.C119_status",
    "Verif.C119_refuted"
   ],
   "note": "The claim is false (C119_refuted). C119_ub: never a defined result. C119_status: exactly when the combined status is 0."
  },
  {
   "property": "C120",
   "status": "proved",
   "theorems": [
    "Verif.C120_explicit",
    "Verif.C120_implicit",
    "Verif.C120_print_erk",
    "Verif.C120_fixed_width",
    "Verif.C120_user",
    "Verif.C120_print_exact"
   ],
   "note": "All parts proved; C120_print_erk holds for every arithmetic."
  },
  {
   "property": "C121",
   "status": "proved",
   "theorems": [
    "Verif.C121_erk",
    "Verif.C121_irk",
    "Verif.C121_erk_returns",
    "Verif.C121_irk_returns",
    "Verif.C121_erk_counting",
    "Verif.C121_irk_counting",
    "Verif.C121_erk_exceptions",
    "Verif.C121_irk_exceptions"
   ],
   "note": "A second transcription of both integrators with effects (Verif.Effects), related to the first one. The pure theorems carry over to such functors."
  },
  {
   "property": "C122",
   "status": "partial",
   "theorems": [
    "Verif.C122_adams_bashforth_partial",
    "Verif.C122_bdf_partial",
    "Verif.C122_bdf_state_partial",
    "Verif.C122_newton",
    "Verif.C122_refuted"
   ],
   "note": "The claim is false (C122_refuted: ten steps of bdf that a counting functor does not see). C122_bdf_partial and C122_bdf_state_partial say what happens instead; C122_adams_bashforth_partial and C122_newton hold in full."
  },
  {
   "property": "C123",
   "status": "proved",
   "theorems": [
    "Verif.C123_erk",
    "Verif.C123_irk"
   ],
   "note": "Hoare triples over the effectful model of C121; example with a functor whose answers change after the first call."
  },
  {
   "property": "C124",
   "status": "proved",
   "theorems": [
    "Verif.C124_erk_max_steps",
    "Verif.C124_erk_fixed",
    "Verif.C124_erk_output",
    "Verif.C124_irk_max_steps",
    "Verif.C124_irk_output"
   ],
   "note": "Relational: two-run properties (non-interference of the options). Examples are runs in binary64, evaluated by the kernel."
  },
  {
   "property": "C125",
   "status": "proved",
   "theorems": [
    "Verif.C125_values",
    "Verif.C125_horizon",
    "Verif.C125_restart"
   ],
   "note": "For the first-same-as-last methods this says that starting afresh with f(t1, y1) and continuing with the cached last stage are the same."
  },
  {
   "property": "C126",
   "status": "partial",
   "theorems": [
    "Verif.C126_refuted",
    "Verif.C126_tenth",
    "Verif.C126_adams_bashforth_partial",
    "Verif.C126_bdf_partial",
    "Verif.C126_exact",
    "Verif.C126_ab_returns",
    "Verif.C126_bdf_returns",
    "Verif.C126_stalls"
   ],
   "note": "The claim that the number of steps is the intended one is refuted by the step 0.1; the loop neither shortens the last step nor computes the times as multiples."
  },
  {
   "property": "C127",
   "status": "proved",
   "theorems": [
    "Verif.C127_convergence",
    "Verif.C127_perturbed",
    "Verif.C127_returns",
    "Verif.C127_runs",
    "Verif.C127_example"
   ],
   "note": ""
  },
  {
   "property": "C128",
   "status": "proved",
   "theorems": [
    "Verif.C128_convergence",
    "Verif.C128_perturbed",
    "Verif.C128_example"
   ],
   "note": ""
  },
  {
   "property": "C129",
   "status": "proved",
   "theorems": [
    "Verif.C129_convergence",
    "Verif.C129_perturbed"
   ],
   "note": "The step sizes are a hypothesis on the run (StepsWithin). It is proved from max_dt in exact arithmetic."
  },
  {
   "property": "C130",
   "status": "proved",
   "theorems": [
    "Verif.C130_times_monotone",
    "Verif.C130_steps",
    "Verif.C130_convergence"
   ],
   "note": "pow is a parameter of the model; what is assumed about it is stated."
  },
  {
   "property": "C131",
   "status": "proved",
   "theorems": [
    "Verif.C131_loss",
    "Verif.C131_factor",
    "Verif.C131_decreases",
    "Verif.C131_total",
    "Verif.C131_max_dt"
   ],
   "note": "Real arithmetic and exact, sound linear algebra. IMPLICIT_EULER has no embedded weights and is not among the methods for which complete runs are shown to exist (C67). Factor and total bound are stated for runs that record every step."
  },
  {
   "property": "C132",
   "status": "proved",
   "theorems": [
    "Verif.C132_implicit",
    "Verif.C132_explicit",
    "Verif.C132_sums_irk",
    "Verif.C132_sums_erk"
   ],
   "note": "The interpolation matrices are not included. It makes C130_convergence hold for all five runnable implicit methods."
  },
  {
   "property": "C133",
   "status": "proved",
   "theorems": [
    "Verif.C133_equations",
    "Verif.C133_rhs",
    "Verif.C133_jac",
    "Verif.C133_explicit",
    "Verif.C133_adaptive",
    "Verif.C133_adams_bashforth",
    "Verif.C133_bdf",
    "Verif.C133_implicit"
   ],
   "note": "The constants are not explicit.  three_body has square roots and quotients of unknowns and is not covered."
  },
  {
   "property": "C134",
   "status": "proved",
   "theorems": [
    "Verif.C134_drift",
    "Verif.C134_mass",
    "Verif.C134_sharp",
    "Verif.C134_adams_bashforth",
    "Verif.C134_mass_adams_bashforth"
   ],
   "note": "The constants are not explicit.  Implicit runs are not covered: there w.y also changes with the errors of the linear solver."
  },
  {
   "property": "C135",
   "status": "proved",
   "theorems": [
    "Verif.C135_stability",
    "Verif.C135_fixed",
    "Verif.C135_euler",
    "Verif.C135_euler_run"
   ],
   "note": "Exact arithmetic.  The constants k are upper bounds computed from the absolute values of the coefficients and are not sharp."
  },
  {
   "property": "C136",
   "status": "proved",
   "theorems": [
    "Verif.C136_positive",
    "Verif.C136_run",
    "Verif.C136_rober",
    "Verif.C136_dimer",
    "Verif.C136_kinetic4",
    "Verif.C136_negative"
   ],
   "note": "Exact arithmetic; EULER only.  The limits are sufficient, their sharpness is not claimed."
  },
  {
   "property": "C137",
   "status": "proved",
   "theorems": [
    "Verif.C137_same",
    "Verif.C137_returns"
   ],
   "note": "Exact arithmetic; in binary64 the two loops round differently (C126)."
  },
  {
   "property": "C138",
   "status": "proved",
   "theorems": [
    "Verif.C138_step",
    "Verif.C138_exact",
    "Verif.C138_sharp",
    "Verif.C138_estimate",
    "Verif.C138_completes"
   ],
   "note": "Exact arithmetic."
  },
  {
   "property": "C139",
   "status": "proved",
   "theorems": [
    "Verif.C139_runs",
    "Verif.C139_fixed"
   ],
   "note": "Exact arithmetic. Adaptive runs choose their steps by the norm of the estimate and record different times in general."
  },
  {
   "property": "C140",
   "status": "proved",
   "theorems": [
    "Verif.C140_comparison",
    "Verif.C140_bounds"
   ],
   "note": "Exact arithmetic, max_steps < 0."
  }
 ]
}