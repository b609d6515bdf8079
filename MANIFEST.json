{
 "claims": [
  {
   "property": "C01",
   "status": "proved",
   "theorems": [
    "Verif.C01_add",
    "Verif.C01_add_scalar",
    "Verif.C01_scalar_add",
    "Verif.C01_sub",
    "Verif.C01_sub_scalar",
    "Verif.C01_scalar_sub",
    "Verif.C01_neg"
   ],
   "note": "Exact-arithmetic values over any field (Option K); constants, flattening and folding as in the code."
  },
  {
   "property": "C02",
   "status": "proved",
   "theorems": [
    "Verif.C02_mul",
    "Verif.C02_mul_scalar",
    "Verif.C02_scalar_mul",
    "Verif.C02_div",
    "Verif.C02_div_scalar",
    "Verif.C02_scalar_div",
    "Verif.C02_mul_exact",
    "Verif.C02_div_exact",
    "Verif.C02_scalar_exact",
    "Verif.C02_trig"
   ],
   "note": "Exact-arithmetic values; zero absorption stated explicitly."
  },
  {
   "property": "C03",
   "status": "partial",
   "theorems": [
    "Verif.C03_mul_total_partial",
    "Verif.C03_add_panics_iff",
    "Verif.C03_add_nonconst_total_partial",
    "Verif.C03_counterexample"
   ],
   "note": "False as stated: (x+5)-5 panics in FunctionAdd::new (C03_counterexample). Proved: exact condition for the panic of + and -, totality of * and of + - when constants do not cancel."
  },
  {
   "property": "C04",
   "status": "proved",
   "theorems": [
    "Verif.C04_div",
    "Verif.C04_div_scalar",
    "Verif.C04_scalar_div"
   ],
   "note": ""
  },
  {
   "property": "C05",
   "status": "proved",
   "theorems": [
    "Verif.C05_identity",
    "Verif.C05_fresh"
   ],
   "note": ""
  },
  {
   "property": "C06",
   "status": "proved",
   "theorems": [
    "Verif.C06_agree",
    "Verif.C06_missing",
    "Verif.C06_missing_double"
   ],
   "note": "C06_agree for all scalars; C06_missing for exact numbers, C06_missing_double in double precision (for C libraries in which sin and cos of NaN are NaN)."
  },
  {
   "property": "C07",
   "status": "partial",
   "theorems": [
    "Verif.C07_derivative_partial",
    "Verif.C07_exact",
    "Verif.C07_only_panic",
    "Verif.C07_counterexample"
   ],
   "note": "False as stated for self-quotients x/x (C07_counterexample). Proved for every API-built expression in which no quotient has the same node as numerator and denominator. C07_exact says exactly what is returned for every expression, self-quotients included: the rules of calculus, except that a quotient of a node by itself contributes 2a'/a."
  },
  {
   "property": "C08",
   "status": "proved",
   "theorems": [
    "Verif.C08_absent"
   ],
   "note": ""
  },
  {
   "property": "C09",
   "status": "proved",
   "theorems": [
    "Verif.C09_batch",
    "Verif.C09_order_independent",
    "Verif.C09_returns",
    "Verif.C09_panics"
   ],
   "note": ""
  },
  {
   "property": "C10",
   "status": "proved",
   "theorems": [
    "Verif.C10_paths"
   ],
   "note": ""
  },
  {
   "property": "C11",
   "status": "proved",
   "theorems": [
    "Verif.C11_variable_expected"
   ],
   "note": ""
  },
  {
   "property": "C12",
   "status": "proved",
   "theorems": [
    "Verif.C12_keys",
    "Verif.C12_order_independent"
   ],
   "note": ""
  },
  {
   "property": "C13",
   "status": "partial",
   "theorems": [
    "Verif.C13_affine_exact_partial",
    "Verif.C13_counterexample"
   ],
   "note": "False for nodes built with the raw constructors (C13_counterexample: FunctionMul::new(x, FunctionCos::new(3)) is reported affine with coefficient 3). Proved for every expression built with the operators."
  },
  {
   "property": "C14",
   "status": "proved",
   "theorems": [
    "Verif.C14_linear"
   ],
   "note": ""
  },
  {
   "property": "C15",
   "status": "partial",
   "theorems": [
    "Verif.C15_counterexample",
    "Verif.C15_complete",
    "Verif.C15_exact",
    "Verif.C15_gradient_partial",
    "Verif.C15_only_panic"
   ],
   "note": "Values of the gradient entries: as C07, false for self-quotients x/x; proved for every other operator-built expression. Completeness and panics proved without restriction. C15_exact says what the entries are for every operator-built expression, self-quotients included. C15_counterexample: x/x."
  },
  {
   "property": "C16",
   "status": "partial",
   "theorems": [
    "Verif.C16_counterexample",
    "Verif.C16_hessian_partial"
   ],
   "note": "As C07 and C15: proved for every operator-built expression without self-quotients. C16_counterexample: x/x."
  },
  {
   "property": "C17",
   "status": "proved",
   "theorems": [
    "Verif.C17_reader_unique",
    "Verif.C17_expression",
    "Verif.C17_constraint"
   ],
   "note": "Exact arithmetic; numbers are assumed to print as words that read back as themselves (the claim about Display of f64), and names must be words that are not numbers; the reader is in Spec/Reader."
  },
  {
   "property": "C18",
   "status": "proved",
   "theorems": [
    "Verif.C18_distance",
    "Verif.C18_zero_iff",
    "Verif.C18_nonneg",
    "Verif.C18_missing"
   ],
   "note": ""
  },
  {
   "property": "C19",
   "status": "proved",
   "theorems": [
    "Verif.C19_node_node",
    "Verif.C19_node_scalar",
    "Verif.C19_scalar_node",
    "Verif.C19_identity",
    "Verif.C19_adds"
   ],
   "note": ""
  },
  {
   "property": "C20",
   "status": "proved",
   "theorems": [
    "Verif.C20_one",
    "Verif.C20_class"
   ],
   "note": ""
  },
  {
   "property": "C21",
   "status": "proved",
   "theorems": [
    "Verif.C21_exact",
    "Verif.C21_slack"
   ],
   "note": ""
  },
  {
   "property": "C22",
   "status": "proved",
   "theorems": [
    "Verif.C22_bijection",
    "Verif.C22_variables",
    "Verif.C22_slacks",
    "Verif.C22_rows"
   ],
   "note": ""
  },
  {
   "property": "C23",
   "status": "proved",
   "theorems": [
    "Verif.C23_total",
    "Verif.C23_components"
   ],
   "note": ""
  },
  {
   "property": "C24",
   "status": "proved",
   "theorems": [
    "Verif.C24_class"
   ],
   "note": ""
  },
  {
   "property": "C25",
   "status": "proved",
   "theorems": [
    "Verif.C25_feasible",
    "Verif.C25_nan_bound"
   ],
   "note": ""
  },
  {
   "property": "C26",
   "status": "proved",
   "theorems": [
    "Verif.C26_nonlinear",
    "Verif.C26_linear"
   ],
   "note": "Linear classes up to the dropped constant; see theorem statement."
  },
  {
   "property": "C27",
   "status": "proved",
   "theorems": [
    "Verif.C27_upper",
    "Verif.C27_lower",
    "Verif.C27_slack",
    "Verif.C27_meaning",
    "Verif.C27_simple"
   ],
   "note": ""
  },
  {
   "property": "C28",
   "status": "partial",
   "theorems": [
    "Verif.C28_history",
    "Verif.C28_values",
    "Verif.C28_objective_partial",
    "Verif.C28_rows_partial",
    "Verif.C28_counterexample"
   ],
   "note": "Derivatives proved for every model without self-quotients x/x (false otherwise, see C07_counterexample); values and history independence without restriction. C28_counterexample: minimize x/x."
  },
  {
   "property": "C29",
   "status": "proved",
   "theorems": [
    "Verif.C29_start",
    "Verif.C29_last",
    "Verif.C29_never"
   ],
   "note": ""
  },
  {
   "property": "C30",
   "status": "proved",
   "theorems": [
    "Verif.C30_call",
    "Verif.C30_nothing",
    "Verif.C30_last"
   ],
   "note": ""
  },
  {
   "property": "C31",
   "status": "proved",
   "theorems": [
    "Verif.C31_primals"
   ],
   "note": ""
  },
  {
   "property": "C32",
   "status": "partial",
   "theorems": [
    "Verif.C32_duals_partial",
    "Verif.C32_tightest",
    "Verif.C32_dominated"
   ],
   "note": "False as stated: a bound that is not the tightest (or NaN, or beyond 1e8) gets no dual (C32_dominated). Proved: exact description of the dual of every constraint, and a dual for every equality, every inequality with a row and every strictly tightest bound."
  },
  {
   "property": "C33",
   "status": "proved",
   "theorems": [
    "Verif.C33_feasible"
   ],
   "note": "Exact arithmetic; hypothesis: each constraint has a value somewhere (needed, C25_nan_bound)."
  },
  {
   "property": "C34",
   "status": "proved",
   "theorems": [
    "Verif.C34_optimal",
    "Verif.C34_infeasible"
   ],
   "note": "Exact arithmetic; minimiser of the standard problem in the sense of Spec/Feasible."
  },
  {
   "property": "C35",
   "status": "proved",
   "theorems": [
    "Verif.C35_new",
    "Verif.C35_iteration",
    "Verif.C35_for_loop",
    "Verif.C35_built"
   ],
   "note": ""
  },
  {
   "property": "C36",
   "status": "proved",
   "theorems": [
    "Verif.C36_to_csr",
    "Verif.C36_panic"
   ],
   "note": ""
  },
  {
   "property": "C37",
   "status": "proved",
   "theorems": [
    "Verif.C37_to_csr_dense"
   ],
   "note": ""
  },
  {
   "property": "C38",
   "status": "proved",
   "theorems": [
    "Verif.C38_sum_duplicates"
   ],
   "note": ""
  },
  {
   "property": "C39",
   "status": "proved",
   "theorems": [
    "Verif.C39_dense_idempotent"
   ],
   "note": ""
  },
  {
   "property": "C40",
   "status": "proved",
   "theorems": [
    "Verif.C40_mul",
    "Verif.C40_mul_dense"
   ],
   "note": ""
  },
  {
   "property": "C41",
   "status": "partial",
   "theorems": [
    "Verif.C41_minlp_partial",
    "Verif.C41_nlp_partial",
    "Verif.C41_milp_partial",
    "Verif.C41_lp_partial",
    "Verif.C41_counterexample_x0",
    "Verif.C41_counterexample_c"
   ],
   "note": "False as stated: no constructor compares the length of x0, ProblemMilp::new does not compare the length of c (C41_counterexample_x0, C41_counterexample_c). Everything else is checked exactly."
  },
  {
   "property": "C42",
   "status": "proved",
   "theorems": [
    "Verif.C42_combine",
    "Verif.C42_combine_dense"
   ],
   "note": ""
  },
  {
   "property": "C43",
   "status": "proved",
   "theorems": [
    "Verif.C43_views",
    "Verif.C43_objective"
   ],
   "note": ""
  },
  {
   "property": "C44",
   "status": "proved",
   "theorems": [
    "Verif.C44_text",
    "Verif.C44_problem",
    "Verif.C44_not_a_number"
   ],
   "note": "Exact arithmetic, finite coefficients (others are left out, C44_not_a_number); reader of the LP format in Spec/LpFormat; {:.10e} is any printing whose words read back as the rounded number; c must have one entry per column (C41: not checked by the constructor)."
  },
  {
   "property": "C45",
   "status": "proved",
   "theorems": [
    "Verif.C45_call",
    "Verif.C45_history",
    "Verif.C45_solvers"
   ],
   "note": "For any parameter map; instances for the three solvers."
  },
  {
   "property": "C46",
   "status": "proved",
   "theorems": [
    "Verif.C46_clp",
    "Verif.C46_cbc",
    "Verif.C46_accepts",
    "Verif.C46_ipopt",
    "Verif.C46_ipopt_accepts"
   ],
   "note": "C46_clp, C46_cbc, C46_ipopt: for every problem of a class that the solver does not support, solve returns the error, the directory (Clp, Cbc) or the problem and the number of live native problems (Ipopt) are as before, for every behaviour of the environment. C46_accepts, C46_ipopt_accepts: supported classes are not refused."
  },
  {
   "property": "C47",
   "status": "proved",
   "theorems": [
    "Verif.C47_words",
    "Verif.C47_solution",
    "Verif.C47_text",
    "Verif.C47_dims",
    "Verif.C47_parts"
   ],
   "note": "C47_solution: a file whose first word is the optimal word and that lists variables and rows (each once, any order): the solution has the listed values, multipliers, positive/negated parts of reduced costs, zero elsewhere. C47_text relates the characters of the file to its lines. C47_dims: dimensions for every file. C47_parts: pi and mu are positive and negative part (exact arithmetic). C49_solve ties it to solve. str::parse::<f64> is the parameter parseF."
  },
  {
   "property": "C48",
   "status": "partial",
   "theorems": [
    "Verif.C48_no_panic_partial",
    "Verif.C48_panic",
    "Verif.C48_error",
    "Verif.C48_counterexample"
   ],
   "note": "False of the code: C48_counterexample (a line naming x_99 of a 2-variable problem makes read_sol_file panic). Exact characterisation in terms of a separate grammar of lines (Spec/SolFile): C48_panic (panics iff a line names an index outside the problem before any malformed line), C48_error (error iff a malformed line comes first), C48_no_panic_partial."
  },
  {
   "property": "C49",
   "status": "proved",
   "theorems": [
    "Verif.C49_solve",
    "Verif.C49_status",
    "Verif.C49_not_solved"
   ],
   "note": "C49_status (iff for each status, zeros unless solved), C49_not_solved (missing, empty and other files: which status), C49_solve (what Clp/Cbc return is what the file left by the command says)."
  },
  {
   "property": "C50",
   "status": "proved",
   "theorems": [
    "Verif.C50_no_files",
    "Verif.C50_failed_removal",
    "Verif.C50_user_file",
    "Verif.C50_counterexample"
   ],
   "note": "C50_no_files for solvers whose parameters are changed with set_param; any behaviour of the command, of file creation and of file removal. Assumed: solve returns (C48 shows when reading panics). C50_counterexample: with logLevel removed or retyped through get_params_mut the input file stays. C50_user_file: the names are unique in the directory for temporary files, but used in the working directory, where a file of the user with such a name is lost."
  },
  {
   "property": "C51",
   "status": "partial",
   "theorems": [
    "Verif.C51_answers",
    "Verif.C51_pattern_partial",
    "Verif.C51_counterexample",
    "Verif.C51_model",
    "Verif.C51_constructed",
    "Verif.C51_counterexample_model"
   ],
   "note": "C51_answers proves the values for every sequence of callbacks that obeys the new_x protocol (values right for objective, gradient, constraints, Jacobian, no panic); C51_model shows that every standard problem of a reachable model meets its hypotheses, C51_constructed every Nlp built by the constructor. The sparsity half is false of the code: eval_jac_g_cb announces the rows of J without adding the number of linear constraints (C51_counterexample for every problem with both kinds, C51_counterexample_model on a model); C51_pattern_partial covers all other problems."
  },
  {
   "property": "C52",
   "status": "partial",
   "theorems": [
    "Verif.C52_hessian_partial",
    "Verif.C52_pattern",
    "Verif.C52_counterexample",
    "Verif.C52_counterexample_silent"
   ],
   "note": "C52_hessian_partial: right values for every sequence obeying the protocol, if the request announces new multipliers; C52_pattern: the announced positions are right for every request. False of the code for requests without new_lambda (C52_counterexample: stale combined Hessian; C52_counterexample_silent: TRUE with nothing written), so the restriction cannot be removed."
  },
  {
   "property": "C53",
   "status": "partial",
   "theorems": [
    "Verif.C53_refuses_partial",
    "Verif.C53_writes_nothing",
    "Verif.C53_counterexample"
   ],
   "note": "C53_writes_nothing: every inconsistent request returns FALSE and writes nothing. C53_refuses_partial: and does not evaluate the problem, except for one request (Hessian values at a new point with null new multipliers), for which it is false of the code: C53_counterexample."
  },
  {
   "property": "C54",
   "status": "partial",
   "theorems": [
    "Verif.C54_result",
    "Verif.C54_released_partial",
    "Verif.C54_solved_released",
    "Verif.C54_counterexample",
    "Verif.C54_counterexample_params",
    "Verif.C54_returns"
   ],
   "note": "C54_result: dimensions, signs and status for every native result; C54_solved_released, C54_released_partial: the native problem is released when a solution is returned, and always if the library accepts the options; C54_returns: solve returns for every native solver that obeys the protocol. Release is false of the code on the error paths of options and parameters: C54_counterexample (reachable by set_param), C54_counterexample_params."
  },
  {
   "property": "C55",
   "status": "proved",
   "theorems": [
    "Verif.C55_fits",
    "Verif.C55_cmd",
    "Verif.C55_ipopt"
   ],
   "note": "C55_fits (any solver whose solution has the dimensions of the problem), C55_cmd (Clp, Cbc: any file system, any command), C55_ipopt (any native library)."
  },
  {
   "property": "C56",
   "status": "proved",
   "theorems": [
    "Verif.C56_model"
   ],
   "note": "The text of `fmt` of a model is read back by an independent reader (Spec/ModelReader) to the objective sense, the objective and the constraints with their labels and relations; numbers printed with `{}` are trusted to be readable."
  },
  {
   "property": "C57",
   "status": "proved",
   "theorems": [
    "Verif.C57_optimal",
    "Verif.C57_infeasible"
   ],
   "note": "Clp and Cbc end to end: model -> standard problem -> LP text -> any external command that is correct about its input file -> solution file -> final primals. Hypotheses: exact arithmetic, the numbers of the problem survive printing (eleven digits), the two temporary names differ, dimensions below 2^64."
  },
  {
   "property": "C58",
   "status": "partial",
   "theorems": [
    "Verif.C58_feasible",
    "Verif.C58_optimal_partial",
    "Verif.C58_infeasible_partial",
    "Verif.C58_counterexample"
   ],
   "note": "C58_feasible: full for the constraints, for every model. C58_optimal_partial and C58_infeasible_partial: optimality and infeasibility for models with linear or nonlinear rows only. Missing: models with both, because the pattern of the Jacobian is announced with wrong rows (C51): C58_counterexample gives a library that is right given truthful answers and a model for which Solved is reported with primals that violate a constraint."
  },
  {
   "property": "C59",
   "status": "proved",
   "theorems": [
    "Verif.C59_kkt"
   ],
   "note": "C59_kkt: over the reals, from KKT of the standard problem (Minlp.Kkt, with the gradient and Jacobian that evaluating the problem delivers) to KKT of the model (Model.KktAt, with derivatives in the sense of Mathlib). Constraints without a reported dual (dominated bounds, C32) count as 0. Strictly inside the box because the multipliers of the 1e8 box belong to no constraint."
  },
  {
   "property": "C60",
   "status": "proved",
   "theorems": [
    "Verif.C60_convex",
    "Verif.C60_linear"
   ],
   "note": "C60_convex: convexity is asked for only on the segment from the reported values to the assignment compared with (Model.ConvexBetween, with Mathlib's ConvexOn); the proof restricts Model.KktAt (C59) to that segment by the chain rule. C60_linear: if the standard problem is an Lp or Milp no convexity hypothesis is needed: objective and constraints are affine (affine_mix)."
  },
  {
   "property": "C61",
   "status": "proved",
   "theorems": [
    "Verif.C61_columns",
    "Verif.C61_order",
    "Verif.C61_data",
    "Verif.C61_objective",
    "Verif.C61_values",
    "Verif.C61_derivatives",
    "Verif.C61_same_names"
   ],
   "note": "C61_columns needs no hypothesis. C61_order, C61_data, C61_objective (bit for bit) and C61_values, C61_derivatives (exact arithmetic: the order of the terms of a sum can change rounding) need distinct column names; C61_same_names shows that with two variables of the same name the cost vector depends on the order. The two calls may also be made at different times (n1, n2)."
  },
  {
   "property": "C62",
   "status": "proved",
   "theorems": [
    "Verif.C62_duals",
    "Verif.C62_optimal"
   ],
   "note": "Real numbers. Hypotheses: no self-quotients (C07), no constraint added twice, some admissible assignment with an objective value, result strictly inside the box, numbers that survive printing. Constraints without a reported dual (C32) count as dual 0. Non-vacuity: minimise x subject to x >= 0, x == 0 run through files, with duals 2 and -1."
  },
  {
   "property": "C63",
   "status": "partial",
   "theorems": [
    "Verif.C63_duals_partial",
    "Verif.C63_optimal_partial"
   ],
   "note": "Real numbers. Proved for models without linear rows or without nonlinear rows. Missing, and false of the code: models with both kinds of rows, whose Jacobian pattern is told wrongly (C51, C58_counterexample). Other hypotheses: no self-quotients (C07), no constraint added twice, values strictly inside the box. Non-vacuity: minimise x subject to x >= 0, x == 0, with a library that reports lambda = -1/3 and z_L = 2/3; the duals are 1/3 and 2/3."
  },
  {
   "property": "C64",
   "status": "proved",
   "theorems": [
    "Verif.C64_error",
    "Verif.C64_gamma",
    "Verif.C64_exact",
    "Verif.C64_two_ways",
    "Verif.C64_violation"
   ],
   "note": "Real numbers with an arbitrary arithmetic of relative error u per operation (FlArith); k and m are given by the rules of Writes (Spec/Rounding.lean). Outside the standard model and so not covered: overflow, underflow, the infinities. A divisor must have a condition number kappa with (1+u)^(kappa*k) <= 3/2. Derivatives are not covered."
  },
  {
   "property": "C65",
   "status": "proved",
   "theorems": [
    "Verif.C65_violation",
    "Verif.C65_zero",
    "Verif.C65_feasible",
    "Verif.C65_point",
    "Verif.C65_optimal"
   ],
   "note": "Exact arithmetic over any ordered field; every constraint must have a value somewhere (NaN bounds are ignored, see C25). The tolerances delta (rows), epsilon (bounds), eta (integrality) and gamma (objective) are arbitrary; the bound delta + epsilon is attained (example)."
  },
  {
   "property": "C66",
   "status": "proved",
   "theorems": [
    "Verif.C66_contents",
    "Verif.C66_handles"
   ],
   "note": "For every scalar type and every solver. One model at a time: a program with several models is several programs (models share nothing but the counter of cells)."
  },
  {
   "property": "C67",
   "status": "proved",
   "theorems": [
    "Verif.C67_feasible",
    "Verif.C67_relative"
   ],
   "note": "Exact arithmetic over any ordered field for the program and the command; rounding happens in the file. Some assignment must be admissible and give the objective a value (then all coefficients are numbers). Sizes up to 2^64, distinct temporary names as in C57. Optimality is not covered: rounding can change the optimum."
  },
  {
   "property": "C68",
   "status": "proved",
   "theorems": [
    "Verif.C68_format",
    "Verif.C68_shape",
    "Verif.C68_special",
    "Verif.C68_optimal",
    "Verif.C68_feasible"
   ],
   "note": "Model of the format {:.10e} of core::fmt (Code/Sci: correctly rounded, ties to even), for every ordered field with a floor (in particular the rationals, of which the finite f64 are a part). The sign of -0.0 and infinities are not modelled; not-a-number is skipped by the writer (C44)."
  },
  {
   "property": "C69",
   "status": "proved",
   "theorems": [
    "Verif.C69_near_optimal",
    "Verif.C69_linear"
   ],
   "note": "Weak duality with explicit error terms; C69_linear needs neither convexity nor signs as hypotheses. That a given solver meets the tolerances is a hypothesis (solvers are arbitrary functions in the model)."
  },
  {
   "property": "C70",
   "status": "partial",
   "theorems": [
    "Verif.C70_feasible",
    "Verif.C70_near_optimal_partial"
   ],
   "note": "C70_feasible is complete. Near-optimality is proved for models that do not have both linear and nonlinear rows; for others it is false of the code: the pattern of the Jacobian handed to Ipopt is wrong (C51_counterexample, C58_counterexample)."
  },
  {
   "property": "C71",
   "status": "proved",
   "theorems": [
    "Verif.C71_coefficients",
    "Verif.C71_constant",
    "Verif.C71_exact",
    "Verif.C71_function",
    "Verif.C71_gradient",
    "Verif.C71_constraint"
   ],
   "note": "For the standard model of floating point arithmetic (no overflow or underflow), as C64."
  },
  {
   "property": "C72",
   "status": "proved",
   "theorems": [
    "Verif.C72_feasible",
    "Verif.C72_linear",
    "Verif.C72_point",
    "Verif.C72_optimal"
   ],
   "note": "For the standard model of floating point arithmetic (no overflow or underflow), as C64 and C71. The box of 1e8 that the library imposes is a hypothesis on the competing assignment."
  },
  {
   "property": "C73",
   "status": "proved",
   "theorems": [
    "Verif.C73_cmd",
    "Verif.C73_ipopt"
   ],
   "note": "For calls that return (no panic). The two file names are assumed different; they have different endings (.lp, .sol)."
  },
  {
   "property": "C74",
   "status": "proved",
   "theorems": [
    "Verif.C74_zero_iff",
    "Verif.C74_accuracy",
    "Verif.C74_exact",
    "Verif.C74_nonneg",
    "Verif.C74_inequality",
    "Verif.C74_equation",
    "Verif.C74_nan"
   ],
   "note": "For F = F64 (Spec/Binary64.lean): IEEE 754 doubles defined from the rationals; Proofs/Binary64.lean proves that every operation rounds as the standard requires (F64.ofRat_rounds). sin and cos are arbitrary functions. That an inequality with a NaN side (a variable without value) has violation 0 is finding 4."
  },
  {
   "property": "C75",
   "status": "proved",
   "theorems": [
    "Verif.C75_coefficients",
    "Verif.C75_terms",
    "Verif.C75_integers",
    "Verif.C75_gradient",
    "Verif.C75_constraint"
   ],
   "note": "For F = F64, over all programs that write linear formulas (WritesTerms, Spec/ExactData.lean). The side conditions IsDouble say that the products and sums that are written down are representable; without them the operation rounds, and C71/C72 bound the error."
  },
  {
   "property": "C76",
   "status": "proved",
   "theorems": [
    "Verif.C76_feasible",
    "Verif.C76_linear",
    "Verif.C76_point",
    "Verif.C76_optimal"
   ],
   "note": "For F = F64. The solver is any function; its tolerances are hypotheses. SaysD (Spec/ExactSolve.lean) lists the numbers that must be representable; for other formulas C72 bounds the rounding."
  },
  {
   "property": "C77",
   "status": "proved",
   "theorems": [
    "Verif.C77_exact",
    "Verif.C77_integers",
    "Verif.C77_violation",
    "Verif.C77_satisfied"
   ],
   "note": "For F = F64. Quotients and sin/cos are not in the fragment (they round). The size condition counts every part of the formula as written (Spec/ExactEval.lean, Computes)."
  },
  {
   "property": "C78",
   "status": "proved",
   "theorems": [
    "Verif.C78_operand",
    "Verif.C78_other",
    "Verif.C78_self",
    "Verif.C78_returns"
   ],
   "note": "C78_operand over the reals (Mathlib's deriv); the other theorems for all scalars."
  },
  {
   "property": "C79",
   "status": "proved",
   "theorems": [
    "Verif.C79_error",
    "Verif.C79_simple",
    "Verif.C79_finite",
    "Verif.C79_two_ways",
    "Verif.C79_violation"
   ],
   "note": "In IEEE double precision with overflow and underflow. The accuracy of sin and cos is an assumption (GoodLibm) of formulas that use them; goodLibm_good shows that it can be met."
  },
  {
   "property": "C80",
   "status": "proved",
   "theorems": [
    "Verif.C80_coefficients",
    "Verif.C80_constant",
    "Verif.C80_function",
    "Verif.C80_gradient",
    "Verif.C80_constraint"
   ],
   "note": "In IEEE double precision with overflow and underflow."
  },
  {
   "property": "C81",
   "status": "proved",
   "theorems": [
    "Verif.C81_feasible",
    "Verif.C81_linear",
    "Verif.C81_point",
    "Verif.C81_optimal"
   ],
   "note": "In IEEE double precision with overflow and underflow."
  },
  {
   "property": "C82",
   "status": "proved",
   "theorems": [
    "Verif.C82_format",
    "Verif.C82_parse",
    "Verif.C82_literal",
    "Verif.C82_text",
    "Verif.C82_feasible",
    "Verif.C82_grammar",
    "Verif.C82_refuses"
   ],
   "note": "`{:.10e}` and `str::parse::<f64>` are concrete functions on doubles here (Code/Float64.lean)."
  },
  {
   "property": "C83",
   "status": "proved",
   "theorems": [
    "Verif.C83_values",
    "Verif.C83_feasible"
   ],
   "note": "Constraints that become linear rows or bounds are the subject of C81. For derivatives in double precision see C84."
  },
  {
   "property": "C84",
   "status": "proved",
   "theorems": [
    "Verif.C84_value",
    "Verif.C84_derivative",
    "Verif.C84_simple"
   ],
   "note": "The derivative is compared with that of the function that is stored (constants as folded in double precision). Sine and cosine need a library with absolute error at most 2^-52. For what solvers are told see C86."
  },
  {
   "property": "C85",
   "status": "proved",
   "theorems": [
    "Verif.C85_flat",
    "Verif.C85_model",
    "Verif.C85_terms"
   ],
   "note": "C85_flat for expressions, C85_model for programs that build models. For programs that use the operators; the raw constructors can build sums of sums (example in Props/SumForm.lean)."
  },
  {
   "property": "C86",
   "status": "proved",
   "theorems": [
    "Verif.C86_minimize",
    "Verif.C86_maximize",
    "Verif.C86_empty",
    "Verif.C86_rows"
   ],
   "note": "First derivatives; values are the subject of C83, and second derivatives without rounding of C28. As in C84 the derivative is that of the stored function."
  },
  {
   "property": "C87",
   "status": "proved",
   "theorems": [
    "Verif.C87_sum",
    "Verif.C87_objective",
    "Verif.C87_objective_exact",
    "Verif.C87_product",
    "Verif.C87_rows",
    "Verif.C87_duplicates"
   ],
   "note": "C87_objective assumes one coefficient per variable, which ProblemMilp does not check (C41). Products that underflow count as 2^-1022."
  },
  {
   "property": "C88",
   "status": "proved",
   "theorems": [
    "Verif.C88_linear",
    "Verif.C88_nonlinear"
   ],
   "note": "Feasibility only. The promise of the library is about the doubles it is told; it is released from it only if what it is told, except the pattern of the Jacobian (wrong in the code, C51), is untrue."
  },
  {
   "property": "C89",
   "status": "proved",
   "theorems": [
    "Verif.C89_optimal"
   ],
   "note": "Continuous models of linear formulas (the Jacobian pattern of nonlinear models is wrong in the code, C51). The promise of the library is about the doubles it is told."
  },
  {
   "property": "C90",
   "status": "proved",
   "theorems": [
    "Verif.C90_panics",
    "Verif.C90_passes",
    "Verif.C90_sound"
   ],
   "note": "For f64 entries; the comparison of the crate approx is modelled as abs(a - b) <= epsilon. Equal infinities do not pass."
  },
  {
   "property": "C91",
   "status": "proved",
   "theorems": [
    "Verif.C91_exact",
    "Verif.C91_derivative",
    "Verif.C91_second"
   ],
   "note": "For F64. The polynomial and its derivatives are Mathlib's MvPolynomial and pderiv; the bound 2^53 is on the polynomial with absolute values, at the point (and its coefficients alone, where the library folds constants)."
  },
  {
   "property": "C92",
   "status": "proved",
   "theorems": [
    "Verif.C92_objective",
    "Verif.C92_rows"
   ],
   "note": "For F64. Each number is compared with the value of a Mathlib MvPolynomial or its pderiv; the bound 2^53 is on the polynomial with absolute values belonging to that number. No hypothesis about division: integer polynomials contain none."
  },
  {
   "property": "C93",
   "status": "partial",
   "theorems": [
    "Verif.C93_inside_partial",
    "Verif.C93_writes_partial",
    "Verif.C93_model",
    "Verif.C93_constructed",
    "Verif.C93_linear",
    "Verif.C93_arguments",
    "Verif.C93_counterexample"
   ],
   "note": "Proved for every problem whose evaluation function keeps the sizes of the buffers: in particular for all standard problems of models (C93_model) and linear problems (C93_linear). False otherwise (C93_counterexample): ProblemEval gets &mut Vec<f64> and &mut CooMat<f64>, so a safe evaluation function given to ProblemNlp::new can shrink the gradient (out-of-bounds read) or enlarge f, Hphi or J (out-of-bounds write): a soundness hole."
  },
  {
   "property": "C94",
   "status": "proved",
   "theorems": [
    "Verif.C94_paths",
    "Verif.C94_all_paths",
    "Verif.C94_cells",
    "Verif.C94_squarings",
    "Verif.C94_cells_above",
    "Verif.C94_node_components",
    "Verif.C94_model",
    "Verif.C94_problem",
    "Verif.C94_solve"
   ],
   "note": "C94_paths / C94_all_paths: exact count; C94_cells, C94_cells_above: lower and upper bound on the cells created; C94_node_components, C94_model, C94_problem, C94_solve: upper bounds for gradients and Hessians, the standard form, the standard problem and solve; C94_squarings: exponential in the number of squarings (for every k)."
  },
  {
   "property": "C95",
   "status": "partial",
   "theorems": [
    "Verif.C95_exact",
    "Verif.C95_terms",
    "Verif.C95_exact_batch",
    "Verif.C95_exact_solve",
    "Verif.C95_panics",
    "Verif.C95_once_partial",
    "Verif.C95_linear_partial",
    "Verif.C95_nonlinear_partial",
    "Verif.C95_counterexample",
    "Verif.C95_solve_counterexample",
    "Verif.C95_batch"
   ],
   "note": "False of the code: y*(x+5) - 5*y and 3*y + x*y + (-3)*y can be built but their derivatives by y panic in FunctionAdd::new (C95_counterexample), and so does solving a model with such an objective, whatever the solver (C95_solve_counterexample). Proved: a panic is only possible if the variable is written both with a numeric coefficient and at a place with a non-numeric factor (C95_panics); so differentiation returns if the variable is written at most once (C95_once_partial), only linearly (C95_linear_partial, the derivative is a constant) or only nonlinearly (C95_nonlinear_partial), for every scalar type in which 0 == 0. C95_batch: the same for several variables at once. C95_exact: for exact numbers, an expression without undefined numbers: differentiation panics if and only if, when the products of the partial derivatives on the ways to the places of the variable are added up, the last place first, a product with a number as a term makes the numbers cancel while there is exactly one other term (Spec/DerivForm.lean gives these products recursively on the formula, as number of terms and sum of numbers); C95_exact_batch: the same for several variables; C95_terms: the derivative that is returned has exactly these terms. C95_exact_solve: and if this is so for the nonlinear objective of a minimisation, the model has no standard form and solving it panics, whatever the solver."
  },
  {
   "property": "C96",
   "status": "partial",
   "theorems": [
    "Verif.C96_panics_partial",
    "Verif.C96_solve_partial",
    "Verif.C96_cmd_partial",
    "Verif.C96_laws_double",
    "Verif.C96_laws_exact",
    "Verif.C96_exact",
    "Verif.C96_counterexample"
   ],
   "note": "False of the code: a model with the constraint x + 5 <= 5 can be built, but solving it panics in FunctionAdd::new whatever the solver (C96_counterexample). Proved: for every scalar type with two simple laws (C96_laws_double, C96_laws_exact) a panic is only possible if some constraint compares a number with a sum of a single term and numbers (C96_panics_partial), so all other linear models are solved without panic (C96_solve_partial, C96_cmd_partial); for exact numbers the standard form panics if and only if some constraint has the form t + k <> k or k <> t + k with k not zero (C96_exact)."
  },
  {
   "property": "C97",
   "status": "proved",
   "theorems": [
    "Verif.C97_no_dangling",
    "Verif.C97_denotes",
    "Verif.C97_identity",
    "Verif.C97_constraint_identity",
    "Verif.C97_stable",
    "Verif.C97_constructors",
    "Verif.C97_no_leak",
    "Verif.C97_drop_ends"
   ],
   "note": "A model of the Rc cells with addresses and reference counts (Code/Memory.lean). C97_no_dangling, C97_denotes, C97_stable, C97_identity and C97_constraint_identity, C97_no_leak, C97_drop_ends; C97_constructors links it to Code/Node.lean and Code/Constraint.lean: with any allocator a new cell denotes what the constructor there returns, so that the numbers never used again in those files are not an assumption about the allocator."
  },
  {
   "property": "C98",
   "status": "proved",
   "theorems": [
    "Verif.C98_laws_double",
    "Verif.C98_laws_exact",
    "Verif.C98_derivatives",
    "Verif.C98_total",
    "Verif.C98_solve",
    "Verif.C98_ipopt"
   ],
   "note": "C98_derivatives (one function: first and second derivatives), C98_total (standard form), C98_solve, C98_ipopt; C98_laws_double and C98_laws_exact show that doubles and exact numbers meet the facts about signs and zeros that are used. The condition (Spec/Graded.lean) is sufficient, not necessary; it excludes sin, cos and division by expressions. C95 has a model with terms of both signs and of two degrees whose derivative panics."
  },
  {
   "property": "C99",
   "status": "proved",
   "theorems": [
    "Verif.C99_call",
    "Verif.C99_program",
    "Verif.C99_handles",
    "Verif.C99_values",
    "Verif.C99_equality",
    "Verif.C99_constraints",
    "Verif.C99_text",
    "Verif.C99_problem",
    "Verif.C99_solve",
    "Verif.C99_any_orders"
   ],
   "note": "Replay (Spec/Replay.lean) describes the two runs. C99_call and C99_program: same panics, and the worlds after the calls correspond again; C99_handles, C99_values, C99_equality, C99_constraints, C99_text, C99_problem, C99_solve: what corresponding worlds have in common; C99_any_orders: with unrelated hash orders. Each iteration over a hash map has its own position choice, so fixing the choices (Positional, SameOrders) restricts no single run."
  },
  {
   "property": "C100",
   "status": "proved",
   "theorems": [
    "Verif.C100_print",
    "Verif.C100_evaluate",
    "Verif.C100_properties",
    "Verif.C100_operators",
    "Verif.C100_sum",
    "Verif.C100_derivative",
    "Verif.C100_derivatives",
    "Verif.C100_node_components",
    "Verif.C100_model",
    "Verif.C100_model_evaluate",
    "Verif.C100_products",
    "Verif.C100_drop",
    "Verif.C100_drop_constraint",
    "Verif.C100_drop_deep",
    "Verif.C100_multiply",
    "Verif.C100_multiply_flat",
    "Verif.C100_multiply_one"
   ],
   "note": "C100_print, C100_evaluate, C100_properties: the functions with a limited number of nested calls (Code/Stack.lean) succeed exactly when the limit is at least the number of levels. C100_operators, C100_sum, C100_derivative, C100_derivatives, C100_node_components, C100_model: bounds on the levels. C100_model_evaluate: hence on the nested calls. C100_products: products need unbounded depth (finding 17). C100_drop, C100_drop_constraint: the destructor with a limited number of nested calls (Code/MemStack.lean) succeeds when the limit is at least the number of levels, and does the same as the steps of the memory model of C97. C100_drop_deep: products cannot be dropped on a small stack. The bytes of a stack frame are not modelled. C100_multiply, C100_multiply_flat: the multiplications with a limited number of nested calls are equal to the multiplications when the limit is at least the number of levels, or 2 for operands that the API made; C100_multiply_one: 1 is not enough."
  },
  {
   "property": "C101",
   "status": "proved",
   "theorems": [
    "Verif.C101_evaluate",
    "Verif.C101_operators",
    "Verif.C101_sum",
    "Verif.C101_derivative",
    "Verif.C101_derivatives",
    "Verif.C101_node_components",
    "Verif.C101_model",
    "Verif.C101_squarings"
   ],
   "note": "C101_evaluate (counted calls, Code/Cost.lean), C101_operators, C101_sum, C101_derivative, C101_derivatives, C101_node_components, C101_model (derivBound s = 1 + s (3 + 6 s^2), applied twice for Hessians), C101_squarings (the exponential gap between cells and written-out length)."
  },
  {
   "property": "C102",
   "status": "proved",
   "theorems": [
    "Verif.C102_result",
    "Verif.C102_panic",
    "Verif.C102_frame",
    "Verif.C102_finishes",
    "Verif.C102_no_files",
    "Verif.C102_counterexample"
   ],
   "note": "Small-step model of solve (Code/CmdProc.lean), refined to the function of Code/CmdSolver.lean: C102_result, C102_panic, C102_frame, C102_finishes, C102_no_files. The hypothesis that names differ is needed: C102_counterexample (the names come from temporary files that are removed before the names are used, in another directory)."
  },
  {
   "property": "C103",
   "status": "proved",
   "theorems": [
    "Verif.C103_evaluate",
    "Verif.C103_objective",
    "Verif.C103_rows",
    "Verif.C103_values",
    "Verif.C103_gradient",
    "Verif.C103_jacobian"
   ],
   "note": "C103_evaluate (callbacks = evaluate, any arithmetic), C103_objective, C103_rows (integer polynomials, exact), C103_values, C103_gradient, C103_jacobian (rounding bounds). Hessian requests are those with new multipliers, see C52; the announced rows of the Jacobian are wrong for models with linear and nonlinear rows, see C51_counterexample."
  }
 ]
}