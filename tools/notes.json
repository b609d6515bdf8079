{
 "C01": {
  "note": "Exact-arithmetic values over any field (Option K); constants, flattening and folding as in the code."
 },
 "C02": {
  "note": "Exact-arithmetic values; zero absorption stated explicitly."
 },
 "C03": {
  "status": "partial",
  "note": "False as stated: (x+5)-5 panics in FunctionAdd::new (C03_counterexample). Proved: exact condition for the panic of + and -, totality of * and of + - when constants do not cancel."
 },
 "C07": {
  "status": "partial",
  "note": "False as stated for self-quotients x/x (C07_counterexample). Proved for every API-built expression in which no quotient has the same node as numerator and denominator. C07_exact says exactly what is returned for every expression, self-quotients included: the rules of calculus, except that a quotient of a node by itself contributes 2a'/a."
 },
 "C13": {
  "status": "partial",
  "note": "False for nodes built with the raw constructors (C13_counterexample: FunctionMul::new(x, FunctionCos::new(3)) is reported affine with coefficient 3). Proved for every expression built with the operators."
 },
 "C15": {
  "status": "partial",
  "note": "Values of the gradient entries: as C07, false for self-quotients x/x; proved for every other operator-built expression. Completeness and panics proved without restriction. C15_exact says what the entries are for every operator-built expression, self-quotients included. C15_counterexample: x/x."
 },
 "C16": {
  "status": "partial",
  "note": "As C07 and C15: proved for every operator-built expression without self-quotients. C16_counterexample: x/x."
 },
 "C41": {
  "status": "partial",
  "note": "False as stated: no constructor compares the length of x0, ProblemMilp::new does not compare the length of c (C41_counterexample_x0, C41_counterexample_c). Everything else is checked exactly."
 },
 "C26": {
  "status": "proved",
  "note": "Linear classes up to the dropped constant; see theorem statement."
 },
 "C27": {
  "status": "proved",
  "note": ""
 },
 "C29": {
  "status": "proved",
  "note": ""
 },
 "C28": {
  "status": "partial",
  "note": "Derivatives proved for every model without self-quotients x/x (false otherwise, see C07_counterexample); values and history independence without restriction. C28_counterexample: minimize x/x."
 },
 "C32": {
  "status": "partial",
  "note": "False as stated: a bound that is not the tightest (or NaN, or beyond 1e8) gets no dual (C32_dominated). Proved: exact description of the dual of every constraint, and a dual for every equality, every inequality with a row and every strictly tightest bound."
 },
 "C33": {
  "status": "proved",
  "note": "Exact arithmetic; hypothesis: each constraint has a value somewhere (needed, C25_nan_bound)."
 },
 "C34": {
  "status": "proved",
  "note": "Exact arithmetic; minimiser of the standard problem in the sense of Spec/Feasible."
 },
 "C17": {
  "status": "proved",
  "note": "Exact arithmetic; numbers are assumed to print as words that read back as themselves (the claim about Display of f64), and names must be words that are not numbers; the reader is in Spec/Reader."
 },
 "C44": {
  "status": "proved",
  "note": "Exact arithmetic, finite coefficients (others are left out, C44_not_a_number); reader of the LP format in Spec/LpFormat; {:.10e} is any printing whose words read back as the rounded number; c must have one entry per column (C41: not checked by the constructor)."
 },
 "C45": {
  "status": "proved",
  "note": "For any parameter map; instances for the three solvers."
 },
 "C46": {
  "note": "C46_clp, C46_cbc, C46_ipopt: for every problem of a class that the solver does not support, solve returns the error, the directory (Clp, Cbc) or the problem and the number of live native problems (Ipopt) are as before, for every behaviour of the environment. C46_accepts, C46_ipopt_accepts: supported classes are not refused."
 },
 "C47": {
  "status": "proved",
  "note": "C47_solution: a file whose first word is the optimal word and that lists variables and rows (each once, any order): the solution has the listed values, multipliers, positive/negated parts of reduced costs, zero elsewhere. C47_text relates the characters of the file to its lines. C47_dims: dimensions for every file. C47_parts: pi and mu are positive and negative part (exact arithmetic). C49_solve ties it to solve. str::parse::<f64> is the parameter parseF."
 },
 "C48": {
  "status": "partial",
  "note": "False of the code: C48_counterexample (a line naming x_99 of a 2-variable problem makes read_sol_file panic). Exact characterisation in terms of a separate grammar of lines (Spec/SolFile): C48_panic (panics iff a line names an index outside the problem before any malformed line), C48_error (error iff a malformed line comes first), C48_no_panic_partial."
 },
 "C49": {
  "status": "proved",
  "note": "C49_status (iff for each status, zeros unless solved), C49_not_solved (missing, empty and other files: which status), C49_solve (what Clp/Cbc return is what the file left by the command says)."
 },
 "C50": {
  "status": "proved",
  "note": "C50_no_files for solvers whose parameters are changed with set_param; any behaviour of the command, of file creation and of file removal. Assumed: solve returns (C48 shows when reading panics). C50_counterexample: with logLevel removed or retyped through get_params_mut the input file stays. C50_user_file: the names are unique in the directory for temporary files, but used in the working directory, where a file of the user with such a name is lost."
 },
 "C55": {
  "note": "C55_fits (any solver whose solution has the dimensions of the problem), C55_cmd (Clp, Cbc: any file system, any command), C55_ipopt (any native library)."
 },
 "C51": {
  "status": "partial",
  "note": "C51_answers proves the values for every sequence of callbacks that obeys the new_x protocol (values right for objective, gradient, constraints, Jacobian, no panic); C51_model shows that every standard problem of a reachable model meets its hypotheses, C51_constructed every Nlp built by the constructor. The sparsity half is false of the code: eval_jac_g_cb announces the rows of J without adding the number of linear constraints (C51_counterexample for every problem with both kinds, C51_counterexample_model on a model); C51_pattern_partial covers all other problems."
 },
 "C52": {
  "status": "partial",
  "note": "C52_hessian_partial: right values for every sequence obeying the protocol, if the request announces new multipliers; C52_pattern: the announced positions are right for every request. False of the code for requests without new_lambda (C52_counterexample: stale combined Hessian; C52_counterexample_silent: TRUE with nothing written), so the restriction cannot be removed."
 },
 "C53": {
  "status": "partial",
  "note": "C53_writes_nothing: every inconsistent request returns FALSE and writes nothing. C53_refuses_partial: and does not evaluate the problem, except for one request (Hessian values at a new point with null new multipliers), for which it is false of the code: C53_counterexample."
 },
 "C54": {
  "status": "partial",
  "note": "C54_result: dimensions, signs and status for every native result; C54_solved_released, C54_released_partial: the native problem is released when a solution is returned, and always if the library accepts the options; C54_returns: solve returns for every native solver that obeys the protocol. Release is false of the code on the error paths of options and parameters: C54_counterexample (reachable by set_param), C54_counterexample_params."
 },
 "C56": {
  "note": "The text of `fmt` of a model is read back by an independent reader (Spec/ModelReader) to the objective sense, the objective and the constraints with their labels and relations; numbers printed with `{}` are trusted to be readable."
 },
 "C57": {
  "note": "Clp and Cbc end to end: model -> standard problem -> LP text -> any external command that is correct about its input file -> solution file -> final primals. Hypotheses: exact arithmetic, the numbers of the problem survive printing (eleven digits), the two temporary names differ, dimensions below 2^64."
 },
 "C58": {
  "status": "partial",
  "note": "C58_feasible: full for the constraints, for every model. C58_optimal_partial and C58_infeasible_partial: optimality and infeasibility for models with linear or nonlinear rows only. Missing: models with both, because the pattern of the Jacobian is announced with wrong rows (C51): C58_counterexample gives a library that is right given truthful answers and a model for which Solved is reported with primals that violate a constraint."
 },
 "C59": {
  "note": "C59_kkt: over the reals, from KKT of the standard problem (Minlp.Kkt, with the gradient and Jacobian that evaluating the problem delivers) to KKT of the model (Model.KktAt, with derivatives in the sense of Mathlib). Constraints without a reported dual (dominated bounds, C32) count as 0. Strictly inside the box because the multipliers of the 1e8 box belong to no constraint."
 },
 "C60": {
  "note": "C60_convex: convexity is asked for only on the segment from the reported values to the assignment compared with (Model.ConvexBetween, with Mathlib's ConvexOn); the proof restricts Model.KktAt (C59) to that segment by the chain rule. C60_linear: if the standard problem is an Lp or Milp no convexity hypothesis is needed: objective and constraints are affine (affine_mix)."
 },
 "C61": {
  "note": "C61_columns needs no hypothesis. C61_order, C61_data, C61_objective (bit for bit) and C61_values, C61_derivatives (exact arithmetic: the order of the terms of a sum can change rounding) need distinct column names; C61_same_names shows that with two variables of the same name the cost vector depends on the order. The two calls may also be made at different times (n1, n2)."
 },
 "C62": {
  "note": "Real numbers. Hypotheses: no self-quotients (C07), no constraint added twice, some admissible assignment with an objective value, result strictly inside the box, numbers that survive printing. Constraints without a reported dual (C32) count as dual 0. Non-vacuity: minimise x subject to x >= 0, x == 0 run through files, with duals 2 and -1."
 },
 "C63": {
  "status": "partial",
  "note": "Real numbers. Proved for models without linear rows or without nonlinear rows. Missing, and false of the code: models with both kinds of rows, whose Jacobian pattern is told wrongly (C51, C58_counterexample). Other hypotheses: no self-quotients (C07), no constraint added twice, values strictly inside the box. Non-vacuity: minimise x subject to x >= 0, x == 0, with a library that reports lambda = -1/3 and z_L = 2/3; the duals are 1/3 and 2/3."
 },
 "C64": {
  "status": "proved",
  "note": "Real numbers with an arbitrary arithmetic of relative error u per operation (FlArith); k and m are given by the rules of Writes (Spec/Rounding.lean). Outside the standard model and so not covered: overflow, underflow, the infinities. A divisor must have a condition number kappa with (1+u)^(kappa*k) <= 3/2. Derivatives are not covered."
 },
 "C65": {
  "status": "proved",
  "note": "Exact arithmetic over any ordered field; every constraint must have a value somewhere (NaN bounds are ignored, see C25). The tolerances delta (rows), epsilon (bounds), eta (integrality) and gamma (objective) are arbitrary; the bound delta + epsilon is attained (example)."
 },
 "C66": {
  "status": "proved",
  "note": "For every scalar type and every solver. One model at a time: a program with several models is several programs (models share nothing but the counter of cells)."
 },
 "C67": {
  "status": "proved",
  "note": "Exact arithmetic over any ordered field for the program and the command; rounding happens in the file. Some assignment must be admissible and give the objective a value (then all coefficients are numbers). Sizes up to 2^64, distinct temporary names as in C57. Optimality is not covered: rounding can change the optimum."
 },
 "C68": {
  "status": "proved",
  "note": "Model of the format {:.10e} of core::fmt (Code/Sci: correctly rounded, ties to even), for every ordered field with a floor (in particular the rationals, of which the finite f64 are a part). The sign of -0.0 and infinities are not modelled; not-a-number is skipped by the writer (C44)."
 },
 "C69": {
  "status": "proved",
  "note": "Weak duality with explicit error terms; C69_linear needs neither convexity nor signs as hypotheses. That a given solver meets the tolerances is a hypothesis (solvers are arbitrary functions in the model)."
 },
 "C70": {
  "status": "partial",
  "note": "C70_feasible is complete. Near-optimality is proved for models that do not have both linear and nonlinear rows; for others it is false of the code: the pattern of the Jacobian handed to Ipopt is wrong (C51_counterexample, C58_counterexample)."
 },
 "C71": {
  "status": "proved",
  "note": "For the standard model of floating point arithmetic (no overflow or underflow), as C64."
 },
 "C72": {
  "status": "proved",
  "note": "For the standard model of floating point arithmetic (no overflow or underflow), as C64 and C71. The box of 1e8 that the library imposes is a hypothesis on the competing assignment."
 },
 "C73": {
  "status": "proved",
  "note": "For calls that return (no panic). The two file names are assumed different; they have different endings (.lp, .sol)."
 },
 "C74": {
  "status": "proved",
  "note": "For F = F64 (Spec/Binary64.lean): IEEE 754 doubles defined from the rationals; Proofs/Binary64.lean proves that every operation rounds as the standard requires (F64.ofRat_rounds). sin and cos are arbitrary functions. That an inequality with a NaN side (a variable without value) has violation 0 is finding 4."
 },
 "C75": {
  "status": "proved",
  "note": "For F = F64, over all programs that write linear formulas (WritesTerms, Spec/ExactData.lean). The side conditions IsDouble say that the products and sums that are written down are representable; without them the operation rounds, and C71/C72 bound the error."
 },
 "C76": {
  "status": "proved",
  "note": "For F = F64. The solver is any function; its tolerances are hypotheses. SaysD (Spec/ExactSolve.lean) lists the numbers that must be representable; for other formulas C72 bounds the rounding."
 },
 "C77": {
  "status": "proved",
  "note": "For F = F64. Quotients and sin/cos are not in the fragment (they round). The size condition counts every part of the formula as written (Spec/ExactEval.lean, Computes)."
 },
 "C78": {
  "status": "proved",
  "note": "C78_operand over the reals (Mathlib's deriv); the other theorems for all scalars."
 },
 "C79": {
  "status": "proved",
  "note": "In IEEE double precision with overflow and underflow. The accuracy of sin and cos is an assumption (GoodLibm) of formulas that use them; goodLibm_good shows that it can be met."
 },
 "C80": {
  "status": "proved",
  "note": "In IEEE double precision with overflow and underflow."
 },
 "C81": {
  "status": "proved",
  "note": "In IEEE double precision with overflow and underflow."
 },
 "C82": {
  "status": "proved",
  "note": "`{:.10e}` and `str::parse::<f64>` are concrete functions on doubles here (Code/Float64.lean)."
 },
 "C83": {
  "status": "proved",
  "note": "Constraints that become linear rows or bounds are the subject of C81. For derivatives in double precision see C84."
 },
 "C84": {
  "status": "proved",
  "note": "The derivative is compared with that of the function that is stored (constants as folded in double precision). Sine and cosine need a library with absolute error at most 2^-52. For what solvers are told see C86."
 },
 "C85": {
  "status": "proved",
  "note": "C85_flat for expressions, C85_model for programs that build models. For programs that use the operators; the raw constructors can build sums of sums (example in Props/SumForm.lean)."
 },
 "C86": {
  "status": "proved",
  "note": "First derivatives; values are the subject of C83, and second derivatives without rounding of C28. As in C84 the derivative is that of the stored function."
 },
 "C87": {
  "status": "proved",
  "note": "C87_objective assumes one coefficient per variable, which ProblemMilp does not check (C41). Products that underflow count as 2^-1022."
 },
 "C88": {
  "status": "proved",
  "note": "Feasibility only. The promise of the library is about the doubles it is told; it is released from it only if what it is told, except the pattern of the Jacobian (wrong in the code, C51), is untrue."
 },
 "C89": {
  "status": "proved",
  "note": "Continuous models of linear formulas (the Jacobian pattern of nonlinear models is wrong in the code, C51). The promise of the library is about the doubles it is told."
 },
 "C90": {
  "status": "proved",
  "note": "For f64 entries; the comparison of the crate approx is modelled as abs(a - b) <= epsilon. Equal infinities do not pass."
 },
 "C91": {
  "status": "proved",
  "note": "For F64. The polynomial and its derivatives are Mathlib's MvPolynomial and pderiv; the bound 2^53 is on the polynomial with absolute values, at the point (and its coefficients alone, where the library folds constants)."
 },
 "C92": {
  "status": "proved",
  "note": "For F64. Each number is compared with the value of a Mathlib MvPolynomial or its pderiv; the bound 2^53 is on the polynomial with absolute values belonging to that number. No hypothesis about division: integer polynomials contain none."
 },
 "C93": {
  "status": "partial",
  "note": "Proved for every problem whose evaluation function keeps the sizes of the buffers: in particular for all standard problems of models (C93_model) and linear problems (C93_linear). False otherwise (C93_counterexample): ProblemEval gets &mut Vec<f64> and &mut CooMat<f64>, so a safe evaluation function given to ProblemNlp::new can shrink the gradient (out-of-bounds read) or enlarge f, Hphi or J (out-of-bounds write): a soundness hole."
 },
 "C94": {
  "status": "proved",
  "note": "C94_paths / C94_all_paths: exact count; C94_cells, C94_cells_above: lower and upper bound on the cells created; C94_node_components, C94_model, C94_problem, C94_solve: upper bounds for gradients and Hessians, the standard form, the standard problem and solve; C94_squarings: exponential in the number of squarings (for every k)."
 },
 "C95": {
  "status": "partial",
  "note": "False of the code: y*(x+5) - 5*y and 3*y + x*y + (-3)*y can be built but their derivatives by y panic in FunctionAdd::new (C95_counterexample), and so does solving a model with such an objective, whatever the solver (C95_solve_counterexample). Proved: a panic is only possible if the variable is written both with a numeric coefficient and at a place with a non-numeric factor (C95_panics); so differentiation returns if the variable is written at most once (C95_once_partial), only linearly (C95_linear_partial, the derivative is a constant) or only nonlinearly (C95_nonlinear_partial), for every scalar type in which 0 == 0. C95_batch: the same for several variables at once. C95_exact: for exact numbers, an expression without undefined numbers: differentiation panics if and only if, when the products of the partial derivatives on the ways to the places of the variable are added up, the last place first, a product with a number as a term makes the numbers cancel while there is exactly one other term (Spec/DerivForm.lean gives these products recursively on the formula, as number of terms and sum of numbers); C95_exact_batch: the same for several variables; C95_terms: the derivative that is returned has exactly these terms. C95_exact_solve: and if this is so for the nonlinear objective of a minimisation, the model has no standard form and solving it panics, whatever the solver."
 },
 "C96": {
  "status": "partial",
  "note": "False of the code: a model with the constraint x + 5 <= 5 can be built, but solving it panics in FunctionAdd::new whatever the solver (C96_counterexample). Proved: for every scalar type with two simple laws (C96_laws_double, C96_laws_exact) a panic is only possible if some constraint compares a number with a sum of a single term and numbers (C96_panics_partial), so all other linear models are solved without panic (C96_solve_partial, C96_cmd_partial); for exact numbers the standard form panics if and only if some constraint has the form t + k <> k or k <> t + k with k not zero (C96_exact)."
 },
 "C97": {
  "status": "proved",
  "note": "A model of the Rc cells with addresses and reference counts (Code/Memory.lean). C97_no_dangling, C97_denotes, C97_stable, C97_identity and C97_constraint_identity, C97_no_leak, C97_drop_ends; C97_constructors links it to Code/Node.lean and Code/Constraint.lean: with any allocator a new cell denotes what the constructor there returns, so that the numbers never used again in those files are not an assumption about the allocator."
 },
 "C06": {
  "status": "proved",
  "note": "C06_agree for all scalars; C06_missing for exact numbers, C06_missing_double in double precision (for C libraries in which sin and cos of NaN are NaN)."
 },
 "C98": {
  "status": "proved",
  "note": "C98_derivatives (one function: first and second derivatives), C98_total (standard form), C98_solve, C98_ipopt; C98_laws_double and C98_laws_exact show that doubles and exact numbers meet the facts about signs and zeros that are used. The condition (Spec/Graded.lean) is sufficient, not necessary; it excludes sin, cos and division by expressions. C95 has a model with terms of both signs and of two degrees whose derivative panics."
 },
 "C99": {
  "status": "proved",
  "note": "Replay (Spec/Replay.lean) describes the two runs. C99_call and C99_program: same panics, and the worlds after the calls correspond again; C99_handles, C99_values, C99_equality, C99_constraints, C99_text, C99_problem, C99_solve: what corresponding worlds have in common; C99_any_orders: with unrelated hash orders. Each iteration over a hash map has its own position choice, so fixing the choices (Positional, SameOrders) restricts no single run."
 },
 "C100": {
  "status": "proved",
  "note": "C100_print, C100_evaluate, C100_properties: the functions with a limited number of nested calls (Code/Stack.lean) succeed exactly when the limit is at least the number of levels. C100_operators, C100_sum, C100_derivative, C100_derivatives, C100_node_components, C100_model: bounds on the levels. C100_model_evaluate: hence on the nested calls. C100_products: products need unbounded depth (finding 17). C100_drop, C100_drop_constraint: the destructor with a limited number of nested calls (Code/MemStack.lean) succeeds when the limit is at least the number of levels, and does the same as the steps of the memory model of C97. C100_drop_deep: products cannot be dropped on a small stack. The bytes of a stack frame are not modelled. C100_multiply, C100_multiply_flat: the multiplications with a limited number of nested calls are equal to the multiplications when the limit is at least the number of levels, or 2 for operands that the API made; C100_multiply_one: 1 is not enough."
 },
 "C101": {
  "status": "proved",
  "note": "C101_evaluate (counted calls, Code/Cost.lean), C101_operators, C101_sum, C101_derivative, C101_derivatives, C101_node_components, C101_model (derivBound s = 1 + s (3 + 6 s^2), applied twice for Hessians), C101_squarings (the exponential gap between cells and written-out length)."
 },
 "C102": {
  "status": "proved",
  "note": "Small-step model of solve (Code/CmdProc.lean), refined to the function of Code/CmdSolver.lean: C102_result, C102_panic, C102_frame, C102_finishes, C102_no_files. The hypothesis that names differ is needed: C102_counterexample (the names come from temporary files that are removed before the names are used, in another directory)."
 },
 "C103": {
  "status": "proved",
  "note": "C103_evaluate (callbacks = evaluate, any arithmetic), C103_objective, C103_rows (integer polynomials, exact), C103_values, C103_gradient, C103_jacobian (rounding bounds). Hessian requests are those with new multipliers, see C52; the announced rows of the Jacobian are wrong for models with linear and nonlinear rows, see C51_counterexample."
 }
}