#!/usr/bin/env python3
"""Single source for /verif/properties.jsonl (one JSON object per line)."""
import json
P = []
def p(id, title, statement, quantifier, why, anchors):
    P.append(dict(id=id, title=title, statement=statement, quantifier=quantifier,
                  why_tests_cant=why, anchors=anchors))

N='src/model/node.rs'; B='src/model/node_base.rs'
p('C01','Sum, difference and negation denote the sum, difference and negation',
  'For any two expressions a and b (and any f64 scalar c) the expressions a+b, a+c, c+a, a-b, a-c, c-a and -a, whenever the operator returns, evaluate at every assignment to the sum / difference / negation of the values of the operands, whatever flattening and constant folding the operator performed.',
  'all pairs of expression trees of any size and shape, all scalars, all assignments of variables (including partial ones)',
  'the operators rewrite their operands (flatten nested sums, merge constants, distribute -1 over sums); tests exercise a dozen shapes',
  [N+': impl_node_add_node, impl_node_add_scalar, impl_node_neg, impl_node_sub_node, impl_node_sub_scalar', B+': evaluate'])
p('C02','Product and quotient denote the product and quotient',
  'For any expressions a, b and scalar c, a*b, a*c, c*a, a/b, a/c and c/a, whenever the operator returns, evaluate to the product / quotient of the operand values at every assignment at which the operand values are finite (and the divisor is non-zero); they differ from it only where a constant zero operand absorbed a non-finite operand.',
  'all pairs of expression trees, all scalars, all assignments',
  'the product distributes constants over nested sums recursively and short-circuits 0 and 1; unbounded nesting cannot be sampled',
  [N+': impl_node_mul_node, impl_node_mul_scalar, impl_node_div_node, impl_node_div_scalar'])
p('C03','Building expressions with + - * and unary minus never panics',
  'Adding, subtracting, multiplying or negating expressions that were themselves built through the API never panics.',
  'all expressions reachable by any sequence of API operations',
  'the failing case needs constants that cancel exactly with a single remaining term; it is a relation between operands, not a value',
  [N+': impl_node_add_node', 'src/model/function/add.rs: FunctionAdd::new'])
p('C04','Division panics exactly on a literal zero divisor',
  'a/b panics if and only if b is a constant node equal to zero (or the scalar zero); every other quotient of expressions returns.',
  'all numerators, denominators and scalars',
  'an exact panic condition is a statement about all inputs',
  [N+': impl_node_div_node, impl_node_div_scalar'])
p('C05','Expression equality is identity and identity is coherent over every history',
  'After any sequence of API operations, two expression handles compare equal if and only if they are handles of the same created node; equal handles have the same structure and evaluate to the same value at every assignment; newly created variables differ from every earlier node even with the same name.',
  'all sequences of expression-building calls',
  'aliasing bugs depend on the history of allocations',
  [N+': PartialEq for Node, Hash for Node, Clone for Node','src/model/variable.rs: VariableScalar::new'])
p('C06','Evaluation depends only on the variables of the expression and reports missing ones',
  'The value of an expression is the same under any two assignments that agree on the variables occurring in it, and is NaN (not a number) whenever a variable occurring in it has no value assigned.',
  'all expressions, all pairs of assignments',
  'quantifies over pairs of assignments and all trees',
  [B+': evaluate','src/model/function/*.rs: evaluate'])
p('C07','Symbolic derivative is the true derivative',
  'For every expression e and variable x, if e is defined at a point then e.derivative(x) is defined there and its value is the partial derivative of e with respect to x at that point.',
  'all expressions built through the API (any sharing of sub-expressions), all variables, all points where the expression is defined',
  'the derivative is a sum over all root-to-variable paths of a shared expression graph; numeric tests sample graphs and points',
  ['src/model/node_diff.rs: derivative, derivatives, all_simple_paths','src/model/function/*.rs: partial'])
p('C08','Derivative with respect to an absent variable is the constant zero',
  'If variable x does not occur in e then e.derivative(x) returns without panicking and is a constant node with value 0.',
  'all expressions and variables',
  'universal over expression trees',
  ['src/model/node_diff.rs: derivatives'])
p('C09','Batch derivatives agree with single derivatives',
  'e.derivatives(vars) has exactly one entry for each distinct requested variable, and the entry for x denotes the same function as e.derivative(x). The call returns if and only if every one of the single calls returns; if it panics, one of them panics in the same way.',
  'all expressions, all lists of variables (with repetitions)',
  'universal over lists of variables and expression graphs',
  ['src/model/node_diff.rs: derivatives, derivative'])
p('C10','all_simple_paths finds exactly the root-to-variable paths',
  'For each requested variable the returned list contains exactly the paths in the expression graph that start at the expression, step from a node to one of its arguments, and end at that variable, each with the multiplicity with which arguments repeat; the search terminates on every expression.',
  'all expressions and variable lists',
  'worklist termination and completeness quantify over all graphs',
  ['src/model/node_diff.rs: all_simple_paths'])
p('C11','Differentiation accepts exactly variables',
  'derivative, derivatives and all_simple_paths panic with "variable expected" if some requested node is not a variable, and never for that reason otherwise.',
  'all expressions and all lists of requested nodes',
  'exact panic condition over all inputs',
  ['src/model/node_diff.rs: all_simple_paths, derivatives'])
p('C12','std_properties lists exactly the variables of the expression',
  'The key set of the coefficient map returned by std_properties is exactly the set of variables occurring in the expression, whether or not it is affine, each once.',
  'all expressions',
  'completeness of the variable set decides which columns the standard problem has',
  ['src/model/node_std.rs: std_properties','src/model/function/*.rs: std_properties'])
p('C13','Affine decomposition is exact',
  'If std_properties reports an expression as affine then at every assignment its value equals the sum of coefficient times variable value plus the constant b.',
  'all expressions built through the API, all assignments',
  'the linear solver never sees the expression again: any mismatch silently solves another problem',
  ['src/model/node_std.rs: NodeStdProp','src/model/function/add.rs, mul.rs, div.rs: std_properties'])
p('C14','Linear combinations are recognised as affine',
  'Every expression built from variables and constants using only +, -, unary minus, multiplication by constants and division by non-zero constants is reported affine by std_properties.',
  'all such expressions',
  'completeness of recognition decides whether an Lp solver is usable; unbounded nesting',
  ['src/model/function/*.rs: std_properties'])
p('C15','Gradient components are exact and complete',
  'std_components().gphi lists every variable of the expression exactly once, each paired with an expression whose value is the partial derivative wherever the expression is defined, for every iteration order of the hash maps involved.',
  'all expressions built through the API, all points of definition, all hash iteration orders',
  'hash iteration order is random per process; derivatives range over all expressions',
  ['src/model/node_std.rs: std_components'])
p('C16','Hessian components are exact, one triangle, and omissions are zeros',
  'std_components().hphi lists each unordered pair of variables at most once, each entry evaluates to the second partial derivative, and a pair that is not listed has second partial derivative zero.',
  'all expressions built through the API, all points of definition, all hash iteration orders',
  'second derivatives of derivative expressions, with sparsity pruning',
  ['src/model/node_std.rs: std_components'])
p('C17','The printed form denotes the expression',
  'The text printed for an expression, read back with the usual precedence and left associativity of + * / and parentheses, denotes the same value as the expression at every assignment.',
  'all expressions, all assignments',
  'the printer omits parentheses in several nestings; correctness is a statement about all nestings',
  ['src/model/function/add.rs, mul.rs, div.rs, cos.rs, sin.rs: fmt::Display'])
C='src/model/constraint.rs'
p('C18','Constraint violation is zero exactly when the constraint holds',
  'violation() is non-negative, and (when both sides have values) is zero if and only if the constraint holds at the given values, and otherwise equals the distance by which it fails.',
  'all constraints, all assignments',
  'universal over expressions and assignments; NaN handling',
  [C+': violation'])
p('C19','Comparison methods build the constraint they name',
  'a.equal(b), a.leq(b), a.geq(b) and the tagged and scalar forms create a new constraint whose sides, kind and label are the given ones; a constraint equals only itself and its clones.',
  'all expressions, scalars and labels, all histories of constraint creation',
  'identity of constraints across histories decides where duals are reported',
  ['src/model/node_cmp.rs: NodeCmp', C+': Constraint::new, PartialEq, Hash'])
p('C20','Each constraint becomes exactly one bound, one linear row or one nonlinear row',
  'Standardising a constraint yields exactly one of: a single variable bound and no row; one linear row with one right-hand side; or one nonlinear row with one function and one Hessian block; row counters advance by exactly the number of rows produced and all produced entries carry the counter value as row index.',
  'all constraints, all starting counters',
  'row bookkeeping across an arbitrary list of constraints',
  ['src/model/constraint_std.rs: std_components'])
p('C21','Standard form of a constraint is equivalent to the constraint',
  'At every point where both sides of the constraint have values, the constraint holds if and only if there is a slack value for which the produced linear/nonlinear equality rows hold and the produced bounds hold; the slack is then left-hand side minus right-hand side.',
  'all constraints built from API expressions, all points',
  'equivalence of feasible sets is over all points',
  ['src/model/constraint_std.rs: std_components'])
MS='src/model/model_std.rs'
p('C22','Standard problem columns are a bijection with the variables, ordered by name',
  'var2index maps the variables of the objective and constraints, plus one fresh slack per non-bound inequality, bijectively onto 0..nx, in non-decreasing order of name, for every hash iteration order.',
  'all models and all hash iteration orders',
  'random iteration order; ties between equal names',
  [MS+': std_problem'])
p('C23','std_problem does not panic after expression standardisation',
  'If the standard components of the objective and of each constraint can be formed, then assembling the standard problem never panics: every index lookup succeeds and every dimension assertion holds.',
  'all models built through the API',
  'absence of panics over all models',
  [MS+': std_problem','src/problem/minlp.rs: ProblemMinlp::new'])
p('C24','Problem class selection',
  'std_problem produces an Lp iff the objective is affine, there is no nonlinear constraint and no integer variable; a Milp iff affine/linear with at least one integer variable; an Nlp iff not linear and no integer variable; otherwise a Minlp.',
  'all models',
  'decides which solver accepts the model',
  [MS+': std_problem'])
p('C25','Feasible points of the standard problem are those of the model',
  'A point satisfies the standard problem (linear rows, nonlinear rows, bounds, integrality) if and only if its model variables satisfy every constraint of the model and integrality, and slacks equal lhs-rhs, within the box |value| <= 1e8 imposed on variables and slacks.',
  'all models built through the API in which each constraint has a value at some point (a NaN bound is ignored by the standard problem), all points',
  'equivalence of feasible sets; interplay of rows, bounds, indices',
  [MS+': std_problem','src/model/constraint_std.rs'])
p('C26','Objective of the standard problem is the model objective',
  'The standard problem minimises f for a minimisation model, -f for a maximisation model and 0 for an empty one; for Lp/Milp the linear objective c^T x differs from it by a constant that does not depend on x.',
  'all models, all points',
  'sign and constant handling for all expressions',
  [MS+': std_components, std_problem'])
p('C27','Bounds of the standard problem are the tightest ones',
  'u[i] is the minimum of 1e8 and all upper bound constraints on variable i, l[i] the maximum of -1e8 and all lower bounds; the constraint recorded for the bound is one that attains it.',
  'all lists of bound constraints in any order',
  'order-dependence of a running minimum with ties',
  [MS+': std_problem (Bounds)'])
p('C28','The evaluation callback of the standard problem computes objective, constraints and derivatives',
  'Evaluating the standard Nlp at any x gives phi = objective value, gphi = gradient entry of each column (0 for variables not in the objective), f = nonlinear row values, J = row derivatives, Hphi and H = lower-triangular second derivatives, independent of earlier evaluations.',
  'all models built through the API, all points of definition, all sequences of evaluations',
  'position bookkeeping between expressions and matrix entries, plus history independence',
  [MS+': std_problem (Eval)'])
p('C29','Initial point',
  'The standard problem starts at the value last set with set_init_primals for each variable that has one, and at 0 for every other column; entries for variables not in the model are ignored.',
  'all models and all init maps, all sequences of set_init_primals',
  'replacement semantics over histories',
  [MS+': std_problem (Initial values)','src/model/model.rs: set_init_primals'])
MO='src/model/model.rs'
p('C30','Solve never leaves stale results and never changes the model',
  'After any history of calls, if the last solve returned an error then status, primals and duals are empty; if it returned Ok they are those of that solve only; solving never changes objective, constraints or initial values.',
  'all sequences of model operations with arbitrary solver behaviour',
  'staleness is a property of histories',
  [MO+': Model::solve'])
p('C31','Final primals are the solver solution, variable by variable',
  'After a successful solve final_primals has exactly one entry per column of the standard problem, giving each model variable the solution value of its column.',
  'all models, all solver results',
  'universal over solver outputs and models',
  [MO+': Model::solve'])
p('C32','Final duals are reported for every constraint, from its own row or bound',
  'After a successful solve every constraint of the model has a dual value, equal to the multiplier of its linear row, nonlinear row, or (for bounds and slack inequalities) of its bound.',
  'all models, all solver results',
  'overriding insertion order and dominated bounds',
  [MO+': Model::solve'])
p('C33','A feasible solver answer satisfies the user constraints',
  'If the solver returns a point feasible for the standard problem then after solve every constraint of the model has violation 0 at final_primals and every integer variable has an integral value.',
  'all models built through the API, all solvers',
  'end-to-end statement across standardisation, indices and result extraction',
  [MO+': Model::solve', C+': violation'])
p('C34','An optimal solver answer is optimal for the user model',
  'If the solver returns a minimiser of the standard problem then the final primals minimise (maximise) the user objective among all assignments that satisfy the constraints and integrality and stay within the 1e8 box.',
  'all models built through the API, all feasible assignments',
  'end-to-end statement over all competing points',
  [MO+': Model::solve', MS+': std_problem'])
CO='src/matrix/coo.rs'; CS='src/matrix/csr.rs'
p('C35','CooMat iteration yields exactly the triplets in order, repeatedly',
  'CooMat::new stores three vectors of equal length and panics for all others, and no operation of the API makes the lengths differ. Iterating a CooMat yields exactly its nnz (row, col, value) triplets in storage order and then None; after None the iterator starts over.',
  'all matrices, any number of next() calls',
  'iterator protocol over unbounded call sequences',
  [CO+': CooMatIter'])
p('C36','to_csr is a stable sort by row',
  'For a CooMat whose row indices are in range, to_csr returns a CsrMat whose index pointers are non-decreasing from 0 to nnz and whose row i slice is exactly the (col, value) pairs of the entries of row i in their original order; if some row index is out of range it panics.',
  'all triplet lists',
  'counting-sort placement over all inputs',
  [CO+': to_csr'])
p('C37','to_csr preserves the matrix',
  'The dense matrix represented (duplicates summed) is unchanged by to_csr.',
  'all matrices with valid indices',
  'universal over triplet lists',
  [CO+': to_csr'])
p('C38','sum_duplicates leaves one entry per position holding the sum',
  'After sum_duplicates no row contains a column twice, columns appear in first-occurrence order, the value stored for a position is the sum of all values that were stored for it, and nothing else is stored.',
  'all valid CSR matrices',
  'marker arrays are reused across rows; correctness depends on all rows together',
  [CS+': sum_duplicates'])
p('C39','sum_duplicates preserves the matrix and is idempotent',
  'sum_duplicates does not change the represented dense matrix and applying it twice equals applying it once.',
  'all valid CSR matrices',
  'universal over matrices',
  [CS+': sum_duplicates'])
p('C40','CooMat times vector is the matrix-vector product',
  'A*x panics if x has not cols() entries or an index is out of range and otherwise returns the vector whose i-th entry is the sum over entries of row i of value times x[col].',
  'all matrices and vectors',
  'universal over triplet lists',
  [CO+': Mul<Vec<T>> for &CooMat<T>'])
MI='src/problem/minlp.rs'
p('C41','Problem constructors accept exactly dimension-consistent data',
  'ProblemMinlp::new (and through it Nlp, Milp, Lp) panics iff some matrix or vector dimension is inconsistent; the Hessian-combination matrix gets the concatenated sparsity patterns of the constraint Hessians and all values start at zero.',
  'all argument combinations',
  'exact acceptance condition',
  [MI+': ProblemMinlp::new','src/problem/nlp.rs','src/problem/milp.rs','src/problem/lp.rs'])
p('C42','combine_h computes the weighted sum of constraint Hessians',
  'After combine_h(nu) the combined Hessian represents the sum of nu[i] times H[i] for the current H values, for any interleaving of evaluate and combine_h; it panics iff nu has the wrong length.',
  'all problems, all multiplier vectors, all call histories',
  'offset bookkeeping across blocks and calls',
  [MI+': combine_h'])
p('C43','Lp, Milp and Nlp views of a linear problem agree',
  'The Milp, Minlp and Nlp views of a ProblemLp expose the same data, and evaluating any of them, after any history of calls, gives as objective the products of coefficients and values added up in some order (c^T x in exact arithmetic), gradient c and no nonlinear rows.',
  'all linear problems, all points',
  'universal over data',
  ['src/problem/lp.rs','src/problem/milp.rs'])
p('C44','The LP file states the problem',
  'The file written by write_to_lp_file, read by the rules of the LP format, is the problem: same non-zero objective coefficients, same rows with duplicates summed, same right-hand sides, same bounds and same integer set, up to the rounding of printed numbers.',
  'all Milp problems with valid indices',
  'writer goes through CSR conversion and duplicate summing; all problems',
  ['src/problem/milp.rs: write_to_lp_file'])
SB='src/solver/base.rs'
p('C45','Solver parameters keep names and types',
  'After any sequence of set_param calls the set of parameter names and the type of each is the initial one; a call with an unknown name or wrong type returns an error and changes nothing; a successful call changes exactly that parameter and get_param returns it.',
  'all sequences of set_param calls',
  'history property',
  [SB+': set_param, get_param','src/solver/clp_cmd.rs: new','src/solver/cbc_cmd.rs: new','src/solver/ipopt.rs: new'])
p('C46','Solvers reject unsupported problem classes',
  'Clp solves only Lp, Cbc only Lp and Milp, Ipopt only Lp and Nlp; for any other class solve returns an error without touching files or the problem.',
  'all problems',
  'decision table with side effects',
  ['src/solver/clp_cmd.rs: solve','src/solver/cbc_cmd.rs: solve','src/solver/ipopt.rs: solve'])
CB='src/solver/cbc_cmd.rs'
p('C47','Reading a well-formed solution file returns the solution it lists',
  'If the file lists for columns and rows the value and multiplier of each, the returned solution has x from the values, lam from row multipliers, pi the positive and mu the negated negative part of reduced costs, and zeros for anything not listed.',
  'all solutions of all sizes, any order of lines',
  'text-level round trip over all sizes',
  [CB+': read_sol_file'])
p('C48','Reading any solution file never panics',
  'read_sol_file returns Ok or Err for every file content.',
  'all file contents',
  'robustness over arbitrary bytes',
  [CB+': read_sol_file'])
p('C49','Solver status is what the solution file says',
  'Solved is reported only if the first word of the file is the solver\'s optimal word, Infeasible only for its infeasible word, Error otherwise (including a missing or empty file), and in the latter cases the solution is all zeros.',
  'all file contents',
  'decision over all contents',
  [CB+': read_sol_file'])
p('C50','Command-line solvers leave no files behind',
  'When solve of Clp or Cbc returns, neither the input nor the output file it used exists in the working directory, unless the system refused to remove it, whatever the external command did; and a removal that fails does not change what solve returns.',
  'all problems, all behaviours of the external command, of file creation and of file removal',
  'error paths depend on the environment',
  ['src/solver/clp_cmd.rs: solve', CB+': solve'])
IP='src/solver/ipopt.rs'
p('C51','Ipopt function, gradient, constraint and Jacobian callbacks answer for the point they are given',
  'For every sequence of callback calls that sets new_x whenever the point differs from the previous call, each callback that returns TRUE delivers objective, gradient, [A x - b; f(x)] and the Jacobian of that very point, in the announced sparsity order.',
  'all callback sequences obeying the new_x protocol, all problems',
  'stale-cache behaviour depends on the call history',
  [IP+': eval_f_cb, eval_grad_f_cb, eval_g_cb, eval_jac_g_cb'])
p('C52','Ipopt Hessian callback answers for the point and multipliers it is given',
  'For every sequence of callback calls that sets new_x and new_lambda whenever the point or the multipliers differ from the previous call, the Hessian callback delivers obj_factor * Hphi(x) followed by the combination of constraint Hessians at that x and lambda.',
  'all callback sequences obeying the new_x/new_lambda protocol',
  'needs a particular interleaving of flags',
  [IP+': eval_h_cb'])
p('C53','Ipopt callbacks refuse inconsistent requests without side effects',
  'A callback given a null buffer it needs or a dimension that differs from the problem returns FALSE, writes nothing and does not evaluate the problem.',
  'all argument combinations',
  'decision over all argument combinations',
  [IP+': eval_*_cb'])
p('C54','Ipopt results are mapped with the documented signs and dimensions',
  'solve returns x of length nx, lam = -(first na multipliers), nu = -(remaining nf multipliers), pi and mu the bound multipliers, status Solved for codes 0 and 1, Infeasible for 2, Error for any other code, and the native problem is released whenever solve returns.',
  'all problems, all native results and status codes',
  'index arithmetic and error paths',
  [IP+': solve'])
p('C55','Results of the solvers always fit the model',
  'For every model, extracting primals and duals from the solution returned by Clp, Cbc or Ipopt never indexes out of range.',
  'all models, all solution files',
  'cross-module dimension agreement',
  [MO+': Model::solve', CB+': read_sol_file','src/problem/base.rs: ProblemSol::new'])
p('C56','The printed model states the model',
  'The text of a model, read line by line, gives back the sense, an objective text that denotes the objective, and for each constraint in order a text that denotes the comparison and the label.',
  'all models built through the API whose names and labels contain no line feed and no colon, all assignments',
  'the text depends on the whole expression graph',
  [MO+': Display for Model'])
p('C57','Solving through a correct command-line solver gives a correct answer for the user model',
  'If the external Clp or Cbc command answers every LP file with a minimiser of the problem that the file states (or reports infeasibility only when there is no feasible point), then a successful Model::solve that reports Solved leaves final primals that satisfy all constraints and integrality and are optimal for the user objective within the 1e8 box, and Infeasible is reported only if no assignment in the box satisfies the model.',
  'all linear models built through the API whose numbers survive printing, all behaviours of a correct external command, all hash iteration orders',
  'the claim composes standardisation, file writing, file reading and result extraction for all inputs',
  [MO+': Model::solve', 'src/solver/clp_cmd.rs: solve', CB+': solve, read_sol_file', 'src/problem/milp.rs: write_to_lp_file'])
p('C58','Solving with a correct Ipopt gives a correct answer for the user model',
  'If the native Ipopt library keeps the new_x protocol and is right about the problem it is given whenever the callbacks answer truthfully, then a successful Model::solve that reports Solved leaves final primals that satisfy all constraints of the model and are optimal for the user objective within the 1e8 box, and Infeasible is reported only if no assignment in the box satisfies the model.',
  'all models built through the API, all native libraries that are right given truthful answers, all sequences of callbacks they choose (depending on the answers), all hash iteration orders',
  'the claim composes standardisation, the callbacks after every history, and result extraction, for every behaviour of a correct native solver',
  ['src/solver/ipopt.rs: SolverIpopt::solve, eval_f_cb, eval_grad_f_cb, eval_g_cb, eval_jac_g_cb, eval_h_cb', MO+': Model::solve', 'src/model/model_std.rs: ModelStd::std_problem'])
p('C59','The reported duals certify the reported solution',
  'If the answer of the solver satisfies the first-order optimality conditions of the standard problem with its multipliers, then the values and duals the model reports satisfy the first-order conditions of the model as the user wrote it: constraints hold, duals of inequalities are nonnegative and vanish when the inequality is not tight, and the derivative of the objective by every variable is the combination of the derivatives of the constraints with the duals.',
  'all models built through the API without self-quotients, all solvers, all answers strictly inside the 1e8 box, all hash iteration orders',
  'the claim relates multipliers of rows, bounds and slacks that were moved to other places for all models',
  [MO+': Model::solve, Model::final_duals', 'src/model/model_std.rs: ModelStd::std_problem', 'src/model/constraint_std.rs: std_components'])
p('C60','For convex models the certified answer is an optimum of the model',
  'If the answer of the solver satisfies the first-order optimality conditions of the standard problem with its multipliers and lies strictly inside the 1e8 box, and the model is convex (in particular if it is linear), then the values the model reports satisfy the constraints of the model as the user wrote it, and no other assignment that satisfies them, in or outside the box, has a better objective.',
  'all models built through the API without self-quotients, all solvers, all answers strictly inside the box, all assignments, all hash iteration orders',
  'optimality compares with all other assignments, for all models',
  [MO+': Model::solve, Model::final_primals', 'src/model/model_std.rs: ModelStd::std_problem', 'src/model/constraint_std.rs: std_components'])
p('C61','The standard problem does not depend on hash iteration order',
  'Two calls of std_problem on the same model, whatever the iteration orders of the hash maps and sets, give columns with the same names in the same order. If the column names are distinct, a variable has the same column in both, and both problems have the same class, cost vector, matrix, right-hand side, bounds, integer flags, initial point and row and bound constraints, bit for bit, and deliver the same objective value (bit for bit), row values, gradients, Jacobians and Hessians (in exact arithmetic, without self-quotients) at every point after every history of evaluations.',
  'all models built through the API, all pairs of hash iteration orders, all points, all histories of evaluations',
  'Rust seeds its hash maps at random, so a test sees one iteration order per run; the claim compares all orders',
  ['src/model/model_std.rs: ModelStd::std_problem', 'src/model/constraint_std.rs: std_components', 'src/model/node_std.rs: std_components', 'src/model/node_diff.rs: derivatives'])
p('C62','Duals through Clp are the multipliers of the user model',
  'If the external Clp command answers LP files with values, row multipliers and reduced costs that certify each other (reduced costs = objective coefficients minus the multipliers applied to the rows, positive only at lower and negative only at upper bounds), then after a successful Model::solve that reports Solved, final_primals and final_duals satisfy the first-order conditions of the model as the user wrote it: every dual has the right value, sign and constraint, and the values are a global optimum of the user model, strictly inside the 1e8 box.',
  'all linear continuous models built through the API whose numbers survive printing, all certifying external commands, all hash iteration orders',
  'the claim composes standardisation, file writing, the reading of reduced costs and row multipliers, and their assignment to constraints, for all inputs',
  [MO+': Model::solve', 'src/solver/clp_cmd.rs: solve', CB+': read_sol_file', 'src/problem/milp.rs: write_to_lp_file'])

p('C63','Duals through Ipopt are the multipliers of the user model',
  'If the native Ipopt library, told the truth about the functions of the problem it is given, ends with a point and multipliers that satisfy the first-order conditions of that problem in its own sign convention (lambda, z_L, z_U), then after a successful Model::solve that reports Solved, final_primals and final_duals satisfy the first-order conditions of the model as the user wrote it: each dual has the right value, sign and constraint; if the model is convex, the values are a global optimum.',
  'all continuous models built through the API (linear or nonlinear), all native libraries that obey the callback protocol and certify their answers, all hash iteration orders',
  'the claim composes standardisation, the callbacks, the sign changes and splitting of the multipliers, and their assignment to constraints, for all inputs and all interactions',
  [MO+': Model::solve', 'src/solver/ipopt.rs: solve, eval_f_cb, eval_grad_f_cb, eval_g_cb, eval_jac_g_cb, eval_h_cb'])

p('C64','Rounding errors of a value are those of the formula as written',
  'Write down a formula with the overloaded operators (numbers, variables, +, -, *, /, sin, cos between expressions and numbers) and evaluate the handle. In any arithmetic whose operations have a relative error of at most u, the result is a number whose distance from the exact value of the formula is at most ((1+u)^k - 1) times the value of the formula with all terms taken in absolute value, k growing by a small constant with every operation: folding of constants, flattening of sums and distributing of factors do not make the result worse than that. The same bound holds for the reported violation of a constraint.',
  'all formulas of every size, all values of the variables, all arithmetics with relative error u (round to nearest, directed rounding, biased, non-associative), all ways in which the operators simplify',
  'the simplifications reorder and regroup floating point operations in ways that depend on the expression; no finite set of values bounds the error for all of them',
  ['src/model/node.rs: Add, Sub, Mul, Div, Neg for Node and f64', 'src/model/node_func.rs: sin, cos', 'src/model/node_base.rs: evaluate', 'src/model/constraint.rs: violation'])

p('C65','Answers that are right up to tolerances stay right up to tolerances',
  'If the solver answers with a point that satisfies the rows of the standard problem up to delta, its bounds up to epsilon and integrality up to eta, then at the final primals both sides of every constraint the user wrote have values, violation is at most delta for an equality, epsilon for a bound on a variable and delta + epsilon for any other inequality, and integer variables are within eta of an integer. Conversely every assignment that satisfies the constraints up to tolerances gives a point of the standard problem within them. If the objective of the answer is within gamma of the optimum of the standard problem, the objective at the final primals is within gamma of the best admissible assignment.',
  'all models built through the API, all solvers and answers, all tolerances, all hash iteration orders',
  'solvers stop at tolerances; that the slacks of the transformation do not amplify errors is a claim about all models and all answers',
  [MO+': Model::solve', 'src/model/model_std.rs: ModelStd::std_problem', 'src/model/constraint_std.rs: std_components', 'src/model/constraint.rs: violation'])

p('C66','A model holds what the program put into it',
  'The constraints of a model are exactly those given to add_constraint and add_constraints since the model was created, in that order and with repetitions; its objective is the one set last, or none. Building expressions and constraints, setting initial values, std_problem and solve change neither, and no call ever changes an expression or constraint the program already holds.',
  'all programs, all interleavings of calls, all solvers',
  'the claim is about all histories of calls',
  [MO+': Model::add_constraint, Model::add_constraints, Model::set_objective, Model::solve, Model::new'])

p('C67','Rounded numbers in LP files and tolerances of the command add up, and no more',
  'Solve a linear model that has an admissible assignment with Clp or Cbc. The LP file carries the numbers of the problem rounded to the digits it prints, and the external command answers with values that satisfy its input file up to delta (rows), epsilon (bounds) and eta (integrality). If solve reports Solved, and rounding changes no row by more than gamma at the answer and no bound by more than beta, then at the final primals equality constraints are violated by at most delta + gamma, constraints that bound a variable by at most epsilon + beta, other inequalities by at most the sum of these, and integer variables are within eta of an integer. With a relative error rho per number, gamma is at most rho times the sum of the absolute values of the terms of a row, and beta at most rho times the bound.',
  'all linear models built through the API, all number formats (rounding functions), all commands that work within tolerances, all tolerances, all directory states, all hash iteration orders',
  'the claim composes standardisation, the LP writer, an external program and the reader of its report; rounding and tolerances differ with every model',
  [MO+': Model::solve', 'src/solver/clp_cmd.rs: solve', 'src/solver/cbc_cmd.rs: solve', 'src/problem/milp.rs: write_to_lp_file', CB+': read_sol_file', 'src/model/constraint.rs: violation'])

p('C68','Numbers in LP files have eleven significant digits and are correctly rounded',
  'A number that the LP writer prints reads back as a decimal number with at most eleven significant digits, and no number with eleven digits is nearer to the one printed: its relative error is at most 5e-11, numbers with at most eleven digits are printed exactly, signs, zero and one are kept, and order is not reversed. Hence a linear model whose standard problem has only such numbers is solved exactly by a correct Clp or Cbc (as C57), and otherwise printing adds at most 5e-11 times the size of a row or bound to the violation of a constraint (as C67).',
  'all numbers; all linear models built through the API, all correct or nearly correct commands, all tolerances, all directory states, all hash iteration orders',
  'there are unboundedly many numbers, of every magnitude; the carry 9.99... to 10.0... and ties to even happen for few of them',
  ['src/problem/milp.rs: write_to_lp_file', MO+': Model::solve', 'src/solver/clp_cmd.rs: solve', 'src/solver/cbc_cmd.rs: solve'])

p('C69','For convex models a solution that meets the optimality conditions up to tolerances is nearly optimal',
  'Solvers stop when the optimality conditions hold up to tolerances. If the answer of the solver satisfies rows, bounds, stationarity and complementarity of the standard problem up to tolerances (and its multipliers of nonlinear inequalities have the right sign), then for a model that is convex between the reported values and an assignment that satisfies the model, the reported objective value is worse than that of the assignment by at most an explicit amount: row tolerance times the size of the multipliers, plus, per variable, the stationarity tolerance times the distance and twice the complementarity tolerance. For linear models no hypothesis on convexity or signs is needed.',
  'all models built through the API (without quotients a/b with a the same expression as b), all solvers, all tolerances, all assignments, all hash iteration orders',
  'there are unboundedly many models, answers and tolerances; a test checks one solver run against a tolerance chosen for it',
  [MO+': Model::solve', MO+': Model::std_problem', 'src/solver/base.rs: Solver'])

p('C70','With Ipopt, Solved means: constraints hold, and convex models are optimal, up to the tolerances of Ipopt',
  'Ipopt stops when rows, bounds and optimality conditions hold up to tolerances. If the native library ends with success only at points that satisfy rows up to delta and bounds up to epsilon of the problem handed to it, and Model::solve reports Solved, then every constraint of the model is violated by at most delta + epsilon at the final primals, equalities by at most delta, bounds of variables by at most epsilon. If its multipliers also satisfy its first-order conditions up to tolerances (in its own sign conventions), then for convex models the objective is nearly optimal, with the explicit bound of C69.',
  'all models built through the API, all native libraries that obey the callback protocol, all tolerances, all hash iteration orders; near-optimality for models with linear or nonlinear rows but not both (see C58)',
  'a test runs one library on one model with one set of tolerances',
  [MO+': Model::solve', 'src/solver/ipopt.rs: solve, eval_f, eval_grad_f, eval_g, eval_jac_g'])

p('C71','Rounding errors in the coefficients of linear models are bounded',
  'Write a linear formula with the operators. In any arithmetic with relative error at most u per operation, the formula is recognized as linear, and each coefficient and the constant that std_properties extracts is within ((1+u)^k - 1) times the coefficient of the formula with all terms made positive; so is the value of the extracted linear function at every point, and every entry of the gradient of a linear objective. A constraint between two such formulas becomes either one row whose coefficients and right-hand side are those of lhs - rhs up to the same bound, or a bound on a variable, and then lhs - rhs is that variable minus the bound up to rounding errors. With u = 0 everything is exact.',
  'all linear formulas built with the operators (any size and nesting, any order of operations), all arithmetics with relative error u, all hash iteration orders, all points',
  'a test compares a few coefficients in one arithmetic; how simplification orders the operations, and so where roundings occur, depends on the whole expression',
  ['src/model/node_std.rs: NodeStd::std_properties, std_components', 'src/model/function/add.rs, mul.rs, div.rs: std_properties', 'src/model/constraint_std.rs: std_components', 'src/model/node.rs: Add, Sub, Mul, Div, Neg for Node and f64'])

p('C72','Linear models in floating point, from the formulas to the reported point',
  'Write a model with linear formulas in any arithmetic with relative error at most u per operation. It becomes a linear problem. If solve succeeds with a solver whose answer satisfies the problem it was given up to tolerances, every variable has a number as final value, and every constraint as written (in exact arithmetic) holds at these values up to the tolerances and an explicit rounding error bound; the values stay within 1e8 plus the tolerance, and integer variables are integral up to the tolerance. Conversely an assignment that satisfies the constraints as written gives a point of the standard problem that is feasible up to the rounding bound. If the answer has multipliers that satisfy the optimality conditions up to tolerances, the objective as written is at most an explicit gap worse than at any assignment that satisfies the constraints as written.',
  'all models of linear formulas built with the operators (any size), all arithmetics with relative error u, all solvers, answers, multipliers and tolerances, all hash iteration orders, all competing assignments',
  'a test compares one answer with a known optimum; whether the combined errors of simplification, coefficient extraction, slack rows and solver tolerances can exceed a bound depends on the whole model and on every feasible assignment',
  ['src/model/model.rs: Model::solve', 'src/model/model_std.rs: std_problem, std_components', 'src/model/constraint_std.rs: std_components', 'src/model/node_std.rs: NodeStd::std_properties', 'src/model/node.rs: impl_node_add_node, impl_node_add_scalar, impl_node_mul_node, impl_node_mul_scalar, impl_node_neg, impl_node_sub_node, impl_node_sub_scalar, impl_node_div_scalar'])

p('C73','Failures of the solvers are reported, with their cause',
  'solve of Clp and Cbc returns an error if and only if some step of the call fails, and the message names the first step that failed: unsupported class of problem, no name for the input or output file, the LP file cannot be written, the parameter logLevel is missing, the command cannot be run, the solution file is missing or malformed. If no step fails it returns the status and solution of the file. The command is the program cbc or clp with the documented arguments. solve of Ipopt returns an error exactly if the class is not supported, the library refuses to create the problem, or a parameter is missing or refused; the problem is unchanged then.',
  'all problems of every class, all parameters, all behaviours of the temporary files, the file system, the command and the library, all directory contents',
  'the failure paths depend on the environment (full disk, missing program, malformed output); a test can provoke a few of them, not every combination in which two steps would fail',
  ['src/solver/clp_cmd.rs: SolverClpCmd::solve', 'src/solver/cbc_cmd.rs: SolverCbcCmd::solve', 'src/solver/ipopt.rs: SolverIpopt::solve'])

p('C74','Violations of constraints in double precision',
  'In IEEE 754 double precision: at an assignment where both sides of a constraint evaluate to finite numbers, the reported violation is zero if and only if the relation holds between those numbers (rounding of the difference neither hides nor invents a violation); otherwise it is the exact violation up to a relative error of 2^-53, infinite exactly if the difference overflows, and exact if the sides are within a factor of two. It is never negative. With infinite sides the violation of an inequality is zero exactly if the comparison is true, that of an equation exactly if the sides are equal and finite. If a side is NaN an equation has violation NaN and an inequality violation zero.',
  'all constraints between expressions of any shape, all assignments, all doubles including infinities, NaN, signed zeros and subnormal numbers',
  'there are 2^128 pairs of doubles; gradual underflow, overflow and cancellation are exactly the cases a few sample values do not meet',
  ['src/model/constraint.rs: Constraint::violation', 'src/model/node_base.rs: NodeBase::evaluate'])

p('C75','Coefficients in double precision',
  'In IEEE 754 double precision, write a linear formula with the operators (variables, literals, +, -, negation, products with and quotients by literals). If the numbers it says are doubles wherever a number is combined with a constant, the standard form contains exactly these numbers: the constant is the written constant, a variable that occurs once has exactly the written coefficient, whatever the other coefficients are (no rounding of 0.1 and 0.2 against each other), a variable that occurs several times has the sum of its coefficients if the partial sums are doubles (always so for integers whose magnitudes sum to at most 2^53), and the gradient of an expression has the same exact entries. A constraint becomes the difference of its sides in the same sense.',
  'all sequences of operator calls that write linear formulas, with any number of terms and any finite double literals, all hash orders',
  'each literal and each order of calls gives another sequence of rounded operations; that none of them changes a coefficient cannot be sampled over the 2^64 doubles and all formulas',
  ['src/model/node_std.rs: NodeStd::std_properties', 'src/model/constraint_std.rs: ConstraintStd::std_components', 'src/model/function/add.rs', 'src/model/function/mul.rs', 'src/model/function/div.rs'])

p('C76','Linear models in double precision, end to end',
  'In IEEE 754 double precision, write a model with linear formulas whose numbers are representable (as in C75). It becomes a linear problem. If solve succeeds with a solver whose answers satisfy the rows of the problem it was given up to delta, the bounds up to epsilon and integrality up to eta, then at the reported values every constraint, in exact arithmetic as it was written, holds up to delta (delta + epsilon for an inequality): the library adds no error of its own. Conversely every assignment that satisfies the written constraints and the box +-1e8 is an exact solution of the standard problem, so an answer within gamma of the optimal cost gives values whose written objective is within gamma of the best.',
  'all programs that write linear models with representable numbers, all hash orders, all solvers, all tolerances, all assignments',
  'the guarantee is about every model and every solver answer; a rounding in one coefficient would show up only for particular literals',
  ['src/model/model.rs: Model::solve', 'src/model/model_std.rs: ModelStd::std_problem', 'src/model/constraint_std.rs: ConstraintStd::std_components'])

p('C77','Integer and fixed-point formulas are evaluated exactly in double precision',
  'In IEEE 754 double precision, write a formula with sums, differences, negations and products (of handles and of handles with numbers on either side) in which all constants and all variable values are integers, or multiples of powers of two. If the formula and its parts, with all terms taken absolutely, are at most 2^53 units, evaluate returns exactly the number the formula denotes: the constant folding, the flattening of sums and the distribution of factors done by the operators introduce no rounding, overflow or NaN. For a constraint between two such formulas in the same unit, violation returns exactly the distance, and zero if and only if the relation holds between the denoted numbers.',
  'all formulas built with those operator calls in any order, all assignments of such values, all units and sizes up to 2^53',
  'exactness of every intermediate sum depends on the order in which the simplifier regroups terms; tests on small integers do not cover regroupings near the limit',
  ['src/model/node.rs: evaluate', 'src/model/constraint.rs: Constraint::violation', 'src/model/function/add.rs', 'src/model/function/mul.rs'])

p('C78','Partial derivatives of single operations',
  'e.partial(a) looks at the outermost operation of e only. If a is an operand of e, the value of the returned expression is the derivative of that operation with respect to the operand (the first one, if the handle stands in several positions), at the current values of the operands; for expressions built with the operators the call returns if a is not a constant. If a is not an operand of e, and not the variable e itself, the result is the constant 0. The partial derivative of a variable with respect to itself is 1.',
  'all expressions, all operands, all assignments at which the expression is defined',
  'the claim ranges over all expressions and all operand values',
  ['src/model/node_base.rs: NodeBase::partial', 'src/model/function/add.rs', 'src/model/function/mul.rs', 'src/model/function/div.rs', 'src/model/function/sin.rs', 'src/model/function/cos.rs', 'src/model/variable.rs', 'src/model/constant.rs'])

p('C79','Rounding errors in double precision',
  'Write down a formula with the operators and functions of the library and evaluate it in IEEE double precision. However the library simplifies, folds constants, flattens sums and distributes products, the result is finite and differs from the exact real value of the formula by at most k * 2^-52 * m, where k is a count of the operations and m the value of the formula with all terms made positive (plus negligible terms for products and quotients that may underflow), provided that the sizes stay below 2^1022, divisors are not lost in rounding errors and the sine and cosine of the platform are accurate to 2^-52. The same holds for the violation of a constraint between two such formulas.',
  'all formulas, all finite values of variables and constants, including values whose products underflow',
  'the claim ranges over all formulas and all doubles; it depends on the rounding of every single operation',
  ['src/model/node.rs: Add, Sub, Mul, Div, Neg for Node and f64', 'src/model/node_func.rs: sin, cos', 'src/model/node_base.rs: evaluate', 'src/model/constraint.rs: violation'])

p('C80','Rounding errors of coefficients in double precision',
  'Write down a linear formula with the operators in IEEE double precision. However the library simplifies, folds, flattens and distributes, it recognises the formula as linear, and every coefficient and the constant that it extracts for the solver are finite and within ((1 + 2^-53)^k - 1) times the size of the corresponding coefficient of the formula, where k counts the operations and sizes are computed with all terms made positive (plus negligible terms for underflow), provided that the sizes stay below 2^1022. Constraints between such formulas become one bound or one row with the same accuracy, and the gradient of a linear objective has the same accuracy.',
  'all linear formulas, all finite coefficients, including such whose products underflow',
  'the claim ranges over all formulas and all doubles; it depends on the rounding of every single operation',
  ['src/model/node_std.rs: NodeStd::std_properties, std_components', 'src/model/function/add.rs, mul.rs, div.rs: std_properties', 'src/model/constraint_std.rs: std_components', 'src/model/node.rs: Add, Sub, Mul, Div, Neg for Node and f64'])

p('C81','Linear models in double precision, from the formulas to the reported point',
  'Write a model in IEEE double precision and solve it with any solver whose answers are finite and satisfy the rows, bounds and integrality of the problem that it was given, taken in exact arithmetic, up to tolerances. Then the values that the model reports satisfy every constraint between linear formulas, taken exactly as it was written, up to these tolerances and an explicit multiple of the unit roundoff 2^-53, provided that the sizes of the formulas stay below 2^1022. A model of linear formulas always becomes a linear problem; every assignment that satisfies the constraints exactly as written (within the box that the library imposes) gives a point of that problem up to the rounding errors; and if the answers of the solver come with multipliers that satisfy the optimality conditions up to tolerances, the reported values are optimal for the formulas as they were written, up to an explicit bound.',
  'all models, all linear formulas, all finite coefficients, all solvers and tolerances; other constraints of the model may be nonlinear, infinite or NaN for the feasibility statement',
  'the claim ranges over all models, coefficients and solver answers, and depends on the rounding of every single operation',
  ['src/model/model.rs: Model::solve', 'src/model/model_std.rs: std_problem, std_components', 'src/model/constraint_std.rs: std_components', 'src/model/node_std.rs: NodeStd::std_properties', 'src/model/node.rs: impl_node_add_node, impl_node_add_scalar, impl_node_mul_node, impl_node_mul_scalar, impl_node_neg, impl_node_sub_node, impl_node_sub_scalar, impl_node_div_scalar'])

p('C82','Clp and Cbc in double precision, through the LP file and the solution file',
  'Write a linear model in IEEE double precision and solve it with Clp or Cbc. The LP file has for each double the nearest decimal number of eleven significant digits, and the numbers of the solution file are read as the nearest doubles; a number of at most eleven digits that is written in the model reaches the external solver exactly as it was written. If the external command answers a file of finite numbers with decimal numbers that satisfy it, in exact arithmetic, up to tolerances, and solve reports Solved, then every variable has a finite value and at these values every constraint, taken exactly as it was written, holds up to the tolerances, an explicit bound for printing and reading, and the rounding errors of its formulas.',
  'all linear models, all finite coefficients whose sizes stay in range, all external commands and tolerances, all texts of numbers',
  'the claim ranges over all doubles, texts, models and answers of the external program, and depends on the rounding of every operation and conversion',
  ['src/model/model.rs: Model::solve', 'src/solver/clp_cmd.rs: solve', 'src/solver/cbc_cmd.rs: solve', 'src/problem/milp.rs: write_to_lp_file', 'src/solver/cbc_cmd.rs: read_sol_file'])

p('C83','Nonlinear models in double precision: what the solver evaluates, and what its answer means for the model as it was written',
  'Write a nonlinear model in IEEE double precision. Whatever was called on the problem before, evaluating it at a point gives as objective a number within the rounding error of the formula from the exact value of what is minimised, and for each nonlinear row a number within the rounding error from the exact lhs - rhs - slack; the bounds depend on the sizes and the number of operations of the formulas as they were written. If a solver answers with a point at which the evaluated rows are at most delta and the bounds hold up to epsilon, and solve succeeds, then every nonlinear constraint, taken exactly as it was written, holds at the reported values up to delta (equality) or delta + epsilon (inequality) and an explicit multiple of the rounding error of its two formulas.',
  'all nonlinear models, all points, all histories of calls, all solvers and tolerances, all formulas whose sizes stay in range',
  'the claim ranges over all formulas, points and answers of the solver, and depends on the rounding of every operation',
  ['src/model/model_std.rs: std_problem', 'src/model/constraint_std.rs: std_components', 'src/model/model.rs: Model::solve', 'src/problem/nlp.rs: evaluate', 'src/problem/minlp.rs: evaluate'])

p('C84','Derivatives in double precision',
  'Build an expression with the operators in IEEE double precision and ask for its derivative by a variable. At any point where the stored expression can be computed without overflow, and no divisor is lost in rounding errors, the returned expression evaluates to a finite double, and this double differs from the derivative (in the sense of calculus) of the exact function that the expression stores by at most the rounding error ((1+2^-53)^(2 ops+2) - 1) * size, where ops counts the operations of the chain rule and size is the derivative with all terms replaced by their absolute values. The value of the expression itself is within the same kind of bound from the exact value.',
  'all expressions built with the operators (without a quotient of a node by itself, see C07), all variables, all points at which the sizes stay in range and all divisors have a bounded condition number',
  'the claim ranges over all expressions and all points, and depends on the rounding of every operation of every path of the chain rule',
  ['src/model/node_diff.rs: derivatives', 'src/model/node.rs: Add, Mul', 'src/model/function/div.rs: partial', 'src/model/node_base.rs: evaluate'])

p('C85','Sums are flat',
  'Whatever a program builds with the operators, functions and derivatives: no term of a sum is itself a sum, and at most the last term of a sum is a constant. The sum of two expressions that are not zero, and not both constant, has as its terms the non-constant terms of the first, then those of the second, in this order, and then at most one constant.',
  'all programs of operators, functions and derivatives, all scalars',
  'the claim is an invariant over all programs of any length',
  ['src/model/node.rs: Add, Mul', 'src/model/function/add.rs: FunctionAdd::new', 'src/model/node_diff.rs: derivatives'])

p('C86','What a nonlinear solver is told about derivatives, in double precision',
  'Write a nonlinear model with the operators in IEEE double precision and let a solver evaluate the problem at any point, after any history of calls. Each entry of the gradient is a finite double within the rounding error ((1+2^-53)^(2 ops+2) - 1) * size from the derivative (in the sense of calculus) of the exact function that the objective stores, or of its negative for an objective to be maximised. Each row of the Jacobian has at most one entry per column: if there is none, the derivative of left side minus right side minus slack is exactly zero, otherwise the entry is finite and within the rounding error from this derivative. Without an objective the gradient is zero.',
  'all models written with the operators (without a quotient of a node by itself, see C07), all points at which the sizes stay in range, all columns, all rows, all histories of calls, all hash orders',
  'the claim ranges over all models, points and histories, and depends on the rounding of every operation',
  ['src/model/model_std.rs: std_problem', 'src/model/node_std.rs: std_components', 'src/problem/minlp.rs: evaluate', 'src/problem/nlp.rs: evaluate', 'src/model/constraint_std.rs: std_components'])

p('C87','Values of linear objectives, rows and matrices in double precision',
  'In IEEE double precision: whatever the order in which numbers are added up, the result is within ((1+2^-53)^(n-1) - 1) times the sum of absolute values from the exact sum. So the objective value of a linear problem at any point, after any history of calls, each entry of a matrix times a vector, each linear row that Ipopt is told, and each entry after sum_duplicates are finite and within the stated rounding error from the exact value; and the objective value is exact if the data are integer multiples of powers of two with at most 2^53 units in total.',
  'all linear problems, matrices, points and histories of calls in finite doubles with sizes in range, all orders of additions',
  'the claim ranges over all data and depends on the rounding of every operation and on the order of the additions',
  ['src/problem/lp.rs', 'src/problem/milp.rs', 'src/matrix/coo.rs', 'src/matrix/csr.rs: sum_duplicates', 'src/solver/ipopt.rs: eval_g_cb'])

p('C88','Models solved with Ipopt are feasible in double precision',
  'In IEEE double precision: if the native Ipopt library keeps its promise - that, when what it is told about the problem is true, with a return code of success the values that the callbacks compute for the rows at its point are within delta of their limits and the point is within epsilon of its bounds - then, when solve with Ipopt reports Solved, every variable of the model has a finite value in the box up to epsilon, and every constraint as the user wrote it (linear or nonlinear), taken in exact arithmetic at the reported values, holds up to delta (plus epsilon for the slack of an inequality) and an explicit rounding error.',
  'all programs that build models in finite doubles with sizes in range, all parameters and libraries that keep the promise, all tolerances',
  'the claim ranges over all models and answers of the library, and combines the standardization, the callbacks and the rounding of every operation',
  ['src/solver/ipopt.rs', 'src/model/model_std.rs', 'src/model/model.rs: solve'])

p('C89','Linear models solved with Ipopt in double precision are nearly optimal',
  'In IEEE double precision: if the native Ipopt library keeps its promise - that with a return code of success the point and the multipliers that it returns are finite and satisfy the first-order conditions, with the gradient, the rows and the Jacobian entries that the callbacks deliver, up to given tolerances - then, when solve with Ipopt reports Solved for a model of linear formulas, the objective as the user wrote it, taken in exact arithmetic at the reported values, is at most an explicit amount worse than at any assignment that satisfies the constraints exactly and stays in the box of +-10^8. The amount depends on the tolerances, the size of the multipliers, and the rounding errors.',
  'all programs that build linear models in finite doubles with sizes in range, all parameters, all libraries that keep the promise, all tolerances, all competing assignments',
  'the claim ranges over all models, answers of the library and competing points, and combines the standardization, the callbacks, duality and the rounding of every operation',
  ['src/solver/ipopt.rs', 'src/model/model_std.rs', 'src/model/model.rs: solve'])

p('C90','The public assertion on vectors accepts vectors that agree up to the tolerance, and no others',
  'assert_vec_approx_eq! passes exactly if the vectors have the same length and each pair of entries compares within the tolerance, and otherwise panics. In double precision: finite vectors of the same length whose entries differ, in exact arithmetic, by at most the tolerance pass; vectors that pass have the same length, only finite entries, and differ by at most the tolerance up to the rounding of one subtraction.',
  'all vectors of doubles (with infinities and NaN) and all tolerances',
  'the claim ranges over all vectors and the rounding of the differences; tests themselves rely on it',
  ['src/macros.rs: assert_vec_approx_eq'])

p('C91','Derivatives of polynomials with integer coefficients are exact in double precision, to any order',
  'If operator calls write down a polynomial with integer coefficients, then the expression, its partial derivatives, and the derivatives of those to any order, evaluated in double precision at integer values of the variables, are exactly the values of the polynomial and of its formal partial derivatives, as long as the polynomial with absolute values stays at most 2^53 at that point.',
  'all programs of operator and differentiation calls that write down integer polynomials, all integer points and all orders of hash iteration',
  'tests compare a few derivatives at a few points; the claim is that no polynomial of any degree, with any sharing of subexpressions and any constant folding, loses a bit',
  ['src/model/node_diff.rs: derivative', 'src/model/node.rs: Node operators', 'src/model/node_base.rs: evaluate', 'src/model/function/mul.rs: FunctionMul::partial', 'src/model/function/add.rs: FunctionAdd::partial'])

p('C92','What a nonlinear solver is told about integer polynomials is exact at integer points',
  'If the objective and the constraints of a model are polynomials with integer coefficients, then after any history of evaluations of the nonlinear problem built from it, evaluating at an integer point yields in double precision exactly the value, gradient and Hessian of the minimised objective, and exactly the value, Jacobian row and Hessian of each nonlinear constraint row, as long as the polynomial with absolute values belonging to each number is at most 2^53 there, and the absolute coefficients of the polynomials that the library differentiates add up to at most 2^53.',
  'all models with integer polynomial objectives and constraints, all integer points, all previous evaluations and all orders of hash iteration',
  'tests compare a few derivatives at a few points; the claim is that no model of any size loses a bit anywhere between the written expression and the numbers handed to the solver',
  ['src/model/model_std.rs: Model::std_problem', 'src/model/node_std.rs: std_components', 'src/model/constraint_std.rs: std_components', 'src/model/node_diff.rs: derivatives', 'src/problem/nlp.rs: ProblemNlp::evaluate', 'src/problem/minlp.rs: ProblemMinlp::evaluate'])

p('C93','The Ipopt callbacks never touch memory outside the arrays they are given',
  'The callbacks are unsafe code that reads and writes through raw pointers. Whatever the native library does, in whatever order it calls the callbacks and with whatever flags, dimensions and null pointers, as long as the arrays that it passes are as large as the sizes passed with them say, no callback reads or writes outside of an array; what it writes are exactly the numbers of its answer, to the first cells, and all other cells keep their contents; and solve passes to the native library only arrays that have the announced sizes.',
  'all problems, all native libraries (any adaptive sequence of callback calls, any flags, points, multipliers, null pointers) and all contents and lengths of the arrays',
  'an out-of-bounds access is undefined behaviour: a test may pass although memory is corrupted, and no test can try all call sequences of a native solver',
  ['src/solver/ipopt.rs: eval_f_cb', 'src/solver/ipopt.rs: eval_grad_f_cb', 'src/solver/ipopt.rs: eval_g_cb', 'src/solver/ipopt.rs: eval_jac_g_cb', 'src/solver/ipopt.rs: eval_h_cb', 'src/solver/ipopt.rs: SolverIpopt::solve', 'src/problem/base.rs: ProblemEval'])

p('C94','Cost of differentiation: one path and one cell for each place where the variable is written',
  'all_simple_paths returns, for each variable, exactly as many paths as there are places where the variable is written when the expression is written out as a formula (shared sub-expressions written once for each use), and derivative creates at least that many nodes, and at most three, and for each place a number that is quadratic in the levels and linear in the length of the formula; so after k squarings of a variable, which create k nodes, the derivative creates more than 2^k nodes. solve as a whole (standard form, standard problem, solver, multipliers) creates at most a number of nodes that is a polynomial in the length of the longest formula of the model, times the number of constraints plus one.',
  'all expressions, all variables, all models and solvers, all hash iteration orders, every number k of squarings',
  'a test measures one expression; the bound is about all of them, and the exponential growth cannot be observed for large k',
  ['src/model/node_diff.rs: NodeDiff::all_simple_paths', 'src/model/node_diff.rs: NodeDiff::derivative', 'src/model/node_diff.rs: NodeDiff::derivatives'])

p('C95','Differentiation returns for every expression and variable',
  'derivative (and derivatives, for any list of variables) returns, without panicking, for every expression that a program built with the operators and functions and for every variable; so solving a model does not panic because of its objective. (False of the code. For exact numbers it panics if and only if, in the sum of the products of partial derivatives on the ways to the places of the variable, the last place first, the numbers cancel at some product with a number as a term, while there is exactly one other term; so writing the terms of a sum in another order can make it panic.)',
  'all expressions reachable by programs of API calls, all variables, all hash iteration orders, all scalars (also doubles)',
  'whether the numbers in the partial sums of the chain rule cancel depends on the whole expression; tests only differentiate a few',
  ['src/model/node_diff.rs: NodeDiff::derivative', 'src/model/node.rs: Add for &Node', 'src/model/function/add.rs: FunctionAdd::new', 'src/model/node_std.rs: NodeStd::std_components'])

p('C96','Linear models are put into standard form and solved without panic',
  'If the objective and both sides of every constraint of a model are reported affine, then putting the model into standard form does not panic, and solve returns (a result or an error) whenever the solver returns.',
  'all models reachable by programs of API calls, all solvers, all hash iteration orders, all scalars (also doubles)',
  'whether an assertion fails depends on the numbers in each constraint; a test suite sees only a few constraints',
  ['src/model/model_std.rs: ModelStd::std_problem', 'src/model/constraint_std.rs: ConstraintStd::std_components', 'src/model/node.rs: Sub for &Node', 'src/model/function/add.rs: FunctionAdd::new', 'src/model/model.rs: Model::solve'])

p('C97','Equality and meaning of expressions and constraints survive the release and reuse of memory',
  'Expressions and constraints are compared and hashed by address. Whatever is created, cloned, dropped and released, and whatever free addresses the allocator gives out (also addresses used before): no reference ever points to a released cell; each reference that the program holds denotes one expression or one constraint, which stays the same as long as the reference is held; two references compare equal exactly if they go back to the same creation, and equal references hash alike; a drop always ends, and afterwards exactly the cells that can be reached from held references are in memory.',
  'all sequences of constructor calls, clones, drops and destructor steps of any length, all allocators, all expressions and constraints',
  'address reuse depends on the allocator and on the order of drops; tests do not control either',
  ['src/model/node.rs: Node', 'src/model/node.rs: PartialEq for Node', 'src/model/node.rs: Hash for Node', 'src/model/node.rs: Clone for Node', 'src/model/function/mul.rs: FunctionMul::new', 'src/model/constant.rs: ConstantScalar::new', 'src/model/constraint.rs: Constraint'])

p('C98','Polynomial models with terms of one sign or of one degree are put into standard form and solved without panic',
  'The panics of the expression operators (a sum whose numbers cancel) cannot occur for the following nonlinear models: the objective and the constraints are affine, or are built from numbers and variables with sums, products and division by nonzero numbers such that for each variable the terms with that variable (moved to one side of the constraint) all have coefficients of one sign or are homogeneous of one degree; and no constraint compares a number with a single term and numbers. Then all first and second derivatives and the standard form are computed without panic, and solving returns whenever the solver returns.',
  'all models built by any sequence of calls of the public API that have this form, of any size, with doubles (also infinite ones, overflow and NaN) and with exact numbers; all hash orders; all solvers',
  'the numbers that cancel are those of derivatives which the library builds, for every size and nesting of the expressions; tests try a few models',
  ['src/model/function/add.rs: FunctionAdd', 'src/model/node_diff.rs: NodeDiff::derivative', 'src/model/node_std.rs: NodeStd', 'src/model/constraint_std.rs: ConstraintStd', 'src/model/model_std.rs: ModelStd', 'src/model/model.rs: Model'])

p('C99','The same program gives the same results wherever it runs: addresses and unrelated work have no influence',
  'If a program makes the same calls once on its own and once next to other work (other handles exist, other nodes and constraints are made before and between its calls, so all addresses are different), then each call panics in both runs with the same panic or returns in both; corresponding handles have the same kind, name, printed text, linear properties and (for corresponding assignments) values, and are equal to each other in one run exactly when they are in the other; the model prints the same text; its standard form has the same data and evaluation functions and the same column for corresponding variables and rows for corresponding constraints; solving it gives the same result, status and values for corresponding variables and constraints. If the hash orders differ as well and no two columns have the same name, the data of the standard form is still the same.',
  'all programs of any length, all other work of any size at any point between the calls, all solvers, all arithmetic (also f64 with NaN); same choices of hash iteration positions in both runs, except in the last sentence, where they are arbitrary',
  'hash maps and equality are keyed by addresses, which differ in every run and depend on everything that happened before; a test sees one layout of memory',
  ['src/model/node.rs: Node', 'src/model/constraint.rs: Constraint', 'src/model/node_diff.rs: NodeDiff', 'src/model/model_std.rs: ModelStd', 'src/model/model.rs: Model'])

p('C100','The stack needed is bounded by the nesting of the formulas, not by the size of the model',
  'Printing, evaluating and analysing an expression needs exactly as many nested calls as the expression has levels. Adding any number of terms one after the other makes only one level more than the terms have; every other operator makes one level more than its operands (subtraction two); a derivative has at most twice as many levels as the function and one more; all functions of the standard form of a model (objective, gradient, Hessian, constraint functions, their Jacobian and Hessians) have at most 4 d + 11 levels, where d is the number of levels of the deepest formula of the model, whatever the number of variables, terms and constraints. Products are not flattened: after k multiplications of a variable, or k scalings by a number other than 0 and 1, the expression has k + 1 levels, and no stack is large enough for all of them. Dropping a reference to an expression, or to a constraint, needs at most as many nested destructor calls as it has levels, whatever else refers to its parts and whatever addresses the allocator gave out; a product of k multiplications cannot be dropped on a stack of k calls. Multiplying, which distributes a factor over the terms of a sum by calling itself, needs at most as many nested calls as the operands have levels, and at most two for operands made by the API.',
  'all expressions, assignments, models, numbers of terms, hash orders, memory contents, allocators and stack sizes, any arithmetic',
  'a stack overflow aborts the process and depends on sizes that no test reaches; the bound ranges over all models',
  ['src/model/function/add.rs: FunctionAdd', 'src/model/function/mul.rs: FunctionMul', 'src/model/node_base.rs: evaluate', 'src/model/node_diff.rs: derivatives', 'src/model/node_std.rs: NodeStd', 'src/model/model_std.rs: ModelStd'])

p('C101','Derivatives do not explode: their length is polynomial in the length of the formula',
  'evaluate is called once for each number, variable and function of a formula as it is written out. An operator makes an expression at most three times as long as its operands together (and two more); a sum of terms is as long as the terms together and two more for each. The derivative by x is at most 1 + occ (3 + 6 s (h - 1)) long, where occ is the number of places where x is written, s the length and h the number of levels of the formula; all functions of the standard form of a model, Hessians included, have a length bounded by one fixed polynomial in the length of the longest formula of the model. Lengths count shared sub-expressions once for each use: after k squarings of a variable, evaluating takes 2^(k+1) - 1 calls although only k + 1 cells exist.',
  'all expressions, variables, models and hash orders, any arithmetic',
  'a bound on growth for all inputs; symbolic differentiation is known for expression swell, which a test sees only at one size',
  ['src/model/node_diff.rs: derivatives', 'src/model/node_base.rs: evaluate', 'src/model/node.rs: Mul', 'src/model/node_std.rs: NodeStd', 'src/model/model_std.rs: ModelStd'])

p('C102','Calls of the command-line solvers at the same time do not disturb each other',
  'When any number of calls of solve of Clp and Cbc run at the same time in one directory, their steps interleaved in any order, some of them killed at any moment, and other programs changing other files, then every call that returns, returns exactly what it returns alone, with its files as they are when it is alone; a call that panics, panics alone; no step of a call changes a file that is not its own; no call waits for another: each can always be run to its end while the others stand still; after a call has returned, its two files are gone or as they were. This requires that the names of the temporary files of different calls differ and that the commands only change the files they are given. The names are not reserved by the code; with equal names a call can return the solution of the problem of another call.',
  'all numbers of calls, problems, parameters, commands, schedules and crash points; any contents of half-written files',
  'schedules and crash points cannot be enumerated by tests, and the tests of the repository are forced to run one after another',
  ['src/solver/clp_cmd.rs: SolverClpCmd::solve', 'src/solver/cbc_cmd.rs: SolverCbcCmd::solve, read_sol_file', 'src/problem/milp.rs: write_to_lp_file'])

p('C103','What the Ipopt callbacks write is exact for integer polynomials, and rounded by known bounds otherwise, in double precision',
  'For every model that a program builds and every sequence of callbacks that obeys the new_x protocol, the callbacks write at a point exactly the numbers that evaluate computes there with a fresh problem: eval_f the objective, eval_grad_f the gradient in the order of the columns, eval_g the linear rows and then the nonlinear rows, eval_jac_g the entries of the Jacobian, eval_h the entries of the Hessians times the factors. So in double precision: for polynomials with integer coefficients that are small enough, all these numbers of the objective and of the nonlinear rows are exact at integer points; for any other formulas the values, the gradient and the Jacobian are within the rounding errors of the operations from the exact values and from the derivatives known from calculus.',
  'all models that programs of API calls build, all sequences of callbacks, all points, all hash iteration orders, all doubles (within the ranges where no overflow or underflow occurs)',
  'tests run one solver on a few models and compare results with a tolerance; the numbers passed to the solver are never seen by the tests',
  ['src/solver/ipopt.rs: eval_f_cb, eval_grad_f_cb, eval_g_cb, eval_jac_g_cb, eval_h_cb', 'src/model/model_std.rs: std_problem', 'src/model/node_diff.rs: NodeDiff::derivatives'])

if __name__ == '__main__':
    with open('/verif/properties.jsonl','w') as f:
        for x in P: f.write(json.dumps(x)+'\n')
    print(len(P))
