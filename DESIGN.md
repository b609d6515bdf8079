# Formal model of ttinoco/numopt in Lean 4

(Plan written before the proofs; kept up to date. The status of every claim is in MANIFEST.json.)

## 1. How the code is modelled

| aspect | modelling decision |
|---|---|
| `f64` | The whole model is polymorphic in a scalar type `F` with the operations the code uses (`FloatOps F`, no laws). Theorems about structure (indices, order, bookkeeping, files, callbacks) are proved for **every** `F`, so they hold for IEEE doubles. Theorems about values are proved for `F = Option K`, `K` an ordered field (`ℝ` for calculus): *exact arithmetic in which every non-finite result is `none`* (division by zero, missing variable, NaN constant). `none` compares false with everything, `max 0 none = 0` as in `f64::max`. In these theorems overflow, signed zeros and the difference between inf and NaN are **not** modelled. Rounding is modelled for C64, C71 and C72 (`F = Fl A`), and IEEE doubles in full (rounding, subnormal numbers, overflow, infinities, NaN, signed zeros; `F = F64`, `Spec/Binary64.lean`) for C74 and later. |
| `Rc` identity | Every node / constraint carries an `id : Nat`, handed out by a counter (state of the monad `M`). Pointer equality and pointer hashing are equality of variant and id. Ids are never reused: the code only compares live handles; that this is the same as comparing addresses which are reused is C97 (`Code/Memory.lean`). |
| panics | `M α = Nat → Except Panic (α × Nat)`, `R α = Except Panic α`; `assert!`, indexing, `unwrap`, `panic!` are explicit errors. |
| `HashMap` / `HashSet` | association lists without duplicate keys; *every* place where the iteration order is observable takes an arbitrary permutation (`HashOrder`), universally quantified in the theorems. |
| closures (`ProblemEval`) | Lean functions on the evaluation buffers. |
| files | contents as lists of lines of characters; the working directory as a map from names to contents; external commands, file creation and removal are parameters. |
| Ipopt | callbacks as functions on explicit buffers (`Option` = nullable pointer) and the problem state; native library results are parameters. |
| number printing / parsing | `{:.10e}` and `str::parse::<f64>` are parameters (`fmt`, `parse`); hypotheses about them are explicit in the theorems that need them; `{:.10e}` also has a concrete model (`Code/Sci.lean`), which meets them (C68); for doubles both are concrete functions (`Code/Float64.lean`, C82). |

Loops are folds or structural recursion; the path worklist of `all_simple_paths` is a well-founded recursion.
Each definition cites the file and lines it models.

## 2. Files

* `Verif/Code/*`: the model of the code (only definitions, each with the lines it models).
* `Verif/Spec/*`: small independent specifications used in statements (derivative, feasibility, minimiser, readers of texts, requests of
  Ipopt, reachable states, correct external commands).
* `Verif/Proofs/*`: helper lemmas.
* `Verif/Props/*`: the property theorems `Cnn_*`, each file with non-vacuity examples.
* `Verif/Tests/*`: the repository's own unit tests (expressions, derivatives, constraints, standard forms, matrices, problems,
  printed models; every assertion that needs no external solver) replayed on the model by `decide +kernel`. They check the fidelity of
  the model and are part of no proof. `Tests/Expr.lean` is generated from `/repo` by `tools/gen_tests.py`.
  `Tests/Examples.lean` replays `/repo/examples` and `/repo/tests` (the nonlinear ones with fewer variables), with a solver that
  checks the problem it is lent and answers the expected solution.
* `seeded/LOG.jsonl`: wrong programs tried against the theorems. `tools/`: generators of `properties.jsonl` and `MANIFEST.json`.

### Coverage of the source

| source | model | not modelled |
|---|---|---|
| `src/model/{node,node_base,node_func,constant,variable}.rs`, `function/*.rs` | `Code/Node` (all operators, constructors, `evaluate`, `partial`, `arguments`, equality, hashing by identity), `Code/Print` (`Display`) | `Debug` |
| `src/model/node_diff.rs`, `node_std.rs` | `Code/Diff` | |
| `src/model/{constraint,node_cmp,constraint_std}.rs` | `Code/Constraint`, `Code/Print` | |
| `src/model/{model,model_std}.rs` | `Code/Model`, `Code/ModelPrint` | |
| `src/matrix/*.rs` | `Code/Matrix` | element types other than `f64` |
| `src/problem/*.rs` | `Code/Problem`, `Code/LpFile` | buffers left by a panic inside `evaluate` |
| `src/solver/base.rs` | `Code/Param` | |
| `src/solver/{cbc_cmd,clp_cmd}.rs` | `Code/SolFile`, `Code/CmdSolver`, `Code/CmdProc` (step by step) | the external programs (any function on the directory) |
| `src/solver/{ipopt,cipopt}.rs` | `Code/Ipopt` (five callbacks, `solve`), `Code/IpoptMem` (the callbacks with the memory behind their pointers) | the native library (any interleaving of callbacks and any results); the C ABI; unwinding of a panic into C code |
| `src/macros.rs` | `Code/Macros` | element types other than `f64`; the text of the panic |
| `mod.rs`, `lib.rs` | | map literals, re-exports |

## 3. Plan per property

"API" means: for every program over the public operations, of any length (`Reachable*`, an inductive closure or a run of a command list).

| id | modelled | proof |
|---|---|---|
| C01 C02 | all operator overloads of `node.rs` | evaluation lemma per operator; product by induction on the distributed operand |
| C03 | same | **false** (`(x + 5) - 5` hits the assertion in `FunctionAdd::new`): exact panic condition and a counterexample; freedom from panics of `*` and `-` |
| C04 | `/` overloads | case analysis, both directions |
| C05 | ids, register machine over API calls | invariant (ghost heap) over all op sequences |
| C06 | `evaluate` | induction on nodes |
| C07 | worklist, `partial`, path products | worklist = recursive path sum, path sum = derivative (`HasDerivAt`) by induction; **false** when a quotient has one node as numerator and denominator (`x/x`): counterexample plus theorem without such quotients |
| C08 C09 C10 C11 | worklist, `derivatives` | worklist characterisation |
| C12 C13 C14 | `std_properties` | induction; C13 needs "no variable-free function node", an invariant of API-built nodes, **false** for nodes made with the raw public constructors: counterexample |
| C15 C16 | `std_components` | C07 applied once and twice (derivative expressions stay coherent and free of self-quotients) |
| C17 | printers as character lists, reader with precedence as spec | induction with precedence levels |
| C18 C19 | constraint, `NodeCmp` | direct; `violation` of an inequality with a missing value is 0 (finding) |
| C20 C21 | constraint `std_components` | case analysis + C13 |
| C22..C29 | `std_problem` | index bijection, folds for bounds, assembly lemmas; for every hash order |
| C30..C32 | `Model` state machine | invariant over op sequences; C32 **false** for dominated bounds |
| C33 C34 | composition | from C25, C26, C31 |
| C35..C40 | `coo.rs`, `csr.rs` | loop invariants of folds |
| C41..C43 | problem types | direct / fold invariant; C41 **false** (lengths of `x0` and, for `Milp`, `c` are not compared) |
| C44 | LP writer as characters, LP-format reader as spec | reader ∘ writer |
| C45 C46 | solver parameters, dispatch | invariant over op sequences |
| C47..C49 | `read_sol_file` on characters | reader ∘ writer; C48 **false** (index out of range panics) |
| C50 | file-system state machine of `solve` | case analysis |
| C51..C54 | Ipopt callbacks and `solve` | invariant over call histories; C51 **false** for the announced positions of `J` when there are linear rows, C52 **false** without `new_lambda`, C53 **false** for one late refusal, C54 **false** (leak) on error paths |
| C55 | composition | dimensions of `ProblemSol::new`, tables of the standard problem |
| C56 | `Display` of models, line reader as spec | reader ∘ writer, C17 per expression |
| C57 | composition through files | C25, C26, C34, C44, C47, C49: the LP text states the standard problem, a correct report about the text is a minimiser of the problem |
| C58 | Ipopt, end to end | a native library is a decision tree of callbacks; `Native.Right`: its claim is true on every branch whose answers are truthful. Induction over the tree with C51/C52/C53; the problem of `CreateIpoptProblem` has the feasible points of the standard problem; then C33, C34. False with both linear and nonlinear rows (C51); counterexample proved |
| C59 | KKT conditions | `Minlp.Kkt` and `Model.KktAt` are separate specifications; rows, slacks and bounds are matched piece by piece: slack columns give dual of the row = dual of the slack bound; derivatives from C28; duals from C32 |
| C60 | convex models | `Model.ConvexBetween` (objective and constraints convex on the segment), `Model.Satisfies`; C59 gives `Model.KktAt`, its derivatives along the segment and convexity bound the objective from below; linear models are affine on every segment |
| C61 | reproducibility | two runs of `std_problem` on one model with different `HashOrder`s are compared: the expressions agree up to cell numbers (`Sim`), each constraint becomes the same piece (`PSim`), the sorted column names agree, so the data agree (`Spec/Repro.lean`: `SameData`); derivatives agree by uniqueness of derivatives from C28. Needs distinct names: `C61_same_names` |
| C62 | duals through Clp | `CertifyingCommand` (`Spec/DualReport.lean`) says what multipliers in the solution file must satisfy with respect to the LP file; the file's coefficients are the standard problem's (C44), the reader's `lam`, `pi`, `mu` are the reported numbers (C47), so the answer is a `Minlp.Kkt` point, and C59 / C60 carry it to the model |
| C63 | duals through Ipopt | `IpoptArgs.FirstOrder` (`Spec/DualIpopt.lean`) states the first-order conditions of the problem given to `CreateIpoptProblem` in Ipopt's signs; `firstOrder_kkt` regroups the Jacobian entries by rows and shows that the split and negated multipliers are a `Minlp.Kkt` point; C59 / C60 carry it to the model. Partial: with both kinds of rows the Jacobian pattern is wrong (C51) |
| C64 | rounding errors | `FlArith u` (`Spec/Rounding.lean`): operations with relative error at most `u`, nothing else assumed; the scalar type `Fl A` instantiates the same model of the code. `Writes σ e v m k`: rules, one per operator, for the exact value `v`, the size `m` and the count `k` of a formula. Proof: an invariant `Rep` (every handle is a list of terms, each within its bound, plus an amount that was rounded away to zero), kept by every operator including its shortcuts for 0 and 1. |
| C65 | tolerances | `Minlp.FeasibleWithin`, `Minlp.NearMinimiser`, `Model.AdmissibleWithin` (`Spec/Tolerance.lean`). `Piece.Ok.within_iff` says exactly what the rows and bounds of one constraint mean up to tolerances (the slack is within delta of `lhs - rhs` and has the right sign within epsilon); the chain of pieces, the tightest bounds and the columns are handled as in C25. |
| C66 | contents of a model | `Cmd.adds`, `Cmd.sets` (`Spec/History.lean`): what each call gives the model in the world it is made in; induction over programs, one lemma (`Cmd.effect`) per call. |
| C67 | rounded LP files | `LpContent.SatWithin`, `OutputWithin`, `CommandWithin`, `Minlp.PrintsWithin` (`Spec/FileTolerance.lean`); the LP file read by the independent reader of C44, the report by C47, then C65. |
| C68 | `{:.10e}` | `sciText` (`Code/Sci.lean`), decimal reader and `HasDigits` (`Spec/Decimal.lean`), exact characters with ties to even (`C68_shape`), nearest-number argument, then C57 and C67 for this format. |
| C69 | Near-optimality from approximate multipliers | `Minlp.KktWithin`, `Model.Apart` (`Spec/KktWithin.lean`); weak duality over the pieces of the standard form with error terms (`Proofs/Near.lean`), points of assignments as in C65, convexity of linear models as in C60. |
| C70 | Ipopt up to its tolerances | `MeetsWithin`, `FirstOrderWithin` (`Spec/IpoptWithin.lean`); protocol and callbacks as in C58, signs as in C63, then C65 and C69. Partial for the same reason as C58. |
| C71 | rounding of coefficients | `WritesLinear` (`Spec/RoundingStd.lean`) says which linear formula operator calls write down; the coefficient of a variable and the constant are linear functionals of expressions in the sense of `LinEv` (`Proofs/Rounding.lean`), so the analysis of C64 applies to them. |
| C72 | linear models in floating point | `LinForm`, `Node.Says`, `Minlp.LinearWithin`, `Minlp.LinearKkt` (`Spec/RoundingSolve.lean`). The rows and bounds of each constraint differ from the formula by `pairErr` (`SpFacts.pieceErr`, from C71); feasibility by adding errors; optimality by weak duality with perturbations (`Proofs/RoundingLp.lean`). |
| C73 | failures are reported with their cause | `CmdReport`, `IpoptFails` (`Spec/Report.lean`) list the results by the first step that fails; equivalence with `cmdSolve` and `ipoptSolve` by following the steps. |
| C74 | violations in double precision | `F64` (`Spec/Binary64.lean`): doubles as NaN, infinities and signed rationals of 53 bits; operations round to nearest even (`F64.ofRat_rounds`). `Constraint.violation` over `F64`: the difference of two doubles is on the grid of subnormal numbers, so it rounds to zero only if it is zero. |
| C75 | coefficients in double precision | `WritesTerms` (`Spec/ExactData.lean`) lists the terms that a sequence of operator calls writes down; by induction on it the standard form holds exactly these numbers as doubles (`Proofs/ExactData.lean`), because every operation on them has a representable result. |
| C76 | linear models in double precision | `Spec/ExactSolve.lean` says what a point of a problem with double data satisfies, in exact rationals; the pieces of the standard problem (C22–C28) carry exactly the written coefficients (C75), so rows, bounds and costs are the written formulas. |
| C77 | exact evaluation of integer and fixed-point formulas | `Spec/ExactEval.lean` (`Computes`) says, in integers, what a formula written by operator calls denotes and how large it is. The simplified expression is a sum of atoms and a constant (as in C75) whose terms have at most that size, so every partial sum fits into 53 bits. |
| C78 | `partial` of single operations | `Spec/Operand.lean` (`withOperand`) writes the outermost operation as a real function of one operand; case analysis, with Mathlib's derivatives of the seven operations. |
| C79 | rounding errors in double precision | `Spec/Rounding64.lean` (`Writes64`) writes formulas down with their exact real value, their size and a count of operations; the representation argument of C64 (`Proofs/Rounding64*.lean`) is repeated for `F64`, with the error of each operation (relative `2^-53`, or absolute `2^-1075` on underflow; none on underflow of sums and integer multiples) derived from the definition of rounding, and with bounds that exclude overflow. |
| C80 | rounding errors of coefficients in double precision | `Spec/RoundingStd64.lean` (`WritesLinear64`); the extraction of one coefficient, and of the constant, are further instances of the class `R64.LinEv` on which the proof of C79 rests. |
| C81 | linear models in double precision | `Spec/RoundingSolve64.lean`: `Minlp.LinearWithin64` (bounds may be infinite or NaN), `Minlp.LinearKkt64`. From C80 as C72 is from C71 (`Proofs/RoundingSolve64.lean`, `Proofs/RoundingLp64.lean`); the same weak duality. |
| C82 | Clp and Cbc in double precision through files | `Code/Float64.lean`: `{:.10e}` and `str::parse::<f64>` on doubles; `Spec/File64.lean`: a command that solves LP files of finite decimal numbers up to tolerances. `Proofs/File64.lean`: the text of a double is read as the nearest number of eleven digits, a decimal text as the nearest double; `Proofs/FileWithin64.lean`: the answer satisfies the standard problem up to the tolerances and these errors; then C81. `Spec/FloatText.lean`: the documented grammar of `f64::from_str`; `Props/FloatText.lean`: the reader accepts exactly it. |
| C83 | Nonlinear models in double precision | `Spec/RoundingNlp64.lean`: the slack of a row, what is minimised as a formula, a point that satisfies the problem up to tolerances. The function of a row is two operator calls on the sides of the constraint and the slack, so C79 bounds its error; at a solution the slack is bounded by the sizes of the formulas (`Props/RoundingNlp64.lean`). |
| C84 | Derivatives in double precision | `Spec/RoundingDeriv64.lean`: exact value, size and operation count of stored expressions and of the terms of the chain rule. The library builds one product per path; each partial derivative, product and sum is bounded by the lemmas of C79, and the sums over paths of values, sizes and counts satisfy the rules of differentiation (`Proofs/RoundingDeriv64.lean`, `Props/RoundingDeriv64.lean`). |
| C85 | Sums are flat | `Spec/SumForm.lean`; invariant over programs (`Proofs/SumForm.lean`), used in C84. |
| C86 | Derivatives told to a solver, in double precision | `Spec/RoundingGrad64.lean`. Subtraction and negation keep sizes and counts (`Proofs/RoundingGrad64.lean`), coefficients of affine expressions are approximate derivatives (`Proofs/RoundingGradLin64.lean`), entries of the gradient and the Jacobian (`Proofs/RoundingGradStd64.lean`, `Props/RoundingGrad64.lean`). |
| C87 | Linear values in double precision | `Spec/LinearValues64.lean`. Induction over the tree of additions (`SumOf`, any order), `Proofs/LinearValues64.lean`; the dot product is modelled as ndarray 0.13 computes it (eight partial sums, `Code/Problem.lean` `unrolledDot`), `Props/LinearValues64.lean`. |
| C88 | Ipopt answers in double precision | `Spec/IpoptWithin64.lean`: the promise of the library about the doubles that the callbacks deliver. `Proofs/IpoptWithin64.lean`: the delivered row against the exact row (C87's sums in any order), `Props/IpoptWithin64.lean`: composed with the standardization in doubles (C79, C83). |
| C89 | Ipopt optima in double precision | `Spec/IpoptOpt64.lean`: the promise of the library about point and multipliers. `Props/IpoptOpt64.lean`: the delivered gradient and Jacobian are the costs and the rows of the representation, exactly; composed with C81. |
| C90 | `assert_vec_approx_eq!` | `Code/Macros.lean`; `Props/Macros.lean`: induction on the loop; rounding to nearest is monotone against doubles, and a difference of doubles has a relative error. |
| C91 | exact derivatives of integer polynomials, any order | `Spec/PolyDeriv64.lean` (`WritesPoly`), `Proofs/PolyRep64.lean`, `Proofs/PolyDeriv64.lean`: each stored tree denotes a polynomial over the integers; every operator and the sum over paths of `derivative` keeps it, and a bound on the polynomial with absolute values keeps every intermediate result an integer of at most 53 bits. |
| C92 | exact objective, gradient, Hessian, row values, Jacobian of integer polynomial models | `Spec/PolyModel64.lean`, `Proofs/PolyStd64.lean`, `Proofs/PolyModel64.lean`: C91 for each expression, carried through the standard form (stored keys are exactly the variables / variable pairs of the tree; absent keys have zero derivative) and through `evaluate` after any history. |
| C93 | the callbacks with the arrays behind the raw pointers (`Code/IpoptMem.lean`): an access outside of an array is a fault | each raw loop and copy is followed cell by cell; an invariant (sizes of buffers) over any adaptive sequence of calls; the callbacks of `Code/Ipopt.lean` are refined exactly. **False** for evaluation functions (safe code) that change the sizes of the buffers: counterexamples for four callbacks |
| C94 | `all_simple_paths`, `derivative` with the counter of created cells | induction over the expression: paths are counted by the places where the variable is written (`Spec/PathCount.lean`); the squaring program is followed for every k; upper bounds by `Within` (cells made and a postcondition) through differentiation, standard form and `solve` (`Proofs/Cells.lean`) |
| C95 | `derivative`, `solve` | kinds of steps of a path (factor is a number or not); products of the first kind are constants, of the second kind are never constants other than zero; sums within one kind never panic. **False** in the mixed case: counterexamples, also for `solve`. For exact numbers the panics are characterised exactly: the products along the paths as (number of terms, sum of numbers), an associative product, recursive on the formula (Spec/DerivForm.lean) |
| C96 | `std_problem`, `solve` of linear models | an affine objective is differentiated only into constants (C95), so only the subtraction of the sides of a constraint can panic; the panic condition of `subN` is computed exactly. **False** for constraints `t + k <= k`: counterexample |
| C97 | the `Rc` cells of nodes and constraints: addresses, reference counts, destructor steps, any allocator (`Code/Memory.lean`) | invariant over all operation sequences: each count is the number of references, references go to older cells; reading an expression is a relation (`MemReads`, `MemReadsC`), stable under every step |
| C98 | expression operators, differentiation, standard form of constraints, objective and model, solve | degrees in a group (signs: Z/2, total degree: Z): every operator keeps degrees, and numbers of the same degree cannot cancel to the zero that the operators panic on; a derivative of a function of degree d has degree d minus the degree of a variable |
| C99 | whole API, two runs | renaming of addresses by an injective function: every function of the model commutes with it (Proofs/Rename*.lean); the relation between the two worlds is kept by equal calls, and by other work with another renaming of the addresses not used yet |
| C100 | `Display`, `evaluate`, `std_properties` and the multiplications with a limited number of nested calls (Code/Stack.lean); the destructor of the `Rc` cells with a limited number of nested calls (Code/MemStack.lean) | equal to the unlimited functions iff depth ≤ limit, by induction on the limit; depth bounds of every operator, chain rule and component function as postconditions of the monad |
| C101 | length of the written-out formula; `evaluate` with counted calls (Code/Cost.lean) | postconditions of the monad for length and number of distributed terms of every operator; along a path of the chain rule each step adds at most six times the length of the formula |
| C102 | `solve` of Clp and Cbc in single steps on a shared directory (Code/CmdProc.lean), any interleaving (`Together`, Spec/Concurrent.lean) | an invariant per position says what the two files of the call hold in terms of the run alone; steps of other calls touch other files |
| C103 | the callbacks of `Code/Ipopt` on the standard problem of a model, doubles (`F64`) | C51 and C52 say the callbacks deliver `evaluate`; composed with C92 (integer polynomials), C83 and C86 (rounding) |

## 4. Trusted base

* Lean's kernel. Every theorem depends at most on the axioms `propext`, `Classical.choice`, `Quot.sound` (checked by `vcheck`).
* The reading of the Rust sources that the comments of `Verif/Code` record, and the modelling decisions of section 1.
* Structural theorems hold for any arithmetic. Theorems about values say which arithmetic they are about: exact arithmetic with a missing value (`Option K`; the reals for calculus), the standard
  model of rounding (C64, C71, C72; no overflow and underflow), or binary64 itself (C74-C77, C79-C84, C86-C92; `Code/Float64.lean`, where `sin` and `cos` are parameters). That Rust's `f64`
  operations are those of `Code/Float64.lean` is trusted.
* The stack (C100) counts nested calls, not bytes; memory cells (C97) are counted, not measured.
* Printing and parsing of numbers (`{}`, `{:.10e}`, `str::parse::<f64>`) are parameters with stated hypotheses (`LpFmt`, `Readable`, `parseF`). C68 replaces the parameter for `{:.10e}` by a model of the format that `core::fmt` documents (ten digits after the point, nearest, ties to even); that std implements this format correctly is trusted.

## 5. Findings: properties that the code violates

Each has a theorem that exhibits the violation and a `_partial` theorem with the exact condition under which the property holds.

1. C03 `(x + 5.) - 5.` and the constraint `(x + 5.).leq(5.)` panic (an empty or one-argument sum reaches `FunctionAdd::new`).
2. C07 the derivative of `x / x` is computed as `2 / x`: `partial` returns only the numerator's entry for each of the two paths.
3. C13 `FunctionMul::new(x, FunctionCos::new(3))` (raw constructors) is reported affine with coefficient 3.
4. C18 the violation of an inequality is 0 when a variable has no value (`C18_missing`).
5. C25 the standard problem has the box ±1e8 and ignores NaN bounds (stated in the theorem).
6. C32 bounds that are not the tightest get no dual.
7. C41 no constructor checks the length of `x0`; `ProblemMilp::new` does not check the length of `c`.
8. C48 `read_sol_file` panics on an index beyond the problem.
9. C50 the input file is left behind if `logLevel` was removed through `get_params_mut`; the file names are unique in the directory for temporary files but used in the working directory, where a file of the user with such a name is overwritten and removed; C54 native problems leak on error paths; a string option
   with a NUL panics.
10. C52 requests without `new_lambda` get the Hessian of earlier multipliers, or nothing with `TRUE`; C53 one inconsistent request changes the problem.
11. C44 the LP writer leaves out coefficients that are not numbers, and the constant of the objective.
12. C51 `eval_jac_g` announces the rows of `J` without the offset of the linear rows.
13. C93 safe code can cause undefined behaviour: the evaluation function of a `ProblemNlp` gets `&mut Vec<f64>` and `&mut CooMat<f64>`; if it changes their sizes, the Ipopt callbacks read or write out of bounds.
14. C95 `y*(x+5) - 5*y` can be built, but its derivative by `y` panics, because the partial sum `-5 + (x + 5)` of the chain rule has a single term left; solving a model with this objective
    panics before any solver is called. Whether it happens depends on the order in which the terms were written: `3*y + x*y + (-3)*y` panics, `x*y + 3*y + (-3)*y` does not (`C95_exact` says exactly when).
15. C94 differentiation of shared sub-expressions takes exponentially many steps; so does evaluating them (`C101_squarings`).
16. C96 the linear constraint `x + 5 <= 5` can be built and added to a model, but solving the model panics (`x + 5 - 5` is computed while the problem is put into standard form).
17. C100 sums are flattened but products are not: `p = p * x` or `p = p * 1.5` in a loop makes an expression whose depth is the number of iterations, and evaluating, printing, analysing (`std_properties`) or
    dropping it recurses that deep; for large loops the process is aborted by a stack overflow.
18. C102 the names of the two files of a call come from temporary files in the temporary directory that are removed at once; the files are then created in the working directory. Nothing reserves the
    names: two calls with equal names disturb each other (`C102_counterexample`: one returns the solution of the other one's problem), and a file of the user with that name is overwritten and removed.
