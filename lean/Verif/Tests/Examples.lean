import Verif.Tests.Std

/-!
# The repository's examples and integration tests, run on the model

Written by hand after /repo/examples and /repo/tests. The external solver is replaced by one that checks the problem it is
lent against the problem the example writes by hand and answers the solution the example expects; everything before it (the
standard problem) and after it (final primals and duals) is the model of the repository's code.
-/

namespace Verif.Tests
open Verif

/-- what a command-line solver is lent of a problem: objective, matrix entries, right-hand side, bounds and integer columns -/
def sameMilp (q : Milp Q) (c : List Q) (es : List (Nat × Nat × Q)) (b l u : List Q) (p : List Bool) : Bool :=
  q.c == c && q.base.b == b && q.base.l == l && q.base.u == u && q.base.p == p &&
  es.all (fun e => ((q.base.a.rowInds.zip q.base.a.colInds).zip q.base.a.data).count ((e.1, e.2.1), e.2.2) == 1) &&
  q.base.a.data.length == es.length

/-- a solver that answers with `sol` on the problem described, and fails on every other one -/
def oracle (ok : Problem Q → Bool) (sol : Sol Q) : SolverFn Q := fun p =>
  .ok (if ok p then .ok (.solved, sol) else .error "not the problem expected")

/-- was the problem the one expected? -/
def solvedOk : Except String Unit → Bool
  | .ok _ => true
  | .error _ => false

/-- the knapsack example, examples/cbc_knapsack.rs:9-78. The slack variable `_s_a0_` comes first, so its column (the
last one of the example's raw problem) is the first one here; the constant 10 is on the right-hand side instead of in its
bounds. -/
def knapsack : M Bool := do
  let x1 ← newVar (F := Q) "x1" .integer
  let x2 ← newVar (F := Q) "x2" .integer
  let x3 ← newVar (F := Q) "x3" .integer
  let x4 ← newVar (F := Q) "x4" .integer
  let x5 ← newVar (F := Q) "x5" .integer
  let obj ← addN (← addN (← addN (← addN (← sMul (some 5) x1) (← sMul (some 3) x2)) (← sMul (some 2) x3)) (← sMul (some 7) x4))
    (← sMul (some 4) x5)
  let lhs ← addN (← addN (← addN (← addN (← sMul (some 2) x1) (← sMul (some 8) x2)) (← sMul (some 4) x3)) (← sMul (some 2) x4))
    (← sMul (some 5) x5)
  let cs := [← leqNS lhs (some 10) "", ← leqNS x1 (some 1) "", ← geqNS x1 (some 0) "", ← leqNS x2 (some 1) "",
    ← geqNS x2 (some 0) "", ← leqNS x3 (some 1) "", ← geqNS x3 (some 0) "", ← leqNS x4 (some 1) "", ← geqNS x4 (some 0) "",
    ← leqNS x5 (some 1) "", ← geqNS x5 (some 0) ""]
  let m := (Model.new.setObjective (.maximize obj)).addConstraints cs
  let expected : Problem Q → Bool
    | .milp q => sameMilp q [some 0, some (-5), some (-3), some (-2), some (-7), some (-4)]
        [(0, 0, some (-1)), (0, 1, some 2), (0, 2, some 8), (0, 3, some 4), (0, 4, some 2), (0, 5, some 5)] [some 10]
        [some (-100000000), some 0, some 0, some 0, some 0, some 0] [some 0, some 1, some 1, some 1, some 1, some 1]
        [false, true, true, true, true, true]
    | _ => false
  let sol : Sol Q := ⟨[some (-1), some 1, some 0, some 0, some 1, some 1], [some 0], [], List.replicate 6 (some 0),
    List.replicate 6 (some 0)⟩
  let r ← m.solve H (oracle expected sol)
  let fp := r.2.finalPrimals
  return solvedOk r.1 && r.2.solverStatus == some .solved && getN fp x1 == some (some 1) && getN fp x2 == some (some 0) &&
    getN fp x3 == some (some 0) && getN fp x4 == some (some 1) && getN fp x5 == some (some 1)

example : passes knapsack = true := by decide +kernel

/-- the production example, examples/clp.rs:11-74 -/
def clpExample : M Bool := do
  let x ← newVar (F := Q) "x" .continuous
  let y ← newVar (F := Q) "y" .continuous
  let f ← subN (← sMul (some 2) x) (← sMul (some 5) y)
  let c1 ← geqNS x (some 100) ""
  let c2 ← leqNS x (some 200) ""
  let c3 ← geqNS y (some 80) ""
  let c4 ← leqNS y (some 170) ""
  let c5 ← equalNN (← addN y (← sMul (some 2) x)) (← addS x (some 200)) ""
  let m := (((((Model.new.setObjective (.minimize f)).addConstraint c1).addConstraint c2).addConstraint c3).addConstraint
    c4).addConstraint c5
  let expected : Problem Q → Bool
    | .lp q => sameMilp q.baseMilp [some 2, some (-5)] [(0, 0, some 1), (0, 1, some 1)] [some 200] [some 100, some 80]
        [some 200, some 170] [false, false]
    | _ => false
  -- the solution has c = Aᵀλ + π - μ with λ = -5, π = (7, 0), μ = 0
  let sol : Sol Q := ⟨[some 100, some 100], [some (-5)], [], [some 0, some 0], [some 7, some 0]⟩
  let r ← m.solve H (oracle expected sol)
  let fp := r.2.finalPrimals
  let σ : Env Q := fun i => (fp.find? (fun e => e.1.id == i)).map Prod.snd
  let fd := r.2.finalDuals
  return solvedOk r.1 && r.2.solverStatus == some .solved && getN fp x == some (some 100) &&
    f.evaluate σ == some (-300) &&
    getC fd c1 == some (some 7) && getC fd c5 == some (some (-5))

example : passes clpExample = true := by decide +kernel

/-- `numopt_model_solve_milp_cbc_cmd`, tests/model.rs:6-33 -/
def milpTest : M Bool := do
  let x1 ← newVar (F := Q) "x1" .integer
  let x2 ← newVar (F := Q) "x2" .integer
  let x3 ← newVar (F := Q) "x3" .continuous
  let x4 ← newVar (F := Q) "x4" .continuous
  let f ← subN (← negN x1) x2
  let c1 ← equalNS (← addN (← addN (← sMul (some (-2)) x1) (← sMul (some 2) x2)) x3) (some 1) ""
  let c2 ← equalNS (← addN (← addN (← sMul (some (-8)) x1) (← sMul (some 10) x2)) x4) (some 13) ""
  let c3 ← geqNS x4 (some 0) ""
  let c4 ← leqNS x3 (some 0) ""
  let m := ((((Model.new.setObjective (.minimize f)).addConstraint c1).addConstraint c2).addConstraint c3).addConstraint c4
  let expected : Problem Q → Bool
    | .milp q => sameMilp q [some (-1), some (-1), some 0, some 0]
        [(0, 0, some (-2)), (0, 1, some 2), (0, 2, some 1), (1, 0, some (-8)), (1, 1, some 10), (1, 3, some 1)]
        [some 1, some 13] [some (-100000000), some (-100000000), some (-100000000), some 0]
        [some 100000000, some 100000000, some 0, some 100000000] [true, true, false, false]
    | _ => false
  let sol : Sol Q := ⟨[some 1, some 2, some (-1), some 1], [some 0, some 0], [], List.replicate 4 (some 0),
    List.replicate 4 (some 0)⟩
  let r ← m.solve H (oracle expected sol)
  let fp := r.2.finalPrimals
  return solvedOk r.1 && r.2.solverStatus == some .solved && getN fp x1 == some (some 1) && getN fp x2 == some (some 2)

example : passes milpTest = true := by decide +kernel

/-- the variables of `(0..N).map(|i| VariableScalar::new_continuous(format!("x{}", i)))`, for `N` at most ten -/
def vars (p : String) : Nat → M (List (Node Q))
  | 0 => pure []
  | n + 1 => do
    let xs ← vars p n
    return xs ++ [← newVar (p ++ String.ofList (digits 3 n)) .continuous]

/-- the terms of the Rosenbrock objective, tests/model.rs:49-52 -/
def rosenbrock (x : List (Node Q)) : Nat → M (Node Q)
  | 0 => newConst (some 0)
  | i + 1 => do
    let f ← rosenbrock x i
    let y ← unwrapM x[i + 1]?
    let z ← unwrapM x[i]?
    let a ← subN y (← mulN z z)
    let b ← subN y (← mulN z z)
    addN (← addN f (← mulN (← sMul (some 100) a) b)) (← mulN (← sSub (some 1) z) (← sSub (some 1) z))

/-- `numopt_model_solve_nlp1_ipopt`, tests/model.rs:37-69, for four variables: the problem lent to the solver is a nonlinear
one without constraints whose evaluation at ones gives value and gradient zero, and at the starting point of the model
(zeros) gives value 3 and gradient (-2, -2, -2, 0) -/
def nlp1 : M Bool := do
  let x ← vars "x" 4
  let f ← rosenbrock x 3
  let m := Model.new.setObjective (.minimize f)
  let expected : Problem Q → Bool
    | .nlp q =>
      q.base.a.data.length == 0 && q.base.buf.f.length == 0 &&
      (match q.base.evaluate (List.replicate 4 (some 1)) with
        | .ok q' => q'.buf.phi == some 0 && q'.buf.gphi == List.replicate 4 (some 0) &&
          -- the entries of the Hessian on the diagonal, 2 + 800 + 200
          (((q'.buf.hphi.rowInds.zip q'.buf.hphi.colInds).zip q'.buf.hphi.data).all fun e =>
            if e.1.1 == e.1.2 then e.2 == some (if e.1.1 == 0 then 802 else if e.1.1 == 3 then 200 else 1002)
            else e.2 == some (-400) || e.2 == some 0)
        | .error _ => false) &&
      (match q.base.evaluate (List.replicate 4 (some 0)) with
        | .ok q' => q'.buf.phi == some 3 && q'.buf.gphi == [some (-2), some (-2), some (-2), some 0]
        | .error _ => false)
    | _ => false
  let sol : Sol Q := ⟨List.replicate 4 (some 1), [], [], List.replicate 4 (some 0), List.replicate 4 (some 0)⟩
  let r ← m.solve H (oracle expected sol)
  return solvedOk r.1 && x.all (fun v => getN r.2.finalPrimals v == some (some 1))

example : passes nlp1 = true := by decide +kernel
/-- the objective of the clnlbeam problem, tests/model.rs:91-95, with `h = 1/2` -/
def beamObj (t u : List (Node Q)) : Nat → M (Node Q)
  | 0 => newConst (some 0)
  | i + 1 => do
    let f ← beamObj t u i
    let u0 ← unwrapM u[i]?
    let u1 ← unwrapM u[i + 1]?
    let t0 ← unwrapM t[i]?
    let t1 ← unwrapM t[i + 1]?
    addN (← addN f (← sMul (some (1 / 4)) (← addN (← mulN u0 u0) (← mulN u1 u1))))
      (← sMul (some (175 / 2)) (← addN (← cosN t0) (← cosN t1)))

/-- its equality constraints, tests/model.rs:99-102 -/
def beamEqs (t x u : List (Node Q)) : Nat → M (List (Constraint Q))
  | 0 => pure []
  | i + 1 => do
    let cs ← beamEqs t x u i
    let x0 ← unwrapM x[i]?
    let x1 ← unwrapM x[i + 1]?
    let u0 ← unwrapM u[i]?
    let u1 ← unwrapM u[i + 1]?
    let t0 ← unwrapM t[i]?
    let t1 ← unwrapM t[i + 1]?
    let c ← equalNS (← subN (← subN x1 x0) (← sMul (some (1 / 4)) (← addN (← sinN t1) (← sinN t0)))) (some 0) ""
    let d ← equalNS (← subN (← subN t1 t0) (← sMul (some (1 / 4)) (← subN u1 u0))) (some 0) ""
    return cs ++ [c, d]

/-- its bounds, tests/model.rs:103-108 -/
def beamBounds : List (Node Q) → List (Node Q) → M (List (Constraint Q))
  | t :: ts, x :: xs => do
    let b := [← leqNS t (some 1) "", ← geqNS t (some (-1)) "", ← leqNS x (some (1 / 20)) "", ← geqNS x (some (-1 / 20)) ""]
    return b ++ (← beamBounds ts xs)
  | _, _ => pure []

/-- `numopt_model_solve_nlp2_ipopt`, tests/model.rs:71-117, for two intervals: the problem lent to the solver is a nonlinear
one in nine variables (t0, t1, t2, u0, u1, u2, x0, x1, x2) with two linear and two nonlinear equations, twelve bounds become
variable bounds, and at zeros the objective is the 350 the test expects of the solution and both equations are met -/
def nlp2 : M Bool := do
  let t ← vars "t" 3
  let x ← vars "x" 3
  let u ← vars "u" 3
  let f ← beamObj t u 2
  let m := ((Model.new.setObjective (.minimize f)).addConstraints (← beamEqs t x u 2)).addConstraints (← beamBounds t x)
  let row : Nat → List (Nat × Nat × Q) := fun k =>
    [(k, k, some (-1)), (k, k + 1, some 1), (k, k + 3, some (1 / 4)), (k, k + 4, some (-1 / 4))]
  let expected : Problem Q → Bool
    | .nlp q =>
      let es := (q.base.a.rowInds.zip q.base.a.colInds).zip q.base.a.data
      let js := q.base.buf.j.rowInds.zip q.base.buf.j.colInds
      (row 0 ++ row 1).all (fun e => es.count ((e.1, e.2.1), e.2.2) == 1) && es.length == 8 &&
      q.base.b == [some 0, some 0] && q.base.buf.f.length == 2 &&
      [(0, 0), (0, 1), (0, 6), (0, 7), (1, 1), (1, 2), (1, 7), (1, 8)].all (fun e => js.count e == 1) && js.length == 8 &&
      q.base.l == List.replicate 3 (some (-1)) ++ List.replicate 3 (some (-100000000)) ++ List.replicate 3 (some (-1 / 20)) &&
      q.base.u == List.replicate 3 (some 1) ++ List.replicate 3 (some 100000000) ++ List.replicate 3 (some (1 / 20)) &&
      (match q.base.evaluate (List.replicate 9 (some 0)) with
        | .ok q' => q'.buf.phi == some 350 && q'.buf.f == [some 0, some 0]
        | .error _ => false)
    | _ => false
  let sol : Sol Q := ⟨List.replicate 9 (some 0), [some 0, some 0], [some 0, some 0], List.replicate 9 (some 0),
    List.replicate 9 (some 0)⟩
  let r ← m.solve H (oracle expected sol)
  let σ : Env Q := fun i => (r.2.finalPrimals.find? (fun e => e.1.id == i)).map Prod.snd
  return solvedOk r.1 && f.evaluate σ == some 350

example : passes nlp2 = true := by decide +kernel
end Verif.Tests
