import Verif.Tests.Expr
import Verif.Code.ModelPrint

/-!
# The repository's tests of standard forms, matrices, problems and printed models, run on the model

Written by hand after the tests in /repo cited at each definition. Loops over hash-ordered collections with one `if` per
expected entry and a `panic!` otherwise become: the length is right and every entry is one of the expected ones.
-/

namespace Verif.Tests
open Verif

/-- the order in which the model keeps hash maps -/
abbrev H := HashOrder.listOrder

/-- `{}` of an expression is the string -/
def prints (e : Node Q) (s : List Char) : Bool := e.print testFmt == s

/-- `node_std_comp_affine`, src/model/node_std.rs:150-174 -/
def node_std_comp_affine : M Bool := do
  let x ← newVar (F := Q) "x" .continuous
  let y ← newVar (F := Q) "y" .continuous
  let z1 ← addS (← addN (← sMul (some 7) x) (← sMul (some 10) y)) (some 5)
  let c1 ← z1.stdComponents H
  return c1.prop.affine && c1.phi.ptrEq z1 && c1.gphi.length == 2 &&
    c1.gphi.all (fun e => (e.1.ptrEq x && e.2.isConstVal (some 7)) || (e.1.ptrEq y && e.2.isConstVal (some 10))) &&
    c1.hphi.length == 0

example : passes node_std_comp_affine = true := by decide +kernel

/-- `node_std_comp_not_affine`, src/model/node_std.rs:177-218 -/
def node_std_comp_not_affine : M Bool := do
  let x ← newVar (F := Q) "x" .continuous
  let y ← newVar (F := Q) "y" .continuous
  let z2 ← addS (← addN (← sMul (some 7) (← cosN x)) (← mulN (← sMul (some 10) y) x)) (some 5)
  let c2 ← z2.stdComponents H
  return !c2.prop.affine && c2.phi.ptrEq z2 && c2.gphi.length == 2 &&
    c2.gphi.all (fun e =>
      (e.1.ptrEq x && prints e.2 ['1', '0', '*', 'y', ' ', '+', ' ', '7', '*', '-', '1', '*', 's', 'i', 'n', '(', 'x', ')']) ||
      (e.1.ptrEq y && prints e.2 ['x', '*', '1', '0'])) &&
    c2.hphi.length == 2 &&
    c2.hphi.all (fun e =>
      (e.1.ptrEq x && e.2.1.ptrEq x && prints e.2.2 ['-', '7', '*', 'c', 'o', 's', '(', 'x', ')']) ||
      (e.1.ptrEq x && e.2.1.ptrEq y && e.2.2.isConstVal (some 10)) ||
      (e.1.ptrEq y && e.2.1.ptrEq x && e.2.2.isConstVal (some 10)))

example : passes node_std_comp_not_affine = true := by decide +kernel

/-- the numbers of entries of the components, in the order of the assertions: ca, cj, a, b, f, j, h, u, l -/
def lens (c : ConstrComp Q) : List Nat :=
  [c.ca.length, c.cj.length, c.a.length, c.b.length, c.f.length, c.j.length, c.h.length, c.u.length, c.l.length]

/-- `constr_std_comp_u_bound` and `constr_std_comp_l_bound`, src/model/constraint_std.rs:226-280 -/
def constr_std_comp_bounds : M Bool := do
  let x ← newVar (F := Q) "x" .continuous
  let c1 ← leqNS x (some 3) ""
  let (p, arow, jrow) ← c1.stdComponents H 1 2
  let c2 ← geqNS x (some (-4)) ""
  let (q, arow', jrow') ← c2.stdComponents H 1 2
  return lens p == [0, 0, 0, 0, 0, 0, 0, 1, 0] && p.u.all (fun e => e.1.ptrEq x && e.2.1 == some 3 && e.2.2.ptrEq c1) &&
    arow == 1 && jrow == 2 &&
    lens q == [0, 0, 0, 0, 0, 0, 0, 0, 1] && q.l.all (fun e => e.1.ptrEq x && e.2.1 == some (-4) && e.2.2.ptrEq c2) &&
    arow' == 1 && jrow' == 2

example : passes constr_std_comp_bounds = true := by decide +kernel

/-- `3 x + 4 y + 6` -/
def affineExpr (x y : Node Q) : M (Node Q) := do
  addS (← addN (← sMul (some 3) x) (← sMul (some 4) y)) (some 6)

/-- the entries of `a` in the affine tests -/
def affineRow (x y : Node Q) (es : List (Nat × Node Q × Q)) : Bool :=
  es.all fun e => (e.2.1.ptrEq x && e.1 == 1 && e.2.2 == some 3) || (e.2.1.ptrEq y && e.1 == 1 && e.2.2 == some 4) ||
    (e.2.1.name == "_s_a1_" && e.1 == 1 && e.2.2 == some (-1))

/-- a slack bound -/
def slackBound (name : String) (c : Constraint Q) (es : List (Node Q × Q × Constraint Q)) : Bool :=
  es.all fun e => e.1.name == name && e.2.1 == some 0 && e.2.2.ptrEq c

/-- `constr_std_comp_affine_eq`, `_leq` and `_geq`, src/model/constraint_std.rs:282-436 -/
def constr_std_comp_affine : M Bool := do
  let x ← newVar (F := Q) "x" .continuous
  let y ← newVar (F := Q) "y" .continuous
  let c1 ← equalNS (← affineExpr x y) (some 5) ""
  let (p, a1, j1) ← c1.stdComponents H 1 2
  let c2 ← leqNS (← affineExpr x y) (some 5) ""
  let (q, a2, j2) ← c2.stdComponents H 1 2
  let c3 ← geqNS (← affineExpr x y) (some 5) ""
  let (r, a3, j3) ← c3.stdComponents H 1 2
  return lens p == [1, 0, 2, 1, 0, 0, 0, 0, 0] && p.ca.all (·.ptrEq c1) && affineRow x y p.a && p.b == [some (-1)] &&
    a1 == 2 && j1 == 2 &&
    lens q == [1, 0, 3, 1, 0, 0, 0, 1, 0] && q.ca.all (·.ptrEq c2) && affineRow x y q.a && q.b == [some (-1)] &&
    slackBound "_s_a1_" c2 q.u && a2 == 2 && j2 == 2 &&
    lens r == [1, 0, 3, 1, 0, 0, 0, 0, 1] && r.ca.all (·.ptrEq c3) && affineRow x y r.a && r.b == [some (-1)] &&
    slackBound "_s_a1_" c3 r.l && a3 == 2 && j3 == 2

example : passes constr_std_comp_affine = true := by decide +kernel

/-- `3 x x + 4 x y + 7 y y + 8` -/
def quadExpr (x y : Node Q) : M (Node Q) := do
  addS (← addN (← addN (← mulN (← sMul (some 3) x) x) (← mulN (← sMul (some 4) x) y)) (← mulN (← sMul (some 7) y) y)) (some 8)

/-- the entries of `j` in the nonlinear tests -/
def quadJac (x y : Node Q) (es : List (Nat × Node Q × Node Q)) : Bool :=
  es.all fun e => (e.2.1.ptrEq x && e.1 == 2 &&
      prints e.2.2 ['y', '*', '4', ' ', '+', ' ', '3', '*', 'x', ' ', '+', ' ', 'x', '*', '3']) ||
    (e.2.1.ptrEq y && e.1 == 2 && prints e.2.2 ['7', '*', 'y', ' ', '+', ' ', 'y', '*', '7', ' ', '+', ' ', '4', '*', 'x']) ||
    (e.2.1.name == "_s_j2_" && e.1 == 2 && e.2.2.isConstVal (some (-1)))

/-- the entries of `h` in the nonlinear tests -/
def quadHess (x y : Node Q) (hs : List (List (Node Q × Node Q × Node Q))) : Bool :=
  hs.all fun es => es.length == 3 && es.all fun e =>
    (e.1.ptrEq x && e.2.1.ptrEq x && e.2.2.isConstVal (some 6)) || (e.1.ptrEq x && e.2.1.ptrEq y && e.2.2.isConstVal (some 4)) ||
    (e.1.ptrEq y && e.2.1.ptrEq x && e.2.2.isConstVal (some 4)) || (e.1.ptrEq y && e.2.1.ptrEq y && e.2.2.isConstVal (some 14))

/-- `constr_std_comp_nonlinear_eq`, `_leq` and `_geq`, src/model/constraint_std.rs:438-650 -/
def constr_std_comp_nonlinear : M Bool := do
  let x ← newVar (F := Q) "x" .continuous
  let y ← newVar (F := Q) "y" .continuous
  let c1 ← equalNS (← quadExpr x y) (some 5) ""
  let (p, a1, j1) ← c1.stdComponents H 1 2
  let c2 ← leqNS (← quadExpr x y) (some 5) ""
  let (q, a2, j2) ← c2.stdComponents H 1 2
  let c3 ← geqNS (← quadExpr x y) (some 5) ""
  let (r, a3, j3) ← c3.stdComponents H 1 2
  let f0 := ['3', '*', 'x', '*', 'x', ' ', '+', ' ', '4', '*', 'x', '*', 'y', ' ', '+', ' ', '7', '*', 'y', '*', 'y']
  let s := [' ', '+', ' ', '-', '1', '*', '_', 's', '_', 'j', '2', '_']
  return lens p == [0, 1, 0, 0, 1, 2, 1, 0, 0] && p.f.all (prints · (f0 ++ [' ', '+', ' ', '3'])) && quadJac x y p.j && quadHess x y p.h &&
    a1 == 1 && j1 == 3 &&
    lens q == [0, 1, 0, 0, 1, 3, 1, 1, 0] && q.f.all (prints · (f0 ++ s ++ [' ', '+', ' ', '3'])) && quadJac x y q.j && quadHess x y q.h &&
    slackBound "_s_j2_" c2 q.u && a2 == 1 && j2 == 3 &&
    lens r == [0, 1, 0, 0, 1, 3, 1, 0, 1] && r.f.all (prints · (f0 ++ s ++ [' ', '+', ' ', '3'])) && quadJac x y r.j && quadHess x y r.h &&
    slackBound "_s_j2_" c3 r.l && a3 == 1 && j3 == 3

example : passes constr_std_comp_nonlinear = true := by decide +kernel

/-- the entry of a map from indices to constraints -/
def maps (m : List (Nat × Constraint Q)) (es : List (Nat × Constraint Q)) : Bool :=
  m.length == es.length && es.all fun e => m.any fun f => f.1 == e.1 && f.2.ptrEq e.2

/-- the map from variables to columns -/
def columns (m : List (Node Q × Nat)) (x y : Node Q) (ix iy : Nat) (rest : List (String × Nat)) : Bool :=
  m.length == 2 + rest.length && m.all fun e => (e.1.ptrEq x && e.2 == ix) || (e.1.ptrEq y && e.2 == iy) || rest.any fun r => e.1.name == r.1 && e.2 == r.2

/-- the entries of a matrix are among the given ones, and there are `n` of them -/
def entries (a : Coo Q) (n : Nat) (es : List (Nat × Nat × Q)) : Bool :=
  a.nnz == n && (a.rowInds.zip (a.colInds.zip a.data)).all fun e => es.any fun f => f.1 == e.1 && f.2.1 == e.2.1 && f.2.2 == e.2.2

/-- `model_std_problem_lp`, src/model/model_std.rs:367-450 -/
def model_std_problem_lp : M Bool := do
  let x ← newVar (F := Q) "x" .continuous
  let y ← newVar (F := Q) "y" .continuous
  let c1 ← equalNS (← addN (← sMul (some 2) x) y) (some 2) ""
  let c2 ← leqNS x (some 5) ""
  let c3 ← geqNS x (some 0) ""
  let c4 ← leqNS y (some 5) ""
  let c5 ← geqNS y (some 0) ""
  let c6 ← geqNN (← subS (← addN (← sMul (some 7) x) (← sMul (some 5) y)) (some 10)) (← subS (← addN x y) (some 3)) ""
  let f ← addS (← addN (← sMul (some 3) x) (← sMul (some 4) y)) (some 1)
  let m := Model.new.setObjective (.maximize f)
  let m := (((((m.addConstraint c1).addConstraint c2).addConstraint c3).addConstraint c4).addConstraint c5).addConstraint c6
  let m ← m.setInitPrimals H [(x, some 2), (y, some 3)]
  let sp ← m.stdProblem H
  match sp.prob with
  | .lp lp =>
    let p := lp.baseMilp.base
    return p.x0 == some [some 0, some 2, some 3] && lp.baseMilp.c == [some 0, some (-3), some (-4)] && p.na == 2 && p.nx == 3 &&
      entries p.a 5 [(0, 1, some 2), (0, 2, some 1), (1, 0, some (-1)), (1, 1, some 6), (1, 2, some 4)] &&
      p.b == [some 2, some 7] && p.l == [some 0, some 0, some 0] && p.u == [some 100000000, some 5, some 5] &&
      columns sp.var2index x y 1 2 [("_s_a1_", 0)] && maps sp.aindex2constr [(0, c1), (1, c6)] && maps sp.jindex2constr [] &&
      maps sp.uindex2constr [(1, c2), (2, c4)] && maps sp.lindex2constr [(0, c6), (1, c3), (2, c5)]
  | _ => return false

example : passes model_std_problem_lp = true := by decide +kernel

/-- `model_std_problem_milp`, src/model/model_std.rs:453-526 -/
def model_std_problem_milp : M Bool := do
  let x ← newVar (F := Q) "x" .integer
  let y ← newVar (F := Q) "y" .continuous
  let c1 ← equalNS (← addN (← sMul (some 2) x) y) (some 2) ""
  let c2 ← leqNS x (some 5) ""
  let c3 ← geqNS x (some 0) ""
  let c4 ← leqNS y (some 5) ""
  let c5 ← geqNS y (some 0) ""
  let f ← addS (← addN (← sMul (some 3) x) (← sMul (some 4) y)) (some 1)
  let m := Model.new.setObjective (.minimize f)
  let m := ((((m.addConstraint c1).addConstraint c2).addConstraint c3).addConstraint c4).addConstraint c5
  let m ← m.setInitPrimals H [(x, some 2), (y, some 3)]
  let sp ← m.stdProblem H
  match sp.prob with
  | .milp milp =>
    let p := milp.base
    return p.x0 == some [some 2, some 3] && milp.c == [some 3, some 4] && p.na == 1 && p.nx == 2 &&
      entries p.a 2 [(0, 0, some 2), (0, 1, some 1)] &&
      p.b == [some 2] && p.l == [some 0, some 0] && p.u == [some 5, some 5] && p.p == [true, false] &&
      columns sp.var2index x y 0 1 [] && maps sp.aindex2constr [(0, c1)] && maps sp.jindex2constr [] &&
      maps sp.uindex2constr [(0, c2), (1, c4)] && maps sp.lindex2constr [(0, c3), (1, c5)]
  | _ => return false

example : passes model_std_problem_milp = true := by decide +kernel

/-- `model_std_problem_nlp`, src/model/model_std.rs:529-706; `sin` and `cos` are those of the exact scalars -/
def model_std_problem_nlp : M Bool := do
  let sin4 : Q := FloatOps.sin (some 4)
  let cos4 : Q := FloatOps.cos (some 4)
  let x ← newVar (F := Q) "x" .continuous
  let y ← newVar (F := Q) "y" .continuous
  let f ← subS (← addN (← sMul (some 3) (← cosN x)) (← mulN (← sMul (some 4) y) y)) (some 10)
  let c1 ← equalNS (← addN (← sMul (some 2) x) (← sMul (some 3) y)) (some 7) ""
  let c2 ← leqNN (← addS (← addN (← sinN x) (← mulN x y)) (some 4)) (← addS x (some 10)) ""
  let c3 ← geqSN (some 5) (← mulN x x) ""
  let m := ((Model.new.setObjective (.maximize f)).addConstraint c1).addConstraint c2 |>.addConstraint c3
  let m ← m.setInitPrimals H [(x, some 2), (y, some 3)]
  let sp ← m.stdProblem H
  match sp.prob with
  | .nlp nlp =>
    let p ← M.ofR (nlp.base.evaluate [some 2, some 3, some 4, some 5])
    let p ← M.ofR (p.combineH [some (3/2), some (23/10)])
    return p.x0 == some [some 0, some 0, some 2, some 3] &&
      p.buf.phi == FloatOps.neg ((some 3 *. cos4) +. some 90) &&
      p.buf.gphi == [some 0, some 0, some 3 *. sin4, some (-40)] &&
      entries p.buf.hphi 2 [(2, 2, some 3 *. cos4), (3, 3, some (-8))] &&
      entries p.a 2 [(0, 2, some 2), (0, 3, some 3)] && p.b == [some 7] &&
      p.buf.f == [sin4 +. some 8, some (-14)] &&
      entries p.buf.j 5 [(0, 2, cos4 +. some 4), (0, 3, some 4), (0, 0, some (-1)), (1, 2, some (-8)), (1, 1, some (-1))] &&
      p.buf.h.length == 2 &&
      (p.buf.h.zip [(2, [(2, 2, FloatOps.neg sin4), (3, 2, some 1)]), (1, [(2, 2, some (-2))])]).all (fun e => entries e.1 e.2.1 e.2.2) &&
      entries p.hcomb 3 [(2, 2, some (3/2) *. FloatOps.neg sin4), (2, 2, some (-23/5)), (3, 2, some (3/2))] &&
      p.l == [some (-100000000), some 0, some (-100000000), some (-100000000)] &&
      p.u == [some 0, some 100000000, some 100000000, some 100000000] &&
      columns sp.var2index x y 2 3 [("_s_j0_", 0), ("_s_j1_", 1)] && maps sp.aindex2constr [(0, c1)] &&
      maps sp.jindex2constr [(0, c2), (1, c3)] && maps sp.uindex2constr [(0, c2)] && maps sp.lindex2constr [(1, c3)]
  | _ => return false

example : passes model_std_problem_nlp = true := by decide +kernel

/-- `model_display`, src/model/model.rs:211-235 -/
def model_display : M Bool := do
  let x ← newVar (F := Q) "x" .continuous
  let y ← newVar (F := Q) "y" .continuous
  let f ← addN (← sMul (some 4) (← cosN x)) y
  let c1 ← geqNS (← addN x y) (some 0) "comb limit"
  let c2 ← geqNS x (some 0) "x limit"
  let c3 ← geqNS y (some 0) "y limit"
  let m := (Model.new.setObjective (.minimize f)).addConstraints [c1, c2, c3]
  return m.print testFmt ==
    "\nMinimize\n4*cos(x) + y\n\nSubject to\nx + y >= 0 : comb limit\nx >= 0 : x limit\ny >= 0 : y limit\n".toList

example : passes model_display = true := by decide +kernel

/-- the matrix of the tests in src/matrix/coo.rs:178-189 and src/matrix/csr.rs:114-123 -/
def testCoo : R (Coo Q) :=
  Coo.new (3, 5) [0, 2, 0, 0, 1, 2, 1, 1, 2, 0, 2] [0, 1, 2, 0, 0, 4, 1, 3, 0, 1, 4]
    [some 5, some 6, some 1, some 1, some 3, some (-2), some 1, some 7, some 4, some 2, some 3]

/-- `coo_to_csr`, `coo_times_vec` (src/matrix/coo.rs:172-230) and `csr_sum_dublicates` (src/matrix/csr.rs:108-143) -/
def matrices : M Bool := do
  let a ← M.ofR testCoo
  let b ← M.ofR a.toCsr
  let y ← M.ofR (a.mulVec [some 2, some 4, some 3, some 1, some 7])
  let c ← M.ofR b.sumDuplicates
  return b.shape == (3, 5) && b.indptr == [0, 4, 7, 11] && b.indices == [0, 2, 0, 1, 0, 1, 3, 1, 4, 0, 4] &&
    b.data == [some 5, some 1, some 1, some 2, some 3, some 1, some 7, some 6, some (-2), some 4, some 3] &&
    y == [some 23, some 17, some 39] &&
    c.shape == (3, 5) && c.indptr == [0, 3, 6, 9] && c.indices == [0, 2, 1, 0, 1, 3, 1, 4, 0] &&
    c.data == [some 6, some 1, some 2, some 3, some 1, some 7, some 6, some 1, some 4]

example : passes matrices = true := by decide +kernel

/-- the evaluation function of the tests in src/problem/nlp.rs:157-222 -/
def hs71 : EvalFn Q := fun buf x => do
  let x0 ← idx x 0
  let x1 ← idx x 1
  let x2 ← idx x 2
  let x3 ← idx x 3
  let x4 ← idx x 4
  let two : Q := some 2
  .ok {
    phi := x0 *. x3 *. (x0 +. x1 +. x2) +. x2
    gphi := [two *. x0 *. x3 +. x1 *. x3 +. x2 *. x3, x0 *. x3, x0 *. x3 +. some 1, x0 *. (x0 +. x1 +. x2), some 0]
    hphi := { buf.hphi with data := [two *. x3, x3, x3, two *. x0 +. x1 +. x2, x0, x0] }
    f := [x0 *. x1 *. x2 *. x3 -. x4, x0 *. x0 +. x1 *. x1 +. x2 *. x2 +. x3 *. x3 -. some 40]
    j := { buf.j with data := [x1 *. x2 *. x3, x0 *. x2 *. x3, x0 *. x1 *. x3, x0 *. x1 *. x2, some (-1), two *. x0, two *. x1,
      two *. x2, two *. x3] }
    h := zipAssign buf.h (List.zipWith (fun (m : Coo Q) d => { m with data := d }) buf.h
      [[x2 *. x3, x1 *. x3, x0 *. x3, x1 *. x2, x0 *. x2, x0 *. x1], [two, two, two, two]]) }

/-- `nlp_evaluate` and `nlp_combine_h`, src/problem/nlp.rs:90-315 -/
def nlp_tests : M Bool := do
  let z : Nat → List Q := fun n => List.replicate n (some 0)
  let hphi ← M.ofR (Coo.new (5, 5) [0, 1, 2, 3, 3, 3] [0, 0, 0, 0, 1, 2] (z 6))
  let j ← M.ofR (Coo.new (2, 5) [0, 0, 0, 0, 0, 1, 1, 1, 1] [0, 1, 2, 3, 4, 0, 1, 2, 3] (z 9))
  let h0 ← M.ofR (Coo.new (5, 5) [1, 2, 2, 3, 3, 3] [0, 0, 1, 0, 1, 2] (z 6))
  let h1 ← M.ofR (Coo.new (5, 5) [0, 1, 2, 3] [0, 1, 2, 3] (z 4))
  let p ← M.ofR (Nlp.new hphi (Coo.fromNnz (0, 5) 0) [] j [h0, h1] [some 1, some 1, some 1, some 1, some 25]
    [some 5, some 5, some 5, some 5, some 100000000] (some [some 1, some 5, some 5, some 1, some 0]) hs71)
  let p ← M.ofR (p.base.evaluate [some 1, some 2, some 3, some 4, some 5])
  let q ← M.ofR (p.combineH [some 3, some 5])
  return p.buf.phi == some 27 && p.buf.gphi == [some 28, some 4, some 5, some 6, some 0] &&
    p.buf.hphi.data == [some 8, some 4, some 4, some 7, some 1, some 1] && p.buf.f == [some 19, some (-10)] &&
    p.buf.j.data == [some 24, some 12, some 8, some 6, some (-1), some 2, some 4, some 6, some 8] &&
    p.buf.h.map (·.data) == [[some 12, some 8, some 4, some 6, some 3, some 2], [some 2, some 2, some 2, some 2]] &&
    q.hcomb.rowInds == [1, 2, 2, 3, 3, 3, 0, 1, 2, 3] && q.hcomb.colInds == [0, 0, 1, 0, 1, 2, 0, 1, 2, 3] &&
    q.hcomb.data == [some 36, some 24, some 12, some 18, some 9, some 6, some 10, some 10, some 10, some 10]

example : passes nlp_tests = true := by decide +kernel

end Verif.Tests
