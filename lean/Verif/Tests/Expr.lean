import Verif.Props.Print

/-!
# The repository's own unit tests, run on the model

Generated from the unit tests in /repo by tools/gen_tests.py: each `example` below replays one `#[test]` function on
the model over exact rationals and checks every assertion in it (printed text, values, identity, argument order). They are
checks that the model agrees with the behaviour the authors of the code expect; they are not part of any proof.
Assertions that the generator could not translate are listed as comments.
-/

namespace Verif.Tests
open Verif

/-- decimal digits of a natural number (with fuel) -/
def digits : Nat → Nat → List Char
  | 0, _ => []
  | k + 1, n => if n < 10 then [Char.ofNat (48 + n)] else digits k (n / 10) ++ [Char.ofNat (48 + n % 10)]

/-- `{}` of an integral `f64` -/
def testFmt : Q → List Char
  | some q => if q.num < 0 then '-' :: digits 20 q.num.natAbs else digits 20 q.num.natAbs
  | none => ['N', 'a', 'N']

/-- the test runs without panic and all its assertions hold -/
def passes (t : M Bool) : Bool :=
  match t 0 with
  | .ok (b, _) => b
  | .error _ => false

/-- `node_hash`, src/model/node.rs:592-602 (3 assertions) -/
def node_hash : M Bool := do
  let ok := true
  let x ← newVar (F := Q) "x" .continuous
  let y ← newVar (F := Q) "y" .continuous
  let xx := x
  let h := envOf [(Node.id x, 2), (Node.id y, 4)]
  let ok := ok && ((h (Node.id x)) == some (some (2) : Q))
  let ok := ok && ((h (Node.id y)) == some (some (4) : Q))
  let ok := ok && ((h (Node.id xx)) == some (some (2) : Q))
  return ok

example : passes node_hash = true := by decide +kernel

/-- `node_add_node`, src/model/node.rs:605-663 (23 assertions) -/
def node_add_node : M Bool := do
  let ok := true
  let x ← newVar (F := Q) "x" .continuous
  let y ← newVar (F := Q) "y" .continuous
  let c0 ← newConst (some (0) : Q)
  let c1 ← newConst (some (1) : Q)
  let c2 ← newConst (some (2) : Q)
  let var_values := envOf [(Node.id x, 3), (Node.id y, 4)]
  let z1 ← addN x y
  let ok := ok && (Node.print testFmt z1 == ['x', ' ', '+', ' ', 'y'])
  let ok := ok && ((Node.evaluate var_values z1) == (some (7) : Q))
  let z2 ← addN y x
  let ok := ok && (Node.print testFmt z2 == ['y', ' ', '+', ' ', 'x'])
  let ok := ok && ((Node.evaluate var_values z2) == (some (7) : Q))
  let t1 ← addN y x
  let z3 ← addN x t1
  let ok := ok && (Node.print testFmt z3 == ['x', ' ', '+', ' ', 'y', ' ', '+', ' ', 'x'])
  let ok := ok && ((Node.evaluate var_values z3) == (some (10) : Q))
  let t2 ← addN x y
  let z4 ← addN t2 x
  let ok := ok && (Node.print testFmt z4 == ['x', ' ', '+', ' ', 'y', ' ', '+', ' ', 'x'])
  let ok := ok && ((Node.evaluate var_values z4) == (some (10) : Q))
  let t3 ← addN z1 z2
  let t4 ← addN t3 z3
  let z5 ← addN t4 z4
  let ok := ok && (Node.print testFmt z5 == ['x', ' ', '+', ' ', 'y', ' ', '+', ' ', 'y', ' ', '+', ' ', 'x', ' ', '+', ' ', 'x', ' ', '+', ' ', 'y', ' ', '+', ' ', 'x', ' ', '+', ' ', 'x', ' ', '+', ' ', 'y', ' ', '+', ' ', 'x'])
  let ok := ok && ((Node.evaluate var_values z5) == (some (34) : Q))
  let t5 ← addN x y
  let t6 ← addN y x
  let z6 ← addN t5 t6
  let ok := ok && (Node.print testFmt z6 == ['x', ' ', '+', ' ', 'y', ' ', '+', ' ', 'y', ' ', '+', ' ', 'x'])
  let ok := ok && ((Node.evaluate var_values z6) == (some (14) : Q))
  let z7 ← addN x c0
  let ok := ok && Node.ptrEq z7 x
  let z8 ← addN c0 x
  let ok := ok && Node.ptrEq z8 x
  let t7 ← addS x (some (1) : Q)
  let z9 ← addN t7 y
  let ok := ok && ((Node.arguments z9).map (Node.print testFmt) == [['x'], ['y'], ['1']])
  let ok := ok && ((Node.evaluate var_values z9) == (some (8) : Q))
  let t8 ← addS y (some (5) : Q)
  let z10 ← addN x t8
  let ok := ok && ((Node.arguments z10).map (Node.print testFmt) == [['x'], ['y'], ['5']])
  let ok := ok && ((Node.evaluate var_values z10) == (some (12) : Q))
  let t9 ← addS x (some (2) : Q)
  let t10 ← addS y (some (7) : Q)
  let z11 ← addN t9 t10
  let ok := ok && ((Node.arguments z11).map (Node.print testFmt) == [['x'], ['y'], ['9']])
  let ok := ok && ((Node.evaluate var_values z11) == (some (16) : Q))
  let z12 ← addN c1 c2
  let ok := ok && (Node.isConstVal z12 (some (3) : Q))
  let t11 ← addS x (some (4) : Q)
  let t12 ← sAdd (some (5) : Q) y
  let z13 ← addN t11 t12
  let ok := ok && (Node.print testFmt z13 == ['x', ' ', '+', ' ', 'y', ' ', '+', ' ', '9'])
  let ok := ok && ((Node.evaluate var_values z13) == (some (16) : Q))
  return ok

example : passes node_add_node = true := by decide +kernel

/-- `node_add_scalar`, src/model/node.rs:666-712 (18 assertions) -/
def node_add_scalar : M Bool := do
  let ok := true
  let x ← newVar (F := Q) "x" .continuous
  let c1 ← newConst (some (1) : Q)
  let var_values := envOf [(Node.id x, 3)]
  let z1 ← addS x (some (15) : Q)
  let ok := ok && (Node.print testFmt z1 == ['x', ' ', '+', ' ', '1', '5'])
  let ok := ok && ((Node.evaluate var_values z1) == (some (18) : Q))
  let z2 ← sAdd (some (13) : Q) x
  let ok := ok && (Node.print testFmt z2 == ['x', ' ', '+', ' ', '1', '3'])
  let ok := ok && ((Node.evaluate var_values z2) == (some (16) : Q))
  let t1 ← sAdd (some (2) : Q) z2
  let z3 ← addS t1 (some (6) : Q)
  let ok := ok && (Node.print testFmt z3 == ['x', ' ', '+', ' ', '2', '1'])
  let ok := ok && ((Node.evaluate var_values z3) == (some (24) : Q))
  let z4 ← addS x (some (0) : Q)
  let ok := ok && Node.ptrEq z4 x
  let z5 ← sAdd (some (0) : Q) x
  let ok := ok && Node.ptrEq z5 x
  let t2 ← addS x (some (1) : Q)
  let z6 ← addS t2 (some (2) : Q)
  let ok := ok && ((Node.arguments z6).map (Node.print testFmt) == [['x'], ['3']])
  let ok := ok && ((Node.evaluate var_values z6) == (some (6) : Q))
  let t3 ← addS x (some (4) : Q)
  let z7 ← sAdd (some (3) : Q) t3
  let ok := ok && ((Node.arguments z7).map (Node.print testFmt) == [['x'], ['7']])
  let ok := ok && ((Node.evaluate var_values z7) == (some (10) : Q))
  let z8 ← sAdd (some (4) : Q) c1
  let ok := ok && (Node.isConstVal z8 (some (5) : Q))
  let z9 ← addS c1 (some (5) : Q)
  let ok := ok && (Node.isConstVal z9 (some (6) : Q))
  let t4 ← addS x (some (4) : Q)
  let z10 ← addS t4 (some (5) : Q)
  let ok := ok && (Node.print testFmt z10 == ['x', ' ', '+', ' ', '9'])
  let ok := ok && ((Node.evaluate var_values z10) == (some (12) : Q))
  let t5 ← addS x (some (4) : Q)
  let t6 ← sAdd (some (3) : Q) t5
  let z11 ← addS t6 (some (5) : Q)
  let ok := ok && (Node.print testFmt z11 == ['x', ' ', '+', ' ', '1', '2'])
  let ok := ok && ((Node.evaluate var_values z11) == (some (15) : Q))
  return ok

example : passes node_add_scalar = true := by decide +kernel

/-- `node_mul_node`, src/model/node.rs:715-778 (23 assertions) -/
def node_mul_node : M Bool := do
  let ok := true
  let x ← newVar (F := Q) "x" .continuous
  let y ← newVar (F := Q) "y" .continuous
  let c0 ← newConst (some (0) : Q)
  let c1 ← newConst (some (1) : Q)
  let c2 ← newConst (some (2) : Q)
  let c3 ← newConst (some (3) : Q)
  let var_values := envOf [(Node.id x, 3), (Node.id y, 4)]
  let z1 ← mulN x y
  let ok := ok && (Node.print testFmt z1 == ['x', '*', 'y'])
  let ok := ok && ((Node.evaluate var_values z1) == (some (12) : Q))
  let z2 ← mulN y x
  let ok := ok && (Node.print testFmt z2 == ['y', '*', 'x'])
  let ok := ok && ((Node.evaluate var_values z2) == (some (12) : Q))
  let t1 ← mulN y x
  let z3 ← mulN t1 x
  let ok := ok && (Node.print testFmt z3 == ['y', '*', 'x', '*', 'x'])
  let ok := ok && ((Node.evaluate var_values z3) == (some (36) : Q))
  let t2 ← mulN x x
  let z4 ← mulN y t2
  let ok := ok && (Node.print testFmt z4 == ['y', '*', 'x', '*', 'x'])
  let ok := ok && ((Node.evaluate var_values z4) == (some (36) : Q))
  let t3 ← mulN x z3
  let z5 ← mulN z4 t3
  let ok := ok && (Node.print testFmt z5 == ['y', '*', 'x', '*', 'x', '*', 'x', '*', 'y', '*', 'x', '*', 'x'])
  let ok := ok && ((Node.evaluate var_values z5) == (some (3888) : Q))
  let z6 ← mulN x c0
  let ok := ok && (Node.isConstVal z6 (some (0) : Q))
  let z7 ← mulN c0 x
  let ok := ok && (Node.isConstVal z7 (some (0) : Q))
  let z8 ← mulN c1 x
  let ok := ok && Node.ptrEq z8 x
  let z9 ← mulN x c1
  let ok := ok && Node.ptrEq z9 x
  let z10 ← mulN c1 c0
  let ok := ok && (Node.isConstVal z10 (some (0) : Q))
  let z11 ← mulN c0 c1
  let ok := ok && (Node.isConstVal z11 (some (0) : Q))
  let t4 ← mulN y x
  let t5 ← addN x t4
  let t6 ← mulN y x
  let t7 ← addN t6 y
  let z12 ← mulN t5 t7
  let ok := ok && (Node.print testFmt z12 == ['(', 'x', ' ', '+', ' ', 'y', '*', 'x', ')', '*', '(', 'y', '*', 'x', ' ', '+', ' ', 'y', ')'])
  let ok := ok && ((Node.evaluate var_values z12) == (some (240) : Q))
  let z13 ← mulN c3 c2
  let ok := ok && (Node.isConstVal z13 (some (6) : Q))
  let t8 ← addS x (some (3) : Q)
  let z14 ← mulN c3 t8
  let ok := ok && (Node.print testFmt z14 == ['3', '*', 'x', ' ', '+', ' ', '9'])
  let ok := ok && ((Node.evaluate var_values z14) == (some (18) : Q))
  let t9 ← addN x y
  let z15 ← mulN t9 c2
  let ok := ok && (Node.print testFmt z15 == ['x', '*', '2', ' ', '+', ' ', 'y', '*', '2'])
  let ok := ok && ((Node.evaluate var_values z15) == (some (14) : Q))
  return ok

example : passes node_mul_node = true := by decide +kernel

/-- `node_mul_scalar`, src/model/node.rs:781-832 (18 assertions) -/
def node_mul_scalar : M Bool := do
  let ok := true
  let x ← newVar (F := Q) "x" .continuous
  let c1 ← newConst (some (1) : Q)
  let c2 ← newConst (some (2) : Q)
  let var_values := envOf [(Node.id x, 3)]
  let z1 ← mulS (some (15) : Q) x
  let ok := ok && (Node.print testFmt z1 == ['x', '*', '1', '5'])
  let ok := ok && ((Node.evaluate var_values z1) == (some (45) : Q))
  let z2 ← sMul (some (13) : Q) x
  let ok := ok && (Node.print testFmt z2 == ['1', '3', '*', 'x'])
  let ok := ok && ((Node.evaluate var_values z2) == (some (39) : Q))
  let t1 ← sMul (some (2) : Q) z2
  let z3 ← mulS (some (6) : Q) t1
  let ok := ok && (Node.print testFmt z3 == ['2', '*', '1', '3', '*', 'x', '*', '6'])
  let ok := ok && ((Node.evaluate var_values z3) == (some (468) : Q))
  let z4 ← mulS (some (0) : Q) x
  let ok := ok && (Node.isConstVal z4 (some (0) : Q))
  let z5 ← sMul (some (0) : Q) x
  let ok := ok && (Node.isConstVal z5 (some (0) : Q))
  let z6 ← mulS (some (1) : Q) x
  let ok := ok && Node.ptrEq z6 x
  let z7 ← sMul (some (1) : Q) x
  let ok := ok && Node.ptrEq z7 x
  let z8 ← mulS (some (0) : Q) c1
  let ok := ok && (Node.isConstVal z8 (some (0) : Q))
  let z9 ← sMul (some (0) : Q) c1
  let ok := ok && (Node.isConstVal z9 (some (0) : Q))
  let z10 ← sMul (some (3) : Q) c2
  let ok := ok && (Node.isConstVal z10 (some (6) : Q))
  let z11 ← mulS (some (5) : Q) c2
  let ok := ok && (Node.isConstVal z11 (some (10) : Q))
  let t2 ← addS x (some (3) : Q)
  let z12 ← sMul (some (4) : Q) t2
  let ok := ok && (Node.print testFmt z12 == ['4', '*', 'x', ' ', '+', ' ', '1', '2'])
  let ok := ok && ((Node.evaluate var_values z12) == (some (24) : Q))
  let t3 ← sAdd (some (4) : Q) x
  let z13 ← mulS (some (10) : Q) t3
  let ok := ok && (Node.print testFmt z13 == ['x', '*', '1', '0', ' ', '+', ' ', '4', '0'])
  let ok := ok && ((Node.evaluate var_values z13) == (some (70) : Q))
  return ok

example : passes node_mul_scalar = true := by decide +kernel

/-- `node_neg`, src/model/node.rs:835-852 (5 assertions) -/
def node_neg : M Bool := do
  let ok := true
  let x ← newVar (F := Q) "x" .continuous
  let c ← newConst (some (5) : Q)
  let var_values := envOf [(Node.id x, 3)]
  let z1 ← negN x
  let ok := ok && (Node.print testFmt z1 == ['-', '1', '*', 'x'])
  let ok := ok && ((Node.evaluate var_values z1) == (some (-3) : Q))
  let t1 ← addS x (some (3) : Q)
  let z2 ← negN t1
  let ok := ok && (Node.print testFmt z2 == ['-', '1', '*', 'x', ' ', '+', ' ', '-', '3'])
  let ok := ok && ((Node.evaluate var_values z2) == (some (-6) : Q))
  let z3 ← negN c
  let ok := ok && (Node.isConstVal z3 (some (-5) : Q))
  return ok

example : passes node_neg = true := by decide +kernel

/-- `node_sub_node`, src/model/node.rs:855-882 (9 assertions) -/
def node_sub_node : M Bool := do
  let ok := true
  let x ← newVar (F := Q) "x" .continuous
  let y ← newVar (F := Q) "y" .continuous
  let var_values := envOf [(Node.id x, 3), (Node.id y, 4)]
  let z1 ← subN x y
  let ok := ok && ((Node.evaluate var_values z1) == (some (-1) : Q))
  let ok := ok && (Node.print testFmt z1 == ['x', ' ', '+', ' ', '-', '1', '*', 'y'])
  let z2 ← subN y x
  let ok := ok && ((Node.evaluate var_values z2) == (some (1) : Q))
  let ok := ok && (Node.print testFmt z2 == ['y', ' ', '+', ' ', '-', '1', '*', 'x'])
  let t1 ← subN x y
  let z3 ← subN x t1
  let ok := ok && ((Node.evaluate var_values z3) == (some (4) : Q))
  let ok := ok && (Node.print testFmt z3 == ['x', ' ', '+', ' ', '-', '1', '*', 'x', ' ', '+', ' ', '-', '1', '*', '-', '1', '*', 'y'])
  let t2 ← subN x y
  let z4 ← subN t2 y
  let ok := ok && ((Node.evaluate var_values z4) == (some (-5) : Q))
  let t3 ← subN z4 z3
  let z5 ← subN t3 x
  let ok := ok && ((Node.evaluate var_values z5) == (some (-12) : Q))
  let t4 ← subN z1 z2
  let t5 ← subN z3 z4
  let z6 ← subN t4 t5
  let ok := ok && ((Node.evaluate var_values z6) == (some (-11) : Q))
  return ok

example : passes node_sub_node = true := by decide +kernel

/-- `node_sub_scalar`, src/model/node.rs:885-902 (6 assertions) -/
def node_sub_scalar : M Bool := do
  let ok := true
  let x ← newVar (F := Q) "x" .continuous
  let var_values := envOf [(Node.id x, 3)]
  let z1 ← subS x (some (15) : Q)
  let ok := ok && (Node.print testFmt z1 == ['x', ' ', '+', ' ', '-', '1', '5'])
  let ok := ok && ((Node.evaluate var_values z1) == (some (-12) : Q))
  let z2 ← sSub (some (13) : Q) x
  let ok := ok && (Node.print testFmt z2 == ['-', '1', '*', 'x', ' ', '+', ' ', '1', '3'])
  let ok := ok && ((Node.evaluate var_values z2) == (some (10) : Q))
  let t1 ← sSub (some (2) : Q) z2
  let z3 ← subS t1 (some (6) : Q)
  let ok := ok && (Node.print testFmt z3 == ['-', '1', '*', '-', '1', '*', 'x', ' ', '+', ' ', '-', '1', '7'])
  let ok := ok && ((Node.evaluate var_values z3) == (some (-14) : Q))
  return ok

example : passes node_sub_scalar = true := by decide +kernel

/-- `node_div_node`, src/model/node.rs:905-944 (13 assertions) -/
def node_div_node : M Bool := do
  let ok := true
  let x ← newVar (F := Q) "x" .continuous
  let y ← newVar (F := Q) "y" .continuous
  let c0 ← newConst (some (0) : Q)
  let c1 ← newConst (some (1) : Q)
  let c2 ← newConst (some (2) : Q)
  let c3 ← newConst (some (3) : Q)
  let var_values := envOf [(Node.id x, 3), (Node.id y, 4)]
  let z1 ← divN x y
  let ok := ok && (Node.print testFmt z1 == ['x', '/', 'y'])
  let ok := ok && ((Node.evaluate var_values z1) == (some (3/4) : Q))
  let t1 ← sMul (some (3) : Q) x
  let t2 ← sMul (some (4) : Q) y
  let z2 ← divN t1 t2
  let ok := ok && (Node.print testFmt z2 == ['3', '*', 'x', '/', '(', '4', '*', 'y', ')'])
  let ok := ok && ((Node.evaluate var_values z2) == (some (9/16) : Q))
  let t3 ← sAdd (some (3) : Q) x
  let t4 ← addS y (some (4) : Q)
  let z3 ← divN t3 t4
  let ok := ok && (Node.print testFmt z3 == ['(', 'x', ' ', '+', ' ', '3', ')', '/', '(', 'y', ' ', '+', ' ', '4', ')'])
  let ok := ok && ((Node.evaluate var_values z3) == (some (3/4) : Q))
  let t5 ← sAdd (some (3) : Q) y
  let z4 ← divN x t5
  let ok := ok && (Node.print testFmt z4 == ['x', '/', '(', 'y', ' ', '+', ' ', '3', ')'])
  let ok := ok && ((Node.evaluate var_values z4) == (some (3/7) : Q))
  let t6 ← sAdd (some (2) : Q) x
  let z5 ← divN t6 y
  let ok := ok && (Node.print testFmt z5 == ['(', 'x', ' ', '+', ' ', '2', ')', '/', 'y'])
  let ok := ok && ((Node.evaluate var_values z5) == (some (5/4) : Q))
  let z6 ← divN x c1
  let ok := ok && Node.ptrEq z6 x
  let z7 ← divN c0 x
  let ok := ok && (Node.isConstVal z7 (some (0) : Q))
  let z8 ← divN c2 c3
  let ok := ok && (Node.isConstVal z8 (some (2/3) : Q))
  return ok

example : passes node_div_node = true := by decide +kernel

/-- `node_div_scalar`, src/model/node.rs:947-985 (13 assertions) -/
def node_div_scalar : M Bool := do
  let ok := true
  let x ← newVar (F := Q) "x" .continuous
  let c1 ← newConst (some (1) : Q)
  let c2 ← newConst (some (2) : Q)
  let var_values := envOf [(Node.id x, 4)]
  let z1 ← sDiv (some (3) : Q) x
  let ok := ok && (Node.print testFmt z1 == ['3', '/', 'x'])
  let ok := ok && ((Node.evaluate var_values z1) == (some (3/4) : Q))
  let t1 ← addS x (some (1) : Q)
  let z2 ← sDiv (some (3) : Q) t1
  let ok := ok && (Node.print testFmt z2 == ['3', '/', '(', 'x', ' ', '+', ' ', '1', ')'])
  let ok := ok && ((Node.evaluate var_values z2) == (some (3/5) : Q))
  let z3 ← divS x (some (3) : Q)
  let ok := ok && (Node.print testFmt z3 == ['x', '/', '3'])
  let ok := ok && ((Node.evaluate var_values z3) == (some (4/3) : Q))
  let t2 ← addS x (some (1) : Q)
  let z4 ← divS t2 (some (3) : Q)
  let ok := ok && (Node.print testFmt z4 == ['(', 'x', ' ', '+', ' ', '1', ')', '/', '3'])
  let ok := ok && ((Node.evaluate var_values z4) == (some (5/3) : Q))
  let z5 ← divS x (some (1) : Q)
  let ok := ok && Node.ptrEq z5 x
  let z6 ← sDiv (some (0) : Q) x
  let ok := ok && (Node.isConstVal z6 (some (0) : Q))
  let z7 ← sDiv (some (0) : Q) c1
  let ok := ok && (Node.isConstVal z7 (some (0) : Q))
  let z8 ← divS c2 (some (4) : Q)
  let ok := ok && (Node.isConstVal z8 (some (1/2) : Q))
  let z9 ← sDiv (some (5) : Q) c2
  let ok := ok && (Node.isConstVal z9 (some (5/2) : Q))
  return ok

example : passes node_div_scalar = true := by decide +kernel

/-- `constant_zero`, src/model/constant.rs:57-61 (1 assertions) -/
def constant_zero : M Bool := do
  let ok := true
  let z ← newConst (zero : Q)
  let ok := ok && (Node.isConstVal z (some (0) : Q))
  return ok

example : passes constant_zero = true := by decide +kernel

/-- `constant_partial`, src/model/constant.rs:64-74 (2 assertions) -/
def constant_partial : M Bool := do
  let ok := true
  let x ← newVar (F := Q) "x" .continuous
  let c ← newConst (some (3) : Q)
  let z1 ← partialN c x
  let ok := ok && (Node.isConstVal z1 (some (0) : Q))
  let z2 ← partialN c c
  let ok := ok && (Node.isConstVal z2 (some (0) : Q))
  return ok

example : passes constant_partial = true := by decide +kernel

/-- `constant_derivative`, src/model/constant.rs:77-84 (1 assertions) -/
def constant_derivative : M Bool := do
  let ok := true
  let x ← newVar (F := Q) "x" .continuous
  let c ← newConst (some (3) : Q)
  let z1 ← derivative HashOrder.listOrder c x
  let ok := ok && (Node.isConstVal z1 (some (0) : Q))
  return ok

example : passes constant_derivative = true := by decide +kernel

/-- `constant_std_properties`, src/model/constant.rs:87-94 (3 assertions) -/
def constant_std_properties : M Bool := do
  let ok := true
  let c ← newConst (some (5) : Q)
  let p := Node.stdProperties c
  let ok := ok && p.affine
  let ok := ok && (p.b == (some (5) : Q))
  let ok := ok && (List.isEmpty p.a)
  return ok

example : passes constant_std_properties = true := by decide +kernel

/-- `var_construction`, src/model/variable.rs:97-118 (4 assertions) -/
def var_construction : M Bool := do
  let ok := true
  let x ← newVar (F := Q) "x" .continuous
  let ok := ok && ((Node.name x) == "x")
  let ok := ok && !Node.isInteger x
  let y ← newVar (F := Q) "y" .integer
  let ok := ok && ((Node.name y) == "y")
  let ok := ok && Node.isInteger y
  return ok

example : passes var_construction = true := by decide +kernel

/-- `var_partial`, src/model/variable.rs:121-131 (2 assertions) -/
def var_partial : M Bool := do
  let ok := true
  let x ← newVar (F := Q) "x" .continuous
  let y ← newVar (F := Q) "y" .continuous
  let z1 ← partialN x x
  let ok := ok && (Node.isConstVal z1 (some (1) : Q))
  let z2 ← partialN x y
  let ok := ok && (Node.isConstVal z2 (some (0) : Q))
  return ok

example : passes var_partial = true := by decide +kernel

/-- `var_derivative`, src/model/variable.rs:134-144 (2 assertions) -/
def var_derivative : M Bool := do
  let ok := true
  let x ← newVar (F := Q) "x" .continuous
  let y ← newVar (F := Q) "y" .continuous
  let z1 ← derivative HashOrder.listOrder x y
  let ok := ok && (Node.isConstVal z1 (some (0) : Q))
  let z2 ← derivative HashOrder.listOrder x x
  let ok := ok && (Node.isConstVal z2 (some (1) : Q))
  return ok

example : passes var_derivative = true := by decide +kernel

/-- `var_std_properties`, src/model/variable.rs:147-155 (4 assertions) -/
def var_std_properties : M Bool := do
  let ok := true
  let x ← newVar (F := Q) "x" .integer
  let p := Node.stdProperties x
  let ok := ok && p.affine
  let ok := ok && (p.b == (some (0) : Q))
  let ok := ok && ((List.length p.a) == 1)
  let ok := ok && ((getN p.a x) == some (some (1) : Q))
  return ok

example : passes var_std_properties = true := by decide +kernel

/-- `add_partial`, src/model/function/add.rs:106-134 (6 assertions) -/
def add_partial : M Bool := do
  let ok := true
  let x ← newVar (F := Q) "x" .continuous
  let y ← newVar (F := Q) "y" .continuous
  let w ← newVar (F := Q) "w" .continuous
  let z ← addN x y
  let z1 ← partialN z x
  let ok := ok && (Node.isConstVal z1 (some (1) : Q))
  let z2 ← partialN z y
  let ok := ok && (Node.isConstVal z2 (some (1) : Q))
  let z3 ← partialN z w
  let ok := ok && (Node.isConstVal z3 (some (0) : Q))
  let zz ← addS x (some (2) : Q)
  let f ← addN y zz
  let z4 ← partialN f x
  let ok := ok && (Node.isConstVal z4 (some (1) : Q))
  let z5 ← partialN f y
  let ok := ok && (Node.isConstVal z5 (some (1) : Q))
  let z6 ← partialN f zz
  let ok := ok && (Node.isConstVal z6 (some (0) : Q))
  return ok

example : passes add_partial = true := by decide +kernel

/-- `add_derivative`, src/model/function/add.rs:137-173 (11 assertions) -/
def add_derivative : M Bool := do
  let ok := true
  let x ← newVar (F := Q) "x" .continuous
  let y ← newVar (F := Q) "y" .continuous
  let z1 ← addS x (some (1) : Q)
  let z1x ← derivative HashOrder.listOrder z1 x
  let z1y ← derivative HashOrder.listOrder z1 y
  let ok := ok && (Node.isConstVal z1x (some (1) : Q))
  let ok := ok && (Node.isConstVal z1y (some (0) : Q))
  let z2 ← addN x y
  let z2x ← derivative HashOrder.listOrder z2 x
  let z2y ← derivative HashOrder.listOrder z2 y
  let ok := ok && (Node.isConstVal z2x (some (1) : Q))
  let ok := ok && (Node.isConstVal z2y (some (1) : Q))
  let t1 ← addS x (some (1) : Q)
  let t2 ← addS x (some (3) : Q)
  let t3 ← addN t1 t2
  let t4 ← addS x (some (5) : Q)
  let t5 ← addN y t4
  let z3 ← addN t3 t5
  let z3x ← derivative HashOrder.listOrder z3 x
  let z3y ← derivative HashOrder.listOrder z3 y
  let ok := ok && (Node.isConstVal z3x (some (3) : Q))
  let ok := ok && (Node.isConstVal z3y (some (1) : Q))
  let z4 ← addN x x
  let z4x ← derivative HashOrder.listOrder z4 x
  let z4y ← derivative HashOrder.listOrder z4 y
  let ok := ok && (Node.isConstVal z4x (some (2) : Q))
  let ok := ok && (Node.isConstVal z4y (some (0) : Q))
  let t6 ← addS x (some (1) : Q)
  let f1 ← addN t6 y
  let z5 ← addN f1 f1
  let z5x ← derivative HashOrder.listOrder z5 x
  let z5y ← derivative HashOrder.listOrder z5 y
  let t7 := envOf [(Node.id x, 3), (Node.id y, 4)]
  let ok := ok && ((Node.evaluate t7 z5) == (some (16) : Q))
  let ok := ok && (Node.isConstVal z5x (some (2) : Q))
  let ok := ok && (Node.isConstVal z5y (some (2) : Q))
  return ok

example : passes add_derivative = true := by decide +kernel

/-- `add_std_properties`, src/model/function/add.rs:176-205 (15 assertions) -/
def add_std_properties : M Bool := do
  let ok := true
  let x ← newVar (F := Q) "x" .continuous
  let y ← newVar (F := Q) "y" .continuous
  let z ← newVar (F := Q) "z" .continuous
  let z1 ← addN x x
  let p1 := Node.stdProperties z1
  let ok := ok && p1.affine
  let ok := ok && (p1.b == (some (0) : Q))
  let ok := ok && ((List.length p1.a) == 1)
  let ok := ok && ((getN p1.a x) == some (some (2) : Q))
  let t1 ← addS x (some (8) : Q)
  let t2 ← addN t1 y
  let t3 ← addS t2 (some (40) : Q)
  let z2 ← addN t3 x
  let p2 := Node.stdProperties z2
  let ok := ok && p2.affine
  let ok := ok && (p2.b == (some (48) : Q))
  let ok := ok && ((List.length p2.a) == 2)
  let ok := ok && ((getN p2.a x) == some (some (2) : Q))
  let ok := ok && ((getN p2.a y) == some (some (1) : Q))
  let ok := ok && !(getN p2.a z).isSome
  let t4 ← addN x y
  let t5 ← addS t4 (some (40) : Q)
  let t6 ← cosN z
  let z3 ← addN t5 t6
  let p3 := Node.stdProperties z3
  let ok := ok && !p3.affine
  let ok := ok && ((List.length p3.a) == 3)
  let ok := ok && (getN p3.a x).isSome
  let ok := ok && (getN p3.a y).isSome
  let ok := ok && (getN p3.a z).isSome
  return ok

example : passes add_std_properties = true := by decide +kernel

/-- `cos_partial`, src/model/function/cos.rs:75-87 (2 assertions) -/
def cos_partial : M Bool := do
  let ok := true
  let x ← newVar (F := Q) "x" .continuous
  let y ← newVar (F := Q) "Y" .continuous
  let z ← cosN x
  let z1 ← partialN z x
  let ok := ok && (Node.print testFmt z1 == ['-', '1', '*', 's', 'i', 'n', '(', 'x', ')'])
  let z2 ← partialN z y
  let ok := ok && (Node.isConstVal z2 (some (0) : Q))
  return ok

example : passes cos_partial = true := by decide +kernel

/-- `cos_derivative`, src/model/function/cos.rs:90-106 (4 assertions) -/
def cos_derivative : M Bool := do
  let ok := true
  let x ← newVar (F := Q) "x" .continuous
  let y ← newVar (F := Q) "y" .continuous
  let z1 ← cosN x
  let z1x ← derivative HashOrder.listOrder z1 x
  let z1y ← derivative HashOrder.listOrder z1 y
  let ok := ok && (Node.print testFmt z1x == ['-', '1', '*', 's', 'i', 'n', '(', 'x', ')'])
  let ok := ok && (Node.isConstVal z1y (some (0) : Q))
  let t1 ← sMul (some (5) : Q) x
  let t2 ← sMul (some (3) : Q) y
  let t3 ← addN t1 t2
  let z2 ← cosN t3
  let z2x ← derivative HashOrder.listOrder z2 x
  let z2y ← derivative HashOrder.listOrder z2 y
  let ok := ok && (Node.print testFmt z2x == ['-', '1', '*', 's', 'i', 'n', '(', '5', '*', 'x', ' ', '+', ' ', '3', '*', 'y', ')', '*', '5'])
  let ok := ok && (Node.print testFmt z2y == ['-', '1', '*', 's', 'i', 'n', '(', '5', '*', 'x', ' ', '+', ' ', '3', '*', 'y', ')', '*', '3'])
  return ok

example : passes cos_derivative = true := by decide +kernel

/-- `cos_std_properties`, src/model/function/cos.rs:109-126 (7 assertions) -/
def cos_std_properties : M Bool := do
  let ok := true
  let x ← newVar (F := Q) "x" .continuous
  let y ← newVar (F := Q) "y" .continuous
  let z1 ← cosN x
  let p1 := Node.stdProperties z1
  let ok := ok && !p1.affine
  let ok := ok && ((List.length p1.a) == 1)
  let ok := ok && (getN p1.a x).isSome
  let t1 ← addN x y
  let t2 ← cosN t1
  let z2 ← sMul (some (3) : Q) t2
  let p2 := Node.stdProperties z2
  let ok := ok && !p2.affine
  let ok := ok && ((List.length p2.a) == 2)
  let ok := ok && (getN p2.a x).isSome
  let ok := ok && (getN p2.a y).isSome
  return ok

example : passes cos_std_properties = true := by decide +kernel

/-- `div_partial`, src/model/function/div.rs:101-117 (3 assertions) -/
def div_partial : M Bool := do
  let ok := true
  let x ← newVar (F := Q) "x" .continuous
  let y ← newVar (F := Q) "y" .continuous
  let w ← newVar (F := Q) "w" .continuous
  let z ← divN x y
  let z1 ← partialN z x
  let ok := ok && (Node.print testFmt z1 == ['1', '/', 'y'])
  let z2 ← partialN z y
  let ok := ok && (Node.print testFmt z2 == ['-', '1', '*', 'x', '/', '(', 'y', '*', 'y', ')'])
  let z3 ← partialN z w
  let ok := ok && (Node.isConstVal z3 (some (0) : Q))
  return ok

example : passes div_partial = true := by decide +kernel

/-- `div_derivative`, src/model/function/div.rs:120-156 (9 assertions) -/
def div_derivative : M Bool := do
  let ok := true
  let x ← newVar (F := Q) "x" .continuous
  let y ← newVar (F := Q) "y" .continuous
  let z1 ← divS x (some (3) : Q)
  let z1x ← derivative HashOrder.listOrder z1 x
  let z1y ← derivative HashOrder.listOrder z1 y
  let ok := ok && (Node.isConstVal z1x (some (1/3) : Q))
  let ok := ok && (Node.isConstVal z1y (some (0) : Q))
  let z2 ← sDiv (some (4) : Q) x
  let z2x ← derivative HashOrder.listOrder z2 x
  let z2y ← derivative HashOrder.listOrder z2 y
  let ok := ok && (Node.print testFmt z2x == ['-', '4', '/', '(', 'x', '*', 'x', ')'])
  let ok := ok && (Node.isConstVal z2y (some (0) : Q))
  let t1 ← negN y
  let z3 ← sDiv (some (5) : Q) t1
  let z3x ← derivative HashOrder.listOrder z3 x
  let z3y ← derivative HashOrder.listOrder z3 y
  let ok := ok && (Node.isConstVal z3x (some (0) : Q))
  let ok := ok && (Node.print testFmt z3y == ['(', '-', '5', '/', '(', '-', '1', '*', 'y', '*', '-', '1', '*', 'y', ')', ')', '*', '-', '1'])
  let t2 ← sMul (some (3) : Q) x
  let t3 ← subN y x
  let z4 ← divN t2 t3
  let z4x ← derivative HashOrder.listOrder z4 x
  let z4y ← derivative HashOrder.listOrder z4 y
  let ok := ok && (Node.print testFmt z4x == ['(', '-', '1', '*', '3', '*', 'x', '/', '(', '(', 'y', ' ', '+', ' ', '-', '1', '*', 'x', ')', '*', '(', 'y', ' ', '+', ' ', '-', '1', '*', 'x', ')', ')', ')', '*', '-', '1', ' ', '+', ' ', '(', '1', '/', '(', 'y', ' ', '+', ' ', '-', '1', '*', 'x', ')', ')', '*', '3'])
  let ok := ok && (Node.print testFmt z4y == ['-', '1', '*', '3', '*', 'x', '/', '(', '(', 'y', ' ', '+', ' ', '-', '1', '*', 'x', ')', '*', '(', 'y', ' ', '+', ' ', '-', '1', '*', 'x', ')', ')'])
  let f1 ← subS x (some (2) : Q)
  let t4 ← addS f1 (some (3) : Q)
  let z5 ← divN f1 t4
  let z5x ← derivative HashOrder.listOrder z5 x
  let ok := ok && (Node.print testFmt z5x == ['(', '-', '1', '*', 'x', ' ', '+', ' ', '2', ')', '/', '(', '(', 'x', ' ', '+', ' ', '1', ')', '*', '(', 'x', ' ', '+', ' ', '1', ')', ')', ' ', '+', ' ', '1', '/', '(', 'x', ' ', '+', ' ', '1', ')'])
  return ok

example : passes div_derivative = true := by decide +kernel

/-- `div_std_properties`, src/model/function/div.rs:159-198 (20 assertions) -/
def div_std_properties : M Bool := do
  let ok := true
  let x ← newVar (F := Q) "x" .continuous
  let y ← newVar (F := Q) "y" .continuous
  let z1 ← sDiv (some (3) : Q) x
  let p1 := Node.stdProperties z1
  let ok := ok && !p1.affine
  let ok := ok && ((List.length p1.a) == 1)
  let ok := ok && (getN p1.a x).isSome
  let t1 ← addS x (some (10) : Q)
  let z2 ← divS t1 (some (4) : Q)
  let p2 := Node.stdProperties z2
  let ok := ok && p2.affine
  let ok := ok && (p2.b == (some (5/2) : Q))
  let ok := ok && ((List.length p2.a) == 1)
  let ok := ok && ((getN p2.a x) == some (some (1/4) : Q))
  let t2 ← addN x y
  let z3 ← sDiv (some (3) : Q) t2
  let p3 := Node.stdProperties z3
  let ok := ok && !p3.affine
  let ok := ok && ((List.length p3.a) == 2)
  let ok := ok && (getN p3.a x).isSome
  let ok := ok && (getN p3.a y).isSome
  let t3 ← sMul (some (4) : Q) x
  let t4 ← addS t3 (some (5) : Q)
  let t5 ← addN t4 y
  let z4 ← divS t5 (some (10) : Q)
  let p4 := Node.stdProperties z4
  let ok := ok && p4.affine
  let ok := ok && (p4.b == (some (1/2) : Q))
  let ok := ok && ((List.length p4.a) == 2)
  let ok := ok && ((getN p4.a x) == some (some (2/5) : Q))
  let ok := ok && ((getN p4.a y) == some (some (1/10) : Q))
  let t6 ← sMul (some (4) : Q) y
  let t7 ← sAdd (some (5) : Q) x
  let z5 ← divN t6 t7
  let p5 := Node.stdProperties z5
  let ok := ok && !p5.affine
  let ok := ok && ((List.length p5.a) == 2)
  let ok := ok && (getN p5.a x).isSome
  let ok := ok && (getN p5.a y).isSome
  return ok

example : passes div_std_properties = true := by decide +kernel

/-- `mul_partial`, src/model/function/mul.rs:100-116 (3 assertions) -/
def mul_partial : M Bool := do
  let ok := true
  let x ← newVar (F := Q) "x" .continuous
  let y ← newVar (F := Q) "y" .continuous
  let w ← newVar (F := Q) "w" .continuous
  let z ← mulN x y
  let z1 ← partialN z x
  let ok := ok && Node.ptrEq z1 y
  let z2 ← partialN z y
  let ok := ok && Node.ptrEq z2 x
  let z3 ← partialN z w
  let ok := ok && (Node.isConstVal z3 (some (0) : Q))
  return ok

example : passes mul_partial = true := by decide +kernel

/-- `mul_derivative`, src/model/function/mul.rs:119-148 (8 assertions) -/
def mul_derivative : M Bool := do
  let ok := true
  let x ← newVar (F := Q) "x" .continuous
  let y ← newVar (F := Q) "y" .continuous
  let z1 ← sMul (some (3) : Q) x
  let z1x ← derivative HashOrder.listOrder z1 x
  let z1y ← derivative HashOrder.listOrder z1 y
  let ok := ok && (Node.isConstVal z1x (some (3) : Q))
  let ok := ok && (Node.isConstVal z1y (some (0) : Q))
  let z2 ← mulN x y
  let z2x ← derivative HashOrder.listOrder z2 x
  let z2y ← derivative HashOrder.listOrder z2 y
  let ok := ok && Node.ptrEq z2x y
  let ok := ok && Node.ptrEq z2y x
  let t1 ← subS x (some (3) : Q)
  let t2 ← mulN y y
  let t3 ← subN t1 t2
  let z3 ← mulN y t3
  let z3x ← derivative HashOrder.listOrder z3 x
  let z3y ← derivative HashOrder.listOrder z3 y
  let ok := ok && Node.ptrEq z3x y
  let ok := ok && (Node.print testFmt z3y == ['y', '*', '-', '1', '*', 'y', ' ', '+', ' ', 'y', '*', '-', '1', '*', 'y', ' ', '+', ' ', 'x', ' ', '+', ' ', '-', '1', '*', 'y', '*', 'y', ' ', '+', ' ', '-', '3'])
  let f1 ← sMul (some (3) : Q) x
  let t4 ← mulN f1 y
  let z4 ← mulN f1 t4
  let z4x ← derivative HashOrder.listOrder z4 x
  let z4y ← derivative HashOrder.listOrder z4 y
  let ok := ok && (Node.print testFmt z4x == ['3', '*', 'x', '*', 'y', '*', '3', ' ', '+', ' ', '3', '*', 'x', '*', 'y', '*', '3'])
  let ok := ok && (Node.print testFmt z4y == ['3', '*', 'x', '*', '3', '*', 'x'])
  return ok

example : passes mul_derivative = true := by decide +kernel

/-- `mul_std_properties`, src/model/function/mul.rs:151-190 (20 assertions) -/
def mul_std_properties : M Bool := do
  let ok := true
  let x ← newVar (F := Q) "x" .continuous
  let y ← newVar (F := Q) "y" .continuous
  let z1 ← sMul (some (3) : Q) x
  let p1 := Node.stdProperties z1
  let ok := ok && p1.affine
  let ok := ok && (p1.b == (some (0) : Q))
  let ok := ok && ((List.length p1.a) == 1)
  let ok := ok && ((getN p1.a x) == some (some (3) : Q))
  let z2 ← mulS (some (4) : Q) x
  let p2 := Node.stdProperties z2
  let ok := ok && p2.affine
  let ok := ok && (p2.b == (some (0) : Q))
  let ok := ok && ((List.length p2.a) == 1)
  let ok := ok && ((getN p2.a x) == some (some (4) : Q))
  let t1 ← addS x (some (3) : Q)
  let z3 ← sMul (some (3) : Q) t1
  let p3 := Node.stdProperties z3
  let ok := ok && p3.affine
  let ok := ok && (p3.b == (some (9) : Q))
  let ok := ok && ((List.length p3.a) == 1)
  let ok := ok && ((getN p3.a x) == some (some (3) : Q))
  let t2 ← sMul (some (4) : Q) x
  let t3 ← addS t2 (some (5) : Q)
  let z4 ← mulS (some (10) : Q) t3
  let p4 := Node.stdProperties z4
  let ok := ok && p4.affine
  let ok := ok && (p4.b == (some (50) : Q))
  let ok := ok && ((List.length p4.a) == 1)
  let ok := ok && ((getN p4.a x) == some (some (40) : Q))
  let t4 ← sMul (some (4) : Q) y
  let t5 ← sAdd (some (5) : Q) x
  let z5 ← mulN t4 t5
  let p5 := Node.stdProperties z5
  let ok := ok && !p5.affine
  let ok := ok && ((List.length p5.a) == 2)
  let ok := ok && (getN p5.a x).isSome
  let ok := ok && (getN p5.a y).isSome
  return ok

example : passes mul_std_properties = true := by decide +kernel

/-- `sin_partial`, src/model/function/sin.rs:74-86 (2 assertions) -/
def sin_partial : M Bool := do
  let ok := true
  let x ← newVar (F := Q) "x" .continuous
  let y ← newVar (F := Q) "x" .continuous
  let z ← cosN x
  let z1 ← partialN z x
  let ok := ok && (Node.print testFmt z1 == ['-', '1', '*', 's', 'i', 'n', '(', 'x', ')'])
  let z2 ← partialN z y
  let ok := ok && (Node.isConstVal z2 (some (0) : Q))
  return ok

example : passes sin_partial = true := by decide +kernel

/-- `sin_derivative`, src/model/function/sin.rs:89-105 (4 assertions) -/
def sin_derivative : M Bool := do
  let ok := true
  let x ← newVar (F := Q) "x" .continuous
  let y ← newVar (F := Q) "y" .continuous
  let z1 ← sinN x
  let z1x ← derivative HashOrder.listOrder z1 x
  let z1y ← derivative HashOrder.listOrder z1 y
  let ok := ok && (Node.print testFmt z1x == ['c', 'o', 's', '(', 'x', ')'])
  let ok := ok && (Node.isConstVal z1y (some (0) : Q))
  let t1 ← sMul (some (5) : Q) x
  let t2 ← sMul (some (3) : Q) y
  let t3 ← addN t1 t2
  let z2 ← sinN t3
  let z2x ← derivative HashOrder.listOrder z2 x
  let z2y ← derivative HashOrder.listOrder z2 y
  let ok := ok && (Node.print testFmt z2x == ['c', 'o', 's', '(', '5', '*', 'x', ' ', '+', ' ', '3', '*', 'y', ')', '*', '5'])
  let ok := ok && (Node.print testFmt z2y == ['c', 'o', 's', '(', '5', '*', 'x', ' ', '+', ' ', '3', '*', 'y', ')', '*', '3'])
  return ok

example : passes sin_derivative = true := by decide +kernel

/-- `sin_std_properties`, src/model/function/sin.rs:108-125 (7 assertions) -/
def sin_std_properties : M Bool := do
  let ok := true
  let x ← newVar (F := Q) "x" .continuous
  let y ← newVar (F := Q) "y" .continuous
  let z1 ← sinN x
  let p1 := Node.stdProperties z1
  let ok := ok && !p1.affine
  let ok := ok && ((List.length p1.a) == 1)
  let ok := ok && (getN p1.a x).isSome
  let t1 ← addN x y
  let t2 ← sinN t1
  let z2 ← sMul (some (3) : Q) t2
  let p2 := Node.stdProperties z2
  let ok := ok && !p2.affine
  let ok := ok && ((List.length p2.a) == 2)
  let ok := ok && (getN p2.a x).isSome
  let ok := ok && (getN p2.a y).isSome
  return ok

example : passes sin_std_properties = true := by decide +kernel

/-- `node_cos`, src/model/node_func.rs:50-67 (5 assertions) -/
def node_cos : M Bool := do
  let ok := true
  let x ← newVar (F := Q) "x" .continuous
  let c ← newConst (some (5) : Q)
  let var_values := envOf [(Node.id x, 3)]
  let z1 ← cosN x
  let ok := ok && (Node.print testFmt z1 == ['c', 'o', 's', '(', 'x', ')'])
  let ok := ok && ((Node.evaluate var_values z1) == (FloatOps.cos (some (3) : Q)))
  let t1 ← sMul (some (3) : Q) x
  let t2 ← addS t1 (some (5) : Q)
  let z2 ← cosN t2
  let ok := ok && (Node.print testFmt z2 == ['c', 'o', 's', '(', '3', '*', 'x', ' ', '+', ' ', '5', ')'])
  let ok := ok && ((Node.evaluate var_values z2) == (FloatOps.cos (some (14) : Q)))
  let z3 ← cosN c
  let ok := ok && (Node.isConstVal z3 (FloatOps.cos (some (5) : Q)))
  return ok

example : passes node_cos = true := by decide +kernel

/-- `node_sin`, src/model/node_func.rs:70-87 (5 assertions) -/
def node_sin : M Bool := do
  let ok := true
  let x ← newVar (F := Q) "x" .continuous
  let c ← newConst (some (5) : Q)
  let var_values := envOf [(Node.id x, 3)]
  let z1 ← sinN x
  let ok := ok && (Node.print testFmt z1 == ['s', 'i', 'n', '(', 'x', ')'])
  let ok := ok && ((Node.evaluate var_values z1) == (FloatOps.sin (some (3) : Q)))
  let t1 ← sMul (some (3) : Q) x
  let t2 ← addS t1 (some (5) : Q)
  let z2 ← sinN t2
  let ok := ok && (Node.print testFmt z2 == ['s', 'i', 'n', '(', '3', '*', 'x', ' ', '+', ' ', '5', ')'])
  let ok := ok && ((Node.evaluate var_values z2) == (FloatOps.sin (some (14) : Q)))
  let z3 ← sinN c
  let ok := ok && (Node.isConstVal z3 (FloatOps.sin (some (5) : Q)))
  return ok

example : passes node_sin = true := by decide +kernel

/-- `node_cmp_node`, src/model/node_cmp.rs:132-148 (4 assertions) -/
def node_cmp_node : M Bool := do
  let ok := true
  let x ← newVar (F := Q) "x" .continuous
  let c ← newConst (some (5) : Q)
  let z1 ← equalNN x c ""
  let ok := ok && (Constraint.print testFmt z1 == ['x', ' ', '=', '=', ' ', '5'])
  let z2 ← leqNN x c ""
  let ok := ok && (Constraint.print testFmt z2 == ['x', ' ', '<', '=', ' ', '5'])
  let t1 ← addS x (some (3) : Q)
  let z3 ← geqNN x t1 ""
  let ok := ok && (Constraint.print testFmt z3 == ['x', ' ', '>', '=', ' ', 'x', ' ', '+', ' ', '3'])
  let t2 ← sMul (some (5) : Q) x
  let z4 ← leqNN x t2 ""
  let ok := ok && (Constraint.print testFmt z4 == ['x', ' ', '<', '=', ' ', '5', '*', 'x'])
  return ok

example : passes node_cmp_node = true := by decide +kernel

/-- `node_cmp_scalar`, src/model/node_cmp.rs:151-163 (3 assertions) -/
def node_cmp_scalar : M Bool := do
  let ok := true
  let x ← newVar (F := Q) "x" .continuous
  let z1 ← equalNS x (some (6) : Q) ""
  let ok := ok && (Constraint.print testFmt z1 == ['x', ' ', '=', '=', ' ', '6'])
  let z2 ← equalNS x (some (10) : Q) ""
  let ok := ok && (Constraint.print testFmt z2 == ['x', ' ', '=', '=', ' ', '1', '0'])
  let t1 ← addS x (some (11) : Q)
  let z3 ← equalNS t1 (some (12) : Q) ""
  let ok := ok && (Constraint.print testFmt z3 == ['x', ' ', '+', ' ', '1', '1', ' ', '=', '=', ' ', '1', '2'])
  return ok

example : passes node_cmp_scalar = true := by decide +kernel

/-- `scalar_cmp_node`, src/model/node_cmp.rs:166-178 (3 assertions) -/
def scalar_cmp_node : M Bool := do
  let ok := true
  let x ← newVar (F := Q) "x" .continuous
  let z1 ← equalSN (some (4) : Q) x ""
  let ok := ok && (Constraint.print testFmt z1 == ['4', ' ', '=', '=', ' ', 'x'])
  let t1 ← addS x (some (3) : Q)
  let z2 ← leqSN (some (4) : Q) t1 ""
  let ok := ok && (Constraint.print testFmt z2 == ['4', ' ', '<', '=', ' ', 'x', ' ', '+', ' ', '3'])
  let t2 ← mulS (some (5) : Q) x
  let z3 ← geqSN (some (5) : Q) t2 ""
  let ok := ok && (Constraint.print testFmt z3 == ['5', ' ', '>', '=', ' ', 'x', '*', '5'])
  return ok

example : passes scalar_cmp_node = true := by decide +kernel

/-- `constr_hash`, src/model/constraint.rs:125-139 (3 assertions) -/
def constr_hash : M Bool := do
  let ok := true
  let x ← newVar (F := Q) "x" .continuous
  let c ← newConst (some (4) : Q)
  let c1 ← newConstraint x .equal c "foo"
  let c2 ← newConstraint x .lessEqual c "foo"
  let c3 := c1
  let h := insertC (insertC ([] : List (Constraint Q × Q)) c1 (some (5) : Q)) c2 (some (10) : Q)
  let ok := ok && ((getC h c1) == some (some (5) : Q))
  let ok := ok && ((getC h c2) == some (some (10) : Q))
  let ok := ok && ((getC h c3) == some (some (5) : Q))
  return ok

example : passes constr_hash = true := by decide +kernel

/-- `constr_clone_eq`, src/model/constraint.rs:142-153 (2 assertions) -/
def constr_clone_eq : M Bool := do
  let ok := true
  let x ← newVar (F := Q) "x" .continuous
  let c ← newConst (some (4) : Q)
  let c1 ← newConstraint x .equal c "foo"
  let c2 ← newConstraint x .lessEqual c "foo"
  let c3 := c1
  let ok := ok && !Constraint.ptrEq c1 c2
  let ok := ok && Constraint.ptrEq c1 c3
  return ok

example : passes constr_clone_eq = true := by decide +kernel

/-- `constr_label`, src/model/constraint.rs:156-163 (1 assertions) -/
def constr_label : M Bool := do
  let ok := true
  let x ← newVar (F := Q) "x" .continuous
  let c ← newConst (some (4) : Q)
  let z ← newConstraint x .equal c "foo"
  let ok := ok && (z.label == "foo")
  return ok

example : passes constr_label = true := by decide +kernel

/-- `constr_violation`, src/model/constraint.rs:166-187 (5 assertions) -/
def constr_violation : M Bool := do
  let ok := true
  let x ← newVar (F := Q) "x" .continuous
  let c4 ← newConst (some (4) : Q)
  let var_values := envOf [(Node.id x, 3)]
  let z1 ← newConstraint x .equal c4 "foo"
  let ok := ok && ((Constraint.violation z1 var_values) == (some (1) : Q))
  let z2 ← newConstraint x .lessEqual c4 "foo"
  let ok := ok && ((Constraint.violation z2 var_values) == (some (0) : Q))
  let t1 ← negN c4
  let z3 ← newConstraint x .lessEqual t1 "foo"
  let ok := ok && ((Constraint.violation z3 var_values) == (some (7) : Q))
  let z4 ← newConstraint x .greaterEqual c4 "foo"
  let ok := ok && ((Constraint.violation z4 var_values) == (some (1) : Q))
  let t2 ← negN c4
  let z5 ← newConstraint x .greaterEqual t2 "foo"
  let ok := ok && ((Constraint.violation z5 var_values) == (some (0) : Q))
  return ok

example : passes constr_violation = true := by decide +kernel

/-- `node_all_simple_paths`, src/model/node_diff.rs:129-163 (18 assertions) -/
def node_all_simple_paths : M Bool := do
  let ok := true
  let x ← newVar (F := Q) "x" .continuous
  let y ← newVar (F := Q) "y" .continuous
  let z ← newVar (F := Q) "z" .continuous
  let p1 ← allSimplePaths HashOrder.listOrder x [x, y, z]
  let ok := ok && ((List.length ((getN p1 x).getD [])) == 1)
  let ok := ok && ((List.length (((getN p1 x).getD [])[0]?.getD [])) == 1)
  let ok := ok && ((List.length ((getN p1 y).getD [])) == 0)
  let ok := ok && ((List.length ((getN p1 z).getD [])) == 0)
  let t1 ← addS x (some (1) : Q)
  let p2 ← allSimplePaths HashOrder.listOrder t1 [x, y, z]
  let ok := ok && ((List.length ((getN p2 x).getD [])) == 1)
  let ok := ok && ((List.length (((getN p2 x).getD [])[0]?.getD [])) == 2)
  let ok := ok && ((List.length ((getN p2 y).getD [])) == 0)
  let ok := ok && ((List.length ((getN p2 z).getD [])) == 0)
  let t2 ← addN z x
  let t3 ← sMul (some (3) : Q) t2
  let t4 ← sAdd (some (4) : Q) t3
  let p3 ← allSimplePaths HashOrder.listOrder t4 [x, y, z]
  let ok := ok && ((List.length ((getN p3 x).getD [])) == 1)
  let ok := ok && ((List.length (((getN p3 x).getD [])[0]?.getD [])) == 3)
  let ok := ok && ((List.length ((getN p3 y).getD [])) == 0)
  let ok := ok && ((List.length ((getN p3 z).getD [])) == 1)
  let ok := ok && ((List.length (((getN p3 z).getD [])[0]?.getD [])) == 3)
  let f4 ← addS x (some (5) : Q)
  let t5 ← addS z (some (3) : Q)
  let g4 ← mulN f4 t5
  let t6 ← addN f4 g4
  let p4 ← allSimplePaths HashOrder.listOrder t6 [x, y, z]
  let ok := ok && ((List.length ((getN p4 x).getD [])) == 2)
  let ok := ok && (((List.length (((getN p4 x).getD [])[0]?.getD [])) + (List.length (((getN p4 x).getD [])[1]?.getD []))) == 6)
  let ok := ok && ((List.length ((getN p4 y).getD [])) == 0)
  let ok := ok && ((List.length ((getN p4 z).getD [])) == 1)
  let ok := ok && ((List.length (((getN p4 z).getD [])[0]?.getD [])) == 4)
  return ok

example : passes node_all_simple_paths = true := by decide +kernel

end Verif.Tests
