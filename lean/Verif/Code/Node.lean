import Verif.Code.Base

/-!
# Expression nodes: src/model/node.rs, node_base.rs, node_func.rs, constant.rs, variable.rs, function/*.rs
-/

namespace Verif

/-- src/model/variable.rs:11-14 -/
inductive VarKind where
  | continuous
  | integer
  deriving DecidableEq, Repr

/-- src/model/node.rs:22-30 (`enum Node`) together with the structs behind the `Rc`s (constant.rs:10-12,
variable.rs:17-20, function/add.rs:13-15, cos.rs:14-16, div.rs:13-15, mul.rs:13-15, sin.rs:14-16).
`id` is the address of the `Rc` cell. -/
inductive Node (F : Type) where
  | const (id : Nat) (value : F)
  | var (id : Nat) (name : String) (kind : VarKind)
  | add (id : Nat) (args : List (Node F))
  | cos (id : Nat) (arg : Node F)
  | div (id : Nat) (arg0 arg1 : Node F)
  | mul (id : Nat) (arg0 arg1 : Node F)
  | sin (id : Nat) (arg : Node F)

variable {F : Type}

namespace Node

/-- Address of the cell. Code: `Rc::as_ptr`, src/model/node.rs:74-104. -/
def id : Node F → Nat
  | .const i _ => i
  | .var i _ _ => i
  | .add i _ => i
  | .cos i _ => i
  | .div i _ _ => i
  | .mul i _ _ => i
  | .sin i _ => i

/-- The enum variant. Code: src/model/node.rs:22-30. -/
def tag : Node F → Nat
  | .const .. => 0
  | .var .. => 1
  | .add .. => 2
  | .cos .. => 3
  | .div .. => 4
  | .mul .. => 5
  | .sin .. => 6

/-- `==` on nodes: src/model/node.rs:74-88, `Rc::ptr_eq` of cells of the same variant. -/
def ptrEq (a b : Node F) : Bool := a.tag == b.tag && a.id == b.id

/-- src/model/node.rs:35-40 -/
def isConstant : Node F → Bool
  | .const .. => true
  | _ => false

/-- src/model/node.rs:43-48 -/
def isConstVal [FloatOps F] (n : Node F) (val : F) : Bool :=
  match n with
  | .const _ v => v ==. val
  | _ => false

/-- `match node { Node::VariableScalar(_) => .. }`. Code: e.g. src/model/model_std.rs:245-253, src/model/node_diff.rs:30-35. -/
def isVar : Node F → Bool
  | .var .. => true
  | _ => false

/-- src/model/node.rs:51-56 -/
def name : Node F → String
  | .var _ s _ => s
  | _ => ""

/-- src/model/variable.rs:33-38 (false for nodes that are not variables, as in model_std.rs:245-253) -/
def isInteger : Node F → Bool
  | .var _ _ .integer => true
  | _ => false

/-- `arguments()`: src/model/node_base.rs:12,24-34, function/add.rs:33-35, cos.rs:32-34, div.rs:31-33, mul.rs:31-33,
sin.rs:32-34. -/
def arguments : Node F → List (Node F)
  | .const .. => []
  | .var .. => []
  | .add _ args => args
  | .cos _ a => [a]
  | .div _ a b => [a, b]
  | .mul _ a b => [a, b]
  | .sin _ a => [a]

/-- Number of occurrences of nodes (not in the code; termination measure of the path search). Code: for the loop of src/model/node_diff.rs:52-80. -/
def weight : Node F → Nat
  | .const .. => 1
  | .var .. => 1
  | .add _ args => 1 + weights args
  | .cos _ a => 1 + a.weight
  | .div _ a b => 1 + (a.weight + b.weight)
  | .mul _ a b => 1 + (a.weight + b.weight)
  | .sin _ a => 1 + a.weight
where
  /-- total weight of a list of nodes -/
  weights : List (Node F) → Nat
    | [] => 0
    | a :: as => a.weight + weights as

end Node

/-- The argument `var_values: &HashMap<&Node, f64>` of `evaluate`: values by address of the variable's cell. Entries of the
map whose key is not a variable are never looked up, so they are not represented. Code: src/model/node_base.rs:19. -/
abbrev Env (F : Type) := Nat → Option F

variable [FloatOps F]

/-- `evaluate`: src/model/node_base.rs:48-64 and function/add.rs:46-48 (`iter().sum()` = fold from `0.`), cos.rs:45-47,
div.rs:47-49, mul.rs:47-49, sin.rs:45-47. A variable without a value gives NaN. -/
def Node.evaluate (σ : Env F) : Node F → F
  | .const _ v => v
  | .var i _ _ => match σ i with
    | some x => x
    | none => nan
  | .add _ args => sumFrom σ zero args
  | .cos _ a => FloatOps.cos (a.evaluate σ)
  | .div _ a b => a.evaluate σ /. b.evaluate σ
  | .mul _ a b => a.evaluate σ *. b.evaluate σ
  | .sin _ a => FloatOps.sin (a.evaluate σ)
where
  /-- running sum of the values of the arguments -/
  sumFrom (σ : Env F) (acc : F) : List (Node F) → F
    | [] => acc
    | a :: as => sumFrom σ (acc +. a.evaluate σ) as

/-! ## Constructors -/

/-- `ConstantScalar::new`, src/model/constant.rs:17-23 -/
def newConst (v : F) : M (Node F) := M.bind M.fresh fun i => M.pure (.const i v)

/-- `VariableScalar::new`, src/model/variable.rs:44-51 (and `new_continuous`, `new_integer`, 54-61) -/
def newVar (name : String) (kind : VarKind) : M (Node F) := M.bind M.fresh fun i => M.pure (.var i name kind)

/-- `FunctionAdd::new`, src/model/function/add.rs:20-28 with its assertion -/
def newAdd (args : List (Node F)) : M (Node F) :=
  if 2 ≤ args.length then M.bind M.fresh fun i => M.pure (.add i args) else M.panic .addArgs

/-- `FunctionCos::new`, src/model/function/cos.rs:21-27 -/
def newCos (a : Node F) : M (Node F) := M.bind M.fresh fun i => M.pure (.cos i a)

/-- `FunctionSin::new`, src/model/function/sin.rs:21-27 -/
def newSin (a : Node F) : M (Node F) := M.bind M.fresh fun i => M.pure (.sin i a)

/-- `FunctionMul::new`, src/model/function/mul.rs:20-26 -/
def newMul (a b : Node F) : M (Node F) := M.bind M.fresh fun i => M.pure (.mul i a b)

/-- `FunctionDiv::new`, src/model/function/div.rs:20-26 -/
def newDiv (a b : Node F) : M (Node F) := M.bind M.fresh fun i => M.pure (.div i a b)

/-! ## Addition -/

/-- Inner loop of the add overloads, src/model/node.rs:159-164: flatten the arguments of a sum. -/
def gatherArgs : F × List (Node F) → List (Node F) → F × List (Node F)
  | acc, [] => acc
  | (c, args), .const _ v :: xs => gatherArgs (c +. v, args) xs
  | (c, args), x :: xs => gatherArgs (c, args ++ [x]) xs

/-- Loop body of the add overloads, src/model/node.rs:153-168: `c` collects constants, `args` the other terms. -/
def gather (acc : F × List (Node F)) (a : Node F) : F × List (Node F) :=
  match a with
  | .const _ v => (acc.1 +. v, acc.2)
  | .add _ xs => gatherArgs acc xs
  | a => (acc.1, acc.2 ++ [a])

/-- Tail of the add overloads, src/model/node.rs:169-175 -/
def finishAdd (acc : F × List (Node F)) : M (Node F) :=
  if acc.2.isEmpty then newConst acc.1
  else if !(acc.1 ==. zero) then
    M.bind (newConst acc.1) fun k => newAdd (acc.2 ++ [k])
  else newAdd acc.2

/-- `&Node + &Node`, src/model/node.rs:135-180 (the four overloads 261-264 are the same code) -/
def addN (a b : Node F) : M (Node F) :=
  if a.isConstVal zero then M.pure b
  else if b.isConstVal zero then M.pure a
  else finishAdd (gather (gather (zero, []) a) b)

/-- `&Node + f64`, src/model/node.rs:182-218 -/
def addS (a : Node F) (c : F) : M (Node F) :=
  if c ==. zero then M.pure a
  else M.bind (newConst c) fun k => finishAdd (gather (gather (zero, []) a) k)

/-- `f64 + &Node`, src/model/node.rs:221-258 -/
def sAdd (c : F) (b : Node F) : M (Node F) :=
  if c ==. zero then M.pure b
  else M.bind (newConst c) fun k => finishAdd (gather (gather (zero, []) k) b)

/-! ## Multiplication

The code is recursive: a constant times a sum multiplies every argument of the sum with the same operator.  The recursion is
on the arguments of the sum, so the model splits the operator by the constant operand; `Verif/Proofs/Node.lean` proves
(`mulN_unfold`, `sMul_unfold`, `mulS_unfold`) that the operators satisfy the equations that are the text of the code. -/

/-- `f64 * &Node`, src/model/node.rs:364-404 -/
def sMul (c : F) : Node F → M (Node F)
  | .const _ v => newConst (c *. v)
  | .add i args =>
    if c ==. zero then newConst zero
    else if c ==. one then M.pure (.add i args)
    else M.bind (sMulL c args) newAdd
  | r =>
    if c ==. zero then newConst zero
    else if c ==. one then M.pure r
    else M.bind (newConst c) fun k => newMul k r
where
  /-- `r.arguments().iter().map(|x| s*(*x)).collect()`, src/model/node.rs:396 -/
  sMulL (c : F) : List (Node F) → M (List (Node F))
    | [] => M.pure []
    | a :: as => M.bind (sMul c a) fun b => M.bind (sMulL c as) fun bs => M.pure (b :: bs)

/-- `&Node * f64`, src/model/node.rs:320-363 -/
def mulS (c : F) : Node F → M (Node F)
  | .const _ v => newConst (v *. c)
  | .add i args =>
    if c ==. zero then newConst zero
    else if c ==. one then M.pure (.add i args)
    else M.bind (mulSL c args) newAdd
  | r =>
    if c ==. zero then newConst zero
    else if c ==. one then M.pure r
    else M.bind (newConst c) fun k => newMul r k
where
  /-- `s.arguments().iter().map(|x| (*x)*r).collect()`, src/model/node.rs:353 -/
  mulSL (c : F) : List (Node F) → M (List (Node F))
    | [] => M.pure []
    | a :: as => M.bind (mulS c a) fun b => M.bind (mulSL c as) fun bs => M.pure (b :: bs)

/-- `&Node * &Node` with a constant (cell `i`, value `a`) on the left, src/model/node.rs:268-317 -/
def mulCL (i : Nat) (a : F) : Node F → M (Node F)
  | .const j b =>
    if a ==. zero || b ==. zero then newConst zero
    else if a ==. one then M.pure (.const j b)
    else if b ==. one then M.pure (.const i a)
    else newConst (a *. b)
  | .add j args =>
    if a ==. zero then newConst zero
    else if a ==. one then M.pure (.add j args)
    else M.bind (mulCLL i a args) newAdd
  | r =>
    if a ==. zero then newConst zero
    else if a ==. one then M.pure r
    else newMul (.const i a) r
where
  /-- `r.arguments().iter().map(|x| &s*(*x)).collect()`, src/model/node.rs:303 -/
  mulCLL (i : Nat) (a : F) : List (Node F) → M (List (Node F))
    | [] => M.pure []
    | x :: xs => M.bind (mulCL i a x) fun b => M.bind (mulCLL i a xs) fun bs => M.pure (b :: bs)

/-- `&Node * &Node` with a constant (cell `j`, value `b`) on the right, src/model/node.rs:268-317 -/
def mulCR (j : Nat) (b : F) : Node F → M (Node F)
  | .const i a =>
    if a ==. zero || b ==. zero then newConst zero
    else if a ==. one then M.pure (.const j b)
    else if b ==. one then M.pure (.const i a)
    else newConst (a *. b)
  | .add i args =>
    if b ==. zero then newConst zero
    else if b ==. one then M.pure (.add i args)
    else M.bind (mulCRL j b args) newAdd
  | s =>
    if b ==. zero then newConst zero
    else if b ==. one then M.pure s
    else newMul s (.const j b)
where
  /-- `s.arguments().iter().map(|x| (*x)*&r).collect()`, src/model/node.rs:308 -/
  mulCRL (j : Nat) (b : F) : List (Node F) → M (List (Node F))
    | [] => M.pure []
    | x :: xs => M.bind (mulCR j b x) fun y => M.bind (mulCRL j b xs) fun ys => M.pure (y :: ys)

/-- `&Node * &Node`, src/model/node.rs:268-317 (the four overloads 408-411 are the same code) -/
def mulN (s r : Node F) : M (Node F) :=
  match s, r with
  | .const i a, r => mulCL i a r
  | s, .const j b => mulCR j b s
  | s, r => newMul s r

/-! ## Negation, subtraction, division, sine, cosine -/

/-- `-&Node`, src/model/node.rs:415-432 -/
def negN : Node F → M (Node F)
  | .const _ v => newConst (negOne *. v)
  | a => sMul negOne a

/-- `&Node - &Node`, src/model/node.rs:434-443 -/
def subN (a b : Node F) : M (Node F) := M.bind (sMul negOne b) fun nb => addN a nb

/-- `&Node - f64`, src/model/node.rs:445-452 -/
def subS (a : Node F) (c : F) : M (Node F) :=
  M.bind (newConst c) fun k => M.bind (sMul negOne k) fun nk => addN a nk

/-- `f64 - &Node`, src/model/node.rs:453-460 -/
def sSub (c : F) (b : Node F) : M (Node F) :=
  M.bind (newConst c) fun k => M.bind (sMul negOne b) fun nb => addN k nb

/-- `&Node / &Node`, src/model/node.rs:469-503; the constants are evaluated with an empty map of values -/
def divN (a b : Node F) : M (Node F) :=
  if b.isConstVal zero then M.panic .divByZero
  else if b.isConstVal one then M.pure a
  else if a.isConstVal zero then newConst zero
  else if a.isConstant && b.isConstant then newConst (a.evaluate (fun _ => none) /. b.evaluate (fun _ => none))
  else newDiv a b

/-- `&Node / f64`, src/model/node.rs:505-538 -/
def divS (a : Node F) (c : F) : M (Node F) :=
  if c ==. zero then M.panic .divByZero
  else if c ==. one then M.pure a
  else if a.isConstVal zero then newConst zero
  else if a.isConstant then newConst (a.evaluate (fun _ => none) /. c)
  else M.bind (newConst c) fun k => newDiv a k

/-- `f64 / &Node`, src/model/node.rs:539-571 -/
def sDiv (c : F) (b : Node F) : M (Node F) :=
  if b.isConstVal zero then M.panic .divByZero
  else if b.isConstVal one then newConst c
  else if c ==. zero then newConst zero
  else if b.isConstant then newConst (c /. b.evaluate (fun _ => none))
  else M.bind (newConst c) fun k => newDiv k b

/-- `NodeFunc::cos`, src/model/node_func.rs:20-27 -/
def cosN : Node F → M (Node F)
  | .const _ v => newConst (FloatOps.cos v)
  | a => newCos a

/-- `NodeFunc::sin`, src/model/node_func.rs:29-36 -/
def sinN : Node F → M (Node F)
  | .const _ v => newConst (FloatOps.sin v)
  | a => newSin a

/-! ## Partial derivatives with respect to an argument -/

/-- `partial`: src/model/node_base.rs:36-46, constant.rs:38, variable.rs:66-79, function/add.rs:37-44, cos.rs:36-43,
div.rs:35-45, mul.rs:35-45, sin.rs:36-43. -/
def partialN (n arg : Node F) : M (Node F) :=
  match n with
  | .const .. => newConst zero
  | .var i s k => newConst (if (Node.var i s k).ptrEq arg then one else zero)
  | .add _ args => newConst (if args.any (fun a => a.ptrEq arg) then one else zero)
  | .cos _ a => if a.ptrEq arg then M.bind (sinN a) negN else newConst zero
  | .div _ a b =>
    if a.ptrEq arg then sDiv one b
    else if b.ptrEq arg then M.bind (negN a) fun na => M.bind (mulN b b) fun bb => divN na bb
    else newConst zero
  | .mul _ a b =>
    if a.ptrEq arg then M.pure b
    else if b.ptrEq arg then M.pure a
    else newConst zero
  | .sin _ a => if a.ptrEq arg then cosN a else newConst zero

end Verif
