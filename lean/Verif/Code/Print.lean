import Verif.Code.Constraint

/-!
# Printing: `impl Display`, src/model/node.rs:106-119, constant.rs:41-45, variable.rs:81-85, function/*.rs, constraint.rs:99-107

Texts are lists of characters. `fmt` stands for `{}` of `f64`.
-/

namespace Verif

variable {F : Type}

/-- `format!("({})", x)`. Code: e.g. src/model/function/mul.rs:78-82. -/
def inParens (s : List Char) : List Char := '(' :: s ++ [')']

namespace Node

/-- Parentheses around the first factor of a product and around a numerator: src/model/function/mul.rs:78-82, div.rs:77-81 -/
def parens0 : Node F → Bool
  | .add .. | .div .. => true
  | _ => false

/-- Parentheses around the second factor of a product: src/model/function/mul.rs:83-86 -/
def parens1 : Node F → Bool
  | .add .. => true
  | _ => false

/-- Parentheses around a denominator: src/model/function/div.rs:82-87 -/
def parensD : Node F → Bool
  | .add .. | .mul .. | .div .. => true
  | _ => false

/-- `{}` of a node: src/model/node.rs:106-119, constant.rs:43, variable.rs:83, function/add.rs:79-92, cos.rs:61, div.rs:75-90,
mul.rs:76-89, sin.rs:61 -/
def print (fmt : F → List Char) : Node F → List Char
  | .const _ v => fmt v
  | .var _ s _ => s.toList
  | .add _ args => printArgs fmt args
  | .cos _ a => ['c', 'o', 's'] ++ inParens (a.print fmt)
  | .div _ a b => (if a.parens0 then inParens (a.print fmt) else a.print fmt) ++ '/' ::
      (if b.parensD then inParens (b.print fmt) else b.print fmt)
  | .mul _ a b => (if a.parens0 then inParens (a.print fmt) else a.print fmt) ++ '*' ::
      (if b.parens1 then inParens (b.print fmt) else b.print fmt)
  | .sin _ a => ['s', 'i', 'n'] ++ inParens (a.print fmt)
where
  /-- loop of function/add.rs:81-89 -/
  printArgs (fmt : F → List Char) : List (Node F) → List Char
    | [] => []
    | a :: as => if as.isEmpty then a.print fmt else a.print fmt ++ ' ' :: '+' :: ' ' :: printArgs fmt as

end Node

/-- src/model/constraint.rs:101-105 -/
def CKind.symbol : CKind → List Char
  | .equal => ['=', '=']
  | .lessEqual => ['<', '=']
  | .greaterEqual => ['>', '=']

/-- `{}` of a constraint: src/model/constraint.rs:99-107 -/
def Constraint.print (fmt : F → List Char) (c : Constraint F) : List Char :=
  c.lhs.print fmt ++ ' ' :: (c.kind.symbol ++ ' ' :: c.rhs.print fmt)

end Verif
