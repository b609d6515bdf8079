import Verif.Spec.Exact
import Verif.Code.Node

/-!
# The terms of a derivative

Specification for C95: what the derivative is a sum of, with numbers and terms that are not numbers counted, and nothing said about how they look.
-/

namespace Verif

variable {K : Type}

/-- How many terms an expression has that are not numbers, and the sum of its terms that are numbers. -/
structure Form (K : Type) where
  terms : Nat
  number : K
  deriving DecidableEq

variable [Field K]

/-- The value of a number, and 0 for anything else. -/
def Node.numberOf : Node (Option K) → K
  | .const _ v => v.getD 0
  | _ => 0

/-- The form of an expression. -/
def Node.form : Node (Option K) → Form K
  | .const _ v => ⟨0, v.getD 0⟩
  | .add _ args => ⟨(args.filter fun a => !a.isConstant).length, (args.map Node.numberOf).sum⟩
  | _ => ⟨1, 0⟩

section
variable [DecidableEq K]

/-- The form of a product: zero times anything is 0, another number is distributed, everything else is a single term. -/
def Form.mul (p q : Form K) : Form K :=
  if p = ⟨0, 0⟩ ∨ q = ⟨0, 0⟩ then ⟨0, 0⟩
  else if p.terms = 0 then ⟨q.terms, p.number * q.number⟩
  else if q.terms = 0 then ⟨p.terms, p.number * q.number⟩
  else ⟨1, 0⟩

/-- The form of one divided by an expression. -/
def Form.inv (p : Form K) : Form K := if p.terms = 0 then ⟨0, 1 / p.number⟩ else ⟨1, 0⟩

/-- For each place where the variable is written, the last place first, the form of the product of the partial derivatives on the way from the whole expression to that place
(`∂(ab)/∂a = b`, `∂(a/b)/∂a = 1/b`, and so on). For the divisor of `a / b` it is `-a / (b b)`, a single term unless `a` is the number 0. (In a quotient of a node by itself, both places count
as the dividend, see C07_exact.) -/
def places (x : Node (Option K)) : Node (Option K) → List (Form K)
  | .const .. => []
  | .var i s k => if (Node.var i s k).ptrEq x then [⟨0, 1⟩] else []
  | .add _ args => places.terms x args
  | .cos _ a => (places x a).map (Form.mul ⟨1, 0⟩)
  | .sin _ a => (places x a).map (Form.mul ⟨1, 0⟩)
  | .mul _ a b => (places x b).map (Form.mul a.form) ++ (places x a).map (Form.mul b.form)
  | .div _ a b =>
    (places x b).map (Form.mul (if a.ptrEq b then b.form.inv else if a.form = ⟨0, 0⟩ then ⟨0, 0⟩ else ⟨1, 0⟩)) ++ (places x a).map (Form.mul b.form.inv)
where
  /-- the same for the terms of a sum -/
  terms (x : Node (Option K)) : List (Node (Option K)) → List (Form K)
    | [] => []
    | a :: as => terms x as ++ places x a

/-- Adding up these products one after the other, some product has a number as a term that cancels the numbers so far, while there is exactly one other term. -/
def NumbersCancel (ps : List (Form K)) : Prop :=
  ∃ before p after, ps = before ++ p :: after ∧ ((before ++ [p]).map Form.terms).sum = 1 ∧ ((before ++ [p]).map Form.number).sum = 0 ∧ p.number ≠ 0

end

end Verif
