import Verif.Spec.Shape

/-! # The form of sums -/

namespace Verif

variable {F : Type}

/-- Every sum inside `e` is flat: none of its terms is a sum, and at most the last of them is a constant. -/
def FlatSums (e : Node F) : Prop :=
  ∀ i args, Occurs (.add i args) e → (∀ a ∈ args, ∀ j bs, a ≠ .add j bs) ∧ ∀ a ∈ args.dropLast, a.isConstant = false

/-- The terms of an expression: those of a sum, or the expression itself. -/
def Node.terms : Node F → List (Node F)
  | .add _ args => args
  | a => [a]

end Verif
