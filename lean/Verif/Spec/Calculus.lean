import Verif.Spec.Exact
import Verif.Code.Node

/-! # Vocabulary of the statements about values and derivatives -/

namespace Verif

/-- The assignment `σ` with the value of variable number `i` replaced. -/
def Env.set {F : Type} (σ : Env F) (i : Nat) (v : F) : Env F := fun j => if j = i then some v else σ j

/-- The expression has a (finite) value at `σ`. -/
def Defined {K : Type} [Field K] [LinearOrder K] [Trig K] (e : Node (Option K)) (σ : Env (Option K)) : Prop :=
  ∃ v, e.evaluate σ = some v

/-- The expression as a real function of the variable `x`, all other variables fixed by `σ` (0 where undefined). -/
noncomputable def section' (e x : Node (Option ℝ)) (σ : Env (Option ℝ)) (t : ℝ) : ℝ :=
  (e.evaluate (σ.set x.id (some t))).getD 0

/-- First partial derivative (Mathlib's `deriv`) of the expression with respect to variable `x` at `σ`. -/
noncomputable def partialDeriv (e x : Node (Option ℝ)) (σ : Env (Option ℝ)) : ℝ :=
  deriv (section' e x σ) (((σ x.id).getD none).getD 0)

/-- Second partial derivative of the expression, first with respect to `x`, then to `y`, at `σ`. -/
noncomputable def partialDeriv2 (e x y : Node (Option ℝ)) (σ : Env (Option ℝ)) : ℝ :=
  deriv (fun t => partialDeriv e x (σ.set y.id (some t))) (((σ y.id).getD none).getD 0)

/-- A function of assignments as a real function of the variable `x`, the others fixed by `σ` (0 where it has no value). -/
noncomputable def alongVar (g : Env (Option ℝ) → Option ℝ) (x : Node (Option ℝ)) (σ : Env (Option ℝ)) (t : ℝ) : ℝ :=
  (g (σ.set x.id (some t))).getD 0

/-- First partial derivative (Mathlib's `deriv`) of a function of assignments with respect to variable `x` at `σ`. -/
noncomputable def partialAlong (g : Env (Option ℝ) → Option ℝ) (x : Node (Option ℝ)) (σ : Env (Option ℝ)) : ℝ :=
  deriv (alongVar g x σ) (((σ x.id).getD none).getD 0)

/-- The derivative with respect to `x` at `σ` by the rules of calculus, except that a quotient of a node by itself is differentiated as
if it were `2 log`: the rule that the code follows (C07). Nodes without a value count as 0. -/
def ruleD {K : Type} [Field K] [LinearOrder K] [Trig K] (σ : Env (Option K)) (x : Node (Option K)) : Node (Option K) → K
  | .const .. => 0
  | .var i s k => if (Node.var i s k).ptrEq x then 1 else 0
  | .add _ args => ruleDs σ x args
  | .cos _ a => - Trig.sin ((a.evaluate σ).getD 0) * ruleD σ x a
  | .sin _ a => Trig.cos ((a.evaluate σ).getD 0) * ruleD σ x a
  | .mul _ a b => ruleD σ x a * (b.evaluate σ).getD 0 + (a.evaluate σ).getD 0 * ruleD σ x b
  | .div _ a b =>
    if a.ptrEq b then 2 * ruleD σ x a / (a.evaluate σ).getD 0
    else (ruleD σ x a * (b.evaluate σ).getD 0 - (a.evaluate σ).getD 0 * ruleD σ x b) / (b.evaluate σ).getD 0 ^ 2
where
  /-- the sum over a list of terms -/
  ruleDs (σ : Env (Option K)) (x : Node (Option K)) : List (Node (Option K)) → K
    | [] => 0
    | a :: as => ruleD σ x a + ruleDs σ x as

end Verif
