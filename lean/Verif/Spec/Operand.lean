import Verif.Spec.Calculus

/-! # The outermost operation of an expression, as a function of one of its operands -/

namespace Verif

/-- The value of an expression (0 where it has none). -/
noncomputable def valueOr0 (σ : Env (Option ℝ)) (e : Node (Option ℝ)) : ℝ := (e.evaluate σ).getD 0

/-- The value of the outermost operation of the expression if its operand number `k` had the value `t` and all its other operands the values they have
at `σ`. -/
noncomputable def withOperand (σ : Env (Option ℝ)) (k : ℕ) (t : ℝ) : Node (Option ℝ) → ℝ
  | .add _ args => ((args.map (valueOr0 σ)).set k t).sum
  | .mul _ a b => if k = 0 then t * valueOr0 σ b else valueOr0 σ a * t
  | .div _ a b => if k = 0 then t / valueOr0 σ b else valueOr0 σ a / t
  | .cos .. => Real.cos t
  | .sin .. => Real.sin t
  | e => valueOr0 σ e

/-- `b` is operand number `k` of `e`, and no operand before it is the same node. -/
def FirstOperand {F : Type} (e b : Node F) (k : ℕ) : Prop :=
  e.arguments[k]? = some b ∧ ∀ (j : ℕ) (a : Node F), j < k → e.arguments[j]? = some a → a.ptrEq b = false

end Verif
