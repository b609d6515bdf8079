import Verif.Spec.RoundingDeriv64
import Verif.Spec.RoundingNlp64

/-!
# Gradients and Jacobians in double precision: the functions and the sizes
-/

namespace Verif

/-- The slack of nonlinear row `k`: the column that `std_problem` created (number at least `n`) with the name of the slack of this row, if there is one. -/
def StdProb.slackOf (sp : StdProb F64) (n k : ℕ) : Option (Node F64) :=
  (sp.var2index.find? fun e => decide (n ≤ e.1.id) && e.1.name == slackNameJ k).map Prod.fst

/-- The exact function of nonlinear row `k`, which comes from the constraint `c`: left side minus right side minus slack. -/
noncomputable def StdProb.rowReal (sp : StdProb F64) (n k : ℕ) (c : Constraint F64) (t : ℕ → ℝ) : ℝ :=
  c.lhs.realAt t - c.rhs.realAt t - (match sp.slackOf n k with | some s => t s.id | none => 0)

/-- Size and operations of the derivative of left side minus right side. -/
noncomputable def Constraint.gradSize (c : Constraint F64) (t : ℕ → ℝ) (κ x : ℕ) : GradSize :=
  ((c.lhs.gradSize t κ x).times 1 1).add ((c.rhs.gradSize t κ x).times 1 4)

/-- Left side minus right side can be computed without overflow. -/
def Constraint.Tame [Libm] (c : Constraint F64) (σ : Env F64) (t : ℕ → ℝ) (κ : ℕ) : Prop :=
  c.lhs.Tame σ t κ ∧ c.rhs.Tame σ t κ ∧ InRange (4 * (c.lhs.sizeAt t + c.rhs.sizeAt t)) (c.lhs.opsAt κ + 4 * c.rhs.opsAt κ + 8)

end Verif
