import Verif.Code.Model
import Verif.Spec.Exact

/-!
# Constraints of the form `t + k ⋚ k`
-/

namespace Verif

variable {F : Type} [FloatOps F]

/-- A sum with exactly one term that is not a number, such as `x + 5`. -/
def OneTerm (e : Node F) : Prop := ∃ i args t, e = .add i args ∧ args.filter (fun a => !a.isConstant) = [t]

/-- A number on one side of the constraint, a sum with one term besides numbers on the other. -/
def Constraint.TermAgainstNumber (c : Constraint F) : Prop :=
  (OneTerm c.lhs ∧ c.rhs.isConstant = true) ∨ (OneTerm c.rhs ∧ c.lhs.isConstant = true)

/-- The objective and both sides of each constraint are reported affine (`is_affine()` of their `std_properties()`). -/
structure Model.AllAffine (m : Model F) : Prop where
  objective : ∀ f, m.objective = .minimize f ∨ m.objective = .maximize f → f.stdProperties.affine = true
  constraints : ∀ c ∈ m.constraints, c.lhs.stdProperties.affine = true ∧ c.rhs.stdProperties.affine = true

/-- `a` is `t + k₁ + k₂ + ...` with a single term `t` that is not a number, and `b` is the number `k₁ + k₂ + ...`, which is not zero. -/
def SumOfItsNumbers {K : Type} [Field K] [LinearOrder K] [Trig K] (a b : Node (Option K)) : Prop :=
  ∃ (i j : Nat) (args : List (Node (Option K))) (t : Node (Option K)) (ks : List K), a = .add i args ∧ args.filter (fun a => !a.isConstant) = [t] ∧
    (args.filter Node.isConstant).map (Node.evaluate fun _ => none) = ks.map some ∧ b = .const j (some ks.sum) ∧ ks.sum ≠ 0

end Verif
