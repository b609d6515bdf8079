import Verif.Spec.Depth

/-! # How long expressions are when they are written out -/

namespace Verif

variable {F : Type}

/-- The number of numbers, variables and functions of an expression when it is written out as a formula (a shared sub-expression is written once for each use). -/
def Node.size : Node F → Nat
  | .const .. => 1
  | .var .. => 1
  | .add _ args => 1 + total args
  | .cos _ a => 1 + a.size
  | .div _ a b => 1 + a.size + b.size
  | .mul _ a b => 1 + a.size + b.size
  | .sin _ a => 1 + a.size
where
  /-- of all of them -/
  total : List (Node F) → Nat
    | [] => 0
    | a :: as => a.size + total as

/-- The objective and both sides of all constraints are at most that long. -/
def Model.SizeIn (s : Nat) (m : Model F) : Prop :=
  (∀ f, (m.objective = .minimize f ∨ m.objective = .maximize f) → f.size ≤ s) ∧ ∀ c ∈ m.constraints, c.lhs.size ≤ s ∧ c.rhs.size ≤ s

/-- All functions of the standard components of a model (objective, gradient, Hessian, nonlinear constraint functions, their Jacobian and Hessians) are at most that long. -/
def ModelComp.SizeIn (s : Nat) (c : ModelComp F) : Prop :=
  c.obj.phi.size ≤ s ∧ (∀ e ∈ c.obj.gphi, e.2.size ≤ s) ∧ (∀ e ∈ c.obj.hphi, e.2.2.size ≤ s) ∧
  (∀ e ∈ c.constr.f, e.size ≤ s) ∧ (∀ e ∈ c.constr.j, e.2.2.size ≤ s) ∧ ∀ h ∈ c.constr.h, ∀ e ∈ h, e.2.2.size ≤ s

/-- A bound for the length of a derivative of a formula of length `s`. -/
def derivBound (s : Nat) : Nat := 1 + s * (3 + 6 * (s * s))

/-- A bound for the number of cells made for one place of a variable in a formula of length `s`. -/
def placeCells (s : Nat) : Nat := 3 + s * (2 * (1 + 6 * (s * s)) + 12 * s)

/-- A bound for the number of cells made by differentiating a formula of length `s` by `k` variables at once. -/
def derivsCells (k s : Nat) : Nat := 2 + k * (1 + s * placeCells s)

/-- A bound for the number of cells made for the gradient and the Hessian of a formula of length `s`. -/
def componentCells (s : Nat) : Nat := 1 + derivsCells s s + s * derivsCells s (derivBound s)

/-- A bound for the number of cells made for one constraint whose sides have the length `s`, or for an objective of that length. -/
def rowCells (s : Nat) : Nat := componentCells (4 * s + 7) + 3 * s + 10

end Verif
