import Verif.Code.Model

/-! # How deep expressions are nested -/

namespace Verif

variable {F : Type}

/-- The number of levels of an expression: 1 for numbers and variables, one more than the deepest argument for functions. -/
def Node.depth : Node F → Nat
  | .const .. => 1
  | .var .. => 1
  | .add _ args => 1 + deepest args
  | .cos _ a => 1 + a.depth
  | .div _ a b => 1 + max a.depth b.depth
  | .mul _ a b => 1 + max a.depth b.depth
  | .sin _ a => 1 + a.depth
where
  /-- the depth of the deepest of them -/
  deepest : List (Node F) → Nat
    | [] => 0
    | a :: as => max a.depth (deepest as)

/-- The terms of a sum have at most that depth; an expression that is not a sum is its own term. -/
def Node.TermDepth (d : Nat) : Node F → Prop
  | .add _ args => ∀ t ∈ args, t.depth ≤ d
  | e => e.depth ≤ d

/-- The objective and both sides of all constraints have at most that depth. -/
def Model.DepthIn (d : Nat) (m : Model F) : Prop :=
  (∀ f, (m.objective = .minimize f ∨ m.objective = .maximize f) → f.depth ≤ d) ∧ ∀ c ∈ m.constraints, c.lhs.depth ≤ d ∧ c.rhs.depth ≤ d

/-- All functions of the standard components of a model (objective, gradient, Hessian, nonlinear constraint functions, their Jacobian and Hessians) have at most that depth. -/
def ModelComp.DepthIn (d : Nat) (c : ModelComp F) : Prop :=
  c.obj.phi.depth ≤ d ∧ (∀ e ∈ c.obj.gphi, e.2.depth ≤ d) ∧ (∀ e ∈ c.obj.hphi, e.2.2.depth ≤ d) ∧
  (∀ e ∈ c.constr.f, e.depth ≤ d) ∧ (∀ e ∈ c.constr.j, e.2.2.depth ≤ d) ∧ ∀ h ∈ c.constr.h, ∀ e ∈ h, e.2.2.depth ≤ d

end Verif
