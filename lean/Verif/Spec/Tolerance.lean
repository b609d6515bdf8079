import Verif.Spec.Feasible
import Verif.Spec.Solve

/-! # What it means that a point satisfies a problem, or an assignment a model, up to tolerances

Solvers stop when the rows, bounds and integrality conditions hold up to tolerances, not exactly. -/

namespace Verif

variable {K : Type} [Field K] [LinearOrder K] [Trig K]

/-- The relation of a constraint kind, up to `t`. -/
def CKind.Within (k : CKind) (t a b : K) : Prop :=
  match k with
  | .equal => |a - b| ≤ t
  | .lessEqual => a ≤ b + t
  | .greaterEqual => b ≤ a + t

/-- Both sides of the constraint have values at `σ` and these are in the relation of the constraint up to `t`. -/
def Constraint.HoldsWithin (c : Constraint (Option K)) (t : K) (σ : Env (Option K)) : Prop :=
  ∃ a b, c.lhs.evaluate σ = some a ∧ c.rhs.evaluate σ = some b ∧ c.kind.Within t a b

/-- `xs` satisfies the rows `A x = b` and `f(x) = 0` up to `δ`, the bounds `l ≤ x ≤ u` up to `ε` and integrality up to `η`. -/
structure Minlp.FeasibleWithin (q : Minlp (Option K)) (δ ε η : K) (xs : List (Option K)) : Prop where
  len : xs.length = q.nx
  linear : ∀ i v, q.b[i]? = some v → ∃ t y, v = some t ∧
    total ((rowOf q.a.triplets i).map fun e => e.2 *. (xs[e.1]?).getD none) = some y ∧ |y - t| ≤ δ
  nonlinear : ∃ q', q.evaluate xs = .ok q' ∧ ∀ v ∈ q'.buf.f, ∃ y, v = some y ∧ |y| ≤ δ
  bounds : ∀ (i : Nat) (x : Option K), xs[i]? = some x → ∃ t lo up, x = some t ∧ q.l[i]? = some (some lo) ∧
    q.u[i]? = some (some up) ∧ lo - ε ≤ t ∧ t ≤ up + ε
  integral : ∀ i : Nat, q.p[i]? = some true → ∃ (t : K) (z : ℤ), xs[i]? = some (some t) ∧ |t - z| ≤ η

/-- `xs` satisfies the problem up to the tolerances, and its objective value is at most `γ` above that of every feasible point. -/
structure Minlp.NearMinimiser (q : Minlp (Option K)) (δ ε η γ : K) (xs : List (Option K)) : Prop where
  feasible : q.FeasibleWithin δ ε η xs
  best : ∃ v, q.objectiveAt xs = some (some v) ∧ ∀ ys, q.Feasible ys → ∀ w, q.objectiveAt ys = some (some w) → v ≤ w + γ

/-- `σ` satisfies the equality constraints up to `δ`, the inequality constraints up to `ε`, integrality up to `η`, and the box of
`std_problem` (see C25) up to `ε`. -/
structure Model.AdmissibleWithin (mod : Model (Option K)) (δ ε η : K) (σ : Env (Option K)) : Prop where
  holds : ∀ c ∈ mod.constraints, c.HoldsWithin (if c.kind = .equal then δ else ε) σ
  integral : ∀ x, mod.HasVar x → x.isInteger = true → ∃ (t : K) (z : ℤ), x.evaluate σ = some t ∧ |t - z| ≤ η
  box : ∀ x, mod.HasVar x → ∃ t : K, x.evaluate σ = some t ∧ -(10 ^ 8) - ε ≤ t ∧ t ≤ 10 ^ 8 + ε
  slackBox : ∀ c ∈ mod.constraints, c.kind ≠ .equal → (∀ x v, ¬ c.Bounds x v) →
    ∀ a b, c.lhs.evaluate σ = some a → c.rhs.evaluate σ = some b → -(10 ^ 8) - ε ≤ a - b ∧ a - b ≤ 10 ^ 8 + ε

/-- The standard components of a constraint hold at `τ` up to `δ` (rows) and `ε` (bounds). -/
structure ConstrComp.HoldsWithinAt (cc : ConstrComp (Option K)) (arow : Nat) (δ ε : K) (τ : Env (Option K)) : Prop where
  linear : ∀ k v, cc.b[k]? = some v → ∃ t y, v = some t ∧ affineValue τ (entriesOf cc.a (arow + k)) (some 0) = some y ∧ |y - t| ≤ δ
  nonlinear : ∀ f ∈ cc.f, ∃ y, f.evaluate τ = some y ∧ |y| ≤ δ
  upper : ∀ e ∈ cc.u, ∃ x v, e.1.evaluate τ = some x ∧ e.2.1 = some v ∧ x ≤ v + ε
  lower : ∀ e ∈ cc.l, ∃ x v, e.1.evaluate τ = some x ∧ e.2.1 = some v ∧ v - ε ≤ x

end Verif
