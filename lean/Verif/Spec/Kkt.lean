import Verif.Spec.Solve
import Verif.Spec.Calculus

/-! # First-order optimality -/

namespace Verif

/-- The vector of the numbers `f 0, ..., f (n-1)`. -/
def vec (n : Nat) (f : Nat → ℝ) : List (Option ℝ) := (List.range n).map fun k => some (f k)

/-- The answer of a solver is a point with multipliers that satisfies the first-order conditions of the problem
`minimise phi(x) subject to A x = b, f(x) = 0, l ≤ x ≤ u`: the point is feasible; the multipliers `mu` of the upper and `pi` of the
lower bounds are not negative and vanish where the bound is not active; and for each variable
`d phi/dx_i - sum_k A[k,i] lam_k - sum_k J[k,i] nu_k + mu_i - pi_i = 0`, with the gradient and the Jacobian that evaluating the problem
at the point delivers. -/
structure Minlp.Kkt (q : Minlp (Option ℝ)) (sol : Sol (Option ℝ)) : Prop where
  feasible : q.Feasible sol.x
  certificate : ∃ (r : Minlp (Option ℝ)) (x lam nu mu pi lo up : Nat → ℝ), q.evaluate sol.x = .ok r ∧
    sol.x = vec q.nx x ∧ sol.lam = vec q.na lam ∧ sol.nu = vec q.nf nu ∧ sol.mu = vec q.nx mu ∧ sol.pi = vec q.nx pi ∧
    q.l = vec q.nx lo ∧ q.u = vec q.nx up ∧
    ∀ i < q.nx, 0 ≤ mu i ∧ 0 ≤ pi i ∧ mu i * (up i - x i) = 0 ∧ pi i * (x i - lo i) = 0 ∧
      ∃ (g : ℝ) (a j : Nat → ℝ), r.buf.gphi[i]? = some (some g) ∧ (∀ k < q.na, q.a.dense k i = some (a k)) ∧
        (∀ k < q.nf, r.buf.j.dense k i = some (j k)) ∧
        g - ((List.range q.na).map fun k => a k * lam k).sum - ((List.range q.nf).map fun k => j k * nu k).sum + mu i - pi i = 0

/-- The direction in which a constraint pushes: `lhs - rhs` is bounded from below, or, for `<=`, from above. -/
def CKind.sign : CKind → ℝ
  | .lessEqual => -1
  | _ => 1

/-- `σ` is strictly inside the box that the standard problem imposes (see `Model.Admissible`). -/
structure Model.InsideBox (mod : Model (Option ℝ)) (σ : Env (Option ℝ)) : Prop where
  vars : ∀ x, mod.HasVar x → ∀ t : ℝ, x.evaluate σ = some t → -(10 ^ 8) < t ∧ t < 10 ^ 8
  rows : ∀ c ∈ mod.constraints, c.kind ≠ .equal → (∀ x v, ¬ c.Bounds x v) →
    ∀ a b : ℝ, c.lhs.evaluate σ = some a → c.rhs.evaluate σ = some b → -(10 ^ 8) < a - b ∧ a - b < 10 ^ 8

/-- `y` is a certificate of first-order optimality of `σ` for the model as the user wrote it, with `y c` the multiplier of the
constraint `c`: the constraints hold; multipliers of inequalities are not negative, and 0 if the inequality is not tight; and for every
variable, the derivative of what is minimised is the sum of the derivatives of `lhs - rhs` of the constraints, times the multipliers,
with a minus sign for `<=`. -/
structure Model.KktAt (mod : Model (Option ℝ)) (σ : Env (Option ℝ)) (y : Constraint (Option ℝ) → ℝ) : Prop where
  holds : ∀ c ∈ mod.constraints, c.Holds σ
  nonneg : ∀ c ∈ mod.constraints, c.kind ≠ .equal → 0 ≤ y c
  complementary : ∀ c ∈ mod.constraints, c.kind ≠ .equal →
    ∀ a b : ℝ, c.lhs.evaluate σ = some a → c.rhs.evaluate σ = some b → y c * (a - b) = 0
  stationary : ∀ x, mod.HasVar x → ∀ t : ℝ, x.evaluate σ = some t → ∃ (g0 : ℝ) (g : Constraint (Option ℝ) → ℝ),
    HasDerivAt (alongVar mod.minimised x σ) g0 t ∧
    (∀ c ∈ mod.constraints, HasDerivAt (alongVar (fun τ => c.lhs.evaluate τ -. c.rhs.evaluate τ) x σ) (g c) t) ∧
    g0 = (mod.constraints.map fun c => c.kind.sign * y c * g c).sum

end Verif
