import Verif.Spec.Kkt
import Verif.Spec.Tolerance
import Verif.Spec.Convex

/-! # First-order optimality up to tolerances -/

namespace Verif

/-- The answer of a solver satisfies the first-order conditions of `minimise phi(x) subject to A x = b, f(x) = 0, l ≤ x ≤ u` (see
`Minlp.Kkt`) up to tolerances: the rows hold up to `δ`, the bounds up to `ε`, integrality up to `η`; the multipliers of the bounds are not
negative, and the product of each with the distance to its bound is at most `κ`; and for each variable
`d phi/dx_i - sum_k A[k,i] lam_k - sum_k J[k,i] nu_k + mu_i - pi_i` is at most `ρ` in absolute value. -/
structure Minlp.KktWithin (q : Minlp (Option ℝ)) (δ ε η ρ κ : ℝ) (sol : Sol (Option ℝ)) : Prop where
  feasible : q.FeasibleWithin δ ε η sol.x
  certificate : ∃ (r : Minlp (Option ℝ)) (x lam nu mu pi lo up : Nat → ℝ), q.evaluate sol.x = .ok r ∧
    sol.x = vec q.nx x ∧ sol.lam = vec q.na lam ∧ sol.nu = vec q.nf nu ∧ sol.mu = vec q.nx mu ∧ sol.pi = vec q.nx pi ∧
    q.l = vec q.nx lo ∧ q.u = vec q.nx up ∧
    ∀ i < q.nx, 0 ≤ mu i ∧ 0 ≤ pi i ∧ mu i * (up i - x i) ≤ κ ∧ pi i * (x i - lo i) ≤ κ ∧
      ∃ (g : ℝ) (a j : Nat → ℝ), r.buf.gphi[i]? = some (some g) ∧ (∀ k < q.na, q.a.dense k i = some (a k)) ∧
        (∀ k < q.nf, r.buf.j.dense k i = some (j k)) ∧
        |g - ((List.range q.na).map fun k => a k * lam k).sum - ((List.range q.nf).map fun k => j k * nu k).sum + mu i - pi i| ≤ ρ

/-- The sum of the absolute values of the numbers of a list. -/
def absSum (vs : List (Option ℝ)) : ℝ := (vs.map fun v => |v.getD 0|).sum

/-- `σ` and `τ` give numbers to every variable of the model that differ by at most `R`, and so do the values of `lhs - rhs` of the
inequality constraints that are not bounds of a variable (those that get a slack variable). -/
structure Model.Apart (mod : Model (Option ℝ)) (R : ℝ) (σ τ : Env (Option ℝ)) : Prop where
  vars : ∀ x, mod.HasVar x → ∃ s t : ℝ, x.evaluate σ = some s ∧ x.evaluate τ = some t ∧ |t - s| ≤ R
  residuals : ∀ c ∈ mod.constraints, c.kind ≠ .equal → (∀ x v, ¬ c.Bounds x v) →
    ∀ a b a' b', c.lhs.evaluate σ = some a → c.rhs.evaluate σ = some b → c.lhs.evaluate τ = some a' → c.rhs.evaluate τ = some b' →
      |(a' - b') - (a - b)| ≤ R

end Verif
