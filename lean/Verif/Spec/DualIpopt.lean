import Verif.Spec.IpoptSolver
import Mathlib.Analysis.Calculus.Deriv.Basic

/-! # Multipliers that the native Ipopt solver returns -/

namespace Verif

/-- The point and the multipliers satisfy the first-order conditions of the problem given to `CreateIpoptProblem`, with Ipopt's signs:
`grad f + J^T lambda - z_L + z_U = 0`, where `z_L` (here `pi`) and `z_U` (here `mu`) are not negative and vanish where the bound is not active. -/
structure IpoptArgs.FirstOrder (args : IpoptArgs (Option ℝ)) (o : Oracle (Option ℝ)) (x lamnu pi mu : List (Option ℝ)) : Prop where
  meets : args.Meets o x
  lamnuLen : (lamnu.length : Int) = args.m
  piLen : (pi.length : Int) = args.n
  muLen : (mu.length : Int) = args.n
  numbers : ∀ t ∈ lamnu, ∃ v, t = some v
  stationary : ∀ i < x.length, ∃ v g zL zU lo up s : ℝ, x[i]? = some (some v) ∧ (o.grad x)[i]? = some (some g) ∧ pi[i]? = some (some zL) ∧
    mu[i]? = some (some zU) ∧ args.xL[i]? = some (some lo) ∧ args.xU[i]? = some (some up) ∧
    0 ≤ zL ∧ 0 ≤ zU ∧ zL * (v - lo) = 0 ∧ zU * (up - v) = 0 ∧
    total (((o.jac x).filter fun e => e.2.1 == (i : Int)).map fun e => e.2.2 *. (lamnu[e.1.toNat]?).getD none) = some s ∧
    g + s - zL + zU = 0

/-- What a solver that computes multipliers claims: with code 0 or 1 (solved, or solved to an acceptable level), that the point and the
multipliers satisfy the first-order conditions. -/
def IpoptArgs.ClaimFirstOrder (args : IpoptArgs (Option ℝ)) (o : Oracle (Option ℝ)) (code : Int) (x lamnu pi mu : List (Option ℝ)) : Prop :=
  code = 0 ∨ code = 1 → args.FirstOrder o x lamnu pi mu

end Verif
