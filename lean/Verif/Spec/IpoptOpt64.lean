import Verif.Spec.IpoptWithin64

/-! # Multipliers that the native Ipopt solver returns, in double precision -/

namespace Verif

variable [Libm]

/-- The point and the multipliers are finite doubles and, taken in exact arithmetic, satisfy the first-order conditions of the problem given to
`CreateIpoptProblem` up to tolerances, with Ipopt's signs: the delivered rows up to `δ`, the bounds up to `ε` (`Meets64`); each component of
`grad f + J^T lambda - z_L + z_U`, with the gradient and the Jacobian entries that the callbacks deliver, is at most `ρ` in absolute value; `z_L` (here `pi`)
and `z_U` (here `mu`) are not negative, and the product of each with the distance to its bound is at most `κ`. The absolute values of the multipliers of
the rows sum up to at most `Λ`, those of the bounds to at most `Γ`. -/
structure IpoptArgs.FirstOrder64 (args : IpoptArgs F64) (o : Oracle F64) (δ ε ρ κ Λ Γ : ℝ) (x lamnu pi mu : List F64) : Prop where
  meets : args.Meets64 o δ ε x
  lamnuLen : (lamnu.length : Int) = args.m
  piLen : (pi.length : Int) = args.n
  muLen : (mu.length : Int) = args.n
  numbers : ∀ v ∈ lamnu ++ pi ++ mu, ∃ t, v.Is t
  size : (lamnu.map fun v => |v.toReal|).sum ≤ Λ
  sizeBounds : ((pi ++ mu).map F64.toReal).sum ≤ Γ
  nonneg : ∀ v ∈ pi ++ mu, 0 ≤ v.toReal
  lower : ∀ (i : ℕ) v z b y, x[i]? = some v → pi[i]? = some z → args.xL[i]? = some b → b.Is y → z.toReal * (v.toReal - y) ≤ κ
  upper : ∀ (i : ℕ) v z b y, x[i]? = some v → mu[i]? = some z → args.xU[i]? = some b → b.Is y → z.toReal * (y - v.toReal) ≤ κ
  stationary : ∀ (i : ℕ) g zL zU, (o.grad x)[i]? = some g → pi[i]? = some zL → mu[i]? = some zU →
    |g.toReal + (((o.jac x).filter fun e => e.2.1 == (i : Int)).map fun e => e.2.2.toReal * ((lamnu[e.1.toNat]?).getD zero).toReal).sum -
      zL.toReal + zU.toReal| ≤ ρ

/-- The claim: with code 0 or 1, the point and the multipliers satisfy the first-order conditions up to the tolerances. -/
def IpoptArgs.ClaimFirstOrder64 (args : IpoptArgs F64) (o : Oracle F64) (δ ε ρ κ Λ Γ : ℝ) (code : Int) (x lamnu pi mu : List F64) : Prop :=
  code = 0 ∨ code = 1 → args.FirstOrder64 o δ ε ρ κ Λ Γ x lamnu pi mu

end Verif
