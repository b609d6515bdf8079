import Verif.Spec.IpoptSolver
import Verif.Spec.RoundingNlp64

/-!
# What the native Ipopt solver claims up to tolerances, in double precision

The values of the rows are the doubles that the callbacks deliver; nothing is assumed about their exact values.
-/

namespace Verif

variable [Libm]

/-- The point is a list of finite doubles that satisfies the constraints of the problem given to `CreateIpoptProblem` as the callbacks compute them: the
delivered values of the rows are finite and satisfy their limits up to `δ`, and the coordinates satisfy their bounds up to `ε`. -/
structure IpoptArgs.Meets64 (args : IpoptArgs F64) (o : Oracle F64) (δ ε : ℝ) (x : List F64) : Prop where
  len : (x.length : Int) = args.n
  bounds : ∀ i < x.length, ∃ lo v up t, args.xL[i]? = some lo ∧ x[i]? = some v ∧ args.xU[i]? = some up ∧ v.Is t ∧ lo.Below (t + ε) ∧ up.Above (t - ε)
  rows : ∀ i < (o.g x).length, ∃ lo v up z, args.gL[i]? = some lo ∧ (o.g x)[i]? = some v ∧ args.gU[i]? = some up ∧ v.Is z ∧ lo.Below (z + δ) ∧
    up.Above (z - δ)

/-- The claim: with code 0 or 1, the point satisfies the constraints up to the tolerances. -/
def IpoptArgs.ClaimMeets64 (args : IpoptArgs F64) (o : Oracle F64) (δ ε : ℝ) (code : Int) (x _lamnu _pi _mu : List F64) : Prop :=
  code = 0 ∨ code = 1 → args.Meets64 o δ ε x

/-- The size of the row that the constraint between the two formulas becomes, at the point `t`: twice the sizes of the formulas, and the smallest normal
double for each of the at most `N` variables and for the slack. -/
noncomputable def rowSize (f g : LinForm) (N : ℕ) (t : ℕ → ℝ) : ℝ := 2 * (f.mag t + g.mag t) + (N + 1) * 2 ^ (-1022 : ℤ)

/-- The rounding error of computing a row with at most `N` variables whose exact value is known up to `δ`. -/
noncomputable def rowErr (f g : LinForm) (N : ℕ) (δ : ℝ) (t : ℕ → ℝ) : ℝ := ((1 + 2 ^ (-53 : ℤ)) ^ (N + 2) - 1) * (4 * rowSize f g N t + 2 * δ)

end Verif
