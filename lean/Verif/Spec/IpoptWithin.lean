import Verif.Spec.DualIpopt

/-! # What the native Ipopt solver claims up to tolerances

Ipopt stops when constraints and optimality conditions hold up to tolerances (`tol`, `constr_viol_tol`, `compl_inf_tol`, and with code 1 the
acceptable ones), and relaxes bounds a little before it starts. -/

namespace Verif

section
variable {K : Type} [Field K] [LinearOrder K] [Trig K]

/-- The value is a number between the two bounds, up to `t`. -/
def BetweenWithin (t : K) (lo v up : Option K) : Prop := ∃ a y b, lo = some a ∧ v = some y ∧ up = some b ∧ a - t ≤ y ∧ y ≤ b + t

/-- The point satisfies the constraints of the problem given to `CreateIpoptProblem`: the rows up to `δ` and the bounds up to `ε`. -/
structure IpoptArgs.MeetsWithin (args : IpoptArgs (Option K)) (o : Oracle (Option K)) (δ ε : K) (x : List (Option K)) : Prop where
  len : (x.length : Int) = args.n
  bounds : ∀ i < x.length, ∃ lo v up, args.xL[i]? = some lo ∧ x[i]? = some v ∧ args.xU[i]? = some up ∧ BetweenWithin ε lo v up
  rows : ∀ i < (o.g x).length, ∃ lo v up, args.gL[i]? = some lo ∧ (o.g x)[i]? = some v ∧ args.gU[i]? = some up ∧ BetweenWithin δ lo v up

/-- The claim: with code 0 or 1, the point satisfies the constraints up to the tolerances. -/
def IpoptArgs.ClaimMeetsWithin (args : IpoptArgs (Option K)) (o : Oracle (Option K)) (δ ε : K) (code : Int)
    (x _lamnu _pi _mu : List (Option K)) : Prop :=
  code = 0 ∨ code = 1 → args.MeetsWithin o δ ε x

end

/-- The point and the multipliers satisfy the first-order conditions (`IpoptArgs.FirstOrder`) up to tolerances: `δ` for rows, `ε` for bounds,
`ρ` for the gradient of the Lagrangian, `κ` for the products of multipliers of bounds with distances; the multipliers of the rows have
absolute values of sum at most `Λ`. -/
structure IpoptArgs.FirstOrderWithin (args : IpoptArgs (Option ℝ)) (o : Oracle (Option ℝ)) (δ ε ρ κ Λ : ℝ) (x lamnu pi mu : List (Option ℝ)) :
    Prop where
  meets : args.MeetsWithin o δ ε x
  lamnuLen : (lamnu.length : Int) = args.m
  piLen : (pi.length : Int) = args.n
  muLen : (mu.length : Int) = args.n
  numbers : ∀ t ∈ lamnu, ∃ v, t = some v
  size : (lamnu.map fun v => |v.getD 0|).sum ≤ Λ
  stationary : ∀ i < x.length, ∃ v g zL zU lo up s : ℝ, x[i]? = some (some v) ∧ (o.grad x)[i]? = some (some g) ∧ pi[i]? = some (some zL) ∧
    mu[i]? = some (some zU) ∧ args.xL[i]? = some (some lo) ∧ args.xU[i]? = some (some up) ∧
    0 ≤ zL ∧ 0 ≤ zU ∧ zL * (v - lo) ≤ κ ∧ zU * (up - v) ≤ κ ∧
    total (((o.jac x).filter fun e => e.2.1 == (i : Int)).map fun e => e.2.2 *. (lamnu[e.1.toNat]?).getD none) = some s ∧
    |g + s - zL + zU| ≤ ρ

/-- The claim: with code 0 or 1, the point and the multipliers satisfy the first-order conditions up to the tolerances. -/
def IpoptArgs.ClaimFirstOrderWithin (args : IpoptArgs (Option ℝ)) (o : Oracle (Option ℝ)) (δ ε ρ κ Λ : ℝ) (code : Int)
    (x lamnu pi mu : List (Option ℝ)) : Prop :=
  code = 0 ∨ code = 1 → args.FirstOrderWithin o δ ε ρ κ Λ x lamnu pi mu

end Verif
