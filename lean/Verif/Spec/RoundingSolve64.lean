import Verif.Spec.RoundingStd64
import Verif.Spec.RoundingSolve

/-!
# Linear models in double precision, with rounding, overflow and underflow

What it means that a point of real numbers satisfies a standard problem whose data are doubles.
-/

namespace Verif

/-- The number `t` is not above the double `b`. Nothing is above NaN. -/
def F64.Above (b : F64) (t : ℝ) : Prop :=
  match b with
  | .nan => True
  | .inf s => s = false
  | .fin .. => t ≤ b.toReal

/-- The number `t` is not below the double `b`. Nothing is below NaN. -/
def F64.Below (b : F64) (t : ℝ) : Prop :=
  match b with
  | .nan => True
  | .inf s => s = true
  | .fin .. => b.toReal ≤ t

variable [Libm]

/-- The handle is the result of writing down the formula with the operators. -/
def Node.Says64 (e : Node F64) (f : LinForm) : Prop := WritesLinear64 e f.coef f.const f.size f.sizeConst f.ops ∧ ∀ i ∉ f.vars, f.size i = 0

/-- The difference of the two formulas is not in danger of overflow. -/
def PairInRange (f g : LinForm) : Prop := AllInRange (f.size + g.size) (f.sizeConst + g.sizeConst) (f.ops + g.ops + 2)

/-- In exact arithmetic: `xs` satisfies the linear rows of `q` up to `δ`, its bounds up to `ε` and integrality up to `η`. Rows with entries that are
not finite do not count. -/
structure Minlp.LinearWithin64 (q : Minlp F64) (δ ε η : ℝ) (xs : List ℝ) : Prop where
  len : xs.length = q.nx
  rows : ∀ (i : ℕ) b y, q.b[i]? = some b → b.Is y → (∀ e ∈ rowOf q.a.triplets i, ∃ v, e.2.Is v) →
    |((rowOf q.a.triplets i).map fun e => e.2.toReal * xs.getD e.1 0).sum - y| ≤ δ
  lower : ∀ (i : ℕ) x lo, xs[i]? = some x → q.l[i]? = some lo → lo.Below (x + ε)
  upper : ∀ (i : ℕ) x up, xs[i]? = some x → q.u[i]? = some up → up.Above (x - ε)
  integral : ∀ (i : ℕ) x, xs[i]? = some x → q.p[i]? = some true → ∃ z : ℤ, |x - z| ≤ η

/-- The final primals of a model are finite, and `t i` is the value of the variable with cell number `i`. -/
def Model.Values64 (mod : Model F64) (mod' : Model F64) (t : ℕ → ℝ) : Prop :=
  ∀ x, mod.HasVar x → ∃ a, mapEnv mod'.finalPrimals x.id = some a ∧ a.Is (t x.id)

/-- In exact arithmetic: `xs` and the multipliers `lam` of the rows, `mu` of the upper and `pi` of the lower bounds satisfy the optimality conditions of
`minimise c x subject to A x = b, l ≤ x ≤ u` up to tolerances: rows up to `δ`, bounds up to `ε`; the multipliers of the bounds are not negative, and the
product of each with the distance to its bound is at most `κ`; `c_j - sum_i A[i,j] lam_i + mu_j - pi_j` is at most `ρ` in absolute value. -/
structure Minlp.LinearKkt64 (q : Minlp F64) (c : List F64) (δ ε η ρ κ : ℝ) (xs lam mu pi : List ℝ) : Prop where
  within : q.LinearWithin64 δ ε η xs
  lamLen : lam.length = q.na
  nonneg : ∀ j < q.nx, 0 ≤ mu.getD j 0 ∧ 0 ≤ pi.getD j 0
  upper : ∀ (j : ℕ) b y, q.u[j]? = some b → b.Is y → mu.getD j 0 * (y - xs.getD j 0) ≤ κ
  lower : ∀ (j : ℕ) b y, q.l[j]? = some b → b.Is y → pi.getD j 0 * (xs.getD j 0 - y) ≤ κ
  stationary : ∀ (j : ℕ) cj, c[j]? = some cj →
    |cj.toReal - ((q.a.triplets.filter fun e => e.2.1 == j).map fun e => e.2.2.toReal * lam.getD e.1 0).sum + mu.getD j 0 - pi.getD j 0| ≤ ρ

/-- The objective, if there is one, is the formula `f`. One that is maximised is negated, which must not overflow. -/
def Model.ObjectiveSays64 (mod : Model F64) (f : LinForm) : Prop :=
  match mod.objective with
  | .minimize e => e.Says64 f
  | .maximize e => e.Says64 f ∧ AllInRange f.size f.sizeConst (f.ops + 1)
  | .empty => True

end Verif
