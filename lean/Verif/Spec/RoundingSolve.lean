import Verif.Spec.RoundingStd
import Verif.Spec.Tolerance

/-!
# Linear models in arithmetic with rounding errors

What a linear formula says in exact arithmetic, and what it means that a point satisfies a standard problem whose data are numbers of such an arithmetic.
-/

namespace Verif

variable {u : ℝ} {A : FlArith u}

/-- The linear formula `∑ i ∈ vars, coef i * x i + const`, in exact arithmetic. `size` and `sizeConst` are the coefficients and the constant with all
terms of the formula replaced by their absolute values, and `ops` grows with its number of operations. -/
structure LinForm where
  vars : Finset ℕ
  coef : ℕ → ℝ
  const : ℝ
  size : ℕ → ℝ
  sizeConst : ℝ
  ops : ℕ

/-- The value of the formula. -/
def LinForm.value (f : LinForm) (t : ℕ → ℝ) : ℝ := ∑ i ∈ f.vars, f.coef i * t i + f.const

/-- The value of the formula with all its terms replaced by their absolute values. -/
def LinForm.mag (f : LinForm) (t : ℕ → ℝ) : ℝ := ∑ i ∈ f.vars, f.size i * |t i| + f.sizeConst

/-- The handle is the result of writing down the formula with the operators. -/
def Node.Says (e : Node (Fl A)) (f : LinForm) : Prop :=
  WritesLinear e f.coef f.const f.size f.sizeConst f.ops ∧ ∀ i ∉ f.vars, f.size i = 0

/-- The error with which `lhs - rhs` of two formulas is represented at the point `t`: a relative error of `u` for each operation, in terms of the
absolute values. -/
noncomputable def pairErr (u : ℝ) (f g : LinForm) (t : ℕ → ℝ) : ℝ := ((1 + u) ^ (f.ops + g.ops + 2) - 1) * (f.mag t + g.mag t)

/-- In exact arithmetic: `xs` satisfies the linear rows of `q` up to `δ`, its bounds up to `ε` and integrality up to `η`. Rows and bounds that are
not numbers do not count. -/
structure Minlp.LinearWithin (q : Minlp (Fl A)) (δ ε η : ℝ) (xs : List ℝ) : Prop where
  len : xs.length = q.nx
  rows : ∀ i y, q.b[i]? = some (Fl.num A y) → (∀ e ∈ rowOf q.a.triplets i, ∃ v, e.2 = Fl.num A v) →
    |((rowOf q.a.triplets i).map fun e => e.2.val * xs.getD e.1 0).sum - y| ≤ δ
  lower : ∀ (i : ℕ) x lo, xs[i]? = some x → q.l[i]? = some (Fl.num A lo) → lo - ε ≤ x
  upper : ∀ (i : ℕ) x up, xs[i]? = some x → q.u[i]? = some (Fl.num A up) → x ≤ up + ε
  integral : ∀ (i : ℕ) x, xs[i]? = some x → q.p[i]? = some true → ∃ z : ℤ, |x - z| ≤ η

/-- The values of the final primals of a model, as numbers: `t i` is the value of the variable with cell number `i`. -/
def Model.Values (mod : Model (Fl A)) (mod' : Model (Fl A)) (t : ℕ → ℝ) : Prop :=
  ∀ x, mod.HasVar x → mapEnv mod'.finalPrimals x.id = some (Fl.num A (t x.id))

/-- The coefficients of the objective of a linear problem. -/
def Problem.costs {F : Type} : Problem F → Option (List F)
  | .lp q => some q.baseMilp.c
  | .milp q => some q.c
  | _ => none

/-- In exact arithmetic: `xs` and the multipliers `lam` of the rows, `mu` of the upper and `pi` of the lower bounds satisfy the optimality conditions of
`minimise c x subject to A x = b, l ≤ x ≤ u` up to tolerances: rows up to `δ`, bounds up to `ε`; the multipliers of the bounds are not negative, and the
product of each with the distance to its bound is at most `κ`; `c_j - sum_i A[i,j] lam_i + mu_j - pi_j` is at most `ρ` in absolute value. -/
structure Minlp.LinearKkt (q : Minlp (Fl A)) (c : List (Fl A)) (δ ε η ρ κ : ℝ) (xs lam mu pi : List ℝ) : Prop where
  within : q.LinearWithin δ ε η xs
  lamLen : lam.length = q.na
  nonneg : ∀ j < q.nx, 0 ≤ mu.getD j 0 ∧ 0 ≤ pi.getD j 0
  upper : ∀ j up, q.u[j]? = some (Fl.num A up) → mu.getD j 0 * (up - xs.getD j 0) ≤ κ
  lower : ∀ j lo, q.l[j]? = some (Fl.num A lo) → pi.getD j 0 * (xs.getD j 0 - lo) ≤ κ
  stationary : ∀ j cj, c[j]? = some cj →
    |cj.val - ((q.a.triplets.filter fun e => e.2.1 == j).map fun e => e.2.2.val * lam.getD e.1 0).sum + mu.getD j 0 - pi.getD j 0| ≤ ρ

/-- The objective, if there is one, is the formula `f`. -/
def Model.ObjectiveSays (mod : Model (Fl A)) (f : LinForm) : Prop :=
  match mod.objective with
  | .minimize e => e.Says f
  | .maximize e => e.Says f
  | .empty => True

/-- The objective `f` is at `t` at most `γ` worse than at `τ`. -/
def Model.NoWorse {F : Type} (mod : Model F) (f : LinForm) (γ : ℝ) (t τ : ℕ → ℝ) : Prop :=
  match mod.objective with
  | .minimize _ => f.value t ≤ f.value τ + γ
  | .maximize _ => f.value τ ≤ f.value t + γ
  | .empty => True

/-- The error with which the objective is represented at the point `t`. -/
noncomputable def objErr (u : ℝ) (f : LinForm) (t : ℕ → ℝ) : ℝ := ((1 + u) ^ (f.ops + 1) - 1) * f.mag t

end Verif
