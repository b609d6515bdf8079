import Verif.Spec.ExactData
import Verif.Spec.Tolerance
import Verif.Spec.Feasible
import Verif.Spec.Solve

/-!
# Linear models in double precision

What a list of terms says in exact arithmetic, and what it means that a point satisfies a standard problem whose data are doubles.
-/

namespace Verif

variable [Libm]

/-- The linear formula with these terms (cell number of the variable and coefficient) and this constant. -/
structure TermForm where
  terms : List (ℕ × ℚ)
  const : ℚ

/-- The value of the formula, in exact arithmetic. -/
def TermForm.value (f : TermForm) (t : ℕ → ℚ) : ℚ := (f.terms.map fun a => a.2 * t a.1).sum + f.const

/-- The constraint is written as `f` on the left and `g` on the right, without rounding, and it can be brought into the form `terms = constant` without
rounding: the difference of the constants and the sums of the coefficients of each variable are doubles. -/
structure Constraint.SaysD (c : Constraint F64) (f g : TermForm) : Prop where
  lhs : WritesTerms c.lhs f.terms f.const
  rhs : WritesTerms c.rhs g.terms g.const
  const : IsDouble (f.const - g.const)
  sums : ∀ i, SumsExact (f.terms ++ scaleTerms (-1) g.terms) i

/-- The number is at most `a`; NaN does not count as a bound. -/
def F64.AtMost (x : ℚ) : F64 → Prop
  | .nan => True
  | .inf neg => neg = false
  | .fin s q _ => x ≤ signedQ s q

/-- The number is at least `a`; NaN does not count as a bound. -/
def F64.AtLeast (x : ℚ) : F64 → Prop
  | .nan => True
  | .inf neg => neg = true
  | .fin s q _ => signedQ s q ≤ x

/-- In exact arithmetic: `xs` satisfies the linear rows of `q` up to `δ`, its bounds up to `ε` and integrality up to `η`. Rows with numbers that are not
finite do not count. -/
structure Minlp.WithinD (q : Minlp F64) (δ ε η : ℚ) (xs : List ℚ) : Prop where
  len : xs.length = q.nx
  rows : ∀ i a y, q.b[i]? = some a → a.HasValue y → (∀ e ∈ rowOf q.a.triplets i, ∃ v, e.2.HasValue v) →
    |((rowOf q.a.triplets i).map fun e => e.2.val * xs.getD e.1 0).sum - y| ≤ δ
  lower : ∀ (i : ℕ) x lo, xs[i]? = some x → q.l[i]? = some lo → F64.AtLeast (x + ε) lo
  upper : ∀ (i : ℕ) x up, xs[i]? = some x → q.u[i]? = some up → F64.AtMost (x - ε) up
  integral : ∀ (i : ℕ) x, xs[i]? = some x → q.p[i]? = some true → ∃ z : ℤ, |x - z| ≤ η

/-- The values of the final primals of a model, as numbers: `t i` is the value of the variable with cell number `i`. -/
def Model.ValuesD (mod : Model F64) (mod' : Model F64) (t : ℕ → ℚ) : Prop :=
  ∀ x, mod.HasVar x → ∃ a, mapEnv mod'.finalPrimals x.id = some a ∧ a.HasValue (t x.id)

/-- The coefficients of the objective of a linear problem. -/
def Problem.costsD : Problem F64 → Option (List F64)
  | .lp q => some q.baseMilp.c
  | .milp q => some q.c
  | _ => none

/-- The cost of a point. -/
def costD (c : List F64) (xs : List ℚ) : ℚ := ((c.zip xs).map fun a => a.1.val * a.2).sum

/-- The objective, if there is one, is the formula `f`, written without rounding. -/
def Model.ObjectiveSaysD (mod : Model F64) (f : TermForm) : Prop :=
  match mod.objective with
  | .minimize e => WritesTerms e f.terms f.const ∧ ∀ i, SumsExact f.terms i
  | .maximize e => WritesTerms e f.terms f.const ∧ ∀ i, SumsExact f.terms i
  | .empty => True

/-- The objective `f` is at `t` at most `γ` worse than at `τ`. -/
def Model.NoWorseD (mod : Model F64) (f : TermForm) (γ : ℚ) (t τ : ℕ → ℚ) : Prop :=
  match mod.objective with
  | .minimize _ => f.value t ≤ f.value τ + γ
  | .maximize _ => f.value τ ≤ f.value t + γ
  | .empty => True

end Verif
