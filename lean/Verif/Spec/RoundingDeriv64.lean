import Mathlib.Analysis.Calculus.Deriv.Basic
import Verif.Spec.RoundingStd64

/-!
# Derivatives in double precision: exact values and sizes of stored expressions

Here an expression is looked at as it is stored: a tree of constants (doubles), variables, sums, products, quotients, sines and cosines.
-/

namespace Verif

/-- The exact value of the stored expression if variable `i` has the value `t i`. -/
noncomputable def Node.realAt (t : ℕ → ℝ) : Node F64 → ℝ
  | .const _ c => c.toReal
  | .var i _ _ => t i
  | .add _ args => sumL t args
  | .cos _ a => Real.cos (a.realAt t)
  | .sin _ a => Real.sin (a.realAt t)
  | .mul _ a b => a.realAt t * b.realAt t
  | .div _ a b => a.realAt t / b.realAt t
where
  /-- the terms of a sum -/
  sumL (t : ℕ → ℝ) : List (Node F64) → ℝ
    | [] => 0
    | a :: as => a.realAt t + sumL t as

/-- The value with all terms replaced by their absolute values, and by at least one: a bound for all values on the way. -/
noncomputable def Node.sizeAt (t : ℕ → ℝ) : Node F64 → ℝ
  | .const _ c => max 1 |c.toReal|
  | .var i _ _ => max 1 |t i|
  | .add _ args => 1 + sumL t args
  | .cos _ a => 1 + a.sizeAt t
  | .sin _ a => 1 + a.sizeAt t
  | .mul _ a b => a.sizeAt t * b.sizeAt t
  | .div _ a b => 1 + a.sizeAt t / |b.realAt t|
where
  /-- the terms of a sum -/
  sumL (t : ℕ → ℝ) : List (Node F64) → ℝ
    | [] => 0
    | a :: as => a.sizeAt t + sumL t as

/-- A count of the operations, where those of a divisor count `2 κ` times. -/
def Node.opsAt (κ : ℕ) : Node F64 → ℕ
  | .const .. => 1
  | .var .. => 1
  | .add _ args => sumL κ args
  | .cos _ a => a.opsAt κ + 3
  | .sin _ a => a.opsAt κ + 3
  | .mul _ a b => a.opsAt κ + b.opsAt κ + 2
  | .div _ a b => a.opsAt κ + 2 * (κ * b.opsAt κ) + 2
where
  /-- the terms of a sum -/
  sumL (κ : ℕ) : List (Node F64) → ℕ
    | [] => 0
    | a :: as => a.opsAt κ + 1 + sumL κ as

variable [Libm]

/-- The stored expression can be computed without overflow and without division by something that is lost in rounding errors: constants are finite, the
variables have the finite values `t` under `σ`, sizes and counts stay in range, every divisor has a condition number of at most `κ`, and sines and cosines
come from an accurate library. -/
def Node.Tame (σ : Env F64) (t : ℕ → ℝ) (κ : ℕ) (e : Node F64) : Prop :=
  InRange (e.sizeAt t) (e.opsAt κ + 1) ∧
  match e with
  | .const _ c => c.isFinite = true
  | .var i _ _ => ∃ a, σ i = some a ∧ a.Is (t i)
  | .add _ args => tameL σ t κ args
  | .cos _ a => a.Tame σ t κ ∧ GoodLibm
  | .sin _ a => a.Tame σ t κ ∧ GoodLibm
  | .mul _ a b => a.Tame σ t κ ∧ b.Tame σ t κ
  | .div _ a b => a.Tame σ t κ ∧ b.Tame σ t κ ∧ b.realAt t ≠ 0 ∧ b.sizeAt t ≤ κ * |b.realAt t| ∧
      1 + b.sizeAt t * b.sizeAt t ≤ maxSize ∧ 2 * κ ^ 2 * (2 * b.opsAt κ + 2) ≤ 2 ^ 51
where
  /-- the terms of a sum -/
  tameL (σ : Env F64) (t : ℕ → ℝ) (κ : ℕ) : List (Node F64) → Prop
    | [] => True
    | a :: as => a.Tame σ t κ ∧ tameL σ t κ as

/-- How large the derivative is with all terms replaced by their absolute values (and factors by at least one), how many products it has, and how many
operations they take. -/
structure GradSize where
  size : ℝ
  terms : ℕ
  ops : ℕ

/-- No products. -/
noncomputable def GradSize.none : GradSize := ⟨0, 0, 0⟩

/-- All products of both. -/
noncomputable def GradSize.add (a b : GradSize) : GradSize := ⟨a.size + b.size, a.terms + b.terms, a.ops + b.ops⟩

/-- All products with a further factor of size `s`, which takes `k` operations. -/
noncomputable def GradSize.times (s : ℝ) (k : ℕ) (a : GradSize) : GradSize := ⟨s * a.size, a.terms, a.ops + a.terms * (k + 2)⟩

/-- The derivative by the variable with number `x`, by the rules of calculus. -/
noncomputable def Node.gradSize (t : ℕ → ℝ) (κ : ℕ) (x : ℕ) : Node F64 → GradSize
  | .const .. => .none
  | .var i _ _ => if i = x then ⟨1, 1, 2⟩ else .none
  | .add _ args => sumL t κ x args
  | .cos _ a => (a.gradSize t κ x).times (1 + a.sizeAt t) (a.opsAt κ + 4)
  | .sin _ a => (a.gradSize t κ x).times (1 + a.sizeAt t) (a.opsAt κ + 3)
  | .mul _ a b => ((a.gradSize t κ x).times (b.sizeAt t) (b.opsAt κ)).add ((b.gradSize t κ x).times (a.sizeAt t) (a.opsAt κ))
  | .div _ a b => ((a.gradSize t κ x).times (1 + 1 / |b.realAt t|) (2 * (κ * b.opsAt κ) + 2)).add
      ((b.gradSize t κ x).times (1 + a.sizeAt t / (b.realAt t * b.realAt t)) (a.opsAt κ + 2 * (2 * κ ^ 2 * (2 * b.opsAt κ + 2)) + 3))
where
  /-- the terms of a sum -/
  sumL (t : ℕ → ℝ) (κ : ℕ) (x : ℕ) : List (Node F64) → GradSize
    | [] => .none
    | a :: as => ((a.gradSize t κ x).times 1 1).add (sumL t κ x as)

end Verif
