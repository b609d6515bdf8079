import Verif.Spec.RoundingStd64
import Verif.Spec.Problem

/-!
# Values of linear functions in double precision

Sizes and rounding errors of sums of products.
-/

namespace Verif

/-- The size of a sum of products of pairs of numbers: each product counts with its absolute value, and at least `2^-1022`, the smallest normal double
(smaller products may be lost by underflow). -/
noncomputable def prodSize (es : List (ℝ × ℝ)) : ℝ := (es.map fun e => max |e.1 * e.2| (2 ^ (-1022 : ℤ))).sum

/-- The row of a matrix of doubles in real numbers, each entry with the value of its column. -/
noncomputable def rowProducts (m : Coo F64) (i : ℕ) (xs : List ℝ) : List (ℝ × ℝ) :=
  (rowOf m.triplets i).map fun e => (xs.getD e.1 0, e.2.toReal)

end Verif
