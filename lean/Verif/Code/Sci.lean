import Mathlib.Data.Int.Log
import Verif.Code.Text

/-!
# The format `{:.10e}` of a number

Models what `core::fmt` prints for a finite `f64` with `{:.10e}` (src/problem/milp.rs:141,170,176,182): the decimal expansion of the exact value of
the number, rounded to eleven significant digits (ties to the even digit), one digit, a point, ten digits, `e` and the exponent. The
sign of a negative zero is not modelled.
-/

namespace Verif

section
variable {K : Type} [Field K] [LinearOrder K] [IsStrictOrderedRing K] [FloorSemiring K]

/-- A non-negative number rounded to an integer, ties to even. Code: the rounding of `core::fmt` in src/problem/milp.rs:141,170,176,182. -/
def halfEven (a : K) : Nat :=
  if a - ⌊a⌋₊ < 1 / 2 then ⌊a⌋₊ else if 1 / 2 < a - ⌊a⌋₊ then ⌊a⌋₊ + 1 else if ⌊a⌋₊ % 2 = 0 then ⌊a⌋₊ else ⌊a⌋₊ + 1

/-- The eleven digits, as an integer, and the decimal exponent of a positive number. Rounding up may give a twelfth digit: then the exponent
grows. Code: `{:.10e}`, src/problem/milp.rs:141,170,176,182. -/
def sciParts (a : K) : Nat × Int :=
  if halfEven (a / 10 ^ (Int.log 10 a - 10)) = 10 ^ 11 then (10 ^ 10, Int.log 10 a + 1)
  else (halfEven (a / 10 ^ (Int.log 10 a - 10)), Int.log 10 a)

/-- One digit, a point, the other digits. Code: `{:.10e}`, src/problem/milp.rs:141,170,176,182. -/
def mantText : List Char → List Char
  | [] => []
  | d :: ds => d :: '.' :: ds

/-- An exponent. Code: `{:.10e}`, src/problem/milp.rs:141,170,176,182. -/
def intText (e : Int) : List Char := if e < 0 then '-' :: natText e.natAbs else natText e.natAbs

/-- The text of a positive number. Code: `{:.10e}`, src/problem/milp.rs:141,170,176,182. -/
def sciPos (a : K) : List Char := mantText (natText (sciParts a).1) ++ 'e' :: intText (sciParts a).2

/-- `{:.10e}`, src/problem/milp.rs:141,170,176,182; `none` is NaN. -/
def sciText : Option K → List Char
  | none => ['N', 'a', 'N']
  | some q => if q = 0 then ['0', '.', '0', '0', '0', '0', '0', '0', '0', '0', '0', '0', 'e', '0'] else if q < 0 then '-' :: sciPos (-q) else sciPos q

end

end Verif
