import Verif.Code.Sci
import Verif.Spec.Binary64
import Verif.Spec.Decimal

/-!
# Doubles as text

How a double is written to the LP file, and how one is read from the solution file. `splitFrac` and `splitExp` are the pieces of a
decimal number (Spec/Decimal.lean).
-/

namespace Verif

/-- `{:.10e}` of an `f64`, src/problem/milp.rs:141,170,176,182. A negative zero has a sign. -/
def sci64 : F64 → List Char
  | .nan => ['N', 'a', 'N']
  | .inf s => (if s then ['-'] else []) ++ ['i', 'n', 'f']
  | .fin s q _ => (if s then ['-'] else []) ++ sciText (some q)

/-- A number without sign in the grammar of `str::parse::<f64>`: digits, perhaps a point and digits, at least one digit, perhaps an exponent.
Code: src/solver/cbc_cmd.rs:107,111. -/
def parseUnsigned (w : List Char) : Option ℚ :=
  if w.takeWhile Char.isDigit = [] ∧ (splitFrac (w.dropWhile Char.isDigit)).1 = [] then none else
    (splitExp (splitFrac (w.dropWhile Char.isDigit)).2).map fun e =>
      (Nat.ofDigitChars 10 (w.takeWhile Char.isDigit ++ (splitFrac (w.dropWhile Char.isDigit)).1) 0 : ℚ) *
        10 ^ (e - ((splitFrac (w.dropWhile Char.isDigit)).1.length : Int))

/-- A text after its sign: an infinity, NaN or a number, which is rounded to the nearest double. Code: src/solver/cbc_cmd.rs:107,111. -/
def parseMagnitude (neg : Bool) (w : List Char) : Option F64 :=
  if w.map Char.toLower = ['i', 'n', 'f'] ∨ w.map Char.toLower = ['i', 'n', 'f', 'i', 'n', 'i', 't', 'y'] then some (.inf neg)
  else if w.map Char.toLower = ['n', 'a', 'n'] then some .nan
  else (parseUnsigned w).map fun v => F64.ofRat neg (if neg then -v else v)

/-- `str::parse::<f64>`, src/solver/cbc_cmd.rs:107,111 -/
def parse64 : List Char → Option F64
  | '-' :: w => parseMagnitude true w
  | '+' :: w => parseMagnitude false w
  | w => parseMagnitude false w

end Verif
