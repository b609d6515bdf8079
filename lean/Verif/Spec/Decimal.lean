import Mathlib.Algebra.Order.Field.Basic
import Mathlib.Algebra.Order.Group.Abs
import Mathlib.Algebra.Field.Power

/-!
# Decimal numbers

A reader of decimal numbers and the numbers with few significant digits. Nothing here refers to the model of the code.
-/

namespace Verif

section
variable {K : Type} [Field K]

/-- The value of an exponent: digits with an optional sign. -/
def readExp : List Char → Option Int
  | '-' :: w => if w ≠ [] ∧ w.all Char.isDigit then some (-(Nat.ofDigitChars 10 w 0 : Int)) else none
  | '+' :: w => if w ≠ [] ∧ w.all Char.isDigit then some (Nat.ofDigitChars 10 w 0 : Int) else none
  | w => if w ≠ [] ∧ w.all Char.isDigit then some (Nat.ofDigitChars 10 w 0 : Int) else none

/-- The digits of a fraction, after a point, and the rest. -/
def splitFrac : List Char → List Char × List Char
  | '.' :: w => (w.takeWhile Char.isDigit, w.dropWhile Char.isDigit)
  | w => ([], w)

/-- An exponent after `e` or `E`, 0 if there is none. -/
def splitExp : List Char → Option Int
  | [] => some 0
  | 'e' :: w => readExp w
  | 'E' :: w => readExp w
  | _ => none

/-- A decimal number without sign: digits, perhaps a point and digits, perhaps an exponent. -/
def readUnsigned (w : List Char) : Option K :=
  if w.takeWhile Char.isDigit = [] then none else
    (splitExp (splitFrac (w.dropWhile Char.isDigit)).2).map fun e =>
      (Nat.ofDigitChars 10 (w.takeWhile Char.isDigit ++ (splitFrac (w.dropWhile Char.isDigit)).1) 0 : K) *
        10 ^ (e - ((splitFrac (w.dropWhile Char.isDigit)).1.length : Int))

/-- A decimal number with an optional sign, or `NaN`. -/
def readDecimal : List Char → Option (Option K)
  | ['N', 'a', 'N'] => some none
  | '-' :: w => (readUnsigned w).map fun v => some (-v)
  | '+' :: w => (readUnsigned w).map some
  | w => (readUnsigned w).map some

/-- The number can be written with `d` significant decimal digits. -/
def HasDigits (d : Nat) (q : K) : Prop := ∃ (k : Int) (e : Int), k.natAbs < 10 ^ d ∧ q = k * 10 ^ e

end

end Verif
