import Verif.Spec.Binary64

/-!
# The grammar of floating-point texts

The grammar that the documentation of Rust's `f64::from_str` gives, with the double that each text denotes. Nothing here refers to the model of the code.
-/

namespace Verif

/-- A sequence of decimal digits and the number it denotes. -/
inductive DigitText : List Char → ℕ → Prop
  | nil : DigitText [] 0
  | snoc {w : List Char} {k : ℕ} {d : Char} : DigitText w k → d.isDigit = true → DigitText (w ++ [d]) (10 * k + (d.toNat - '0'.toNat))

/-- `('e' | 'E') Sign? Digit+`, or nothing. -/
inductive ExponentText : List Char → ℤ → Prop
  | none : ExponentText [] 0
  | plain {c : Char} {w : List Char} {k : ℕ} : c = 'e' ∨ c = 'E' → DigitText w k → w ≠ [] → ExponentText (c :: w) k
  | plus {c : Char} {w : List Char} {k : ℕ} : c = 'e' ∨ c = 'E' → DigitText w k → w ≠ [] → ExponentText (c :: '+' :: w) k
  | minus {c : Char} {w : List Char} {k : ℕ} : c = 'e' ∨ c = 'E' → DigitText w k → w ≠ [] → ExponentText (c :: '-' :: w) (-k)

/-- `(Digit+ | Digit* '.' Digit*) Exp?` with at least one digit before the exponent. -/
inductive NumberText : List Char → ℚ → Prop
  | int {w u : List Char} {k : ℕ} {e : ℤ} : DigitText w k → w ≠ [] → ExponentText u e → NumberText (w ++ u) (k * 10 ^ e)
  | frac {w f u : List Char} {k : ℕ} {e : ℤ} : DigitText (w ++ f) k → w ++ f ≠ [] → ExponentText u e →
      NumberText (w ++ '.' :: (f ++ u)) (k / 10 ^ f.length * 10 ^ e)

/-- What follows the sign: a number, which denotes the nearest double, or one of the words for an infinity or NaN, in any case. -/
inductive MagnitudeText (neg : Bool) : List Char → F64 → Prop
  | number {w : List Char} {v : ℚ} : NumberText w v → MagnitudeText neg w (F64.ofRat neg (if neg then -v else v))
  | inf {w : List Char} : w.map Char.toLower = "inf".toList → MagnitudeText neg w (.inf neg)
  | infinity {w : List Char} : w.map Char.toLower = "infinity".toList → MagnitudeText neg w (.inf neg)
  | nan {w : List Char} : w.map Char.toLower = "nan".toList → MagnitudeText neg w .nan

/-- `Sign? ('inf' | 'infinity' | 'nan' | Number)`. -/
inductive FloatText : List Char → F64 → Prop
  | plain {w : List Char} {a : F64} : MagnitudeText false w a → FloatText w a
  | plus {w : List Char} {a : F64} : MagnitudeText false w a → FloatText ('+' :: w) a
  | minus {w : List Char} {a : F64} : MagnitudeText true w a → FloatText ('-' :: w) a

end Verif
