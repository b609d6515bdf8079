import Verif.Spec.FileTolerance
import Verif.Spec.Decimal
import Verif.Spec.RoundingSolve64

/-!
# LP files written from doubles, and commands that solve them up to tolerances

The numbers in files are decimals, so they are rational numbers; nothing is lost when a file is read by the command.
-/

namespace Verif

/-- A number in an LP file: a decimal number, or one of the words for what is not a finite number. -/
def readLpNum : List Char → Option (Option ℚ)
  | ['i', 'n', 'f'] => some none
  | ['-', 'i', 'n', 'f'] => some none
  | w => readDecimal w

/-- All numbers of the file are finite. -/
structure LpContent.AllFinite {K : Type} (file : LpContent (Option K)) : Prop where
  obj : ∀ t ∈ file.obj, t.1 ≠ none
  rows : ∀ r ∈ file.rows, r.2.2 ≠ none ∧ ∀ t ∈ r.2.1, t.1 ≠ none
  bounds : ∀ b ∈ file.bounds, b.1 ≠ none ∧ b.2.2 ≠ none

/-- The external command solves up to the tolerances any LP file whose numbers are finite: if the file that it leaves reports a solved problem, then the
decimal numbers that are listed there satisfy the LP file, in exact arithmetic, up to the tolerances. -/
def CommandWithin64 (command : String → List String → Dir → Dir × Bool) (cbc : Bool) (δ ε η : ℚ) : Prop :=
  ∀ input output level d text file out, d input = some (fileOf text) → readLp readLpNum text = some file → file.AllFinite →
    (command (if cbc then "cbc" else "clp") [input, "logLevel", level, "printingOptions", "all", "solve", "solution", output] d).1 output = some out →
    OutputWithin readDecimal cbc δ ε η file out

/-- The sizes of the numbers of a linear problem and of an answer `xs`: no row with its right-hand side, all terms in absolute value, is larger than `S`
(values smaller than the smallest normal double count as that); every bound has at most eleven significant digits or is at most `B` in absolute value;
no value is larger than `R`. -/
structure Minlp.Sizes64 (q : Minlp F64) (S B R : ℝ) (xs : List F64) : Prop where
  row : ∀ (i : ℕ) b, q.b[i]? = some b →
    ((rowOf q.a.triplets i).map fun e => |e.2.toReal| * max |(xs.getD e.1 .nan).toReal| tauD).sum + |b.toReal| ≤ S
  bound : ∀ w, w ∈ q.l ∨ w ∈ q.u → HasDigits 11 w.toReal ∨ |w.toReal| ≤ B
  value : ∀ x ∈ xs, |x.toReal| ≤ R

end Verif
