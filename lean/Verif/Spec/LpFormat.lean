import Verif.Code.Text
import Verif.Spec.Matrix
import Mathlib.Algebra.Field.Defs

/-!
# A reader of the LP format

The part of the CPLEX LP format that the file uses. A text is a sequence of words:

    Minimize <label> <terms> Subject to { <label> <terms> = <number> } Bounds { <number> <= <name> <= <number> }
    General { <name> } End

A term is `+` or `-`, an optional number (1 if there is none) and a name. A label ends with a colon.
-/

namespace Verif

/-- What an LP file says. -/
structure LpContent (F : Type) where
  /-- terms of the function that is minimised: coefficient, variable -/
  obj : List (F × List Char)
  /-- rows: name, terms, right-hand side -/
  rows : List (List Char × List (F × List Char) × F)
  /-- bounds: lower bound, variable, upper bound -/
  bounds : List (F × List Char × F)
  /-- integer variables -/
  general : List (List Char)

section
variable {F : Type} [FloatOps F] (readNum : List Char → Option F)

/-- The coefficient with its sign. -/
def signed (sign : List Char) (v : F) : Option F :=
  if sign = ['+'] then some v else if sign = ['-'] then some (FloatOps.neg v) else none

/-- As many terms as possible, and the remaining words. -/
def readTerms : List (List Char) → List (F × List Char) × List (List Char)
  | s :: w :: ws =>
    match signed s one, readNum w, ws with
    | some v, none, ws => ((v, w) :: (readTerms ws).1, (readTerms ws).2)
    | some _, some v, x :: ws' => ((((signed s v).getD v), x) :: (readTerms ws').1, (readTerms ws').2)
    | _, _, _ => ([], s :: w :: ws)
  | ws => ([], ws)

/-- The name in a label. -/
def readLabel (w : List Char) : Option (List Char) := if w.getLast? = some ':' then some w.dropLast else none

/-- At most `n` rows, up to the word `Bounds`. -/
def readRows : Nat → List (List Char) → Option (List (List Char × List (F × List Char) × F) × List (List Char))
  | _, ['B', 'o', 'u', 'n', 'd', 's'] :: ws => some ([], ws)
  | n + 1, w :: ws =>
    match readLabel w, readTerms readNum ws with
    | some name, (ts, ['='] :: v :: ws) =>
      match readNum v, readRows n ws with
      | some b, some (rows, ws) => some ((name, ts, b) :: rows, ws)
      | _, _ => none
    | _, _ => none
  | _, _ => none

/-- Bounds, up to the word `General`. -/
def readBounds : List (List Char) → Option (List (F × List Char × F) × List (List Char))
  | ['G', 'e', 'n', 'e', 'r', 'a', 'l'] :: ws => some ([], ws)
  | l :: ['<', '='] :: x :: ['<', '='] :: u :: ws =>
    match readNum l, readNum u, readBounds ws with
    | some l, some u, some (bs, ws) => some ((l, x, u) :: bs, ws)
    | _, _, _ => none
  | _ => none

/-- Names, up to the word `End`, which must be the last one. -/
def readGeneral : List (List Char) → Option (List (List Char))
  | [['E', 'n', 'd']] => some []
  | w :: ws => (readGeneral ws).map (w :: ·)
  | [] => none

/-- The content of a text in the LP format. -/
def readLp (text : List Char) : Option (LpContent F) :=
  match words text with
  | ['M', 'i', 'n', 'i', 'm', 'i', 'z', 'e'] :: label :: ws =>
    match readLabel label, readTerms readNum ws with
    | some _, (obj, ['S', 'u', 'b', 'j', 'e', 'c', 't'] :: ['t', 'o'] :: ws) => do
      let (rows, ws) ← readRows readNum ws.length ws
      let (bounds, ws) ← readBounds readNum ws
      let general ← readGeneral ws
      some ⟨obj, rows, bounds, general⟩
    | _, _ => none
  | _ => none

/-- The coefficient of a variable in a list of terms. -/
def coefOf (ts : List (F × List Char)) (x : List Char) : F := total ((ts.filter fun t => t.2 == x).map fun t => t.1)

end

/-! ## Printing of numbers -/

/-- A non-empty text without blanks. -/
def Plain (w : List Char) : Prop := w ≠ [] ∧ ∀ c ∈ w, isBlank c = false

section
variable {F G : Type} [FloatOps F] [FloatOps G]

/-- Numbers of type `F` are printed as words that are read as the rounded number, a number of type `G`; names and the word `General` are not
numbers. -/
structure LpFmt (readNum : List Char → Option G) (fmtE : F → List Char) (rnd : F → G) : Prop where
  plain : ∀ v, Plain (fmtE v)
  read : ∀ v, readNum (fmtE v) = some (rnd v)
  name : ∀ i, readNum (xName i) = none
  keyword : readNum ['G', 'e', 'n', 'e', 'r', 'a', 'l'] = none

/-- What a term says. -/
def termVal (rnd : F → G) (e : Nat × F) : Option (G × List Char) :=
  if zero <. e.2 then some (if FloatOps.abs e.2 ==. one then one else rnd (FloatOps.abs e.2), xName e.1)
  else if e.2 <. zero then some (FloatOps.neg (if FloatOps.abs e.2 ==. one then one else rnd (FloatOps.abs e.2)), xName e.1)
  else none

end

section
variable {K : Type} [Field K]

/-- A way of rounding that keeps signs, zero and one, as printing eleven significant digits does. -/
structure Rounding (r : K → K) : Prop where
  zero : r 0 = 0
  one : r 1 = 1
  neg : ∀ v, r (-v) = -r v

end

end Verif
