import Verif.Code.SolFile

/-! # What a solution file lists -/

namespace Verif

/-- A line of the file is about a variable (value and reduced cost) or about a row (value and multiplier). -/
inductive Listed (F : Type) where
  | col (j : Nat) (value mul : F)
  | row (i : Nat) (value mul : F)

/-- The name that the LP file gives to the variable or row. -/
def Listed.name {F : Type} : Listed F → List Char
  | .col j _ _ => ['x', '_'] ++ Nat.toDigits 10 j
  | .row i _ _ => ['c', '_'] ++ Nat.toDigits 10 i

def Listed.value {F : Type} : Listed F → F
  | .col _ v _ => v
  | .row _ v _ => v

def Listed.mul {F : Type} : Listed F → F
  | .col _ _ m => m
  | .row _ _ m => m

/-- The index is one of the problem. -/
def Listed.inRange {F : Type} (nx na : Nat) : Listed F → Prop
  | .col j _ _ => j < nx
  | .row i _ _ => i < na

/-- ASCII whitespace: space, tab, line feed, form feed, carriage return. -/
def Blank (c : Char) : Prop := c = ' ' ∨ c = '\t' ∨ c = '\n' ∨ c = Char.ofNat 12 ∨ c = '\r'

/-- The text consists of the words, which are not empty and have no blanks in them, with blanks between them and perhaps before the first and after the
last. The words of a text are found by the function `words` of the model; C47_words says that these are the words in this sense. -/
inductive SplitsInto : List Char → List (List Char) → Prop
  | blanks {s : List Char} : (∀ c ∈ s, Blank c) → SplitsInto s []
  | last {s w : List Char} : (∀ c ∈ s, Blank c) → w ≠ [] → (∀ c ∈ w, ¬ Blank c) → SplitsInto (s ++ w) [w]
  | word {s w : List Char} {b : Char} {t : List Char} {ws : List (List Char)} : (∀ c ∈ s, Blank c) → w ≠ [] → (∀ c ∈ w, ¬ Blank c) → Blank b →
      SplitsInto t ws → SplitsInto (s ++ w ++ b :: t) (w :: ws)

/-- The line consists of some word (the number of the line), the name, the value and the multiplier, and perhaps more words. -/
def Listed.Line {F : Type} (parseF : List Char → Option F) (line : List Char) (e : Listed F) : Prop :=
  ∃ w value mul rest, words line = w :: e.name :: value :: mul :: rest ∧ parseF value = some e.value ∧ parseF mul = some e.mul

/-- The first word that reports a solved problem. -/
def optimalWord (cbc : Bool) : List Char :=
  if cbc then ['O', 'p', 't', 'i', 'm', 'a', 'l'] else ['o', 'p', 't', 'i', 'm', 'a', 'l']

/-- The first word that reports an infeasible problem. -/
def infeasibleWord (cbc : Bool) : List Char :=
  if cbc then ['I', 'n', 'f', 'e', 'a', 's', 'i', 'b', 'l', 'e'] else ['i', 'n', 'f', 'e', 'a', 's', 'i', 'b', 'l', 'e']

/-- The first word of a file, if it has a first line that can be read. -/
def firstWord (file : FileData) : Option (List Char) :=
  match file with
  | some line :: _ => (words line).head?
  | _ => none

/-- The text of a number that fits in a `usize`: digits, perhaps after a plus sign. -/
def UsizeText (s : List Char) (n : Nat) : Prop :=
  ∃ ds, (s = ds ∨ s = '+' :: ds) ∧ ds ≠ [] ∧ (∀ c ∈ ds, c.isDigit = true) ∧ Nat.ofDigitChars 10 ds 0 = n ∧ n < 2 ^ 64

/-- A line that the reader understands: some word, a name `kind_index` or `kind_index_...`, two numbers, and perhaps more words. -/
def SolLine {F : Type} (parseF : List Char → Option F) (line kind : List Char) (j : Nat) (value mul : F) : Prop :=
  ∃ w number tail tv tm rest, words line = w :: (kind ++ '_' :: (number ++ tail)) :: tv :: tm :: rest ∧
    '_' ∉ kind ∧ '_' ∉ number ∧ (tail = [] ∨ ∃ t, tail = '_' :: t) ∧ UsizeText number j ∧
    parseF tv = some value ∧ parseF tm = some mul

/-- A line about a variable or a row of the problem. -/
def GoodLine {F : Type} (parseF : List Char → Option F) (nx na : Nat) (l : Option (List Char)) : Prop :=
  ∃ line kind j value mul, l = some line ∧ SolLine parseF line kind j value mul ∧ ((kind = ['x'] ∧ j < nx) ∨ (kind = ['c'] ∧ j < na))

/-- A line about a variable or a row that the problem does not have. -/
def BeyondLine {F : Type} (parseF : List Char → Option F) (nx na : Nat) (l : Option (List Char)) : Prop :=
  ∃ line kind j value mul, l = some line ∧ SolLine parseF line kind j value mul ∧ ((kind = ['x'] ∧ nx ≤ j) ∨ (kind = ['c'] ∧ na ≤ j))

/-- The first line that is not about a variable or a row of the problem. -/
def FirstNotGood {F : Type} (parseF : List Char → Option F) (nx na : Nat) (ls : FileData) (l : Option (List Char)) : Prop :=
  ∃ before after, ls = before ++ l :: after ∧ (∀ l' ∈ before, GoodLine parseF nx na l') ∧ ¬ GoodLine parseF nx na l

/-- The lines of the results, if the file says that the problem is solved and its header can be read: all lines after the first, or for
Clp after the second, which has the objective value. -/
def Results (cbc : Bool) (file : Option FileData) (rs : FileData) : Prop :=
  ∃ ls, file = some ls ∧ firstWord ls = some (optimalWord cbc) ∧ (cbc = false → ls[1]? ≠ some none) ∧
    rs = ls.drop (if cbc then 1 else 2)

end Verif
