/-!
# Texts

Texts are lists of characters, words are the pieces between blanks.
-/

namespace Verif

/-- `char::is_ascii_whitespace`: space, tab, line feed, form feed, carriage return. Code: used by `split_ascii_whitespace`, src/solver/cbc_cmd.rs:67. -/
def isBlank (c : Char) : Bool := [' ', '\t', '\n', Char.ofNat 12, '\r'].contains c

/-- The words of a text, after the characters `cur` of a word. Code: src/solver/cbc_cmd.rs:67. -/
def wordsFrom (cur : List Char) : List Char → List (List Char)
  | [] => if cur.isEmpty then [] else [cur]
  | c :: cs => if isBlank c then (if cur.isEmpty then [] else [cur]) ++ wordsFrom [] cs else wordsFrom (cur ++ [c]) cs

/-- `str::split_ascii_whitespace`. Code: src/solver/cbc_cmd.rs:67. -/
def words (s : List Char) : List (List Char) := wordsFrom [] s

/-- `{}` of a `usize`. Code: e.g. src/problem/milp.rs:138. -/
def natText (n : Nat) : List Char := Nat.toDigits 10 n

/-- `x_{i}`, src/problem/milp.rs:138,141,167,170,182,192 -/
def xName (i : Nat) : List Char := 'x' :: '_' :: natText i

/-- `c_{i}`, src/problem/milp.rs:153 -/
def cName (i : Nat) : List Char := 'c' :: '_' :: natText i

end Verif
