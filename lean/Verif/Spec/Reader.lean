import Verif.Spec.Exact
import Verif.Code.Constraint
import Verif.Spec.Shape

/-!
# A reader of arithmetic texts

Words are separated by blanks; `+ * / ( )` are words of their own. A text denotes a sum of terms, a term is a chain of factors joined
by `*` and `/`, read from left to right, a factor is a number, a name, or `( sum )`, `cos ( sum )`, `sin ( sum )`.
-/

namespace Verif

abbrev Word := List Char

/-- Characters that end a word. -/
def isSep (c : Char) : Bool := [' ', '+', '*', '/', '(', ')'].contains c

/-- The word that a separator is. -/
def sepWord (c : Char) : List Word := if c = ' ' then [] else [[c]]

/-- The word read so far. -/
def flush (cur : List Char) : List Word := if cur = [] then [] else [cur]

/-- The words of a text, after the characters `cur` of a word. -/
def lexFrom (cur : List Char) : List Char → List Word
  | [] => flush cur
  | c :: cs => if isSep c then flush cur ++ sepWord c ++ lexFrom [] cs else lexFrom (cur ++ [c]) cs

/-- The words of a text. -/
def lex (s : List Char) : List Word := lexFrom [] s

section
variable {F : Type} [FloatOps F] (readNum : Word → Option F) (ρ : Word → F)

mutual
/-- A sum: a term and then `+ term` as long as possible. The number is a bound on the number of steps. -/
def pSum : Nat → List Word → Option (F × List Word)
  | 0, _ => none
  | n + 1, ws => (pTerm n ws).bind fun r => pSumLoop n r.1 r.2

def pSumLoop : Nat → F → List Word → Option (F × List Word)
  | 0, _, _ => none
  | n + 1, acc, ws =>
    match ws with
    | ['+'] :: ws => (pTerm n ws).bind fun r => pSumLoop n (acc +. r.1) r.2
    | ws => some (acc, ws)

/-- A term: a factor and then `* factor` or `/ factor` as long as possible. -/
def pTerm : Nat → List Word → Option (F × List Word)
  | 0, _ => none
  | n + 1, ws => (pFactor n ws).bind fun r => pTermLoop n r.1 r.2

def pTermLoop : Nat → F → List Word → Option (F × List Word)
  | 0, _, _ => none
  | n + 1, acc, ws =>
    match ws with
    | ['*'] :: ws => (pFactor n ws).bind fun r => pTermLoop n (acc *. r.1) r.2
    | ['/'] :: ws => (pFactor n ws).bind fun r => pTermLoop n (acc /. r.1) r.2
    | ws => some (acc, ws)

/-- A factor. -/
def pFactor : Nat → List Word → Option (F × List Word)
  | 0, _ => none
  | n + 1, ws =>
    match ws with
    | [] => none
    | ['('] :: ws => (pSum n ws).bind fun r => closing r.1 r.2
    | ['c', 'o', 's'] :: ['('] :: ws => (pSum n ws).bind fun r => closing (FloatOps.cos r.1) r.2
    | ['s', 'i', 'n'] :: ['('] :: ws => (pSum n ws).bind fun r => closing (FloatOps.sin r.1) r.2
    | w :: ws => if [['+'], ['*'], ['/'], [')']].contains w then none else some ((readNum w).getD (ρ w), ws)

/-- The closing parenthesis. -/
def closing (v : F) : List Word → Option (F × List Word)
  | [')'] :: ws => some (v, ws)
  | _ => none
end

/-- The text denotes the number `v` (if numbers are read with `readNum` and names have the values `ρ`). -/
def Reads (s : List Char) (v : F) : Prop := ∃ n, pSum readNum ρ n (lex s) = some (v, [])

/-- The text denotes a comparison of the numbers `a` and `b`. -/
def ReadsCmp (s : List Char) (k : CKind) (a b : F) : Prop :=
  ∃ n w ws, pSum readNum ρ n (lex s) = some (a, w :: ws) ∧ pSum readNum ρ n ws = some (b, []) ∧
    w = match k with
      | .equal => "==".toList
      | .lessEqual => "<=".toList
      | .greaterEqual => ">=".toList

end

/-! ## What can be read -/

/-- A text that is one word. -/
def IsWord (w : Word) : Prop := w ≠ [] ∧ w.any isSep = false

section
variable {K : Type} [Field K] [LinearOrder K] [Trig K]

/-- The numbers and names in `e` can be read: numbers print as words that are read as that number, names are words that are not read as
numbers and stand for the value of their variable. -/
structure Readable (readNum : Word → Option (Option K)) (ρ : Word → Option K) (fmt : Option K → List Char) (σ : Env (Option K))
    (e : Node (Option K)) : Prop where
  num : ∀ i v, Occurs (.const i v) e → IsWord (fmt v) ∧ readNum (fmt v) = some v
  name : ∀ x, x.isVar = true → Occurs x e → IsWord x.name.toList ∧ readNum x.name.toList = none ∧ ρ x.name.toList = x.evaluate σ

end

end Verif
