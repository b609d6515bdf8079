import Verif.Spec.Reader
import Verif.Code.Model

/-!
# A reader of printed models

A text is a sequence of lines, each ended by a line feed. A model is an empty line, a line `Minimize`, `Maximize` or `Find point`, a line
with the objective, and, if there are constraints, an empty line, a line `Subject to`, and a line for each constraint. A line of a
constraint is the comparison, or the comparison, ` : ` and a label.
-/

namespace Verif

/-- The lines of a text, after the characters `cur` of a line; `none` if the last line is not ended. -/
def splitLines (cur : List Char) : List Char → Option (List (List Char))
  | [] => if cur = [] then some [] else none
  | c :: cs => if c = '\n' then (splitLines [] cs).map (cur :: ·) else splitLines (cur ++ [c]) cs

/-- A line of a constraint: what comes before the first ` : `, and what comes after it (nothing if there is none). -/
def splitLabel (cur : List Char) : List Char → List Char × List Char
  | ' ' :: ':' :: ' ' :: cs => (cur, cs)
  | [] => (cur, [])
  | c :: cs => splitLabel (cur ++ [c]) cs

inductive Sense where
  | minimize
  | maximize
  | find
  deriving DecidableEq

/-- The heading. -/
def readSense (l : List Char) : Option Sense :=
  if l = "Minimize".toList then some .minimize
  else if l = "Maximize".toList then some .maximize
  else if l = "Find point".toList then some .find
  else none

/-- The parts of a printed model: sense, text of the objective, texts and labels of the constraints. -/
def readModel (text : List Char) : Option (Sense × List Char × List (List Char × List Char)) :=
  match splitLines [] text with
  | some [[], head, obj] => (readSense head).map fun s => (s, obj, [])
  | some ([] :: head :: obj :: [] :: sub :: cs) =>
    if sub = "Subject to".toList then (readSense head).map fun s => (s, obj, cs.map (splitLabel [])) else none
  | _ => none

/-- The sense of an objective. -/
def Objective.sense {F : Type} : Objective F → Sense
  | .minimize _ => .minimize
  | .maximize _ => .maximize
  | .empty => .find

end Verif
