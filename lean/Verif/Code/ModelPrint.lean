import Verif.Code.Model
import Verif.Code.Print

/-!
# Printing of models: `impl Display for Model`, src/model/model.rs:169-194
-/

namespace Verif

variable {F : Type}

/-- Headings, src/model/model.rs:171-175 -/
def Objective.heading : Objective F → List Char
  | .minimize _ => ['\n', 'M', 'i', 'n', 'i', 'm', 'i', 'z', 'e', '\n']
  | .maximize _ => ['\n', 'M', 'a', 'x', 'i', 'm', 'i', 'z', 'e', '\n']
  | .empty => ['\n', 'F', 'i', 'n', 'd', ' ', 'p', 'o', 'i', 'n', 't', '\n']

/-- The line of the objective, src/model/model.rs:176-180 -/
def Objective.line (fmt : F → List Char) : Objective F → List Char
  | .minimize e => e.print fmt ++ ['\n']
  | .maximize e => e.print fmt ++ ['\n']
  | .empty => ['\n']

/-- The line of a constraint, src/model/model.rs:184-189 -/
def Constraint.line (fmt : F → List Char) (c : Constraint F) : List Char :=
  if c.label != "" then c.print fmt ++ [' ', ':', ' '] ++ c.label.toList ++ ['\n'] else c.print fmt ++ ['\n']

/-- `{}` of a model, src/model/model.rs:169-194 -/
def Model.print (fmt : F → List Char) (m : Model F) : List Char :=
  m.objective.heading ++ m.objective.line fmt ++
    if m.constraints.length > 0 then
      ['\n', 'S', 'u', 'b', 'j', 'e', 'c', 't', ' ', 't', 'o', '\n'] ++ m.constraints.flatMap (·.line fmt)
    else []

end Verif
