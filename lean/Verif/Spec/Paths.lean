import Verif.Code.Node

/-! # Paths in an expression, independent of the search -/

namespace Verif

variable {F : Type}

/-- Follow a list of argument positions from a node; the nodes passed, or `none` if some position does not exist. -/
def walk (e : Node F) : List Nat → Option (List (Node F))
  | [] => some [e]
  | i :: is => match e.arguments[i]? with
    | some a => (walk a is).map (e :: ·)
    | none => none

end Verif
