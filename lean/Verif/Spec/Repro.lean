import Verif.Spec.Feasible

/-! # When two standard problems are the same -/

namespace Verif

variable {F : Type}

inductive ProblemClass where
  | minlp
  | milp
  | lp
  | nlp
  deriving DecidableEq, Repr

/-- The class of a problem. -/
def Problem.cls : Problem F → ProblemClass
  | .minlp _ => .minlp
  | .milp _ => .milp
  | .lp _ => .lp
  | .nlp _ => .nlp

/-- The cost vector of a linear problem. -/
def Problem.cost : Problem F → Option (List F)
  | .milp q => some q.c
  | .lp q => some q.baseMilp.c
  | _ => none

/-- The data of two problems: the same matrix `A` (entries in any order), right-hand side, bounds, integer flags, initial point and
number of nonlinear rows. -/
structure SameData (q r : Minlp F) : Prop where
  shape : q.a.shape = r.a.shape
  a : q.a.triplets.Perm r.a.triplets
  b : q.b = r.b
  l : q.l = r.l
  u : q.u = r.u
  p : q.p = r.p
  x0 : q.x0 = r.x0
  nf : q.nf = r.nf

end Verif
