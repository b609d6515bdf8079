import Verif.Spec.World

/-! # What a program put into its model -/

namespace Verif

variable {F : Type}

/-- The constraints that a call, made in the world `W`, adds to the model, in order. -/
def Cmd.adds (W : World F) : Cmd F → List (Constraint F)
  | .addConstraint i => (W.cs[i]?).toList
  | .addConstraints is => is.filterMap (W.cs[·]?)
  | _ => []

/-- The objective that a call, made in the world `W`, sets, if it sets one. -/
def Cmd.sets (W : World F) : Cmd F → Option (Objective F)
  | .minimize i => (W.regs[i]?).map .minimize
  | .maximize i => (W.regs[i]?).map .maximize
  | .noObjective => some .empty
  | _ => none

/-- The call creates a new model. -/
def Cmd.isNewModel : Cmd F → Bool
  | .newModel => true
  | _ => false

/-- `Ws` are the worlds in which the calls of `post` are made when a program makes the calls `pre` and then `post`. -/
def Trace [FloatOps F] (H : HashOrder) (pre post : List (Cmd F)) (Ws : List (World F)) : Prop :=
  Ws.length = post.length ∧ ∀ (i : Nat) (Wi : World F), Ws[i]? = some Wi →
    ∃ k, runCmds H World.start (pre ++ post.take i) 0 = .ok (Wi, k)

end Verif
