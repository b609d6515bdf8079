import Verif.Spec.Feasible

/-! # Vocabulary of the statements about `solve` -/

namespace Verif

/-- The assignment a map from variables to numbers stands for (what `evaluate` looks up). -/
def mapEnv {F : Type} (m : List (Node F × F)) : Env F := fun k => (m.find? fun e => e.1.id == k).map Prod.snd

/-- Calls after which the results of an earlier `solve` are no longer there. -/
def Cmd.endsResult {F : Type} : Cmd F → Bool
  | .solve _ | .newModel => true
  | _ => false

/-- `solve` of the model with this solver hands it the standard problem `sp`, and it answers with the status and solution. -/
def Model.SolvedBy {F : Type} [FloatOps F] (H : HashOrder) (mod : Model F) (n : Nat) (solver : SolverFn F) (sp : StdProb F)
    (status : Status) (sol : Sol F) : Prop :=
  ∃ m, mod.stdProblem H n = .ok (sp, m) ∧ solver sp.prob = .ok (.ok (status, sol))

/-- `σ` satisfies every constraint of the model and integrality, and stays within the box that the standard problem imposes: 1e8 for
variables, and 1e8 for `lhs - rhs` of the inequalities that are not bounds on a variable. -/
structure Model.Admissible {K : Type} [Field K] [LinearOrder K] [Trig K] (mod : Model (Option K)) (σ : Env (Option K)) : Prop where
  holds : ∀ c ∈ mod.constraints, c.Holds σ
  integral : ∀ x, mod.HasVar x → x.isInteger = true → ∃ z : ℤ, x.evaluate σ = some (z : K)
  box : ∀ x, mod.HasVar x → ∃ t : K, x.evaluate σ = some t ∧ -(10 ^ 8) ≤ t ∧ t ≤ 10 ^ 8
  slackBox : ∀ c ∈ mod.constraints, c.kind ≠ .equal → (∀ x v, ¬ c.Bounds x v) →
    ∀ a b, c.lhs.evaluate σ = some a → c.rhs.evaluate σ = some b → -(10 ^ 8) ≤ a - b ∧ a - b ≤ 10 ^ 8

end Verif
