import Verif.Spec.Rounding64
import Verif.Spec.RoundingSolve64

/-!
# Nonlinear models in double precision, with rounding, overflow and underflow
-/

namespace Verif

variable [Libm]

/-- `t` is the value of the slack of nonlinear row `k` under the assignment `σ`: the value of the column that `std_problem` created (number at least `n`)
with the name of the slack of this row, and zero if there is none. -/
def StdProb.SlackIs (sp : StdProb F64) (n k : ℕ) (σ : Env F64) (t : ℝ) : Prop :=
  match sp.var2index.find? (fun e => decide (n ≤ e.1.id) && e.1.name == slackNameJ k) with
  | some e => (e.1.evaluate σ).Is t
  | none => t = 0

/-- `objective` is the formula with value `v` under `σ`, to be minimised, or one with value `-v`, to be maximised. -/
inductive Model.Minimises64 (mod : Model F64) (σ : Env F64) : ℝ → ℝ → ℕ → Prop
  | minimize {f v m k} (h : mod.objective = .minimize f) (hw : Writes64 σ f v m k) : Minimises64 mod σ v m k
  | maximize {f v m k} (h : mod.objective = .maximize f) (hw : Writes64 σ f v m k) (hR : InRange m (k + 1)) : Minimises64 mod σ (-v) m (k + 1)
  | empty (h : mod.objective = .empty) : Minimises64 mod σ 0 0 0

/-- What a nonlinear solver promises: `xs` satisfies the linear rows of `q` up to `δ`, its bounds up to `ε` and integrality up to `η`, and the values that
evaluating the problem at `xs` gives for the nonlinear rows are finite and at most `δ` in absolute value. -/
structure Minlp.Within64 (q : Minlp F64) (δ ε η : ℝ) (xs : List F64) : Prop where
  linear : ∃ ts : List ℝ, List.Forall₂ F64.Is xs ts ∧ q.LinearWithin64 δ ε η ts
  rows : ∃ r, q.evaluate xs = .ok r ∧ ∀ y ∈ r.buf.f, ∃ z, y.Is z ∧ |z| ≤ δ

end Verif
