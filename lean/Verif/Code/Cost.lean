import Verif.Code.Node

/-! # The number of calls of `evaluate` -/

namespace Verif

variable {F : Type} [FloatOps F]

/-- `evaluate`, together with the number of calls of `evaluate` that are made. Code: as `Node.evaluate`: src/model/node_base.rs:48-64 and function/add.rs:46-48, cos.rs:45-47,
div.rs:47-49, mul.rs:47-49, sin.rs:45-47. -/
def Node.evaluateC (σ : Env F) : Node F → F × Nat
  | .const _ v => (v, 1)
  | .var i _ _ => (match σ i with
    | some x => x
    | none => nan, 1)
  | .add _ args => ((sumC σ zero args).1, (sumC σ zero args).2 + 1)
  | .cos _ a => (FloatOps.cos (a.evaluateC σ).1, (a.evaluateC σ).2 + 1)
  | .div _ a b => ((a.evaluateC σ).1 /. (b.evaluateC σ).1, (a.evaluateC σ).2 + (b.evaluateC σ).2 + 1)
  | .mul _ a b => ((a.evaluateC σ).1 *. (b.evaluateC σ).1, (a.evaluateC σ).2 + (b.evaluateC σ).2 + 1)
  | .sin _ a => (FloatOps.sin (a.evaluateC σ).1, (a.evaluateC σ).2 + 1)
where
  /-- running sum of the values of the arguments, and the number of calls. Code: src/model/function/add.rs:46-48. -/
  sumC (σ : Env F) (acc : F) : List (Node F) → F × Nat
    | [] => (acc, 0)
    | a :: as => ((sumC σ (acc +. (a.evaluateC σ).1) as).1, (a.evaluateC σ).2 + (sumC σ (acc +. (a.evaluateC σ).1) as).2)

end Verif
