import Verif.Spec.World
import Verif.Spec.Exact
import Verif.Spec.Affine
import Verif.Spec.Problem

/-! # What it means that a constraint holds, that a point is feasible for a standard problem, and that it is optimal -/

namespace Verif

/-- The matrices of numbers behind a problem: an `Lp` contains one for its face as a `Milp` and one for its face as an `Nlp`. -/
def Problem.views {F : Type} : Problem F → List (Minlp F)
  | .minlp q => [q]
  | .milp q => [q.base]
  | .lp q => [q.baseMilp.base, q.baseNlp.base]
  | .nlp q => [q.base]

/-- The assignment of a point to the variables of a standard problem: variable `x` with `var2index[x] = i` gets `xs[i]`. -/
def pointOf {F : Type} (v2i : List (Node F × Nat)) (xs : List F) : Env F := fun k =>
  (v2i.find? fun e => e.1.id == k).bind fun e => xs[e.2]?

/-- `x` is a variable of the objective or of a constraint of the model. -/
def Model.HasVar {F : Type} (mod : Model F) (x : Node F) : Prop :=
  x.isVar = true ∧ ((∃ f, (mod.objective = .minimize f ∨ mod.objective = .maximize f) ∧ Occurs x f) ∨
    ∃ c ∈ mod.constraints, Occurs x c.lhs ∨ Occurs x c.rhs)

/-- The name of the slack variable of linear row `k`. -/
def slackNameA (k : Nat) : String := "_s_a" ++ toString k ++ "_"

/-- The name of the slack variable of nonlinear row `k`. -/
def slackNameJ (k : Nat) : String := "_s_j" ++ toString k ++ "_"

/-- The constraint bounds the variable `x` by `v`: `lhs - rhs`, as the operator `-` builds it, is reported by `std_properties` to be
`1 * x + b` with `v = -b`, and the constraint is not an equality. -/
def Constraint.Bounds {F : Type} [FloatOps F] (c : Constraint F) (x : Node F) (v : F) : Prop :=
  c.kind ≠ .equal ∧ ∃ n e m w, subN c.lhs c.rhs n = .ok (e, m) ∧ e.stdProperties.affine = true ∧ e.stdProperties.a = [(x, w)] ∧
    (w ==. one) = true ∧ v = FloatOps.neg e.stdProperties.b

variable {K : Type} [Field K] [LinearOrder K] [Trig K]

/-- The relation a constraint kind stands for. -/
def CKind.Rel (k : CKind) (a b : K) : Prop :=
  match k with
  | .equal => a = b
  | .lessEqual => a ≤ b
  | .greaterEqual => b ≤ a

/-- Both sides of the constraint have values at `σ` and these are in the relation of the constraint. -/
def Constraint.Holds (c : Constraint (Option K)) (σ : Env (Option K)) : Prop :=
  ∃ a b, c.lhs.evaluate σ = some a ∧ c.rhs.evaluate σ = some b ∧ c.kind.Rel a b

/-- The (variable, coefficient) pairs of row `i` of a list of linear entries. -/
def entriesOf {F : Type} (a : List (Nat × Node F × F)) (i : Nat) : List (Node F × F) := (a.filter fun e => e.1 == i).map Prod.snd

/-- The standard components of a constraint hold at `τ`: linear rows (numbered from `arow`), nonlinear rows `f = 0`, bounds. -/
structure ConstrComp.HoldsAt (cc : ConstrComp (Option K)) (arow : Nat) (τ : Env (Option K)) : Prop where
  linear : ∀ k v, cc.b[k]? = some v → ∃ t, v = some t ∧ affineValue τ (entriesOf cc.a (arow + k)) (some 0) = some t
  nonlinear : ∀ f ∈ cc.f, f.evaluate τ = some 0
  upper : ∀ e ∈ cc.u, ∃ x v, e.1.evaluate τ = some x ∧ e.2.1 = some v ∧ x ≤ v
  lower : ∀ e ∈ cc.l, ∃ x v, e.1.evaluate τ = some x ∧ e.2.1 = some v ∧ v ≤ x

/-- `xs` satisfies the linear rows `A x = b`, the nonlinear rows `f(x) = 0`, the bounds `l ≤ x ≤ u` and integrality. -/
structure Minlp.Feasible (q : Minlp (Option K)) (xs : List (Option K)) : Prop where
  len : xs.length = q.nx
  linear : ∀ i v, q.b[i]? = some v → ∃ t, v = some t ∧
    total ((rowOf q.a.triplets i).map fun e => e.2 *. (xs[e.1]?).getD none) = some t
  nonlinear : ∃ q', q.evaluate xs = .ok q' ∧ ∀ v ∈ q'.buf.f, v = some 0
  bounds : ∀ (i : Nat) (x : Option K), xs[i]? = some x → ∃ t lo up, x = some t ∧ q.l[i]? = some (some lo) ∧ q.u[i]? = some (some up) ∧ lo ≤ t ∧ t ≤ up
  integral : ∀ i : Nat, q.p[i]? = some true → ∃ z : ℤ, xs[i]? = some (some (z : K))

/-- What the standard problem is meant to minimise: `f` for a minimisation, `-f` for a maximisation, 0 without objective. -/
def Model.minimised (mod : Model (Option K)) (σ : Env (Option K)) : Option K :=
  match mod.objective with
  | .minimize f => f.evaluate σ
  | .maximize f => FloatOps.neg (f.evaluate σ)
  | .empty => some 0

/-- The function of nonlinear row `k` with constraint `c`: `lhs - rhs`, minus the slack of the row if it has one, that is if there is
a column created by `std_problem` (number at least `n`) with the name of the slack. -/
def StdProb.nlRow (sp : StdProb (Option K)) (n k : Nat) (c : Constraint (Option K)) (σ : Env (Option K)) : Option K :=
  match sp.var2index.find? (fun e => decide (n ≤ e.1.id) && e.1.name == slackNameJ k) with
  | some e => (c.lhs.evaluate σ -. c.rhs.evaluate σ) -. e.1.evaluate σ
  | none => c.lhs.evaluate σ -. c.rhs.evaluate σ

/-- The objective value that evaluating the problem at `xs` produces. -/
def Minlp.objectiveAt {F : Type} (q : Minlp F) (xs : List F) : Option F :=
  match q.evaluate xs with
  | .ok q' => some q'.buf.phi
  | .error _ => none

/-- `xs` is a minimiser: feasible, with an objective value, and no feasible point has a smaller value. -/
structure Minlp.Minimiser (q : Minlp (Option K)) (xs : List (Option K)) : Prop where
  feasible : q.Feasible xs
  best : ∃ v, q.objectiveAt xs = some (some v) ∧ ∀ ys, q.Feasible ys → ∀ w, q.objectiveAt ys = some (some w) → v ≤ w

end Verif
