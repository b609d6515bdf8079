import Verif.Spec.PolyDeriv64
import Verif.Spec.RoundingGrad64

/-!
# Nonlinear models whose functions are polynomials with integer coefficients
-/

namespace Verif

open MvPolynomial

variable [Libm]

/-- `P` is the polynomial that the model minimises: the one that the objective writes down, or its negative if the objective is to be maximised. `A` is the
polynomial with absolute values. -/
inductive Model.MinimisesPoly (H : HashOrder) (mod : Model F64) : MvPolynomial ℕ ℤ → MvPolynomial ℕ ℕ → Prop
  | minimize {f P A} (h : mod.objective = .minimize f) (hw : WritesPoly H f P A) : MinimisesPoly H mod P A
  | maximize {f P A} (h : mod.objective = .maximize f) (hw : WritesPoly H f P A) (hm : SmallSum A) : MinimisesPoly H mod (-P) A
  | empty (h : mod.objective = .empty) : MinimisesPoly H mod 0 0

/-- The slack of nonlinear row `k` as a polynomial: its variable, or zero if the row has none. -/
noncomputable def StdProb.slackPoly (R : Type) [CommSemiring R] (sp : StdProb F64) (n k : ℕ) : MvPolynomial ℕ R :=
  match sp.slackOf n k with
  | some s => X s.id
  | none => 0

/-- `P` is the polynomial of nonlinear row `k`, which comes from the constraint `c`: left side minus right side minus slack. `A` is the polynomial with
absolute values. -/
inductive StdProb.RowPoly (H : HashOrder) (sp : StdProb F64) (n k : ℕ) (c : Constraint F64) : MvPolynomial ℕ ℤ → MvPolynomial ℕ ℕ → Prop
  | mk {P Q A B} (hl : WritesPoly H c.lhs P A) (hr : WritesPoly H c.rhs Q B) (hm : SmallSum (A + B + sp.slackPoly ℕ n k)) :
      RowPoly H sp n k c (P - Q - sp.slackPoly ℤ n k) (A + B + sp.slackPoly ℕ n k)

/-- The point is given by the integers `z`: each column has the value `z` of its variable. -/
def StdProb.IntegersAt (sp : StdProb F64) (xs : List F64) (z : ℕ → ℤ) : Prop :=
  xs.length = sp.var2index.length ∧ ∀ x i, (x, i) ∈ sp.var2index → ∃ a, xs[i]? = some a ∧ a.HasValue ((z x.id : ℤ) : ℚ)

/-- The polynomial with absolute values is at most `2^53` at the point. -/
def SmallAt (z : ℕ → ℤ) (A : MvPolynomial ℕ ℕ) : Prop := eval (fun i => max 1 (z i).natAbs) A ≤ 2 ^ 53

end Verif
