import Mathlib.Data.ZMod.Defs
import Verif.Code.Model
import Verif.Spec.Shape

/-!
# Polynomials with terms of one sign, and homogeneous polynomials

Two ways to give degrees to expressions. In both, the terms of a sum have the same degree, and the degree of a product is the sum of the degrees of the factors.
-/

namespace Verif

variable {F : Type} [FloatOps F]

/-- Expressions with a degree, where `num v d` says that the number `v` has degree `d`, and variables have degree `var`: built from numbers and variables with sums of terms of
the same degree, products, and division by numbers that are not zero. (No sines, no cosines, no other division.) -/
inductive Graded {D : Type} [AddCommGroup D] (num : F → D → Prop) (var : D) : D → Node F → Prop
  | const {i : Nat} {v : F} {d : D} : num v d → Graded num var d (.const i v)
  | var {i : Nat} {s : String} {k : VarKind} : Graded num var var (.var i s k)
  | add {i : Nat} {args : List (Node F)} {d : D} : (∀ a ∈ args, Graded num var d a) → Graded num var d (.add i args)
  | mul {i : Nat} {a b : Node F} {d e : D} : Graded num var d a → Graded num var e b → Graded num var (d + e) (.mul i a b)
  | div {i j : Nat} {a : Node F} {k : F} {d e : D} : Graded num var d a → num k e → (k ==. zero) = false →
      Graded num var (d - e) (.div i a (.const j k))

/-- Sign 0 is plus, sign 1 is minus: a number has sign plus if it is not negative, sign minus if it is not positive. -/
def signNum (v : F) (s : ZMod 2) : Prop := (s = 0 ∧ (v <. zero) = false) ∨ (s = 1 ∧ (zero <. v) = false)

/-- All terms, when multiplied out, have coefficients of the sign `s`. -/
abbrev Signed (s : ZMod 2) (e : Node F) : Prop := Graded signNum 0 s e

/-- Numbers have degree 0; zero has all degrees. -/
def homNum (v : F) (d : ℤ) : Prop := d = 0 ∨ (0 < d ∧ (v ==. zero) = true)

/-- A homogeneous polynomial of degree `d`. -/
abbrev Homogeneous (d : ℤ) (e : Node F) : Prop := Graded homNum 1 d e

/-- The terms of a sum; another expression is its own term. -/
def summands : Node F → List (Node F)
  | .add _ args => args
  | e => [e]

/-- The terms of `e` in which `x` occurs satisfy `P`. -/
def TermsWith (x : Node F) (P : Node F → Prop) (e : Node F) : Prop := ∀ t ∈ summands e, Occurs x t → P t

/-- A function that is reported affine, or in which, for each variable, the terms with that variable have coefficients of one sign or are homogeneous of one degree. -/
def Node.MildTerms (f : Node F) : Prop := f.stdProperties.affine = true ∨
  ∀ x : Node F, x.isVar = true → (∃ s, TermsWith x (Signed s) f) ∨ ∃ d, TermsWith x (Homogeneous d) f

/-- The same for the difference of the two sides of a constraint: the terms of one sign on the left side have the other sign on the right side. -/
def Constraint.MildTerms (c : Constraint F) : Prop := (c.lhs.stdProperties.affine = true ∧ c.rhs.stdProperties.affine = true) ∨
  ∀ x : Node F, x.isVar = true → (∃ s, TermsWith x (Signed s) c.lhs ∧ TermsWith x (Signed (s + 1)) c.rhs) ∨
    ∃ d, TermsWith x (Homogeneous d) c.lhs ∧ TermsWith x (Homogeneous d) c.rhs

/-- The objective and all constraints are such. -/
structure Model.MildTerms (m : Model F) : Prop where
  objective : ∀ f, m.objective = .minimize f ∨ m.objective = .maximize f → f.MildTerms
  constraints : ∀ c ∈ m.constraints, c.MildTerms

end Verif
