import Verif.Spec.Shape

/-!
# Places where a variable is written in a formula
-/

namespace Verif

variable {F : Type}

/-- The number of places where the variable `x` is written when the expression is written out as a formula (a shared sub-expression is written once for each use). -/
def occurrences (x : Node F) : Node F → Nat
  | .const .. => 0
  | .var i s k => if (Node.var i s k).ptrEq x then 1 else 0
  | .add _ args => occs args
  | .cos _ a => occurrences x a
  | .sin _ a => occurrences x a
  | .mul _ a b => occurrences x a + occurrences x b
  | .div _ a b => occurrences x a + occurrences x b
where
  /-- over the terms of a sum -/
  occs : List (Node F) → Nat
    | [] => 0
    | a :: as => occurrences x a + occs as

/-- `x` is written at some place of the formula as a term with a numeric coefficient: one gets there through sums, products with a number and quotients by a number only. -/
inductive LinearPlace (x : Node F) : Node F → Prop
  | here {i s k} : (Node.var i s k).ptrEq x = true → LinearPlace x (.var i s k)
  | add {i args a} : a ∈ args → LinearPlace x a → LinearPlace x (.add i args)
  | mulLeft {i a b} : b.isConstant = true → LinearPlace x a → LinearPlace x (.mul i a b)
  | mulRight {i a b} : a.isConstant = true → LinearPlace x b → LinearPlace x (.mul i a b)
  | div {i a b} : b.isConstant = true → LinearPlace x a → LinearPlace x (.div i a b)

/-- `x` is written at some other place: in the argument of a sine or cosine, in a divisor, in a dividend over a divisor that is not a number, or in a factor beside a factor
that is not a number. -/
inductive NonlinearPlace (x : Node F) : Node F → Prop
  | cos {i a} : 0 < occurrences x a → NonlinearPlace x (.cos i a)
  | sin {i a} : 0 < occurrences x a → NonlinearPlace x (.sin i a)
  | mulLeft {i a b} : b.isConstant = false → 0 < occurrences x a → NonlinearPlace x (.mul i a b)
  | mulRight {i a b} : a.isConstant = false → 0 < occurrences x b → NonlinearPlace x (.mul i a b)
  | dividend {i a b} : b.isConstant = false → 0 < occurrences x a → NonlinearPlace x (.div i a b)
  | divisor {i a b} : 0 < occurrences x b → NonlinearPlace x (.div i a b)
  | inAdd {i args a} : a ∈ args → NonlinearPlace x a → NonlinearPlace x (.add i args)
  | inLeft {i a b} : NonlinearPlace x a → NonlinearPlace x (.mul i a b)
  | inRight {i a b} : NonlinearPlace x b → NonlinearPlace x (.mul i a b)
  | inDividend {i a b} : NonlinearPlace x a → NonlinearPlace x (.div i a b)

/-- The program that makes a variable and squares `k` times: `let x1 = &x * &x; let x2 = &x1 * &x1; ...`. -/
def squarings (F : Type) (k : Nat) : List (Op F) :=
  .var "x" .continuous :: (List.range k).map fun j => .mul j j

end Verif
