import Mathlib.Algebra.Order.Field.Basic
import Mathlib.Analysis.SpecialFunctions.Trigonometric.Deriv
import Verif.Code.Base

/-!
# Scalars used in the theorems about values

`Option K`: exact arithmetic over a linearly ordered field `K`, where `none` stands for every non-finite double (NaN or
infinite).  Operations are strict in `none`, division by zero gives `none`, comparisons with `none` are false and `f64::max`
ignores a `none` operand.
-/

namespace Verif

/-- sine and cosine on the exact scalars (no laws) -/
class Trig (K : Type) where
  sin : K → K
  cos : K → K

noncomputable instance : Trig ℝ := ⟨Real.sin, Real.cos⟩

/-- A stand-in for sine and cosine on the rationals, used only in concrete examples that the kernel evaluates. -/
instance : Trig ℚ := ⟨fun x => x, fun x => 1 + x⟩

namespace Exact

variable {K : Type} [Field K] [LinearOrder K] [Trig K]

/-- strict binary operation -/
def lift2 {α β γ : Type} (f : α → β → γ) : Option α → Option β → Option γ
  | some a, some b => some (f a b)
  | _, _ => none

/-- division: undefined for a zero divisor -/
def div : Option K → Option K → Option K
  | some a, some b => if b = 0 then none else some (a / b)
  | _, _ => none

/-- `f64::max`: "If one of the arguments is NaN, then the other argument is returned" -/
def max : Option K → Option K → Option K
  | some a, some b => some (if a ≤ b then b else a)
  | some a, none => some a
  | none, b => b

instance : FloatOps (Option K) where
  zero := some 0
  one := some 1
  inf := some (10 ^ 8)
  nan := none
  add := lift2 (· + ·)
  sub := lift2 (· - ·)
  mul := lift2 (· * ·)
  div := div
  neg := Option.map (- ·)
  abs := Option.map fun a => if 0 ≤ a then a else -a
  max := max
  sin := Option.map Trig.sin
  cos := Option.map Trig.cos
  eq a b := match a, b with
    | some a, some b => decide (a = b)
    | _, _ => false
  lt a b := match a, b with
    | some a, some b => decide (a < b)
    | _, _ => false
  le a b := match a, b with
    | some a, some b => decide (a ≤ b)
    | _, _ => false

end Exact

/-- Lean's own doubles are also an instance, so every theorem proved for all `FloatOps F` speaks about them.
(Not used in any proof.) -/
instance : FloatOps Float where
  zero := 0
  one := 1
  inf := 1e8
  nan := 0 / 0
  add := (· + ·)
  sub := (· - ·)
  mul := (· * ·)
  div := (· / ·)
  neg a := -a
  abs := Float.abs
  max a b := if a.isNaN then b else if b.isNaN then a else if a < b then b else a
  sin := Float.sin
  cos := Float.cos
  eq := (· == ·)
  lt a b := a < b
  le a b := a ≤ b

end Verif
