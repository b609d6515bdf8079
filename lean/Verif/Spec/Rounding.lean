import Mathlib.Analysis.SpecialFunctions.Trigonometric.Bounds
import Verif.Code.Node
import Verif.Code.Diff

/-!
# Arithmetic with rounding errors

The standard model of floating point arithmetic: every operation returns its exact result up to a relative error of at most `u` (for `f64` and round to
nearest, `u = 2^-53`; the functions of a good mathematical library have a slightly larger `u`).  Overflow and underflow are not part of it.
-/

namespace Verif

/-- Arithmetic in which every operation has a relative error of at most `u`. Nothing else is assumed: addition need be neither associative nor commutative. -/
structure FlArith (u : ℝ) where
  add : ℝ → ℝ → ℝ
  sub : ℝ → ℝ → ℝ
  mul : ℝ → ℝ → ℝ
  div : ℝ → ℝ → ℝ
  sin : ℝ → ℝ
  cos : ℝ → ℝ
  add_err : ∀ a b, |add a b - (a + b)| ≤ u * |a + b|
  sub_err : ∀ a b, |sub a b - (a - b)| ≤ u * |a - b|
  mul_err : ∀ a b, |mul a b - a * b| ≤ u * |a * b|
  div_err : ∀ a b, b ≠ 0 → |div a b - a / b| ≤ u * |a / b|
  sin_err : ∀ a, |sin a - Real.sin a| ≤ u * |Real.sin a|
  cos_err : ∀ a, |cos a - Real.cos a| ≤ u * |Real.cos a|

/-- The numbers of such an arithmetic; `none` stands for NaN and the infinities. -/
def Fl {u : ℝ} (_A : FlArith u) : Type := Option ℝ

variable {u : ℝ} {A : FlArith u}

open Classical in
/-- Every operation rounds; comparisons, negation, absolute value and maximum are exact, as in IEEE arithmetic. -/
noncomputable instance : FloatOps (Fl A) where
  zero := (some 0 : Option ℝ)
  one := (some 1 : Option ℝ)
  inf := (some (10 ^ 8) : Option ℝ)
  nan := (none : Option ℝ)
  add a b := match (a : Option ℝ), (b : Option ℝ) with
    | some x, some y => (some (A.add x y) : Option ℝ)
    | _, _ => (none : Option ℝ)
  sub a b := match (a : Option ℝ), (b : Option ℝ) with
    | some x, some y => (some (A.sub x y) : Option ℝ)
    | _, _ => (none : Option ℝ)
  mul a b := match (a : Option ℝ), (b : Option ℝ) with
    | some x, some y => (some (A.mul x y) : Option ℝ)
    | _, _ => (none : Option ℝ)
  div a b := match (a : Option ℝ), (b : Option ℝ) with
    | some x, some y => if y = 0 then (none : Option ℝ) else (some (A.div x y) : Option ℝ)
    | _, _ => (none : Option ℝ)
  neg a := Option.map (fun x : ℝ => -x) a
  abs a := Option.map (fun x : ℝ => |x|) a
  max a b := match (a : Option ℝ), (b : Option ℝ) with
    | some x, some y => (some (Max.max x y) : Option ℝ)
    | some x, none => (some x : Option ℝ)
    | none, b => b
  sin a := Option.map A.sin a
  cos a := Option.map A.cos a
  eq a b := match (a : Option ℝ), (b : Option ℝ) with
    | some x, some y => decide (x = y)
    | _, _ => false
  lt a b := match (a : Option ℝ), (b : Option ℝ) with
    | some x, some y => decide (x < y)
    | _, _ => false
  le a b := match (a : Option ℝ), (b : Option ℝ) with
    | some x, some y => decide (x ≤ y)
    | _, _ => false

/-- The number `x` of the arithmetic. -/
def Fl.num (A : FlArith u) (x : ℝ) : Fl A := (some x : Option ℝ)

/-- `Writes σ e v m k`: the handle `e` is the result of operator calls that write down a formula with the exact value `v` under the assignment `σ`.
`m` is the value of the formula with all terms replaced by their absolute values (with `1 + m` for a sine or cosine of something of size `m`), and
`k` grows with the number of operations of the formula. A divisor must not be lost in rounding errors: `κ` bounds its condition number `m' / |w|`.
`n` and `n'` are the numbers of cells before and after the call. -/
inductive Writes (σ : Env (Fl A)) : Node (Fl A) → ℝ → ℝ → ℕ → Prop
  | const {e n n'} (c : ℝ) (h : newConst (Fl.num A c) n = .ok (e, n')) : Writes σ e c |c| 1
  | var {e n n' s kind t} (h : newVar s kind n = .ok (e, n')) (ht : σ n = some (Fl.num A t)) : Writes σ e t |t| 1
  | add {a b e v w m m' k k' n n'} (ha : Writes σ a v m k) (hb : Writes σ b w m' k') (h : addN a b n = .ok (e, n')) :
      Writes σ e (v + w) (m + m') (k + k' + 1)
  | addScalar {a e v m k n n'} (c : ℝ) (ha : Writes σ a v m k) (h : addS a (Fl.num A c) n = .ok (e, n')) :
      Writes σ e (v + c) (m + |c|) (k + 2)
  | scalarAdd {a e v m k n n'} (c : ℝ) (ha : Writes σ a v m k) (h : sAdd (Fl.num A c) a n = .ok (e, n')) :
      Writes σ e (c + v) (|c| + m) (k + 2)
  | sub {a b e v w m m' k k' n n'} (ha : Writes σ a v m k) (hb : Writes σ b w m' k') (h : subN a b n = .ok (e, n')) :
      Writes σ e (v - w) (m + m') (k + k' + 2)
  | subScalar {a e v m k n n'} (c : ℝ) (ha : Writes σ a v m k) (h : subS a (Fl.num A c) n = .ok (e, n')) :
      Writes σ e (v - c) (m + |c|) (k + 3)
  | scalarSub {a e v m k n n'} (c : ℝ) (ha : Writes σ a v m k) (h : sSub (Fl.num A c) a n = .ok (e, n')) :
      Writes σ e (c - v) (|c| + m) (k + 3)
  | neg {a e v m k n n'} (ha : Writes σ a v m k) (h : negN a n = .ok (e, n')) : Writes σ e (-v) m (k + 1)
  | mul {a b e v w m m' k k' n n'} (ha : Writes σ a v m k) (hb : Writes σ b w m' k') (h : mulN a b n = .ok (e, n')) :
      Writes σ e (v * w) (m * m') (k + k' + 2)
  | mulScalar {a e v m k n n'} (c : ℝ) (ha : Writes σ a v m k) (h : mulS (Fl.num A c) a n = .ok (e, n')) :
      Writes σ e (v * c) (m * |c|) (k + 1)
  | scalarMul {a e v m k n n'} (c : ℝ) (ha : Writes σ a v m k) (h : sMul (Fl.num A c) a n = .ok (e, n')) :
      Writes σ e (c * v) (|c| * m) (k + 1)
  | divScalar {a e v m k n n'} (c : ℝ) (ha : Writes σ a v m k) (h : divS a (Fl.num A c) n = .ok (e, n')) :
      Writes σ e (v / c) (m / |c|) (k + 2)
  | div {a b e v w m m' k k' n n'} (κ : ℕ) (ha : Writes σ a v m k) (hb : Writes σ b w m' k') (hw : w ≠ 0) (hκ : m' ≤ κ * |w|)
      (hs : (1 + u) ^ (κ * k') ≤ 3 / 2) (h : divN a b n = .ok (e, n')) : Writes σ e (v / w) (m / |w|) (k + 2 * (κ * k') + 2)
  | scalarDiv {b e w m' k' n n'} (c : ℝ) (κ : ℕ) (hb : Writes σ b w m' k') (hw : w ≠ 0) (hκ : m' ≤ κ * |w|) (hs : (1 + u) ^ (κ * k') ≤ 3 / 2)
      (h : sDiv (Fl.num A c) b n = .ok (e, n')) : Writes σ e (c / w) (|c| / |w|) (2 * (κ * k') + 2)
  | sin {a e v m k n n'} (ha : Writes σ a v m k) (h : sinN a n = .ok (e, n')) : Writes σ e (Real.sin v) (1 + m) (k + 2)
  | cos {a e v m k n n'} (ha : Writes σ a v m k) (h : cosN a n = .ok (e, n')) : Writes σ e (Real.cos v) (1 + m) (k + 2)

end Verif
