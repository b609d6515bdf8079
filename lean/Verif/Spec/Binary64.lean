import Mathlib.Data.Int.Log
import Mathlib.Data.Rat.Floor
import Mathlib.Tactic.Linarith
import Mathlib.Tactic.Ring
import Mathlib.Tactic.FieldSimp
import Mathlib.Tactic.NormNum
import Mathlib.Tactic.Positivity
import Verif.Code.Base

/-!
# IEEE 754 double precision

The numbers of `f64`, with infinities, NaN, signed zeros, subnormal numbers and rounding to nearest, ties to even.
-/

namespace Verif

/-- The finite numbers of double precision: multiples `m * 2^e` with at most 53 bits, smaller than `2^1024`, and no finer than `2^-1074`. -/
def IsDouble (q : ℚ) : Prop := |q| < 2 ^ (1024 : ℤ) ∧ ∃ m e : ℤ, |m| < 2 ^ 53 ∧ -1074 ≤ e ∧ q = m * 2 ^ e

/-- The nearest integer; of two nearest ones the even one. -/
def nearestEven (q : ℚ) : ℤ :=
  if q - ⌊q⌋ < 1 / 2 then ⌊q⌋
  else if 1 / 2 < q - ⌊q⌋ then ⌊q⌋ + 1
  else if ⌊q⌋ % 2 = 0 then ⌊q⌋ else ⌊q⌋ + 1

/-- The exponent of the last of the 53 bits of `q`, or that of the subnormal numbers. -/
def lastBit (q : ℚ) : ℤ := max (Int.log 2 |q| - 52) (-1074)

/-- Rounding to 53 bits, to nearest and ties to even, without an upper limit of the exponent. -/
def round53 (q : ℚ) : ℚ := nearestEven (q / 2 ^ lastBit q) * 2 ^ lastBit q

/-- `f64`: NaN, the infinities, and the finite numbers as sign and absolute value (so zero has a sign). -/
inductive F64 where
  | nan
  | inf (neg : Bool)
  | fin (neg : Bool) (q : ℚ) (h : 0 ≤ q ∧ IsDouble q)

/-- The value of a sign and an absolute value. -/
def signedQ (neg : Bool) (q : ℚ) : ℚ := if neg then -q else q

/-- Natural numbers below `2^53` are doubles. -/
theorem double_nat {n : ℕ} (h : n < 2 ^ 53) : 0 ≤ (n : ℚ) ∧ IsDouble n := by
  refine ⟨Nat.cast_nonneg n, ?_, n, 0, ?_, by norm_num, by simp⟩
  · rw [abs_of_nonneg (Nat.cast_nonneg n)]
    refine lt_of_lt_of_le (b := (2 : ℚ) ^ (53 : ℤ)) (by exact_mod_cast h) (zpow_le_zpow_right₀ (by norm_num) (by norm_num))
  · rw [abs_of_nonneg (by positivity)]
    exact_mod_cast h

theorem double_zero : 0 ≤ (0 : ℚ) ∧ IsDouble 0 := by simpa using double_nat (n := 0) (by norm_num)

theorem double_one : 0 ≤ (1 : ℚ) ∧ IsDouble 1 := by simpa using double_nat (n := 1) (by norm_num)

theorem double_inf : 0 ≤ (10 ^ 8 : ℚ) ∧ IsDouble (10 ^ 8) := by
  have := double_nat (n := 10 ^ 8) (by norm_num)
  push_cast at this
  exact this

theorem nearestEven_err (q : ℚ) : |(nearestEven q : ℚ) - q| ≤ 1 / 2 := by
  have h1 := Int.floor_le q
  have h2 := Int.lt_floor_add_one q
  unfold nearestEven
  split_ifs <;> push_cast <;> rw [abs_le] <;> constructor <;> linarith

theorem nearestEven_nonneg {q : ℚ} (h : 0 ≤ q) : 0 ≤ nearestEven q := by
  have := Int.floor_nonneg.2 h
  unfold nearestEven
  split_ifs <;> omega

theorem two_zpow_pos (e : ℤ) : (0 : ℚ) < 2 ^ e := zpow_pos (by norm_num) e

theorem abs_lt_lastBit (q : ℚ) : |q| < 2 ^ (lastBit q + 53) := by
  rcases eq_or_ne q 0 with rfl | hq
  · simpa using two_zpow_pos _
  have h1 : |q| < (2 : ℕ) ^ (Int.log 2 |q| + 1) := Int.lt_zpow_succ_log_self (by norm_num) |q|
  refine lt_of_lt_of_le h1 ?_
  push_cast
  refine zpow_le_zpow_right₀ (by norm_num) ?_
  have := le_max_left (Int.log 2 |q| - 52) (-1074)
  unfold lastBit
  omega

theorem lastBit_ge (q : ℚ) : -1074 ≤ lastBit q := le_max_right _ _

theorem round53_nonneg {q : ℚ} (h : 0 ≤ q) : 0 ≤ round53 q :=
  mul_nonneg (by exact_mod_cast nearestEven_nonneg (div_nonneg h (two_zpow_pos _).le)) (two_zpow_pos _).le

/-- The result of rounding has at most 53 bits. -/
theorem round53_form (q : ℚ) : ∃ m e : ℤ, |m| < 2 ^ 53 ∧ -1074 ≤ e ∧ round53 q = m * 2 ^ e := by
  have h1 := nearestEven_err (q / 2 ^ lastBit q)
  have h2 : |q / 2 ^ lastBit q| < 2 ^ 53 := by
    rw [abs_div, abs_of_pos (two_zpow_pos _), div_lt_iff₀ (two_zpow_pos _)]
    have := abs_lt_lastBit q
    rw [zpow_add₀ (by norm_num)] at this
    rw [mul_comm]
    exact this
  have h3 : |nearestEven (q / 2 ^ lastBit q)| ≤ 2 ^ 53 := by
    have : |(nearestEven (q / 2 ^ lastBit q) : ℚ)| < 2 ^ 53 + 1 := by
      have e1 : (nearestEven (q / 2 ^ lastBit q) : ℚ) = (nearestEven (q / 2 ^ lastBit q) - q / 2 ^ lastBit q) + q / 2 ^ lastBit q := by ring
      have := abs_add_le ((nearestEven (q / 2 ^ lastBit q) : ℚ) - q / 2 ^ lastBit q) (q / 2 ^ lastBit q)
      rw [← e1] at this
      linarith
    have : |nearestEven (q / 2 ^ lastBit q)| < 2 ^ 53 + 1 := by exact_mod_cast this
    omega
  rcases lt_or_eq_of_le h3 with h | h
  · exact ⟨_, _, h, lastBit_ge q, rfl⟩
  · refine ⟨(nearestEven (q / 2 ^ lastBit q)).sign * 2 ^ 52, lastBit q + 1, ?_, by have := lastBit_ge q; omega, ?_⟩
    · rw [abs_mul]
      have : |(nearestEven (q / 2 ^ lastBit q)).sign| ≤ 1 := by
        rcases Int.sign_trichotomy (nearestEven (q / 2 ^ lastBit q)) with h | h | h <;> rw [h] <;> decide
      calc _ ≤ 1 * |(2 : ℤ) ^ 52| := mul_le_mul_of_nonneg_right this (abs_nonneg _)
        _ < _ := by norm_num
    · rw [round53, zpow_add₀ (by norm_num)]
      have e1 := Int.sign_mul_abs (nearestEven (q / 2 ^ lastBit q))
      rw [h] at e1
      have e2 : (nearestEven (q / 2 ^ lastBit q) : ℚ) = (nearestEven (q / 2 ^ lastBit q)).sign * 2 ^ 53 := by
        exact_mod_cast e1.symm
      rw [e2]
      push_cast
      ring

/-- The double of a rational number: `neg` is the sign of the result if the number is zero. -/
def F64.ofRat (neg : Bool) (x : ℚ) : F64 :=
  let s := if x = 0 then neg else decide (x < 0)
  if h : round53 |x| < 2 ^ (1024 : ℤ) then
    .fin s (round53 |x|) ⟨round53_nonneg (abs_nonneg x), by rw [abs_of_nonneg (round53_nonneg (abs_nonneg x))]; exact h, round53_form _⟩
  else .inf s

/-- A mathematical library: what `sin` and `cos` return is not specified by IEEE 754. -/
class Libm where
  sin : F64 → F64
  cos : F64 → F64

namespace F64

/-- `-a`: the sign is flipped. -/
def neg : F64 → F64
  | nan => nan
  | inf s => inf !s
  | fin s q h => fin (!s) q h

/-- `a + b` -/
def add : F64 → F64 → F64
  | nan, _ => nan
  | _, nan => nan
  | inf s, inf t => if s = t then inf s else nan
  | inf s, fin .. => inf s
  | fin .., inf t => inf t
  | fin s q _, fin t r _ => ofRat (s && t) (signedQ s q + signedQ t r)

/-- `a * b` -/
def mul : F64 → F64 → F64
  | nan, _ => nan
  | _, nan => nan
  | inf s, inf t => inf (s ^^ t)
  | inf s, fin t r _ => if r = 0 then nan else inf (s ^^ t)
  | fin s q _, inf t => if q = 0 then nan else inf (s ^^ t)
  | fin s q _, fin t r _ => ofRat (s ^^ t) (signedQ s q * signedQ t r)

/-- `a / b` -/
def div : F64 → F64 → F64
  | nan, _ => nan
  | _, nan => nan
  | inf _, inf _ => nan
  | inf s, fin t _ _ => inf (s ^^ t)
  | fin s _ _, inf t => fin (s ^^ t) 0 double_zero
  | fin s q _, fin t r _ => if r = 0 then (if q = 0 then nan else inf (s ^^ t)) else ofRat (s ^^ t) (signedQ s q / signedQ t r)

/-- `a.abs()` -/
def abs : F64 → F64
  | nan => nan
  | inf _ => inf false
  | fin _ q h => fin false q h

/-- `a < b` -/
def lt : F64 → F64 → Bool
  | nan, _ => false
  | _, nan => false
  | inf s, inf t => s && !t
  | inf s, fin .. => s
  | fin .., inf t => !t
  | fin s q _, fin t r _ => decide (signedQ s q < signedQ t r)

/-- `a == b` -/
def eq : F64 → F64 → Bool
  | inf s, inf t => s == t
  | fin s q _, fin t r _ => decide (signedQ s q = signedQ t r)
  | _, _ => false

end F64

/-- The operations of the code on doubles. `a.max(b)` ignores NaN (which of two equal numbers it returns, if they are zeros with different signs, is not
specified; here the second). -/
instance [Libm] : FloatOps F64 where
  zero := .fin false 0 double_zero
  one := .fin false 1 double_one
  inf := .fin false (10 ^ 8) double_inf
  nan := .nan
  add := F64.add
  sub a b := F64.add a (F64.neg b)
  mul := F64.mul
  div := F64.div
  neg := F64.neg
  abs := F64.abs
  max a b := match a, b with
    | .nan, b => b
    | a, .nan => a
    | a, b => if F64.lt b a then a else b
  sin := Libm.sin
  cos := Libm.cos
  eq := F64.eq
  lt := F64.lt
  le a b := F64.lt a b || F64.eq a b

/-- The finite double `a` has the value `x`. -/
def F64.HasValue : F64 → ℚ → Prop
  | .fin s q _, x => signedQ s q = x
  | _, _ => False

/-- A decidable form of `HasValue`. -/
def F64.value : F64 → Option ℚ
  | .fin s q _ => some (signedQ s q)
  | _ => none

theorem F64.value_iff {a : F64} {x : ℚ} : a.value = some x ↔ a.HasValue x := by
  cases a <;> simp [F64.value, F64.HasValue]

/-- The value of a double, 0 if it is not finite. -/
def F64.val (a : F64) : ℚ := a.value.getD 0

/-- `a.is_finite()` -/
def F64.isFinite : F64 → Bool
  | .fin .. => true
  | _ => false

/-- The last of the 53 bits of a double is zero. -/
def EvenDouble (q : ℚ) : Prop := ∃ m e : ℤ, |m| ≤ 2 ^ 52 ∧ -1073 ≤ e ∧ q = m * 2 ^ e

/-- What IEEE 754 requires of the result `a` of an operation with the exact result `x`, in the default rounding direction: numbers from
`2^1024 - 2^970` on overflow to an infinity; otherwise the result is a finite double, none is closer, and of two equally close ones it is the one whose
last bit is zero. The sign is that of `x`. -/
def F64.RoundsTo (x : ℚ) : F64 → Prop
  | .nan => False
  | .inf s => 2 ^ (1024 : ℤ) - 2 ^ (970 : ℤ) ≤ |x| ∧ s = decide (x < 0)
  | .fin s q _ => |x| < 2 ^ (1024 : ℤ) - 2 ^ (970 : ℤ) ∧ (x ≠ 0 → s = decide (x < 0)) ∧
      ∀ z, IsDouble z → |signedQ s q - x| ≤ |z - x| ∧ (|z - x| = |signedQ s q - x| → z ≠ signedQ s q → EvenDouble (signedQ s q))

end Verif
