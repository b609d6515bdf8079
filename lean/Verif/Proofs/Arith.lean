import Verif.Spec.Exact
import Verif.Proofs.Monad

/-! # Laws of the exact scalars -/

namespace Verif

variable {K : Type} [Field K] [LinearOrder K] [Trig K]

namespace Exact

@[simp] theorem add_some (a b : K) : (some a +. some b : Option K) = some (a + b) := rfl
@[simp] theorem add_none_left (b : Option K) : (none +. b : Option K) = none := rfl
@[simp] theorem add_none_right (a : Option K) : (a +. none : Option K) = none := by cases a <;> rfl
@[simp] theorem sub_some (a b : K) : (some a -. some b : Option K) = some (a - b) := rfl
@[simp] theorem sub_none_left (b : Option K) : (none -. b : Option K) = none := rfl
@[simp] theorem sub_none_right (a : Option K) : (a -. none : Option K) = none := by cases a <;> rfl
@[simp] theorem mul_some (a b : K) : (some a *. some b : Option K) = some (a * b) := rfl
@[simp] theorem mul_none_left (b : Option K) : (none *. b : Option K) = none := rfl
@[simp] theorem mul_none_right (a : Option K) : (a *. none : Option K) = none := by cases a <;> rfl
@[simp] theorem div_none_left (b : Option K) : (none /. b : Option K) = none := rfl
@[simp] theorem div_none_right (a : Option K) : (a /. none : Option K) = none := by cases a <;> rfl
theorem div_some (a b : K) : (some a /. some b : Option K) = if b = 0 then none else some (a / b) := rfl
theorem div_some_ne (a : K) {b : K} (h : b ≠ 0) : (some a /. some b : Option K) = some (a / b) := by
  simp [div_some, h]
@[simp] theorem zero_def : (zero : Option K) = some 0 := rfl
@[simp] theorem one_def : (one : Option K) = some 1 := rfl
@[simp] theorem nan_def : (nan : Option K) = none := rfl
@[simp] theorem inf_def : (inf : Option K) = some (10 ^ 8) := rfl
@[simp] theorem negOne_def : (negOne : Option K) = some (-1) := rfl
@[simp] theorem neg_some (a : K) : (FloatOps.neg (some a) : Option K) = some (-a) := rfl
@[simp] theorem neg_none : (FloatOps.neg none : Option K) = none := rfl
@[simp] theorem sin_some (a : K) : (FloatOps.sin (some a) : Option K) = some (Trig.sin a) := rfl
@[simp] theorem sin_none : (FloatOps.sin none : Option K) = none := rfl
@[simp] theorem cos_some (a : K) : (FloatOps.cos (some a) : Option K) = some (Trig.cos a) := rfl
@[simp] theorem cos_none : (FloatOps.cos none : Option K) = none := rfl
@[simp] theorem eq_some (a b : K) : ((some a : Option K) ==. some b) = decide (a = b) := rfl
@[simp] theorem eq_none_left (b : Option K) : ((none : Option K) ==. b) = false := rfl
@[simp] theorem eq_none_right (a : Option K) : (a ==. (none : Option K)) = false := by cases a <;> rfl
@[simp] theorem le_some (a b : K) : ((some a : Option K) <=. some b) = decide (a ≤ b) := rfl
@[simp] theorem le_none_left (b : Option K) : ((none : Option K) <=. b) = false := rfl
@[simp] theorem le_none_right (a : Option K) : (a <=. (none : Option K)) = false := by cases a <;> rfl
@[simp] theorem lt_some (a b : K) : ((some a : Option K) <. some b) = decide (a < b) := rfl
@[simp] theorem lt_none_left (b : Option K) : ((none : Option K) <. b) = false := rfl
@[simp] theorem lt_none_right (a : Option K) : (a <. (none : Option K)) = false := by cases a <;> rfl

theorem eq_iff {a b : Option K} : (a ==. b) = true ↔ ∃ x, a = some x ∧ b = some x := by
  cases a <;> cases b <;> simp [eq_comm]

theorem eq_zero_iff {a : Option K} : (a ==. some 0) = true ↔ a = some 0 := by
  cases a <;> simp

theorem eq_one_iff {a : Option K} : (a ==. some 1) = true ↔ a = some 1 := by
  cases a <;> simp

theorem oadd_assoc (a b c : Option K) : (a +. b +. c) = (a +. (b +. c)) := by
  cases a <;> cases b <;> cases c <;> simp [add_assoc]

theorem oadd_comm (a b : Option K) : (a +. b) = (b +. a) := by
  cases a <;> cases b <;> simp [add_comm]

theorem oadd_left_comm (a b c : Option K) : (a +. (b +. c)) = (b +. (a +. c)) := by
  rw [← oadd_assoc, oadd_comm a b, oadd_assoc]

@[simp] theorem oadd_zero (a : Option K) : (a +. some 0) = a := by cases a <;> simp
@[simp] theorem ozero_add (a : Option K) : (some 0 +. a) = a := by cases a <;> simp
@[simp] theorem oone_mul (a : Option K) : (some 1 *. a) = a := by cases a <;> simp
@[simp] theorem omul_one (a : Option K) : (a *. some 1) = a := by cases a <;> simp

theorem omul_comm (a b : Option K) : (a *. b) = (b *. a) := by
  cases a <;> cases b <;> simp [mul_comm]

theorem omul_assoc (a b c : Option K) : (a *. b *. c) = (a *. (b *. c)) := by
  cases a <;> cases b <;> cases c <;> simp [mul_assoc]

theorem oadd_mul (a b c : Option K) : ((a +. b) *. c) = (a *. c +. b *. c) := by
  cases a <;> cases b <;> cases c <;> simp [add_mul]

theorem omul_add (a b c : Option K) : (c *. (a +. b)) = (c *. a +. c *. b) := by
  cases a <;> cases b <;> cases c <;> simp [mul_add]

theorem osub_eq (a b : Option K) : (a -. b) = (a +. (some (-1) *. b)) := by
  cases a <;> cases b <;> simp [sub_eq_add_neg]

theorem add_eq_some {a b : Option K} {c : K} : (a +. b) = some c ↔ ∃ x y, a = some x ∧ b = some y ∧ x + y = c := by
  cases a <;> cases b <;> simp

theorem mul_eq_some {a b : Option K} {c : K} : (a *. b) = some c ↔ ∃ x y, a = some x ∧ b = some y ∧ x * y = c := by
  cases a <;> cases b <;> simp

theorem div_eq_some {a b : Option K} {c : K} :
    (a /. b) = some c ↔ ∃ x y, a = some x ∧ b = some y ∧ y ≠ 0 ∧ x / y = c := by
  cases a <;> cases b <;> simp [div_some]

theorem sin_eq_some {a : Option K} {c : K} : (FloatOps.sin a : Option K) = some c ↔ ∃ x, a = some x ∧ Trig.sin x = c := by
  cases a <;> simp

theorem cos_eq_some {a : Option K} {c : K} : (FloatOps.cos a : Option K) = some c ↔ ∃ x, a = some x ∧ Trig.cos x = c := by
  cases a <;> simp

end Exact

end Verif
