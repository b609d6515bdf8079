import Verif.Proofs.Binary64Ops
import Verif.Spec.World
import Verif.Spec.Feasible
import Verif.Spec.ExampleD

/-!
# Violations of constraints in double precision (C74)

In `f64`, with its infinities, NaN, signed zeros, subnormal numbers and rounding.
-/

set_option linter.unusedSectionVars false

namespace Verif

section
variable [Libm]

/-- The exact violation of a constraint between the values `x` and `y`. -/
def violationQ (kind : CKind) (x y : ℚ) : ℚ :=
  match kind with
  | .equal => |x - y|
  | .lessEqual => max 0 (x - y)
  | .greaterEqual => max 0 (y - x)

/-- C74: at an assignment where both sides of a constraint are finite doubles `x` and `y`, the violation is zero exactly if the relation holds between `x`
and `y`: the rounding of `x - y` never hides a violation and never invents one. -/
theorem C74_zero_iff (c : Constraint F64) (σ : Env F64) {x y : ℚ} (ha : (c.lhs.evaluate σ).HasValue x) (hb : (c.rhs.evaluate σ).HasValue y) :
    (c.violation σ).HasValue 0 ↔ c.kind.Rel x y := by
  unfold Constraint.violation
  cases hk : c.kind with
  | equal =>
    simp only [CKind.Rel]
    rcases F64.sub_value ha hb with ⟨-, h⟩ | ⟨h, h'⟩
    · rw [F64.abs_value h, abs_eq_zero, round53_eq_zero (F64.grid_sub ha hb), sub_eq_zero]
    · rw [h']
      refine ⟨fun h => h.elim, fun he => ?_⟩
      rw [he, sub_self, abs_zero] at h
      exact absurd h (by decide +kernel)
  | lessEqual =>
    simp only [CKind.Rel]
    exact F64.max_sub_zero ha hb
  | greaterEqual =>
    simp only [CKind.Rel, ge_iff_le]
    exact F64.max_sub_zero hb ha

/-- C74: the violation is the exact one up to a relative error of `2^-53`, unless it is so large that it overflows: then it is infinite. -/
theorem C74_accuracy (c : Constraint F64) (σ : Env F64) {x y : ℚ} (ha : (c.lhs.evaluate σ).HasValue x) (hb : (c.rhs.evaluate σ).HasValue y) :
    (violationQ c.kind x y < 2 ^ (1024 : ℤ) - 2 ^ (970 : ℤ) ∧ ∃ v, (c.violation σ).HasValue v ∧ 0 ≤ v ∧
        |v - violationQ c.kind x y| ≤ 2 ^ (-53 : ℤ) * violationQ c.kind x y) ∨
      (2 ^ (1024 : ℤ) - 2 ^ (970 : ℤ) ≤ violationQ c.kind x y ∧ c.violation σ = .inf false) := by
  unfold Constraint.violation
  cases hk : c.kind with
  | equal =>
    simp only [violationQ]
    rcases F64.sub_value ha hb with ⟨h, h'⟩ | ⟨h, h'⟩
    · refine .inl ⟨h, _, (F64.abs_value h').2 rfl, abs_nonneg _, ?_⟩
      exact le_trans (abs_abs_sub_abs_le_abs_sub _ _) (round53_rel_err (.inl (F64.grid_sub ha hb)))
    · rw [h']
      exact .inr ⟨h, rfl⟩
  | lessEqual => exact F64.max_sub_accuracy ha hb
  | greaterEqual => exact F64.max_sub_accuracy hb ha

/-- C74: if the two sides are within a factor of two of each other the violation is exact. -/
theorem C74_exact (c : Constraint F64) (σ : Env F64) {x y : ℚ} (ha : (c.lhs.evaluate σ).HasValue x) (hb : (c.rhs.evaluate σ).HasValue y)
    (hx : |x| ≤ 2 * |y|) (hy : |y| ≤ 2 * |x|) (hs : 0 ≤ x * y) : (c.violation σ).HasValue (violationQ c.kind x y) := by
  have hf : Form53 (x - y) := sterbenz (F64.form_of_value ha) (F64.form_of_value hb) hx hy hs
  have hxy := round53_exact hf
  have hyx : round53 (y - x) = y - x := by rw [← neg_sub, round53_neg, hxy]
  have hsmall : |x - y| < 2 ^ (1024 : ℤ) - 2 ^ (970 : ℤ) := F64.sub_small ha hb hs
  unfold Constraint.violation
  cases hk : c.kind with
  | equal =>
    rcases F64.sub_value ha hb with ⟨h, h'⟩ | ⟨h, h'⟩
    · rw [hxy] at h'
      exact (F64.abs_value h').2 rfl
    · exact absurd hsmall (not_lt.2 h)
  | lessEqual =>
    rcases F64.sub_value ha hb with ⟨h, h'⟩ | ⟨h, h'⟩
    · rw [hxy] at h'
      exact F64.max_zero_value h'
    · exact absurd hsmall (not_lt.2 h)
  | greaterEqual =>
    rcases F64.sub_value hb ha with ⟨h, h'⟩ | ⟨h, h'⟩
    · rw [hyx] at h'
      exact F64.max_zero_value h'
    · rw [abs_sub_comm] at h
      exact absurd hsmall (not_lt.2 h)

/-- C74: the violation is never negative, whatever the two sides evaluate to. -/
theorem C74_nonneg (c : Constraint F64) (σ : Env F64) : (c.violation σ <. zero) = false := by
  unfold Constraint.violation
  cases c.kind with
  | equal => exact F64.abs_not_neg _
  | lessEqual => exact F64.max_not_neg _
  | greaterEqual => exact F64.max_not_neg _

/-- C74: for inequalities the violation is zero exactly if the comparison of the two doubles is true, infinite sides included. -/
theorem C74_inequality (c : Constraint F64) (σ : Env F64) (ha : c.lhs.evaluate σ ≠ .nan) (hb : c.rhs.evaluate σ ≠ .nan) :
    (c.kind = .lessEqual → (c.violation σ ==. zero) = (c.lhs.evaluate σ <=. c.rhs.evaluate σ)) ∧
    (c.kind = .greaterEqual → (c.violation σ ==. zero) = (c.rhs.evaluate σ <=. c.lhs.evaluate σ)) := by
  refine ⟨fun hk => ?_, fun hk => ?_⟩ <;> unfold Constraint.violation <;> simp only [hk]
  · exact F64.max_sub_le ha hb
  · exact F64.max_sub_le hb ha

/-- C74: for equations the violation is zero exactly if the two doubles are equal and finite; for equal infinities it is NaN. -/
theorem C74_equation (c : Constraint F64) (σ : Env F64) (hk : c.kind = .equal) :
    (c.violation σ ==. zero) = (c.lhs.evaluate σ ==. c.rhs.evaluate σ && (c.lhs.evaluate σ).isFinite) ∧
    (∀ s, c.lhs.evaluate σ = .inf s → c.rhs.evaluate σ = .inf s → c.violation σ = .nan) := by
  unfold Constraint.violation
  simp only [hk]
  refine ⟨F64.abs_sub_eq _ _, fun s h1 h2 => ?_⟩
  rw [h1, h2]
  cases s <;> rfl

/-- C74: if a side is NaN, the violation of an equation is NaN, and that of an inequality is zero although the comparison is false. -/
theorem C74_nan (c : Constraint F64) (σ : Env F64) (h : c.lhs.evaluate σ = .nan ∨ c.rhs.evaluate σ = .nan) :
    c.violation σ = match c.kind with | .equal => .nan | .lessEqual => zero | .greaterEqual => zero := by
  have h1 : ∀ a : F64, F64.add a .nan = .nan := by intro a; cases a <;> rfl
  have h2 : ∀ a : F64, a -. .nan = .nan := h1
  have h3 : ∀ a : F64, .nan -. a = .nan := fun _ => rfl
  unfold Constraint.violation
  rcases h with h | h <;> rw [h] <;> cases c.kind <;> simp only [h2, h3] <;> rfl

end

section Examples
attribute [local instance] exLibm

/-- The constraints of the examples: `x + 0.2 == 0.3`, `x + 0.2 <= 0.3`, `x <= y` and `x * y >= 1e300`. -/
def exD : List (Cmd F64) := [.expr (.var "x" .continuous), .expr (.var "y" .continuous), .expr (.addScalar 0 (dbl 0.2)), .expr (.mul 0 1),
  .cmpNodeScalar .equal 2 (dbl 0.3) "eq", .cmpNodeScalar .lessEqual 2 (dbl 0.3) "le", .cmpNodeNode .lessEqual 0 1 "xy",
  .cmpNodeScalar .greaterEqual 3 (dbl (10 ^ 300)) "big"]

/-- Non-vacuity of C74: at `x = 0.1` the sides of `x + 0.2 == 0.3` are different doubles, and the violation is their exact difference `2^-54`. -/
example :
    let c := (worldD exD).cs[0]!
    let σ := envD [(0, 0.1), (1, 0)]
    (c.lhs.evaluate σ).value = some (5404319552844596 / 2 ^ 54) ∧ (c.rhs.evaluate σ).value = some (5404319552844595 / 2 ^ 54) ∧
    c.kind = .equal ∧ (c.violation σ).value = some (1 / 2 ^ 54) ∧
    (((worldD exD).cs[1]!).violation σ).value = some (1 / 2 ^ 54) := by decide +kernel

/-- The smallest difference counts: with the smallest positive double for `x` and 0 for `y`, `x <= y` is violated; the other way round it holds. -/
example :
    let c := (worldD exD).cs[2]!
    (c.violation (envD [(0, 1 / 2 ^ 1074), (1, 0)])).value = some (1 / 2 ^ 1074) ∧
    (c.violation (envD [(0, 0), (1, 1 / 2 ^ 1074)])).value = some 0 := by decide +kernel

/-- Non-vacuity of the infinite cases: `x * y` overflows to minus infinity, which violates `x * y >= 1e300` infinitely; plus infinity satisfies it. -/
example :
    let c := (worldD exD).cs[3]!
    c.lhs.evaluate (envD [(0, -10 ^ 200), (1, 10 ^ 200)]) = .inf true ∧ c.violation (envD [(0, -10 ^ 200), (1, 10 ^ 200)]) = .inf false ∧
    (c.violation (envD [(0, 10 ^ 200), (1, 10 ^ 200)])).value = some 0 := by decide +kernel

/-- Non-vacuity of the case of NaN: `y` has no value, and `x <= y` is not reported as violated. -/
example :
    let c := (worldD exD).cs[2]!
    c.rhs.evaluate (envD [(0, 7)]) = .nan ∧ (c.lhs.evaluate (envD [(0, 7)])).value = some 7 ∧
    (c.violation (envD [(0, 7)])).value = some 0 := by decide +kernel

end Examples

end Verif
