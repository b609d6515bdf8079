import Verif.Proofs.ExactEval
import Verif.Props.Binary64

/-!
# Exact evaluation in double precision (C77)

Formulas over integers and fixed-point numbers (multiples of a power of two) are evaluated without rounding error, as long as their sizes stay below `2^53`
units.
-/

set_option linter.unusedSectionVars false

namespace Verif

section
variable [Libm]

/-- **C77** A formula written with sums, differences, negations and products over numbers that are multiples of powers of two evaluates to exactly the
number it denotes, if the formula and its parts, with all terms taken absolutely, are at most `2^53` units. The simplifications made by the operators
(folding of constants, flattening of sums, distribution of factors over sums) change nothing. -/
theorem C77_exact {σ : Env F64} {e : Node F64} {z g : ℤ} {m : ℕ} (h : Computes σ e z g m) : (e.evaluate σ).HasValue (z * 2 ^ g) :=
  (computes_rep h).eval

/-- **C77** For integers: the unit is 1. -/
theorem C77_integers {σ : Env F64} {e : Node F64} {z : ℤ} {m : ℕ} (h : Computes σ e z 0 m) : (e.evaluate σ).HasValue z := by
  simpa using C77_exact h

/-- **C77** A constraint between two such formulas in the same unit, of at most `2^53` units together: the violation is exactly the distance by which the
relation between the denoted numbers is violated. -/
theorem C77_violation {σ : Env F64} (c : Constraint F64) {z w g : ℤ} {m m' : ℕ} (hl : Computes σ c.lhs z g m) (hr : Computes σ c.rhs w g m')
    (hm : Fits g (m + m')) : (c.violation σ).HasValue (violationQ c.kind (z * 2 ^ g) (w * 2 ^ g)) := by
  have h1 := C77_exact hl
  have h2 := C77_exact hr
  have hz := (computes_rep hl).abs_le
  have hw := (computes_rep hr).abs_le
  have key : ∀ {a b : F64} {x y : ℤ}, a.HasValue (x * 2 ^ g) → b.HasValue (y * 2 ^ g) → (x - y).natAbs ≤ m + m' →
      (a -. b).HasValue ((x : ℚ) * 2 ^ g - y * 2 ^ g) := by
    intro a b x y ha hb hxy
    have e1 : (x : ℚ) * 2 ^ g - y * 2 ^ g = ((x - y : ℤ) : ℚ) * 2 ^ g := by push_cast; ring
    have hd := hm.double hxy
    rw [← e1] at hd
    rcases F64.sub_value ha hb with ⟨-, h'⟩ | ⟨h', -⟩
    · rwa [round53_exact hd.form] at h'
    · exact absurd (F64.exact_lt hd) (not_lt.2 h')
  unfold Constraint.violation
  cases hk : c.kind with
  | equal => exact (F64.abs_value (key h1 h2 (by omega))).2 rfl
  | lessEqual => exact F64.max_zero_value (key h1 h2 (by omega))
  | greaterEqual => exact F64.max_zero_value (key h2 h1 (by omega))

/-- **C77** In particular the violation is zero exactly if the relation holds between the denoted integers. -/
theorem C77_satisfied {σ : Env F64} (c : Constraint F64) {z w g : ℤ} {m m' : ℕ} (hl : Computes σ c.lhs z g m) (hr : Computes σ c.rhs w g m') :
    (c.violation σ).HasValue 0 ↔ c.kind.Rel z w := by
  rw [C74_zero_iff c σ (C77_exact hl) (C77_exact hr)]
  have hp := two_zpow_pos g
  cases c.kind <;> simp only [CKind.Rel]
  · rw [mul_left_inj' hp.ne']
    exact_mod_cast Iff.rfl
  · rw [mul_le_mul_iff_left₀ hp]
    exact_mod_cast Iff.rfl
  · rw [mul_le_mul_iff_left₀ hp]
    exact_mod_cast Iff.rfl

end

section Examples
attribute [local instance] exLibm

/-- `x` and `y` at `x = 3`, `y = -1/4`. -/
def exFix : Env F64 := envD [(0, 3), (1, -1 / 4)]

/-- The value of a literal. -/
theorem lit_units {x : F64} {z g : ℤ} (h : x.value = some ((z : ℚ) * 2 ^ g)) : x.HasValue ((z : ℚ) * 2 ^ g) := F64.value_iff.1 h

theorem exFix_x : Computes exFix (.var 0 "x" .integer) 3 0 3 :=
  Computes.var (n := 0) (n' := 1) (z := 3) (a := dbl 3) rfl (by decide +kernel) (lit_units (by decide +kernel)) (by unfold Fits; decide)

theorem exFix_y : Computes exFix (.var 1 "y" .continuous) (-1) (-2) 1 :=
  Computes.var (n := 1) (n' := 2) (z := -1) (a := dbl (-1 / 4)) rfl (by decide +kernel) (lit_units (by decide +kernel)) (by unfold Fits; decide)

/-- `3 * x`, `y * y`, `(3 * x) - (y * y)` and `((3 * x) - (y * y)) + 0.5`, then that times -2. -/
def exFix1 := (gotD (sMul (dbl 3) (.var 0 "x" .integer) 2)).1
def exFix2 := (gotD (mulN (.var 1 "y" .continuous) (.var 1 "y" .continuous) 4)).1
def exFix3 := (gotD (subN exFix1 exFix2 5)).1
def exFix4 := (gotD (addS exFix3 (dbl 0.5) 8)).1
def exFix5 := (gotD (mulS (dbl (-2)) exFix4 12)).1

/-- Non-vacuity of C77: `((3 * x - y * y) + 0.5) * -2` at `x = 3`, `y = -1/4` is `-2 * (9 - 1/16 + 1/2) = -302/16`, computed exactly; the unit is
`2^-4`. -/
theorem exFix_formula : ∃ m, Computes exFix exFix5 (-302) (-4) m := by
  have h1 : Computes exFix exFix1 (3 * 3) (0 + 0) (3 * 3) :=
    .scalarMul (c := dbl 3) (k := 3) exFix_x (lit_units (by decide +kernel)) (by unfold Fits; decide) (gotD_ok (n := 2) (by decide +kernel))
  have h1' := Computes.finer 4 h1 (by unfold Fits; decide)
  have h2 : Computes exFix exFix2 (-1 * -1) (-2 + -2) (1 * 1) :=
    .mul exFix_y exFix_y (by unfold Fits; decide) (gotD_ok (n := 4) (by decide +kernel))
  have h3 : Computes exFix exFix3 (3 * 3 * 2 ^ 4 - -1 * -1) (-4) (3 * 3 * 2 ^ 4 + 1 * 1) :=
    .sub h1' h2 (by unfold Fits; decide) (gotD_ok (n := 5) (by decide +kernel))
  have h4 : Computes exFix exFix4 (3 * 3 * 2 ^ 4 - -1 * -1 + 8) (-4) (3 * 3 * 2 ^ 4 + 1 * 1 + 8) :=
    .addScalar (c := dbl 0.5) (k := 8) h3 (lit_units (by decide +kernel)) (by unfold Fits; decide) (gotD_ok (n := 8) (by decide +kernel))
  have h5 : Computes exFix exFix5 ((3 * 3 * 2 ^ 4 - -1 * -1 + 8) * -2) (-4 + 0) ((3 * 3 * 2 ^ 4 + 1 * 1 + 8) * Int.natAbs (-2)) :=
    .mulScalar (c := dbl (-2)) (k := -2) (g' := 0) h4 (lit_units (by decide +kernel)) (by unfold Fits; decide) (gotD_ok (n := 12) (by decide +kernel))
  exact ⟨_, by norm_num at h5; exact h5⟩

example : (exFix5.evaluate exFix).HasValue (-302 / 16) := by
  obtain ⟨m, h⟩ := exFix_formula
  have := C77_exact h
  norm_num at this ⊢
  exact this

/-- Beyond `2^53` units it is not exact: `x + 1` at `x = 2^53`. -/
example : ((gotD (addS (.var 0 "x" .integer) (dbl 1) 1)).1.evaluate (envD [(0, 2 ^ 53)])).value = some (2 ^ 53) := by decide +kernel

end Examples

end Verif
