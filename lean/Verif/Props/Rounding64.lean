import Verif.Proofs.Rounding64Ops
import Verif.Code.Constraint
import Verif.Spec.ExampleD
import Verif.Props.Rounding

/-!
# C79: how far rounding errors, in double precision, can take the value of an expression
-/

namespace Verif

set_option linter.unusedSectionVars false

section
variable [Libm]

/-- **C79** Write down a formula with the operators, whatever they simplify, fold, collect or distribute on the way, and evaluate the handle in IEEE
double precision. As long as the sizes in the formula stay below `2^1022`, the result is finite, and its distance from the exact real value of the formula is
at most `((1 + 2^-53)^k - 1) * m`. -/
theorem C79_error {σ : Env F64} {e : Node F64} {v m : ℝ} {k : ℕ} (h : Writes64 σ e v m k) :
    ∃ x, (e.evaluate σ).Is x ∧ |x - v| ≤ ((1 + 2 ^ (-53 : ℤ)) ^ k - 1) * m := by
  obtain ⟨h1, h2⟩ := R64.writes64_rep h
  obtain ⟨x, h3, h4, -⟩ := h1.eval h2
  exact ⟨x, h3, h4.1⟩

/-- The bound is at most `k * 2^-52 * m`. -/
theorem C79_simple {σ : Env F64} {e : Node F64} {v m : ℝ} {k : ℕ} (h : Writes64 σ e v m k) :
    ∃ x, (e.evaluate σ).Is x ∧ |x - v| ≤ k * 2 ^ (-52 : ℤ) * m := by
  obtain ⟨h1, h2⟩ := R64.writes64_rep h
  obtain ⟨x, h3, h4, -⟩ := h1.eval h2
  have key : ∀ j : ℕ, j ≤ 2 ^ 52 → (1 + uD) ^ j - 1 ≤ j * (2 * uD) := by
    intro j
    induction j with
    | zero => simp
    | succ j ih =>
      intro hj
      have h5 := ih (by omega)
      have h6 := mul_le_mul_of_nonneg_right (uD_pow_le (show j ≤ 2 ^ 52 by omega)) uD_nonneg
      push_cast
      rw [pow_succ]
      linarith
  have e0 : (2 : ℝ) ^ (-52 : ℤ) = 2 * uD := by unfold uD; norm_num
  rw [e0]
  exact ⟨x, h3, le_trans h4.1 (mul_le_mul_of_nonneg_right (key k h2.2) h4.nonneg)⟩

/-- In particular the result is neither infinite nor NaN. -/
theorem C79_finite {σ : Env F64} {e : Node F64} {v m : ℝ} {k : ℕ} (h : Writes64 σ e v m k) : (e.evaluate σ).value.isSome = true := by
  obtain ⟨x, ⟨q, hq, -⟩, -⟩ := C79_error h
  rw [F64.value_iff.2 hq]
  rfl

/-- Two ways of writing a formula give values within the sum of the two bounds. -/
theorem C79_two_ways {σ : Env F64} {e e' : Node F64} {v m m' : ℝ} {k k' : ℕ} (h : Writes64 σ e v m k) (h' : Writes64 σ e' v m' k') :
    ∃ x x', (e.evaluate σ).Is x ∧ (e'.evaluate σ).Is x' ∧ |x - x'| ≤ k * 2 ^ (-52 : ℤ) * m + k' * 2 ^ (-52 : ℤ) * m' := by
  obtain ⟨x, h1, h2⟩ := C79_simple h
  obtain ⟨x', h3, h4⟩ := C79_simple h'
  refine ⟨x, x', h1, h3, ?_⟩
  have e1 : x - x' = (x - v) + (v - x') := by ring
  rw [abs_sub_comm] at h4
  calc |x - x'| ≤ |x - v| + |v - x'| := by rw [e1]; exact abs_add_le _ _
    _ ≤ _ := add_le_add h2 h4

/-- The violation that the library reports for a constraint between two formulas is within the bound for the difference of the two sides. -/
theorem C79_violation {σ : Env F64} (c : Constraint F64) {v w m m' : ℝ} {k k' : ℕ} (hl : Writes64 σ c.lhs v m k) (hr : Writes64 σ c.rhs w m' k')
    (hm : m + m' ≤ maxSize) :
    ∃ x, (c.violation σ).Is x ∧ |x - exactViolation c.kind v w| ≤ ((1 + 2 ^ (-53 : ℤ)) ^ (max k k' + 1) - 1) * (m + m') := by
  obtain ⟨h1, h2⟩ := R64.writes64_rep hl
  obtain ⟨h3, h4⟩ := R64.writes64_rep hr
  obtain ⟨x, hx, hax, -⟩ := h1.eval h2
  obtain ⟨y, hy, hay, -⟩ := h3.eval h4
  have hR : InRange (m + m') (max k k') := ⟨hm, max_le h2.2 h4.2⟩
  have h2 := hax.mono uD_nonneg (le_max_left k k')
  have h4 := hay.mono uD_nonneg (le_max_right k k')
  have h5 := h2.sub h4
  have h6 := h4.sub h2
  rw [add_comm m' m] at h6
  obtain ⟨d, ⟨q, hd, rfl⟩, hd'⟩ := F64.is_sub hx hy (h5.bound hR)
  obtain ⟨d, ⟨r, hr, rfl⟩, hr'⟩ := F64.is_sub hy hx (h6.bound hR)
  have h5 := h5.round uD_nonneg hd'
  have h6 := h6.round uD_nonneg hr'
  unfold Constraint.violation
  cases c.kind with
  | equal => exact ⟨|(q : ℝ)|, ⟨|q|, (F64.abs_value hd).2 rfl, by push_cast; rfl⟩, le_trans (abs_abs_sub_abs_le_abs_sub _ _) h5.1⟩
  | lessEqual => exact ⟨max 0 (q : ℝ), ⟨max 0 q, F64.max_zero_value hd, by push_cast; rfl⟩, by
    refine le_trans ?_ h5.1
    simpa [exactViolation, max_comm] using abs_max_sub_max_le_abs (q : ℝ) (v - w) 0⟩
  | greaterEqual => exact ⟨max 0 (r : ℝ), ⟨max 0 r, F64.max_zero_value hr, by push_cast; rfl⟩, by
    refine le_trans ?_ h6.1
    simpa [exactViolation, max_comm] using abs_max_sub_max_le_abs (r : ℝ) (w - v) 0⟩

end

/-! ## Accurate mathematical libraries -/

/-- There is a double close to every real number between -1 and 1. -/
theorem double_near {y : ℝ} (hy : |y| ≤ 1) : ∃ (a : F64) (z : ℝ), a.Is z ∧ |z - y| ≤ 2 ^ (-52 : ℤ) := by
  obtain ⟨hy1, hy2⟩ := abs_le.1 hy
  have hp : (0 : ℝ) < 2 ^ (52 : ℤ) := by positivity
  have h1 := Int.floor_le (y * 2 ^ (52 : ℤ))
  have h2 := Int.lt_floor_add_one (y * 2 ^ (52 : ℤ))
  generalize ⌊y * 2 ^ (52 : ℤ)⌋ = t at h1 h2
  have e1 : (2 : ℝ) ^ (52 : ℤ) = 4503599627370496 := by norm_num
  have e2 : (2 : ℝ) ^ (-52 : ℤ) = 1 / 4503599627370496 := by norm_num
  rw [e1] at h1 h2
  have h3 : (-4503599627370497 : ℝ) < t := by linarith
  have h4 : (t : ℝ) ≤ 4503599627370496 := by linarith
  have h3 : (-4503599627370497 : ℤ) < t := by exact_mod_cast h3
  have h4 : t ≤ (4503599627370496 : ℤ) := by exact_mod_cast h4
  have ht : |t| < 2 ^ 53 := by rw [abs_lt]; constructor <;> linarith
  have hf : Form53 (t * 2 ^ (-52 : ℤ)) := ⟨t, -52, ht, by norm_num, rfl⟩
  have hb : |(t : ℚ) * 2 ^ (-52 : ℤ)| < 2 ^ (1024 : ℤ) - 2 ^ (970 : ℤ) := by
    have h5 : |(t : ℚ)| < 2 ^ 53 := by exact_mod_cast ht
    rw [abs_mul, abs_of_pos (two_zpow_pos _)]
    calc |(t : ℚ)| * 2 ^ (-52 : ℤ) ≤ 2 ^ 53 * 2 ^ (-52 : ℤ) := mul_le_mul_of_nonneg_right h5.le (two_zpow_pos _).le
      _ < _ := by decide +kernel
  rcases F64.ofRat_value false ((t : ℚ) * 2 ^ (-52 : ℤ)) with ⟨-, h⟩ | ⟨h, -⟩
  · rw [round53_exact hf] at h
    refine ⟨_, _, ⟨_, h, rfl⟩, ?_⟩
    push_cast
    rw [e2, abs_le]
    constructor <;> linarith
  · exact absurd hb (not_lt.2 h)

open Classical in
/-- The function that returns a double close to the value of `f`. -/
noncomputable def nearFn (f : ℝ → ℝ) (hf : ∀ x, |f x| ≤ 1) (a : F64) : F64 :=
  if h : ∃ x, a.Is x then (double_near (hf h.choose)).choose else .nan

theorem nearFn_spec (f : ℝ → ℝ) (hf : ∀ x, |f x| ≤ 1) {a : F64} {x : ℝ} (h : a.Is x) :
    ∃ z, (nearFn f hf a).Is z ∧ |z - f x| ≤ 2 ^ (-52 : ℤ) := by
  have h' : ∃ x, a.Is x := ⟨x, h⟩
  have he : h'.choose = x := @F64.Is.unique exLibm _ _ _ h'.choose_spec h
  unfold nearFn
  rw [dif_pos h']
  obtain ⟨z, h1, h2⟩ := (double_near (hf h'.choose)).choose_spec
  rw [he] at h2
  exact ⟨z, h1, h2⟩

/-- A mathematical library that rounds the real functions. -/
@[reducible] noncomputable def goodLibm : Libm := ⟨nearFn Real.sin Real.abs_sin_le_one, nearFn Real.cos Real.abs_cos_le_one⟩

/-- Non-vacuity of the accuracy assumption. -/
theorem goodLibm_good : @GoodLibm goodLibm := fun _ _ h => ⟨nearFn_spec Real.sin Real.abs_sin_le_one h, nearFn_spec Real.cos Real.abs_cos_le_one h⟩

theorem tauD_le_one : tauD ≤ 1 := zpow_le_one_of_nonpos₀ (by norm_num) (by norm_num)

theorem inRange_small {m : ℝ} {k : ℕ} (hm : m ≤ 1024) (hk : k ≤ 1024) : InRange m k := by
  refine ⟨le_trans hm ?_, le_trans hk (by norm_num)⟩
  unfold maxSize
  calc (1024 : ℝ) = 2 ^ (10 : ℤ) := by norm_num
    _ ≤ 2 ^ (1022 : ℤ) := zpow_le_zpow_right₀ (by norm_num) (by norm_num)

theorem F64.is_lit {a : F64} {q : ℚ} (h : a.value = some q) {x : ℝ} (hx : (q : ℝ) = x) : a.Is x := ⟨q, F64.value_iff.1 h, hx⟩

section Examples

/-! ### `sin (x * x)` at `x = 3`, with an accurate library -/

section
attribute [local instance] goodLibm

example : ∃ e, Writes64 (envD [(0, 3)]) e (Real.sin (3 * 3)) (1 + (|3| * |3| + ((1 : ℕ) + (1 : ℕ) + 1) * tauD)) (1 + 1 + 2 + 3) := by
  have ht := tauD_le_one
  have hx : Writes64 (envD [(0, 3)]) (.var 0 "x" .continuous) 3 |3| 1 :=
    .var (n := 0) (n' := 1) (c := dbl 3) rfl rfl (F64.is_lit (q := 3) (by decide +kernel) (by norm_num)) (inRange_small (by norm_num) (by norm_num))
  have h1 := Writes64.mul (n := 1) (n' := 2) hx hx (inRange_small (by norm_num; linarith) (by norm_num)) rfl
  exact ⟨_, Writes64.sin (n := 2) (n' := 3) goodLibm_good h1 (inRange_small (by norm_num; linarith) (by norm_num)) rfl⟩

end

/-! ### `(x / 3 + y) * 10` at `x = 1`, `y = 1` -/

section
attribute [local instance] exLibm

/-- `x / 3`, `x / 3 + y`, `(x / 3 + y) * 10` -/
def exThird1 := (gotD (divS (.var 0 "x" .continuous) (dbl 3) 2)).1
def exThird2 := (gotD (addN exThird1 (.var 1 "y" .continuous) 4)).1
def exThird3 := (gotD (mulS (dbl 10) exThird2 5)).1

theorem exThird : Writes64 (envD [(0, 1), (1, 1)]) exThird3 ((1 / 3 + 1) * 10) ((|1| / |3| + tauD + |1|) * |10| + (1 + 2 + 1 + 1 : ℕ) * tiny 10) (1 + 2 + 1 + 1 + 1) := by
  have ht := tauD_le_one
  have ht10 : tiny 10 = 0 := by have := tiny_int 10; push_cast at this; exact this
  have hx : Writes64 (envD [(0, 1), (1, 1)]) (.var 0 "x" .continuous) 1 |1| 1 :=
    .var (n := 0) (n' := 1) (c := dbl 1) rfl (by decide +kernel) (F64.is_lit (q := 1) (by decide +kernel) (by norm_num)) (inRange_small (by norm_num) (by norm_num))
  have hy : Writes64 (envD [(0, 1), (1, 1)]) (.var 1 "y" .continuous) 1 |1| 1 :=
    .var (n := 1) (n' := 2) (c := dbl 1) rfl (by decide +kernel) (F64.is_lit (q := 1) (by decide +kernel) (by norm_num)) (inRange_small (by norm_num) (by norm_num))
  have h1 : Writes64 (envD [(0, 1), (1, 1)]) exThird1 (1 / 3) (|1| / |3| + tauD) (1 + 2) :=
    .divScalar (c := dbl 3) hx (F64.is_lit (q := 3) (by decide +kernel) (by norm_num)) (inRange_small (by norm_num; linarith) (by norm_num))
      (gotD_ok (n := 2) (by decide +kernel))
  have h2 : Writes64 (envD [(0, 1), (1, 1)]) exThird2 (1 / 3 + 1) (|1| / |3| + tauD + |1|) (1 + 2 + 1 + 1) :=
    .add (k := 1 + 2) (k' := 1) h1 hy (inRange_small (by norm_num; linarith) (by norm_num)) (gotD_ok (n := 4) (by decide +kernel))
  exact .mulScalar (c := dbl 10) h2 (F64.is_lit (q := 10) (by decide +kernel) (by norm_num)) (inRange_small (by rw [ht10]; norm_num; linarith) (by norm_num))
      (gotD_ok (n := 5) (by decide +kernel))

/-- The library distributes the product over the sum; the result is not `40/3` but within `2^-46` of it. -/
example : ((exThird3.evaluate (envD [(0, 1), (1, 1)])).value.map fun q => decide (q = 40 / 3)) = some false := by decide +kernel

example : ∃ x, (exThird3.evaluate (envD [(0, 1), (1, 1)])).Is x ∧ |x - (1 / 3 + 1) * 10| ≤ 2 ^ (-45 : ℤ) := by
  obtain ⟨x, h1, h2⟩ := C79_simple exThird
  refine ⟨x, h1, le_trans h2 ?_⟩
  have ht : tauD ≤ 1 / 15 := le_trans (zpow_le_zpow_right₀ (by norm_num) (by norm_num : (-1022 : ℤ) ≤ -4)) (by norm_num)
  have ht10 : tiny 10 = 0 := by have := tiny_int 10; push_cast at this; exact this
  rw [ht10]
  norm_num
  linarith

end

end Examples

end Verif
