import Verif.Proofs.Rounding
import Verif.Code.Constraint
import Mathlib.Tactic.NormNum

/-!
# C64: how far rounding errors can take the value of an expression
-/

namespace Verif

set_option linter.unusedSectionVars false

variable {u : ℝ} {A : FlArith u}

/-- **C64** Write down a formula with the operators, whatever they simplify, fold, collect or distribute on the way. Evaluated in any arithmetic with
relative errors of at most `u` per operation, the handle gives a number, and its distance from the exact value of the formula is at most
`((1 + u)^k - 1) * m`: the usual bound for evaluating the formula as it was written. -/
theorem C64_error (hu : 0 ≤ u) (σ : Env (Fl A)) {e : Node (Fl A)} {v m : ℝ} {k : ℕ} (h : Writes σ e v m k) :
    ∃ x, e.evaluate σ = Fl.num A x ∧ |x - v| ≤ ((1 + u) ^ k - 1) * m := by
  obtain ⟨x, h1, h2, -⟩ := (writes_rep hu h).eval hu
  exact ⟨x, h1, h2.1⟩

/-- The factor of the bound is Higham's `γ_k = k u / (1 - k u)`. -/
theorem C64_gamma (hu : 0 ≤ u) (σ : Env (Fl A)) {e : Node (Fl A)} {v m : ℝ} {k : ℕ} (h : Writes σ e v m k) (hk : k * u < 1) :
    ∃ x, e.evaluate σ = Fl.num A x ∧ |x - v| ≤ k * u / (1 - k * u) * m := by
  obtain ⟨x, h1, h2, -⟩ := (writes_rep hu h).eval hu
  refine ⟨x, h1, le_trans h2.1 (mul_le_mul_of_nonneg_right ?_ h2.nonneg)⟩
  have key : ∀ j : ℕ, j * u < 1 → (1 + u) ^ j * (1 - j * u) ≤ 1 := by
    intro j
    induction j with
    | zero => simp
    | succ j ih =>
      intro hj
      push_cast at hj ⊢
      have h3 := ih (by nlinarith)
      have h4 : (0 : ℝ) ≤ (1 + u) ^ j := pow_nonneg (by linarith) j
      have h5 : (1 + u) * (1 - (j + 1) * u) ≤ 1 - j * u := by
        have : (0 : ℝ) ≤ j := Nat.cast_nonneg j
        nlinarith [mul_nonneg this (mul_nonneg hu hu), mul_nonneg hu hu]
      calc (1 + u) ^ (j + 1) * (1 - (j + 1) * u) = (1 + u) ^ j * ((1 + u) * (1 - (j + 1) * u)) := by ring
        _ ≤ (1 + u) ^ j * (1 - j * u) := mul_le_mul_of_nonneg_left h5 h4
        _ ≤ 1 := h3
  have h3 := key k hk
  have h4 : (0 : ℝ) < 1 - k * u := by linarith
  rw [le_div_iff₀ h4]
  linarith

/-- Without rounding errors the value is exact. -/
theorem C64_exact {A : FlArith 0} (σ : Env (Fl A)) {e : Node (Fl A)} {v m : ℝ} {k : ℕ} (h : Writes σ e v m k) :
    e.evaluate σ = Fl.num A v := by
  obtain ⟨x, h1, h2⟩ := C64_error le_rfl σ h
  have : x - v = 0 := by
    have h3 : |x - v| ≤ 0 := by simpa using h2
    exact abs_eq_zero.1 (le_antisymm h3 (abs_nonneg _))
  rw [h1, sub_eq_zero.1 this]

/-- Two ways of writing a formula give values within the sum of the two bounds. -/
theorem C64_two_ways (hu : 0 ≤ u) (σ : Env (Fl A)) {e e' : Node (Fl A)} {v m m' : ℝ} {k k' : ℕ} (h : Writes σ e v m k) (h' : Writes σ e' v m' k') :
    ∃ x x', e.evaluate σ = Fl.num A x ∧ e'.evaluate σ = Fl.num A x' ∧ |x - x'| ≤ ((1 + u) ^ k - 1) * m + ((1 + u) ^ k' - 1) * m' := by
  obtain ⟨x, h1, h2⟩ := C64_error hu σ h
  obtain ⟨x', h3, h4⟩ := C64_error hu σ h'
  refine ⟨x, x', h1, h3, ?_⟩
  have e1 : x - x' = (x - v) + (v - x') := by ring
  rw [abs_sub_comm] at h4
  calc |x - x'| ≤ |x - v| + |v - x'| := by rw [e1]; exact abs_add_le _ _
    _ ≤ _ := add_le_add h2 h4

/-! ## Violations of constraints -/

/-- The exact violation of a constraint between the values `v` and `w`. -/
noncomputable def exactViolation (kind : CKind) (v w : ℝ) : ℝ :=
  match kind with
  | .equal => |v - w|
  | .lessEqual => max 0 (v - w)
  | .greaterEqual => max 0 (w - v)

/-- The violation that the library reports for a constraint between two formulas is within the bound for the difference of the two sides. -/
theorem C64_violation (hu : 0 ≤ u) (σ : Env (Fl A)) (c : Constraint (Fl A)) {v w m m' : ℝ} {k k' : ℕ} (hl : Writes σ c.lhs v m k)
    (hr : Writes σ c.rhs w m' k') :
    ∃ x, c.violation σ = Fl.num A x ∧ |x - exactViolation c.kind v w| ≤ ((1 + u) ^ (max k k' + 1) - 1) * (m + m') := by
  obtain ⟨x, h1, h2, -⟩ := (writes_rep hu hl).eval hu
  obtain ⟨y, h3, h4, -⟩ := (writes_rep hu hr).eval hu
  have h2 := h2.mono hu (le_max_left k k')
  have h4 := h4.mono hu (le_max_right k k')
  have h5 := (h2.sub h4).round hu (A.sub_err x y)
  have h6 := (h4.sub h2).round hu (A.sub_err y x)
  rw [add_comm m' m] at h6
  unfold Constraint.violation
  rw [h1, h3]
  cases c.kind with
  | equal => exact ⟨|A.sub x y|, rfl, le_trans (abs_abs_sub_abs_le_abs_sub _ _) h5.1⟩
  | lessEqual => exact ⟨max 0 (A.sub x y), rfl, by
    refine le_trans ?_ h5.1
    simpa [exactViolation, max_comm] using abs_max_sub_max_le_abs (A.sub x y) (v - w) 0⟩
  | greaterEqual => exact ⟨max 0 (A.sub y x), rfl, by
    refine le_trans ?_ h6.1
    simpa [exactViolation, max_comm] using abs_max_sub_max_le_abs (A.sub y x) (w - v) 0⟩

/-! ## An example: `2 * (x + 3) - x * y` in an arithmetic in which every result is too large by an eighth -/

/-- Every result is too large by an eighth. -/
noncomputable def eighth : FlArith (1 / 8) where
  add a b := 9 / 8 * (a + b)
  sub a b := 9 / 8 * (a - b)
  mul a b := 9 / 8 * (a * b)
  div a b := 9 / 8 * (a / b)
  sin a := 9 / 8 * Real.sin a
  cos a := 9 / 8 * Real.cos a
  add_err a b := by rw [show 9 / 8 * (a + b) - (a + b) = 1 / 8 * (a + b) by ring, abs_mul]; norm_num
  sub_err a b := by rw [show 9 / 8 * (a - b) - (a - b) = 1 / 8 * (a - b) by ring, abs_mul]; norm_num
  mul_err a b := by rw [show 9 / 8 * (a * b) - a * b = 1 / 8 * (a * b) by ring, abs_mul]; norm_num
  div_err a b _ := by rw [show 9 / 8 * (a / b) - a / b = 1 / 8 * (a / b) by ring, abs_mul]; norm_num
  sin_err a := by rw [show 9 / 8 * Real.sin a - Real.sin a = 1 / 8 * Real.sin a by ring, abs_mul]; norm_num
  cos_err a := by rw [show 9 / 8 * Real.cos a - Real.cos a = 1 / 8 * Real.cos a by ring, abs_mul]; norm_num

/-- `x = 2`, `y = 4` -/
noncomputable def eighthEnv : Env (Fl eighth)
  | 0 => some (Fl.num eighth 2)
  | 1 => some (Fl.num eighth 4)
  | _ => none

/-- The handle of the variable `x`. -/
noncomputable def eighthX : Node (Fl eighth) := .var 0 "x" .continuous
/-- The handle of the variable `y`. -/
noncomputable def eighthY : Node (Fl eighth) := .var 1 "y" .continuous
/-- The handle that `x + 3` returns. -/
noncomputable def eighthS : Node (Fl eighth) := .add 4 [eighthX, .const 3 (Fl.num eighth (27 / 8))]
/-- The handle that `2 * (x + 3)` returns. -/
noncomputable def eighthT : Node (Fl eighth) := .add 8 [.mul 6 (.const 5 (Fl.num eighth 2)) eighthX, .const 7 (Fl.num eighth (243 / 32))]

/-- The handle that `2 * (x + 3) - x * y` returns. -/
noncomputable def eighthE : Node (Fl eighth) :=
  .add 13 [.mul 6 (.const 5 (Fl.num eighth 2)) eighthX, .mul 11 (.const 10 (Fl.num eighth (-1))) (.mul 9 eighthX eighthY), .const 12 (Fl.num eighth (2187 / 256))]

theorem eighth_eq_false {x y : ℝ} (h : x ≠ y) : (Fl.num eighth x ==. Fl.num eighth y) = false := by
  have := mt (Fl.eq_num (A := eighth) (x := x) (y := y)).1 h
  simpa using this

/-- The formula is written with `k = 10` and `m = 2 * (2 + 3) + 2 * 4 = 18`; its exact value is 2. -/
example : ∃ e, Writes eighthEnv e (2 * (2 + 3) - 2 * 4) (|2| * (|2| + |3|) + |2| * |4|) ((1 + 2 + 1) + (1 + 1 + 2) + 2) := by
  have hx : Writes eighthEnv eighthX 2 |2| 1 := .var (n := 0) rfl rfl
  have hy : Writes eighthEnv eighthY 4 |4| 1 := .var (n := 1) rfl rfl
  have hs : Writes eighthEnv eighthS (2 + 3) (|2| + |3|) (1 + 2) := by
    refine .addScalar (n := 2) (n' := 5) 3 hx ?_
    have h3 : FloatOps.add (Fl.num eighth 0) (Fl.num eighth 3) = Fl.num eighth (27 / 8) := by
      show Fl.num eighth (9 / 8 * (0 + 3)) = _; norm_num
    simp [addS, eighth_eq_false, M.bind, gather, eighthX, h3, finishAdd, newAdd, M.fresh, M.pure, newConst, eighthS]
  have ht : Writes eighthEnv eighthT (2 * (2 + 3)) (|2| * (|2| + |3|)) (1 + 2 + 1) := by
    refine .scalarMul (n := 5) (n' := 9) 2 hs ?_
    have h3 : FloatOps.mul (Fl.num eighth 2) (Fl.num eighth (27 / 8)) = Fl.num eighth (243 / 32) := by
      show Fl.num eighth (9 / 8 * (2 * (27 / 8))) = _; norm_num
    simp [sMul, sMul.sMulL, eighth_eq_false, M.bind, eighthX, h3, newAdd, newMul, M.fresh, M.pure, newConst, eighthS, eighthT]
  have hp : Writes eighthEnv (.mul 9 eighthX eighthY) (2 * 4) (|2| * |4|) (1 + 1 + 2) := .mul (n := 9) (n' := 10) hx hy rfl
  refine ⟨eighthE, ?_⟩
  have : subN eighthT (.mul 9 eighthX eighthY) 10 = .ok (eighthE, 14) := ?_
  · exact Writes.sub (k := 1 + 2 + 1) (k' := 1 + 1 + 2) ht hp this
  have h3 : FloatOps.add (Fl.num eighth 0) (Fl.num eighth (243 / 32)) = Fl.num eighth (2187 / 256) := by
    show Fl.num eighth (9 / 8 * (0 + 243 / 32)) = _; norm_num
  simp [subN, sMul, addN, Node.isConstVal, gather, gatherArgs, finishAdd, eighth_eq_false, eighth_eq_false (show (-1 : ℝ) ≠ 1 by norm_num), M.bind, eighthX, eighthY, h3, newAdd, newMul, M.fresh,
    M.pure, newConst, eighthT, eighthE]

/-- Its value in this arithmetic is not 2, and within the bound. -/
example : ∃ x, eighthE.evaluate eighthEnv = Fl.num eighth x ∧ x ≠ 2 ∧ |x - 2| ≤ ((1 + 1 / 8) ^ 10 - 1) * 18 := by
  refine ⟨9 / 8 * (9 / 8 * (9 / 8 * (0 + 9 / 8 * (2 * 2)) + 9 / 8 * (-1 * (9 / 8 * (2 * 4)))) + 2187 / 256), ?_, by norm_num, ?_⟩
  · rfl
  · rw [abs_le]; constructor <;> norm_num

/-- A quotient: the divisor `y` has condition number one. -/
example : Writes eighthEnv (.div 2 eighthX eighthY) (2 / 4) (|2| / |4|) (1 + 2 * (1 * 1) + 2) := by
  have hx : Writes eighthEnv eighthX 2 |2| 1 := .var (n := 0) rfl rfl
  have hy : Writes eighthEnv eighthY 4 |4| 1 := .var (n := 1) rfl rfl
  exact .div (n := 2) (n' := 3) 1 hx hy (by norm_num) (by norm_num) (by norm_num) rfl

/-- The constraint `x ≥ y` is violated by 2; the report is off by an eighth of that. -/
example : ∃ c : Constraint (Fl eighth), geqNN eighthX eighthY "" 2 = .ok (c, 3) ∧ Writes eighthEnv c.lhs 2 |2| 1 ∧ Writes eighthEnv c.rhs 4 |4| 1 ∧
    exactViolation c.kind 2 4 = 2 ∧ c.violation eighthEnv = Fl.num eighth (9 / 4) := by
  refine ⟨_, rfl, .var (n := 0) rfl rfl, .var (n := 1) rfl rfl, by norm_num [exactViolation], ?_⟩
  show Fl.num eighth (max 0 (9 / 8 * (4 - 2))) = _
  norm_num

end Verif
