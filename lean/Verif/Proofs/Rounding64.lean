import Mathlib.Analysis.Complex.ExponentialBounds
import Verif.Proofs.Rounding
import Verif.Proofs.Binary64Ops
import Verif.Proofs.ExactRep
import Verif.Spec.Rounding64

/-! # Rounding errors in double precision: the operations -/

set_option linter.unusedSectionVars false

namespace Verif

theorem uD_pos : 0 < uD := zpow_pos (by norm_num) _
theorem uD_nonneg : 0 ≤ uD := uD_pos.le
theorem tauD_nonneg : 0 ≤ tauD := (zpow_pos (by norm_num) _).le
theorem tiny_nonneg (c : ℝ) : 0 ≤ tiny c := by unfold tiny; split_ifs; exacts [le_rfl, tauD_nonneg]
theorem tiny_le (c : ℝ) : tiny c ≤ tauD := by unfold tiny; split_ifs; exacts [tauD_nonneg, le_rfl]
theorem tiny_int (z : ℤ) : tiny z = 0 := if_pos ⟨z, rfl⟩
theorem maxSize_pos : 0 < maxSize := zpow_pos (by norm_num) _

theorem uD_pow_le {k : ℕ} (h : k ≤ 2 ^ 52) : (1 + uD) ^ k ≤ 2 := by
  have h1 : (1 + uD) ^ k ≤ Real.exp (1 / 2) := by
    calc (1 + uD) ^ k ≤ Real.exp uD ^ k := pow_le_pow_left₀ (by have := uD_pos; linarith) (by have := Real.add_one_le_exp uD; linarith) k
      _ = Real.exp (k * uD) := by rw [← Real.exp_nat_mul]
      _ ≤ Real.exp (1 / 2) := by
        rw [Real.exp_le_exp]
        have h2 : (k : ℝ) ≤ 2 ^ 52 := by exact_mod_cast h
        calc (k : ℝ) * uD ≤ 2 ^ 52 * uD := mul_le_mul_of_nonneg_right h2 uD_nonneg
          _ = 1 / 2 := by unfold uD; norm_num
  have h3 : Real.exp (1 / 2) * Real.exp (1 / 2) ≤ 2 * 2 := by
    rw [← Real.exp_add]
    norm_num
    have := Real.exp_one_lt_d9
    linarith
  have h4 := Real.exp_pos (1 / 2)
  nlinarith

theorem uD_pow_le' {k : ℕ} (h : k ≤ 2 ^ 51) : (1 + uD) ^ k ≤ 3 / 2 := by
  have h1 : (1 + uD) ^ k ≤ Real.exp (1 / 4) := by
    calc (1 + uD) ^ k ≤ Real.exp uD ^ k := pow_le_pow_left₀ (by have := uD_pos; linarith) (by have := Real.add_one_le_exp uD; linarith) k
      _ = Real.exp (k * uD) := by rw [← Real.exp_nat_mul]
      _ ≤ Real.exp (1 / 4) := by
        rw [Real.exp_le_exp]
        have h2 : (k : ℝ) ≤ 2 ^ 51 := by exact_mod_cast h
        calc (k : ℝ) * uD ≤ 2 ^ 51 * uD := mul_le_mul_of_nonneg_right h2 uD_nonneg
          _ = 1 / 4 := by unfold uD; norm_num
  have h4 := Real.exp_pos (1 / 4)
  have h3 : Real.exp (1 / 4) ^ 4 ≤ (3 / 2) ^ 4 := by
    rw [← Real.exp_nat_mul]
    norm_num
    have := Real.exp_one_lt_d9
    linarith
  exact le_trans h1 (le_of_pow_le_pow_left₀ (by norm_num) (by norm_num) h3)

theorem InRange.mono {m m' : ℝ} {k k' : ℕ} (h : InRange m' k') (hm : m ≤ m') (hk : k ≤ k') : InRange m k := ⟨le_trans hm h.1, le_trans hk h.2⟩

theorem Approx.bound {x v m : ℝ} {k : ℕ} (h : Approx uD x v m k) (hR : InRange m k) : |x| ≤ 2 * maxSize := by
  have e2 : |x| ≤ |x - v| + |v| := by
    have : x = (x - v) + v := by ring
    calc |x| = |(x - v) + v| := by rw [← this]
      _ ≤ _ := abs_add_le _ _
  have e3 := h.1
  have e4 := h.2
  have e5 := h.nonneg
  have e6 := mul_le_mul_of_nonneg_right (uD_pow_le hR.2) e5
  have e7 := hR.1
  linarith

theorem Approx.grow {u x v m m' : ℝ} {k : ℕ} (hu : 0 ≤ u) (h : Approx u x v m k) (hm : m ≤ m') : Approx u x v m' k :=
  ⟨le_trans h.1 (mul_le_mul_of_nonneg_left hm (eps_nonneg hu k)), le_trans h.2 hm⟩

/-- Rounding with underflow. -/
theorem Approx.roundT {u x z v m θ : ℝ} {k : ℕ} (hu : 0 ≤ u) (h : Approx u x v m k) (hθ : θ ≤ m) (hz : |z - x| ≤ u * max |x| θ) : Approx u z v m (k + 1) := by
  refine ⟨?_, h.2⟩
  have e1 : z - v = (z - x) + (x - v) := by ring
  have e2 : |x| ≤ |x - v| + |v| := by
    have : x = (x - v) + v := by ring
    calc |x| = |(x - v) + v| := by rw [← this]
      _ ≤ _ := abs_add_le _ _
  have e3 := h.1
  have e4 := h.2
  have e6 : 0 ≤ ((1 + u) ^ k - 1) * m := mul_nonneg (eps_nonneg hu k) h.nonneg
  have e5 : u * max |x| θ ≤ u * (((1 + u) ^ k - 1) * m + m) := mul_le_mul_of_nonneg_left (max_le (by linarith) (by linarith)) hu
  calc |z - v| ≤ |z - x| + |x - v| := by rw [e1]; exact abs_add_le _ _
    _ ≤ u * (((1 + u) ^ k - 1) * m + m) + ((1 + u) ^ k - 1) * m := by linarith
    _ = ((1 + u) ^ (k + 1) - 1) * m := by ring

/-! ## The operations -/

theorem big_lt : (2 : ℚ) * 2 ^ (1022 : ℤ) < 2 ^ (1024 : ℤ) - 2 ^ (970 : ℤ) := by decide +kernel

theorem lt_threshold {q : ℚ} (h : |(q : ℝ)| ≤ 2 * maxSize) : |q| < 2 ^ (1024 : ℤ) - 2 ^ (970 : ℤ) := by
  have : |q| ≤ 2 * 2 ^ (1022 : ℤ) := by
    unfold maxSize at h
    exact_mod_cast h
  exact lt_of_le_of_lt this big_lt

theorem real_err {q r : ℚ} (h : |r - q| ≤ 2 ^ (-53 : ℤ) * |q|) : |(r : ℝ) - q| ≤ uD * |(q : ℝ)| := by
  have h' : ((|r - q| : ℚ) : ℝ) ≤ ((2 ^ (-53 : ℤ) * |q| : ℚ) : ℝ) := Rat.cast_le.2 h
  rw [Rat.cast_abs, Rat.cast_sub, Rat.cast_mul, Rat.cast_abs, Rat.cast_zpow, Rat.cast_ofNat] at h'
  exact h'

theorem round53_under (q : ℚ) : |round53 q - q| ≤ 2 ^ (-53 : ℤ) * max |q| (2 ^ (-1022 : ℤ)) := by
  rcases eq_or_ne q 0 with rfl | hq
  · rw [round53_zero, sub_self, abs_zero]
    exact mul_nonneg (two_zpow_pos _).le (le_max_left _ _)
  rcases le_or_gt (2 ^ (-1022 : ℤ)) |q| with h | h
  · exact le_trans (round53_rel_err (.inr h)) (mul_le_mul_of_nonneg_left (le_max_left _ _) (two_zpow_pos _).le)
  · refine le_trans (round53_abs_err q) ?_
    have h1 : lastBit q = -1074 := by
      unfold lastBit
      rw [max_eq_right]
      have := log_lt hq h
      omega
    rw [h1, max_eq_right h.le, ← zpow_add₀ (by norm_num), div_le_iff₀ (by norm_num)]
    have : (2 : ℚ) ^ (-53 + -1022 : ℤ) * 2 = 2 ^ (-1074 : ℤ) := by
      rw [← zpow_add_one₀ (by norm_num)]
      norm_num
    rw [this]

theorem real_errT {q r : ℚ} (h : |r - q| ≤ 2 ^ (-53 : ℤ) * max |q| (2 ^ (-1022 : ℤ))) : |(r : ℝ) - q| ≤ uD * max |(q : ℝ)| tauD := by
  have h' : ((|r - q| : ℚ) : ℝ) ≤ ((2 ^ (-53 : ℤ) * max |q| (2 ^ (-1022 : ℤ)) : ℚ) : ℝ) := Rat.cast_le.2 h
  rw [Rat.cast_abs, Rat.cast_sub, Rat.cast_mul, Rat.cast_max, Rat.cast_abs, Rat.cast_zpow, Rat.cast_zpow, Rat.cast_ofNat] at h'
  exact h'

open Classical in
/-- What a product of the numbers `c` and `x` can lose by underflow: nothing if `c` is an integer or `x` is zero. -/
noncomputable def tinyAt (c x : ℝ) : ℝ := if x = 0 then 0 else tiny c

open Classical in
/-- What a quotient of `x` can lose by underflow. -/
noncomputable def tauAt (x : ℝ) : ℝ := if x = 0 then 0 else tauD

theorem tinyAt_le (c x : ℝ) : tinyAt c x ≤ tiny c := by unfold tinyAt; split_ifs; exacts [tiny_nonneg c, le_rfl]
theorem tinyAt_nonneg (c x : ℝ) : 0 ≤ tinyAt c x := by unfold tinyAt; split_ifs; exacts [le_rfl, tiny_nonneg c]
theorem tauAt_le (x : ℝ) : tauAt x ≤ tauD := by unfold tauAt; split_ifs; exacts [tauD_nonneg, le_rfl]

namespace F64

variable [Libm]

theorem Is.unique {a : F64} {x y : ℝ} (h : a.Is x) (h' : a.Is y) : x = y := by
  obtain ⟨q, h1, rfl⟩ := h
  obtain ⟨r, h2, rfl⟩ := h'
  rw [F64.value_unique h1 h2]

theorem is_zero : (zero : F64).Is 0 := ⟨0, F64.zero_value, by norm_num⟩
theorem is_one : (one : F64).Is 1 := ⟨1, F64.one_value, by norm_num⟩
theorem is_negOne : (negOne : F64).Is (-1) := ⟨-1, F64.negOne_value, by norm_num⟩

theorem is_eqz {a : F64} : (a ==. zero) = true ↔ a.Is 0 := by
  rw [F64.eq_zero_iff]
  constructor
  · intro h; exact ⟨0, h, by norm_num⟩
  · rintro ⟨q, h, hq⟩
    have : q = 0 := by exact_mod_cast hq
    rwa [this] at h

theorem eqz_num {a : F64} {x : ℝ} (h : a.Is x) : (a ==. zero) = true ↔ x = 0 := by
  rw [is_eqz]
  exact ⟨fun h' => h.unique h', fun h' => h' ▸ h⟩

theorem is_eqo {a : F64} : (a ==. one) = true ↔ a.Is 1 := by
  cases a with
  | nan => exact ⟨fun h => (Bool.false_ne_true h).elim, fun ⟨q, h, _⟩ => h.elim⟩
  | inf s => exact ⟨fun h => (Bool.false_ne_true h).elim, fun ⟨q, h, _⟩ => h.elim⟩
  | fin s q hq =>
    have h1 : (F64.fin s q hq).HasValue (signedQ s q) := rfl
    rw [F64.eqo h1]
    constructor
    · intro h; exact ⟨1, by rw [← h]; exact h1, by norm_num⟩
    · rintro ⟨r, h, hr⟩
      have : r = 1 := by exact_mod_cast hr
      rw [this] at h
      exact h

theorem eqo_num {a : F64} {x : ℝ} (h : a.Is x) : (a ==. one) = true ↔ x = 1 := by
  rw [is_eqo]
  exact ⟨fun h' => h.unique h', fun h' => h' ▸ h⟩

theorem is_add {a b : F64} {x y : ℝ} (ha : a.Is x) (hb : b.Is y) (h : |x + y| ≤ 2 * maxSize) : ∃ z, (a +. b).Is z ∧ |z - (x + y)| ≤ uD * |x + y| := by
  obtain ⟨q, ha, rfl⟩ := ha
  obtain ⟨r, hb, rfl⟩ := hb
  rw [← Rat.cast_add] at h ⊢
  rcases F64.add_value ha hb with ⟨-, h'⟩ | ⟨h', -⟩
  · exact ⟨_, ⟨_, h', rfl⟩, real_err (round53_rel_err (.inl ((F64.form_of_value ha).grid.add (F64.form_of_value hb).grid)))⟩
  · exact absurd (lt_threshold h) (not_lt.2 h')

theorem is_sub {a b : F64} {x y : ℝ} (ha : a.Is x) (hb : b.Is y) (h : |x - y| ≤ 2 * maxSize) : ∃ z, (a -. b).Is z ∧ |z - (x - y)| ≤ uD * |x - y| := by
  obtain ⟨q, ha, rfl⟩ := ha
  obtain ⟨r, hb, rfl⟩ := hb
  rw [← Rat.cast_sub] at h ⊢
  rcases F64.sub_value ha hb with ⟨-, h'⟩ | ⟨h', -⟩
  · exact ⟨_, ⟨_, h', rfl⟩, real_err (round53_rel_err (.inl (F64.grid_sub ha hb)))⟩
  · exact absurd (lt_threshold h) (not_lt.2 h')

theorem is_mul {a b : F64} {x y : ℝ} (ha : a.Is x) (hb : b.Is y) (h : |x * y| ≤ 2 * maxSize) :
    ∃ z, (a *. b).Is z ∧ |z - x * y| ≤ uD * max |x * y| tauD := by
  obtain ⟨q, ha, rfl⟩ := ha
  obtain ⟨r, hb, rfl⟩ := hb
  rw [← Rat.cast_mul] at h ⊢
  rcases F64.mul_value ha hb with ⟨-, h'⟩ | ⟨h', -⟩
  · exact ⟨_, ⟨_, h', rfl⟩, real_errT (round53_under _)⟩
  · exact absurd (lt_threshold h) (not_lt.2 h')

theorem grid_int {q : ℚ} (h : OnGrid q) (z : ℤ) : OnGrid (z * q) := by
  obtain ⟨m, rfl⟩ := h
  exact ⟨z * m, by rw [Int.cast_mul, mul_assoc]⟩

/-- A product with a number. -/
theorem is_scale' {a b : F64} {c x : ℝ} (ha : a.Is c) (hb : b.Is x) (h : |c * x| ≤ 2 * maxSize) :
    (∃ z, (a *. b).Is z ∧ |z - c * x| ≤ uD * max |c * x| (tiny c)) ∧ ∃ z, (b *. a).Is z ∧ |z - c * x| ≤ uD * max |c * x| (tiny c) := by
  by_cases hz : ∃ z : ℤ, c = z
  · obtain ⟨q, ha, rfl⟩ := ha
    obtain ⟨r, hb, rfl⟩ := hb
    obtain ⟨z, hz⟩ := hz
    have hq : q = z := by exact_mod_cast hz
    have e0 : max |(q : ℝ) * r| (tiny q) = |((q * r : ℚ) : ℝ)| := by
      rw [hz, tiny_int, max_eq_left (abs_nonneg _)]
      push_cast
      rw [hz]
    have hg : OnGrid (q * r) := by rw [hq]; exact grid_int (F64.form_of_value hb).grid z
    rw [e0]
    rw [← Rat.cast_mul] at h ⊢
    constructor
    · rcases F64.mul_value ha hb with ⟨-, h'⟩ | ⟨h', -⟩
      · exact ⟨_, ⟨_, h', rfl⟩, real_err (round53_rel_err (.inl hg))⟩
      · exact absurd (lt_threshold h) (not_lt.2 h')
    · rcases F64.mul_value hb ha with ⟨-, h'⟩ | ⟨h', -⟩
      · rw [mul_comm r q] at h'
        exact ⟨_, ⟨_, h', rfl⟩, real_err (round53_rel_err (.inl hg))⟩
      · rw [mul_comm] at h'
        exact absurd (lt_threshold h) (not_lt.2 h')
  · have e0 : tiny c = tauD := if_neg hz
    rw [e0]
    refine ⟨is_mul ha hb h, ?_⟩
    rw [mul_comm] at h ⊢
    exact is_mul hb ha h

theorem is_scale {a b : F64} {c x : ℝ} (ha : a.Is c) (hb : b.Is x) (h : |c * x| ≤ 2 * maxSize) :
    (∃ z, (a *. b).Is z ∧ |z - c * x| ≤ uD * max |c * x| (tinyAt c x)) ∧ ∃ z, (b *. a).Is z ∧ |z - c * x| ≤ uD * max |c * x| (tinyAt c x) := by
  by_cases hx : x = 0
  · subst hx
    obtain ⟨q, ha, rfl⟩ := ha
    obtain ⟨r, hb, hr⟩ := hb
    have hr : r = 0 := by exact_mod_cast hr
    subst hr
    have h0 : IsDouble 0 := double_zero.2
    have e1 := F64.mul_exact ha hb (by rw [mul_zero]; exact h0)
    have e2 := F64.mul_exact hb ha (by rw [zero_mul]; exact h0)
    rw [mul_zero] at e1
    rw [zero_mul] at e2
    have e3 : |(0 : ℝ) - (q : ℝ) * 0| ≤ uD * max |(q : ℝ) * 0| (tinyAt q 0) := by
      rw [mul_zero, sub_zero, abs_zero]; exact mul_nonneg uD_nonneg (le_max_left _ _)
    exact ⟨⟨0, ⟨0, e1, by norm_num⟩, e3⟩, ⟨0, ⟨0, e2, by norm_num⟩, e3⟩⟩
  · rw [show tinyAt c x = tiny c from if_neg hx]
    exact is_scale' ha hb h

theorem is_div' {a b : F64} {x y : ℝ} (ha : a.Is x) (hb : b.Is y) (hy : y ≠ 0) (h : |x / y| ≤ 2 * maxSize) :
    ∃ z, (a /. b).Is z ∧ |z - x / y| ≤ uD * max |x / y| tauD := by
  obtain ⟨q, ha, rfl⟩ := ha
  obtain ⟨r, hb, rfl⟩ := hb
  rw [← Rat.cast_div] at h ⊢
  rcases F64.div_value ha hb (by exact_mod_cast hy) with ⟨-, h'⟩ | ⟨h', -⟩
  · exact ⟨_, ⟨_, h', rfl⟩, real_errT (round53_under _)⟩
  · exact absurd (lt_threshold h) (not_lt.2 h')

theorem is_div {a b : F64} {x y : ℝ} (ha : a.Is x) (hb : b.Is y) (hy : y ≠ 0) (h : |x / y| ≤ 2 * maxSize) :
    ∃ z, (a /. b).Is z ∧ |z - x / y| ≤ uD * max |x / y| (tauAt x) := by
  by_cases hx : x = 0
  · subst hx
    obtain ⟨q, ha, hq⟩ := ha
    obtain ⟨r, hb, rfl⟩ := hb
    have hq : q = 0 := by exact_mod_cast hq
    subst hq
    have e1 := F64.div_exact ha hb (by exact_mod_cast hy) (by rw [zero_div]; exact double_zero.2)
    rw [zero_div] at e1
    refine ⟨0, ⟨0, e1, by norm_num⟩, ?_⟩
    rw [zero_div, sub_zero, abs_zero]; exact mul_nonneg uD_nonneg (le_max_left _ _)
  · rw [show tauAt x = tauD from if_neg hx]
    exact is_div' ha hb hy h

end F64

end Verif
