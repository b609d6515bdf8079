import Verif.Spec.Binary64

/-! # Facts about rounding to double precision -/

namespace Verif

/-- A number with 53 bits, of any size. -/
def Form53 (q : ℚ) : Prop := ∃ m e : ℤ, |m| < 2 ^ 53 ∧ -1074 ≤ e ∧ q = m * 2 ^ e

theorem IsDouble.form {q : ℚ} (h : IsDouble q) : Form53 q := h.2

theorem nearestEven_int (m : ℤ) : nearestEven m = m := by
  unfold nearestEven
  rw [Int.floor_intCast, if_pos (by norm_num)]

theorem nearestEven_nearest (q : ℚ) (m : ℤ) : |(nearestEven q : ℚ) - q| ≤ |(m : ℚ) - q| := by
  have h1 := Int.floor_le q
  have h2 := Int.lt_floor_add_one q
  have h3 : |(nearestEven q : ℚ) - q| ≤ 1 / 2 := nearestEven_err q
  rcases lt_trichotomy m (nearestEven q) with h | h | h
  · have h4 : (m : ℚ) + 1 ≤ nearestEven q := by exact_mod_cast h
    rw [abs_le] at h3
    rw [abs_of_nonpos (a := (m : ℚ) - q) (by linarith)]
    rw [abs_le]
    constructor <;> linarith
  · rw [h]
  · have h4 : (nearestEven q : ℚ) + 1 ≤ m := by exact_mod_cast h
    rw [abs_le] at h3
    rw [abs_of_nonneg (a := (m : ℚ) - q) (by linarith)]
    rw [abs_le]
    constructor <;> linarith

theorem log_lt {q : ℚ} {x : ℤ} (hq : q ≠ 0) (h : |q| < 2 ^ x) : Int.log 2 |q| < x := by
  rw [← Int.lt_zpow_iff_log_lt (by norm_num) (abs_pos.2 hq)]
  exact_mod_cast h

theorem le_of_lastBit {q : ℚ} (h : -1074 < lastBit q) (hq : q ≠ 0) : 2 ^ (lastBit q + 52) ≤ |q| := by
  have h1 : lastBit q = Int.log 2 |q| - 52 := by
    unfold lastBit at h ⊢
    rcases le_total (Int.log 2 |q| - 52) (-1074) with h2 | h2
    · rw [max_eq_right h2] at h; omega
    · rw [max_eq_left h2]
  rw [h1, sub_add_cancel]
  have := Int.zpow_log_le_self (b := 2) (by norm_num) (abs_pos.2 hq)
  exact_mod_cast this

theorem lastBit_zero : lastBit 0 = -1074 ∨ lastBit 0 = -52 := by
  right
  unfold lastBit
  simp

theorem round53_zero : round53 0 = 0 := by
  unfold round53
  rw [zero_div]
  have := nearestEven_int 0
  push_cast at this
  rw [this]
  simp

theorem lastBit_le {q : ℚ} {m e : ℤ} (hm : |m| < 2 ^ 53) (he : -1074 ≤ e) (hq : q = m * 2 ^ e) (h0 : q ≠ 0) : lastBit q ≤ e := by
  have h1 : |q| < 2 ^ (53 + e) := by
    rw [hq, abs_mul, abs_of_pos (two_zpow_pos e), zpow_add₀ (by norm_num)]
    refine mul_lt_mul_of_pos_right ?_ (two_zpow_pos e)
    exact_mod_cast hm
  have := log_lt h0 h1
  unfold lastBit
  exact max_le (by omega) he

theorem zpow_split {a b : ℤ} (h : a ≤ b) : ∃ k : ℤ, (2 : ℚ) ^ b = k * 2 ^ a := by
  refine ⟨2 ^ (b - a).toNat, ?_⟩
  push_cast
  rw [← zpow_natCast, Int.toNat_of_nonneg (by omega), ← zpow_add₀ (by norm_num)]
  congr 1
  omega

theorem round53_of_multiple {q : ℚ} {k : ℤ} (h : q = k * 2 ^ lastBit q) : round53 q = q := by
  have h1 : q / 2 ^ lastBit q = k := by
    rw [div_eq_iff (two_zpow_pos _).ne']
    exact h
  rw [round53, h1, nearestEven_int]
  exact h.symm

/-- Numbers with 53 bits are not changed by rounding. -/
theorem round53_exact {q : ℚ} (h : Form53 q) : round53 q = q := by
  rcases eq_or_ne q 0 with rfl | h0
  · exact round53_zero
  obtain ⟨m, e, hm, he, hq⟩ := h
  obtain ⟨k, hk⟩ := zpow_split (lastBit_le hm he hq h0)
  exact round53_of_multiple (k := m * k) (by rw [hk] at hq; push_cast; rw [mul_assoc]; exact hq)

/-- No number with 53 bits is closer than the result of rounding. -/
theorem round53_nearest (q : ℚ) {z : ℚ} (hz : Form53 z) : |round53 q - q| ≤ |z - q| := by
  rcases eq_or_ne q 0 with rfl | h0
  · rw [round53_zero]; simp
  have hp := two_zpow_pos (lastBit q)
  -- it is nearest among the multiples of the last bit
  have key : ∀ k : ℤ, |round53 q - q| ≤ |k * 2 ^ lastBit q - q| := by
    intro k
    have h1 := nearestEven_nearest (q / 2 ^ lastBit q) k
    have e1 : ∀ x : ℚ, x * 2 ^ lastBit q - q = (x - q / 2 ^ lastBit q) * 2 ^ lastBit q := by
      intro x
      rw [sub_mul, div_mul_cancel₀ _ hp.ne']
    rw [round53, e1, e1, abs_mul, abs_mul]
    exact mul_le_mul_of_nonneg_right h1 (abs_nonneg _)
  obtain ⟨m, e, hm, he, hz⟩ := hz
  rcases le_or_gt (lastBit q) e with h | h
  · obtain ⟨k, hk⟩ := zpow_split h
    have := key (m * k)
    rw [hz, hk, ← mul_assoc]
    push_cast at this
    exact this
  · have h1 := le_of_lastBit (by omega) h0
    have h2 : |z| ≤ 2 ^ (lastBit q + 52) := by
      rw [hz, abs_mul, abs_of_pos (two_zpow_pos e)]
      calc |(m : ℚ)| * 2 ^ e ≤ 2 ^ (53 : ℤ) * 2 ^ e := by
            refine mul_le_mul_of_nonneg_right ?_ (two_zpow_pos e).le
            exact_mod_cast hm.le
        _ = 2 ^ (53 + e) := by rw [zpow_add₀ (by norm_num)]
        _ ≤ _ := zpow_le_zpow_right₀ (by norm_num) (by omega)
    have h3 : (2 : ℚ) ^ (lastBit q + 52) = 4503599627370496 * 2 ^ lastBit q := by
      rw [zpow_add₀ (by norm_num), mul_comm]
      norm_num
    rcases lt_or_gt_of_ne h0 with hq | hq
    · have := key (-2 ^ 52)
      refine le_trans this ?_
      push_cast
      rw [neg_mul, ← h3]
      rw [abs_of_neg hq] at h1
      rw [abs_le] at h2
      rw [abs_of_nonneg (a := -2 ^ (lastBit q + 52) - q) (by linarith), abs_of_nonneg (a := z - q) (by linarith)]
      linarith
    · have := key (2 ^ 52)
      refine le_trans this ?_
      push_cast
      rw [← h3]
      rw [abs_of_pos hq] at h1
      rw [abs_le] at h2
      rw [abs_of_nonpos (a := 2 ^ (lastBit q + 52) - q) (by linarith), abs_of_nonpos (a := z - q) (by linarith)]
      linarith

/-- The absolute error of rounding. -/
theorem round53_abs_err (q : ℚ) : |round53 q - q| ≤ 2 ^ lastBit q / 2 := by
  have hp := two_zpow_pos (lastBit q)
  have h1 := nearestEven_err (q / 2 ^ lastBit q)
  have e1 : round53 q - q = (nearestEven (q / 2 ^ lastBit q) - q / 2 ^ lastBit q) * 2 ^ lastBit q := by
    rw [round53, sub_mul, div_mul_cancel₀ _ hp.ne']
  rw [e1, abs_mul, abs_of_pos hp]
  nlinarith

/-- Multiples of the smallest subnormal number: all doubles, their sums and differences. -/
def OnGrid (q : ℚ) : Prop := ∃ k : ℤ, q = k * 2 ^ (-1074 : ℤ)

theorem Form53.grid {q : ℚ} (h : Form53 q) : OnGrid q := by
  obtain ⟨m, e, -, he, rfl⟩ := h
  obtain ⟨k, hk⟩ := zpow_split he
  exact ⟨m * k, by rw [hk]; push_cast; ring⟩

theorem OnGrid.add {q r : ℚ} (hq : OnGrid q) (hr : OnGrid r) : OnGrid (q + r) := by
  obtain ⟨k, rfl⟩ := hq
  obtain ⟨l, rfl⟩ := hr
  exact ⟨k + l, by push_cast; ring⟩

theorem OnGrid.neg {q : ℚ} (hq : OnGrid q) : OnGrid (-q) := by
  obtain ⟨k, rfl⟩ := hq
  exact ⟨-k, by push_cast; ring⟩

/-- The relative error of rounding is at most `2^-53` for a number that is not subnormal, or on the grid. -/
theorem round53_rel_err {q : ℚ} (h : OnGrid q ∨ 2 ^ (-1022 : ℤ) ≤ |q|) : |round53 q - q| ≤ 2 ^ (-53 : ℤ) * |q| := by
  have hr : 0 ≤ 2 ^ (-53 : ℤ) * |q| := mul_nonneg (two_zpow_pos _).le (abs_nonneg _)
  rcases eq_or_ne q 0 with rfl | h0
  · rw [round53_zero]; simp
  by_cases hl : -1074 < lastBit q ∨ 2 ^ (-1022 : ℤ) ≤ |q|
  · have h1 : 2 ^ (lastBit q + 52) ≤ |q| := by
      by_cases hl1 : -1074 < lastBit q
      · exact le_of_lastBit hl1 h0
      · have : lastBit q = -1074 := le_antisymm (not_lt.1 hl1) (lastBit_ge q)
        rw [this]
        exact (hl.resolve_left hl1)
    refine le_trans (round53_abs_err q) ?_
    have e1 : (2 : ℚ) ^ lastBit q / 2 = 2 ^ (-53 : ℤ) * 2 ^ (lastBit q + 52) := by
      rw [← zpow_add₀ (by norm_num), show (-53 : ℤ) + (lastBit q + 52) = lastBit q - 1 by omega, zpow_sub₀ (by norm_num), zpow_one]
    rw [e1]
    exact mul_le_mul_of_nonneg_left h1 (two_zpow_pos _).le
  · push Not at hl
    obtain ⟨k, hk⟩ := h.resolve_right (not_le.2 hl.2)
    rw [round53_of_multiple (k := k) (by rw [le_antisymm hl.1 (lastBit_ge q)]; exact hk)]
    simpa using hr

/-- Rounding a sum or difference of doubles never gives zero unless it is zero. -/
theorem round53_eq_zero {q : ℚ} (h : OnGrid q) : round53 q = 0 ↔ q = 0 := by
  refine ⟨fun h0 => ?_, fun h0 => by rw [h0, round53_zero]⟩
  have := round53_rel_err (.inl h)
  rw [h0, zero_sub, abs_neg] at this
  have h2 : (2 : ℚ) ^ (-53 : ℤ) ≤ 1 / 2 := by norm_num
  have h3 := abs_nonneg q
  have h4 : |q| ≤ 1 / 2 * |q| := le_trans this (mul_le_mul_of_nonneg_right h2 h3)
  exact abs_eq_zero.1 (le_antisymm (by linarith) h3)

theorem lastBit_neg (q : ℚ) : lastBit (-q) = lastBit q := by simp [lastBit]

theorem lastBit_abs (q : ℚ) : lastBit |q| = lastBit q := by simp [lastBit]

theorem nearestEven_neg (q : ℚ) : nearestEven (-q) = -nearestEven q := by
  have h1 := Int.floor_le q
  have h2 := Int.lt_floor_add_one q
  rcases eq_or_lt_of_le h1 with h | h
  · rw [← h, nearestEven_int, ← Int.cast_neg, nearestEven_int]
  · have hf : ⌊-q⌋ = -⌊q⌋ - 1 := by
      rw [Int.floor_eq_iff]
      push_cast
      constructor <;> linarith
    unfold nearestEven
    rw [hf]
    push_cast
    have hmod : (-⌊q⌋ - 1) % 2 = 0 ↔ ¬ ⌊q⌋ % 2 = 0 := by omega
    split_ifs <;> first | omega | (exfalso; linarith)

theorem round53_neg (q : ℚ) : round53 (-q) = -round53 q := by
  rw [round53, lastBit_neg, neg_div, nearestEven_neg, round53]
  push_cast
  ring

theorem signedQ_round {s : Bool} {x : ℚ} (h : x ≠ 0 → s = decide (x < 0)) : signedQ s (round53 |x|) = round53 x := by
  rcases eq_or_ne x 0 with rfl | h0
  · rw [abs_zero, round53_zero]; cases s <;> simp [signedQ]
  rw [h h0]
  rcases lt_or_gt_of_ne h0 with hx | hx
  · rw [abs_of_neg hx, round53_neg, signedQ, if_pos (by simpa using hx), neg_neg]
  · rw [abs_of_pos hx, signedQ, if_neg (by simpa using hx.le)]

theorem nearestEven_tie {q : ℚ} (h : |(nearestEven q : ℚ) - q| = 1 / 2) : nearestEven q % 2 = 0 := by
  have h1 := Int.floor_le q
  have h2 := Int.lt_floor_add_one q
  revert h
  unfold nearestEven
  split_ifs with h3 h4 h5
  · intro h; rw [abs_of_nonpos (by linarith)] at h; linarith
  · intro h; push_cast at h; rw [abs_of_nonneg (by linarith)] at h; linarith
  · intro _; exact h5
  · intro _; omega

theorem form53_pow {e : ℤ} (h : -1074 ≤ e) : Form53 (2 ^ e) := ⟨1, e, by norm_num, h, by simp⟩

theorem Form53.neg {q : ℚ} (h : Form53 q) : Form53 (-q) := by
  obtain ⟨m, e, hm, he, rfl⟩ := h
  exact ⟨-m, e, by simpa using hm, he, by push_cast; ring⟩

/-- If another number is equally close, the last bit of the result of rounding is zero. -/
theorem round53_tie {q z : ℚ} (hz : Form53 z) (he : |z - q| = |round53 q - q|) (hne : z ≠ round53 q) : EvenDouble (round53 q) := by
  wlog hq : 0 ≤ q generalizing q z
  · have hq' : 0 ≤ -q := by linarith [not_le.1 hq]
    have := this (q := -q) (z := -z) hz.neg (by
      rw [round53_neg, show -z - -q = -(z - q) by ring, show -round53 q - -q = -(round53 q - q) by ring, abs_neg, abs_neg, he])
      (by rw [round53_neg]; intro h; exact hne (neg_injective h)) hq'
    rw [round53_neg] at this
    obtain ⟨m, e, hm, he, h⟩ := this
    exact ⟨-m, e, by simpa using hm, he, by push_cast; linarith⟩
  have hp := two_zpow_pos (lastBit q)
  have e1 : round53 q - q = (nearestEven (q / 2 ^ lastBit q) - q / 2 ^ lastBit q) * 2 ^ lastBit q := by
    rw [round53, sub_mul, div_mul_cancel₀ _ hp.ne']
  have herr := nearestEven_err (q / 2 ^ lastBit q)
  have hcases : |(nearestEven (q / 2 ^ lastBit q) : ℚ) - q / 2 ^ lastBit q| = 1 / 2 ∨ |round53 q - q| < 2 ^ lastBit q / 2 := by
    rcases eq_or_lt_of_le herr with h | h
    · exact .inl h
    · right
      rw [e1, abs_mul, abs_of_pos hp]
      nlinarith
  rcases hcases with h | h
  · have hev := nearestEven_tie h
    obtain ⟨k, hk⟩ : ∃ k, nearestEven (q / 2 ^ lastBit q) = 2 * k := ⟨nearestEven (q / 2 ^ lastBit q) / 2, by omega⟩
    refine ⟨k, lastBit q + 1, ?_, by have := lastBit_ge q; omega, ?_⟩
    · have h2 : |q / 2 ^ lastBit q| < 2 ^ 53 := by
        rw [abs_div, abs_of_pos hp, div_lt_iff₀ hp]
        have := abs_lt_lastBit q
        rw [zpow_add₀ (by norm_num)] at this
        rw [mul_comm]
        exact this
      have h3 : |(nearestEven (q / 2 ^ lastBit q) : ℚ)| < 2 ^ 53 + 1 := by
        have e1 : (nearestEven (q / 2 ^ lastBit q) : ℚ) = (nearestEven (q / 2 ^ lastBit q) - q / 2 ^ lastBit q) + q / 2 ^ lastBit q := by ring
        have := abs_add_le ((nearestEven (q / 2 ^ lastBit q) : ℚ) - q / 2 ^ lastBit q) (q / 2 ^ lastBit q)
        rw [← e1] at this
        linarith
      have h4 : |nearestEven (q / 2 ^ lastBit q)| < 2 ^ 53 + 1 := by exact_mod_cast h3
      rw [hk, abs_mul, show |(2 : ℤ)| = 2 by norm_num] at h4
      omega
    · rw [round53, hk, zpow_add₀ (by norm_num)]
      push_cast
      ring
  · exfalso
    -- another number at the same distance must be below the binade of `q`
    have hsum : z - q = -(round53 q - q) := by
      rcases abs_eq_abs.1 he with h1 | h1
      · exact absurd (by linarith) hne
      · exact h1
    have hq0 : q ≠ 0 := by
      rintro rfl
      rw [round53_zero] at hsum hne
      exact hne (by linarith)
    obtain ⟨m, e, hm, hge, hzm⟩ := hz
    rcases le_or_gt (lastBit q) e with hl | hl
    · obtain ⟨k, hk⟩ := zpow_split hl
      have h1 : z - round53 q = (m * k - nearestEven (q / 2 ^ lastBit q) : ℤ) * 2 ^ lastBit q := by
        rw [hzm, hk, round53]; push_cast; ring
      have h2 : |z - round53 q| < 2 ^ lastBit q := by
        have : z - round53 q = -2 * (round53 q - q) := by linarith
        rw [this, abs_mul, show |(-2 : ℚ)| = 2 by norm_num]
        linarith
      rw [h1, abs_mul, abs_of_pos hp] at h2
      have h3 : |(m * k - nearestEven (q / 2 ^ lastBit q) : ℤ)| < 1 := by
        have : |((m * k - nearestEven (q / 2 ^ lastBit q) : ℤ) : ℚ)| < 1 := by
          by_contra hc
          nlinarith
        exact_mod_cast this
      have h4 : m * k - nearestEven (q / 2 ^ lastBit q) = 0 := Int.abs_lt_one_iff.1 h3
      rw [h4] at h1
      exact hne (by simpa [sub_eq_zero] using h1)
    · have hlow := le_of_lastBit (by omega) hq0
      rw [abs_of_nonneg hq] at hlow
      have hz2 : z < 2 ^ (lastBit q + 52) := by
        rw [hzm]
        calc (m : ℚ) * 2 ^ e < 2 ^ (53 : ℤ) * 2 ^ e := by
              refine mul_lt_mul_of_pos_right ?_ (two_zpow_pos e)
              exact_mod_cast lt_of_le_of_lt (le_abs_self m) hm
          _ = 2 ^ (53 + e) := by rw [zpow_add₀ (by norm_num)]
          _ ≤ _ := zpow_le_zpow_right₀ (by norm_num) (by omega)
      have h3 := round53_nearest q (form53_pow (e := lastBit q + 52) (by have := lastBit_ge q; omega))
      rw [← he, abs_of_nonpos (a := 2 ^ (lastBit q + 52) - q) (by linarith), abs_of_nonpos (a := z - q) (by linarith)] at h3
      linarith

theorem round53_threshold : round53 (2 ^ (1024 : ℤ) - 2 ^ (970 : ℤ)) = 2 ^ (1024 : ℤ) := by decide +kernel

theorem form53_below {y : ℚ} (h : Form53 y) (hlt : y < 2 ^ (1024 : ℤ)) : y ≤ 2 ^ (1024 : ℤ) - 2 ^ (971 : ℤ) := by
  obtain ⟨m, e, hm, he, rfl⟩ := h
  have hs : (2 : ℚ) ^ (1024 : ℤ) = 2 ^ 53 * 2 ^ (971 : ℤ) := by
    rw [← zpow_natCast, ← zpow_add₀ (by norm_num)]; norm_num
  rcases le_or_gt e 971 with h | h
  · have h1 : (m : ℚ) ≤ 2 ^ 53 - 1 := by
      have : m ≤ 2 ^ 53 - 1 := by have := le_abs_self m; omega
      exact_mod_cast this
    calc (m : ℚ) * 2 ^ e ≤ (2 ^ 53 - 1) * 2 ^ e := mul_le_mul_of_nonneg_right h1 (two_zpow_pos e).le
      _ ≤ (2 ^ 53 - 1) * 2 ^ (971 : ℤ) := mul_le_mul_of_nonneg_left (zpow_le_zpow_right₀ (by norm_num) h) (by norm_num)
      _ = _ := by rw [hs]; ring
  · obtain ⟨k, hk⟩ := zpow_split h.le
    rw [hk, ← mul_assoc] at hlt ⊢
    rw [hs] at hlt ⊢
    have h1 : ((m * k : ℤ) : ℚ) < (2 ^ 53 : ℤ) := by
      push_cast
      exact lt_of_mul_lt_mul_right hlt (two_zpow_pos _).le
    have h2 : m * k < 2 ^ 53 := by exact_mod_cast h1
    have h3 : ((m * k : ℤ) : ℚ) ≤ 2 ^ 53 - 1 := by
      have : m * k ≤ 2 ^ 53 - 1 := by omega
      exact_mod_cast this
    push_cast at h3
    have h4 := mul_le_mul_of_nonneg_right h3 (two_zpow_pos 971).le
    rw [sub_mul, one_mul] at h4
    exact h4

/-- Rounding overflows from `2^1024 - 2^970` on. -/
theorem round53_overflow {x : ℚ} (hx : 0 ≤ x) : round53 x < 2 ^ (1024 : ℤ) ↔ x < 2 ^ (1024 : ℤ) - 2 ^ (970 : ℤ) := by
  have h970 : (2 : ℚ) ^ (971 : ℤ) = 2 * 2 ^ (970 : ℤ) := by
    rw [← zpow_one_add₀ (by norm_num)]; norm_num
  have hpos := two_zpow_pos 970
  have hthr := round53_threshold
  have hbel : round53 x < 2 ^ (1024 : ℤ) → round53 x ≤ 2 ^ (1024 : ℤ) - 2 ^ (971 : ℤ) := form53_below (round53_form x)
  have hn1 := round53_nearest x (form53_pow (e := 1024) (by norm_num))
  have hz : Form53 (2 ^ (1024 : ℤ) - 2 ^ (971 : ℤ)) := by
    refine ⟨2 ^ 53 - 1, 971, by norm_num, by norm_num, ?_⟩
    have hs : (2 : ℚ) ^ (1024 : ℤ) = 2 ^ 53 * 2 ^ (971 : ℤ) := by
      rw [← zpow_natCast, ← zpow_add₀ (by norm_num)]; norm_num
    rw [hs, Int.cast_sub, sub_mul]; norm_num
  have hn2 := round53_nearest x hz
  rw [h970] at hbel hn2
  clear hz h970
  generalize (2 : ℚ) ^ (970 : ℤ) = b at *
  generalize (2 : ℚ) ^ (1024 : ℤ) = a at *
  constructor
  · intro h
    by_contra hc
    have hc := not_lt.1 hc
    have h1 := hbel h
    rcases le_total x a with hle | hge
    · rw [abs_of_nonpos (a := round53 x - x) (by linarith), abs_of_nonneg (a := a - x) (by linarith)] at hn1
      have : x = a - b := by linarith
      rw [this, hthr] at h
      exact lt_irrefl _ h
    · rw [abs_of_nonpos (a := round53 x - x) (by linarith), abs_of_nonpos (a := a - x) (by linarith)] at hn1
      linarith
  · intro h
    by_contra hc
    have hc := not_lt.1 hc
    rw [abs_of_nonneg (a := round53 x - x) (by linarith)] at hn2
    rcases le_total x (a - 2 * b) with hle | hge
    · rw [abs_of_nonneg (by linarith)] at hn2; linarith
    · rw [abs_of_nonpos (by linarith)] at hn2; linarith

/-- `ofRat` rounds as IEEE 754 requires. -/
theorem F64.ofRat_rounds (neg : Bool) (x : ℚ) : (F64.ofRat neg x).RoundsTo x := by
  unfold F64.ofRat
  by_cases h : round53 |x| < 2 ^ (1024 : ℤ)
  · simp only [h, dite_true]
    refine ⟨(round53_overflow (abs_nonneg x)).1 h, fun h0 => if_neg h0, fun z hz => ?_⟩
    rw [signedQ_round (fun h0 => if_neg h0)]
    exact ⟨round53_nearest x hz.form, fun he hne => round53_tie hz.form he hne⟩
  · simp only [h, dite_false]
    have h1 := not_lt.1 (fun hc => h ((round53_overflow (abs_nonneg x)).2 hc))
    refine ⟨h1, if_neg ?_⟩
    rintro rfl
    rw [abs_zero] at h1
    exact absurd h1 (by decide +kernel)

/-- `ofRat` as a value. -/
theorem F64.ofRat_value (neg : Bool) (x : ℚ) :
    (|x| < 2 ^ (1024 : ℤ) - 2 ^ (970 : ℤ) ∧ (F64.ofRat neg x).HasValue (round53 x)) ∨
    (2 ^ (1024 : ℤ) - 2 ^ (970 : ℤ) ≤ |x| ∧ F64.ofRat neg x = .inf (decide (x < 0))) := by
  unfold F64.ofRat
  by_cases h : round53 |x| < 2 ^ (1024 : ℤ)
  · left
    simp only [h, dite_true]
    exact ⟨(round53_overflow (abs_nonneg x)).1 h, signedQ_round (fun h0 => if_neg h0)⟩
  · right
    have h1 := not_lt.1 (fun hc => h ((round53_overflow (abs_nonneg x)).2 hc))
    refine ⟨h1, ?_⟩
    simp only [h, dite_false]
    congr 1
    refine if_neg ?_
    rintro rfl
    rw [abs_zero] at h1
    exact absurd h1 (by decide +kernel)

end Verif
