import Verif.Spec.File64
import Verif.Code.Float64
import Verif.Proofs.RoundingLp64
import Verif.Props.FileTolerance
import Verif.Props.Sci

/-! # Files written from doubles -/

namespace Verif

set_option linter.unusedSectionVars false
set_option linter.unusedSimpArgs false

/-- What a double is in the file. -/
def lpValue (a : F64) : Option ℚ := a.value.map sciRound

theorem sciRound_signed (s : Bool) (q : ℚ) : sciRound (signedQ s q) = signedQ s (sciRound q) := by
  cases s <;> simp [signedQ, sciRound_neg]

theorem sciText_nonneg_head {q : ℚ} (h : 0 ≤ q) : ∃ d w, sciText (some q) = d :: w ∧ d.isDigit = true := by
  rcases h.eq_or_lt with h | h
  · subst h
    exact ⟨'0', ['.', '0', '0', '0', '0', '0', '0', '0', '0', '0', '0', 'e', '0'], by simp only [sciText, if_true], by decide⟩
  · obtain ⟨d, w, hw, hd⟩ := sciPos_head q h
    exact ⟨d, w, by rw [← hw]; simp only [sciText, if_neg h.ne', if_neg (not_lt.2 h.le)], hd⟩

theorem readUnsigned_sciText {q : ℚ} (h : 0 ≤ q) : readUnsigned (sciText (some q)) = some (sciRound q) := by
  have h1 := readDecimal_sciText (some q)
  obtain ⟨d, w, hw, hd⟩ := sciText_nonneg_head h
  rw [hw, readDecimal_digit hd] at h1
  rw [hw]
  cases h2 : readUnsigned (K := ℚ) (d :: w) with
  | none => rw [h2] at h1; cases h1
  | some x => rw [h2] at h1; simpa using h1

theorem sci64_read (a : F64) : readLpNum (sci64 a) = some (lpValue a) := by
  cases a with
  | nan => rfl
  | inf s => cases s <;> rfl
  | fin s q h =>
    obtain ⟨d, w, hw, hd⟩ := sciText_nonneg_head h.1
    have hr := readUnsigned_sciText h.1
    have hl : lpValue (.fin s q h) = some (signedQ s (sciRound q)) := by
      show some (sciRound (signedQ s q)) = _
      rw [sciRound_signed]
    rw [hl]
    cases s
    · show readLpNum (sciText (some q)) = some (some (sciRound q))
      have : readLpNum (sciText (some q)) = readDecimal (sciText (some q)) := by
        rw [hw]
        unfold readLpNum
        split
        · rename_i heq; injection heq with h1; subst h1; exact absurd hd (by decide)
        · rename_i heq; injection heq with h1; subst h1; exact absurd hd (by decide)
        · rfl
      rw [this, hw, readDecimal_digit hd, ← hw, hr]
      rfl
    · show readLpNum ('-' :: sciText (some q)) = some (some (-sciRound q))
      have : readLpNum ('-' :: sciText (some q)) = readDecimal ('-' :: sciText (some q)) := by
        rw [hw]
        unfold readLpNum
        split
        · rename_i heq; injection heq with h1; cases h1
        · rename_i heq; injection heq with h1 h2; injection h2 with h2; subst h2; exact absurd hd (by decide)
        · rfl
      rw [this]
      simp only [readDecimal, hr, Option.map_some]

theorem sci64_plain (a : F64) : Plain (sci64 a) := by
  cases a with
  | nan => exact ⟨by simp [sci64], by decide⟩
  | inf s => cases s <;> exact ⟨by simp [sci64], by decide⟩
  | fin s q h =>
    obtain ⟨h1, h2⟩ := sciText_plain (some q)
    cases s
    · exact ⟨h1, h2⟩
    · refine ⟨by simp [sci64], ?_⟩
      intro c hc
      rcases List.mem_cons.1 (show c ∈ '-' :: sciText (some q) from hc) with rfl | hc
      · decide
      · exact h2 c hc

variable [Libm]

theorem sci64_fmt : LpFmt readLpNum sci64 lpValue :=
  ⟨sci64_plain, sci64_read, fun i => by simp [xName, readLpNum, readDecimal, readUnsigned, Char.isDigit], by
    simp [readLpNum, readDecimal, readUnsigned, Char.isDigit]⟩

/-! ## Reading -/

omit [Libm] in
theorem parseUnsigned_of_read {w : List Char} {v : ℚ} (h : readUnsigned w = some v) : parseUnsigned w = some v := by
  unfold readUnsigned at h
  split at h
  · cases h
  · rename_i h0
    unfold parseUnsigned
    rw [if_neg fun hc => h0 hc.1]
    exact h

omit [Libm] in
theorem readUnsigned_head {w : List Char} {v : ℚ} (h : readUnsigned w = some v) : ∃ d u, w = d :: u ∧ d.isDigit = true := by
  unfold readUnsigned at h
  split at h
  · cases h
  · rename_i h0
    cases w with
    | nil => simp at h0
    | cons d u =>
      refine ⟨d, u, rfl, ?_⟩
      by_contra hd
      exact h0 (by simp [List.takeWhile_cons, hd])

omit [Libm] in
theorem toLower_digit {d : Char} (h : d.isDigit = true) : d.toLower = d := by
  unfold Char.toLower
  split
  · rename_i hc
    exfalso
    simp only [Char.isDigit, Bool.and_eq_true, decide_eq_true_eq, UInt32.le_iff_toNat_le, ge_iff_le] at h hc
    have h1 := h.2
    have h2 := hc.1
    have e1 : ('9' : Char).val.toNat = 57 := rfl
    have e2 : ('A' : Char).val.toNat = 65 := rfl
    omega
  · rfl

omit [Libm] in
theorem parseMagnitude_of_read {neg : Bool} {w : List Char} {v : ℚ} (h : readUnsigned w = some v) :
    parseMagnitude neg w = some (F64.ofRat neg (signedQ neg v)) := by
  obtain ⟨d, u, rfl, hd⟩ := readUnsigned_head h
  have hl := toLower_digit hd
  unfold parseMagnitude
  rw [if_neg, if_neg, parseUnsigned_of_read h]
  · rfl
  · intro hc
    simp only [List.map_cons, hl, List.cons.injEq] at hc
    rw [hc.1] at hd
    exact absurd hd (by decide)
  · rintro (hc | hc) <;> simp only [List.map_cons, hl, List.cons.injEq] at hc <;> rw [hc.1] at hd <;> exact absurd hd (by decide)

omit [Libm] in
/-- Texts of decimal numbers are read as the nearest doubles. -/
theorem parse64_of_read {w : List Char} {x : Option ℚ} (h : readDecimal w = some x) :
    ∃ a, parse64 w = some a ∧ ∀ v, x = some v → ∃ s, a = F64.ofRat s v := by
  unfold readDecimal at h
  split at h
  · injection h with h
    subst h
    exact ⟨.nan, rfl, fun v hv => by cases hv⟩
  · obtain ⟨v, hv, rfl⟩ := Option.map_eq_some_iff.1 h
    refine ⟨_, parseMagnitude_of_read hv, fun v' hv' => ⟨true, ?_⟩⟩
    injection hv' with hv'
    rw [← hv']
    rfl
  · obtain ⟨v, hv, rfl⟩ := Option.map_eq_some_iff.1 h
    refine ⟨_, parseMagnitude_of_read hv, fun v' hv' => ⟨false, ?_⟩⟩
    injection hv' with hv'
    rw [← hv']
    rfl
  · obtain ⟨v, hv, rfl⟩ := Option.map_eq_some_iff.1 h
    obtain ⟨d, u, rfl, hd⟩ := readUnsigned_head hv
    have : parse64 (d :: u) = parseMagnitude false (d :: u) := by
      unfold parse64
      split
      · rename_i heq; injection heq with h1; subst h1; exact absurd hd (by decide)
      · rename_i heq; injection heq with h1; subst h1; exact absurd hd (by decide)
      · rfl
    refine ⟨_, this.trans (parseMagnitude_of_read hv), fun v' hv' => ⟨false, ?_⟩⟩
    injection hv' with hv'
    rw [← hv']
    rfl

/-! ## Errors -/

omit [Libm] in
theorem round53_read_err (v : ℚ) : |round53 v - v| ≤ 2 ^ (-52 : ℤ) * max |round53 v| (2 ^ (-1022 : ℤ)) := by
  have hp : (0 : ℚ) < 2 ^ (-52 : ℤ) := two_zpow_pos _
  rcases le_or_gt (2 ^ (-1022 : ℤ)) |v| with h | h
  · have h1 := round53_rel_err (.inr h)
    have h2 : |v| ≤ |round53 v| + |round53 v - v| := by
      have := abs_sub_abs_le_abs_sub v (round53 v)
      rw [abs_sub_comm] at this
      linarith
    have e1 : (2 : ℚ) ^ (-52 : ℤ) = 2 * 2 ^ (-53 : ℤ) := by norm_num
    have h3 : (2 : ℚ) ^ (-53 : ℤ) ≤ 1 / 2 := by norm_num
    have h5 : |v| ≤ 2 * |round53 v| := by
      have := mul_le_mul_of_nonneg_right h3 (abs_nonneg v)
      have h7 := h1.trans this
      clear e1 h3 hp h h1 this
      linarith
    refine h1.trans ?_
    rw [e1]
    have h4 := le_max_left |round53 v| ((2 : ℚ) ^ (-1022 : ℤ))
    have h6 : (0 : ℚ) < 2 ^ (-53 : ℤ) := two_zpow_pos _
    rw [mul_comm (2 : ℚ), mul_assoc]
    exact mul_le_mul_of_nonneg_left (h5.trans (mul_le_mul_of_nonneg_left h4 (by norm_num))) h6.le
  · rcases eq_or_ne v 0 with rfl | h0
    · rw [round53_zero]
      simp only [sub_self, abs_zero]
      exact mul_nonneg hp.le (le_max_of_le_left le_rfl)
    · have hlog : Int.log 2 |v| ≤ -1023 := by
        by_contra hc
        have h1 : ((2 : ℕ) : ℚ) ^ Int.log 2 |v| ≤ |v| := Int.zpow_log_le_self (by norm_num) (abs_pos.2 h0)
        have h2 : (2 : ℚ) ^ (-1022 : ℤ) ≤ 2 ^ Int.log 2 |v| := zpow_le_zpow_right₀ (by norm_num) (by omega)
        push_cast at h1
        exact absurd (h2.trans h1) (not_le.2 h)
      have hlast : lastBit v = -1074 := by unfold lastBit; omega
      have h1 := round53_abs_err v
      rw [hlast] at h1
      refine h1.trans ?_
      have e1 : (2 : ℚ) ^ (-1074 : ℤ) = 2 ^ (-52 : ℤ) * 2 ^ (-1022 : ℤ) := by rw [← zpow_add₀ (by norm_num)]; norm_num
      have h3 : (0 : ℚ) < 2 ^ (-1074 : ℤ) := two_zpow_pos _
      refine le_trans (b := (2 : ℚ) ^ (-1074 : ℤ)) (by linarith) ?_
      rw [e1]
      exact mul_le_mul_of_nonneg_left (le_max_right _ _) hp.le

omit [Libm] in
theorem read_err (s : Bool) {v : ℚ} (h : |v| ≤ 10 ^ 9) :
    ∃ x : ℝ, (F64.ofRat s v).Is x ∧ |x - v| ≤ 2 ^ (-52 : ℤ) * max |x| tauD := by
  rcases F64.ofRat_value s v with ⟨-, h1⟩ | ⟨h1, -⟩
  · refine ⟨_, ⟨_, h1, rfl⟩, ?_⟩
    have h2 := (Rat.cast_le (K := ℝ)).2 (round53_read_err v)
    rw [Rat.cast_abs, Rat.cast_sub, Rat.cast_mul, Rat.cast_max, Rat.cast_abs, Rat.cast_zpow, Rat.cast_zpow, Rat.cast_ofNat] at h2
    exact h2
  · exfalso
    have h2 : (10 ^ 9 : ℚ) < 2 ^ (1024 : ℤ) - 2 ^ (970 : ℤ) := by
      have e1 : (2 : ℚ) ^ (1024 : ℤ) = 2 ^ (54 : ℤ) * 2 ^ (970 : ℤ) := by rw [← zpow_add₀ (by norm_num)]; norm_num
      have e2 : (1 : ℚ) ≤ 2 ^ (970 : ℤ) := one_le_zpow₀ (by norm_num) (by norm_num)
      rw [e1]
      generalize (2 : ℚ) ^ (970 : ℤ) = y at e2
      clear h1 e1
      norm_num
      linarith
    exact absurd (h1.trans h) (not_le.2 h2)

/-- A term of the file. -/
theorem termVal_finite {j : ℕ} {a : F64} {x : ℚ} (h : a.HasValue x) :
    termVal lpValue (j, a) = if x = 0 then none else some (some (sciRound x), xName j) := by
  obtain ⟨s, q, hq, rfl, rfl⟩ : ∃ s q hq, a = .fin s q hq ∧ signedQ s q = x := by
    cases a <;> simp [F64.HasValue] at h
    exact ⟨_, _, _, rfl, h⟩
  have e1 : (zero <. F64.fin s q hq) = decide (0 < signedQ s q) := by
    show decide (signedQ false 0 < signedQ s q) = _
    rfl
  have e2 : (F64.fin s q hq <. zero) = decide (signedQ s q < 0) := by
    show decide (signedQ s q < signedQ false 0) = _
    rfl
  have e3 : (FloatOps.abs (F64.fin s q hq) ==. one) = decide (q = 1) := by
    show decide (signedQ false q = signedQ false 1) = _
    rfl
  have e4 : lpValue (FloatOps.abs (F64.fin s q hq)) = some (sciRound q) := rfl
  have e5 : (if q = 1 then (one : Option ℚ) else some (sciRound q)) = some (sciRound q) := by
    split
    · rename_i hq; rw [hq, sciRound_rounding.one]; rfl
    · rfl
  unfold termVal
  simp only [e1, e2, e3, e4, decide_eq_true_eq, e5]
  have hq0 := hq.1
  cases s
  · simp only [signedQ, Bool.false_eq_true, if_false]
    by_cases h0 : q = 0
    · simp [h0]
    · rw [if_pos (lt_of_le_of_ne hq0 (Ne.symm h0)), if_neg h0]
  · simp only [signedQ, if_true, neg_eq_zero, Left.neg_pos_iff, Left.neg_neg_iff]
    by_cases h0 : q = 0
    · simp [h0]
    · rw [if_neg (not_lt.2 hq0), if_pos (lt_of_le_of_ne hq0 (Ne.symm h0)), if_neg h0, sciRound_neg]
      rfl

/-- The value of the terms of a row. -/
theorem terms_value {es : List (ℕ × F64)} (h : ∀ e ∈ es, ∃ x, e.2.HasValue x) (v : List Char → ℚ) :
    (∀ t ∈ es.filterMap (termVal lpValue), t.1 ≠ none) ∧
    termsValue (es.filterMap (termVal lpValue)) v = some ((es.map fun e => sciRound (e.2.value.getD 0) * v (xName e.1)).sum) := by
  induction es with
  | nil => exact ⟨by simp, rfl⟩
  | cons e es ih =>
    obtain ⟨i1, i2⟩ := ih fun e' he' => h e' (List.mem_cons_of_mem _ he')
    obtain ⟨x, hx⟩ := h e List.mem_cons_self
    have ht := termVal_finite (j := e.1) hx
    have hv : e.2.value = some x := F64.value_iff.2 hx
    rw [List.filterMap_cons, show termVal lpValue e = _ from ht, List.map_cons, List.sum_cons, hv]
    by_cases h0 : x = 0
    · simp only [if_pos h0]
      refine ⟨i1, ?_⟩
      rw [i2, h0, Option.getD_some, sciRound_zero, zero_mul, zero_add]
    · simp only [if_neg h0]
      refine ⟨?_, ?_⟩
      · intro t ht
        rcases List.mem_cons.1 ht with rfl | ht
        · simp
        · exact i1 t ht
      · unfold termsValue at i2 ⊢
        rw [total_osum] at i2 ⊢
        rw [List.map_cons, osum_cons, i2]
        rfl

end Verif
