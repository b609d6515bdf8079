import Mathlib.Data.Rat.Floor
import Verif.Proofs.Sci
import Verif.Props.FileTolerance

/-! # C68 the numbers in LP files -/

namespace Verif

open Exact

set_option linter.unusedSectionVars false

section
variable {K : Type} [Field K] [LinearOrder K] [IsStrictOrderedRing K] [FloorSemiring K]

theorem sciRound_mono {v w : K} (h : v ≤ w) : sciRound v ≤ sciRound w := by
  rcases h.eq_or_lt with rfl | h
  · exact le_rfl
  · by_contra hcon
    push Not at hcon
    have h1 := sciRound_nearest v (sciRound_digits w)
    have h2 := sciRound_nearest w (sciRound_digits v)
    have a1 := le_abs_self (sciRound v - v)
    have a2 := neg_abs_le (sciRound w - w)
    rcases abs_cases (sciRound w - v) with ⟨e1, -⟩ | ⟨e1, -⟩ <;> rcases abs_cases (sciRound v - w) with ⟨e2, -⟩ | ⟨e2, -⟩ <;>
      rw [e1] at h1 <;> rw [e2] at h2 <;> linarith

theorem sciRound_rounding : Rounding (sciRound (K := K)) :=
  ⟨sciRound_zero, sciRound_exact ⟨1, 0, by norm_num, by simp⟩, sciRound_neg⟩

variable [Trig K]

theorem sciText_fmt : LpFmt (F := Option K) readDecimal sciText (Option.map sciRound) := by
  refine ⟨sciText_plain, readDecimal_sciText, fun i => ?_, ?_⟩
  · simp [xName, readDecimal, readUnsigned, Char.isDigit]
  · simp [readDecimal, readUnsigned, Char.isDigit]

/-- C68: a number printed with `{:.10e}` is one word; read as a decimal number it is a number with at most eleven significant digits, none
is nearer to the printed number, and its relative error is at most 5e-11. So numbers with eleven digits are printed exactly, signs, zero
and one are kept, and the order of two numbers is not reversed. Variable names and keywords are not read as numbers. -/
theorem C68_format : ∃ r : K → K, LpFmt (F := Option K) readDecimal sciText (Option.map r) ∧ Rounding r ∧
    (∀ w, HasDigits 11 (r w)) ∧ (∀ w v, HasDigits 11 v → |r w - w| ≤ |v - w|) ∧ (∀ w, |r w - w| ≤ 5 / 10 ^ 11 * |w|) ∧
    (∀ w, HasDigits 11 w → r w = w) ∧ ∀ v w, v ≤ w → r v ≤ r w :=
  ⟨sciRound, sciText_fmt, sciRound_rounding, sciRound_digits, fun w _ hv => sciRound_nearest w hv, sciRound_rel, fun _ h => sciRound_exact h,
    fun _ _ h => sciRound_mono h⟩

/-- The nearest integer is strictly nearest or even. -/
theorem halfEven_tie {b : K} (h : 0 ≤ b) {z : ℤ} (hz : z ≠ halfEven b) (htie : |(halfEven b : K) - b| = |(z : K) - b|) : halfEven b % 2 = 0 := by
  have h1 := Nat.floor_le h
  have h2 := Nat.lt_floor_add_one b
  have h3 : (1 : K) ≤ |(z : K) - (halfEven b : K)| := by
    have : (1 : ℤ) ≤ |z - (halfEven b : ℤ)| := Int.one_le_abs (sub_ne_zero.2 hz)
    have := (Int.cast_le (R := K)).2 this
    push_cast at this
    exact this
  have h4 : |(z : K) - (halfEven b : K)| ≤ |(z : K) - b| + |(halfEven b : K) - b| := by
    rw [abs_sub_comm (halfEven b : K) b]
    exact abs_sub_le _ _ _
  have h5 : 1 / 2 ≤ |(halfEven b : K) - b| := by linarith
  unfold halfEven at h5 ⊢
  split at h5
  · exfalso
    rw [abs_sub_comm, abs_of_nonneg (by linarith)] at h5
    linarith
  · split at h5
    · exfalso
      push_cast at h5
      rw [abs_of_nonneg (by linarith)] at h5
      linarith
    · rename_i g1 g2
      simp only [if_neg g1, if_neg g2]
      split <;> omega

/-- The digits are those of the nearest number, or they end in an even one. -/
theorem sciParts_tie {a : K} (h : 0 < a) {v : K} (hv : HasDigits 11 v) (hne : v ≠ sciRound a) (htie : |sciRound a - a| = |v - a|) :
    (sciParts a).1 % 2 = 0 := by
  obtain ⟨-, -, -, hlo⟩ := sciParts_spec h
  have hten : HasDigits 11 ((10 : K) ^ Int.log 10 a) := ⟨1, Int.log 10 a, by norm_num, by push_cast; ring⟩
  have hnear := sciRound_nearest_pos h hten
  rw [sciRound_pos h, sciParts_value h] at hne htie hnear
  rw [sciParts]
  set e := Int.log 10 a with he
  have hp : (0 : K) < 10 ^ (e - 10) := zpow_pos (by norm_num) _
  have hb0 : 0 ≤ a / 10 ^ (e - 10) := by positivity
  have hge : 10 ^ e ≤ v := by
    by_contra hlt
    push Not at hlt
    rw [htie, abs_of_nonpos (show (10 : K) ^ e - a ≤ 0 by linarith), abs_of_nonpos (by linarith)] at hnear
    linarith
  split
  · norm_num
  · obtain ⟨k, j, hk, rfl⟩ := hv
    have hpj : (0 : K) < 10 ^ j := zpow_pos (by norm_num) _
    have hk' : (k : K) < 10 ^ 11 := by
      have : (k : ℤ) < 10 ^ 11 := by
        have := Int.le_natAbs (a := k)
        omega
      exact_mod_cast this
    have hj : e - 10 ≤ j := by
      by_contra hcon
      push Not at hcon
      have h1 : (10 : K) ^ j ≤ 10 ^ (e - 11) := zpow_le_zpow_right₀ (by norm_num) (by omega)
      have h2 : (10 : K) ^ e = 10 ^ 11 * 10 ^ (e - 11) := by
        rw [← zpow_natCast, ← zpow_add₀ (by norm_num : (10 : K) ≠ 0)]; congr 1; push_cast; ring
      have h3 : (k : K) * 10 ^ j < 10 ^ 11 * 10 ^ j := mul_lt_mul_of_pos_right hk' hpj
      have h4 : (10 : K) ^ 11 * 10 ^ j ≤ 10 ^ 11 * 10 ^ (e - 11) := mul_le_mul_of_nonneg_left h1 (by positivity)
      linarith
    obtain ⟨n, hn⟩ := Int.eq_ofNat_of_zero_le (sub_nonneg.2 hj)
    have hz : (k : K) * 10 ^ j = ((k * 10 ^ n : ℤ) : K) * 10 ^ (e - 10) := by
      push_cast
      rw [show j = (n : ℤ) + (e - 10) by omega, zpow_add₀ (by norm_num), zpow_natCast]
      ring
    rw [hz] at hne htie
    refine halfEven_tie hb0 (z := k * 10 ^ n) (fun hc => hne ?_) ?_
    · rw [hc]; push_cast; rfl
    · have e3 : ∀ y : K, |y - a / 10 ^ (e - 10)| = |y * 10 ^ (e - 10) - a| / 10 ^ (e - 10) := by
        intro y
        rw [eq_div_iff hp.ne', ← abs_of_pos hp, ← abs_mul, abs_of_pos hp, sub_mul, div_mul_cancel₀ _ hp.ne']
      rw [e3, e3, htie]

/-- C68: the characters. A number other than zero is printed as a minus sign if it is negative, one digit, a point, ten digits, `e` and the exponent without
plus sign or leading zeros; the digits, with the point after the first one and the exponent, are those of the number of eleven digits nearest to it, and of
two equally near ones the one with the even last digit. -/
theorem C68_shape {q : K} (h : q ≠ 0) : ∃ (k : ℕ) (e : ℤ) (d : Char) (ds : List Char), 10 ^ 10 ≤ k ∧ k < 10 ^ 11 ∧ Nat.toDigits 10 k = d :: ds ∧ ds.length = 10 ∧
    sciText (some q) = (if q < 0 then ['-'] else []) ++ (d :: '.' :: ds) ++ ['e'] ++ (if e < 0 then ['-'] else []) ++ Nat.toDigits 10 e.natAbs ∧
    (∀ v : K, HasDigits 11 v → abs (k * 10 ^ (e - 10) - |q|) ≤ abs (v - |q|)) ∧
    ∀ v : K, HasDigits 11 v → v ≠ (k : K) * 10 ^ (e - 10) → abs (k * 10 ^ (e - 10) - |q|) = abs (v - |q|) → k % 2 = 0 := by
  have hpos : 0 < |q| := abs_pos.2 h
  obtain ⟨h1, h2, -⟩ := sciParts_spec hpos
  have hl := natText_length h1 h2
  obtain ⟨d, ds, hds⟩ : ∃ d ds, natText (sciParts |q|).1 = d :: ds := by
    cases hc : natText (sciParts |q|).1 with
    | nil => rw [hc] at hl; cases hl
    | cons d ds => exact ⟨d, ds, rfl⟩
  have hval := sciRound_pos hpos
  refine ⟨(sciParts |q|).1, (sciParts |q|).2, d, ds, h1, h2, hds, by rw [hds] at hl; simpa using hl, ?_, ?_, ?_⟩
  · have htext : sciText (some q) = (if q < 0 then ['-'] else []) ++ sciPos |q| := by
      simp only [sciText, if_neg h]
      split
      · rename_i hn; rw [abs_of_neg hn]; rfl
      · rename_i hn; rw [abs_of_nonneg (not_lt.1 hn)]; rfl
    rw [htext, sciPos, hds, mantText, intText]
    by_cases he : (sciParts |q|).2 < 0 <;> simp [natText, he]
  · intro v hv
    rw [← hval]
    exact sciRound_nearest_pos hpos hv
  · intro v hv hne htie
    rw [← hval] at hne htie
    exact sciParts_tie hpos hv hne htie

/-- C68: zero and NaN. -/
theorem C68_special : sciText (some (0 : K)) = "0.0000000000e0".toList ∧ sciText (none : Option K) = "NaN".toList := by
  refine ⟨?_, rfl⟩
  simp only [sciText, if_true]
  rfl

variable {H : HashOrder} {W : World (Option K)} {n m : Nat}

/-- C68: C57 with this format. If the numbers of the standard problem have at most eleven significant digits and the external command
solves the problem of its input file correctly, then `Solved` means that the final primals are feasible and optimal. -/
theorem C68_optimal (hr : ReachableApiW H W n) {cbc : Bool} {ps : Params (Option K)} {env : CmdEnv (Option K)} {d : Dir} (hfmt : env.fmtE = sciText)
    {mod' : Model (Option K)} (h : W.m.solve H (cmdFn cbc ps env d) n = .ok ((.ok (), mod'), m)) (hst : mod'.solverStatus = some .solved)
    (hcmd : CorrectCommand env cbc readDecimal)
    (hnum : ∀ sp m q, W.m.stdProblem H n = .ok (sp, m) → sp.prob.IsMilp q → q.nx ≤ 2 ^ 64 ∧ q.na ≤ 2 ^ 64 ∧
      ∀ w, (some w ∈ q.c ∨ (∃ i j, q.base.a.dense i j = some w) ∨ some w ∈ q.base.b ∨ some w ∈ q.base.l ∨ some w ∈ q.base.u) → HasDigits 11 w)
    (hnames : env.tempIn ≠ env.tempOut) {σ : Env (Option K)} (hσ : W.m.Admissible σ) {w : K} (hw : W.m.minimised σ = some w) :
    (∀ c ∈ mod'.constraints, c.violation (mapEnv mod'.finalPrimals) = some 0 ∧ c.Holds (mapEnv mod'.finalPrimals)) ∧
    (∀ x, mod'.HasVar x → x.isInteger = true → ∃ z : ℤ, getN mod'.finalPrimals x = some (some (z : K))) ∧
    (∀ f, mod'.objective = .minimize f → ∃ v, f.evaluate (mapEnv mod'.finalPrimals) = some v ∧
      ∀ τ, W.m.Admissible τ → ∀ w, f.evaluate τ = some w → v ≤ w) ∧
    (∀ f, mod'.objective = .maximize f → ∃ v, f.evaluate (mapEnv mod'.finalPrimals) = some v ∧
      ∀ τ, W.m.Admissible τ → ∀ w, f.evaluate τ = some w → w ≤ v) := by
  refine C57_optimal hr h hst hcmd sciRound_rounding (hfmt ▸ sciText_fmt) (fun sp m q hsp hq => ?_) hnames hσ hw
  obtain ⟨h1, h2, h3⟩ := hnum sp m q hsp hq
  exact ⟨⟨fun w hw => sciRound_exact (h3 w (.inl hw)), fun i j w hw => sciRound_exact (h3 w (.inr (.inl ⟨i, j, hw⟩))),
    fun w hw => sciRound_exact (h3 w (.inr (.inr (.inl hw)))), fun w hw => sciRound_exact (h3 w (.inr (.inr (.inr (.inl hw))))),
    fun w hw => sciRound_exact (h3 w (.inr (.inr (.inr (.inr hw)))))⟩, h1, h2⟩

/-- C68: C67 with this format. If at the answer no row with its right-hand side, all terms in absolute value, is larger than `S`, and every
bound has at most eleven significant digits or is at most `B` in absolute value, then printing adds 5e-11 `S` to the tolerance of the rows
and 5e-11 `B` to that of the bounds. -/
theorem C68_feasible (hr : ReachableApiW H W n) {cbc : Bool} {ps : Params (Option K)} {env : CmdEnv (Option K)} {d : Dir} (hfmt : env.fmtE = sciText)
    {mod' : Model (Option K)} (h : W.m.solve H (cmdFn cbc ps env d) n = .ok ((.ok (), mod'), m)) (hst : mod'.solverStatus = some .solved)
    {δ ε η : K} (hδ : 0 ≤ δ) (hε : 0 ≤ ε) (hcmd : CommandWithin env cbc readDecimal δ ε η) {S B : K} (hS : 0 ≤ S) (hB : 0 ≤ B)
    (hnum : ∀ sp m q, W.m.stdProblem H n = .ok (sp, m) → sp.prob.IsMilp q → (q.nx ≤ 2 ^ 64 ∧ q.na ≤ 2 ^ 64) ∧
      (∀ w, some w ∈ q.base.l ∨ some w ∈ q.base.u → HasDigits 11 w ∨ |w| ≤ B) ∧
      ∀ sol (ts : List K), W.m.SolvedBy H n (cmdFn cbc ps env d) sp .solved sol → sol.x = ts.map some → ∀ (i : Nat) (b : K), q.base.b[i]? = some (some b) →
        (∑ j ∈ Finset.range q.base.nx, |(q.base.a.dense i j).getD 0| * |(ts[j]?).getD 0|) + |b| ≤ S)
    (hnames : env.tempIn ≠ env.tempOut) {σ : Env (Option K)} (hσ : W.m.Admissible σ) {w : K} (hw : W.m.minimised σ = some w) :
    (∀ c ∈ mod'.constraints, ∃ a b w, c.lhs.evaluate (mapEnv mod'.finalPrimals) = some a ∧
      c.rhs.evaluate (mapEnv mod'.finalPrimals) = some b ∧ c.violation (mapEnv mod'.finalPrimals) = some w ∧
      w ≤ (δ + 5 / 10 ^ 11 * S) + (ε + 5 / 10 ^ 11 * B) ∧ (c.kind = .equal → w ≤ δ + 5 / 10 ^ 11 * S) ∧
      ∀ x v, c.Bounds x v → w ≤ ε + 5 / 10 ^ 11 * B) ∧
    (∀ x, mod'.HasVar x → x.isInteger = true → ∃ (t : K) (z : ℤ), getN mod'.finalPrimals x = some (some t) ∧ |t - z| ≤ η) := by
  have h5 : (0 : K) ≤ 5 / 10 ^ 11 := by positivity
  refine C67_feasible hr h hst hδ hε hcmd sciRound_rounding (hfmt ▸ sciText_fmt) (mul_nonneg h5 hS) (mul_nonneg h5 hB)
    (fun sp m q hsp hq => ?_) hnames hσ hw
  obtain ⟨h1, h2, h3⟩ := hnum sp m q hsp hq
  have hbound : ∀ w, some w ∈ q.base.l ∨ some w ∈ q.base.u → |sciRound w - w| ≤ 5 / 10 ^ 11 * B := by
    intro w hw
    rcases h2 w hw with hd | hle
    · rw [sciRound_exact hd, sub_self, abs_zero]; exact mul_nonneg h5 hB
    · exact (sciRound_rel w).trans (mul_le_mul_of_nonneg_left hle h5)
  refine ⟨h1, fun sol ts hs hx => ⟨fun i b hb => ?_, fun w hw => hbound w (.inl hw), fun w hw => hbound w (.inr hw)⟩⟩
  refine le_trans ?_ (mul_le_mul_of_nonneg_left (h3 sol ts hs hx i b hb) h5)
  rw [mul_add, Finset.mul_sum]
  refine add_le_add (Finset.sum_le_sum fun j _ => ?_) (sciRound_rel b)
  rw [← mul_assoc]
  exact mul_le_mul_of_nonneg_right (sciRound_rel _) (abs_nonneg _)

end

/-- The format on some numbers. -/
example : sciText (some (1 / 3 : ℚ)) = "3.3333333333e-1".toList ∧ sciText (some (-200 / 3 : ℚ)) = "-6.6666666667e1".toList ∧
    sciText (some (10 ^ 8 : ℚ)) = "1.0000000000e8".toList ∧ sciText (some (99999999999999 / 100000000 : ℚ)) = "1.0000000000e6".toList ∧
    sciText (some (100000000005 / 10 ^ 11 : ℚ)) = "1.0000000000e0".toList ∧ sciText (some (100000000015 / 10 ^ 11 : ℚ)) = "1.0000000002e0".toList := by
  refine ⟨?_, ?_, ?_, ?_, ?_, ?_⟩ <;> decide +kernel

/-- A correct command works with the tolerances 0. -/
theorem CorrectCommand.within {K : Type} [Field K] [LinearOrder K] [IsStrictOrderedRing K] [Trig K] {env : CmdEnv (Option K)} {cbc : Bool}
    {readNum : List Char → Option (Option K)} (h : CorrectCommand env cbc readNum) : CommandWithin env cbc readNum 0 0 0 := by
  intro input output level d text file out hin hlp hout hfw
  obtain ⟨first, objective, lines, es, v, h1, h2, h3, h4, h5, h6, h7⟩ := (h input output level d text file out hin hlp hout).solved hfw
  refine ⟨first, objective, lines, es, v, h1, h2, h3, h4, h5, h6, fun r hr => ?_, fun b hb => ?_, fun x hx => ?_⟩
  · obtain ⟨t, ht, hv⟩ := h7.sat.rows r hr
    exact ⟨t, t, ht, hv, by simp⟩
  · obtain ⟨lo, hi, e1, e2, e3, e4⟩ := h7.sat.bounds b hb
    exact ⟨lo, hi, e1, e2, by simpa using e3, by simpa using e4⟩
  · obtain ⟨z, hz⟩ := h7.sat.general x hx
    exact ⟨z, by simp [hz]⟩

/-- The LP file of the model `minimize x subject to x >= 2, x <= 5`. -/
def exSciText : List Char :=
  "Minimize\n obj:\n     + x_0\nSubject to\nBounds\n 2.0000000000e0 <= x_0 <= 5.0000000000e0\nGeneral\nEnd\n".toList

/-- A command that can solve one problem, and otherwise leaves no output file. -/
def exSciEnv : CmdEnv Q :=
  { exEnv with
    fmtE := sciText
    command := fun _ args d => match args with
      | [input, _, _, _, _, _, _, output] => if d input = some (fileOf exSciText) then (d.write output exLpOut, true) else (d.remove output, true)
      | _ => (d, true) }

theorem exSci_correct : CorrectCommand exSciEnv false readDecimal := by
  intro input output level d text file out hin hlp hout
  simp only [exSciEnv] at hout
  split at hout
  · rename_i he
    rw [hin] at he
    injection he with he
    rw [readLp_file he] at hlp
    have hf : readLp (readDecimal (K := ℚ)) exSciText = some ⟨[(some 1, xName 0)], [], [(some 2, xName 0, some 5)], []⟩ := by decide +kernel
    rw [hf] at hlp
    injection hlp with hlp
    subst hlp
    simp only [Dir.write, if_true, Option.some.injEq] at hout
    subst hout
    refine ⟨fun _ => ⟨"optimal".toList, "objective value 2".toList, [" 0 x_0 2 1".toList], [.col 0 (some 2) (some 1)], fun _ => 2, by decide +kernel, ?_,
      by simp, ?_, ?_, ?_, ?_⟩, fun h => ?_⟩
    · refine List.Forall₂.cons ⟨['0'], ['2'], ['1'], [], by decide +kernel, by decide +kernel, by decide +kernel⟩ List.Forall₂.nil
    · intro e he
      simp only [List.mem_singleton] at he
      subst he
      exact ⟨_, List.mem_singleton.2 rfl, rfl⟩
    · intro e he
      simp only [List.mem_singleton] at he
      subst he
      rfl
    · intro b hb hno
      simp only [List.mem_singleton] at hb
      subst hb
      exact absurd rfl (hno _ (List.mem_singleton.2 rfl))
    · refine ⟨⟨by simp, ?_, by simp⟩, 2, ?_, ?_⟩
      · intro b hb
        simp only [List.mem_singleton] at hb
        subst hb
        exact ⟨2, 5, rfl, rfl, by norm_num, by norm_num⟩
      · simp [termsValue, total]
      · intro v' b hv' hb
        simp only [termsValue, List.map_cons, List.map_nil, total, List.foldl_nil, mul_some, one_mul, Option.some.injEq] at hb
        obtain ⟨lo, hi, h1, h2, h3, h4⟩ := hv'.bounds _ (List.mem_singleton.2 rfl)
        simp only [Option.some.injEq] at h1 h3
        rw [← hb]
        linarith
    · exfalso
      revert h
      decide +kernel
  · simp [Dir.remove] at hout

/-- Non-vacuity of C68: the model `minimize x subject to x >= 2, x <= 5`, solved by Clp with the command above: `solve` succeeds, the status is
`Solved`, and all hypotheses of the theorems are met (for the second with `S = B = 0`: every bound has eleven digits). -/
example : ∃ mod' m, (worldOf exLp).m.solve HashOrder.listOrder (cmdFn false clpParams exSciEnv fun _ => none) (wcount exLp) = .ok ((.ok (), mod'), m) ∧
    mod'.solverStatus = some .solved ∧ mod'.finalPrimals.map Prod.snd = [some 2] ∧
    ReachableApiW HashOrder.listOrder (worldOf exLp) (wcount exLp) ∧ exSciEnv.fmtE = sciText ∧ CorrectCommand exSciEnv false readDecimal ∧
    CommandWithin exSciEnv false readDecimal 0 0 0 ∧
    (∀ sp m q, (worldOf exLp).m.stdProblem HashOrder.listOrder (wcount exLp) = .ok (sp, m) → sp.prob.IsMilp q → q.nx ≤ 2 ^ 64 ∧ q.na ≤ 2 ^ 64 ∧
      (∀ w, (some w ∈ q.c ∨ (∃ i j, q.base.a.dense i j = some w) ∨ some w ∈ q.base.b ∨ some w ∈ q.base.l ∨ some w ∈ q.base.u) → HasDigits 11 w) ∧
      q.base.b = []) ∧
    exSciEnv.tempIn ≠ exSciEnv.tempOut ∧ (worldOf exLp).m.Admissible (envOf [(0, 3)]) ∧ (worldOf exLp).m.minimised (envOf [(0, 3)]) = some 3 := by
  have hsolve : ((worldOf exLp).m.solve HashOrder.listOrder (cmdFn false clpParams exSciEnv fun _ => none) (wcount exLp)).toOption.map
      (fun r => (r.1.1.toOption, r.1.2.solverStatus, r.1.2.finalPrimals.map Prod.snd)) = some (some (), some .solved, [some 2]) := by
    decide +kernel
  cases hs : (worldOf exLp).m.solve HashOrder.listOrder (cmdFn false clpParams exSciEnv fun _ => none) (wcount exLp) with
  | error e => rw [hs] at hsolve; simp [Except.toOption] at hsolve
  | ok r =>
    obtain ⟨⟨res, mod'⟩, m⟩ := r
    rw [hs] at hsolve
    simp only [Except.toOption, Option.map_some, Option.some.injEq, Prod.mk.injEq] at hsolve
    obtain ⟨h1, h2, h3⟩ := hsolve
    cases res with
    | error e => simp at h1
    | ok u =>
      refine ⟨mod', m, rfl, h2, h3, runsW_reachable (by decide +kernel) (by decide +kernel), rfl, exSci_correct, exSci_correct.within,
        ?_, by decide, exLp_admissible, by decide +kernel⟩
      intro sp m q hsp hq
      have hsize : (resultOf ((worldOf exLp).m.stdProblem HashOrder.listOrder) (wcount exLp)).any
          (fun sp => match sp.prob with
            | .lp p => decide (p.baseMilp.nx = 1) && decide (p.baseMilp.na = 0) && decide (p.baseMilp.c = [some 1]) &&
              p.baseMilp.base.a.triplets.isEmpty && p.baseMilp.base.b.isEmpty && decide (p.baseMilp.base.l = [some 2]) &&
              decide (p.baseMilp.base.u = [some 5])
            | _ => false) = true := by decide +kernel
      simp only [resultOf, hsp, Option.any_some] at hsize
      rcases hq with hq | ⟨q', hq, rfl⟩ <;> rw [hq] at hsize <;> simp only [Bool.and_eq_true, decide_eq_true_eq, List.isEmpty_iff, Bool.false_eq_true] at hsize
      obtain ⟨⟨⟨⟨⟨⟨e1, e2⟩, e3⟩, e4⟩, e5⟩, e6⟩, e7⟩ := hsize
      rw [e1, e2, e3, e5, e6, e7]
      refine ⟨by norm_num, by norm_num, ?_, rfl⟩
      have hd : ∀ k : ℕ, k < 10 → HasDigits 11 (k : ℚ) := fun k hk => ⟨k, 0, by norm_num; omega, by simp⟩
      rintro w (hw | ⟨i, j, hw⟩ | hw | hw | hw)
      · simp at hw; subst hw; exact_mod_cast hd 1 (by norm_num)
      · rw [Coo.dense, e4] at hw
        simp [rowOf, valuesAt, total] at hw
        subst hw
        exact_mod_cast hd 0 (by norm_num)
      · simp at hw
      · simp at hw; subst hw; exact_mod_cast hd 2 (by norm_num)
      · simp at hw; subst hw; exact_mod_cast hd 5 (by norm_num)

end Verif
