import Verif.Proofs.FileWithin64
import Verif.Props.RoundingSolve64

/-!
# C82: Clp and Cbc in double precision, through the LP file and the solution file
-/

namespace Verif

set_option linter.unusedSectionVars false
set_option linter.unusedSimpArgs false

/-! ## Numbers in files -/

/-- Two different numbers of eleven digits are not close. -/
theorem hasDigits_gap {d v : ℚ} (hd : HasDigits 11 d) (hv : HasDigits 11 v) (h : |v - d| ≤ 2 ^ (-52 : ℤ) * |d|) : v = d := by
  by_contra hne
  obtain ⟨k, e, hk, rfl⟩ := hd
  obtain ⟨l, f, hl, rfl⟩ := hv
  have hkq : |(k : ℚ)| < 10 ^ 11 := by
    rw [← Int.cast_abs, ← Int.natCast_natAbs]
    exact_mod_cast hk
  have hlq : |(l : ℚ)| < 10 ^ 11 := by
    rw [← Int.cast_abs, ← Int.natCast_natAbs]
    exact_mod_cast hl
  have hten : ∀ z : ℤ, (0 : ℚ) < 10 ^ z := fun z => zpow_pos (by norm_num) z
  have hc : (2 : ℚ) ^ (-52 : ℤ) * (2 * 10 ^ 11) < 1 := by norm_num
  have hc0 : (0 : ℚ) < 2 ^ (-52 : ℤ) := by positivity
  have gap : ∀ (a b : ℤ) (g : ℤ), (a : ℚ) * 10 ^ g ≠ b * 10 ^ g → (10 : ℚ) ^ g ≤ |(a : ℚ) * 10 ^ g - b * 10 ^ g| := by
    intro a b g hab
    rw [← sub_mul, abs_mul, abs_of_pos (hten g)]
    have h1 : (1 : ℚ) ≤ |(a : ℚ) - b| := by
      have : a ≠ b := fun h => hab (by rw [h])
      have h2 : 1 ≤ |a - b| := Int.one_le_abs (sub_ne_zero.2 this)
      exact_mod_cast h2
    exact le_mul_of_one_le_left (hten g).le h1
  have hda : |(k : ℚ) * 10 ^ e| = |(k : ℚ)| * 10 ^ e := by rw [abs_mul, abs_of_pos (hten e)]
  have hva : |(l : ℚ) * 10 ^ f| = |(l : ℚ)| * 10 ^ f := by rw [abs_mul, abs_of_pos (hten f)]
  rcases le_total e f with hef | hef
  · have e1 : (l : ℚ) * 10 ^ f = ((l * 10 ^ (f - e).toNat : ℤ) : ℚ) * 10 ^ e := by
      push_cast
      rw [mul_assoc, ← zpow_natCast, ← zpow_add₀ (by norm_num)]
      congr 2
      omega
    have h1 := gap (l * 10 ^ (f - e).toNat) k e (by rw [← e1]; exact hne)
    rw [← e1] at h1
    have h2 : |(k : ℚ) * 10 ^ e| ≤ 10 ^ 11 * 10 ^ e := by rw [hda]; exact mul_le_mul_of_nonneg_right hkq.le (hten e).le
    have h3 := h1.trans (h.trans (mul_le_mul_of_nonneg_left h2 hc0.le))
    have h4 := hten e
    generalize (10 : ℚ) ^ e = y at h3 h4
    clear hc0 h
    nlinarith
  · have e1 : (k : ℚ) * 10 ^ e = ((k * 10 ^ (e - f).toNat : ℤ) : ℚ) * 10 ^ f := by
      push_cast
      rw [mul_assoc, ← zpow_natCast, ← zpow_add₀ (by norm_num)]
      congr 2
      omega
    have h1 := gap l (k * 10 ^ (e - f).toNat) f (by rw [← e1]; exact hne)
    rw [← e1] at h1
    have h2 : |(l : ℚ) * 10 ^ f| ≤ 10 ^ 11 * 10 ^ f := by rw [hva]; exact mul_le_mul_of_nonneg_right hlq.le (hten f).le
    have h3 : |(k : ℚ) * 10 ^ e| ≤ 2 * |(l : ℚ) * 10 ^ f| := by
      have h5 := abs_sub_abs_le_abs_sub ((k : ℚ) * 10 ^ e) ((l : ℚ) * 10 ^ f)
      rw [abs_sub_comm] at h5
      have h6 : (2 : ℚ) ^ (-52 : ℤ) ≤ 1 / 2 := by norm_num
      have h7 := mul_le_mul_of_nonneg_right h6 (abs_nonneg ((k : ℚ) * 10 ^ e))
      have h8 := h.trans h7
      clear h7 h6 h hc hc0
      linarith
    have h4 := h1.trans (h.trans (mul_le_mul_of_nonneg_left (h3.trans (mul_le_mul_of_nonneg_left h2 (by norm_num))) hc0.le))
    have h5 := hten f
    generalize (10 : ℚ) ^ f = y at h4 h5
    clear hc0 h
    nlinarith

/-- **C82** What the LP file has for a finite double: a decimal number with at most eleven significant digits, of the same sign, none of which is nearer; it
is off by at most `5 * 10^-11` of the value. -/
theorem C82_format {a : F64} {x : ℚ} (h : a.HasValue x) : Plain (sci64 a) ∧ ∃ y, readDecimal (sci64 a) = some (some y) ∧ HasDigits 11 y ∧
    (∀ v, HasDigits 11 v → |y - x| ≤ |v - x|) ∧ |y - x| ≤ 5 / 10 ^ 11 * |x| := by
  refine ⟨sci64_plain a, sciRound x, ?_, sciRound_digits x, fun v hv => sciRound_nearest x hv, sciRound_rel x⟩
  have h1 := sci64_read a
  have h2 : lpValue a = some (sciRound x) := by rw [lpValue, F64.value_iff.2 h]; rfl
  rw [h2] at h1
  unfold readLpNum at h1
  split at h1
  · cases h1
  · cases h1
  · exact h1

/-- **C82** How the numbers of a solution file are read: a decimal number becomes the double nearest to it (`z` ranges over the values of doubles, and over
the ones beyond the largest that rounding considers), with an error of at most `2^-53` of the value if that is a normal one, and an infinity of the same
sign if it is too large. -/
theorem C82_parse {w : List Char} {v : ℚ} (h : readDecimal w = some (some v)) : ∃ a, parse64 w = some a ∧
    (|v| < 2 ^ (1024 : ℤ) - 2 ^ (970 : ℤ) → ∃ x, a.HasValue x ∧ (∀ z : ℚ, (∃ m e : ℤ, |m| < 2 ^ 53 ∧ -1074 ≤ e ∧ z = m * 2 ^ e) → |x - v| ≤ |z - v|) ∧
      (2 ^ (-1022 : ℤ) ≤ |v| → |x - v| ≤ 2 ^ (-53 : ℤ) * |v|)) ∧
    (2 ^ (1024 : ℤ) - 2 ^ (970 : ℤ) ≤ |v| → a = .inf (decide (v < 0))) := by
  obtain ⟨a, ha, hv⟩ := parse64_of_read h
  obtain ⟨s, rfl⟩ := hv v rfl
  refine ⟨_, ha, fun hlt => ?_, fun hge => ?_⟩
  · rcases F64.ofRat_value s v with ⟨-, h1⟩ | ⟨h1, -⟩
    · exact ⟨_, h1, fun z hz => round53_nearest v hz, fun hn => round53_rel_err (.inr hn)⟩
    · exact absurd hlt (not_lt.2 h1)
  · rcases F64.ofRat_value s v with ⟨h1, -⟩ | ⟨-, h1⟩
    · exact absurd h1 (not_lt.2 hge)
    · exact h1

/-- **C82** A number with at most eleven significant digits that is written in the model reaches the solver as it was written, although the nearest double
is another number: the text for that double is read as the number itself, and as the double when it comes back. -/
theorem C82_literal {d : ℚ} (hd : HasDigits 11 d) (hlo : d = 0 ∨ 2 ^ (-1022 : ℤ) ≤ |d|) (hhi : |d| < 2 ^ (1024 : ℤ) - 2 ^ (970 : ℤ)) (s : Bool) :
    readDecimal (sci64 (F64.ofRat s d)) = some (some d) ∧ ∃ a, parse64 (sci64 (F64.ofRat s d)) = some a ∧ a.value = (F64.ofRat s d).value := by
  rcases F64.ofRat_value s d with ⟨-, h1⟩ | ⟨h1, -⟩
  · obtain ⟨-, y, hy, hy1, hy2, -⟩ := C82_format h1
    have herr : |round53 d - d| ≤ 2 ^ (-53 : ℤ) * |d| := by
      rcases hlo with rfl | hlo
      · rw [round53_zero]; simp
      · exact round53_rel_err (.inr hlo)
    have hyd : y = d := by
      refine hasDigits_gap hd hy1 ?_
      have h2 := hy2 d hd
      have e1 : (2 : ℚ) ^ (-52 : ℤ) * |d| = 2 ^ (-53 : ℤ) * |d| + 2 ^ (-53 : ℤ) * |d| := by
        rw [← add_mul]; norm_num
      rw [e1, show y - d = (y - round53 d) + (round53 d - d) by ring]
      refine (abs_add_le _ _).trans (add_le_add (h2.trans ?_) herr)
      rw [abs_sub_comm]
      exact herr
    subst hyd
    refine ⟨hy, ?_⟩
    obtain ⟨a, ha, hv⟩ := parse64_of_read hy
    obtain ⟨s', rfl⟩ := hv _ rfl
    refine ⟨_, ha, ?_⟩
    rw [F64.value_iff.2 h1]
    rcases F64.ofRat_value s' y with ⟨-, h2⟩ | ⟨h2, -⟩
    · exact F64.value_iff.2 h2
    · exact absurd hhi (not_lt.2 h2)
  · exact absurd hhi (not_lt.2 h1)

/-- **C82** The texts of a double: that of its absolute value (C68) with the sign in front, also for a negative zero; what is not finite comes back as it was. -/
theorem C82_text (s : Bool) (q : ℚ) (h : 0 ≤ q ∧ IsDouble q) : sci64 (.fin s q h) = (if s then ['-'] else []) ++ sciText (some q) ∧
    sci64 .nan = "NaN".toList ∧ sci64 (.inf false) = "inf".toList ∧ sci64 (.inf true) = "-inf".toList ∧
    ∀ a : F64, a.value = none → parse64 (sci64 a) = some a := by
  refine ⟨rfl, rfl, rfl, rfl, fun a ha => ?_⟩
  cases a with
  | nan => decide +kernel
  | inf s => cases s <;> decide +kernel
  | fin => cases ha

/-! ## The whole way -/

section
variable [Libm] {H : HashOrder} {W : World F64} {n n' : ℕ} {mod' : Model F64}

/-- **C82** Write a linear model with the operators in double precision, and solve it with Clp or Cbc. The numbers are printed with `{:.10e}` in the LP
file and parsed by `str::parse::<f64>` from the solution file. The external command answers a file whose numbers are finite with decimal numbers that
satisfy it, in exact arithmetic, up to `δ` (rows), `ε` (bounds) and `η` (integrality). If `solve` reports `Solved`, then every variable has a finite final
value, and at these values every constraint, taken in exact arithmetic as it was written, holds up to the tolerances, the errors of printing and reading
(`S`, `B` and `R` are the sizes of the rows, of the bounds with more than eleven digits and of the answers), and the rounding errors `pairErr` of its two
formulas. -/
theorem C82_feasible (hr : ReachableW H W n) {cbc : Bool} {ps : Params F64} {env : CmdEnv F64} {d : Dir}
    (hs : W.m.solve H (cmdFn cbc ps env d) n = .ok ((.ok (), mod'), n')) (hst : mod'.solverStatus = some .solved)
    (hfmt : env.fmtE = sci64) (hparse : env.parseF = parse64) {δ ε η : ℚ} (hδ : 0 ≤ δ) (hε : ε ≤ 10 ^ 8)
    (hcmd : CommandWithin64 env.command cbc δ ε η)
    {F G : Constraint F64 → LinForm} (hc : ∀ c ∈ W.m.constraints, c.lhs.Says64 (F c) ∧ c.rhs.Says64 (G c))
    (hRg : ∀ c ∈ W.m.constraints, PairInRange (F c) (G c)) {o : LinForm} (ho : W.m.ObjectiveSays64 o)
    {S B R : ℝ} (hS : 0 ≤ S) (hB : 0 ≤ B) (hR : tauD ≤ R)
    (hnum : ∀ sp q sol, W.m.SolvedBy H n (cmdFn cbc ps env d) sp .solved sol → sp.prob.IsMilp q →
      (q.nx ≤ 2 ^ 64 ∧ q.na ≤ 2 ^ 64) ∧ q.base.Sizes64 S B R sol.x)
    (hnames : env.tempIn ≠ env.tempOut) :
    (∃ t, W.m.Values64 mod' t) ∧ ∀ t, W.m.Values64 mod' t →
      (∀ c ∈ W.m.constraints, c.kind.Within (δ + 51 / 10 ^ 12 * S + (if c.kind = .equal then 0 else ε + 5 / 10 ^ 11 * B + 2 ^ (-52 : ℤ) * R) +
        pairErr uD (F c) (G c) t) ((F c).value t) ((G c).value t)) ∧
      (∀ x, W.m.HasVar x → |t x.id| ≤ 10 ^ 8 + (ε + 5 / 10 ^ 11 * B + 2 ^ (-52 : ℤ) * R)) ∧
      ∀ x, W.m.HasVar x → x.isInteger = true → ∃ z : ℤ, |t x.id - z| ≤ η + 2 ^ (-52 : ℤ) * R := by
  have hδ' : (0 : ℝ) ≤ δ := by exact_mod_cast hδ
  obtain ⟨h1, h2⟩ := C81_feasible hr hs (δ := δ + 51 / 10 ^ 12 * S) (ε := ε + 5 / 10 ^ 11 * B + 2 ^ (-52 : ℤ) * R) (η := η + 2 ^ (-52 : ℤ) * R)
    (by positivity) fun sp st sol hsb => by
      have hstat := solvedBy_unique hs hsb
      rw [hst] at hstat
      injection hstat with hstat
      subst hstat
      exact cmd_within64 hr hsb hfmt hparse hε hcmd hc hRg ho hB hR (fun q hq => hnum sp q sol hsb hq) hnames
  refine ⟨h1, fun t ht => ?_⟩
  obtain ⟨h3, h4, h5⟩ := h2 t ht
  exact ⟨fun c hcm => h3 c hcm _ _ (hc c hcm).1 (hc c hcm).2 (hRg c hcm), h4, h5⟩

end

section Examples
attribute [local instance] exLibm

/-- Non-vacuity of `C82_literal`: the double nearest to 0.1 is another number, and the file has 0.1. A negative zero keeps its sign. -/
example : HasDigits 11 (1 / 10 : ℚ) ∧ (dbl (1 / 10)).value ≠ some (1 / 10) ∧ sci64 (dbl (1 / 10)) = "1.0000000000e-1".toList ∧
    sci64 (dbl (-123456789012)) = "-1.2345678901e11".toList ∧ sci64 (F64.neg (dbl 0)) = "-0.0000000000e0".toList ∧
    (parse64 "-1.5e-3".toList).map F64.value = some (some (round53 (-15 / 10000))) ∧ parse64 "+1e400".toList = some (.inf false) ∧
    parse64 "-Infinity".toList = some (.inf true) ∧ parse64 ".5".toList = some (dbl (1 / 2)) ∧ parse64 "5.".toList = some (dbl 5) ∧
    parse64 "1e".toList = none ∧ parse64 ".".toList = none ∧ parse64 "".toList = none ∧ parse64 " 1".toList = none := by
  refine ⟨⟨1, -1, by decide, by norm_num⟩, ?_, ?_, ?_, ?_, ?_, ?_, ?_, ?_, ?_, ?_, ?_, ?_, ?_⟩ <;> decide +kernel

/-- The LP file of the model `minimise y subject to 0.1 * (x + 3) <= y, x >= 0`. -/
def exHText : List Char :=
  ("Minimize\n obj:\n     + x_2\nSubject to\n  c_0:\n     + 1.0000000000e-1 x_1\n     - x_2\n     - x_0\n     = -3.0000000000e-1\n" ++
  "Bounds\n -1.0000000000e8 <= x_0 <= 0.0000000000e0\n -0.0000000000e0 <= x_1 <= 1.0000000000e8\n -1.0000000000e8 <= x_2 <= 1.0000000000e8\n" ++
  "General\nEnd\n").toList

/-- The report about it. -/
def exHOut : FileData := fileOf "optimal\nobjective value 0.3\n 0 x_0 0 1\n 1 x_1 0 0.1\n 2 x_2 0.3 0\n".toList

/-- A command that can solve one problem, and otherwise leaves no output file. -/
def exHEnv : CmdEnv F64 where
  fmtE := sci64
  parseF := parse64
  tempIn := some "clp1.lp"
  tempOut := some "clp1.sol"
  writeEnd := .written
  command := fun _ args d => match args with
      | [input, _, _, _, _, _, _, output] => if d input = some (fileOf exHText) then (d.write output exHOut, true) else (d.remove output, true)
      | _ => (d, true)

/-- The values that the report lists. -/
def exHV (x : List Char) : ℚ := if x = xName 2 then 3 / 10 else 0

theorem exH_within : CommandWithin64 exHEnv.command false 0 0 0 := by
  intro input output level d text file out hin hlp _ hout
  simp only [exHEnv] at hout
  split at hout
  · rename_i he
    rw [hin] at he
    injection he with he
    rw [readLp_file he] at hlp
    have hf : readLp readLpNum exHText = some ⟨[(some 1, xName 2)],
      [(cName 0, [(some (1 / 10), xName 1), (some (-1), xName 2), (some (-1), xName 0)], some (-3 / 10))],
      [(some (-(10 ^ 8)), xName 0, some 0), (some 0, xName 1, some (10 ^ 8)), (some (-(10 ^ 8)), xName 2, some (10 ^ 8))], []⟩ := by decide +kernel
    rw [hf] at hlp
    injection hlp with hlp
    subst hlp
    simp only [Dir.write, if_true, Option.some.injEq] at hout
    subst hout
    refine fun _ => ⟨"optimal".toList, "objective value 0.3".toList, [" 0 x_0 0 1".toList, " 1 x_1 0 0.1".toList, " 2 x_2 0.3 0".toList],
      [.col 0 (some 0) (some 1), .col 1 (some 0) (some (1 / 10)), .col 2 (some (3 / 10)) (some 0)], exHV, by decide +kernel, ?_,
      by decide +kernel, ?_, ?_, ?_, ?_, ?_, ?_⟩
    · refine .cons ⟨['0'], ['0'], ['1'], [], by decide +kernel, by decide +kernel, by decide +kernel⟩ (.cons
        ⟨['1'], ['0'], "0.1".toList, [], by decide +kernel, by decide +kernel, by decide +kernel⟩ (.cons
        ⟨['2'], "0.3".toList, ['0'], [], by decide +kernel, by decide +kernel, by decide +kernel⟩ .nil))
    · intro e he
      simp only [List.mem_cons, List.not_mem_nil, or_false] at he
      rcases he with rfl | rfl | rfl
      · exact ⟨_, List.mem_cons_self, rfl⟩
      · exact ⟨_, List.mem_cons_of_mem _ List.mem_cons_self, rfl⟩
      · exact ⟨_, List.mem_cons_of_mem _ (List.mem_cons_of_mem _ List.mem_cons_self), rfl⟩
    · intro e he
      simp only [List.mem_cons, List.not_mem_nil, or_false] at he
      rcases he with rfl | rfl | rfl <;> decide +kernel
    · intro b hb hno
      simp only [List.mem_cons, List.not_mem_nil, or_false] at hb
      rcases hb with rfl | rfl | rfl
      · exact absurd rfl (hno _ List.mem_cons_self)
      · exact absurd rfl (hno _ (List.mem_cons_of_mem _ List.mem_cons_self))
      · exact absurd rfl (hno _ (List.mem_cons_of_mem _ (List.mem_cons_of_mem _ List.mem_cons_self)))
    · intro e he
      simp only [List.mem_cons, List.not_mem_nil, or_false] at he
      subst he
      exact ⟨-3 / 10, -3 / 10, rfl, by decide +kernel, by norm_num⟩
    · intro e he
      simp only [List.mem_cons, List.not_mem_nil, or_false] at he
      rcases he with rfl | rfl | rfl
      · exact ⟨_, _, rfl, rfl, by decide +kernel, by decide +kernel⟩
      · exact ⟨_, _, rfl, rfl, by decide +kernel, by decide +kernel⟩
      · exact ⟨_, _, rfl, rfl, by decide +kernel, by decide +kernel⟩
    · intro x hx
      cases hx
  · simp [Dir.remove] at hout

theorem tauD_small : tauD ≤ 1 / 10 :=
  (zpow_le_zpow_right₀ (by norm_num) (show (-1022 : ℤ) ≤ -4 by norm_num)).trans (by norm_num)

/-- The problem and the answer of the example. -/
def exHdata (sp : StdProb F64) (sol : Sol F64) : Bool :=
  match sp.prob with
  | .lp p => p.baseMilp.nx == 3 && p.baseMilp.na == 1 &&
    p.baseMilp.base.a.triplets.map (fun t : ℕ × ℕ × F64 => (t.1, t.2.1, t.2.2.value)) = [(0, 1, some exG1), (0, 2, some (-1)), (0, 0, some (-1))] &&
    p.baseMilp.base.b.map F64.value = [some (-exG3)] && p.baseMilp.base.l.map F64.value = [some (-10 ^ 8), some 0, some (-10 ^ 8)] &&
    p.baseMilp.base.u.map F64.value = [some 0, some (10 ^ 8), some (10 ^ 8)] && sol.x.map F64.value = [some 0, some 0, some (round53 (3 / 10))]
  | _ => false

theorem exH_data : (match (worldD exG).m.stdProblem HashOrder.listOrder (countD exG) with
    | .ok r => (match cmdFn false clpParams exHEnv (fun _ => none) r.1.prob with
      | .ok (.ok (_, sol)) => exHdata r.1 sol
      | _ => false)
    | .error _ => false) = true := by decide +kernel

theorem exH_sizes : ∀ sp q sol, (worldD exG).m.SolvedBy HashOrder.listOrder (countD exG) (cmdFn false clpParams exHEnv fun _ => none) sp .solved sol →
    sp.prob.IsMilp q → (q.nx ≤ 2 ^ 64 ∧ q.na ≤ 2 ^ 64) ∧ q.base.Sizes64 1 0 1 sol.x := by
  rintro sp q sol ⟨k, hsp, hsol⟩ hq
  have hd := exH_data
  rw [hsp] at hd
  simp only [hsol] at hd
  unfold exHdata at hd
  split at hd
  case h_2 => cases hd
  rename_i p hp
  have hq' : q = p.baseMilp := by
    rcases hq with h | ⟨q', h, rfl⟩
    · rw [hp] at h; cases h
    · rw [hp] at h; cases h; rfl
  subst hq'
  simp only [Bool.and_eq_true, decide_eq_true_eq, beq_iff_eq] at hd
  obtain ⟨⟨⟨⟨⟨⟨hnx, hna⟩, ha⟩, hb⟩, hl⟩, hu⟩, hx⟩ := hd
  obtain ⟨l0, l1, l2, hl', hl0, hl1, hl2⟩ := list_of_map3 hl
  obtain ⟨u0, u1, u2, hu', hu0, hu1, hu2⟩ := list_of_map3 hu
  obtain ⟨b0, hb', hb0⟩ := list_of_map1 hb
  obtain ⟨x0, x1, x2, hx', hx0, hx1, hx2⟩ := list_of_map3 hx
  obtain ⟨⟨r0, k0, a0⟩, ⟨r1, k1, a1⟩, ⟨r2, k2, a2⟩, ha', ha0, ha1, ha2⟩ := list_of_map3 ha
  simp only [Prod.mk.injEq] at ha0 ha1 ha2
  obtain ⟨rfl, rfl, ha0⟩ := ha0
  obtain ⟨rfl, rfl, ha1⟩ := ha1
  obtain ⟨rfl, rfl, ha2⟩ := ha2
  have is : ∀ {a : F64} {x : ℚ}, a.value = some x → a.Is x := fun h => F64.is_lit h rfl
  have h3 : round53 (3 / 10) = 5404319552844595 / 18014398509481984 := by decide +kernel
  rw [h3] at hx2
  have ht : tauD ≤ 1 / 10 := tauD_small
  have ht0 : 0 ≤ tauD := tauD_nonneg
  refine ⟨⟨by rw [hnx]; norm_num, by rw [hna]; norm_num⟩, ⟨?_, ?_, ?_⟩⟩
  · intro i b hi
    rw [hb'] at hi
    match i with
    | 0 =>
      simp only [List.getElem?_cons_zero, Option.some.injEq] at hi
      subst hi
      rw [ha', hx']
      simp [rowOf, (is ha0).toReal, (is ha1).toReal, (is ha2).toReal, (is hb0).toReal, (is hx0).toReal, (is hx1).toReal, (is hx2).toReal, exG1, exG3]
      rw [max_eq_right ht0, abs_of_pos (by norm_num), abs_of_pos (by norm_num), max_eq_left (by linarith)]
      norm_num
      linarith
    | i + 1 => simp at hi
  · intro w hw
    left
    rw [hl', hu'] at hw
    simp only [List.mem_cons, List.not_mem_nil, or_false] at hw
    have big : HasDigits 11 (((10 ^ 8 : ℚ) : ℝ)) := ⟨1, 8, by norm_num, by norm_num⟩
    have nbig : HasDigits 11 (((-10 ^ 8 : ℚ) : ℝ)) := ⟨-1, 8, by norm_num, by norm_num⟩
    have nul : HasDigits 11 (((0 : ℚ) : ℝ)) := ⟨0, 0, by norm_num, by norm_num⟩
    rcases hw with (rfl | rfl | rfl) | rfl | rfl | rfl
    · rw [(is hl0).toReal]; exact nbig
    · rw [(is hl1).toReal]; exact nul
    · rw [(is hl2).toReal]; exact nbig
    · rw [(is hu0).toReal]; exact nul
    · rw [(is hu1).toReal]; exact big
    · rw [(is hu2).toReal]; exact big
  · intro x hxm
    rw [hx'] at hxm
    simp only [List.mem_cons, List.not_mem_nil, or_false] at hxm
    rcases hxm with rfl | rfl | rfl
    · rw [(is hx0).toReal]; norm_num
    · rw [(is hx1).toReal]; norm_num
    · rw [(is hx2).toReal, abs_of_pos (by norm_num)]; norm_num

/-- Non-vacuity of C82: the model above, solved with this command: `solve` succeeds with the status `Solved`, the hypotheses of the theorem are met, and so
the reported values satisfy `0.1 * (x + 3) <= y` up to `10^-10`. They do not satisfy it exactly: the reported `y` is the double nearest to 0.3, which is
smaller than three times the double nearest to 0.1. -/
example : ∃ mod' n' t, (worldD exG).m.solve HashOrder.listOrder (cmdFn false clpParams exHEnv fun _ => none) (countD exG) = .ok ((.ok (), mod'), n') ∧
    mod'.solverStatus = some .solved ∧ (worldD exG).m.Values64 mod' t ∧ tenth * (t 0 + 3) ≤ t 1 + 1 / 10 ^ 10 ∧ ¬ tenth * (t 0 + 3) ≤ t 1 := by
  have hok : (match (worldD exG).m.solve HashOrder.listOrder (cmdFn false clpParams exHEnv fun _ => none) (countD exG) with
    | .ok ((.ok (), m), _) => decide (m.solverStatus = some .solved) && mapEnv m.finalPrimals 0 = some (dbl 0) && mapEnv m.finalPrimals 1 = some (dbl (3 / 10))
    | _ => false) = true := by decide +kernel
  obtain ⟨mod', n', hs, ⟨hst, ht0⟩, ht1⟩ : ∃ mod' n', (worldD exG).m.solve HashOrder.listOrder (cmdFn false clpParams exHEnv fun _ => none) (countD exG) =
      .ok ((.ok (), mod'), n') ∧ (mod'.solverStatus = some .solved ∧ mapEnv mod'.finalPrimals 0 = some (dbl 0)) ∧
      mapEnv mod'.finalPrimals 1 = some (dbl (3 / 10)) := by
    revert hok
    generalize (worldD exG).m.solve HashOrder.listOrder (cmdFn false clpParams exHEnv fun _ => none) (countD exG) = r
    match r with
    | .ok ((.ok (), mod'), n') => exact fun h => ⟨mod', n', rfl, by simpa using h⟩
    | .ok ((.error _, _), _) => simp
    | .error _ => simp
  obtain ⟨⟨t, ht⟩, hall⟩ := C82_feasible exG_reach hs hst rfl rfl (δ := 0) (ε := 0) (η := 0) le_rfl (by norm_num) exH_within exG_says exG_range exG_obj
    (S := 1) (B := 0) (R := 1) (by norm_num) le_rfl (tauD_small.trans (by norm_num)) exH_sizes (by decide)
  have hX : (worldD exG).m.HasVar exGx := ⟨rfl, .inr ⟨_, by rw [exG_constraints]; exact .tail _ (.head _), .inl (.refl _)⟩⟩
  have hY : (worldD exG).m.HasVar exGy := ⟨rfl, .inl ⟨_, .inl exG_objective, .refl _⟩⟩
  have t0 : t 0 = 0 := by
    obtain ⟨a, h1, h2⟩ := ht _ hX
    change mapEnv mod'.finalPrimals 0 = _ at h1
    rw [ht0] at h1
    cases h1
    exact F64.Is.unique h2 exG_zero
  have t1 : t 1 = ((5404319552844595 / 18014398509481984 : ℚ) : ℝ) := by
    obtain ⟨a, h1, h2⟩ := ht _ hY
    change mapEnv mod'.finalPrimals 1 = _ at h1
    rw [ht1] at h1
    cases h1
    exact F64.Is.unique h2 (F64.is_lit (q := 5404319552844595 / 18014398509481984) (by decide +kernel) rfl)
  have vF : ∀ s, (exGF ⟨9, exTenth2, .lessEqual, exGy, ""⟩).value s = tenth * (s 0 + 3) := by intro s; simp [exGF, LinForm.value]; ring
  have vY : ∀ s, (exGG ⟨9, exTenth2, .lessEqual, exGy, ""⟩).value s = s 1 := by intro s; simp [exGG, exGo, LinForm.value]
  have hm1 : (⟨9, exTenth2, .lessEqual, exGy, ""⟩ : Constraint F64) ∈ (worldD exG).m.constraints := by rw [exG_constraints]; exact .head _
  refine ⟨mod', n', t, hs, hst, ht, ?_, ?_⟩
  · have := (hall t ht).1 _ hm1
    have he := exG_err (t := t) (by rw [t0]; norm_num) (by rw [t1, abs_le]; constructor <;> norm_num) _ hm1
    rw [vF, vY] at this
    simp only [CKind.Within, reduceCtorEq, if_false, Rat.cast_zero, zero_add, mul_zero] at this
    norm_num at this ⊢
    linarith
  · rw [t0, t1]
    unfold tenth
    norm_num

end Examples

end Verif
