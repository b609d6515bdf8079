import Verif.Proofs.FileTolerance
import Verif.Props.EndToEnd
import Verif.Props.Tolerance

/-! # C67 rounded numbers in LP files, and commands that work with tolerances -/

namespace Verif

open Exact

set_option linter.unusedSectionVars false
set_option linter.unusedSimpArgs false

section
variable {K : Type} [Field K] [LinearOrder K] [IsStrictOrderedRing K] [Trig K]
variable {H : HashOrder} {W : World (Option K)} {n m : Nat}

/-- The point that is read back satisfies the standard problem up to tolerances. -/
theorem cmd_within (hr : ReachableApiW H W n) {cbc : Bool} {ps : Params (Option K)} {env : CmdEnv (Option K)} {d : Dir}
    {sp : StdProb (Option K)} {sol : Sol (Option K)} (hs : W.m.SolvedBy H n (cmdFn cbc ps env d) sp .solved sol)
    {readNum : List Char → Option (Option K)} {δ ε η : K} (hcmd : CommandWithin env cbc readNum δ ε η) {r : K → K} (hro : Rounding r)
    (hfmt : LpFmt readNum env.fmtE (Option.map r)) {γ β : K}
    (hnum : ∀ q, sp.prob.IsMilp q → (q.nx ≤ 2 ^ 64 ∧ q.na ≤ 2 ^ 64) ∧ ∀ ts, sol.x = ts.map some → q.base.PrintsWithin r γ β ts)
    (hnames : env.tempIn ≠ env.tempOut) {σ : Env (Option K)} (hσ : W.m.Admissible σ) {w : K} (hw : W.m.minimised σ = some w) :
    ∃ q ∈ sp.prob.views, q.FeasibleWithin (δ + γ) (ε + β) η sol.x := by
  classical
  obtain ⟨q, k, input, output, text, level, hsp, hq, htext, hread⟩ := cmd_run hs hnames
  obtain ⟨⟨hnx64, hna64⟩, hsize⟩ := hnum q hq
  obtain ⟨hqv, hqnx, hqna, -, -, c, dd, b, l, u, p, x0, hnew, hA, hds, hri, hci, hcl⟩ := model_milp hr hsp hq hσ hw
  obtain ⟨text', file, htext', hlp, hb1, hb2, hb3, hfile⟩ := milp_file_within hro hfmt hnew hA hds hri hci hcl
  rw [htext] at htext'
  injection htext' with htext'
  subst htext'
  have hcols : q.base.a.cols = q.base.nx := rfl
  rw [hcols] at hb1 hb2 hfile
  obtain ⟨hst1, -, -, -⟩ := C49_status hread
  have hfw := hst1.1 rfl
  rw [Option.bind_eq_some_iff] at hfw
  obtain ⟨out, ho, hfw⟩ := hfw
  obtain ⟨first, objective, lines, es, v, hout_eq, hlines, hnd, hin', hval, hzero, hsat⟩ :=
    hcmd input output (toString level) (d.write input (fileOf text)) text file out (by simp [Dir.write]) hlp ho hfw
  have hfirst : (words first).head? = some (optimalWord cbc) := by
    rw [hout_eq] at hfw
    simpa [firstWord] using hfw
  have hrange : ∀ e ∈ es, e.inRange q.nx q.na := by
    intro e he
    have := hin' e he
    cases e with
    | col j a b =>
      obtain ⟨e', he', hn⟩ := this
      obtain ⟨j', hj', hn'⟩ := hb2 e' he'
      rw [hn] at hn'
      have : j = j' := xName_inj.1 hn'
      subst this
      show j < q.nx
      rw [hqnx]; exact hj'
    | row i a b =>
      obtain ⟨e', he', hn⟩ := this
      obtain ⟨j', hj', hn'⟩ := hb3 e' he'
      rw [hn] at hn'
      have : i = j' := cName_inj.1 hn'
      subst this
      show i < q.na
      rw [← hqna]; exact hj'
  obtain ⟨sol', hread', hl1, -, -, -, -, hcol, hnocol, -, -⟩ :=
    C47_solution (parseF := env.parseF) (objective := objective) (q := q) hfirst hlines hnd hrange hnx64 hna64
  rw [ho, hout_eq, hread'] at hread
  simp only [Except.ok.injEq, Option.some.injEq, Prod.mk.injEq] at hread
  obtain ⟨-, rfl⟩ := hread
  have hx : ∀ j < q.base.nx, sol'.x[j]? = some (some (v (xName j))) := by
    intro j hj
    by_cases hm : ∃ a b, Listed.col j a b ∈ es
    · obtain ⟨a, b, hm⟩ := hm
      rw [(hcol j a b hm).1]
      have := hval _ hm
      simp only [Listed.value] at this
      rw [this]
      rfl
    · rw [(hnocol j (by rw [hqnx]; exact hj) fun a b hm' => hm ⟨a, b, hm'⟩).1]
      obtain ⟨b, hb, hbn⟩ := hb1 j hj
      have := hzero b hb (fun e he hne => by
        cases e with
        | col j' a b =>
          rw [hbn] at hne
          have : j' = j := xName_inj.1 hne
          subst this
          exact hm ⟨_, _, he⟩
        | row i a b =>
          rw [hbn] at hne
          simp [Listed.name, xName] at hne)
      rw [hbn] at this
      rw [this]
      rfl
  have hts : sol'.x = ((List.range q.base.nx).map fun j => v (xName j)).map some := by
    refine List.ext_getElem? fun j => ?_
    by_cases hj : j < q.base.nx
    · rw [hx j hj]
      simp [List.getElem?_range hj]
    · rw [List.getElem?_eq_none (by rw [hl1, hqnx]; omega)]
      symm
      rw [List.getElem?_eq_none (by simp; omega)]
  have hv := hfile v ((List.range q.base.nx).map fun j => v (xName j)) (by simp) (fun j hj => by simp [List.getElem?_range hj])
    δ ε η γ β hsat (hsize _ hts)
  rw [← hts] at hv
  exact ⟨q.base, hqv, hv⟩

/-- C67: a model with an admissible assignment is solved through files by Clp or Cbc. The file has the numbers of the problem as
`r` rounds them (eleven digits), and the external command answers with values that satisfy the rows of its input file up to `δ`, the bounds
up to `ε` and integrality up to `η`. If `solve` reports `Solved`, and if at the answer rounding changes no row by more than `γ` and no bound
by more than `β`, then at the final primals every equality constraint is violated by at most `δ + γ`, every constraint that bounds a
variable by at most `ε + β`, every other constraint by at most the sum of these, and every integer variable is within `η` of an integer. -/
theorem C67_feasible (hr : ReachableApiW H W n) {cbc : Bool} {ps : Params (Option K)} {env : CmdEnv (Option K)} {d : Dir}
    {mod' : Model (Option K)} (h : W.m.solve H (cmdFn cbc ps env d) n = .ok ((.ok (), mod'), m)) (hst : mod'.solverStatus = some .solved)
    {readNum : List Char → Option (Option K)} {δ ε η : K} (hδ : 0 ≤ δ) (hε : 0 ≤ ε) (hcmd : CommandWithin env cbc readNum δ ε η)
    {r : K → K} (hro : Rounding r) (hfmt : LpFmt readNum env.fmtE (Option.map r)) {γ β : K} (hγ : 0 ≤ γ) (hβ : 0 ≤ β)
    (hnum : ∀ sp m q, W.m.stdProblem H n = .ok (sp, m) → sp.prob.IsMilp q → (q.nx ≤ 2 ^ 64 ∧ q.na ≤ 2 ^ 64) ∧
      ∀ sol ts, W.m.SolvedBy H n (cmdFn cbc ps env d) sp .solved sol → sol.x = ts.map some → q.base.PrintsWithin r γ β ts)
    (hnames : env.tempIn ≠ env.tempOut) {σ : Env (Option K)} (hσ : W.m.Admissible σ) {w : K} (hw : W.m.minimised σ = some w) :
    (∀ c ∈ mod'.constraints, ∃ a b w, c.lhs.evaluate (mapEnv mod'.finalPrimals) = some a ∧
      c.rhs.evaluate (mapEnv mod'.finalPrimals) = some b ∧ c.violation (mapEnv mod'.finalPrimals) = some w ∧
      w ≤ (δ + γ) + (ε + β) ∧ (c.kind = .equal → w ≤ δ + γ) ∧ ∀ x v, c.Bounds x v → w ≤ ε + β) ∧
    (∀ x, mod'.HasVar x → x.isInteger = true → ∃ (t : K) (z : ℤ), getN mod'.finalPrimals x = some (some t) ∧ |t - z| ≤ η) := by
  refine C65_feasible hr h (fun c hc => ?_) (add_nonneg hδ hγ) (add_nonneg hε hβ) ?_
  · obtain ⟨a, b, ha, hb, -⟩ := hσ.holds c hc
    exact ⟨σ, a, b, ha, hb⟩
  · intro sp status sol hs
    have hstat := solvedBy_unique h hs
    rw [hst] at hstat
    injection hstat with hstat
    subst hstat
    obtain ⟨k, hsp, hsol⟩ := id hs
    exact cmd_within hr hs hcmd hro hfmt (fun q hq => ⟨(hnum sp k q hsp hq).1, fun ts => (hnum sp k q hsp hq).2 sol ts hs⟩) hnames hσ hw

/-- C67: what rounding changes, for a relative error of `ρ` per number: at most `ρ * S` in a row whose terms have at most the sum `S` of
absolute values, and at most `ρ * B` in a bound of absolute value at most `B`. -/
theorem C67_relative (q : Minlp (Option K)) {r : K → K} {ρ : K} (hρ0 : 0 ≤ ρ) (hρ : ∀ w, |r w - w| ≤ ρ * |w|) {S B : K} {ts : List K}
    (h : q.SizesAt S B ts) : q.PrintsWithin r (ρ * S) (ρ * B) ts := by
  refine ⟨fun i b hb => ?_, fun w hw => ?_, fun w hw => ?_⟩
  · refine le_trans ?_ (mul_le_mul_of_nonneg_left (h.row i b hb) hρ0)
    rw [mul_add, Finset.mul_sum]
    refine add_le_add (Finset.sum_le_sum fun j _ => ?_) (hρ b)
    rw [← mul_assoc]
    exact mul_le_mul_of_nonneg_right (hρ _) (abs_nonneg _)
  · exact (hρ w).trans (mul_le_mul_of_nonneg_left (h.lower w hw) hρ0)
  · exact (hρ w).trans (mul_le_mul_of_nonneg_left (h.upper w hw) hρ0)

end

/-- A format that prints every number but 0, ±1 and ±1e8 one per mille too large. -/
def roughQ (w : ℚ) : ℚ := if w = 1 ∨ w = -1 ∨ w = 10 ^ 8 ∨ w = -(10 ^ 8) then w else w * (1001 / 1000)

theorem roughQ_rounding : Rounding roughQ := by
  refine ⟨by norm_num [roughQ], by norm_num [roughQ], fun v => ?_⟩
  unfold roughQ
  by_cases h : v = 1 ∨ v = -1 ∨ v = 10 ^ 8 ∨ v = -(10 ^ 8)
  · rw [if_pos h, if_pos]
    rcases h with rfl | rfl | rfl | rfl <;> norm_num
  · rw [if_neg h, if_neg]
    · ring
    · rintro (hv | hv | hv | hv) <;> exact h (by rw [neg_eq_iff_eq_neg] at hv; rw [hv]; norm_num)

/-- Its relative error. -/
example : ∀ w, |roughQ w - w| ≤ 1 / 1000 * |w| := by
  intro w
  unfold roughQ
  split
  · rw [sub_self, abs_zero]; positivity
  · rw [show w * (1001 / 1000) - w = 1 / 1000 * w by ring, abs_mul]; norm_num

/-- The LP file of `exTol` in this format: the right-hand side 5 and the bound 2 are off. -/
def exRoughText : List Char :=
  ("Minimize\n obj:\n     + x_1\nSubject to\n  c_0:\n     + x_1\n     + x_2\n     - x_0\n     = +1001/200\n  c_1:\n     + x_1\n     - x_2\n     = +1/1\n" ++
  "Bounds\n -100000000/1 <= x_0 <= +0/1\n +1001/500 <= x_1 <= +100000000/1\n -100000000/1 <= x_2 <= +100000000/1\nGeneral\n x_2\nEnd\n").toList

/-- The report about it: a row is off by 3/1000, the bound of `x_0` and the integrality of `x_2` by 1/1000. -/
def exRoughOut : FileData := fileOf "Optimal\n 0 x_0 +1/1000 +0/1\n 1 x_1 +3002/1000 +0/1\n 2 x_2 +2001/1000 +0/1\n".toList

/-- A command that can solve one problem, and otherwise leaves no output file. -/
def exRoughEnv : CmdEnv Q :=
  { exEnv with
    fmtE := fun v => fmtQ (v.map roughQ)
    parseF := readQ
    command := fun _ args d => match args with
      | [input, _, _, _, _, _, _, output] => if d input = some (fileOf exRoughText) then (d.write output exRoughOut, true) else (d.remove output, true)
      | _ => (d, true) }

/-- The values that the report lists. -/
def exRoughV (x : List Char) : ℚ := if x = xName 0 then 1 / 1000 else if x = xName 1 then 3002 / 1000 else if x = xName 2 then 2001 / 1000 else 0

theorem exRough_within : CommandWithin exRoughEnv true readQ (3 / 1000) (1 / 1000) (1 / 1000) := by
  intro input output level d text file out hin hlp hout
  simp only [exRoughEnv] at hout
  split at hout
  · rename_i he
    rw [hin] at he
    injection he with he
    rw [readLp_file he] at hlp
    have hf : readLp readQ exRoughText = some ⟨[(some 1, xName 1)],
      [(cName 0, [(some 1, xName 1), (some 1, xName 2), (some (-1), xName 0)], some (1001 / 200)), (cName 1, [(some 1, xName 1), (some (-1), xName 2)], some 1)],
      [(some (-(10 ^ 8)), xName 0, some 0), (some (1001 / 500), xName 1, some (10 ^ 8)), (some (-(10 ^ 8)), xName 2, some (10 ^ 8))],
      [xName 2]⟩ := by decide +kernel
    rw [hf] at hlp
    injection hlp with hlp
    subst hlp
    simp only [Dir.write, if_true, Option.some.injEq] at hout
    subst hout
    refine fun _ => ⟨"Optimal".toList, [], [" 0 x_0 +1/1000 +0/1".toList, " 1 x_1 +3002/1000 +0/1".toList, " 2 x_2 +2001/1000 +0/1".toList],
      [.col 0 (some (1 / 1000)) (some 0), .col 1 (some (3002 / 1000)) (some 0), .col 2 (some (2001 / 1000)) (some 0)], exRoughV, by decide +kernel, ?_,
      by decide +kernel, ?_, ?_, ?_, ?_, ?_, ?_⟩
    · refine .cons ⟨['0'], "+1/1000".toList, "+0/1".toList, [], by decide +kernel, by decide +kernel, by decide +kernel⟩ (.cons
        ⟨['1'], "+3002/1000".toList, "+0/1".toList, [], by decide +kernel, by decide +kernel, by decide +kernel⟩ (.cons
        ⟨['2'], "+2001/1000".toList, "+0/1".toList, [], by decide +kernel, by decide +kernel, by decide +kernel⟩ .nil))
    · intro e he
      simp only [List.mem_cons, List.not_mem_nil, or_false] at he
      rcases he with rfl | rfl | rfl
      · exact ⟨_, List.mem_cons_self, rfl⟩
      · exact ⟨_, List.mem_cons_of_mem _ List.mem_cons_self, rfl⟩
      · exact ⟨_, List.mem_cons_of_mem _ (List.mem_cons_of_mem _ List.mem_cons_self), rfl⟩
    · intro e he
      simp only [List.mem_cons, List.not_mem_nil, or_false] at he
      rcases he with rfl | rfl | rfl <;> decide +kernel
    · intro b hb hno
      simp only [List.mem_cons, List.not_mem_nil, or_false] at hb
      rcases hb with rfl | rfl | rfl
      · exact absurd rfl (hno _ List.mem_cons_self)
      · exact absurd rfl (hno _ (List.mem_cons_of_mem _ List.mem_cons_self))
      · exact absurd rfl (hno _ (List.mem_cons_of_mem _ (List.mem_cons_of_mem _ List.mem_cons_self)))
    · intro e he
      simp only [List.mem_cons, List.not_mem_nil, or_false] at he
      rcases he with rfl | rfl
      · exact ⟨1001 / 200, 5002 / 1000, rfl, by decide +kernel, by norm_num [abs_le]⟩
      · exact ⟨1, 1001 / 1000, rfl, by decide +kernel, by norm_num [abs_le]⟩
    · intro e he
      simp only [List.mem_cons, List.not_mem_nil, or_false] at he
      rcases he with rfl | rfl | rfl
      · exact ⟨_, _, rfl, rfl, by decide +kernel, by decide +kernel⟩
      · exact ⟨_, _, rfl, rfl, by decide +kernel, by decide +kernel⟩
      · exact ⟨_, _, rfl, rfl, by decide +kernel, by decide +kernel⟩
    · intro x hx
      simp only [List.mem_cons, List.not_mem_nil, or_false] at hx
      subst hx
      refine ⟨2, ?_⟩
      have : exRoughV (xName 2) = 2001 / 1000 := by decide +kernel
      rw [this]
      norm_num [abs_le]
  · simp [Dir.remove] at hout

theorem roughQ_fmt : LpFmt readQ exRoughEnv.fmtE (Option.map roughQ) := by
  refine ⟨fun v => fmtQ_ok.plain _, fun v => ?_, fmtQ_ok.name, fmtQ_ok.keyword⟩
  have := fmtQ_ok.read (v.map roughQ)
  simp only [Option.map_id, id] at this
  exact this

/-- A check of `PrintsWithin`, for the examples. -/
def printsCheck (q : Minlp Q) (r : ℚ → ℚ) (γ β : ℚ) (ts : List ℚ) : Bool :=
  q.b.zipIdx.all (fun e => match e.1 with
    | some b => decide (((List.range q.nx).map fun j => |r ((q.a.dense e.2 j).getD 0) - (q.a.dense e.2 j).getD 0| * |(ts[j]?).getD 0|).sum + |r b - b| ≤ γ)
    | none => true) &&
  q.l.all (fun w => match w with | some w => decide (|r w - w| ≤ β) | none => true) &&
  q.u.all (fun w => match w with | some w => decide (|r w - w| ≤ β) | none => true)

theorem printsCheck_sound {q : Minlp Q} {r : ℚ → ℚ} {γ β : ℚ} {ts : List ℚ} (h : printsCheck q r γ β ts = true) : q.PrintsWithin r γ β ts := by
  simp only [printsCheck, Bool.and_eq_true, List.all_eq_true] at h
  obtain ⟨⟨h1, h2⟩, h3⟩ := h
  refine ⟨fun i b hb => ?_, fun w hw => ?_, fun w hw => ?_⟩
  · have := h1 (some b, i) (List.mem_zipIdx_iff_getElem?.2 hb)
    simp only [decide_eq_true_eq] at this
    exact this
  · simpa using h2 _ hw
  · simpa using h3 _ hw

/-- `x = 3`, `y = 2` is admissible for `exTol`. -/
theorem exTol_admissible : (worldOf exTol).m.Admissible (envOf [(0, 3), (1, 2)]) := by
  have hr : ReachableApiW HashOrder.listOrder (worldOf exTol) (wcount exTol) := runsW_reachable (by decide +kernel) (by decide +kernel)
  obtain ⟨sp, m, q, h1, h2, h3⟩ := viewOf_within (cmds := exTol) (δ := 1/1000) (ε := 1/1000) (η := 1/1000) (xs := exTolSol.x) (by decide +kernel)
  have hv2i : ∀ e ∈ sp.var2index, e.1.id < wcount exTol → e.1 = .var 0 "x" .continuous ∨ e.1 = .var 1 "y" .integer := by
    have : (resultOf ((worldOf exTol).m.stdProblem HashOrder.listOrder) (wcount exTol)).map (fun sp => sp.var2index.all fun e =>
      !decide (e.1.id < wcount exTol) || decide (e.1 = .var 0 "x" .continuous ∨ e.1 = .var 1 "y" .integer)) = some true := by decide +kernel
    simp only [resultOf, h1, Option.map_some, Option.some.injEq, List.all_eq_true, Bool.or_eq_true, Bool.not_eq_true', decide_eq_true_eq,
      decide_eq_false_iff_not] at this
    exact fun e he hlt => (this e he).resolve_left (fun h => h hlt)
  have hvar : ∀ x, (worldOf exTol).m.HasVar x → x = .var 0 "x" .continuous ∨ x = .var 1 "y" .integer := by
    intro x hx
    obtain ⟨hlt, i, hi⟩ := (C22_variables hr.reachable h1 neg_one_ne x).1 hx
    exact hv2i _ hi hlt
  refine ⟨fun c hc => holdsCheck_sound ?_, fun x hx hi => ?_, fun x hx => ?_, fun c hc _ _ a b ha hb => ?_⟩
  · revert c; decide +kernel
  · rcases hvar x hx with rfl | rfl
    · simp [Node.isInteger] at hi
    · exact ⟨2, by decide +kernel⟩
  · rcases hvar x hx with rfl | rfl
    · exact ⟨3, by decide +kernel, by norm_num, by norm_num⟩
    · exact ⟨2, by decide +kernel, by norm_num, by norm_num⟩
  · have : ∀ c ∈ (worldOf exTol).m.constraints, ((c.lhs.evaluate (envOf [(0, 3), (1, 2)])).all fun a => (c.rhs.evaluate (envOf [(0, 3), (1, 2)])).all
      fun b => decide (-(10 ^ 8) ≤ a - b ∧ a - b ≤ 10 ^ 8)) = true := by decide +kernel
    have := this c hc
    rw [ha, hb] at this
    simpa using this

/-- Non-vacuity of C67: `exTol` solved by Cbc with the rough format and the command above: `solve` succeeds with the status `Solved`, all
hypotheses of the theorem are met with `γ = 5/1000` and `β = 2/1000`, and the constraints are indeed violated at the final primals. -/
example : ∃ mod' m, (worldOf exTol).m.solve HashOrder.listOrder (cmdFn true cbcParams exRoughEnv fun _ => none) (wcount exTol) = .ok ((.ok (), mod'), m) ∧
    mod'.solverStatus = some .solved ∧
    mod'.constraints.map (fun c => c.violation (mapEnv mod'.finalPrimals)) = [some (3 / 1000), some (1 / 1000), some 0] ∧
    ReachableApiW HashOrder.listOrder (worldOf exTol) (wcount exTol) ∧ CommandWithin exRoughEnv true readQ (3 / 1000) (1 / 1000) (1 / 1000) ∧
    Rounding roughQ ∧ LpFmt readQ exRoughEnv.fmtE (Option.map roughQ) ∧
    (∀ sp m q, (worldOf exTol).m.stdProblem HashOrder.listOrder (wcount exTol) = .ok (sp, m) → sp.prob.IsMilp q → (q.nx ≤ 2 ^ 64 ∧ q.na ≤ 2 ^ 64) ∧
      ∀ sol ts, (worldOf exTol).m.SolvedBy HashOrder.listOrder (wcount exTol) (cmdFn true cbcParams exRoughEnv fun _ => none) sp .solved sol →
        sol.x = ts.map some → q.base.PrintsWithin roughQ (5 / 1000) (2 / 1000) ts) ∧
    exRoughEnv.tempIn ≠ exRoughEnv.tempOut ∧ (worldOf exTol).m.Admissible (envOf [(0, 3), (1, 2)]) ∧
    (worldOf exTol).m.minimised (envOf [(0, 3), (1, 2)]) = some 3 := by
  have hsolve : ((worldOf exTol).m.solve HashOrder.listOrder (cmdFn true cbcParams exRoughEnv fun _ => none) (wcount exTol)).toOption.map
      (fun r => (r.1.1.toOption, r.1.2.solverStatus, r.1.2.constraints.map (fun c => c.violation (mapEnv r.1.2.finalPrimals)))) =
      some (some (), some .solved, [some (3 / 1000), some (1 / 1000), some 0]) := by
    decide +kernel
  cases hs : (worldOf exTol).m.solve HashOrder.listOrder (cmdFn true cbcParams exRoughEnv fun _ => none) (wcount exTol) with
  | error e => rw [hs] at hsolve; simp [Except.toOption] at hsolve
  | ok r =>
    obtain ⟨⟨res, mod'⟩, m⟩ := r
    rw [hs] at hsolve
    simp only [Except.toOption, Option.map_some, Option.some.injEq, Prod.mk.injEq] at hsolve
    obtain ⟨h1, h2, h3⟩ := hsolve
    cases res with
    | error e => simp at h1
    | ok u =>
      refine ⟨mod', m, rfl, h2, h3, runsW_reachable (by decide +kernel) (by decide +kernel), exRough_within, roughQ_rounding, roughQ_fmt,
        ?_, by decide, exTol_admissible, by decide +kernel⟩
      intro sp m q hsp hq
      have hsize : (resultOf ((worldOf exTol).m.stdProblem HashOrder.listOrder) (wcount exTol)).bind
          (fun sp => match sp.prob with | .milp p => some (p.nx, p.na) | _ => none) = some (3, 2) := by decide +kernel
      have hprint : (resultOf ((worldOf exTol).m.stdProblem HashOrder.listOrder) (wcount exTol)).bind
          (fun sp => match sp.prob with
            | .milp p => some (printsCheck p.base roughQ (5 / 1000) (2 / 1000) [1 / 1000, 3002 / 1000, 2001 / 1000]) | _ => none) = some true := by decide +kernel
      have hans : (resultOf ((worldOf exTol).m.stdProblem HashOrder.listOrder) (wcount exTol)).bind
          (fun sp => ((cmdFn true cbcParams exRoughEnv fun _ => none) sp.prob).toOption.bind fun r => r.toOption.map fun r => r.2.x) =
            some ([1 / 1000, 3002 / 1000, 2001 / 1000].map some) := by decide +kernel
      simp only [resultOf, hsp, Option.bind_some] at hsize hprint hans
      rcases hq with hq | ⟨q', hq, rfl⟩ <;> rw [hq] at hsize hprint <;> simp at hsize hprint
      refine ⟨by rw [hsize.1, hsize.2]; norm_num, ?_⟩
      rintro sol ts ⟨k, -, hsol⟩ hx
      rw [hsol] at hans
      simp only [Except.toOption, Option.bind_some, Option.map_some, Option.some.injEq] at hans
      rw [hx] at hans
      rw [List.map_injective_iff.2 (Option.some_injective ℚ) hans]
      exact printsCheck_sound (by simpa using hprint)

end Verif
