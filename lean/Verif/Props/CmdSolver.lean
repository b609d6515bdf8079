import Verif.Code.CmdSolver
import Verif.Spec.Report
import Verif.Props.Param
import Verif.Props.SolFile
import Verif.Props.Solve
import Verif.Props.LpFile

/-! # Properties C46, C50, C55: the command-line solvers -/

namespace Verif

set_option linter.unusedSectionVars false
set_option linter.unusedSimpArgs false

section
variable {F : Type} [FloatOps F]

theorem tryRemove_other {d : Dir} {stuck : String → Bool} {name n : String} (h : n ≠ name) : d.tryRemove stuck name n = d n := by
  unfold Dir.tryRemove Dir.remove
  split
  · rfl
  · simp [h]

theorem tryRemove_self {d : Dir} {stuck : String → Bool} {name : String} (h : stuck name = false) : d.tryRemove stuck name name = none := by
  simp [Dir.tryRemove, Dir.remove, h]

theorem tryRemove_second {d : Dir} {stuck : String → Bool} {a b : String} (h : stuck a = false) : (d.tryRemove stuck a).tryRemove stuck b a = none := by
  by_cases hab : a = b
  · subst hab; exact tryRemove_self h
  · rw [tryRemove_other hab]; exact tryRemove_self h

/-! ## C46 unsupported classes -/

/-- C46, Clp: a problem that is not an `Lp` gives an error, and the directory is as before: no file is created, written or removed and
no command is run. (The problem is read only: in the model it is not even part of the result.) -/
theorem C46_clp {ps : Params F} {env : CmdEnv F} {prob : Problem F} {d : Dir} (h : ∀ q, prob ≠ .lp q) :
    clpSolve ps env prob d = .ok (d, .error "problem type not supported") := by
  cases prob with
  | lp q => exact absurd rfl (h q)
  | _ => rfl

/-- C46, Cbc: the same for a problem that is neither an `Lp` nor a `Milp`. -/
theorem C46_cbc {ps : Params F} {env : CmdEnv F} {prob : Problem F} {d : Dir} (h : ∀ q, prob ≠ .lp q) (h' : ∀ q, prob ≠ .milp q) :
    cbcSolve ps env prob d = .ok (d, .error "problem type not supported") := by
  cases prob with
  | lp q => exact absurd rfl (h q)
  | milp q => exact absurd rfl (h' q)
  | _ => rfl

/-- C46: a problem of a supported class (`Lp` for Clp; `Lp` and `Milp` for Cbc) is not refused for its class: if the file names are found,
the input file is written and the level is set, then the command is run, and a command that succeeds and whose solution file
can be read gives a status and a solution. -/
theorem C46_accepts {cbc : Bool} {ps : Params F} {env : CmdEnv F} {prob : Problem F} {d d' : Dir} {r : Except String (Status × Sol F)}
    (hsup : prob.SupportedBy cbc) (h : (if cbc then cbcSolve else clpSolve) ps env prob d = .ok (d', r)) :
    r ≠ .error "problem type not supported" ∧
    ∀ q input output text level s sol, prob = .milp q ∨ (∃ q', prob = .lp q' ∧ q = q'.baseMilp) → env.tempIn = some input →
      env.tempOut = some output → input ≠ output → env.writeEnd = .written → q.lpText env.fmtE = .ok text →
      getParam ps "logLevel" = some (.int level) →
      (env.command (if cbc then "cbc" else "clp") [input, "logLevel", toString (level : Int), "printingOptions", "all", "solve", "solution", output] (d.write input (fileOf text))).2 = true →
      readSolFile env.parseF ((env.command (if cbc then "cbc" else "clp") [input, "logLevel", toString (level : Int), "printingOptions", "all", "solve", "solution", output] (d.write input (fileOf text))).1 output) q cbc =
        .ok (some (s, sol)) → r = .ok (s, sol) := by
  have key : ∀ q0, cmdSolve cbc ps env q0 d = .ok (d', r) → r ≠ .error "problem type not supported" := by
    intro q0 h0
    unfold cmdSolve at h0
    split at h0
    · simp only [Except.ok.injEq, Prod.mk.injEq] at h0
      rw [← h0.2]; simp
    split at h0
    · simp only [Except.ok.injEq, Prod.mk.injEq] at h0
      rw [← h0.2]; simp
    rw [R.bind_ok_iff] at h0
    obtain ⟨⟨d1, written⟩, -, h0⟩ := h0
    dsimp only at h0
    split at h0
    · simp only [Except.ok.injEq, Prod.mk.injEq] at h0
      rw [← h0.2]; simp
    split at h0
    · split at h0
      · simp only [Except.ok.injEq, Prod.mk.injEq] at h0
        rw [← h0.2]; cases cbc <;> simp
      · rw [R.bind_ok_iff] at h0
        obtain ⟨o, -, h0⟩ := h0
        cases o with
        | none =>
          simp only [Except.ok.injEq, Prod.mk.injEq] at h0
          rw [← h0.2]; cases cbc <;> simp
        | some sr =>
          simp only [Except.ok.injEq, Prod.mk.injEq] at h0
          rw [← h0.2]; simp
    · simp only [Except.ok.injEq, Prod.mk.injEq] at h0
      rw [← h0.2]; simp
  have key2 : ∀ q input output text level s sol, cmdSolve cbc ps env q d = .ok (d', r) → env.tempIn = some input →
      env.tempOut = some output → input ≠ output → env.writeEnd = .written → q.lpText env.fmtE = .ok text →
      getParam ps "logLevel" = some (.int level) →
      (env.command (cmdName cbc) (cmdArgs input output level) (d.write input (fileOf text))).2 = true →
      readSolFile env.parseF ((env.command (cmdName cbc) (cmdArgs input output level) (d.write input (fileOf text))).1 output) q cbc =
        .ok (some (s, sol)) → r = .ok (s, sol) := by
    intro q input output text level s sol h0 h1 h2 h3 h4 h5 h6 h7 h8
    have h3' : ¬ output = input := fun h => h3 h.symm
    have hr : (env.command (cmdName cbc) (cmdArgs input output level) (d.write input (fileOf text))).1.tryRemove env.stuck input output =
        (env.command (cmdName cbc) (cmdArgs input output level) (d.write input (fileOf text))).1 output := tryRemove_other h3'
    unfold cmdSolve writeLp at h0
    simp only [h1, h2, h4, h5, h6, h7, R.ok_bind, Bool.not_true, Bool.false_eq_true, if_false, hr, h8, Except.ok.injEq, Prod.mk.injEq] at h0
    exact h0.2.symm
  have hs : ∃ q0, (prob = .milp q0 ∨ ∃ q', prob = .lp q' ∧ q0 = q'.baseMilp) ∧ cmdSolve cbc ps env q0 d = .ok (d', r) := by
    rcases hsup with ⟨q, rfl⟩ | ⟨rfl, q, rfl⟩
    · refine ⟨q.baseMilp, .inr ⟨q, rfl, rfl⟩, ?_⟩
      cases cbc
      · exact h
      · exact h
    · exact ⟨q, .inl rfl, h⟩
  obtain ⟨q0, hq0, hs⟩ := hs
  refine ⟨key _ hs, fun q input output text level s sol hq => ?_⟩
  have : q = q0 := by
    rcases hq with rfl | ⟨q', rfl, rfl⟩ <;> rcases hq0 with hq0 | ⟨q1, hq0, rfl⟩
    · injection hq0
    · cases hq0
    · cases hq0
    · injection hq0 with hq0; rw [hq0]
  subst this
  exact key2 q input output text level s sol hs

/-! ## C50 no files are left -/

/-- What is left after the steps of `solve`, if the parameter `logLevel` has an integer value. -/
theorem cmdSolve_left {cbc : Bool} {ps : Params F} {env : CmdEnv F} {q : Milp F} {d d' : Dir} {r : Except String (Status × Sol F)}
    (hlevel : ∃ i, getParam ps "logLevel" = some (.int i)) (h : cmdSolve cbc ps env q d = .ok (d', r)) :
    ((env.tempIn = none ∨ env.tempOut = none) ∧ d' = d) ∨
    ∃ input output, env.tempIn = some input ∧ env.tempOut = some output ∧ (env.stuck input = false → d' input = none) ∧ (env.stuck output = false → d' output = none) ∧
      ((∀ name, name ≠ input → name ≠ output → d' name = d name) ∨
       ∃ text level, q.lpText env.fmtE = .ok text ∧ getParam ps "logLevel" = some (.int level) ∧ ∀ name, name ≠ input → name ≠ output →
         d' name = (env.command (cmdName cbc) (cmdArgs input output level) (d.write input (fileOf text))).1 name) := by
  unfold cmdSolve at h
  cases hin : env.tempIn with
  | none =>
    simp only [hin, Except.ok.injEq, Prod.mk.injEq] at h
    exact .inl ⟨.inl rfl, h.1.symm⟩
  | some input =>
    cases hout : env.tempOut with
    | none =>
      simp only [hin, hout, Except.ok.injEq, Prod.mk.injEq] at h
      exact .inl ⟨.inr rfl, h.1.symm⟩
    | some output =>
      right
      simp only [hin, hout] at h
      obtain ⟨level, hl⟩ := hlevel
      rw [R.bind_ok_iff] at h
      obtain ⟨⟨d1, written⟩, hw, h⟩ := h
      have hd1 : (written = false ∧ ∀ name, name ≠ input → d1 name = d name) ∨ (written = true ∧ ∃ text, q.lpText env.fmtE = .ok text ∧ d1 = d.write input (fileOf text)) := by
        unfold writeLp at hw
        split at hw
        · simp only [Except.ok.injEq, Prod.mk.injEq] at hw
          obtain ⟨rfl, rfl⟩ := hw
          exact .inl ⟨rfl, fun _ _ => rfl⟩
        · rw [R.bind_ok_iff] at hw
          obtain ⟨_, -, hw⟩ := hw
          simp only [Except.ok.injEq, Prod.mk.injEq] at hw
          obtain ⟨rfl, rfl⟩ := hw
          exact .inl ⟨rfl, fun name hn => by simp [Dir.write, hn]⟩
        · rw [R.bind_ok_iff] at hw
          obtain ⟨text, ht, hw⟩ := hw
          simp only [Except.ok.injEq, Prod.mk.injEq] at hw
          obtain ⟨rfl, rfl⟩ := hw
          exact .inr ⟨rfl, _, ht, rfl⟩
      refine ⟨input, output, rfl, rfl, ?_⟩
      rcases hd1 with ⟨rfl, hd1⟩ | ⟨rfl, text, ht, rfl⟩
      · simp only [Bool.not_false, if_true, Except.ok.injEq, Prod.mk.injEq] at h
        obtain ⟨rfl, -⟩ := h
        refine ⟨fun hs => tryRemove_second hs, fun hs => tryRemove_self hs, .inl fun name h1 h2 => ?_⟩
        rw [tryRemove_other h2, tryRemove_other h1, hd1 name h1]
      · simp only [Bool.not_true, Bool.false_eq_true, if_false, hl] at h
        cases hc : env.command (cmdName cbc) (cmdArgs input output level) (d.write input (fileOf text)) with
        | mk d2 done =>
        simp only [hc] at h
        have hd' : d' = (d2.tryRemove env.stuck input).tryRemove env.stuck output := by
          cases done
          · simp only [Bool.not_false, if_true, Except.ok.injEq, Prod.mk.injEq] at h
            exact h.1.symm
          · simp only [Bool.not_true, Bool.false_eq_true, if_false] at h
            rw [R.bind_ok_iff] at h
            obtain ⟨o, -, h⟩ := h
            cases o with
            | none =>
              simp only [Except.ok.injEq, Prod.mk.injEq] at h
              exact h.1.symm
            | some sr =>
              obtain ⟨s, sol⟩ := sr
              simp only [Except.ok.injEq, Prod.mk.injEq] at h
              exact h.1.symm
        subst hd'
        refine ⟨fun hs => tryRemove_second hs, fun hs => tryRemove_self hs, .inr ⟨text, level, ht, hl, fun name h1 h2 => ?_⟩⟩
        rw [hc, tryRemove_other h2, tryRemove_other h1]

/-- C50: parameters that are set with `set_param` (whatever calls, whatever results): when `solve` of Clp or Cbc returns, either no
names for the files were found and the directory is as before, or the files with the names it used do not exist, except those that the system refuses
to remove, and all other files are as before or as the external command left them. The command is any function on the directory that may fail; it is
given the problem as an LP file. Creating and writing the input file may fail. -/
theorem C50_no_files {cbc : Bool} {calls : List (String × SolverParam F)} {env : CmdEnv F} {prob : Problem F} {d d' : Dir}
    {r : Except String (Status × Sol F)}
    (h : (if cbc then cbcSolve (setParams cbcParams calls) else clpSolve (setParams clpParams calls)) env prob d = .ok (d', r)) :
    d' = d ∨
    ∃ input output, env.tempIn = some input ∧ env.tempOut = some output ∧ (env.stuck input = false → d' input = none) ∧ (env.stuck output = false → d' output = none) ∧
      ((∀ name, name ≠ input → name ≠ output → d' name = d name) ∨
       ∃ q text, ∃ level : Int, prob.IsMilp q ∧ q.lpText env.fmtE = .ok text ∧ ∀ name, name ≠ input → name ≠ output →
         d' name = (env.command (if cbc then "cbc" else "clp") [input, "logLevel", toString level, "printingOptions", "all", "solve", "solution", output]
           (d.write input (fileOf text))).1 name) := by
  have key : ∀ (ps : Params F) (q : Milp F), prob.IsMilp q → (∃ i, getParam ps "logLevel" = some (.int i)) →
      cmdSolve cbc ps env q d = .ok (d', r) → d' = d ∨
      ∃ input output, env.tempIn = some input ∧ env.tempOut = some output ∧ (env.stuck input = false → d' input = none) ∧ (env.stuck output = false → d' output = none) ∧
        ((∀ name, name ≠ input → name ≠ output → d' name = d name) ∨
         ∃ q text, ∃ level : Int, prob.IsMilp q ∧ q.lpText env.fmtE = .ok text ∧ ∀ name, name ≠ input → name ≠ output →
           d' name = (env.command (cmdName cbc) (cmdArgs input output level) (d.write input (fileOf text))).1 name) := by
    intro ps q hq hl hs
    rcases cmdSolve_left hl hs with ⟨-, h⟩ | ⟨input, output, h1, h2, h3, h4, h5⟩
    · exact .inl h
    · refine .inr ⟨input, output, h1, h2, h3, h4, ?_⟩
      rcases h5 with h5 | ⟨text, level, ht, -, h5⟩
      · exact .inl h5
      · exact .inr ⟨q, text, level, hq, ht, h5⟩
  have hlev := C45_solvers (F := F) calls
  cases cbc
  · simp only [Bool.false_eq_true, if_false] at h
    unfold clpSolve at h
    split at h
    · exact key _ _ (.inr ⟨_, rfl, rfl⟩) hlev.1 h
    · simp only [Except.ok.injEq, Prod.mk.injEq] at h
      exact .inl h.1.symm
  · simp only [if_true] at h
    unfold cbcSolve at h
    split at h
    · exact key _ _ (.inl rfl) hlev.2.1 h
    · exact key _ _ (.inr ⟨_, rfl, rfl⟩) hlev.2.1 h
    · simp only [Except.ok.injEq, Prod.mk.injEq] at h
      exact .inl h.1.symm

/-- C50: removals that fail do not change what `solve` returns. -/
theorem C50_failed_removal {cbc : Bool} {ps : Params F} {env : CmdEnv F} {prob : Problem F} {d : Dir} (stuck : String → Bool)
    (hne : ∀ name, ¬ (env.tempIn = some name ∧ env.tempOut = some name)) :
    ((if cbc then cbcSolve else clpSolve) ps { env with stuck := stuck } prob d).map Prod.snd = ((if cbc then cbcSolve else clpSolve) ps env prob d).map Prod.snd := by
  have key : ∀ q : Milp F, (cmdSolve cbc ps { env with stuck := stuck } q d).map Prod.snd = (cmdSolve cbc ps env q d).map Prod.snd := by
    intro q
    obtain ⟨fmtE, parseF, tempIn, tempOut, writeEnd, command, stuck'⟩ := env
    unfold cmdSolve
    cases tempIn with
    | none => rfl
    | some input =>
    cases tempOut with
    | none => rfl
    | some output =>
    have hio : output ≠ input := by
      rintro rfl
      exact hne _ ⟨rfl, rfl⟩
    have hw : writeLp ⟨fmtE, parseF, some input, some output, writeEnd, command, stuck⟩ q input d =
      writeLp ⟨fmtE, parseF, some input, some output, writeEnd, command, stuck'⟩ q input d := rfl
    simp only [hw]
    cases writeLp ⟨fmtE, parseF, some input, some output, writeEnd, command, stuck'⟩ q input d with
    | error e => rfl
    | ok r =>
      obtain ⟨d1, w⟩ := r
      cases w with
      | false => rfl
      | true =>
        simp only [R.ok_bind, Bool.not_true, Bool.false_eq_true, if_false]
        split
        · rename_i level _
          cases command (cmdName cbc) (cmdArgs input output level) d1 with
          | mk d2 ok =>
          cases ok with
          | false => rfl
          | true =>
            simp only [Bool.not_true, Bool.false_eq_true, if_false, tryRemove_other hio]
            cases readSolFile parseF (d2 output) q cbc with
            | error e => rfl
            | ok o => cases o <;> rfl
        · rfl
  cases cbc with
  | false =>
    cases prob with
    | lp q => exact key _
    | milp q => rfl
    | nlp q => rfl
    | minlp q => rfl
  | true =>
    cases prob with
    | lp q => exact key _
    | milp q => exact key _
    | nlp q => rfl
    | minlp q => rfl

/-- C50, a finding: the names are made for the directory of temporary files, but used in the working directory. A file of the user with such a name is lost,
also if `solve` fails to write the input file. -/
theorem C50_user_file {cbc : Bool} {ps : Params F} {env : CmdEnv F} {q : Milp F} {d : Dir} {input output : String} {data : FileData}
    (h1 : env.tempIn = some input) (h2 : env.tempOut = some output) (hfile : d output = some data) (h3 : env.writeEnd = .notCreated)
    (hs : env.stuck output = false) : ∃ d', cmdSolve cbc ps env q d = .ok (d', .error "failed to write lp file") ∧ d' output = none := by
  refine ⟨(d.tryRemove env.stuck input).tryRemove env.stuck output, ?_, tryRemove_self hs⟩
  unfold cmdSolve writeLp
  simp only [h1, h2, h3, R.ok_bind, Bool.not_false, if_true]

/-- C50 is false for parameters that are changed behind the interface (`get_params_mut`): without an integer `logLevel`, `solve` returns
an error after it has written the input file, and the input file stays. -/
theorem C50_counterexample {cbc : Bool} {ps : Params F} {env : CmdEnv F} {q : Milp F} {d : Dir} {input output : String} {text : List Char}
    (hlevel : ∀ i, getParam ps "logLevel" ≠ some (.int i)) (h1 : env.tempIn = some input) (h2 : env.tempOut = some output)
    (h3 : env.writeEnd = .written) (ht : q.lpText env.fmtE = .ok text) :
    ∃ d', cmdSolve cbc ps env q d = .ok (d', .error "unable to get parameter logLevel") ∧ d' input = some (fileOf text) := by
  refine ⟨d.write input (fileOf text), ?_, by simp [Dir.write]⟩
  unfold cmdSolve writeLp
  simp only [h1, h2, h3, ht, R.ok_bind, Bool.not_true, Bool.false_eq_true, if_false]

/-- C49, C47 for `solve`: a status and a solution that Clp or Cbc returns are those of the file that the command, given the problem as
an LP file, leaves under the name of the output file; the input file was written completely and the command did not fail. -/
theorem C49_solve {cbc : Bool} {ps : Params F} {env : CmdEnv F} {prob : Problem F} {d d' : Dir} {s : Status} {sol : Sol F}
    (h : (if cbc then cbcSolve else clpSolve) ps env prob d = .ok (d', .ok (s, sol))) :
    ∃ q input output text, ∃ level : Int, prob.IsMilp q ∧ env.tempIn = some input ∧ env.tempOut = some output ∧
      q.lpText env.fmtE = .ok text ∧ getParam ps "logLevel" = some (.int level) ∧ env.writeEnd = .written ∧
      (env.command (if cbc then "cbc" else "clp") [input, "logLevel", toString level, "printingOptions", "all", "solve", "solution", output]
        (d.write input (fileOf text))).2 = true ∧
      (input ≠ output → readSolFile env.parseF
        ((env.command (if cbc then "cbc" else "clp") [input, "logLevel", toString level, "printingOptions", "all", "solve", "solution", output]
          (d.write input (fileOf text))).1 output) q cbc = .ok (some (s, sol))) := by
  have key : ∀ q, prob.IsMilp q → cmdSolve cbc ps env q d = .ok (d', .ok (s, sol)) →
      ∃ q input output text, ∃ level : Int, prob.IsMilp q ∧ env.tempIn = some input ∧ env.tempOut = some output ∧
      q.lpText env.fmtE = .ok text ∧ getParam ps "logLevel" = some (.int level) ∧ env.writeEnd = .written ∧
      (env.command (cmdName cbc) (cmdArgs input output level) (d.write input (fileOf text))).2 = true ∧
      (input ≠ output → readSolFile env.parseF
        ((env.command (cmdName cbc) (cmdArgs input output level) (d.write input (fileOf text))).1 output) q cbc = .ok (some (s, sol))) := by
    intro q hq hs
    unfold cmdSolve at hs
    split at hs
    · simp at hs
    rename_i input hin
    split at hs
    · simp at hs
    rename_i output hout
    rw [R.bind_ok_iff] at hs
    obtain ⟨⟨d1, written⟩, hw, hs⟩ := hs
    dsimp only at hs
    split at hs
    · simp at hs
    rename_i hwr
    have hwr : written = true := by simpa using hwr
    subst hwr
    have hd1 : ∃ text, q.lpText env.fmtE = .ok text ∧ d1 = d.write input (fileOf text) ∧ env.writeEnd = .written := by
      unfold writeLp at hw
      split at hw
      · simp at hw
      · rw [R.bind_ok_iff] at hw
        obtain ⟨_, -, hw⟩ := hw
        simp at hw
      · rename_i hwe
        rw [R.bind_ok_iff] at hw
        obtain ⟨text, ht, hw⟩ := hw
        simp only [Except.ok.injEq, Prod.mk.injEq] at hw
        exact ⟨text, ht, hw.1.symm, hwe⟩
    obtain ⟨text, ht, rfl, hwe⟩ := hd1
    split at hs
    · rename_i level hl
      split at hs
      · simp at hs
      · rename_i hdone
        refine ⟨q, input, output, text, level, hq, hin, hout, ht, hl, hwe, by simpa using hdone, fun hne => ?_⟩
        rw [R.bind_ok_iff] at hs
        obtain ⟨o, ho, hs⟩ := hs
        cases o with
        | none => simp at hs
        | some sr =>
          obtain ⟨s', sol'⟩ := sr
          simp only [Except.ok.injEq, Prod.mk.injEq] at hs
          obtain ⟨-, rfl, rfl⟩ := hs
          have hne' : ¬ output = input := fun h => hne h.symm
          rwa [tryRemove_other hne'] at ho
    · simp at hs
  cases cbc with
  | false =>
    simp only [Bool.false_eq_true, if_false, clpSolve] at h
    split at h
    · exact key _ (.inr ⟨_, rfl, rfl⟩) h
    · simp at h
  | true =>
    simp only [if_true, cbcSolve] at h
    split at h
    · exact key _ (.inl rfl) h
    · exact key _ (.inr ⟨_, rfl, rfl⟩) h
    · simp at h

/-! ## C55 results fit the model -/

/-- The vectors of the solution have the dimensions of the problem. -/
def Sol.Fits (sol : Sol F) (q : Minlp F) : Prop :=
  sol.x.length = q.nx ∧ sol.lam.length = q.na ∧ sol.nu.length = q.nf ∧ sol.mu.length = q.nx ∧ sol.pi.length = q.nx

theorem insertDuals_total {v : List F} {es : List (Nat × Constraint F)} (h : ∀ e ∈ es, e.1 < v.length) (d : List (Constraint F × F)) :
    ∃ d', insertDuals v d es = .ok d' := by
  unfold insertDuals
  induction es generalizing d with
  | nil => exact ⟨d, rfl⟩
  | cons e es ih =>
    simp only [foldR, idx_of_lt (h e (by simp)), R.ok_bind]
    exact ih (fun e' he' => h e' (by simp [he'])) _

theorem insertN_total {v : List F} {es : List (Node F × Nat)} (h : ∀ e ∈ es, e.2 < v.length) (d : List (Node F × F)) :
    ∃ d', foldR (fun p e => do .ok (insertN p e.1 (← idx v e.2))) d es = .ok d' := by
  induction es generalizing d with
  | nil => exact ⟨d, rfl⟩
  | cons e es ih =>
    simp only [foldR, idx_of_lt (h e (by simp)), R.ok_bind]
    exact ih (fun e' he' => h e' (by simp [he'])) _

variable {H : HashOrder} {W : World F} {n m : Nat} {sp : StdProb F}

/-- Every index in the tables of a standard problem is one of the problem. -/
theorem tables_in_range (hr : ReachableW H W n) (h : W.m.stdProblem H n = .ok (sp, m)) {q : Minlp F} (hq : q ∈ sp.prob.views) :
    (∀ e ∈ sp.var2index, e.2 < q.nx) ∧ (∀ e ∈ sp.aindex2constr, e.1 < q.na) ∧ (∀ e ∈ sp.jindex2constr, e.1 < q.nf) ∧
    (∀ e ∈ sp.uindex2constr, e.1 < q.nx) ∧ (∀ e ∈ sp.lindex2constr, e.1 < q.nx) := by
  have hrows := (C22_rows hr h).1 q hq
  obtain ⟨hp, k, comp, e, ps, cols, xes, ves, hf, -⟩ := hr.facts h
  have hnx : q.nx = cols.length := by simp [Minlp.nx, (hf.view hq).a, stdA, Coo.cols]
  obtain ⟨k', -, hch⟩ := hf.mf.chain
  have hflen : comp.constr.f.length = (ps.filter Piece.isNl).length := by
    rw [hf.mf.constr]
    simp only [ConstrComp.concat, List.flatMap_map]
    clear hf hch
    induction ps with
    | nil => rfl
    | cons p ps ih =>
      have hp : p.out.f.length = if p.isNl then 1 else 0 := by simp only [Piece.out]; split <;> simp
      rw [List.flatMap_cons, List.length_append, ih, List.filter_cons, hp]
      split <;> simp; omega
  have hjr : sp.jindex2constr.map Prod.fst = List.range comp.constr.f.length := by
    rw [hf.jindex, hflen, List.range_eq_range', ← hch.nl]
    simp [Function.comp_def]
  have hnf : comp.constr.f.length ≤ q.nf := by
    have hlin : comp.constr.f = [] → comp.constr.f.length ≤ q.nf := fun h => by simp [h]
    have hmin : q = stdMinlp cols comp xes ves → comp.constr.f.length ≤ q.nf := by
      rintro rfl
      simp [stdMinlp, Minlp.initial, Minlp.nf, stdJ, zeroMat, Coo.rows]
    rw [hf.prob] at hq
    unfold stdProbOf at hq
    split at hq
    · rename_i hc; exact hlin hc.2
    · split at hq
      · simp only [Problem.views, List.mem_singleton] at hq
        exact hmin hq
      · simp only [Problem.views, List.mem_singleton] at hq
        exact hmin hq
  refine ⟨fun e he => ?_, fun e he => ?_, fun e he => ?_, fun e he => ?_, fun e he => ?_⟩
  · rw [hnx]
    obtain ⟨x, i⟩ := e
    rw [hf.mem_v2i] at he
    exact (List.getElem?_eq_some_iff.1 he).1
  · exact List.mem_range.1 (hrows ▸ List.mem_map.2 ⟨e, he, rfl⟩)
  · exact Nat.lt_of_lt_of_le (List.mem_range.1 (hjr ▸ List.mem_map.2 ⟨e, he, rfl⟩)) hnf
  · rw [hnx]
    obtain ⟨i, c⟩ := e
    rw [← getNat_mem hf.uidx.nodup, hf.uidx.get] at he
    obtain ⟨x, hx, -⟩ := Option.bind_eq_some_iff.1 he
    exact (List.getElem?_eq_some_iff.1 hx).1
  · rw [hnx]
    obtain ⟨i, c⟩ := e
    rw [← getNat_mem hf.lidx.nodup, hf.lidx.get] at he
    obtain ⟨x, hx, -⟩ := Option.bind_eq_some_iff.1 he
    exact (List.getElem?_eq_some_iff.1 hx).1

/-- C55 for any solver: if the solver returns, and a returned solution has the dimensions of the problem it was given, then `solve` of
the model does not panic after the solver: it returns, with the error or the status of the solver. -/
theorem C55_fits (hr : ReachableW H W n) (h : W.m.stdProblem H n = .ok (sp, m)) {solver : SolverFn F}
    {r : Except String (Status × Sol F)} (hs : solver sp.prob = .ok r)
    (hfit : ∀ status sol, r = .ok (status, sol) → ∃ q ∈ sp.prob.views, sol.Fits q) :
    ∃ res mod' m', W.m.solve H solver n = .ok ((res, mod'), m') ∧
      (∀ e, r = .error e → res = .error e) ∧ (∀ status sol, r = .ok (status, sol) → res = .ok () ∧ mod'.solverStatus = some status) := by
  unfold Model.solve
  have h' : ({ W.m with finalPrimals := [], finalDuals := [], solverStatus := none } : Model F).stdProblem H n = .ok (sp, m) := by
    rw [← h]; rfl
  simp only [M.bind_ok_eq h', M.bind_ok_eq (M.ofR_ok.2 ⟨hs, rfl⟩)]
  cases r with
  | error e => exact ⟨_, _, _, rfl, fun e' he' => (by cases he'; rfl), fun _ _ h => (by cases h)⟩
  | ok p =>
    obtain ⟨status, sol⟩ := p
    obtain ⟨q, hq, f1, f2, f3, f4, f5⟩ := hfit status sol rfl
    obtain ⟨t1, t2, t3, t4, t5⟩ := tables_in_range hr h hq
    dsimp only
    obtain ⟨p1, e1⟩ := insertN_total (v := sol.x) (es := H.order m (Node F × Nat) sp.var2index)
      (fun e he => by rw [f1]; exact t1 e ((H.perm _ _ _).mem_iff.1 he)) []
    rw [M.bind_ok_eq (HashOrder.iter_ok.2 ⟨rfl, rfl⟩), M.bind_ok_eq (M.ofR_ok.2 ⟨e1, rfl⟩)]
    obtain ⟨d1, e1⟩ := insertDuals_total (v := sol.lam) (es := H.order (m + 1) _ sp.aindex2constr)
      (fun e he => by rw [f2]; exact t2 e ((H.perm _ _ _).mem_iff.1 he)) []
    rw [M.bind_ok_eq (HashOrder.iter_ok.2 ⟨rfl, rfl⟩), M.bind_ok_eq (M.ofR_ok.2 ⟨e1, rfl⟩)]
    obtain ⟨d2, e1⟩ := insertDuals_total (v := sol.nu) (es := H.order (m + 1 + 1) _ sp.jindex2constr)
      (fun e he => by rw [f3]; exact t3 e ((H.perm _ _ _).mem_iff.1 he)) d1
    rw [M.bind_ok_eq (HashOrder.iter_ok.2 ⟨rfl, rfl⟩), M.bind_ok_eq (M.ofR_ok.2 ⟨e1, rfl⟩)]
    obtain ⟨d3, e1⟩ := insertDuals_total (v := sol.mu) (es := H.order (m + 1 + 1 + 1) _ sp.uindex2constr)
      (fun e he => by rw [f4]; exact t4 e ((H.perm _ _ _).mem_iff.1 he)) d2
    rw [M.bind_ok_eq (HashOrder.iter_ok.2 ⟨rfl, rfl⟩), M.bind_ok_eq (M.ofR_ok.2 ⟨e1, rfl⟩)]
    obtain ⟨d4, e1⟩ := insertDuals_total (v := sol.pi) (es := H.order (m + 1 + 1 + 1 + 1) _ sp.lindex2constr)
      (fun e he => by rw [f5]; exact t5 e ((H.perm _ _ _).mem_iff.1 he)) d3
    rw [M.bind_ok_eq (HashOrder.iter_ok.2 ⟨rfl, rfl⟩), M.bind_ok_eq (M.ofR_ok.2 ⟨e1, rfl⟩)]
    refine ⟨.ok (), _, _, rfl, fun _ h => (by cases h), fun status' sol' he => ⟨rfl, ?_⟩⟩
    simp only [Except.ok.injEq, Prod.mk.injEq] at he
    rw [he.1]

/-- The command-line solvers as solvers of a model: with parameters, in an environment, in a directory. -/
def clpFn (ps : Params F) (env : CmdEnv F) (d : Dir) : SolverFn F := fun prob => do .ok (← clpSolve ps env prob d).2

def cbcFn (ps : Params F) (env : CmdEnv F) (d : Dir) : SolverFn F := fun prob => do .ok (← cbcSolve ps env prob d).2

/-- A solution that the steps of `solve` return has the dimensions of the problem, whatever the command does. -/
theorem cmdSolve_dims {cbc : Bool} {ps : Params F} {env : CmdEnv F} {q : Milp F} {d d' : Dir} {s : Status} {sol : Sol F}
    (h : cmdSolve cbc ps env q d = .ok (d', .ok (s, sol))) :
    sol.x.length = q.nx ∧ sol.lam.length = q.na ∧ sol.nu = [] ∧ sol.mu.length = q.nx ∧ sol.pi.length = q.nx := by
  unfold cmdSolve at h
  split at h
  · simp at h
  split at h
  · simp at h
  rw [R.bind_ok_iff] at h
  obtain ⟨⟨d1, written⟩, -, h⟩ := h
  dsimp only at h
  split at h
  · simp at h
  split at h
  · split at h
    · simp at h
    · rw [R.bind_ok_iff] at h
      obtain ⟨o, ho, h⟩ := h
      cases o with
      | none => simp at h
      | some sr =>
        obtain ⟨s', sol'⟩ := sr
        simp only [Except.ok.injEq, Prod.mk.injEq] at h
        obtain ⟨-, rfl, rfl⟩ := h
        exact C47_dims ho
  · simp at h

/-- C55: a model whose standard problem is an `Lp` (for Clp or Cbc) or a `Milp` (for Cbc): for every behaviour of the file system and
of the external command for which the solver itself returns, `solve` of the model returns; no index of the model is out of range
for the solution. -/
theorem C55_cmd (hr : ReachableW H W n) (h : W.m.stdProblem H n = .ok (sp, m)) {ps : Params F} {env : CmdEnv F} {d : Dir}
    {solver : SolverFn F} (hsolver : solver = clpFn ps env d ∨ solver = cbcFn ps env d) {r : Except String (Status × Sol F)}
    (hs : solver sp.prob = .ok r) :
    ∃ res mod' m', W.m.solve H solver n = .ok ((res, mod'), m') ∧
      (∀ e, r = .error e → res = .error e) ∧ (∀ status sol, r = .ok (status, sol) → res = .ok () ∧ mod'.solverStatus = some status) := by
  refine C55_fits hr h hs ?_
  rintro status sol rfl
  have key : ∀ (cbc : Bool) (q : Milp F) (dd : Dir), q.base ∈ sp.prob.views → q.c.length = q.base.nx → q.base.nf = 0 →
      cmdSolve cbc ps env q d = .ok (dd, .ok (status, sol)) → ∃ q ∈ sp.prob.views, sol.Fits q := by
    intro cbc q dd hq h1 h2 hc
    obtain ⟨f1, f2, f3, f4, f5⟩ := cmdSolve_dims hc
    refine ⟨q.base, hq, f1.trans h1, f2, ?_, f4.trans h1, f5.trans h1⟩
    rw [f3, h2]; rfl
  obtain ⟨hp, k, comp, e, pcs, cols, xes, ves, hf, -⟩ := hr.facts h
  have hlin : ∀ q, (sp.prob = .milp q ∨ ∃ q', sp.prob = .lp q' ∧ q = q'.baseMilp) →
      q.base ∈ sp.prob.views ∧ q.c.length = q.base.nx ∧ q.base.nf = 0 := by
    intro q hq
    have : q = ⟨stdC cols comp, stdLinear cols comp xes⟩ := by
      rw [hf.prob] at hq
      unfold stdProbOf at hq
      split at hq
      · split at hq
        · rcases hq with hq | ⟨q', hq, rfl⟩
          · cases hq
          · injection hq with hq; rw [← hq]
        · rcases hq with hq | ⟨q', hq, rfl⟩
          · injection hq with hq; rw [← hq]
          · cases hq
      · split at hq
        · rcases hq with hq | ⟨q', hq, rfl⟩ <;> cases hq
        · rcases hq with hq | ⟨q', hq, rfl⟩ <;> cases hq
    refine ⟨?_, ?_, ?_⟩
    · rcases hq with hq | ⟨q', hq, rfl⟩ <;> rw [hq] <;> simp [Problem.views]
    · rw [this]; simp [stdC, stdLinear, Minlp.initial, Minlp.nx, stdA, Coo.cols]
    · rw [this]; simp [stdLinear, Minlp.initial, Minlp.nf, Coo.fromNnz, Coo.rows]
  rcases hsolver with rfl | rfl
  · unfold clpFn at hs
    rw [R.bind_ok_iff] at hs
    obtain ⟨⟨dd, r'⟩, hc, hs⟩ := hs
    simp only [Except.ok.injEq] at hs
    subst hs
    unfold clpSolve at hc
    split at hc
    · rename_i q hq
      obtain ⟨a1, a2, a3⟩ := hlin q.baseMilp (.inr ⟨q, hq, rfl⟩)
      exact key _ _ _ a1 a2 a3 hc
    · simp at hc
  · unfold cbcFn at hs
    rw [R.bind_ok_iff] at hs
    obtain ⟨⟨dd, r'⟩, hc, hs⟩ := hs
    simp only [Except.ok.injEq] at hs
    subst hs
    unfold cbcSolve at hc
    split at hc
    · rename_i q hq
      obtain ⟨a1, a2, a3⟩ := hlin q (.inl hq)
      exact key _ _ _ a1 a2 a3 hc
    · rename_i q hq
      obtain ⟨a1, a2, a3⟩ := hlin q.baseMilp (.inr ⟨q, hq, rfl⟩)
      exact key _ _ _ a1 a2 a3 hc
    · simp at hc

end

/-! ## Concrete cases -/

/-- An environment in which everything works; the command leaves the solution `x_0 = 2` and a log file. -/
def exEnv : CmdEnv Q where
  fmtE := fmtQ
  parseF := digitQ
  tempIn := some "clp1.lp"
  tempOut := some "clp1.sol"
  writeEnd := .written
  command := fun _ _ d => ((d.write "clp1.sol" (fileOf "optimal\nobjective value 2\n 0 x_0 2 1\n".toList)).write "log" [], true)

/-- What is left of three files, and the result. -/
def leftOf (r : R (Dir × Except String (Status × Sol Q))) : Option (List Bool × Option (Status × Sol Q)) :=
  r.toOption.map fun r => (["clp1.lp", "clp1.sol", "log"].map fun n => (r.1 n).isSome, r.2.toOption)

/-- Non-vacuity of C50 and C49: `solve` of Clp returns a solution, and of the files only the log of the command is left. -/
example : (exMilp.bind fun q => leftOf (cmdSolve false (setParams clpParams [("logLevel", .int 0), ("logLevel", .str "a")]) exEnv q
      fun _ => none)) =
    some ([false, false, true], some (.solved, ⟨[some 2, some 0], [some 0], [], [some 0, some 0], [some 1, some 0]⟩)) := by
  decide +kernel

/-- The hypotheses of the counterexample of C50 can be met: the parameter was removed. -/
example : (exMilp.map fun q => (cmdSolve false [] exEnv q fun _ => none).toOption.map fun r => (r.1 "clp1.lp").isSome) = some (some true) := by
  decide +kernel

/-- Non-vacuity of C55: the model `minimize x subject to x >= 2, x <= 5`, solved by Clp; the result of `solve`, the status and the
primals. -/
example : ReachableW HashOrder.listOrder (worldOf exLp) (wcount exLp) ∧
    ((worldOf exLp).m.solve HashOrder.listOrder (clpFn clpParams exEnv fun _ => none) (wcount exLp)).toOption.map
      (fun r => (r.1.1.toOption, r.1.2.solverStatus, r.1.2.finalPrimals.map Prod.snd)) = some (some (), some .solved, [some 2]) :=
  ⟨(runsW_reachable (by decide +kernel) (by decide +kernel) : ReachableApiW _ _ _).reachable, by decide +kernel⟩

/-- Non-vacuity of `C46_accepts`: Clp returns a solution for a problem of class `Lp`, Cbc one for a problem of class `Milp`. -/
example : (Problem.milp exMilp2).SupportedBy true ∧
    (leftOf (cbcSolve cbcParams { exEnv with command := fun _ _ d => (d.write "clp1.sol" (fileOf "Optimal\n 0 x_0 2 1\n".toList), true) }
      (.milp exMilp2) fun _ => none)) = some ([false, false, false], some (.solved, ⟨[some 2, some 0], [some 0], [], [some 0, some 0], [some 1, some 0]⟩)) :=
  ⟨.inr ⟨rfl, _, rfl⟩, by decide +kernel⟩

/-- Non-vacuity of C46: there are problems of a class that Clp does not support. -/
example : ∃ prob : Problem Q, ∀ q, prob ≠ .lp q := ⟨.milp exMilp2, fun _ h => by cases h⟩

end Verif
