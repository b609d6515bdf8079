import Verif.Code.CmdSolver

/-!
# The command-line solvers, step by step: src/solver/clp_cmd.rs:47-132, src/solver/cbc_cmd.rs:153-236

`Code/CmdSolver` models a call of `solve` as one function of the working directory. Here the same call is a program whose
accesses to the directory are separate steps, so that other programs can act between them and so that it can stop anywhere.
-/

namespace Verif

variable {F : Type} [FloatOps F]

/-- A call of `solve`: the solver, its parameters, what it takes from its environment, and the problem.
Code: src/solver/clp_cmd.rs:47, src/solver/cbc_cmd.rs:153. -/
structure CmdCall (F : Type) where
  cbc : Bool
  ps : Params F
  env : CmdEnv F
  prob : Problem F

/-- The problem that is written, src/solver/clp_cmd.rs:49-53, src/solver/cbc_cmd.rs:155-160 -/
def CmdCall.milp (c : CmdCall F) : Option (Milp F) :=
  match c.prob with
  | .lp q => some q.baseMilp
  | .milp q => if c.cbc then some q else none
  | _ => none

/-- Where a call is. Code: the positions in src/solver/clp_cmd.rs:47-132 and src/solver/cbc_cmd.rs:153-236 named at each. -/
inductive CmdPc (F : Type) where
  /-- before the input file is created, cbc_cmd.rs:155 -/
  | start
  /-- the input file is open in `write_to_lp_file`, cbc_cmd.rs:183 -/
  | writing
  /-- the input file is complete, cbc_cmd.rs:193 -/
  | wrote
  /-- the command runs, cbc_cmd.rs:207-208: the directory when it was started, the directory it leaves if it is left alone, and whether it succeeds -/
  | running (before after : Dir) (ok : Bool)
  /-- the command has ended, before the input file is removed, cbc_cmd.rs:218 -/
  | ran
  /-- before the solution file is read, cbc_cmd.rs:221 -/
  | reading
  /-- an error before the removal of the input file, cbc_cmd.rs:186 and 211 -/
  | failing (msg : String)
  /-- before the removal of the output file, cbc_cmd.rs:187, 212, 224, 230 -/
  | removing (r : Except String (Status × Sol F))
  /-- returned -/
  | done (r : Except String (Status × Sol F))
  /-- panicked -/
  | panicked (p : Panic)

/-- One step of a call. Between the creation of the input file and the end of `write_to_lp_file` the file may hold anything (`part`), and while the
command runs it may do anything to the two files of the call (`work`); when it ends it has made the changes that it makes if it is left alone (`ends`).
Simplification: the solution file is read in one step. Code: src/solver/clp_cmd.rs:47-132, src/solver/cbc_cmd.rs:153-236, src/problem/milp.rs:112-202. -/
inductive CmdStep (c : CmdCall F) : CmdPc F → Dir → CmdPc F → Dir → Prop where
  | unsupported {d} (h : c.milp = none) : CmdStep c .start d (.done (.error "problem type not supported")) d
  | noInput {q d} (h : c.milp = some q) (hi : c.env.tempIn = none) :
      CmdStep c .start d (.done (.error "failed to create input filename")) d
  | noOutput {q i d} (h : c.milp = some q) (hi : c.env.tempIn = some i) (ho : c.env.tempOut = none) :
      CmdStep c .start d (.done (.error "failed to create output filename")) d
  | notCreated {q i o d} (h : c.milp = some q) (hi : c.env.tempIn = some i) (ho : c.env.tempOut = some o) (hw : c.env.writeEnd = .notCreated) :
      CmdStep c .start d (.failing "failed to write lp file") d
  | create {q i o d} (h : c.milp = some q) (hi : c.env.tempIn = some i) (ho : c.env.tempOut = some o) (hw : c.env.writeEnd ≠ .notCreated) :
      CmdStep c .start d .writing (d.write i [])
  | part {i d} (hi : c.env.tempIn = some i) (data : FileData) : CmdStep c .writing d .writing (d.write i data)
  | textPanics {q p d} (h : c.milp = some q) (ht : q.lpText c.env.fmtE = .error p) : CmdStep c .writing d (.panicked p) d
  | writeFails {q i text data d} (h : c.milp = some q) (hi : c.env.tempIn = some i) (ht : q.lpText c.env.fmtE = .ok text)
      (hw : c.env.writeEnd = .failed data) : CmdStep c .writing d (.failing "failed to write lp file") (d.write i data)
  | writeEnds {q i text d} (h : c.milp = some q) (hi : c.env.tempIn = some i) (ht : q.lpText c.env.fmtE = .ok text)
      (hw : c.env.writeEnd = .written) : CmdStep c .writing d .wrote (d.write i (fileOf text))
  | noLevel {d} (h : ∀ level, getParam c.ps "logLevel" ≠ some (.int level)) :
      CmdStep c .wrote d (.done (.error "unable to get parameter logLevel")) d
  | spawn {i o level d} (hi : c.env.tempIn = some i) (ho : c.env.tempOut = some o) (h : getParam c.ps "logLevel" = some (.int level)) :
      CmdStep c .wrote d (.running d (c.env.command (cmdName c.cbc) (cmdArgs i o level) d).1 (c.env.command (cmdName c.cbc) (cmdArgs i o level) d).2) d
  | work {b a ok name d} (hn : c.env.tempIn = some name ∨ c.env.tempOut = some name) (data : Option FileData) :
      CmdStep c (.running b a ok) d (.running b a ok) (fun n => if n = name then data else d n)
  | ends {i o b a ok d} (hi : c.env.tempIn = some i) (ho : c.env.tempOut = some o) :
      CmdStep c (.running b a ok) d
        (if ok then .ran else .failing (if c.cbc then "failed executing cbc command" else "failed executing clp command"))
        (fun n => if n = i ∨ n = o ∨ a n ≠ b n then a n else d n)
  | removeInput {i d} (hi : c.env.tempIn = some i) : CmdStep c .ran d .reading (d.tryRemove c.env.stuck i)
  | readPanics {q o p d} (h : c.milp = some q) (ho : c.env.tempOut = some o) (hr : readSolFile c.env.parseF (d o) q c.cbc = .error p) :
      CmdStep c .reading d (.panicked p) d
  | readFails {q o d} (h : c.milp = some q) (ho : c.env.tempOut = some o) (hr : readSolFile c.env.parseF (d o) q c.cbc = .ok none) :
      CmdStep c .reading d (.removing (.error (if c.cbc then "failed to read cbc solution file" else "failed to read clp solution file"))) d
  | read {q o r d} (h : c.milp = some q) (ho : c.env.tempOut = some o) (hr : readSolFile c.env.parseF (d o) q c.cbc = .ok (some r)) :
      CmdStep c .reading d (.removing (.ok r)) d
  | cleanInput {i msg d} (hi : c.env.tempIn = some i) : CmdStep c (.failing msg) d (.removing (.error msg)) (d.tryRemove c.env.stuck i)
  | cleanOutput {o r d} (ho : c.env.tempOut = some o) : CmdStep c (.removing r) d (.done r) (d.tryRemove c.env.stuck o)

/-- `solve` as one function of the directory, src/solver/clp_cmd.rs:47-132, src/solver/cbc_cmd.rs:153-236 -/
def CmdCall.alone (c : CmdCall F) (d : Dir) : R (Dir × Except String (Status × Sol F)) :=
  (if c.cbc then cbcSolve else clpSolve) c.ps c.env c.prob d

end Verif
