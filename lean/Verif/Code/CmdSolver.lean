import Verif.Code.SolFile
import Verif.Code.LpFile
import Verif.Code.Param

/-!
# The command-line solvers: src/solver/clp_cmd.rs:42-132, src/solver/cbc_cmd.rs:148-236

Both run the same steps; they differ in the problem classes, the command and the words of the solution file.
-/

namespace Verif

/-- The working directory: the content of each file, `none` if there is no such file. Code: the files of src/solver/clp_cmd.rs:55-131 and src/solver/cbc_cmd.rs:162-235. -/
abbrev Dir := String → Option FileData

/-- A file is removed. Code: `remove_file` when it succeeds, src/solver/clp_cmd.rs:79-127 and src/solver/cbc_cmd.rs:186-231. -/
def Dir.remove (d : Dir) (name : String) : Dir := fun n => if n = name then none else d n

/-- `remove_file(name).ok()`: the removal may fail, which is ignored. Code: src/solver/clp_cmd.rs:79-127 and src/solver/cbc_cmd.rs:186-231. -/
def Dir.tryRemove (d : Dir) (stuck : String → Bool) (name : String) : Dir := if stuck name then d else d.remove name

/-- A file is created or overwritten. Code: `File::create` and `write`, src/problem/milp.rs:112-202. -/
def Dir.write (d : Dir) (name : String) (data : FileData) : Dir := fun n => if n = name then some data else d n

/-- How the writing of the input file ends. Code: the result of `write_to_lp_file`, src/problem/milp.rs:112-202. -/
inductive WriteEnd where
  /-- `File::create` fails -/
  | notCreated
  /-- a later write fails, with some content written -/
  | failed (data : FileData)
  | written

/-- Everything that the solver takes from its environment. Code: the formats of src/problem/milp.rs, the temporary files and the command of src/solver/clp_cmd.rs:55-131. -/
structure CmdEnv (F : Type) where
  fmtE : F → List Char
  parseF : List Char → Option F
  /-- names of the temporary files; `none` if the temporary file cannot be created -/
  tempIn : Option String
  tempOut : Option String
  writeEnd : WriteEnd
  /-- the external commands: the name of the program, its arguments and the directory before give the directory after, and whether `spawn` and
  `wait` succeed -/
  command : String → List String → Dir → Dir × Bool
  /-- the files that cannot be removed -/
  stuck : String → Bool := fun _ => false

variable {F : Type} [FloatOps F]

/-- `write_to_lp_file(name)`: src/problem/milp.rs:112-202 with the outcome decided by the environment. Simplification: if building the text panics, so does
this function, also if a write would have failed earlier. -/
def writeLp (env : CmdEnv F) (q : Milp F) (name : String) (d : Dir) : R (Dir × Bool) :=
  match env.writeEnd with
  | .notCreated => .ok (d, false)
  | .failed data => do
    let _ ← q.lpText env.fmtE
    .ok (d.write name data, false)
  | .written => do
    let text ← q.lpText env.fmtE
    .ok (d.write name (fileOf text), true)

/-- The name of the program: src/solver/clp_cmd.rs:92, src/solver/cbc_cmd.rs:199 -/
def cmdName (cbc : Bool) : String := if cbc then "cbc" else "clp"

/-- The arguments of the command: src/solver/clp_cmd.rs:94-101, src/solver/cbc_cmd.rs:200-207 -/
def cmdArgs (input output : String) (level : Int) : List String :=
  [input, "logLevel", toString level, "printingOptions", "all", "solve", "solution", output]

/-- src/solver/clp_cmd.rs:55-131, src/solver/cbc_cmd.rs:162-235: the steps of `solve` once the problem class is known. The result is the
directory and the result of `solve`. -/
def cmdSolve (cbc : Bool) (ps : Params F) (env : CmdEnv F) (q : Milp F) (d : Dir) : R (Dir × Except String (Status × Sol F)) :=
  match env.tempIn with
  | none => .ok (d, .error "failed to create input filename")
  | some input =>
  match env.tempOut with
  | none => .ok (d, .error "failed to create output filename")
  | some output => do
  let (d, written) ← writeLp env q input d
  if !written then .ok ((d.tryRemove env.stuck input).tryRemove env.stuck output, .error "failed to write lp file")
  else
    match getParam ps "logLevel" with
    | some (.int level) =>
      let (d, done) := env.command (cmdName cbc) (cmdArgs input output level) d
      if !done then .ok ((d.tryRemove env.stuck input).tryRemove env.stuck output, .error (if cbc then "failed executing cbc command" else "failed executing clp command"))
      else do
        let d := d.tryRemove env.stuck input
        match ← readSolFile env.parseF (d output) q cbc with
        | none => .ok (d.tryRemove env.stuck output, .error (if cbc then "failed to read cbc solution file" else "failed to read clp solution file"))
        | some (status, sol) => .ok (d.tryRemove env.stuck output, .ok (status, sol))
    | _ => .ok (d, .error "unable to get parameter logLevel")

/-- `solve` of Clp: src/solver/clp_cmd.rs:47-132 -/
def clpSolve (ps : Params F) (env : CmdEnv F) (prob : Problem F) (d : Dir) : R (Dir × Except String (Status × Sol F)) :=
  match prob with
  | .lp q => cmdSolve false ps env q.baseMilp d
  | _ => .ok (d, .error "problem type not supported")

/-- `solve` of Cbc: src/solver/cbc_cmd.rs:153-236 -/
def cbcSolve (ps : Params F) (env : CmdEnv F) (prob : Problem F) (d : Dir) : R (Dir × Except String (Status × Sol F)) :=
  match prob with
  | .milp q => cmdSolve true ps env q d
  | .lp q => cmdSolve true ps env q.baseMilp d
  | _ => .ok (d, .error "problem type not supported")

end Verif
