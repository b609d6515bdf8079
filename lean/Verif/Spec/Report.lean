import Verif.Code.CmdSolver
import Verif.Code.Ipopt

/-!
# What the solvers report when something fails
-/

namespace Verif

variable {F : Type} [FloatOps F]

/-- Clp solves `Lp` problems, Cbc solves `Lp` and `Milp` problems. -/
def Problem.SupportedBy (cbc : Bool) (prob : Problem F) : Prop := (∃ q, prob = .lp q) ∨ (cbc = true ∧ ∃ q, prob = .milp q)

/-- The `Milp` that an `Lp` or `Milp` is written as. -/
def Problem.IsMilp (prob : Problem F) (q : Milp F) : Prop := prob = .milp q ∨ ∃ q', prob = .lp q' ∧ q = q'.baseMilp

/-- The call of a command-line solver gets as far as running the command: the problem `q` is written to the file `input`, and the command is to write the
file `output`. -/
structure CmdStarts (cbc : Bool) (ps : Params F) (env : CmdEnv F) (prob : Problem F) (q : Milp F) (input output : String) (text : List Char)
    (level : Int) : Prop where
  supported : prob.SupportedBy cbc
  milp : prob.IsMilp q
  tempIn : env.tempIn = some input
  tempOut : env.tempOut = some output
  writes : env.writeEnd = .written
  text : q.lpText env.fmtE = .ok text
  level : getParam ps "logLevel" = some (.int level)

/-- What the command does, given the problem as an LP file: the files afterwards, and whether it could be run. -/
def CmdEnv.runs (env : CmdEnv F) (cbc : Bool) (input output : String) (text : List Char) (level : Int) (d : Dir) : Dir × Bool :=
  env.command (if cbc then "cbc" else "clp") [input, "logLevel", toString level, "printingOptions", "all", "solve", "solution", output]
    (d.write input (fileOf text))

/-- `CmdReport cbc ps env prob d r`: the result of solving `prob` with Clp (`cbc = false`) or Cbc is to be `r`. -/
inductive CmdReport (cbc : Bool) (ps : Params F) (env : CmdEnv F) (prob : Problem F) (d : Dir) : Except String (Status × Sol F) → Prop
  /-- the class of the problem is refused before anything else -/
  | unsupported (h : ¬ prob.SupportedBy cbc) : CmdReport cbc ps env prob d (.error "problem type not supported")
  | noInput (h : prob.SupportedBy cbc) (hi : env.tempIn = none) : CmdReport cbc ps env prob d (.error "failed to create input filename")
  | noOutput {input} (h : prob.SupportedBy cbc) (hi : env.tempIn = some input) (ho : env.tempOut = none) :
      CmdReport cbc ps env prob d (.error "failed to create output filename")
  /-- the file cannot be created; the problem is not looked at -/
  | notCreated {input output} (h : prob.SupportedBy cbc) (hi : env.tempIn = some input) (ho : env.tempOut = some output)
      (hw : env.writeEnd = .notCreated) : CmdReport cbc ps env prob d (.error "failed to write lp file")
  | notWritten {q input output data text} (h : prob.SupportedBy cbc) (hq : prob.IsMilp q) (hi : env.tempIn = some input) (ho : env.tempOut = some output)
      (hw : env.writeEnd = .failed data) (ht : q.lpText env.fmtE = .ok text) : CmdReport cbc ps env prob d (.error "failed to write lp file")
  | noLevel {q input output text} (h : prob.SupportedBy cbc) (hq : prob.IsMilp q) (hi : env.tempIn = some input) (ho : env.tempOut = some output)
      (hw : env.writeEnd = .written) (ht : q.lpText env.fmtE = .ok text) (hl : ∀ i, getParam ps "logLevel" ≠ some (.int i)) :
      CmdReport cbc ps env prob d (.error "unable to get parameter logLevel")
  | notRun {q input output text level} (h : CmdStarts cbc ps env prob q input output text level)
      (hr : (env.runs cbc input output text level d).2 = false) :
      CmdReport cbc ps env prob d (.error (if cbc then "failed executing cbc command" else "failed executing clp command"))
  /-- there is no output file, or it has a malformed line -/
  | notRead {q input output text level} (h : CmdStarts cbc ps env prob q input output text level)
      (hr : (env.runs cbc input output text level d).2 = true)
      (hs : readSolFile env.parseF ((env.runs cbc input output text level d).1 output) q cbc = .ok none) :
      CmdReport cbc ps env prob d (.error (if cbc then "failed to read cbc solution file" else "failed to read clp solution file"))
  | solution {q input output text level status sol} (h : CmdStarts cbc ps env prob q input output text level)
      (hr : (env.runs cbc input output text level d).2 = true)
      (hs : readSolFile env.parseF ((env.runs cbc input output text level d).1 output) q cbc = .ok (some (status, sol))) :
      CmdReport cbc ps env prob d (.ok (status, sol))

/-- The problem that Ipopt is given: of an `Nlp`, or of an `Lp` seen as one. -/
def Problem.IsNlp (prob : Problem F) (q : Minlp F) : Prop := prob = .nlp ⟨q⟩ ∨ ∃ p, prob = .lp p ∧ q = p.baseNlp.base

/-- What the library is told when the native problem is created: dimensions, bounds, and zero for both sides of all rows. -/
def IsArgs (q : Minlp F) (args : IpoptArgs F) : Prop :=
  args = ⟨q.nx, q.l, q.u, ((q.na + q.nf : Nat) : Int), List.replicate (q.na + q.nf) zero, List.replicate (q.na + q.nf) zero,
    ((q.a.nnz + q.buf.j.nnz : Nat) : Int), ((q.buf.hphi.nnz + q.hcomb.nnz : Nat) : Int), 0⟩

/-- The dimensions and numbers of nonzeros are 32-bit integers. -/
def Minlp.FitsI32 (q : Minlp F) : Prop :=
  q.nx < 2 ^ 31 ∧ q.na + q.nf < 2 ^ 31 ∧ q.a.nnz + q.buf.j.nnz < 2 ^ 31 ∧ q.buf.hphi.nnz + q.hcomb.nnz < 2 ^ 31

/-- `IpoptFails ps lib args e`: if the library is given `args`, then `solve` of Ipopt is to fail with the message `e`. -/
inductive IpoptFails (ps : Params F) (lib : IpoptLib F) (args : IpoptArgs F) : String → Prop
  | create (hc : lib.create args = false) : IpoptFails ps lib args "failed to create ipopt problem"
  | noLevel (hc : lib.create args = true) (hl : ∀ i, getParam ps "print_level" ≠ some (.int i)) :
      IpoptFails ps lib args "unable to get parameter print_level"
  | level {i} (hc : lib.create args = true) (hl : getParam ps "print_level" = some (.int i)) (hr : lib.addInt "print_level" i = false) :
      IpoptFails ps lib args "unable to set parameter print_level"
  | noSb {i} (hc : lib.create args = true) (hl : getParam ps "print_level" = some (.int i)) (hr : lib.addInt "print_level" i = true)
      (hs : ∀ s, getParam ps "sb" ≠ some (.str s)) : IpoptFails ps lib args "unable to get parameter sb"
  | sb {i s} (hc : lib.create args = true) (hl : getParam ps "print_level" = some (.int i)) (hr : lib.addInt "print_level" i = true)
      (hs : getParam ps "sb" = some (.str s)) (h0 : Char.ofNat 0 ∉ s.toList) (ha : lib.addStr "sb" s = false) :
      IpoptFails ps lib args "unable to set parameter sb"

end Verif
