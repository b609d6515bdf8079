import Verif.Spec.LpFormat
import Verif.Spec.SolFile
import Verif.Spec.Solve
import Verif.Code.CmdSolver

/-! # What the files of a command-line solver mean, and what a correct command does -/

namespace Verif

section
variable {K : Type} [Field K] [LinearOrder K] [Trig K]

/-- The value of a list of terms when the variable with name `x` has the value `v x`. -/
def termsValue (ts : List (Option K × List Char)) (v : List Char → K) : Option K := total (ts.map fun t => t.1 *. some (v t.2))

/-- The values satisfy the rows, the bounds and the integrality that an LP file states. -/
structure LpContent.Sat (file : LpContent (Option K)) (v : List Char → K) : Prop where
  rows : ∀ r ∈ file.rows, ∃ t, r.2.2 = some t ∧ termsValue r.2.1 v = some t
  bounds : ∀ b ∈ file.bounds, ∃ lo hi, b.1 = some lo ∧ b.2.2 = some hi ∧ lo ≤ v b.2.1 ∧ v b.2.1 ≤ hi
  general : ∀ x ∈ file.general, ∃ z : ℤ, v x = z

/-- The values solve the problem that an LP file states. -/
structure LpContent.Best (file : LpContent (Option K)) (v : List Char → K) : Prop where
  sat : file.Sat v
  best : ∃ a, termsValue file.obj v = some a ∧ ∀ v' b, file.Sat v' → termsValue file.obj v' = some b → a ≤ b

/-- The solution file is a correct report about the LP file. If its first word reports a solved problem, then it consists of a
first line, for Clp a line with the objective value, and lines for variables and rows of the LP file, each at most once; and there
is a solution of the problem with the listed values and the value 0 for all variables that are not listed. If its first word
reports an infeasible problem, no values satisfy the LP file. -/
structure CorrectOutput (parseF : List Char → Option (Option K)) (cbc : Bool) (file : LpContent (Option K)) (out : FileData) : Prop where
  solved : firstWord out = some (optimalWord cbc) → ∃ first objective lines es v,
    out = (first :: ((if cbc then [] else [objective]) ++ lines)).map some ∧
    List.Forall₂ (Listed.Line parseF) lines es ∧ (es.map Listed.name).Nodup ∧
    (∀ e ∈ es, match e with
      | .col .. => ∃ b ∈ file.bounds, b.2.1 = e.name
      | .row .. => ∃ r ∈ file.rows, r.1 = e.name) ∧
    (∀ e ∈ es, match e with
      | .col .. => e.value = some (v e.name)
      | .row .. => True) ∧
    (∀ b ∈ file.bounds, (∀ e ∈ es, e.name ≠ b.2.1) → v b.2.1 = 0) ∧
    file.Best v
  infeasible : firstWord out = some (infeasibleWord cbc) → ∀ v, ¬ file.Sat v

/-- The external command is a correct solver: whenever the input file has a text in the LP format, and the command leaves an output
file, this is a correct report about the input file. (`readNum` is how it reads numbers; it computes exactly and prints values that are
read back exactly.) -/
def CorrectCommand (env : CmdEnv (Option K)) (cbc : Bool) (readNum : List Char → Option (Option K)) : Prop :=
  ∀ input output level d text file out, d input = some (fileOf text) → readLp readNum text = some file →
    (env.command (if cbc then "cbc" else "clp") [input, "logLevel", level, "printingOptions", "all", "solve", "solution", output] d).1 output = some out →
    CorrectOutput env.parseF cbc file out

/-- Printing and reading back with `r` does not change the numbers of the problem: objective coefficients, matrix entries,
right-hand sides and bounds. -/
structure Milp.PrintsExactly (q : Milp (Option K)) (r : K → K) : Prop where
  c : ∀ w, some w ∈ q.c → r w = w
  a : ∀ i j w, q.base.a.dense i j = some w → r w = w
  b : ∀ w, some w ∈ q.base.b → r w = w
  l : ∀ w, some w ∈ q.base.l → r w = w
  u : ∀ w, some w ∈ q.base.u → r w = w

end

end Verif
