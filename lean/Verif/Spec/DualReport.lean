import Verif.Spec.EndToEnd

/-! # Multipliers in the report of a command-line solver -/

namespace Verif

section
variable {K : Type} [Field K] [LinearOrder K] [Trig K]

/-- The values `v` of the variables, `y` of the row multipliers and `d` of the reduced costs certify each other for the problem that an
LP file states: the values satisfy the file; each objective coefficient is the sum of the coefficients in the rows, times the row
multipliers, plus the reduced cost; and a positive (negative) reduced cost occurs only at the lower (upper) bound. -/
structure LpContent.Certified (file : LpContent (Option K)) (v y d : List Char → K) : Prop where
  sat : file.Sat v
  reduced : ∀ b ∈ file.bounds, ∃ c s, coefOf file.obj b.2.1 = some c ∧
    total (file.rows.map fun r => coefOf r.2.1 b.2.1 *. some (y r.1)) = some s ∧ c = s + d b.2.1
  lower : ∀ b ∈ file.bounds, 0 < d b.2.1 → b.1 = some (v b.2.1)
  upper : ∀ b ∈ file.bounds, d b.2.1 < 0 → b.2.2 = some (v b.2.1)

/-- A solution file of Clp that reports a solved problem consists of a first line, a line with the objective value, and lines for
variables and rows of the LP file, each at most once, with the value of the variable and its reduced cost, or the value of the row and
its multiplier; what is not listed is 0, and values, multipliers and reduced costs certify each other. -/
def CertifiedOutput (parseF : List Char → Option (Option K)) (file : LpContent (Option K)) (out : FileData) : Prop :=
  firstWord out = some (optimalWord false) → ∃ first objective lines es v y d,
    out = (first :: objective :: lines).map some ∧
    List.Forall₂ (Listed.Line parseF) lines es ∧ (es.map Listed.name).Nodup ∧
    (∀ e ∈ es, match e with
      | .col .. => (∃ b ∈ file.bounds, b.2.1 = e.name) ∧ e.value = some (v e.name) ∧ e.mul = some (d e.name)
      | .row .. => (∃ r ∈ file.rows, r.1 = e.name) ∧ e.mul = some (y e.name)) ∧
    (∀ b ∈ file.bounds, (∀ e ∈ es, e.name ≠ b.2.1) → v b.2.1 = 0 ∧ d b.2.1 = 0) ∧
    (∀ r ∈ file.rows, (∀ e ∈ es, e.name ≠ r.1) → y r.1 = 0) ∧
    file.Certified v y d

/-- The external command reports certified solutions: whenever the input file has a text in the LP format, and the command leaves an
output file that reports a solved problem, this is a certified report about the input file. (`readNum` is how it reads numbers; it
computes exactly and prints values that are read back exactly.) -/
def CertifyingCommand (env : CmdEnv (Option K)) (readNum : List Char → Option (Option K)) : Prop :=
  ∀ input output level d text file out, d input = some (fileOf text) → readLp readNum text = some file →
    (env.command "clp" [input, "logLevel", level, "printingOptions", "all", "solve", "solution", output] d).1 output = some out →
    CertifiedOutput env.parseF file out

end

end Verif
