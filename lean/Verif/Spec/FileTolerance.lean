import Mathlib.Algebra.BigOperators.Group.Finset.Basic
import Verif.Spec.EndToEnd
import Verif.Spec.Tolerance

/-! # Files with rounded numbers, and commands that solve them up to tolerances -/

namespace Verif

section
variable {K : Type} [Field K] [LinearOrder K] [Trig K]

/-- The values satisfy what an LP file states: rows up to `δ`, bounds up to `ε`, integrality up to `η`. -/
structure LpContent.SatWithin (file : LpContent (Option K)) (δ ε η : K) (v : List Char → K) : Prop where
  rows : ∀ r ∈ file.rows, ∃ t y, r.2.2 = some t ∧ termsValue r.2.1 v = some y ∧ |y - t| ≤ δ
  bounds : ∀ b ∈ file.bounds, ∃ lo hi, b.1 = some lo ∧ b.2.2 = some hi ∧ lo - ε ≤ v b.2.1 ∧ v b.2.1 ≤ hi + ε
  general : ∀ x ∈ file.general, ∃ z : ℤ, |v x - z| ≤ η

/-- As `CorrectOutput`, for a command that works with tolerances: a file that reports a solved problem lists, once each, variables and
rows of the LP file, and the listed values, with 0 for the variables that are not listed, satisfy the LP file up to the tolerances. -/
def OutputWithin (parseF : List Char → Option (Option K)) (cbc : Bool) (δ ε η : K) (file : LpContent (Option K)) (out : FileData) : Prop :=
  firstWord out = some (optimalWord cbc) → ∃ first objective lines es v,
    out = (first :: ((if cbc then [] else [objective]) ++ lines)).map some ∧
    List.Forall₂ (Listed.Line parseF) lines es ∧ (es.map Listed.name).Nodup ∧
    (∀ e ∈ es, match e with
      | .col .. => ∃ b ∈ file.bounds, b.2.1 = e.name
      | .row .. => ∃ r ∈ file.rows, r.1 = e.name) ∧
    (∀ e ∈ es, match e with
      | .col .. => e.value = some (v e.name)
      | .row .. => True) ∧
    (∀ b ∈ file.bounds, (∀ e ∈ es, e.name ≠ b.2.1) → v b.2.1 = 0) ∧
    file.SatWithin δ ε η v

/-- The external command solves up to the tolerances whatever LP file it is given. -/
def CommandWithin (env : CmdEnv (Option K)) (cbc : Bool) (readNum : List Char → Option (Option K)) (δ ε η : K) : Prop :=
  ∀ input output level d text file out, d input = some (fileOf text) → readLp readNum text = some file →
    (env.command (if cbc then "cbc" else "clp") [input, "logLevel", level, "printingOptions", "all", "solve", "solution", output] d).1 output = some out →
    OutputWithin env.parseF cbc δ ε η file out

/-- The effect of printing the numbers of a linear problem with `r`: at `ts` no row with its right-hand side changes by more than `γ` (the
changes of all terms added up), and no bound changes by more than `β`. -/
structure Minlp.PrintsWithin (q : Minlp (Option K)) (r : K → K) (γ β : K) (ts : List K) : Prop where
  row : ∀ (i : Nat) (b : K), q.b[i]? = some (some b) →
    (∑ j ∈ Finset.range q.nx, |r ((q.a.dense i j).getD 0) - (q.a.dense i j).getD 0| * |(ts[j]?).getD 0|) + |r b - b| ≤ γ
  lower : ∀ w, some w ∈ q.l → |r w - w| ≤ β
  upper : ∀ w, some w ∈ q.u → |r w - w| ≤ β

/-- The sizes of the numbers of a linear problem: no bound is larger than `B` in absolute value, and at `ts` no row with its right-hand
side, all terms taken in absolute value, is larger than `S`. -/
structure Minlp.SizesAt (q : Minlp (Option K)) (S B : K) (ts : List K) : Prop where
  row : ∀ (i : Nat) (b : K), q.b[i]? = some (some b) →
    (∑ j ∈ Finset.range q.nx, |(q.a.dense i j).getD 0| * |(ts[j]?).getD 0|) + |b| ≤ S
  lower : ∀ w, some w ∈ q.l → |w| ≤ B
  upper : ∀ w, some w ∈ q.u → |w| ≤ B

end

end Verif
