import Verif.Code.Problem
import Verif.Code.Text

/-!
# The LP file: src/problem/milp.rs:105-202

`fmtE` stands for `{:.10e}` of `f64`. The text is what the buffered writer has been given when `flush` is called; a failing write
is part of the environment (Code/CmdSolver.lean).
-/

namespace Verif

variable {F : Type} [FloatOps F]

/-- src/problem/milp.rs:137-145 and 166-174: one term, without the decision about the sign -/
def lpTermBody (fmtE : F → List Char) (pre : Char) (d : F) (j : Nat) : List Char :=
  if FloatOps.abs d ==. one then [' ', ' ', ' ', ' ', ' ', pre, ' '] ++ xName j ++ ['\n']
  else [' ', ' ', ' ', ' ', ' ', pre, ' '] ++ fmtE (FloatOps.abs d) ++ [' '] ++ xName j ++ ['\n']

/-- One term; nothing for a number that is neither positive nor negative: src/problem/milp.rs:128-145 and 157-174 -/
def lpTerm (fmtE : F → List Char) (d : F) (j : Nat) : List Char :=
  if zero <. d then lpTermBody fmtE '+' d j
  else if d <. zero then lpTermBody fmtE '-' d j
  else []

/-- src/problem/milp.rs:125-146 -/
def lpObjective (fmtE : F → List Char) (c : List F) : List Char :=
  ['M', 'i', 'n', 'i', 'm', 'i', 'z', 'e', '\n'] ++ [' ', 'o', 'b', 'j', ':', '\n'] ++
    ((List.range c.length).zip c).flatMap fun ic => lpTerm fmtE ic.2 ic.1

/-- Terms of one row: src/problem/milp.rs:154-175 -/
def lpRowTerms (fmtE : F → List Char) (a : Csr F) (w : List Char) (i : Nat) : R (List Char) := do
  let lo ← idx a.indptr i
  let hi ← idx a.indptr (i + 1)
  foldR (fun (w : List Char) (k : Nat) => do
    let j ← idx a.indices k
    let d ← idx a.data k
    .ok (w ++ lpTerm fmtE d j)) w (List.range' lo (hi - lo))

/-- One row: src/problem/milp.rs:152-176 -/
def lpRow (fmtE : F → List Char) (a : Csr F) (bs : List F) (w : List Char) (i : Nat) : R (List Char) := do
  let b ← idx bs i
  let w ← lpRowTerms fmtE a (w ++ [' ', ' '] ++ cName i ++ [':', '\n']) i
  .ok (w ++ [' ', ' ', ' ', ' ', ' ', '=', ' '] ++ fmtE b ++ ['\n'])

/-- One bound: src/problem/milp.rs:182-185 -/
def lpBound (fmtE : F → List Char) (l u : List F) (w : List Char) (i : Nat) : R (List Char) := do
  let li ← idx l i
  let ui ← idx u i
  .ok (w ++ [' '] ++ fmtE li ++ [' ', '<', '=', ' '] ++ xName i ++ [' ', '<', '=', ' '] ++ fmtE ui ++ ['\n'])

/-- src/problem/milp.rs:190-194 -/
def lpGeneral (p : List Bool) : List Char :=
  ((List.range p.length).zip p).flatMap fun ip => if ip.2 then [' '] ++ xName ip.1 ++ ['\n'] else []

/-- The text that `write_to_lp_file` writes: src/problem/milp.rs:112-202 -/
def Milp.lpText (fmtE : F → List Char) (q : Milp F) : R (List Char) := do
  let w := lpObjective fmtE q.c
  let w := w ++ ['S', 'u', 'b', 'j', 'e', 'c', 't', ' ', 't', 'o', '\n']
  let a ← q.base.a.toCsr
  let a ← a.sumDuplicates
  let w ← foldR (lpRow fmtE a q.base.b) w (List.range a.rows)
  let w := w ++ ['B', 'o', 'u', 'n', 'd', 's', '\n']
  let w ← foldR (lpBound fmtE q.base.l q.base.u) w (List.range q.nx)
  let w := w ++ ['G', 'e', 'n', 'e', 'r', 'a', 'l', '\n'] ++ lpGeneral q.base.p
  .ok (w ++ ['E', 'n', 'd', '\n'])

end Verif
