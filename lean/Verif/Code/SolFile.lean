import Verif.Code.Model
import Verif.Code.Text

/-!
# The solution file: src/solver/cbc_cmd.rs:45-145

A file is the list of the lines that the reader delivers; a line that cannot be read (an I/O error or bytes that are not UTF-8) is
`none`. `parseF` stands for `str::parse::<f64>`.
-/

namespace Verif

/-- A file, as lines; `none` is a line that cannot be read. Code: the file opened in src/solver/cbc_cmd.rs:46-61. -/
abbrev FileData := List (Option (List Char))

/-- `BufRead::lines` of a text: the pieces that are ended by a line feed, and the rest if it is not empty. Carriage returns are kept: the
code splits lines into words, and a carriage return is a blank. Code: src/solver/cbc_cmd.rs:98. -/
def linesFrom (cur : List Char) : List Char → List (List Char)
  | [] => if cur.isEmpty then [] else [cur]
  | c :: cs => if c == '\n' then cur :: linesFrom [] cs else linesFrom (cur ++ [c]) cs

/-- The file with a given text. Code: the file opened in src/solver/cbc_cmd.rs:46-61. -/
def fileOf (text : List Char) : FileData := (linesFrom [] text).map some

/-- `str::parse::<usize>`: an optional plus sign and digits, less than 2^64. Code: src/solver/cbc_cmd.rs:120. -/
def parseUsize (s : List Char) : Option Nat :=
  let d := match s with
    | '+' :: d => d
    | d => d
  if d.isEmpty || !d.all Char.isDigit then none
  else if Nat.ofDigitChars 10 d 0 < 2 ^ 64 then some (Nat.ofDigitChars 10 d 0) else none

/-- First and second piece of `name.split('_')`, src/solver/cbc_cmd.rs:114-122 -/
def splitName (name : List Char) : List Char × Option (List Char) :=
  (name.takeWhile (· != '_'),
    match name.dropWhile (· != '_') with
    | [] => none
    | _ :: r => some (r.takeWhile (· != '_')))

variable {F : Type} [FloatOps F]

/-- What a line says: type, index, value, multiplier; `none` if the code returns an error: src/solver/cbc_cmd.rs:100-122 -/
def parseSolLine (parseF : List Char → Option F) (line : List Char) : Option (List Char × Nat × F × F) := do
  let ws := words line
  let name ← ws[1]?
  let value ← (← ws[2]?) |> parseF
  let mul ← (← ws[3]?) |> parseF
  let (dtype, rest) := splitName name
  let index ← (← rest) |> parseUsize
  some (dtype, index, value, mul)

/-- One line of the results: src/solver/cbc_cmd.rs:98-142. The inner result is `io::Result`. -/
def readSolLine (parseF : List Char → Option F) (sol : Sol F) (line : Option (List Char)) : R (Option (Sol F)) :=
  match line.bind (parseSolLine parseF) with
  | none => .ok none
  | some (dtype, index, value, mul) =>
    if dtype == ['x'] then do
      let x ← setIdx sol.x index value
      if zero <. mul then do
        let pi ← setIdx sol.pi index mul
        .ok (some { sol with x := x, pi := pi })
      else do
        let mu ← setIdx sol.mu index (FloatOps.neg mul)
        .ok (some { sol with x := x, mu := mu })
    else if dtype == ['c'] then do
      let lam ← setIdx sol.lam index mul
      .ok (some { sol with lam := lam })
    else .ok none

/-- The loop over the lines, which an error leaves: src/solver/cbc_cmd.rs:97-142 -/
def readSolLines (parseF : List Char → Option F) : Sol F → FileData → R (Option (Sol F))
  | sol, [] => .ok (some sol)
  | sol, l :: ls => do
    match ← readSolLine parseF sol l with
    | none => .ok none
    | some sol => readSolLines parseF sol ls

/-- The status that the first word says: src/solver/cbc_cmd.rs:67-85 -/
def solStatus (cbc : Bool) (line : List Char) : Status :=
  match (words line)[0]? with
  | some s =>
    if !cbc && s == ['o', 'p', 't', 'i', 'm', 'a', 'l'] then .solved
    else if !cbc && s == ['i', 'n', 'f', 'e', 'a', 's', 'i', 'b', 'l', 'e'] then .infeasible
    else if cbc && s == ['O', 'p', 't', 'i', 'm', 'a', 'l'] then .solved
    else if cbc && s == ['I', 'n', 'f', 'e', 'a', 's', 'i', 'b', 'l', 'e'] then .infeasible
    else .error
  | none => .error

/-- `read_sol_file`, src/solver/cbc_cmd.rs:46-145. `file` is `none` if the file cannot be opened; the result is `none` for `Err`. -/
def readSolFile (parseF : List Char → Option F) (file : Option FileData) (q : Milp F) (cbc : Bool) : R (Option (Status × Sol F)) :=
  let sol : Sol F := Sol.new q.nx q.na 0
  match file with
  | none => .ok (some (.error, sol))
  | some lines =>
    -- `read_line` at the end of the file leaves the line empty
    match lines.headD (some []) with
    | none => .ok none
    | some first =>
      let status := solStatus cbc first
      if status != .solved then .ok (some (status, sol))
      else
        -- the line with the objective value
        match (if cbc then some [] else lines.tail.headD (some [])) with
        | none => .ok none
        | some _ => do
          match ← readSolLines parseF sol (if cbc then lines.tail else lines.tail.tail) with
          | none => .ok none
          | some sol => .ok (some (status, sol))

end Verif
