import Verif.Code.CmdProc
import Mathlib.Logic.Function.Basic

/-! # Several calls of `solve` at the same time -/

namespace Verif

variable {F : Type} [FloatOps F]

/-- The names of the temporary files of a call. -/
def CmdCall.Uses (c : CmdCall F) (name : String) : Prop := c.env.tempIn = some name ∨ c.env.tempOut = some name

/-- The command that a call runs minds its own business: its success and what it leaves in the two files it is given depend on nothing but what was in
them, and it changes no other file. -/
def CmdCall.Local (c : CmdCall F) : Prop :=
  ∀ i o level d d', c.env.tempIn = some i → c.env.tempOut = some o → d i = d' i → d o = d' o →
    let r := c.env.command (cmdName c.cbc) (cmdArgs i o level) d
    let r' := c.env.command (cmdName c.cbc) (cmdArgs i o level) d'
    r.2 = r'.2 ∧ r.1 i = r'.1 i ∧ r.1 o = r'.1 o ∧ ∀ n, n ≠ i → n ≠ o → r.1 n = d n

/-- What can be seen at some moment, when the calls are run at the same time in one directory, in any order of their steps, and other programs change
files that none of the calls uses. A call that is killed is one that makes no more steps. -/
inductive Together {ι : Type} [DecidableEq ι] (call : ι → CmdCall F) (d0 : Dir) : (ι → CmdPc F) → Dir → Prop where
  | start : Together call d0 (fun _ => .start) d0
  | step {s d} (i : ι) {pc d'} : Together call d0 s d → CmdStep (call i) (s i) d pc d' → Together call d0 (Function.update s i pc) d'
  | others {s d d'} : Together call d0 s d → (∀ i n, (call i).Uses n → d' n = d n) → Together call d0 s d'

/-- No call uses a file of another call. -/
def Separate {ι : Type} (call : ι → CmdCall F) : Prop := ∀ i j, i ≠ j → ∀ n, (call i).Uses n → ¬ (call j).Uses n

end Verif
