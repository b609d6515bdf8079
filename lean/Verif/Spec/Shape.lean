import Verif.Code.Diff

/-!
# Sub-expressions, shape of expressions, and the machine of API calls
-/

namespace Verif

variable {F : Type}

/-- `Occurs y x`: node `y` is `x` or occurs in `x`. -/
inductive Occurs : Node F → Node F → Prop
  | refl (x : Node F) : Occurs x x
  | arg {y a x : Node F} : a ∈ x.arguments → Occurs y a → Occurs y x

/-- No quotient inside `e` has the same node as numerator and denominator. -/
def NoSelfDiv (e : Node F) : Prop := ∀ i a b, Occurs (.div i a b) e → a.ptrEq b = false

/-- One call of the public API.  Numbers refer to handles the program already holds (in order of creation). -/
inductive Op (F : Type) where
  | const (v : F)
  | var (name : String) (kind : VarKind)
  | add (i j : Nat) | addScalar (i : Nat) (c : F) | scalarAdd (c : F) (i : Nat)
  | sub (i j : Nat) | subScalar (i : Nat) (c : F) | scalarSub (c : F) (i : Nat)
  | mul (i j : Nat) | mulScalar (i : Nat) (c : F) | scalarMul (c : F) (i : Nat)
  | div (i j : Nat) | divScalar (i : Nat) (c : F) | scalarDiv (c : F) (i : Nat)
  | neg (i : Nat) | cos (i : Nat) | sin (i : Nat)
  | partialD (i j : Nat) | derivative (i j : Nat) | derivatives (i : Nat) (js : List Nat)
  /-- the public constructors of function nodes, which bypass the simplifications of the operators -/
  | rawAdd (is : List Nat) | rawMul (i j : Nat) | rawDiv (i j : Nat) | rawCos (i : Nat) | rawSin (i : Nat)

/-- Calls of the constructors `FunctionAdd::new`, ... -/
def Op.isRaw : Op F → Bool
  | .rawAdd .. | .rawMul .. | .rawDiv .. | .rawCos .. | .rawSin .. => true
  | _ => false

variable [FloatOps F]

/-- Result handles of one call; a call on a handle that does not exist is not made. -/
def Op.exec (H : HashOrder) (regs : List (Node F)) (op : Op F) : M (List (Node F)) :=
  let with1 (i : Nat) (f : Node F → M (Node F)) : M (List (Node F)) :=
    match regs[i]? with
    | some a => M.bind (f a) fun e => M.pure [e]
    | none => M.pure []
  let with2 (i j : Nat) (f : Node F → Node F → M (Node F)) : M (List (Node F)) :=
    match regs[i]?, regs[j]? with
    | some a, some b => M.bind (f a b) fun e => M.pure [e]
    | _, _ => M.pure []
  match op with
  | .const v => M.bind (newConst v) fun e => M.pure [e]
  | .var s k => M.bind (newVar s k) fun e => M.pure [e]
  | .add i j => with2 i j addN
  | .addScalar i c => with1 i (addS · c)
  | .scalarAdd c i => with1 i (sAdd c)
  | .sub i j => with2 i j subN
  | .subScalar i c => with1 i (subS · c)
  | .scalarSub c i => with1 i (sSub c)
  | .mul i j => with2 i j mulN
  | .mulScalar i c => with1 i (mulS c)
  | .scalarMul c i => with1 i (sMul c)
  | .div i j => with2 i j divN
  | .divScalar i c => with1 i (divS · c)
  | .scalarDiv c i => with1 i (sDiv c)
  | .neg i => with1 i negN
  | .cos i => with1 i cosN
  | .sin i => with1 i sinN
  | .partialD i j => with2 i j partialN
  | .derivative i j => with2 i j (Verif.derivative H)
  | .derivatives i js =>
    match regs[i]? with
    | some a => M.bind (Verif.derivatives H a (js.filterMap (regs[·]?))) fun ds => M.pure (ds.map Prod.snd)
    | none => M.pure []
  | .rawAdd is => M.bind (newAdd (is.filterMap (regs[·]?))) fun e => M.pure [e]
  | .rawMul i j => with2 i j newMul
  | .rawDiv i j => with2 i j newDiv
  | .rawCos i => with1 i newCos
  | .rawSin i => with1 i newSin

/-- A program: a sequence of API calls, each adding the handles it returns. -/
def runOps (H : HashOrder) (regs : List (Node F)) : List (Op F) → M (List (Node F))
  | [] => M.pure regs
  | op :: ops => M.bind (op.exec H regs) fun rs => runOps H (regs ++ rs) ops

/-- `Reachable regs n`: some program without panic leads to the handles `regs` after `n` allocations. -/
def Reachable (H : HashOrder) (regs : List (Node F)) (n : Nat) : Prop :=
  ∃ ops, runOps H [] ops 0 = .ok (regs, n)

/-- As `Reachable`, for programs that build expressions with the operators and functions only. -/
def ReachableApi (H : HashOrder) (regs : List (Node F)) (n : Nat) : Prop :=
  ∃ ops, (∀ op ∈ ops, op.isRaw = false) ∧ runOps H [] ops 0 = .ok (regs, n)

/-- The unordered pairs of variables of two Hessian entries coincide. -/
def samePair (a b c d : Node F) : Prop :=
  (a.ptrEq c = true ∧ b.ptrEq d = true) ∨ (a.ptrEq d = true ∧ b.ptrEq c = true)

end Verif
