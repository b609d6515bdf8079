import Verif.Spec.Shape
import Verif.Code.Model

/-!
# Programs that build expressions, constraints and a model, and solve it
-/

namespace Verif

variable {F : Type}

/-- What a user program holds: expression handles, constraint handles, a model, and the result of the last `solve` of that
model (if there was one). -/
structure World (F : Type) where
  regs : List (Node F)
  cs : List (Constraint F)
  m : Model F
  result : Option (Except String Unit)

/-- At the start the program holds nothing but an empty model. -/
def World.start : World F := ⟨[], [], Model.new, none⟩

/-- One call of the public API. Numbers refer to handles, in order of creation. The solver passed to `solve` is arbitrary. -/
inductive Cmd (F : Type) where
  | expr (op : Op F)
  | cmpNodeNode (k : CKind) (i j : Nat) (tag : String)
  | cmpNodeScalar (k : CKind) (i : Nat) (c : F) (tag : String)
  | cmpScalarNode (k : CKind) (c : F) (i : Nat) (tag : String)
  | newModel
  | minimize (i : Nat) | maximize (i : Nat) | noObjective
  | addConstraint (i : Nat) | addConstraints (is : List Nat)
  | setInitPrimals (vals : List (Nat × F))
  | solve (solver : SolverFn F)
  /-- `model.std_problem()`; gives the program handles of the variables, slack variables included -/
  | stdProblem
  /-- `expression.std_components()`; gives the program handles of the gradient and Hessian expressions -/
  | stdComponents (i : Nat)

/-- Calls of the raw constructors of function nodes. -/
def Cmd.isRaw : Cmd F → Bool
  | .expr op => op.isRaw
  | _ => false

variable [FloatOps F]

/-- The comparison methods by kind. -/
def cmpNN (k : CKind) : Node F → Node F → String → M (Constraint F) :=
  match k with
  | .equal => equalNN
  | .lessEqual => leqNN
  | .greaterEqual => geqNN

def cmpNS (k : CKind) : Node F → F → String → M (Constraint F) :=
  match k with
  | .equal => equalNS
  | .lessEqual => leqNS
  | .greaterEqual => geqNS

def cmpSN (k : CKind) : F → Node F → String → M (Constraint F) :=
  match k with
  | .equal => equalSN
  | .lessEqual => leqSN
  | .greaterEqual => geqSN

/-- Effect of one call; a call on a handle that does not exist is not made. -/
def Cmd.exec (H : HashOrder) (W : World F) (cmd : Cmd F) : M (World F) :=
  match cmd with
  | .expr op => M.bind (op.exec H W.regs) fun rs => M.pure { W with regs := W.regs ++ rs }
  | .cmpNodeNode k i j tag =>
    match W.regs[i]?, W.regs[j]? with
    | some a, some b => M.bind (cmpNN k a b tag) fun c => M.pure { W with cs := W.cs ++ [c] }
    | _, _ => M.pure W
  | .cmpNodeScalar k i v tag =>
    match W.regs[i]? with
    | some a => M.bind (cmpNS k a v tag) fun c => M.pure { W with cs := W.cs ++ [c] }
    | none => M.pure W
  | .cmpScalarNode k v i tag =>
    match W.regs[i]? with
    | some a => M.bind (cmpSN k v a tag) fun c => M.pure { W with cs := W.cs ++ [c] }
    | none => M.pure W
  | .newModel => M.pure { W with m := Model.new, result := none }
  | .minimize i =>
    match W.regs[i]? with
    | some a => M.pure { W with m := W.m.setObjective (.minimize a) }
    | none => M.pure W
  | .maximize i =>
    match W.regs[i]? with
    | some a => M.pure { W with m := W.m.setObjective (.maximize a) }
    | none => M.pure W
  | .noObjective => M.pure { W with m := W.m.setObjective .empty }
  | .addConstraint i =>
    match W.cs[i]? with
    | some c => M.pure { W with m := W.m.addConstraint c }
    | none => M.pure W
  | .addConstraints is => M.pure { W with m := W.m.addConstraints (is.filterMap (W.cs[·]?)) }
  | .setInitPrimals vals =>
    let values := (vals.filterMap fun e => (W.regs[e.1]?).map fun a => (a, e.2)).foldl (fun m e => insertN m e.1 e.2) []
    M.bind (W.m.setInitPrimals H values) fun m => M.pure { W with m := m }
  | .solve solver =>
    M.bind (W.m.solve H solver) fun r =>
    M.pure { W with m := r.2, result := some r.1, regs := W.regs ++ r.2.finalPrimals.map Prod.fst }
  | .stdProblem =>
    M.bind (W.m.stdProblem H) fun sp => M.pure { W with regs := W.regs ++ sp.var2index.map Prod.fst }
  | .stdComponents i =>
    match W.regs[i]? with
    | some a =>
      M.bind (a.stdComponents H) fun c =>
      M.pure { W with regs := W.regs ++ (c.gphi.map Prod.snd ++ c.hphi.map fun e => e.2.2) }
    | none => M.pure W

/-- A program: a sequence of calls. -/
def runCmds (H : HashOrder) (W : World F) : List (Cmd F) → M (World F)
  | [] => M.pure W
  | c :: cs => M.bind (c.exec H W) fun W' => runCmds H W' cs

/-- `ReachableW H W n`: some program without panic leads to the world `W` after `n` allocations. -/
def ReachableW (H : HashOrder) (W : World F) (n : Nat) : Prop :=
  ∃ cmds, runCmds H World.start cmds 0 = .ok (W, n)

/-- As `ReachableW`, for programs that build expressions with the operators and functions only. -/
def ReachableApiW (H : HashOrder) (W : World F) (n : Nat) : Prop :=
  ∃ cmds, (∀ c ∈ cmds, c.isRaw = false) ∧ runCmds H World.start cmds 0 = .ok (W, n)

end Verif
