import Verif.Spec.World

/-!
# The same program, run next to other work

`Replay W n W' n' f g`: the world `W` (after `n` allocations) was reached by some calls; the world `W'` by the same calls, but before them and between them other work was done:
other handles were created, addresses were used. `f` says which handle of `W'` is which handle of `W`, `g` the same for handles of constraints.
-/

namespace Verif

variable {F : Type}

/-- The iteration order is a choice of positions: it does not look at the entries. (Each iteration has its own `k`, so every sequence of orders is of this kind.) -/
def HashOrder.Positional (H : HashOrder) : Prop := ∀ (k : Nat) (α β : Type) (f : α → β) (l : List α), H.order k β (l.map f) = (H.order k α l).map f

/-- From now on the iterations of the two runs choose the same positions. -/
def SameOrders (H H' : HashOrder) (n n' : Nat) : Prop := ∀ (j : Nat) (α : Type) (l : List α), H'.order (n' + j) α l = H.order (n + j) α l

/-- The call with other handles. -/
def Op.move (f : Nat → Nat) : Op F → Op F
  | .const v => .const v
  | .var s k => .var s k
  | .add i j => .add (f i) (f j)
  | .addScalar i c => .addScalar (f i) c
  | .scalarAdd c i => .scalarAdd c (f i)
  | .sub i j => .sub (f i) (f j)
  | .subScalar i c => .subScalar (f i) c
  | .scalarSub c i => .scalarSub c (f i)
  | .mul i j => .mul (f i) (f j)
  | .mulScalar i c => .mulScalar (f i) c
  | .scalarMul c i => .scalarMul c (f i)
  | .div i j => .div (f i) (f j)
  | .divScalar i c => .divScalar (f i) c
  | .scalarDiv c i => .scalarDiv c (f i)
  | .neg i => .neg (f i)
  | .cos i => .cos (f i)
  | .sin i => .sin (f i)
  | .partialD i j => .partialD (f i) (f j)
  | .derivative i j => .derivative (f i) (f j)
  | .derivatives i js => .derivatives (f i) (js.map f)
  | .rawAdd is => .rawAdd (is.map f)
  | .rawMul i j => .rawMul (f i) (f j)
  | .rawDiv i j => .rawDiv (f i) (f j)
  | .rawCos i => .rawCos (f i)
  | .rawSin i => .rawSin (f i)

/-- The call with other handles of expressions (`f`) and of constraints (`g`). -/
def Cmd.move (f g : Nat → Nat) : Cmd F → Cmd F
  | .expr op => .expr (op.move f)
  | .cmpNodeNode k i j tag => .cmpNodeNode k (f i) (f j) tag
  | .cmpNodeScalar k i c tag => .cmpNodeScalar k (f i) c tag
  | .cmpScalarNode k c i tag => .cmpScalarNode k c (f i) tag
  | .newModel => .newModel
  | .minimize i => .minimize (f i)
  | .maximize i => .maximize (f i)
  | .noObjective => .noObjective
  | .addConstraint i => .addConstraint (g i)
  | .addConstraints is => .addConstraints (is.map g)
  | .setInitPrimals vals => .setInitPrimals (vals.map fun e => (f e.1, e.2))
  | .solve solver => .solve solver
  | .stdProblem => .stdProblem
  | .stdComponents i => .stdComponents (f i)

/-- The first `len` handles as in `f`; later ones come after the `len'` handles that exist now. -/
def laterAfter (f : Nat → Nat) (len len' : Nat) : Nat → Nat := fun i => if i < len then f i else len' + (i - len)

variable [FloatOps F]

/-- See above. -/
inductive Replay : World F → Nat → World F → Nat → (Nat → Nat) → (Nat → Nat) → Prop
  /-- at the start of the program, any handles may exist, and any number of addresses may have been used -/
  | start {W' : World F} {n' : Nat} : W'.m = Model.new → Replay World.start 0 W' n' (W'.regs.length + ·) (W'.cs.length + ·)
  /-- other work: new handles and used addresses, but this model is left alone -/
  | other {W W' : World F} {n n' n'' : Nat} {f g : Nat → Nat} {rs : List (Node F)} {cs : List (Constraint F)} {res : Option (Except String Unit)} :
      Replay W n W' n' f g → n' ≤ n'' →
      Replay W n ⟨W'.regs ++ rs, W'.cs ++ cs, W'.m, res⟩ n''
        (laterAfter f W.regs.length (W'.regs ++ rs).length) (laterAfter g W.cs.length (W'.cs ++ cs).length)
  /-- both make the same call -/
  | both {W W1 W' W1' : World F} {n n1 n' n1' : Nat} {f g : Nat → Nat} {H H' : HashOrder} {c : Cmd F} : Replay W n W' n' f g →
      H.Positional → SameOrders H H' n n' → c.exec H W n = .ok (W1, n1) → (c.move f g).exec H' W' n' = .ok (W1', n1') →
      Replay W1 n1 W1' n1' f g

end Verif
