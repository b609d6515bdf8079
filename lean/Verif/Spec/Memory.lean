import Verif.Code.Memory

/-!
# What an expression and a constraint in memory are
-/

namespace Verif

variable {F : Type}

/-- Variant and data of a cell are those of a node. -/
def Cell.Same : Cell F → Node F → Prop
  | .const v, .const _ w => v = w
  | .var s k, .var _ s' k' => s = s' ∧ k = k'
  | .add _, .add .. => True
  | .cos _, .cos .. => True
  | .div .., .div .. => True
  | .mul .., .mul .. => True
  | .sin _, .sin .. => True
  | _, _ => False

/-- Following the references from address `a`, one reads the expression `n`: at `a` there is a cell with the ghost number, variant and data of `n`, and at the addresses in
it one reads the arguments of `n`, in order. -/
inductive MemReads (S : Store F) : Nat → Node F → Prop where
  | mk (b : Block F) (n : Node F) (hb : b ∈ S.blocks) (hid : b.id = n.id) (hc : b.cell.Same n) (hlen : b.cell.children.length = n.arguments.length)
      (hargs : ∀ (i : Nat) (c : Nat) (m : Node F), b.cell.children[i]? = some c → n.arguments[i]? = some m → MemReads S c m) : MemReads S b.addr n

/-- Following the references from address `a`, one reads the constraint `k`: at `a` there is the cell of a constraint with the ghost number, kind and label of `k`, and at the
addresses in it one reads the two sides. -/
def MemReadsC (S : Store F) (a : Nat) (k : Constraint F) : Prop :=
  ∃ b ∈ S.blocks, b.addr = a ∧ b.id = k.id ∧ ∃ x y, b.cell = .constr x k.kind y k.label ∧ MemReads S x k.lhs ∧ MemReads S y k.rhs

/-- A memory that a program can reach. -/
def Store.Reached (S : Store F) : Prop := ∃ ops, Store.start.run ops = .ok S

/-- The cells that can be reached from the references that the program holds. -/
inductive Store.Live (S : Store F) : Nat → Prop where
  | handle {a : Nat} (h : a ∈ S.handles) : S.Live a
  | child {b : Block F} {c : Nat} (hb : b ∈ S.blocks) (h : S.Live b.addr) (hc : c ∈ b.cell.children) : S.Live c

end Verif
