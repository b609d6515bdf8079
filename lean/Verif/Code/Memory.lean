import Verif.Code.Constraint

/-!
# Expressions and constraints in memory: the `Rc` cells behind `Node` and `Constraint`

`Code/Node.lean` and `Code/Constraint.lean` give every cell a number that is never used again, and compare handles by that number. The code compares addresses, and the address of a cell may be used
again after the cell has been released. Here cells live at addresses, with reference counts; the allocator may choose any address that is not in use. The numbers are kept in the blocks as ghosts: no operation looks at them.
-/

namespace Verif

variable {F : Type}

/-- The content of a cell; a reference to another cell is its address. Code: the variants of `Node`, src/model/node.rs:22-30, and the fields of the structures behind them,
src/model/constant.rs:10-12, variable.rs:17-20, function/add.rs:13-15, cos.rs:14-16, div.rs:13-15, mul.rs:13-15, sin.rs:14-16; `constr` is `ConstraintInner`,
src/model/constraint.rs:23-29. -/
inductive Cell (F : Type) where
  | const (v : F)
  | var (name : String) (kind : VarKind)
  | add (args : List Nat)
  | cos (a : Nat)
  | div (a b : Nat)
  | mul (a b : Nat)
  | sin (a : Nat)
  | constr (lhs : Nat) (kind : CKind) (rhs : Nat) (label : String)

/-- The references in a cell. Code: `args` and `arg` of the function structures, src/model/function/add.rs:13-15, cos.rs:14-16, div.rs:13-15, mul.rs:13-15, sin.rs:14-16, and `lhs` and `rhs` of a constraint, constraint.rs:23-29. -/
def Cell.children : Cell F → List Nat
  | .const _ => []
  | .var .. => []
  | .add args => args
  | .cos a => [a]
  | .div a b => [a, b]
  | .mul a b => [a, b]
  | .sin a => [a]
  | .constr l _ r _ => [l, r]

/-- Is it the cell of a node? Code: the types of the `Rc`s, src/model/node.rs:22-30 and constraint.rs:32. -/
def Cell.isNode : Cell F → Bool
  | .constr .. => false
  | _ => true

/-- An allocated cell: its address, reference count and content. The number `id` is a ghost. Code: what `Rc::new` allocates, e.g. src/model/function/mul.rs:20-26. -/
structure Block (F : Type) where
  addr : Nat
  rc : Nat
  id : Nat
  cell : Cell F

/-- The memory, the references held outside of it (by variables of the program, by constraints, models, maps and vectors), and the references that are being dropped.
`next` is the next ghost number. Code: the `Rc`s of src/model/node.rs:22-30 and constraint.rs:32. -/
structure Store (F : Type) where
  blocks : List (Block F)
  next : Nat
  handles : List Nat
  pending : List Nat

/-- Before the first call. Code: nothing is allocated by src/model before the first constructor is called. -/
def Store.start : Store F := ⟨[], 0, [], []⟩

/-- What the code does with the cells. Code: `new` is `Rc::new` in the constructors, with the arguments moved into the cell and any free address
(src/model/constant.rs:17-23, variable.rs:44-51, function/*.rs `new`, constraint.rs:46-55); `clone` is `Node::clone` (src/model/node.rs:92-104) or `Constraint::clone` (constraint.rs:76-80); `arg` is the clone of an
argument (e.g. src/model/node.rs:162) or of a side of a constraint (constraint.rs:43, 58); `drop` is the end of the life of a handle; `release` is one step of the destructor of `Rc`. -/
inductive MemOp (F : Type) where
  | new (c : Cell F) (a : Nat)
  | clone (a : Nat)
  | arg (a c : Nat)
  | drop (a : Nat)
  | release

/-- How an operation can fail: it cannot be called at all (the program does not hold the reference, or the allocator does not give out memory in use), or a reference
points to a cell that is not allocated. Code: the second would be undefined behaviour in the `Rc` of src/model/node.rs:22-30. -/
inductive MemFault where
  | notCallable
  | dangling
  deriving DecidableEq

/-- The reference at an address is followed. Code: the dereferences of `Rc`, e.g. src/model/node.rs:63-69. -/
def Store.find (S : Store F) (a : Nat) : Option (Block F) := S.blocks.find? fun b => b.addr == a

/-- The count of the cell at `a` is changed. Code: `Rc::clone` and the destructor of `Rc`, src/model/node.rs:92-104. -/
def setRc (f : Nat → Nat) (a : Nat) (bs : List (Block F)) : List (Block F) := bs.map fun b => if b.addr = a then { b with rc := f b.rc } else b

/-- All elements of a list are taken out of another one, each as often as it occurs. Code: the arguments that are moved into a cell, e.g. src/model/function/mul.rs:20-26. -/
def takeOut : List Nat → List Nat → Option (List Nat)
  | [], hs => some hs
  | a :: as, hs => if a ∈ hs then takeOut as (hs.erase a) else none

/-- Is there the cell of a node at that address? Code: the fields of cells have the type `Node`, src/model/function/mul.rs:13-15, constraint.rs:23-29. -/
def Store.nodeAt (S : Store F) (a : Nat) : Bool :=
  match S.find a with
  | some b => b.cell.isNode
  | none => false

/-- One operation. Code: as for `MemOp`: `Rc::new`, e.g. src/model/function/mul.rs:20-26, `Rc::clone`, src/model/node.rs:92-104, and the destructor of the `Rc`s of src/model/node.rs:22-30. -/
def Store.exec (S : Store F) : MemOp F → Except MemFault (Store F)
  | .new c a =>
    if S.blocks.any (fun b => b.addr == a) then .error .notCallable
    else if !c.children.all S.nodeAt then .error .notCallable
    else match takeOut c.children S.handles with
      | none => .error .notCallable
      | some hs => .ok { S with blocks := ⟨a, 1, S.next, c⟩ :: S.blocks, next := S.next + 1, handles := a :: hs }
  | .clone a =>
    if a ∈ S.handles then
      match S.find a with
      | none => .error .dangling
      | some _ => .ok { S with blocks := setRc (· + 1) a S.blocks, handles := a :: S.handles }
    else .error .notCallable
  | .arg a c =>
    if a ∈ S.handles then
      match S.find a with
      | none => .error .dangling
      | some b =>
        if c ∈ b.cell.children then
          match S.find c with
          | none => .error .dangling
          | some _ => .ok { S with blocks := setRc (· + 1) c S.blocks, handles := c :: S.handles }
        else .error .notCallable
    else .error .notCallable
  | .drop a =>
    if a ∈ S.handles then .ok { S with handles := S.handles.erase a, pending := a :: S.pending }
    else .error .notCallable
  | .release =>
    match S.pending with
    | [] => .error .notCallable
    | a :: ps =>
      match S.find a with
      | none => .error .dangling
      | some b =>
        if b.rc ≤ 1 then .ok { S with blocks := S.blocks.filter (fun b => b.addr != a), pending := b.cell.children ++ ps }
        else .ok { S with blocks := setRc (· - 1) a S.blocks, pending := ps }

/-- The variant of the handle of a cell. Code: src/model/node.rs:22-30; constraints have one variant, constraint.rs:32. -/
def Cell.tag : Cell F → Nat
  | .const _ => 0
  | .var .. => 1
  | .add _ => 2
  | .cos _ => 3
  | .div .. => 4
  | .mul .. => 5
  | .sin _ => 6
  | .constr .. => 7

/-- `==` of two handles, given the cells they point to (the type of a handle is that of its cell): the variants and the addresses are compared.
Code: src/model/node.rs:74-88, constraint.rs:82-87 (a node is never compared to a constraint). -/
def handleEq (b c : Block F) : Bool := b.cell.tag == c.cell.tag && b.addr == c.addr

/-- What is hashed. Code: src/model/node.rs:59-72, constraint.rs:92-97. -/
def handleHash (b : Block F) : Nat := b.addr

/-- A sequence of operations. Code: any use of the `Rc`s of src/model/node.rs:22-30. -/
def Store.run (S : Store F) : List (MemOp F) → Except MemFault (Store F)
  | [] => .ok S
  | op :: ops => do
    let S ← S.exec op
    S.run ops

end Verif
