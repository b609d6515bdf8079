import Verif.Code.Memory

/-!
# Recursion in the destructor: dropping references on a stack of limited size
-/

namespace Verif

variable {F : Type}

/-- The destructor of a reference with at most that many nested calls: the count goes down, and if it was the last reference, the references in the cell are dropped, in order. It gives `none`
if another nested call would be needed (or if there is no cell at the address). Simplification: the cell is taken out of memory before the references in it are dropped, and not
afterwards; in between, nothing is allocated and nobody looks at the cell. Code: the destructor of the `Rc`s of src/model/node.rs:22-30 and constraint.rs:32; the references in the cells:
src/model/function/add.rs:13-15, cos.rs:14-16, div.rs:13-15, mul.rs:13-15, sin.rs:14-16, constraint.rs:23-29. -/
def Store.destroy : Nat → Store F → Nat → Option (Store F)
  | 0, _, _ => none
  | k + 1, S, a =>
    match S.find a with
    | none => none
    | some b =>
      if b.rc ≤ 1 then b.cell.children.foldlM (fun S c => Store.destroy k S c) { S with blocks := S.blocks.filter (fun b => b.addr != a) }
      else some { S with blocks := setRc (· - 1) a S.blocks }

end Verif
