/-!
# Scalars, panics, allocation and hash iteration order

Infrastructure shared by the whole model.  Nothing here has laws: the laws used by the theorems about
values are proved in `Verif/Proofs/Arith.lean` for the concrete scalar type `Option K`.
-/

namespace Verif

/-- The operations of `f64` that the code uses (`+ - * /`, unary minus, `abs`, `max`, `sin`, `cos`, `==`, `<`, `<=`,
the literals `0.`, `1.`, `NAN`, and `INF` of src/model/model_std.rs:16 and the `1e8` of the same value).
No laws are assumed: a theorem proved for every `FloatOps F` holds for IEEE doubles. -/
class FloatOps (F : Type) where
  zero : F
  one : F
  /-- `INF` (1e8), src/macros.rs / src/model/model_std.rs -/
  inf : F
  nan : F
  add : F → F → F
  sub : F → F → F
  mul : F → F → F
  div : F → F → F
  neg : F → F
  abs : F → F
  max : F → F → F
  sin : F → F
  cos : F → F
  eq : F → F → Bool
  lt : F → F → Bool
  le : F → F → Bool

infixl:65 " +. " => FloatOps.add
infixl:65 " -. " => FloatOps.sub
infixl:70 " *. " => FloatOps.mul
infixl:70 " /. " => FloatOps.div
infix:50 " ==. " => FloatOps.eq
infix:50 " <. " => FloatOps.lt
infix:50 " <=. " => FloatOps.le

export FloatOps (zero one inf nan)

/-- `-1.`. Code: the literal in src/model/constraint_std.rs:144,156,189,199. -/
def negOne {F : Type} [FloatOps F] : F := FloatOps.neg one

/-- Why a run stops with a panic. Code: `panic!`, `assert!` and `unwrap` throughout, e.g. src/model/node.rs:477, src/model/function/add.rs:22, src/model/model_std.rs:119. -/
inductive Panic where
  /-- `assert!(args.len() >= 2)`, src/model/function/add.rs:22 -/
  | addArgs
  /-- `panic!("dividion by zero constant")`, src/model/node.rs:477,512,543 -/
  | divByZero
  /-- `panic!("variable expected")`, src/model/node_diff.rs:33,88 -/
  | variableExpected
  /-- slice / vector index out of range -/
  | index
  /-- `unwrap()` of `None` / `Err` -/
  | unwrap
  /-- any other `assert!` / `assert_eq!` -/
  | assert
  /-- `copy_from_slice` with different lengths -/
  | sliceLen
  deriving DecidableEq, Repr

/-- Computations that may panic. Code: functions that return or panic, e.g. src/matrix/coo.rs:26-38. -/
abbrev R (α : Type) := Except Panic α

/-- Computations that may panic and that create `Rc` cells.  The state is the number of cells created so far; the
address of a cell (what `Rc::ptr_eq` and `ptr::hash` see) is modelled by the number it got when created. Code: `Rc::new`, e.g. src/model/constant.rs:18, src/model/variable.rs:45, src/model/constraint.rs:47. -/
def M (α : Type) := Nat → Except Panic (α × Nat)

namespace M

/-- A result without effects; no counterpart in the code. -/
def pure {α : Type} (a : α) : M α := fun n => .ok (a, n)

/-- One computation after another, left to right; no counterpart in the code. -/
def bind {α β : Type} (x : M α) (f : α → M β) : M β := fun n =>
  match x n with
  | .error e => .error e
  | .ok (a, m) => f a m

instance : Monad M where
  pure := M.pure
  bind := M.bind

/-- A panic. Code: e.g. src/model/node.rs:477. -/
def panic {α : Type} (e : Panic) : M α := fun _ => .error e

/-- Lift a computation that creates no cells. Code: no counterpart in the code: glue of the model. -/
def ofR {α : Type} : R α → M α
  | .ok a => M.pure a
  | .error e => M.panic e

/-- A new address, different from all the ones handed out before. Code: `Rc::new`, e.g. src/model/constant.rs:18. -/
def fresh : M Nat := fun n => .ok (n, n + 1)

/-- Left-to-right map of an effectful function (`iter().map(f).collect()`). Code: e.g. src/model/model.rs:68-72. -/
def mapL {α β : Type} (f : α → M β) : List α → M (List β)
  | [] => M.pure []
  | a :: as => M.bind (f a) fun b => M.bind (mapL f as) fun bs => M.pure (b :: bs)

/-- Left-to-right loop with an accumulator. Code: e.g. src/model/model_std.rs:80-82. -/
def foldL {α β : Type} (f : β → α → M β) : β → List α → M β
  | b, [] => M.pure b
  | b, a :: as => M.bind (f b a) fun b' => foldL f b' as

end M

/-- Left-to-right loop with an accumulator for computations that may panic. Code: e.g. src/model/model_std.rs:226-232. -/
def foldR {α β : Type} (f : β → α → R β) : β → List α → R β
  | b, [] => .ok b
  | b, a :: as =>
    match f b a with
    | .error e => .error e
    | .ok b' => foldR f b' as

/-- `v[i]` on a slice. Code: e.g. src/model/model.rs:139. -/
def idx {α : Type} (v : List α) (i : Nat) : R α :=
  match v[i]? with
  | some a => .ok a
  | none => .error .index

/-- `v[i] = a` on a slice. Code: e.g. src/model/model_std.rs:148. -/
def setIdx {α : Type} (v : List α) (i : Nat) (a : α) : R (List α) :=
  if i < v.length then .ok (v.set i a) else .error .index

/-- The iteration order of hash maps and hash sets.  `std::collections::HashMap` iterates in an unspecified order that may
differ between two maps with the same content, so the order may depend on the moment `k` of the iteration. All theorems
quantify over every `HashOrder`. Code: e.g. src/model/model_std.rs:104, src/model/node_diff.rs:63. -/
structure HashOrder where
  order : Nat → (α : Type) → List α → List α
  perm : ∀ k α (l : List α), (order k α l).Perm l

/-- Iterate over the content of a hash map or set: an arbitrary permutation of it, possibly a different one at every
iteration. Code: e.g. src/model/model_std.rs:104, src/model/node_diff.rs:63. -/
def HashOrder.iter (H : HashOrder) {α : Type} (l : List α) : M (List α) :=
  M.bind M.fresh fun k => M.pure (H.order k α l)

end Verif
