import Verif.Code.Diff

/-!
# Constraints: src/model/constraint.rs, node_cmp.rs, constraint_std.rs
-/

namespace Verif

variable {F : Type}

/-- `ConstraintKind`, src/model/constraint.rs:16-21 -/
inductive CKind where
  | equal
  | lessEqual
  | greaterEqual
  deriving DecidableEq, Repr

/-- `Constraint` / `ConstraintInner`, src/model/constraint.rs:24-32; `id` is the address of the `Rc` cell. The accessors
`kind()`, `label()`, `lhs()`, `rhs()` (lines 37-58) are the fields. -/
structure Constraint (F : Type) where
  id : Nat
  lhs : Node F
  kind : CKind
  rhs : Node F
  label : String

/-- `==` on constraints: `Rc::ptr_eq`, src/model/constraint.rs:82-87 (`Hash`, 92-97, hashes the same address) -/
def Constraint.ptrEq (c d : Constraint F) : Bool := c.id == d.id

/-- `Constraint::new`, src/model/constraint.rs:46-55 -/
def newConstraint (lhs : Node F) (kind : CKind) (rhs : Node F) (label : String) : M (Constraint F) :=
  M.bind M.fresh fun i => M.pure ⟨i, lhs, kind, rhs, label⟩

/-- `HashMap::insert` with a constraint as key. Code: e.g. src/model/model.rs:144. -/
def insertC {β : Type} (m : List (Constraint F × β)) (k : Constraint F) (v : β) : List (Constraint F × β) :=
  match m with
  | [] => [(k, v)]
  | (x, w) :: m => if x.ptrEq k then (x, v) :: m else (x, w) :: insertC m k v

/-- `HashMap::get` with a constraint as key. Code: lookups of users in `final_duals()`, src/model/model.rs:83-85. -/
def getC {β : Type} (m : List (Constraint F × β)) (k : Constraint F) : Option β :=
  match m with
  | [] => none
  | (x, b) :: m => if x.ptrEq k then some b else getC m k

variable [FloatOps F]

/-- `violation`, src/model/constraint.rs:61-73 -/
def Constraint.violation (c : Constraint F) (σ : Env F) : F :=
  match c.kind with
  | .equal => FloatOps.abs (c.lhs.evaluate σ -. c.rhs.evaluate σ)
  | .lessEqual => FloatOps.max zero (c.lhs.evaluate σ -. c.rhs.evaluate σ)
  | .greaterEqual => FloatOps.max zero (c.rhs.evaluate σ -. c.lhs.evaluate σ)

/-! ## Comparison methods (`NodeCmp`), src/model/node_cmp.rs -/

/-- `Node::equal_and_tag(f64)`, node_cmp.rs:37-42; `equal` (18) is the case of the empty tag -/
def equalNS (a : Node F) (c : F) (tag : String) : M (Constraint F) :=
  M.bind (newConst c) fun k => newConstraint a .equal k tag

/-- `Node::geq_and_tag(f64)`, node_cmp.rs:44-49; `geq` (24) is the case of the empty tag -/
def geqNS (a : Node F) (c : F) (tag : String) : M (Constraint F) :=
  M.bind (newConst c) fun k => newConstraint a .greaterEqual k tag

/-- `Node::leq_and_tag(f64)`, node_cmp.rs:51-56; `leq` (30) is the case of the empty tag -/
def leqNS (a : Node F) (c : F) (tag : String) : M (Constraint F) :=
  M.bind (newConst c) fun k => newConstraint a .lessEqual k tag

/-- `Node::equal_and_tag(Node)` and `(&Node)`, node_cmp.rs:67-72 -/
def equalNN (a b : Node F) (tag : String) : M (Constraint F) := newConstraint a .equal b tag

/-- `Node::geq_and_tag(Node)` and `(&Node)`, node_cmp.rs:74-79 -/
def geqNN (a b : Node F) (tag : String) : M (Constraint F) := newConstraint a .greaterEqual b tag

/-- `Node::leq_and_tag(Node)` and `(&Node)`, node_cmp.rs:81-86 -/
def leqNN (a b : Node F) (tag : String) : M (Constraint F) := newConstraint a .lessEqual b tag

/-- `f64::equal_and_tag(Node)`, node_cmp.rs:98-103 -/
def equalSN (c : F) (b : Node F) (tag : String) : M (Constraint F) :=
  M.bind (newConst c) fun k => newConstraint k .equal b tag

/-- `f64::geq_and_tag(Node)`, node_cmp.rs:105-110 -/
def geqSN (c : F) (b : Node F) (tag : String) : M (Constraint F) :=
  M.bind (newConst c) fun k => newConstraint k .greaterEqual b tag

/-- `f64::leq_and_tag(Node)`, node_cmp.rs:112-117 -/
def leqSN (c : F) (b : Node F) (tag : String) : M (Constraint F) :=
  M.bind (newConst c) fun k => newConstraint k .lessEqual b tag

/-! ## Standard components of constraints, src/model/constraint_std.rs -/

/-- `ConstraintStdComp`, constraint_std.rs:13-44 -/
structure ConstrComp (F : Type) where
  ca : List (Constraint F)
  cj : List (Constraint F)
  a : List (Nat × Node F × F)
  b : List F
  f : List (Node F)
  j : List (Nat × Node F × Node F)
  h : List (List (Node F × Node F × Node F))
  u : List (Node F × F × Constraint F)
  l : List (Node F × F × Constraint F)
  prop : List (Prop' F)

/-- `ConstraintStdComp::new`, constraint_std.rs:56-69 -/
def ConstrComp.empty : ConstrComp F := ⟨[], [], [], [], [], [], [], [], [], []⟩

/-- `AddAssign`, constraint_std.rs:72-85 -/
def ConstrComp.append (p q : ConstrComp F) : ConstrComp F :=
  ⟨p.ca ++ q.ca, p.cj ++ q.cj, p.a ++ q.a, p.b ++ q.b, p.f ++ q.f, p.j ++ q.j, p.h ++ q.h, p.u ++ q.u, p.l ++ q.l,
    p.prop ++ q.prop⟩

/-- The test for a bound constraint, constraint_std.rs:106-109: the variable of the bound. `values().next()` and
`keys().next()` of a map with one entry are that entry. -/
def Constraint.boundVar (c : Constraint F) (p : Prop' F) : Option (Node F) :=
  match p.a with
  | [(x, v)] => if p.affine && (v ==. one) && c.kind != .equal then some x else none
  | _ => none

/-- `std_components` of a constraint, constraint_std.rs:89-217, with the row counters `arow`, `jrow` passed in and out.
The unreachable `panic!("unexpected constraint type")` branches are the `.equal` cases inside inequality branches, which the
model merges with the lower bound. -/
def Constraint.stdComponents (H : HashOrder) (c : Constraint F) (arow jrow : Nat) : M (ConstrComp F × Nat × Nat) :=
  M.bind (subN c.lhs c.rhs) fun exp =>
  M.bind (exp.stdComponents H) fun comp =>
  let prop := comp.prop
  match c.boundVar prop with
  | some x =>
    -- 110-124
    let e := (x, FloatOps.neg prop.b, c)
    match c.kind with
    | .lessEqual => M.pure ({ ConstrComp.empty with u := [e], prop := [prop] }, arow, jrow)
    | _ => M.pure ({ ConstrComp.empty with l := [e], prop := [prop] }, arow, jrow)
  | none =>
    if prop.affine then
      match c.kind with
      | .equal =>
        -- 131-138
        M.bind (H.iter prop.a) fun es =>
        M.pure ({ ConstrComp.empty with
          a := es.map fun e => (arow, e.1, e.2)
          b := [FloatOps.neg prop.b]
          ca := [c]
          prop := [prop] }, arow + 1, jrow)
      | k =>
        -- 141-160
        M.bind (newVar ("_s_a" ++ toString arow ++ "_") .continuous) fun s =>
        M.bind (H.iter prop.a) fun es =>
        let e := (s, zero, c)
        M.pure ({ ConstrComp.empty with
          a := es.map (fun e => (arow, e.1, e.2)) ++ [(arow, s, negOne)]
          b := [FloatOps.neg prop.b]
          ca := [c]
          u := if k = .lessEqual then [e] else []
          l := if k = .lessEqual then [] else [e]
          prop := [{ prop with a := insertN prop.a s negOne }] }, arow + 1, jrow)
    else
      match c.kind with
      | .equal =>
        -- 167-181
        M.pure ({ ConstrComp.empty with
          h := [comp.hphi]
          f := [comp.phi]
          cj := [c]
          j := comp.gphi.map fun e => (jrow, e.1, e.2)
          prop := [prop] }, arow, jrow + 1)
      | k =>
        -- 167-171, 184-203
        M.bind (newVar ("_s_j" ++ toString jrow ++ "_") .continuous) fun s =>
        M.bind (subN comp.phi s) fun f =>
        M.bind (newConst negOne) fun m1 =>
        let e := (s, zero, c)
        M.pure ({ ConstrComp.empty with
          h := [comp.hphi]
          f := [f]
          cj := [c]
          j := comp.gphi.map (fun e => (jrow, e.1, e.2)) ++ [(jrow, s, m1)]
          u := if k = .lessEqual then [e] else []
          l := if k = .lessEqual then [] else [e]
          prop := [{ prop with a := insertN prop.a s negOne }] }, arow, jrow + 1)

end Verif
