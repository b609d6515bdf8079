import Verif.Code.Print
import Verif.Code.Diff

/-!
# Recursion: the functions on expressions that call themselves for the arguments, on a stack of limited size

Rust aborts the process when the stack overflows. Here a function gets the number of nested calls of itself that still fit on the stack, and gives `none` when another call would
be needed.
-/

namespace Verif

variable {F : Type}

/-- `{}` of a node with at most that many nested calls. Code: as `Node.print`: src/model/node.rs:106-119, function/add.rs:79-92, cos.rs:61, div.rs:75-90, mul.rs:76-89, sin.rs:61. -/
def Node.printIn (fmt : F → List Char) : Nat → Node F → Option (List Char)
  | 0, _ => none
  | _ + 1, .const _ v => some (fmt v)
  | _ + 1, .var _ s _ => some s.toList
  | k + 1, .add _ args => do
    let texts ← args.mapM (printIn fmt k)
    some (List.intercalate [' ', '+', ' '] texts)
  | k + 1, .cos _ a => do some (['c', 'o', 's'] ++ inParens (← printIn fmt k a))
  | k + 1, .div _ a b => do
    let x ← printIn fmt k a
    let y ← printIn fmt k b
    some ((if a.parens0 then inParens x else x) ++ '/' :: (if b.parensD then inParens y else y))
  | k + 1, .mul _ a b => do
    let x ← printIn fmt k a
    let y ← printIn fmt k b
    some ((if a.parens0 then inParens x else x) ++ '*' :: (if b.parens1 then inParens y else y))
  | k + 1, .sin _ a => do some (['s', 'i', 'n'] ++ inParens (← printIn fmt k a))

variable [FloatOps F]

/-- `evaluate` with at most that many nested calls. Code: as `Node.evaluate`: src/model/node_base.rs:48-64 and function/add.rs:46-48, cos.rs:45-47, div.rs:47-49, mul.rs:47-49,
sin.rs:45-47. -/
def Node.evaluateIn (σ : Env F) : Nat → Node F → Option F
  | 0, _ => none
  | _ + 1, .const _ v => some v
  | _ + 1, .var i _ _ => some (match σ i with
    | some x => x
    | none => nan)
  | k + 1, .add _ args => args.foldlM (fun acc a => do some (acc +. (← evaluateIn σ k a))) zero
  | k + 1, .cos _ a => do some (FloatOps.cos (← evaluateIn σ k a))
  | k + 1, .div _ a b => do
    let x ← evaluateIn σ k a
    let y ← evaluateIn σ k b
    some (x /. y)
  | k + 1, .mul _ a b => do
    let x ← evaluateIn σ k a
    let y ← evaluateIn σ k b
    some (x *. y)
  | k + 1, .sin _ a => do some (FloatOps.sin (← evaluateIn σ k a))

/-- `std_properties` with at most that many nested calls. Code: as `Node.stdProperties`: src/model/node_std.rs:74-98, function/add.rs:53-76, cos.rs:52-56, div.rs:54-72,
mul.rs:54-73, sin.rs:52-56. -/
def Node.stdPropertiesIn : Nat → Node F → Option (Prop' F)
  | 0, _ => none
  | _ + 1, .const _ v => some ⟨true, [], v⟩
  | _ + 1, .var i s k => some ⟨true, [(.var i s k, one)], zero⟩
  | k + 1, .add _ args =>
    args.foldlM (fun acc x => do
      let p ← stdPropertiesIn k x
      some ⟨acc.affine && p.affine, p.a.foldl (fun m e => addToN m e.1 e.2) acc.a, acc.b +. p.b⟩) ⟨true, [], zero⟩
  | k + 1, .cos _ a => do
    let p ← stdPropertiesIn k a
    some ⟨false, p.a, p.b⟩
  | k + 1, .sin _ a => do
    let p ← stdPropertiesIn k a
    some ⟨false, p.a, p.b⟩
  | k + 1, .div _ x y => do
    let p0 ← stdPropertiesIn k x
    let p1 ← stdPropertiesIn k y
    some ⟨p0.affine && p1.a.isEmpty,
      p1.a.foldl (fun m e => insertN m e.1 zero) (p0.a.foldl (fun m e => insertN m e.1 (e.2 /. p1.b)) []),
      p0.b /. p1.b⟩
  | k + 1, .mul _ x y => do
    let p0 ← stdPropertiesIn k x
    let p1 ← stdPropertiesIn k y
    some ⟨(p0.affine && p1.a.isEmpty) || (p1.affine && p0.a.isEmpty),
      p1.a.foldl (fun m e => insertN m e.1 (e.2 *. p0.b)) (p0.a.foldl (fun m e => insertN m e.1 (e.2 *. p1.b)) []),
      p0.b *. p1.b⟩

/-! ## Multiplication, which calls itself for the terms of a sum -/

/-- `iter().map(..).collect()` of calls that may not fit on the stack: the first that does not fit ends it. Code: src/model/node.rs:303, 308, 355, 396. -/
def mapIn (f : Node F → M (Option (Node F))) : List (Node F) → M (Option (List (Node F)))
  | [] => M.pure (some [])
  | a :: as => M.bind (f a) fun b => match b with
    | none => M.pure none
    | some b => M.bind (mapIn f as) fun bs => match bs with
      | none => M.pure none
      | some bs => M.pure (some (b :: bs))

/-- The sum of the products, if all of them were made; a part of the multiplications. Code: src/model/node.rs:303, 308, 355, 396. -/
def sumIn (x : M (Option (List (Node F)))) : M (Option (Node F)) :=
  M.bind x fun bs => match bs with
    | none => M.pure none
    | some bs => M.bind (newAdd bs) fun r => M.pure (some r)

/-- The result of a call that calls no multiplication; a part of the multiplications. Code: e.g. src/model/node.rs:276. -/
def doneIn (x : M (Node F)) : M (Option (Node F)) := M.bind x fun r => M.pure (some r)

/-- `&Node * &Node` with at most that many nested calls. Code: src/model/node.rs:268-317, branch for branch. -/
def mulNIn : Nat → Node F → Node F → M (Option (Node F))
  | 0, _, _ => M.pure none
  | k + 1, s, r =>
    if s.isConstVal zero || r.isConstVal zero then doneIn (newConst zero)
    else if s.isConstVal one then doneIn (M.pure r)
    else if r.isConstVal one then doneIn (M.pure s)
    else if s.isConstant && r.isConstant then doneIn (newConst (s.evaluate (fun _ => none) *. r.evaluate (fun _ => none)))
    else match s, r with
      | .const _ _, .add _ args => sumIn (mapIn (fun x => mulNIn k s x) args)
      | .add _ args, .const _ _ => sumIn (mapIn (fun x => mulNIn k x r) args)
      | _, _ => doneIn (newMul s r)

/-- `&Node * f64` with at most that many nested calls. Code: src/model/node.rs:320-363, branch for branch. -/
def mulSIn : Nat → F → Node F → M (Option (Node F))
  | 0, _, _ => M.pure none
  | k + 1, c, s =>
    if s.isConstant || c ==. zero then
      match s with
      | .const _ v => doneIn (newConst (v *. c))
      | _ => doneIn (newConst zero)
    else if s.isConstVal one then doneIn (newConst c)
    else if c ==. one then doneIn (M.pure s)
    else match s with
      | .add _ args => sumIn (mapIn (fun x => mulSIn k c x) args)
      | s => doneIn (M.bind (newConst c) fun k => newMul s k)

/-- `f64 * &Node` with at most that many nested calls. Code: src/model/node.rs:364-404, branch for branch. -/
def sMulIn : Nat → F → Node F → M (Option (Node F))
  | 0, _, _ => M.pure none
  | k + 1, c, r =>
    if c ==. zero || r.isConstant then
      match r with
      | .const _ v => doneIn (newConst (c *. v))
      | _ => doneIn (newConst zero)
    else if c ==. one then doneIn (M.pure r)
    else if r.isConstVal one then doneIn (newConst c)
    else match r with
      | .add _ args => sumIn (mapIn (fun x => sMulIn k c x) args)
      | r => doneIn (M.bind (newConst c) fun k => newMul k r)

end Verif
