import Verif.Code.Diff

/-! # Vocabulary of the statements about affine expressions -/

namespace Verif

variable {F : Type} [FloatOps F]

/-- The value of `a * x + b` at `σ`: `a₁ x₁ + (a₂ x₂ + (... + b))`. -/
def affineValue (σ : Env F) (a : List (Node F × F)) (b : F) : F :=
  a.foldr (fun p s => p.2 *. p.1.evaluate σ +. s) b

/-- Expressions built from constants and variables with `+`, `-`, unary minus, multiplication by constants and division by
constants (as scalars or as constant nodes, on either side), where each operator was allowed to return. -/
inductive LinExpr : Node F → Prop
  | const (i : Nat) (v : F) : LinExpr (.const i v)
  | var (i : Nat) (s : String) (k : VarKind) : LinExpr (.var i s k)
  | add {a b e : Node F} {n m : Nat} : LinExpr a → LinExpr b → addN a b n = .ok (e, m) → LinExpr e
  | addScalar {a e : Node F} {c : F} {n m : Nat} : LinExpr a → addS a c n = .ok (e, m) → LinExpr e
  | scalarAdd {a e : Node F} {c : F} {n m : Nat} : LinExpr a → sAdd c a n = .ok (e, m) → LinExpr e
  | sub {a b e : Node F} {n m : Nat} : LinExpr a → LinExpr b → subN a b n = .ok (e, m) → LinExpr e
  | subScalar {a e : Node F} {c : F} {n m : Nat} : LinExpr a → subS a c n = .ok (e, m) → LinExpr e
  | scalarSub {a e : Node F} {c : F} {n m : Nat} : LinExpr a → sSub c a n = .ok (e, m) → LinExpr e
  | neg {a e : Node F} {n m : Nat} : LinExpr a → negN a n = .ok (e, m) → LinExpr e
  | mulScalar {a e : Node F} {c : F} {n m : Nat} : LinExpr a → mulS c a n = .ok (e, m) → LinExpr e
  | scalarMul {a e : Node F} {c : F} {n m : Nat} : LinExpr a → sMul c a n = .ok (e, m) → LinExpr e
  | mulConst {a e : Node F} {i : Nat} {c : F} {n m : Nat} : LinExpr a → mulN a (.const i c) n = .ok (e, m) → LinExpr e
  | constMul {a e : Node F} {i : Nat} {c : F} {n m : Nat} : LinExpr a → mulN (.const i c) a n = .ok (e, m) → LinExpr e
  | divScalar {a e : Node F} {c : F} {n m : Nat} : LinExpr a → divS a c n = .ok (e, m) → LinExpr e
  | divConst {a e : Node F} {i : Nat} {c : F} {n m : Nat} : LinExpr a → divN a (.const i c) n = .ok (e, m) → LinExpr e

/-- `std_properties` where every iteration over a hash map may visit the entries in any order. -/
inductive StdAny : Node F → Prop' F → Prop
  | const (i : Nat) (v : F) : StdAny (.const i v) ⟨true, [], v⟩
  | var (i : Nat) (s : String) (k : VarKind) : StdAny (.var i s k) ⟨true, [(.var i s k, one)], zero⟩
  | cos {i : Nat} {a : Node F} {p : Prop' F} : StdAny a p → StdAny (.cos i a) ⟨false, p.a, p.b⟩
  | sin {i : Nat} {a : Node F} {p : Prop' F} : StdAny a p → StdAny (.sin i a) ⟨false, p.a, p.b⟩
  | div {i : Nat} {x y : Node F} {p0 p1 : Prop' F} {l0 l1 : List (Node F × F)} : StdAny x p0 → StdAny y p1 →
      l0.Perm p0.a → l1.Perm p1.a → StdAny (.div i x y) ⟨p0.affine && p1.a.isEmpty,
        l1.foldl (fun m e => insertN m e.1 zero) (l0.foldl (fun m e => insertN m e.1 (e.2 /. p1.b)) []), p0.b /. p1.b⟩
  | mul {i : Nat} {x y : Node F} {p0 p1 : Prop' F} {l0 l1 : List (Node F × F)} : StdAny x p0 → StdAny y p1 →
      l0.Perm p0.a → l1.Perm p1.a → StdAny (.mul i x y)
        ⟨(p0.affine && p1.a.isEmpty) || (p1.affine && p0.a.isEmpty),
         l1.foldl (fun m e => insertN m e.1 (e.2 *. p0.b)) (l0.foldl (fun m e => insertN m e.1 (e.2 *. p1.b)) []), p0.b *. p1.b⟩
  | addNil {i : Nat} : StdAny (.add i []) ⟨true, [], zero⟩
  | addSnoc {i : Nat} {xs : List (Node F)} {x : Node F} {acc p : Prop' F} {l : List (Node F × F)} : StdAny (.add i xs) acc →
      StdAny x p → l.Perm p.a → StdAny (.add i (xs ++ [x]))
        ⟨acc.affine && p.affine, l.foldl (fun m e => addToN m e.1 e.2) acc.a, acc.b +. p.b⟩

end Verif
