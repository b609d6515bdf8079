import Verif.Code.Ipopt
import Verif.Spec.Problem

/-! # Vocabulary of the statements about the Ipopt interface -/

namespace Verif

variable {F : Type}

/-- The same sparsity pattern. -/
def Coo.SamePattern (a b : Coo F) : Prop :=
  b.shape = a.shape ∧ b.rowInds = a.rowInds ∧ b.colInds = a.colInds ∧ b.data.length = a.data.length

/-- The same dimensions and sparsity patterns. -/
structure SameShape (b b' : EvalBuf F) : Prop where
  gphi : b'.gphi.length = b.gphi.length
  hphi : b.hphi.SamePattern b'.hphi
  f : b'.f.length = b.f.length
  j : b.j.SamePattern b'.j
  h : List.Forall₂ Coo.SamePattern b.h b'.h

variable [FloatOps F]

/-- What the problem computes is a function `val` of the point: after any history of calls, evaluating at a point with one entry per
variable gives the numbers `val x`; and `val` has the dimensions and patterns of the problem. -/
structure EvalsTo (q : Minlp F) (val : List F → EvalBuf F) : Prop where
  eval : ∀ ops q', runProb q ops = .ok q' → ∀ x, x.length = q.nx → q'.evaluate x = .ok { q' with buf := val x }
  shape : ∀ x, x.length = q.nx → SameShape q.buf (val x)

/-- The dimensions of a problem fit, and the linear rows have their entries inside the matrix. -/
structure Minlp.Sound (q : Minlp F) : Prop where
  aWF : q.a.WF
  aIn : ∀ t ∈ q.a.triplets, t.1 < q.a.rows ∧ t.2.1 < q.a.cols
  b : q.b.length = q.a.rows
  gphi : q.buf.gphi.length = q.nx
  hphi : q.buf.hphi.WF
  j : q.buf.j.WF
  h : ∀ m ∈ q.buf.h, m.WF
  hnum : q.buf.h.length = q.nf
  combRows : q.hcomb.rowInds = q.buf.h.flatMap Coo.rowInds
  combCols : q.hcomb.colInds = q.buf.h.flatMap Coo.colInds
  combData : q.hcomb.data.length = (q.buf.h.flatMap Coo.data).length

/-- The row and column numbers of a matrix fit into an `i32`, the index type of Ipopt. -/
structure SmallIdx (m : Coo F) : Prop where
  rows : ∀ r ∈ m.rowInds, r < 2 ^ 31
  cols : ∀ c ∈ m.colInds, c < 2 ^ 31

/-- All row and column numbers of the problem do. -/
structure Minlp.Small (q : Minlp F) : Prop where
  a : SmallIdx q.a
  j : SmallIdx q.buf.j
  hphi : SmallIdx q.buf.hphi
  hcomb : SmallIdx q.hcomb

/-! ## The requests of Ipopt -/

/-- The `new_x` of a call. -/
def Call.newX : Call F → Int
  | .f _ _ newX _ _ | .gradF _ _ newX _ _ | .g _ _ newX _ _ _ | .jacG _ _ newX _ _ _ _ _ _ | .h _ _ newX _ _ _ _ _ _ _ _ _ => newX

/-- The call asks for numbers at the point `x`: all dimensions are those of the problem, and no pointer that is needed is null. -/
def Call.AsksValues (q : Minlp F) (x : List F) : Call F → Prop
  | .f n px _ out data => n = q.nx ∧ px = some x ∧ x.length = q.nx ∧ out = true ∧ data = true
  | .gradF n px _ out data => n = q.nx ∧ px = some x ∧ x.length = q.nx ∧ out = true ∧ data = true
  | .g n px _ m out data => n = q.nx ∧ px = some x ∧ x.length = q.nx ∧ m = (q.na + q.nf : Nat) ∧ out = true ∧ data = true
  | .jacG n px _ m nele _ _ values data => n = q.nx ∧ px = some x ∧ x.length = q.nx ∧ m = (q.na + q.nf : Nat) ∧
      nele = (q.a.nnz + q.buf.j.nnz : Nat) ∧ values = true ∧ data = true
  | .h n px _ _ m lambda _ nele _ _ values data => n = q.nx ∧ px = some x ∧ x.length = q.nx ∧ m = (q.na + q.nf : Nat) ∧
      nele = (q.buf.hphi.nnz + q.hcomb.nnz : Nat) ∧ values = true ∧ data = true ∧ ∃ l, lambda = some l ∧ l.length = q.na + q.nf

/-- The call asks for a sparsity pattern. -/
def Call.AsksPattern (q : Minlp F) : Call F → Prop
  | .jacG n _ _ m nele irow jcol values data => n = q.nx ∧ m = (q.na + q.nf : Nat) ∧ nele = (q.a.nnz + q.buf.j.nnz : Nat) ∧
      irow = true ∧ jcol = true ∧ values = false ∧ data = true
  | .h n _ _ _ m _ _ nele irow jcol values data => n = q.nx ∧ m = (q.na + q.nf : Nat) ∧ nele = (q.buf.hphi.nnz + q.hcomb.nnz : Nat) ∧
      irow = true ∧ jcol = true ∧ values = false ∧ data = true
  | _ => False

/-- The call is inconsistent: a dimension differs from that of the problem, or a pointer that is needed is null (the point is always
needed for `f`, its gradient and `g`, and for Jacobian and Hessian values at a new point; the multipliers are needed if they are
announced as new). -/
def Call.Inconsistent (q : Minlp F) : Call F → Prop
  | .f n px _ out data => px = none ∨ out = false ∨ data = false ∨ n ≠ q.nx
  | .gradF n px _ out data => px = none ∨ out = false ∨ data = false ∨ n ≠ q.nx
  | .g n px _ m out data => px = none ∨ out = false ∨ data = false ∨ n ≠ q.nx ∨ m ≠ (q.na + q.nf : Nat)
  | .jacG n px newX m nele irow jcol values data => data = false ∨ n ≠ q.nx ∨ m ≠ (q.na + q.nf : Nat) ∨
      nele ≠ (q.a.nnz + q.buf.j.nnz : Nat) ∨ (values = false ∧ (irow = false ∨ jcol = false)) ∨ (values = true ∧ newX = 1 ∧ px = none)
  | .h n px newX _ m lambda newLambda nele irow jcol values data => data = false ∨ n ≠ q.nx ∨ m ≠ (q.na + q.nf : Nat) ∨
      nele ≠ (q.buf.hphi.nnz + q.hcomb.nnz : Nat) ∨ (values = false ∧ (irow = false ∨ jcol = false)) ∨
      (values = true ∧ newX = 1 ∧ px = none) ∨ (values = true ∧ newLambda = 1 ∧ lambda = none)

/-- The one request that is refused too late: Hessian values at a new point, with new multipliers that are null. -/
def Call.LateRefusal : Call F → Prop
  | .h _ px newX _ _ lambda newLambda _ _ _ values _ => values = true ∧ newX = 1 ∧ px ≠ none ∧ newLambda = 1 ∧ lambda = none
  | _ => False

/-- The `new_x` protocol. `Protocol q p calls r`: the calls are such that each request for numbers sets `new_x` unless its point is that
of the request for numbers before it. `p` is the point of the last request before the calls (`none` if there was none), `r` that
after the calls. Requests for patterns and refused requests may be anywhere. -/
inductive Protocol (q : Minlp F) : Option (List F) → List (Call F) → Option (List F) → Prop
  | nil (p : Option (List F)) : Protocol q p [] p
  | values {p r : Option (List F)} {c : Call F} {cs : List (Call F)} {x : List F} (h : c.AsksValues q x) (hnew : c.newX = 1 ∨ p = some x)
      (hcs : Protocol q (some x) cs r) : Protocol q p (c :: cs) r
  | pattern {p r : Option (List F)} {c : Call F} {cs : List (Call F)} (h : c.AsksPattern q) (hcs : Protocol q p cs r) :
      Protocol q p (c :: cs) r
  | refused {p r : Option (List F)} {c : Call F} {cs : List (Call F)} (h : c.Inconsistent q) (hl : ¬ c.LateRefusal)
      (hcs : Protocol q p cs r) : Protocol q p (c :: cs) r

/-- A native solver that obeys the protocol, whatever answers it gets. -/
inductive Native.Obeys (q : Minlp F) : Option (List F) → Native F → Prop
  | done (p : Option (List F)) (status : Int) (x lamnu pi mu : List F) : Native.Obeys q p (.done status x lamnu pi mu)
  | values {p : Option (List F)} {c : Call F} {next : Answer F → Native F} {x : List F} (h : c.AsksValues q x)
      (hnew : c.newX = 1 ∨ p = some x) (hnext : ∀ a, Native.Obeys q (some x) (next a)) : Native.Obeys q p (.call c next)
  | pattern {p : Option (List F)} {c : Call F} {next : Answer F → Native F} (h : c.AsksPattern q)
      (hnext : ∀ a, Native.Obeys q p (next a)) : Native.Obeys q p (.call c next)
  | refused {p : Option (List F)} {c : Call F} {next : Answer F → Native F} (h : c.Inconsistent q) (hl : ¬ c.LateRefusal)
      (hnext : ∀ a, Native.Obeys q p (next a)) : Native.Obeys q p (.call c next)

/-- The problem after a sequence of callbacks. -/
def runCalls (q : Minlp F) : List (Call F) → R (Minlp F)
  | [] => .ok q
  | c :: cs => do
    let r ← c.exec q
    runCalls r.1 cs

/-! ## What the answers should be -/

/-- The constraint values `[A x - b; f(x)]`. -/
def constraintValues (q : Minlp F) (buf : EvalBuf F) (x : List F) : List F :=
  (q.b.zipIdx.map fun e =>
    (rowOf q.a.triplets e.2).foldl (fun s t => s +. ((x[t.1]?).getD zero *. t.2)) zero -. e.1) ++ buf.f

/-- The entries (row, column, value) of the Jacobian of `[A x - b; f(x)]`: rows of `f` come after the `na` linear rows. -/
def jacobianEntries (q : Minlp F) (buf : EvalBuf F) : List (Int × Int × F) :=
  (q.a.triplets.map fun t => ((t.1 : Int), (t.2.1 : Int), t.2.2)) ++
    buf.j.triplets.map fun t => (((q.na + t.1 : Nat) : Int), (t.2.1 : Int), t.2.2)

/-- The entries of the Hessian of `s * phi + nu₁ f₁ + nu₂ f₂ + ...`. -/
def hessianEntries (buf : EvalBuf F) (s : F) (nu : List F) : List (Int × Int × F) :=
  (buf.hphi.triplets.map fun t => ((t.1 : Int), (t.2.1 : Int), s *. t.2.2)) ++
    (weighted buf.h nu).map fun t => ((t.1 : Int), (t.2.1 : Int), t.2.2)

end Verif
