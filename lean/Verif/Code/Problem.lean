import Verif.Code.Matrix

/-!
# Optimization problems: src/problem/base.rs, minlp.rs, nlp.rs, milp.rs, lp.rs

Accessor methods (`phi()`, `gphi()`, ...) are the fields. A panic inside `evaluate` ends the program; the half-written buffers
it would leave are not modelled.
-/

namespace Verif

variable {F : Type}

/-- The buffers that the evaluation function writes: the `&mut` parameters of `ProblemEval`, src/problem/base.rs:21-28 -/
structure EvalBuf (F : Type) where
  phi : F
  gphi : List F
  hphi : Coo F
  f : List F
  j : Coo F
  h : List (Coo F)

/-- `ProblemEval`, src/problem/base.rs:21-28. Simplification: a `dyn Fn` with interior mutability is not modelled. -/
abbrev EvalFn (F : Type) := EvalBuf F → List F → R (EvalBuf F)

/-- `ProblemSol`, src/problem/base.rs:31-47 -/
structure Sol (F : Type) where
  x : List F
  lam : List F
  nu : List F
  mu : List F
  pi : List F
  deriving DecidableEq

/-- `ProblemMinlp`, src/problem/minlp.rs:15-36 -/
structure Minlp (F : Type) where
  x0 : Option (List F)
  buf : EvalBuf F
  a : Coo F
  b : List F
  hcomb : Coo F
  l : List F
  u : List F
  p : List Bool
  evalFn : EvalFn F

namespace Minlp

/-- src/problem/minlp.rs:155 -/
def nx (q : Minlp F) : Nat := q.a.cols

/-- src/problem/minlp.rs:158 -/
def na (q : Minlp F) : Nat := q.b.length

/-- src/problem/minlp.rs:161 -/
def nf (q : Minlp F) : Nat := q.buf.f.length

/-- `evaluate`, src/problem/minlp.rs:165-173 -/
def evaluate (q : Minlp F) (x : List F) : R (Minlp F) := do .ok { q with buf := ← q.evalFn q.buf x }

end Minlp

variable [FloatOps F]

/-- `ProblemSol::new`, src/problem/base.rs:53-61 -/
def Sol.new (nx na nf : Nat) : Sol F :=
  ⟨List.replicate nx zero, List.replicate na zero, List.replicate nf zero, List.replicate nx zero, List.replicate nx zero⟩

/-- Inner loop of the sparsity copy, src/problem/minlp.rs:82-86; state (hcomb, k) -/
def copyPattern (s : Coo F × Nat) (e : Nat × Nat × F) : R (Coo F × Nat) := do
  let hc ← s.1.setRowInd s.2 e.1
  let hc ← hc.setColInd s.2 e.2.1
  .ok (hc, s.2 + 1)

/-- `ProblemMinlp::new`, src/problem/minlp.rs:43-105 -/
def Minlp.new (hphi a : Coo F) (b : List F) (j : Coo F) (h : List (Coo F)) (l u : List F) (p : List Bool)
    (x0 : Option (List F)) (evalFn : EvalFn F) : R (Minlp F) := do
  let nx := a.cols
  let na := a.rows
  let nf := j.rows
  assertR (hphi.cols == nx)
  assertR (hphi.rows == nx)
  assertR (a.cols == nx)
  assertR (a.rows == na)
  assertR (b.length == na)
  assertR (j.cols == nx)
  assertR (j.rows == nf)
  assertR (h.length == nf)
  let _ ← foldR (fun (_ : Unit) (hh : Coo F) => do
    assertR (hh.rows == nx)
    assertR (hh.cols == nx)) () h
  assertR (l.length == nx)
  assertR (u.length == nx)
  assertR (p.length == nx)
  let hcombNnz := (h.map Coo.nnz).sum
  let r ← foldR (fun (s : Coo F × Nat) (hh : Coo F) => do
    let items ← hh.iter.drain
    foldR copyPattern s items) (Coo.fromNnz (nx, nx) hcombNnz, 0) h
  .ok {
    x0 := x0
    buf := ⟨zero, List.replicate nx zero, hphi, List.replicate nf zero, j, h⟩
    a := a, b := b, hcomb := r.1, l := l, u := u, p := p, evalFn := evalFn }

/-- `combine_h`, src/problem/minlp.rs:177-187; state of the loop: (data, k) -/
def Minlp.combineH (q : Minlp F) (nu : List F) : R (Minlp F) := do
  assertR (q.nf == nu.length)
  let r ← foldR (fun (s : List F × Nat) (hn : Coo F × F) =>
    foldR (fun (s : List F × Nat) (val : F) => do
      let d ← setIdx s.1 s.2 (hn.2 *. val)
      .ok (d, s.2 + 1)) s hn.1.data) (q.hcomb.data, 0) (q.buf.h.zip nu)
  .ok { q with hcomb := { q.hcomb with data := r.1 } }

/-- `ProblemNlp`, src/problem/nlp.rs:14-16; the methods delegate to the Minlp -/
structure Nlp (F : Type) where
  base : Minlp F

/-- `ProblemNlp::new`, src/problem/nlp.rs:21-35 -/
def Nlp.new (hphi a : Coo F) (b : List F) (j : Coo F) (h : List (Coo F)) (l u : List F)
    (x0 : Option (List F)) (evalFn : EvalFn F) : R (Nlp F) := do
  .ok ⟨← Minlp.new hphi a b j h l u (List.replicate a.cols false) x0 evalFn⟩

/-- The products that `unrolled_dot` of ndarray 0.13 (src/numeric_util.rs there) adds up: eight partial sums, each taking every eighth product as long as eight
products are left; then the partial sums in the order 0 and 4, 1 and 5, 2 and 6, 3 and 7, then the products that are left (at most seven), one by one.
Called by `ArrayView1::dot` for contiguous data, as in src/problem/milp.rs:53 and src/problem/lp.rs:45. Simplification: the code of ndarray is not part
of /repo; nothing below but the exactness of small examples depends on the order of the additions (see `SumOf`). -/
def unrolledDot (p0 p1 p2 p3 p4 p5 p6 p7 : F) : List (F × F) → F
  | e0 :: e1 :: e2 :: e3 :: e4 :: e5 :: e6 :: e7 :: l =>
    unrolledDot (p0 +. (e0.1 *. e0.2)) (p1 +. (e1.1 *. e1.2)) (p2 +. (e2.1 *. e2.2)) (p3 +. (e3.1 *. e3.2))
      (p4 +. (e4.1 *. e4.2)) (p5 +. (e5.1 *. e5.2)) (p6 +. (e6.1 *. e6.2)) (p7 +. (e7.1 *. e7.2)) l
  | l => l.foldl (fun s e => s +. (e.1 *. e.2)) ((((zero +. (p0 +. p4)) +. (p1 +. p5)) +. (p2 +. p6)) +. (p3 +. p7))

/-- `ArrayView1::dot`: panics on different lengths. Code: src/problem/milp.rs:53, src/problem/lp.rs:45. -/
def dot (c x : List F) : R F := do
  assertR (c.length == x.length)
  .ok (unrolledDot zero zero zero zero zero zero zero zero (c.zip x))

/-- The evaluation function of linear problems, src/problem/milp.rs:46-55 and src/problem/lp.rs:38-47 -/
def linearEval (c : List F) : EvalFn F := fun buf x => do
  let phi ← dot c x
  if buf.gphi.length == c.length then .ok { buf with phi := phi, gphi := c } else .error .sliceLen

/-- `ProblemMilp`, src/problem/milp.rs:18-21 -/
structure Milp (F : Type) where
  c : List F
  base : Minlp F

/-- `ProblemMilp::new`, src/problem/milp.rs:38-71 -/
def Milp.new (c : List F) (a : Coo F) (b l u : List F) (p : List Bool) (x0 : Option (List F)) : R (Milp F) := do
  let nx := a.cols
  .ok ⟨c, ← Minlp.new (Coo.fromNnz (nx, nx) 0) a b (Coo.fromNnz (0, nx) 0) [] l u p x0 (linearEval c)⟩

/-- src/problem/milp.rs:96 -/
def Milp.nx (q : Milp F) : Nat := q.c.length

/-- src/problem/milp.rs:99 -/
def Milp.na (q : Milp F) : Nat := q.base.b.length

/-- `ProblemLp`, src/problem/lp.rs:16-19 -/
structure Lp (F : Type) where
  baseMilp : Milp F
  baseNlp : Nlp F

/-- `ProblemLp::new`, src/problem/lp.rs:24-61 -/
def Lp.new (c : List F) (a : Coo F) (b l u : List F) (x0 : Option (List F)) : R (Lp F) := do
  let nx := c.length
  let milp ← Milp.new c a b l u (List.replicate nx false) x0
  let nlp ← Nlp.new (Coo.fromNnz (nx, nx) 0) a b (Coo.fromNnz (0, nx) 0) [] l u x0 (linearEval c)
  .ok ⟨milp, nlp⟩

/-- `Problem`, src/problem/base.rs:12-17 -/
inductive Problem (F : Type) where
  | minlp (q : Minlp F)
  | milp (q : Milp F)
  | lp (q : Lp F)
  | nlp (q : Nlp F)

end Verif
