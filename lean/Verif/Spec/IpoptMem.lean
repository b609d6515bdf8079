import Verif.Code.IpoptMem
import Verif.Spec.Ipopt

/-! # Vocabulary of the statements about memory in the Ipopt interface -/

namespace Verif

variable {F : Type} {α : Type}

/-- The array behind the pointer has at least `n` cells, unless the pointer is null. -/
def Holds (n : Int) (p : Option (List α)) : Prop := ∀ l, p = some l → n ≤ (l.length : Int)

/-- The arrays are as large as the documentation of Ipopt says, in terms of the numbers passed in the same call: `n` for points and gradients, `m` for
constraints and multipliers, `nele` for entries of matrices. -/
def MemCall.Fits : MemCall F → Prop
  | .f n x _ out _ => Holds n x ∧ Holds 1 out
  | .gradF n x _ out _ => Holds n x ∧ Holds n out
  | .g n x _ m out _ => Holds n x ∧ Holds m out
  | .jacG n x _ _ nele irow jcol values _ => Holds n x ∧ Holds nele irow ∧ Holds nele jcol ∧ Holds nele values
  | .h n x _ _ m lambda _ nele irow jcol values _ => Holds n x ∧ Holds m lambda ∧ Holds nele irow ∧ Holds nele jcol ∧ Holds nele values

/-- The call as `Code/Ipopt.lean` sees it: without the contents of the output arrays. -/
def MemCall.toCall : MemCall F → Call F
  | .f n x newX out data => .f n x newX out.isSome data
  | .gradF n x newX out data => .gradF n x newX out.isSome data
  | .g n x newX m out data => .g n x newX m out.isSome data
  | .jacG n x newX m nele irow jcol values data => .jacG n x newX m nele irow.isSome jcol.isSome values.isSome data
  | .h n x newX s m lambda newLambda nele irow jcol values data =>
    .h n x newX s m lambda newLambda nele irow.isSome jcol.isSome values.isSome data

/-- The array of numbers that the call writes to. -/
def MemCall.values : MemCall F → Option (List F)
  | .f _ _ _ out _ | .gradF _ _ _ out _ | .g _ _ _ _ out _ => out
  | .jacG _ _ _ _ _ _ _ values _ | .h _ _ _ _ _ _ _ _ _ _ values _ => values

/-- The array of rows that the call writes to. -/
def MemCall.irow : MemCall F → Option (List Int)
  | .jacG _ _ _ _ _ irow _ _ _ | .h _ _ _ _ _ _ _ _ irow _ _ _ => irow
  | _ => none

/-- The array of columns that the call writes to. -/
def MemCall.jcol : MemCall F → Option (List Int)
  | .jacG _ _ _ _ _ _ jcol _ _ | .h _ _ _ _ _ _ _ _ _ jcol _ _ => jcol
  | _ => none

/-- The number of cells that the call may write in its arrays. -/
def MemCall.room : MemCall F → Nat
  | .f .. => 1
  | .gradF n .. => n.toNat
  | .g _ _ _ m _ _ => m.toNat
  | .jacG _ _ _ _ nele .. => nele.toNat
  | .h _ _ _ _ _ _ _ nele .. => nele.toNat

/-- The memory after an answer has been written: the numbers of the answer, from the first cell on, and everything else as it was. -/
def MemCall.after (c : MemCall F) (a : Answer F) : Mem F :=
  ⟨a.ok, c.values.map fun l => a.values ++ l.drop a.values.length, c.irow.map fun l => a.irow ++ l.drop a.irow.length,
    c.jcol.map fun l => a.jcol ++ l.drop a.jcol.length⟩

/-- The arrays passed to `CreateIpoptProblem` have as many entries as the numbers `n` and `m` say. -/
structure IpoptArgs.Fits (args : IpoptArgs F) : Prop where
  xL : (args.xL.length : Int) = args.n
  xU : (args.xU.length : Int) = args.n
  gL : (args.gL.length : Int) = args.m
  gU : (args.gU.length : Int) = args.m

/-- Two native libraries that do the same whenever they are passed arrays of the right sizes: `n` for the point and the multipliers of the bounds, `m` for those of the
constraints. -/
structure IpoptLib.SameOnFits (lib lib' : IpoptLib F) : Prop where
  create : ∀ args : IpoptArgs F, args.Fits → lib.create args = lib'.create args
  addInt : lib.addInt = lib'.addInt
  addStr : lib.addStr = lib'.addStr
  solve : ∀ (args : IpoptArgs F) level sb (x lamnu pi mu : List F), args.Fits → (x.length : Int) = args.n → (lamnu.length : Int) = args.m →
    (pi.length : Int) = args.n → (mu.length : Int) = args.n → lib.solve args level sb x lamnu pi mu = lib'.solve args level sb x lamnu pi mu

variable [FloatOps F]

/-- The sizes of what a problem stores fit together, as the constructors check or arrange. -/
structure Minlp.Sized (q : Minlp F) : Prop where
  b : q.b.length = q.a.rows
  gphi : q.buf.gphi.length = q.nx
  a : q.a.WF
  hphi : q.buf.hphi.WF
  j : q.buf.j.WF
  comb : q.hcomb.WF
  l : q.l.length = q.nx
  u : q.u.length = q.nx

/-- The evaluation function of the problem never changes the number of entries of the gradient, of the constraints, of the Hessian or of the Jacobian, after any
history of calls. (It gets them as `&mut Vec<f64>` and `&mut CooMat<f64>`, so safe code can.) -/
def Minlp.KeepsSizes (q : Minlp F) : Prop :=
  ∀ ops q', runProb q ops = .ok q' → ∀ x r, x.length = q.nx → q'.evaluate x = .ok r →
    r.buf.gphi.length = q.buf.gphi.length ∧ r.buf.f.length = q.buf.f.length ∧
    r.buf.hphi.WF ∧ r.buf.hphi.nnz = q.buf.hphi.nnz ∧ r.buf.j.WF ∧ r.buf.j.nnz = q.buf.j.nnz

/-- A sequence of calls. -/
def runMem (q : Minlp F) : List (MemCall F) → U (Minlp F)
  | [] => .ok q
  | c :: cs => do
    let r ← c.exec q
    runMem r.1 cs

/-- A native solver whose arrays are always as large as documented, whatever it is answered. -/
def NativeMem.Fits : NativeMem F → Prop
  | .done _ => True
  | .call c next => c.Fits ∧ ∀ a, (next a).Fits

end Verif
