import Verif.Code.Model
import Verif.Code.Param

/-!
# The Ipopt interface: src/solver/ipopt.rs:49-394

A pointer to numbers is `none` if it is null and otherwise the array behind it; simplification: the array is at least as long as the
part that the code reads (`slice::from_raw_parts` of a shorter array is undefined behaviour; Ipopt promises `n` and `m` numbers). `Code/IpoptMem.lean` has the memory.
A pointer to an output array is a Boolean (not null); the numbers written are part of the answer, in the order of the array from its
first element.
-/

namespace Verif

variable {F : Type}

/-- What a callback returns (`TRUE` or `FALSE`) and what it writes: `values` (or `obj_value`, `grad_f`, `g`), `irow`, `jcol`. Code: the out parameters in src/solver/ipopt.rs:157-367. -/
structure Answer (F : Type) where
  ok : Bool
  values : List F
  irow : List Int
  jcol : List Int

/-- `return cipopt::FALSE` before anything is written. Code: e.g. src/solver/ipopt.rs:157-177. -/
def Answer.refuse : Answer F := ⟨false, [], [], []⟩

/-- `usize::to_i32().unwrap()`. Code: e.g. src/solver/ipopt.rs:262-272. -/
def toI32 (n : Nat) : R Int := if n < 2 ^ 31 then .ok n else .error .unwrap

/-- `to_i32().unwrap()` of several numbers. Code: e.g. src/solver/ipopt.rs:262-272. -/
def toI32s : List Nat → R (List Int)
  | [] => .ok []
  | n :: ns => do
    let i ← toI32 n
    let is ← toI32s ns
    .ok (i :: is)

variable [FloatOps F]

/-- `if new_x == cipopt::TRUE { p.evaluate(slice::from_raw_parts(x, p.nx())) }`. Code: e.g. src/solver/ipopt.rs:157-177. -/
def evalIfNew (q : Minlp F) (newX : Int) (x : List F) : R (Minlp F) :=
  if newX == 1 then q.evaluate (x.take q.nx) else .ok q

/-- `eval_f_cb`, src/solver/ipopt.rs:157-177 -/
def evalFCb (q : Minlp F) (n : Int) (x : Option (List F)) (newX : Int) (out data : Bool) : R (Minlp F × Answer F) :=
  match x with
  | none => .ok (q, .refuse)
  | some x =>
    if !out || !data then .ok (q, .refuse)
    else if n != q.nx then .ok (q, .refuse)
    else do
      let q ← evalIfNew q newX x
      .ok (q, ⟨true, [q.buf.phi], [], []⟩)

/-- `eval_grad_f_cb`, src/solver/ipopt.rs:179-199 -/
def evalGradFCb (q : Minlp F) (n : Int) (x : Option (List F)) (newX : Int) (out data : Bool) : R (Minlp F × Answer F) :=
  match x with
  | none => .ok (q, .refuse)
  | some x =>
    if !out || !data then .ok (q, .refuse)
    else if n != q.nx then .ok (q, .refuse)
    else do
      let q ← evalIfNew q newX x
      .ok (q, ⟨true, q.buf.gphi.take q.nx, [], []⟩)

/-- `eval_g_cb`, src/solver/ipopt.rs:201-230. Simplification: the subtraction of arrays of different lengths panics (ndarray would
stretch an array of length one; the constructors of problems rule out different lengths). -/
def evalGCb (q : Minlp F) (n : Int) (x : Option (List F)) (newX m : Int) (out data : Bool) : R (Minlp F × Answer F) :=
  match x with
  | none => .ok (q, .refuse)
  | some x =>
    if !out || !data then .ok (q, .refuse)
    else if n != q.nx then .ok (q, .refuse)
    else if m != (q.na + q.nf : Nat) then .ok (q, .refuse)
    else do
      let q ← evalIfNew q newX x
      let ax ← q.a.mulVec (x.take q.nx)
      assertR (ax.length == q.b.length)
      let axmb := (ax.zip q.b).map fun e => e.1 -. e.2
      .ok (q, ⟨true, axmb.take q.na ++ q.buf.f.take q.nf, [], []⟩)

/-- The loops over two matrices that write rows and columns, src/solver/ipopt.rs:262-272 and 328-338 -/
def writePattern (m1 m2 : Coo F) : R (Answer F) := do
  let items1 ← m1.iter.drain
  let r1 ← toI32s (items1.map fun t => t.1)
  let c1 ← toI32s (items1.map fun t => t.2.1)
  let items2 ← m2.iter.drain
  let r2 ← toI32s (items2.map fun t => t.1)
  let c2 ← toI32s (items2.map fun t => t.2.1)
  .ok ⟨true, [], r1 ++ r2, c1 ++ c2⟩

/-- `eval_jac_g_cb`, src/solver/ipopt.rs:232-293 -/
def evalJacGCb (q : Minlp F) (n : Int) (x : Option (List F)) (newX m nele : Int) (irow jcol values data : Bool) : R (Minlp F × Answer F) :=
  if !data then .ok (q, .refuse)
  else if n != q.nx then .ok (q, .refuse)
  else if m != (q.na + q.nf : Nat) then .ok (q, .refuse)
  else if nele != (q.a.nnz + q.buf.j.nnz : Nat) then .ok (q, .refuse)
  else if !values then
    if !irow || !jcol then .ok (q, .refuse)
    else do .ok (q, ← writePattern q.a q.buf.j)
  else
    match (if newX == 1 then x else some []) with
    | none => .ok (q, .refuse)
    | some x => do
      let q ← evalIfNew q newX x
      let va ← q.a.iter.drain
      let vj ← q.buf.j.iter.drain
      .ok (q, ⟨true, va.map (fun t => t.2.2) ++ vj.map (fun t => t.2.2), [], []⟩)

/-- `eval_h_cb`, src/solver/ipopt.rs:295-367 -/
def evalHCb (q : Minlp F) (n : Int) (x : Option (List F)) (newX : Int) (objFactor : F) (m : Int) (lambda : Option (List F)) (newLambda nele : Int)
    (irow jcol values data : Bool) : R (Minlp F × Answer F) :=
  if !data then .ok (q, .refuse)
  else if n != q.nx then .ok (q, .refuse)
  else if m != (q.na + q.nf : Nat) then .ok (q, .refuse)
  else if nele != (q.buf.hphi.nnz + q.hcomb.nnz : Nat) then .ok (q, .refuse)
  else if !values then
    if !irow || !jcol then .ok (q, .refuse)
    else do .ok (q, ← writePattern q.buf.hphi q.hcomb)
  else
    match (if newX == 1 then x else some []) with
    | none => .ok (q, .refuse)
    | some x => do
      let q ← evalIfNew q newX x
      match (if newLambda == 1 then lambda else some []) with
      | none => .ok (q, .refuse)
      | some lambda => do
        let q ← if newLambda == 1 then q.combineH ((lambda.drop q.na).take q.nf) else .ok q
        if newX == 1 || newLambda == 1 then do
          let vh ← q.buf.hphi.iter.drain
          let vc ← q.hcomb.iter.drain
          .ok (q, ⟨true, vh.map (fun t => objFactor *. t.2.2) ++ vc.map (fun t => t.2.2), [], []⟩)
        else .ok (q, ⟨true, [], [], []⟩)

/-- A call of one of the callbacks, with its arguments. `data` is whether `user_data` is not null. Code: the five callbacks, src/solver/ipopt.rs:157-367. -/
inductive Call (F : Type) where
  | f (n : Int) (x : Option (List F)) (newX : Int) (out data : Bool)
  | gradF (n : Int) (x : Option (List F)) (newX : Int) (out data : Bool)
  | g (n : Int) (x : Option (List F)) (newX m : Int) (out data : Bool)
  | jacG (n : Int) (x : Option (List F)) (newX m nele : Int) (irow jcol values data : Bool)
  | h (n : Int) (x : Option (List F)) (newX : Int) (objFactor : F) (m : Int) (lambda : Option (List F)) (newLambda nele : Int)
      (irow jcol values data : Bool)

/-- The call. Code: src/solver/ipopt.rs:157-367. -/
def Call.exec (q : Minlp F) : Call F → R (Minlp F × Answer F)
  | .f n x newX out data => evalFCb q n x newX out data
  | .gradF n x newX out data => evalGradFCb q n x newX out data
  | .g n x newX m out data => evalGCb q n x newX m out data
  | .jacG n x newX m nele irow jcol values data => evalJacGCb q n x newX m nele irow jcol values data
  | .h n x newX s m lambda newLambda nele irow jcol values data => evalHCb q n x newX s m lambda newLambda nele irow jcol values data

/-- What the native `IpoptSolve` does: it calls callbacks, going on in a way that may depend on the answers, and in the end writes the
point and the multipliers and returns a status. Code: the foreign function called in src/solver/ipopt.rs:63-153. -/
inductive Native (F : Type) where
  | done (status : Int) (x lamnu pi mu : List F)
  | call (c : Call F) (next : Answer F → Native F)

/-- The native solver at work on a problem. Code: the foreign function called in src/solver/ipopt.rs:63-153. -/
def Native.run : Native F → Minlp F → R (Minlp F × Int × List F × List F × List F × List F)
  | .done status x lamnu pi mu, q => .ok (q, status, x, lamnu, pi, mu)
  | .call c next, q => do
    let (q, a) ← c.exec q
    (next a).run q

/-- The arguments of `CreateIpoptProblem`, src/solver/ipopt.rs:69-84 -/
structure IpoptArgs (F : Type) where
  n : Int
  xL : List F
  xU : List F
  m : Int
  gL : List F
  gU : List F
  nnzj : Int
  nnzh : Int
  indexStyle : Int

/-- The native library: whether creating a problem and setting options succeeds, and what `IpoptSolve` does, given the problem, the two
options and the initial contents of its arrays. Code: the foreign functions called in src/solver/ipopt.rs:63-153. -/
structure IpoptLib (F : Type) where
  create : IpoptArgs F → Bool
  addInt : String → Int → Bool
  addStr : String → String → Bool
  solve : IpoptArgs F → Int → String → List F → List F → List F → List F → Native F

/-- An array after the native code has written into it: the length stays. Code: the mutable pointers passed in src/solver/ipopt.rs:63-153. -/
def overwrite (old new : List F) : List F := new.take old.length ++ old.drop new.length

/-- The result of `solve`: the problem afterwards, the number of native problems that are not released, and the returned value. Code: src/solver/ipopt.rs:54-154. -/
structure IpoptRun (F : Type) where
  prob : Minlp F
  live : Nat
  result : Except String (Status × Sol F)

/-- The status codes, src/solver/ipopt.rs:129-135 -/
def ipoptStatus (c : Int) : Status := if c == 0 || c == 1 then .solved else if c == 2 then .infeasible else .error

/-- The solution, src/solver/ipopt.rs:136-145. `copy_from_slice` and the indexing panic for wrong lengths. -/
def ipoptSol (q : Minlp F) (x lamnu pi mu : List F) : R (Sol F) := do
  if x.length != q.nx then .error .sliceLen
  else do
    let lam ← foldR (fun (v : List F) k => do setIdx v k (FloatOps.neg (← idx lamnu k))) (List.replicate q.na zero) (List.range q.na)
    let nu ← foldR (fun (v : List F) k => do setIdx v k (FloatOps.neg (← idx lamnu (q.na + k)))) (List.replicate q.nf zero) (List.range q.nf)
    if pi.length != q.nx || mu.length != q.nx then .error .sliceLen
    else .ok ⟨x, lam, nu, mu, pi⟩

/-- src/solver/ipopt.rs:63-153: `solve` for an Nlp, given as its Minlp -/
def ipoptSolveNlp (ps : Params F) (lib : IpoptLib F) (q : Minlp F) : R (IpoptRun F) := do
  let n ← toI32 q.nx
  let m ← toI32 (q.na + q.nf)
  let glu : List F := List.replicate (q.na + q.nf) zero
  let nnzj ← toI32 (q.a.nnz + q.buf.j.nnz)
  let nnzh ← toI32 (q.buf.hphi.nnz + q.hcomb.nnz)
  let args : IpoptArgs F := ⟨n, q.l, q.u, m, glu, glu, nnzj, nnzh, 0⟩
  if !lib.create args then .ok ⟨q, 0, .error "failed to create ipopt problem"⟩
  else
    match getParam ps "print_level" with
    | some (.int printLevel) =>
      if !lib.addInt "print_level" printLevel then .ok ⟨q, 1, .error "unable to set parameter print_level"⟩
      else
        match getParam ps "sb" with
        | some (.str sb) =>
          -- `CString::new(val).unwrap()`
          if sb.toList.contains (Char.ofNat 0) then .error .unwrap
          else if !lib.addStr "sb" sb then .ok ⟨q, 1, .error "unable to set parameter sb"⟩
          else do
            let x ← match q.x0 with
              | some x0 => if x0.length == q.nx then .ok x0 else .error .sliceLen
              | none => .ok (List.replicate q.nx zero)
            let lamnu := List.replicate (q.na + q.nf) zero
            let pi := List.replicate q.nx zero
            let mu := List.replicate q.nx zero
            let (q, status, x', lamnu', pi', mu') ← (lib.solve args printLevel sb x lamnu pi mu).run q
            let sol ← ipoptSol q (overwrite x x') (overwrite lamnu lamnu') (overwrite pi pi') (overwrite mu mu')
            .ok ⟨q, 0, .ok (ipoptStatus status, sol)⟩
        | _ => .ok ⟨q, 1, .error "unable to get parameter sb"⟩
    | _ => .ok ⟨q, 1, .error "unable to get parameter print_level"⟩

/-- `solve`, src/solver/ipopt.rs:54-154. The result is the problem, the number of live native problems and the value returned. -/
def ipoptSolve (ps : Params F) (lib : IpoptLib F) (prob : Problem F) : R (Problem F × Nat × Except String (Status × Sol F)) :=
  match prob with
  | .nlp p => do
    let r ← ipoptSolveNlp ps lib p.base
    .ok (.nlp ⟨r.prob⟩, r.live, r.result)
  | .lp p => do
    let r ← ipoptSolveNlp ps lib p.baseNlp.base
    .ok (.lp ⟨p.baseMilp, ⟨r.prob⟩⟩, r.live, r.result)
  | p => .ok (p, 0, .error "problem type not supported")

end Verif
