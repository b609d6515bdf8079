import Verif.Code.Ipopt

/-!
# The callbacks of the Ipopt interface at the level of memory: src/solver/ipopt.rs:157-367

`Code/Ipopt.lean` gives the numbers that the callbacks read and write. Here the same code is written down with the arrays behind the raw pointers: a pointer is
`none` if it is null and otherwise the cells that may be used through it (there may be any number of them). Reading or writing another cell is undefined behaviour in Rust
and C; it is the fault `outside`.
-/

namespace Verif

variable {F : Type} {α : Type}

/-- How a call in unsafe code can go wrong: a panic, or an access to memory outside of the array. Code: the `unsafe` blocks in src/solver/ipopt.rs:157-367. -/
inductive Fault where
  | panic (p : Panic)
  | outside
  deriving DecidableEq, Repr

/-- Computations in unsafe code. Code: the `unsafe` blocks in src/solver/ipopt.rs:157-367. -/
abbrev U (α : Type) := Except Fault α

/-- A call of safe code from unsafe code. Code: e.g. `p.evaluate(..)` in src/solver/ipopt.rs:172. -/
def U.lift : R α → U α
  | .ok a => .ok a
  | .error p => .error (.panic p)

/-- `slice::from_raw_parts(p.add(off), n)`. Code: e.g. src/solver/ipopt.rs:172, 351. -/
def rawSlice (a : List α) (off n : Nat) : U (List α) :=
  if off + n ≤ a.length then .ok ((a.drop off).take n) else .error .outside

/-- `*p.add(k) = v`. Code: e.g. src/solver/ipopt.rs:264. -/
def rawStore (a : List α) (k : Nat) (v : α) : U (List α) :=
  if k < a.length then .ok (a.set k v) else .error .outside

/-- `ptr::copy(src.as_ptr(), dst.add(off), n)`. Code: src/solver/ipopt.rs:196, 226-227. -/
def rawCopy (src dst : List α) (off n : Nat) : U (List α) :=
  if n ≤ src.length ∧ off + n ≤ dst.length then .ok (dst.take off ++ src.take n ++ dst.drop (off + n)) else .error .outside

/-- The body of the loops `*irow.add(k) = row.to_i32().unwrap(); *jcol.add(k) = col.to_i32().unwrap(); k += 1`; the state is `k` and the two arrays.
Code: src/solver/ipopt.rs:263-267, 268-272, 329-333, 334-338. -/
def storePattern (s : Nat × List Int × List Int) (e : Nat × Nat × F) : U (Nat × List Int × List Int) := do
  let r ← U.lift (toI32 e.1)
  let irow ← rawStore s.2.1 s.1 r
  let c ← U.lift (toI32 e.2.1)
  let jcol ← rawStore s.2.2 s.1 c
  .ok (s.1 + 1, irow, jcol)

/-- The body of the loops `*values.add(k) = ...; k += 1`; the state is `k` and the array. Code: src/solver/ipopt.rs:282-285, 286-289, 355-358, 359-362. -/
def storeValue (s : Nat × List F) (v : F) : U (Nat × List F) := do
  let a ← rawStore s.2 s.1 v
  .ok (s.1 + 1, a)

/-- `for` loops. Code: e.g. src/solver/ipopt.rs:262-272. -/
def foldU {β : Type} (f : β → α → U β) : β → List α → U β
  | b, [] => .ok b
  | b, a :: as => do
    let b ← f b a
    foldU f b as

/-- What a callback returns, and the arrays afterwards (`values` is `obj_value`, `grad_f`, `g` or `values`). Code: the out parameters in src/solver/ipopt.rs:157-367. -/
structure Mem (F : Type) where
  ok : Bool
  values : Option (List F)
  irow : Option (List Int)
  jcol : Option (List Int)

variable [FloatOps F]

/-- `if new_x == cipopt::TRUE { p.evaluate(slice::from_raw_parts(x, p.nx())) }`. Code: e.g. src/solver/ipopt.rs:171-173. -/
def evalIfNewU (q : Minlp F) (newX : Int) (x : List F) : U (Minlp F) :=
  if newX == 1 then do
    let xs ← rawSlice x 0 q.nx
    U.lift (q.evaluate xs)
  else .ok q

/-- The same, with the slice taken before. Code: src/solver/ipopt.rs:221-223. -/
def evalIfNewS (q : Minlp F) (newX : Int) (xx : List F) : U (Minlp F) := if newX == 1 then U.lift (q.evaluate xx) else .ok q

/-- `if new_lambda == cipopt::TRUE { p.combine_h(slice::from_raw_parts(lambda.add(p.na()), p.nf())) }`. Code: src/solver/ipopt.rs:347-352. -/
def combineIfNewU (q : Minlp F) (newLambda : Int) (lambda : List F) : U (Minlp F) :=
  if newLambda == 1 then do
    let nu ← rawSlice lambda q.na q.nf
    U.lift (q.combineH nu)
  else .ok q

/-- `eval_f_cb`, src/solver/ipopt.rs:157-177 -/
def evalFMem (q : Minlp F) (n : Int) (x : Option (List F)) (newX : Int) (out : Option (List F)) (data : Bool) : U (Minlp F × Mem F) :=
  match x, out with
  | some x, some out =>
    if !data then .ok (q, ⟨false, some out, none, none⟩)
    else if n != q.nx then .ok (q, ⟨false, some out, none, none⟩)
    else do
      let q ← evalIfNewU q newX x
      let out ← rawStore out 0 q.buf.phi
      .ok (q, ⟨true, some out, none, none⟩)
  | _, out => .ok (q, ⟨false, out, none, none⟩)

/-- `eval_grad_f_cb`, src/solver/ipopt.rs:179-199 -/
def evalGradFMem (q : Minlp F) (n : Int) (x : Option (List F)) (newX : Int) (out : Option (List F)) (data : Bool) : U (Minlp F × Mem F) :=
  match x, out with
  | some x, some out =>
    if !data then .ok (q, ⟨false, some out, none, none⟩)
    else if n != q.nx then .ok (q, ⟨false, some out, none, none⟩)
    else do
      let q ← evalIfNewU q newX x
      let out ← rawCopy q.buf.gphi out 0 q.nx
      .ok (q, ⟨true, some out, none, none⟩)
  | _, out => .ok (q, ⟨false, out, none, none⟩)

/-- `eval_g_cb`, src/solver/ipopt.rs:201-230. Simplification: as in `evalGCb`, the subtraction of arrays of different lengths panics. -/
def evalGMem (q : Minlp F) (n : Int) (x : Option (List F)) (newX m : Int) (out : Option (List F)) (data : Bool) : U (Minlp F × Mem F) :=
  match x, out with
  | some x, some out =>
    if !data then .ok (q, ⟨false, some out, none, none⟩)
    else if n != q.nx then .ok (q, ⟨false, some out, none, none⟩)
    else if m != (q.na + q.nf : Nat) then .ok (q, ⟨false, some out, none, none⟩)
    else do
      let xx ← rawSlice x 0 q.nx
      let q ← evalIfNewS q newX xx
      let ax ← U.lift (q.a.mulVec xx)
      U.lift (assertR (ax.length == q.b.length))
      let axmb := (ax.zip q.b).map fun e => e.1 -. e.2
      let out ← rawCopy axmb out 0 q.na
      let out ← rawCopy q.buf.f out q.na q.nf
      .ok (q, ⟨true, some out, none, none⟩)
  | _, out => .ok (q, ⟨false, out, none, none⟩)

/-- The loops that write rows and columns of two matrices, src/solver/ipopt.rs:262-272 and 328-338. Simplification: the entries of a matrix are collected before the
loop (iterating over a matrix that was made with the constructors does not panic, see C35). -/
def writePatternMem (m1 m2 : Coo F) (irow jcol : List Int) : U (List Int × List Int) := do
  let items1 ← U.lift m1.iter.drain
  let s ← foldU storePattern (0, irow, jcol) items1
  let items2 ← U.lift m2.iter.drain
  let s ← foldU storePattern s items2
  .ok s.2

/-- The loops that write the values of two matrices, src/solver/ipopt.rs:281-289 and 354-362; the values of the first are multiplied with `factor` in the Hessian. -/
def writeValuesMem (f : F → F) (m1 m2 : Coo F) (values : List F) : U (List F) := do
  let items1 ← U.lift m1.iter.drain
  let s ← foldU storeValue (0, values) (items1.map fun t => f t.2.2)
  let items2 ← U.lift m2.iter.drain
  let s ← foldU storeValue s (items2.map fun t => t.2.2)
  .ok s.2

/-- `eval_jac_g_cb`, src/solver/ipopt.rs:232-293 -/
def evalJacGMem (q : Minlp F) (n : Int) (x : Option (List F)) (newX m nele : Int) (irow jcol : Option (List Int)) (values : Option (List F)) (data : Bool) :
    U (Minlp F × Mem F) :=
  if !data then .ok (q, ⟨false, values, irow, jcol⟩)
  else if n != q.nx then .ok (q, ⟨false, values, irow, jcol⟩)
  else if m != (q.na + q.nf : Nat) then .ok (q, ⟨false, values, irow, jcol⟩)
  else if nele != (q.a.nnz + q.buf.j.nnz : Nat) then .ok (q, ⟨false, values, irow, jcol⟩)
  else
    match values with
    | none =>
      match irow, jcol with
      | some ir, some jc => do
        let (ir, jc) ← writePatternMem q.a q.buf.j ir jc
        .ok (q, ⟨true, none, some ir, some jc⟩)
      | _, _ => .ok (q, ⟨false, none, irow, jcol⟩)
    | some vs =>
      match (if newX == 1 then x else some []) with
      | none => .ok (q, ⟨false, some vs, irow, jcol⟩)
      | some x => do
        let q ← evalIfNewU q newX x
        let vs ← writeValuesMem id q.a q.buf.j vs
        .ok (q, ⟨true, some vs, irow, jcol⟩)

/-- `eval_h_cb`, src/solver/ipopt.rs:295-367 -/
def evalHMem (q : Minlp F) (n : Int) (x : Option (List F)) (newX : Int) (objFactor : F) (m : Int) (lambda : Option (List F)) (newLambda nele : Int)
    (irow jcol : Option (List Int)) (values : Option (List F)) (data : Bool) : U (Minlp F × Mem F) :=
  if !data then .ok (q, ⟨false, values, irow, jcol⟩)
  else if n != q.nx then .ok (q, ⟨false, values, irow, jcol⟩)
  else if m != (q.na + q.nf : Nat) then .ok (q, ⟨false, values, irow, jcol⟩)
  else if nele != (q.buf.hphi.nnz + q.hcomb.nnz : Nat) then .ok (q, ⟨false, values, irow, jcol⟩)
  else
    match values with
    | none =>
      match irow, jcol with
      | some ir, some jc => do
        let (ir, jc) ← writePatternMem q.buf.hphi q.hcomb ir jc
        .ok (q, ⟨true, none, some ir, some jc⟩)
      | _, _ => .ok (q, ⟨false, none, irow, jcol⟩)
    | some vs =>
      match (if newX == 1 then x else some []) with
      | none => .ok (q, ⟨false, some vs, irow, jcol⟩)
      | some x => do
        let q ← evalIfNewU q newX x
        match (if newLambda == 1 then lambda else some []) with
        | none => .ok (q, ⟨false, some vs, irow, jcol⟩)
        | some lambda => do
          let q ← combineIfNewU q newLambda lambda
          if newX == 1 || newLambda == 1 then do
            let vs ← writeValuesMem (fun v => objFactor *. v) q.buf.hphi q.hcomb vs
            .ok (q, ⟨true, some vs, irow, jcol⟩)
          else .ok (q, ⟨true, some vs, irow, jcol⟩)

/-- A call of one of the callbacks, with its arguments and the arrays behind its pointers. `data` is whether `user_data` is not null. Code: the five callbacks,
src/solver/ipopt.rs:157-367. -/
inductive MemCall (F : Type) where
  | f (n : Int) (x : Option (List F)) (newX : Int) (out : Option (List F)) (data : Bool)
  | gradF (n : Int) (x : Option (List F)) (newX : Int) (out : Option (List F)) (data : Bool)
  | g (n : Int) (x : Option (List F)) (newX m : Int) (out : Option (List F)) (data : Bool)
  | jacG (n : Int) (x : Option (List F)) (newX m nele : Int) (irow jcol : Option (List Int)) (values : Option (List F)) (data : Bool)
  | h (n : Int) (x : Option (List F)) (newX : Int) (objFactor : F) (m : Int) (lambda : Option (List F)) (newLambda nele : Int)
      (irow jcol : Option (List Int)) (values : Option (List F)) (data : Bool)

/-- The call. Code: src/solver/ipopt.rs:157-367. -/
def MemCall.exec (q : Minlp F) : MemCall F → U (Minlp F × Mem F)
  | .f n x newX out data => evalFMem q n x newX out data
  | .gradF n x newX out data => evalGradFMem q n x newX out data
  | .g n x newX m out data => evalGMem q n x newX m out data
  | .jacG n x newX m nele irow jcol values data => evalJacGMem q n x newX m nele irow jcol values data
  | .h n x newX s m lambda newLambda nele irow jcol values data => evalHMem q n x newX s m lambda newLambda nele irow jcol values data

/-- What the native `IpoptSolve` does, with the arrays that it passes to the callbacks: it goes on in a way that may depend on what it finds in them afterwards.
Code: the foreign function called in src/solver/ipopt.rs:118-127. -/
inductive NativeMem (F : Type) where
  | done (status : Int)
  | call (c : MemCall F) (next : Mem F → NativeMem F)

/-- The native solver at work on a problem. Code: the foreign function called in src/solver/ipopt.rs:118-127. -/
def NativeMem.run : NativeMem F → Minlp F → U (Minlp F × Int)
  | .done status, q => .ok (q, status)
  | .call c next, q => do
    let (q, a) ← c.exec q
    (next a).run q

end Verif
