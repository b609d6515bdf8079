import Mathlib.Data.List.Forall2
import Verif.Code.Problem
import Verif.Spec.Matrix

/-! # Vocabulary of the statements about problems -/

namespace Verif

variable {F : Type}

/-- All dimensions that the constructor of a problem can compare agree: matrices and vectors fit `a` (columns = variables) and `j`
(rows = nonlinear constraints). -/
structure DimsOk (hphi a : Coo F) (b : List F) (j : Coo F) (h : List (Coo F)) (l u : List F) (p : List Bool) : Prop where
  dimHphi : hphi.rows = a.cols ∧ hphi.cols = a.cols
  dimB : b.length = a.rows
  dimJ : j.cols = a.cols
  numH : h.length = j.rows
  dimH : ∀ hh ∈ h, hh.rows = a.cols ∧ hh.cols = a.cols
  dimL : l.length = a.cols
  dimU : u.length = a.cols
  dimP : p.length = a.cols

/-- An evaluation function that writes values only: it keeps the number of constraint values and the sparsity patterns of the
constraint Hessians. -/
def KeepsPatterns (fn : EvalFn F) : Prop :=
  ∀ buf x buf', fn buf x = .ok buf' → buf'.f.length = buf.f.length ∧
    List.Forall₂ (fun a b : Coo F => b.shape = a.shape ∧ b.rowInds = a.rowInds ∧ b.colInds = a.colInds ∧
      b.data.length = a.data.length) buf.h buf'.h

/-- A call that changes the numbers held by a problem. -/
inductive ProbOp (F : Type) where
  | evaluate (x : List F)
  | combineH (nu : List F)

variable [FloatOps F]

/-- Effect of a call. -/
def ProbOp.exec (q : Minlp F) : ProbOp F → R (Minlp F)
  | .evaluate x => q.evaluate x
  | .combineH nu => q.combineH nu

/-- Effect of a sequence of calls. -/
def runProb (q : Minlp F) (ops : List (ProbOp F)) : R (Minlp F) := foldR ProbOp.exec q ops

/-- The triplets of `nu₁ H₁`, then those of `nu₂ H₂`, ... -/
def weighted (h : List (Coo F)) (nu : List F) : List (Nat × Nat × F) :=
  (h.zip nu).flatMap fun hn => hn.1.triplets.map fun t => (t.1, t.2.1, hn.2 *. t.2.2)

/-- `nu₁ H₁[r,c] + nu₂ H₂[r,c] + ...` -/
def weightedDense (h : List (Coo F)) (nu : List F) (r c : Nat) : F :=
  ((h.zip nu).map fun hn => hn.2 *. hn.1.dense r c).foldl (· +. ·) zero

/-- `v` is the result of adding up the numbers `l`, in some order and with any parentheses, possibly with zeros in between. -/
inductive SumOf : List F → F → Prop
  | zero : SumOf [] zero
  | single (v : F) : SumOf [v] v
  | add {l l' l'' : List F} {v w : F} (h : SumOf l v) (h' : SumOf l' w) (hp : l''.Perm (l ++ l')) : SumOf l'' (v +. w)

end Verif
