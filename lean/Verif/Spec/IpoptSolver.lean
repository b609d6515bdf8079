import Verif.Spec.Ipopt
import Verif.Spec.Feasible

/-! # What it means that the native Ipopt solver is right -/

namespace Verif

section
variable {F : Type} [FloatOps F]

/-- A nonlinear problem as Ipopt sees it: objective, gradient, constraints, the entries (row, column, value) of the Jacobian of the
constraints and those of the Hessian of `s * f + lambda · g`. -/
structure Oracle (F : Type) where
  f : List F → F
  grad : List F → List F
  g : List F → List F
  jac : List F → List (Int × Int × F)
  hess : List F → F → List F → List (Int × Int × F)

/-- The functions of a problem whose evaluation is the function `val` of the point: `phi`, its gradient, `[A x - b; f(x)]`, its Jacobian
and the Hessian of the Lagrangian. -/
def Minlp.oracle (q : Minlp F) (val : List F → EvalBuf F) : Oracle F where
  f x := (val x).phi
  grad x := (val x).gphi
  g x := constraintValues q (val x) x
  jac x := jacobianEntries q (val x)
  hess x s lam := hessianEntries (val x) s (lam.drop q.na)

/-- The call asks for the rows and columns of the Jacobian. -/
def Call.IsJacPattern : Call F → Prop
  | .jacG _ _ _ _ _ _ _ values _ => values = false
  | _ => False

/-- An answer that reports success tells the truth: it has the value that is asked for, at the point of the call; rows and columns are those
of the entries at every point. (Nothing is said about Hessian values for multipliers that are not announced as new.) -/
def Oracle.Truthful (o : Oracle F) : Call F → Answer F → Prop
  | .f _ px _ _ _, a => a.ok = true → ∀ x, px = some x → a.values = [o.f x]
  | .gradF _ px _ _ _, a => a.ok = true → ∀ x, px = some x → a.values = o.grad x
  | .g _ px _ _ _ _, a => a.ok = true → ∀ x, px = some x → a.values = o.g x
  | .jacG _ px _ _ _ _ _ true _, a => a.ok = true → ∀ x, px = some x → a.values = (o.jac x).map (fun e => e.2.2)
  | .jacG n _ _ _ _ _ _ false _, a => a.ok = true → ∀ x : List F, (x.length : Int) = n →
      a.irow = (o.jac x).map (fun e => e.1) ∧ a.jcol = (o.jac x).map (fun e => e.2.1)
  | .h _ px _ s _ lambda newLambda _ _ _ true _, a => a.ok = true → newLambda = 1 → ∀ x lam, px = some x → lambda = some lam →
      a.values = (o.hess x s lam).map (fun e => e.2.2)
  | .h n _ _ _ m _ _ _ _ _ false _, a => a.ok = true → ∀ (x : List F) (s : F) (lam : List F), (x.length : Int) = n → (lam.length : Int) = m →
      a.irow = (o.hess x s lam).map (fun e => e.1) ∧ a.jcol = (o.hess x s lam).map (fun e => e.2.1)

/-- A run of the native solver ends with a code, a point and multipliers for which `claim` is true, if all answers it gets satisfy `T`. -/
inductive Native.Right (T : Call F → Answer F → Prop) (claim : Int → List F → List F → List F → List F → Prop) : Native F → Prop
  | done {code : Int} {x lamnu pi mu : List F} (h : claim code x lamnu pi mu) : Native.Right T claim (.done code x lamnu pi mu)
  | call {c : Call F} {next : Answer F → Native F} (h : ∀ a, T c a → Native.Right T claim (next a)) : Native.Right T claim (.call c next)

/-- The library obeys the protocol on the problem `q` with the arguments `args`, from every initial point of the right length. -/
def IpoptLib.Obeys (lib : IpoptLib F) (args : IpoptArgs F) (q : Minlp F) : Prop :=
  ∀ level sb x lamnu pi mu, (x.length : Int) = args.n → (lib.solve args level sb x lamnu pi mu).Obeys q none

/-- The library is right about the problem with these arguments, from every initial point of the right length, if all answers it gets
satisfy `T`. -/
def IpoptLib.Right (lib : IpoptLib F) (T : Call F → Answer F → Prop) (args : IpoptArgs F)
    (claim : Int → List F → List F → List F → List F → Prop) : Prop :=
  ∀ level sb x lamnu pi mu, (x.length : Int) = args.n → (lib.solve args level sb x lamnu pi mu).Right T claim

end

section
variable {K : Type} [Field K] [LinearOrder K] [Trig K]

/-- The value is a number between the two bounds. -/
def Between (lo v up : Option K) : Prop := ∃ a t b, lo = some a ∧ v = some t ∧ up = some b ∧ a ≤ t ∧ t ≤ b

/-- The point satisfies the constraints of the problem that is given to `CreateIpoptProblem`: `n` numbers, `x_L ≤ x ≤ x_U` and
`g_L ≤ g(x) ≤ g_U`. -/
structure IpoptArgs.Meets (args : IpoptArgs (Option K)) (o : Oracle (Option K)) (x : List (Option K)) : Prop where
  len : (x.length : Int) = args.n
  bounds : ∀ i < x.length, ∃ lo v up, args.xL[i]? = some lo ∧ x[i]? = some v ∧ args.xU[i]? = some up ∧ Between lo v up
  rows : ∀ i < (o.g x).length, ∃ lo v up, args.gL[i]? = some lo ∧ (o.g x)[i]? = some v ∧ args.gU[i]? = some up ∧ Between lo v up

/-- The point solves the problem. -/
structure IpoptArgs.Solves (args : IpoptArgs (Option K)) (o : Oracle (Option K)) (x : List (Option K)) : Prop where
  meets : args.Meets o x
  best : ∃ v, o.f x = some v ∧ ∀ y, args.Meets o y → ∀ w, o.f y = some w → v ≤ w

/-- What a correct solver claims: with code 0 or 1 (solved, or solved to an acceptable level), that the point solves the problem; with code 2, that
no point satisfies the constraints. (In exact arithmetic, and for problems that Ipopt can solve globally, such as convex ones.) -/
def IpoptArgs.Claim (args : IpoptArgs (Option K)) (o : Oracle (Option K)) (code : Int) (x _lamnu _pi _mu : List (Option K)) : Prop :=
  (code = 0 ∨ code = 1 → args.Solves o x) ∧ (code = 2 → ∀ y, ¬ args.Meets o y)

/-- A weaker claim: with code 0 or 1, the point satisfies the constraints. -/
def IpoptArgs.ClaimMeets (args : IpoptArgs (Option K)) (o : Oracle (Option K)) (code : Int) (x _lamnu _pi _mu : List (Option K)) : Prop :=
  code = 0 ∨ code = 1 → args.Meets o x

end

end Verif
