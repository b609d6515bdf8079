import Verif.Code.Constraint
import Verif.Code.Problem

/-!
# Optimization models: src/model/model.rs, src/model/model_std.rs
-/

namespace Verif

variable {F : Type}

/-- `Objective`, src/model/model.rs:14-18 (`minimize`, `maximize`, `empty`, 45-57, are the constructors) -/
inductive Objective (F : Type) where
  | minimize (f : Node F)
  | maximize (f : Node F)
  | empty

/-- `SolverStatus`, src/solver/base.rs:11-26 -/
inductive Status where
  | solved
  | infeasible
  | unknown
  | error
  deriving DecidableEq, Repr

/-- `Model`, src/model/model.rs:21-40; the accessors (75-105, 160-165) are the fields. Hash maps are association lists with
distinct keys. -/
structure Model (F : Type) where
  objective : Objective F
  constraints : List (Constraint F)
  initPrimals : List (Node F × F)
  solverStatus : Option Status
  finalPrimals : List (Node F × F)
  finalDuals : List (Constraint F × F)

/-- `Model::new`, src/model/model.rs:93-102 -/
def Model.new : Model F := ⟨.empty, [], [], none, [], []⟩

/-- `set_objective`, src/model/model.rs:108-110 -/
def Model.setObjective (m : Model F) (o : Objective F) : Model F := { m with objective := o }

/-- `add_constraint`, src/model/model.rs:63-65 -/
def Model.addConstraint (m : Model F) (c : Constraint F) : Model F := { m with constraints := m.constraints ++ [c] }

/-- `add_constraints`, src/model/model.rs:68-72 -/
def Model.addConstraints (m : Model F) (cs : List (Constraint F)) : Model F := { m with constraints := m.constraints ++ cs }

/-- `set_init_primals`, src/model/model.rs:113-118 -/
def Model.setInitPrimals (H : HashOrder) (m : Model F) (values : List (Node F × F)) : M (Model F) :=
  M.bind (H.iter values) fun es =>
  M.pure { m with initPrimals := es.foldl (fun a e => insertN a e.1 e.2) [] }

/-- Left-to-right map of a function that may panic. Code: e.g. src/model/model_std.rs:181-185. -/
def mapR {α β : Type} (f : α → R β) : List α → R (List β)
  | [] => .ok []
  | a :: as => do
    let b ← f a
    let bs ← mapR f as
    .ok (b :: bs)

/-- `HashMap<usize, _>::insert`. Code: e.g. src/model/model_std.rs:230. -/
def insertNat {β : Type} (m : List (Nat × β)) (k : Nat) (v : β) : List (Nat × β) :=
  match m with
  | [] => [(k, v)]
  | (x, w) :: m => if x == k then (x, v) :: m else (x, w) :: insertNat m k v

/-- `*var2index.get(v).unwrap()`. Code: e.g. src/model/model_std.rs:119. -/
def indexOf (v2i : List (Node F × Nat)) (v : Node F) : R Nat :=
  match getN v2i v with
  | some i => .ok i
  | none => .error .unwrap

/-- `iter_mut().zip(exps)` with assignment: the first `min` entries of the destination are replaced. Code: e.g. src/model/model_std.rs:290-292. -/
def zipAssign {α : Type} : List α → List α → List α
  | _ :: ds, v :: vs => v :: zipAssign ds vs
  | ds, _ => ds

variable [FloatOps F]

/-! ## Standard components of the model -/

/-- `ModelStdComp`, src/model/model_std.rs:23-30 -/
structure ModelComp (F : Type) where
  obj : NodeComp F
  constr : ConstrComp F

/-- Objective part of `std_components`, src/model/model_std.rs:70-74 -/
def Model.objComponents (H : HashOrder) (m : Model F) : M (NodeComp F) :=
  match m.objective with
  | .maximize f => M.bind (negN f) fun e => e.stdComponents H
  | .minimize f => f.stdComponents H
  | .empty => M.bind (newConst zero) fun e => e.stdComponents H

/-- Loop over the constraints, src/model/model_std.rs:77-82 -/
def constrLoop (H : HashOrder) : ConstrComp F × Nat × Nat → List (Constraint F) → M (ConstrComp F × Nat × Nat)
  | s, [] => M.pure s
  | s, c :: cs =>
    M.bind (c.stdComponents H s.2.1 s.2.2) fun r =>
    constrLoop H (s.1.append r.1, r.2.1, r.2.2) cs

/-- `std_components` of a model, src/model/model_std.rs:67-89 -/
def Model.stdComponents (H : HashOrder) (m : Model F) : M (ModelComp F) :=
  M.bind (m.objComponents H) fun obj =>
  M.bind (constrLoop H (ConstrComp.empty, 0, 0) m.constraints) fun r =>
  M.pure ⟨obj, r.1⟩

/-! ## Standard problem -/

/-- `ModelStdProb`, src/model/model_std.rs:33-53 -/
structure StdProb (F : Type) where
  prob : Problem F
  var2index : List (Node F × Nat)
  aindex2constr : List (Nat × Constraint F)
  jindex2constr : List (Nat × Constraint F)
  uindex2constr : List (Nat × Constraint F)
  lindex2constr : List (Nat × Constraint F)

/-- The set of variables, src/model/model_std.rs:97-102 -/
def ModelComp.varset (comp : ModelComp F) : List (Node F) :=
  comp.constr.prop.foldl (fun s p => (p.a.map Prod.fst).foldl setInsert s) (setOf (comp.obj.prop.a.map Prod.fst))

/-- Insertion of a node before the first one whose name is not smaller. Code: src/model/model_std.rs:105. -/
def insertByName (x : Node F) : List (Node F) → List (Node F)
  | [] => [x]
  | y :: ys => if x.name.toList ≤ y.name.toList then x :: y :: ys else y :: insertByName x ys

/-- `sort_by(|x,y| x.name().partial_cmp(y.name()).unwrap())`, src/model/model_std.rs:105. Rust's sort is stable, so its result is
that of any stable sort: here by insertion. Rust compares the UTF-8 bytes, which orders strings as their lists of code points. -/
def sortByName (vars : List (Node F)) : List (Node F) := vars.foldr insertByName []

/-- `vars.into_iter().enumerate().map(|(i,v)| (v,i)).collect()`, src/model/model_std.rs:106-109 -/
def indexMap (vars : List (Node F)) : List (Node F × Nat) :=
  vars.zipIdx.foldl (fun m e => insertN m e.1 e.2) []

/-- Rows and columns of Hessian entries, src/model/model_std.rs:125-137 and 199-211: the larger index is the row. -/
def hessEntries (v2i : List (Node F × Nat)) (es : List (Node F × Node F × Node F)) : R (List (Nat × Nat × Node F)) :=
  mapR (fun e => do
    let i ← indexOf v2i e.1
    let j ← indexOf v2i e.2.1
    .ok (if i ≥ j then (i, j, e.2.2) else (j, i, e.2.2))) es

/-- A matrix with the given positions and zeros, e.g. src/model/model_std.rs:138-143 -/
def zeroCoo (rows cols : Nat) (es : List (Nat × Nat × Node F)) : R (Coo F) :=
  Coo.new (rows, cols) (es.map (·.1)) (es.map (·.2.1)) (List.replicate es.length zero)

/-- Columns of Jacobian entries, src/model/model_std.rs:181-185 -/
def jacEntries (v2i : List (Node F × Nat)) (es : List (Nat × Node F × Node F)) : R (List (Nat × Nat × Node F)) :=
  mapR (fun e => do .ok (e.1, ← indexOf v2i e.2.1, e.2.2)) es

/-- Upper bounds, src/model/model_std.rs:226-232; state (u_data, uindex2constr) -/
def upperLoop (v2i : List (Node F × Nat)) (s : List F × List (Nat × Constraint F)) (e : Node F × F × Constraint F) :
    R (List F × List (Nat × Constraint F)) := do
  let i ← indexOf v2i e.1
  let cur ← idx s.1 i
  if e.2.1 <=. cur then
    .ok (← setIdx s.1 i e.2.1, insertNat s.2 i e.2.2)
  else .ok s

/-- Lower bounds, src/model/model_std.rs:233-239; state (l_data, lindex2constr) -/
def lowerLoop (v2i : List (Node F × Nat)) (s : List F × List (Nat × Constraint F)) (e : Node F × F × Constraint F) :
    R (List F × List (Nat × Constraint F)) := do
  let i ← indexOf v2i e.1
  let cur ← idx s.1 i
  if cur <=. e.2.1 then
    .ok (← setIdx s.1 i e.2.1, insertNat s.2 i e.2.2)
  else .ok s

/-- Values of the variables inside the evaluation function, src/model/model_std.rs:275-278 -/
def evalEnv (v2i : List (Node F × Nat)) (x : List F) : R (Env F) :=
  foldR (fun (σ : Env F) (e : Node F × Nat) => do
    let t ← idx x e.2
    .ok (fun k => if k = e.1.id then some t else σ k)) (fun _ => none) v2i

/-- The evaluation function of the standard problem, src/model/model_std.rs:266-312. `v2i` is `var2index_eval` in the order in
which that map iterates (it is never modified, so always the same one). -/
def stdEval (v2i : List (Node F × Nat)) (phi : Node F) (gphi : List (Nat × Node F)) (hphi f j : List (Node F))
    (h : List (List (Node F))) : EvalFn F := fun buf x => do
  let σ ← evalEnv v2i x
  let g ← foldR (fun (g : List F) (e : Nat × Node F) => setIdx g e.1 (e.2.evaluate σ)) buf.gphi gphi
  .ok {
    phi := phi.evaluate σ
    gphi := g
    hphi := { buf.hphi with data := zipAssign buf.hphi.data (hphi.map (·.evaluate σ)) }
    f := zipAssign buf.f (f.map (·.evaluate σ))
    j := { buf.j with data := zipAssign buf.j.data (j.map (·.evaluate σ)) }
    h := zipAssign buf.h (List.zipWith
      (fun (hh : Coo F) (es : List (Node F)) => { hh with data := zipAssign hh.data (es.map (·.evaluate σ)) }) buf.h h) }

/-- Choice of the problem class, src/model/model_std.rs:314-379 -/
def chooseProblem (affine : Bool) (numJ numInt : Nat) (hphi a : Coo F) (b : List F) (j : Coo F) (h : List (Coo F))
    (l u c : List F) (p : List Bool) (x0 : List F) (evalFn : EvalFn F) : R (Problem F) := do
  if affine && numJ == 0 && numInt == 0 then .ok (.lp (← Lp.new c a b l u (some x0)))
  else if affine && numJ == 0 && decide (numInt > 0) then .ok (.milp (← Milp.new c a b l u p (some x0)))
  else if numInt == 0 then .ok (.nlp (← Nlp.new hphi a b j h l u (some x0) evalFn))
  else .ok (.minlp (← Minlp.new hphi a b j h l u p (some x0) evalFn))

/-- The part of `std_problem` after the variables are numbered, src/model/model_std.rs:114-390. The four iterations over hash
maps get their orders as arguments: `ves` for `var2index_eval`, `pes` for `prop.a` of the objective (145), `ies` for
`var2index` (246), `xes` for the initial values (259). -/
def assemble (comp : ModelComp F) (n : Nat) (v2i ves ies : List (Node F × Nat)) (pes xes : List (Node F × F)) : R (StdProb F) := do
  -- objective, 113-142
  let gphi ← mapR (fun (e : Node F × Node F) => do .ok (← indexOf v2i e.1, e.2)) comp.obj.gphi
  let hphi ← hessEntries v2i comp.obj.hphi
  let hphiMat ← zeroCoo n n hphi
  -- c, 144-148
  let c ← foldR (fun (c : List F) (e : Node F × F) => do setIdx c (← indexOf v2i e.1) e.2) (List.replicate n zero) pes
  -- linear rows, 150-171
  let na := comp.constr.b.length
  let aes ← mapR (fun (e : Nat × Node F × F) => do .ok (e.1, ← indexOf v2i e.2.1, e.2.2)) comp.constr.a
  let aMat ← Coo.new (na, n) (aes.map (·.1)) (aes.map (·.2.1)) (aes.map (·.2.2))
  -- nonlinear rows, 173-219
  let nj := comp.constr.f.length
  let jes ← jacEntries v2i comp.constr.j
  let jMat ← zeroCoo nj n jes
  let hes ← mapR (hessEntries v2i) comp.constr.h
  let hMats ← mapR (zeroCoo n n) hes
  -- bounds, 221-241
  let u ← foldR (upperLoop v2i) (List.replicate n inf, []) comp.constr.u
  let l ← foldR (lowerLoop v2i) (List.replicate n (FloatOps.neg inf), []) comp.constr.l
  -- integer restrictions, 243-256
  let p ← foldR (fun (s : List Bool × Nat) (e : Node F × Nat) =>
    if e.1.isInteger then do .ok (← setIdx s.1 e.2 true, s.2 + 1) else .ok s) (List.replicate n false, 0) ies
  -- initial values, 258-265
  let x0 ← foldR (fun (x : List F) (e : Node F × F) =>
    match getN v2i e.1 with
    | some i => setIdx x i e.2
    | none => .ok x) (List.replicate n zero) xes
  let evalFn := stdEval ves comp.obj.phi gphi (hphi.map (·.2.2)) comp.constr.f (jes.map (·.2.2)) (hes.map (·.map (·.2.2)))
  let prob ← chooseProblem comp.obj.prop.affine nj p.2 hphiMat aMat comp.constr.b jMat hMats l.1 u.1 c p.1 x0 evalFn
  .ok {
    prob := prob
    var2index := v2i
    aindex2constr := comp.constr.ca.zipIdx.map fun e => (e.2, e.1)
    jindex2constr := comp.constr.cj.zipIdx.map fun e => (e.2, e.1)
    uindex2constr := u.2
    lindex2constr := l.2 }

/-- `std_problem`, src/model/model_std.rs:91-390 -/
def Model.stdProblem (H : HashOrder) (m : Model F) : M (StdProb F) :=
  M.bind (m.stdComponents H) fun comp =>
  M.bind (H.iter comp.varset) fun vs =>
  let v2i := indexMap (sortByName vs)
  M.bind (H.iter v2i) fun ves =>
  M.bind (H.iter comp.obj.prop.a) fun pes =>
  M.bind (H.iter v2i) fun ies =>
  M.bind (H.iter m.initPrimals) fun xes =>
  M.ofR (assemble comp comp.varset.length v2i ves ies pes xes)

/-! ## Solving -/

/-- A solver (`dyn Solver`): from a problem to an error or a status and a solution; it may panic. What it does to the problem
it is lent is not visible afterwards, because the model drops the problem. Code: src/solver/base.rs:79. -/
abbrev SolverFn (F : Type) := Problem F → R (Except String (Status × Sol F))

/-- `self.final_duals.insert(constr.clone(), v[*index])` for each entry of a map, src/model/model.rs:143-154 -/
def insertDuals (v : List F) (d : List (Constraint F × F)) (es : List (Nat × Constraint F)) : R (List (Constraint F × F)) :=
  foldR (fun d e => do .ok (insertC d e.2 (← idx v e.1))) d es

/-- `solve`, src/model/model.rs:121-158: the result and the model afterwards -/
def Model.solve (H : HashOrder) (m : Model F) (solver : SolverFn F) : M (Except String Unit × Model F) :=
  let m := { m with finalPrimals := [], finalDuals := [], solverStatus := none }
  M.bind (m.stdProblem H) fun sp =>
  M.bind (M.ofR (solver sp.prob)) fun
  | .error e => M.pure (.error e, m)
  | .ok (status, sol) =>
    M.bind (H.iter sp.var2index) fun ves =>
    M.bind (M.ofR (foldR (fun p e => do .ok (insertN p e.1 (← idx sol.x e.2))) [] ves)) fun primals =>
    M.bind (H.iter sp.aindex2constr) fun as =>
    M.bind (M.ofR (insertDuals sol.lam [] as)) fun d =>
    M.bind (H.iter sp.jindex2constr) fun js =>
    M.bind (M.ofR (insertDuals sol.nu d js)) fun d =>
    M.bind (H.iter sp.uindex2constr) fun us =>
    M.bind (M.ofR (insertDuals sol.mu d us)) fun d =>
    M.bind (H.iter sp.lindex2constr) fun ls =>
    M.bind (M.ofR (insertDuals sol.pi d ls)) fun d =>
    M.pure (.ok (), { m with solverStatus := some status, finalPrimals := primals, finalDuals := d })

end Verif
