import Verif.Code.Node

/-!
# Differentiation and standard components: src/model/node_diff.rs, src/model/node_std.rs
-/

namespace Verif

variable {F : Type}

/-- Insert a node into a hash set (`HashSet::from_iter`): equal nodes (same cell) are kept once. Code: src/model/node_diff.rs:38. -/
def setInsert (s : List (Node F)) (x : Node F) : List (Node F) :=
  if s.any (fun y => y.ptrEq x) then s else s ++ [x]

/-- `HashSet::from_iter(vars)`, src/model/node_diff.rs:38,101 -/
def setOf (vars : List (Node F)) : List (Node F) := vars.foldl setInsert []

/-- `HashMap::get` with a node as key. Code: e.g. src/model/node_diff.rs:108. -/
def getN {β : Type} (m : List (Node F × β)) (k : Node F) : Option β :=
  match m with
  | [] => none
  | (x, b) :: m => if x.ptrEq k then some b else getN m k

/-- A path of the work queue: all nodes but the last, and the last one (`path.last().unwrap()`; the vectors in the queue are
never empty by construction). Code: src/model/node_diff.rs:41-56. -/
structure Path (F : Type) where
  init : List (Node F)
  last : Node F

/-- The vector of a path, src/model/node_diff.rs:41. -/
def Path.toList (p : Path F) : List (Node F) := p.init ++ [p.last]

/-- `wq.push_front` for each argument in turn, src/model/node_diff.rs:75-79: the new path is the path with the argument
appended; the last argument ends up in front. -/
def pushPaths (p : Path F) (wq : List (Path F)) : List (Path F) :=
  p.last.arguments.foldl (fun q a => ⟨p.toList, a⟩ :: q) wq

/-- "Add paths", src/model/node_diff.rs:63-73. The keys of `paths` are exactly the elements of `varset`, so
`paths.get_mut(node).unwrap()` is the entry of the `v` that equals `node`. -/
def recordPath (p : Path F) (paths : List (Node F × List (List (Node F)))) : List (Node F × List (List (Node F))) :=
  if p.last.isVar then
    paths.map fun e => if p.last.ptrEq e.1 then (e.1, e.2 ++ [p.toList]) else e
  else paths

theorem pushPaths_weight (p : Path F) (wq : List (Path F)) :
    ((pushPaths p wq).map fun q => q.last.weight).sum < ((p :: wq).map fun q => q.last.weight).sum := by
  have h : ∀ (as : List (Node F)) (q : List (Path F)),
      ((as.foldl (fun q a => (⟨p.toList, a⟩ : Path F) :: q) q).map fun q => q.last.weight).sum =
        Node.weight.weights as + (q.map fun q => q.last.weight).sum := by
    intro as
    induction as with
    | nil => intro q; simp [Node.weight.weights]
    | cons a as ih =>
      intro q
      rw [List.foldl_cons, ih]
      simp only [Node.weight.weights, List.map_cons, List.sum_cons]
      omega
  unfold pushPaths
  rw [h]
  simp only [List.map_cons, List.sum_cons]
  cases p.last <;> simp [Node.arguments, Node.weight, Node.weight.weights] <;> omega

/-- The loop of `all_simple_paths`, src/model/node_diff.rs:52-80 -/
def searchPaths (wq : List (Path F)) (paths : List (Node F × List (List (Node F)))) :
    List (Node F × List (List (Node F))) :=
  match wq with
  | [] => paths
  | p :: wq => searchPaths (pushPaths p wq) (recordPath p paths)
termination_by (wq.map fun q => q.last.weight).sum
decreasing_by exact pushPaths_weight p wq

/-- "Check inputs", src/model/node_diff.rs:30-35, 92-98 -/
def checkVars (vars : List (Node F)) : M Unit :=
  if vars.all Node.isVar then M.pure () else M.panic .variableExpected

/-- `all_simple_paths`, src/model/node_diff.rs:27-83 -/
def allSimplePaths (H : HashOrder) (e : Node F) (vars : List (Node F)) : M (List (Node F × List (List (Node F)))) :=
  M.bind (checkVars vars) fun _ =>
  M.bind (H.iter (setOf vars)) fun varset =>
  M.pure (searchPaths [⟨[], e⟩] (varset.map fun v => (v, [])))

variable [FloatOps F]

/-- Product of the partial derivatives along a path, src/model/node_diff.rs:108-111 (`windows(2)`) -/
def pathProd (prod : Node F) : List (Node F) → M (Node F)
  | a :: b :: rest =>
    M.bind (partialN a b) fun p => M.bind (mulN prod p) fun q => pathProd q (b :: rest)
  | _ => M.pure prod

/-- Sum over the paths, src/model/node_diff.rs:107-113 -/
def pathSum (d : Node F) : List (List (Node F)) → M (Node F)
  | [] => M.pure d
  | path :: ps =>
    M.bind (newConst one) fun k => M.bind (pathProd k path) fun prod => M.bind (addN d prod) fun d' => pathSum d' ps

/-- `unwrap()`. Code: e.g. src/model/node_diff.rs:87. -/
def unwrapM {α : Type} : Option α → M α
  | some a => M.pure a
  | none => M.panic .unwrap

/-- `derivatives`, src/model/node_diff.rs:90-118 -/
def derivatives (H : HashOrder) (e : Node F) (vars : List (Node F)) : M (List (Node F × Node F)) :=
  M.bind (checkVars vars) fun _ =>
  M.bind (H.iter (setOf vars)) fun varset =>
  M.bind (allSimplePaths H e vars) fun paths =>
  M.mapL (fun v =>
    M.bind (newConst zero) fun d0 =>
    M.bind (unwrapM (getN paths v)) fun ps =>
    M.bind (pathSum d0 ps) fun d =>
    M.pure (v, d)) varset

/-- `derivative`, src/model/node_diff.rs:85-88 -/
def derivative (H : HashOrder) (e x : Node F) : M (Node F) :=
  M.bind (derivatives H e [x]) fun ds => unwrapM (getN ds x)

/-! ## Standard properties -/

/-- src/model/node_std.rs:11-28; the map `a` is an association list with distinct keys. -/
structure Prop' (F : Type) where
  affine : Bool
  a : List (Node F × F)
  b : F

/-- `HashMap::insert`. Code: e.g. src/model/function/add.rs:62-68. -/
def insertN {β : Type} (m : List (Node F × β)) (k : Node F) (v : β) : List (Node F × β) :=
  match m with
  | [] => [(k, v)]
  | (x, w) :: m => if x.ptrEq k then (x, v) :: m else (x, w) :: insertN m k v

/-- `if let Some(x) = a.get_mut(key) { *x += *val } else { a.insert(key, *val) }`, function/add.rs:62-68 -/
def addToN (m : List (Node F × F)) (k : Node F) (v : F) : List (Node F × F) :=
  match m with
  | [] => [(k, v)]
  | (x, w) :: m => if x.ptrEq k then (x, w +. v) :: m else (x, w) :: addToN m k v

/-- `std_properties`: src/model/node_std.rs:74-98, function/add.rs:53-76, cos.rs:52-56, div.rs:54-72, mul.rs:54-73,
sin.rs:52-56.  Iteration over the maps of the arguments is done in list order: the content of the result does not depend on
that order (`addMaps_perm` in Proofs/Std.lean). -/
def Node.stdProperties : Node F → Prop' F
  | .const _ v => ⟨true, [], v⟩
  | .var i s k => ⟨true, [(.var i s k, one)], zero⟩
  | .add _ args => addProps ⟨true, [], zero⟩ args
  | .cos _ a => ⟨false, a.stdProperties.a, a.stdProperties.b⟩
  | .sin _ a => ⟨false, a.stdProperties.a, a.stdProperties.b⟩
  | .div _ x y =>
    let p0 := x.stdProperties
    let p1 := y.stdProperties
    ⟨p0.affine && p1.a.isEmpty,
     p1.a.foldl (fun m e => insertN m e.1 zero) (p0.a.foldl (fun m e => insertN m e.1 (e.2 /. p1.b)) []),
     p0.b /. p1.b⟩
  | .mul _ x y =>
    let p0 := x.stdProperties
    let p1 := y.stdProperties
    ⟨(p0.affine && p1.a.isEmpty) || (p1.affine && p0.a.isEmpty),
     p1.a.foldl (fun m e => insertN m e.1 (e.2 *. p0.b)) (p0.a.foldl (fun m e => insertN m e.1 (e.2 *. p1.b)) []),
     p0.b *. p1.b⟩
where
  /-- loop over the arguments of a sum, function/add.rs:58-70 -/
  addProps (acc : Prop' F) : List (Node F) → Prop' F
    | [] => acc
    | x :: xs =>
      let p := x.stdProperties
      addProps ⟨acc.affine && p.affine, p.a.foldl (fun m e => addToN m e.1 e.2) acc.a, acc.b +. p.b⟩ xs

/-! ## Standard components -/

/-- src/model/node_std.rs:31-45 -/
structure NodeComp (F : Type) where
  phi : Node F
  gphi : List (Node F × Node F)
  hphi : List (Node F × Node F × Node F)
  prop : Prop' F

/-- Inner loop over `dvars`, src/model/node_std.rs:129-134 -/
def hessRow (v1 : Node F) (dd : List (Node F × Node F)) : List (Node F) → M (List (Node F × Node F × Node F))
  | [] => M.pure []
  | v2 :: vs =>
    M.bind (unwrapM (getN dd v2)) fun e =>
    M.bind (hessRow v1 dd vs) fun rest =>
    M.pure (if e.isConstVal zero then rest else (v1, v2, e) :: rest)

/-- Loop over the variables, src/model/node_std.rs:119-135; `dvars` (the variables with index `>= i`) is the remaining list. -/
def hessLoop (H : HashOrder) (derivs : List (Node F × Node F)) :
    List (Node F) → M (List (Node F × Node F) × List (Node F × Node F × Node F))
  | [] => M.pure ([], [])
  | v1 :: vs =>
    M.bind (unwrapM (getN derivs v1)) fun d =>
    M.bind (derivatives H d (v1 :: vs)) fun dd =>
    M.bind (hessRow v1 dd (v1 :: vs)) fun row =>
    M.bind (hessLoop H derivs vs) fun rest =>
    M.pure ((v1, d) :: rest.1, row ++ rest.2)

/-- `std_components` of an expression, src/model/node_std.rs:100-145 -/
def Node.stdComponents (H : HashOrder) (e : Node F) : M (NodeComp F) :=
  let prop := e.stdProperties
  if prop.affine then
    M.bind (H.iter prop.a) fun es =>
    M.bind (M.mapL (fun kv => M.bind (newConst kv.2) fun k => M.pure (kv.1, k)) es) fun g =>
    M.pure ⟨e, g, [], prop⟩
  else
    M.bind (H.iter (prop.a.map Prod.fst)) fun vars =>
    M.bind (derivatives H e vars) fun derivs =>
    M.bind (hessLoop H derivs vars) fun gh =>
    M.pure ⟨e, gh.1, gh.2, prop⟩

end Verif
