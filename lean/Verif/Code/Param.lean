/-!
# Solver parameters: src/solver/base.rs:30-78

Simplification: `i32` is `Int` (parameters are stored and handed on, never computed with). The hash map is a list of pairs; it is
only looked up, never iterated.
-/

namespace Verif

/-- `SolverParam`, src/solver/base.rs:30-41 -/
inductive SolverParam (F : Type) where
  | int (i : Int)
  | float (f : F)
  | str (s : String)
  deriving DecidableEq

/-- `HashMap<String, SolverParam>`. Code: src/solver/base.rs:49. -/
abbrev Params (F : Type) := List (String × SolverParam F)

/-- `HashMap::get`. Code: src/solver/base.rs:46. -/
def Params.get {F : Type} : Params F → String → Option (SolverParam F)
  | [], _ => none
  | (k, v) :: ps, name => if k == name then some v else Params.get ps name

/-- The store through the reference that `get_mut` returns. Code: src/solver/base.rs:62. -/
def Params.put {F : Type} : Params F → String → SolverParam F → Params F
  | [], _, _ => []
  | (k, v) :: ps, name, x => if k == name then (k, x) :: ps else (k, v) :: Params.put ps name x

/-- `get_param`, src/solver/base.rs:46 -/
def getParam {F : Type} (ps : Params F) (name : String) : Option (SolverParam F) := ps.get name

/-- `set_param`, src/solver/base.rs:55-76: the parameters after the call and the result of the call -/
def setParam {F : Type} (ps : Params F) (name : String) (value : SolverParam F) : Params F × Except String Unit :=
  match ps.get name with
  | none => (ps, .error "unknown parameter")
  | some v =>
    match v, value with
    | .int _, .int y => (ps.put name (.int y), .ok ())
    | .float _, .float y => (ps.put name (.float y), .ok ())
    | .str _, .str y => (ps.put name (.str y), .ok ())
    | _, _ => (ps, .error "invalid parameter type")

/-- `SolverClpCmd::new`, src/solver/clp_cmd.rs:31-39 -/
def clpParams {F : Type} : Params F := [("logLevel", .int 5)]

/-- `SolverCbcCmd::new`, src/solver/cbc_cmd.rs:35-43 -/
def cbcParams {F : Type} : Params F := [("logLevel", .int 5)]

/-- `SolverIpopt::new`, src/solver/ipopt.rs:37-46 -/
def ipoptParams {F : Type} : Params F := [("print_level", .int 5), ("sb", .str "no")]

end Verif
