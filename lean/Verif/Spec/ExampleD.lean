import Verif.Spec.Binary64
import Verif.Spec.ExampleW

/-! # Concrete programs in double precision, for the non-vacuity examples -/

namespace Verif

deriving instance DecidableEq for F64

/-- A mathematical library for the examples that do not use it. -/
@[reducible] def exLibm : Libm := ⟨fun _ => .nan, fun _ => .nan⟩

/-- The literal `x` of a program: the double closest to it. -/
def dbl (x : ℚ) : F64 := F64.ofRat false x

section
attribute [local instance] exLibm

/-- What the program holds at the end. -/
def worldD (cmds : List (Cmd F64)) : World F64 :=
  match runCmds HashOrder.listOrder World.start cmds 0 with
  | .ok r => r.1
  | .error _ => World.start

/-- The number of cells created by the program. -/
def countD (cmds : List (Cmd F64)) : Nat :=
  match runCmds HashOrder.listOrder World.start cmds 0 with
  | .ok r => r.2
  | .error _ => 0

/-- Does the program run without panic? -/
def runsD (cmds : List (Cmd F64)) : Bool :=
  match runCmds HashOrder.listOrder World.start cmds 0 with
  | .ok _ => true
  | .error _ => false

theorem runsD_reachable {cmds : List (Cmd F64)} (h : runsD cmds = true) (hr : cmds.all (fun o => !o.isRaw) = true) :
    ReachableApiW HashOrder.listOrder (worldD cmds) (countD cmds) := by
  refine ⟨cmds, by simpa using hr, ?_⟩
  unfold runsD at h
  unfold worldD countD
  revert h
  cases runCmds HashOrder.listOrder World.start cmds 0 <;> simp

end

/-- The result of a call that succeeds. -/
def gotD (r : Except Panic (Node F64 × Nat)) : Node F64 × Nat :=
  match r with
  | .ok p => p
  | .error _ => (.const 0 .nan, 0)

theorem gotD_ok {f : M (Node F64)} {n : Nat} (h : (f n).toBool = true) : f n = .ok ((gotD (f n)).1, (gotD (f n)).2) := by
  revert h
  cases f n <;> simp [gotD, Except.toBool]

/-- An assignment of literals. -/
def envD (l : List (Nat × ℚ)) : Env F64 := fun i => (l.find? (fun p => p.1 == i)).map fun p => dbl p.2

instance : Inhabited (Constraint F64) := ⟨⟨0, .const 0 .nan, .equal, .const 0 .nan, ""⟩⟩

end Verif
