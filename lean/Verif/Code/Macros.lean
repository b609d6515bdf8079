import Verif.Code.Base

/-! # src/macros.rs -/

namespace Verif

variable {F : Type} [FloatOps F]

/-- `approx::assert_abs_diff_eq!(a, b, epsilon = eps)`: `abs(a - b) <= eps` or panic. Code: the macro of the crate `approx` that is called in
src/macros.rs:12. -/
def assertAbsDiffEq (a b eps : F) : R Unit := if FloatOps.abs (a -. b) <=. eps then .ok () else .error .assert

/-- The loop over the pairs: src/macros.rs:11-13 -/
def assertPairs (eps : F) : List (F × F) → R Unit
  | [] => .ok ()
  | (a, b) :: rest => do
    assertAbsDiffEq a b eps
    assertPairs eps rest

/-- `assert_vec_approx_eq!(x, y, epsilon = eps)`: src/macros.rs:8-15 -/
def assertVecApproxEq (x y : List F) (eps : F) : R Unit :=
  if x.length = y.length then assertPairs eps (x.zip y) else .error .assert

end Verif
