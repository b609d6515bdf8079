import Mathlib.Algebra.MvPolynomial.PDeriv
import Verif.Spec.Binary64
import Verif.Spec.Shape

/-!
# Polynomials with integer coefficients, and their derivatives, in double precision

What is written down is a polynomial of Mathlib, with its formal partial derivatives. Nothing here says how the library stores, differentiates or evaluates.
-/

namespace Verif

open MvPolynomial

variable [Libm]

/-- All coefficients of the polynomial together are at most `2^53`. -/
def SmallSum (A : MvPolynomial ℕ ℕ) : Prop := eval (fun _ => 1) A ≤ 2 ^ 53

/-- `WritesPoly H e P A`: the handle `e` is the result of operator calls and of calls that differentiate, which write down the polynomial `P` with integer
coefficients; the variable of `P` with number `i` is the variable in cell `i`. `A` is the polynomial that the same calls write down if all constants are
replaced by their absolute values and all subtractions by additions. Where the library computes with constants, the coefficients must stay small.
`n` and `n'` are the numbers of cells before and after the call. -/
inductive WritesPoly (H : HashOrder) : Node F64 → MvPolynomial ℕ ℤ → MvPolynomial ℕ ℕ → Prop
  | const {e n n' c} {k : ℤ} (hc : F64.HasValue c (k : ℚ)) (h : newConst c n = .ok (e, n')) : WritesPoly H e (C k) (C k.natAbs)
  | var {e n n' s kind} (h : newVar s kind n = .ok (e, n')) : WritesPoly H e (X n) (X n)
  | add {a b e P Q A B n n'} (ha : WritesPoly H a P A) (hb : WritesPoly H b Q B) (hm : SmallSum (A + B)) (h : addN a b n = .ok (e, n')) :
      WritesPoly H e (P + Q) (A + B)
  | addScalar {a e P A c n n'} {k : ℤ} (ha : WritesPoly H a P A) (hc : F64.HasValue c (k : ℚ)) (hm : SmallSum (A + C k.natAbs))
      (h : addS a c n = .ok (e, n')) : WritesPoly H e (P + C k) (A + C k.natAbs)
  | scalarAdd {a e P A c n n'} {k : ℤ} (ha : WritesPoly H a P A) (hc : F64.HasValue c (k : ℚ)) (hm : SmallSum (C k.natAbs + A))
      (h : sAdd c a n = .ok (e, n')) : WritesPoly H e (C k + P) (C k.natAbs + A)
  | sub {a b e P Q A B n n'} (ha : WritesPoly H a P A) (hb : WritesPoly H b Q B) (hm : SmallSum (A + B)) (h : subN a b n = .ok (e, n')) :
      WritesPoly H e (P - Q) (A + B)
  | subScalar {a e P A c n n'} {k : ℤ} (ha : WritesPoly H a P A) (hc : F64.HasValue c (k : ℚ)) (hm : SmallSum (A + C k.natAbs))
      (h : subS a c n = .ok (e, n')) : WritesPoly H e (P - C k) (A + C k.natAbs)
  | scalarSub {a e P A c n n'} {k : ℤ} (ha : WritesPoly H a P A) (hc : F64.HasValue c (k : ℚ)) (hm : SmallSum (C k.natAbs + A))
      (h : sSub c a n = .ok (e, n')) : WritesPoly H e (C k - P) (C k.natAbs + A)
  | neg {a e P A n n'} (ha : WritesPoly H a P A) (hm : SmallSum A) (h : negN a n = .ok (e, n')) : WritesPoly H e (-P) A
  | mul {a b e P Q A B n n'} (ha : WritesPoly H a P A) (hb : WritesPoly H b Q B) (hm : SmallSum (A * B)) (h : mulN a b n = .ok (e, n')) :
      WritesPoly H e (P * Q) (A * B)
  | mulScalar {a e P A c n n'} {k : ℤ} (ha : WritesPoly H a P A) (hc : F64.HasValue c (k : ℚ)) (hm : SmallSum (A * C k.natAbs))
      (h : mulS c a n = .ok (e, n')) : WritesPoly H e (P * C k) (A * C k.natAbs)
  | scalarMul {a e P A c n n'} {k : ℤ} (ha : WritesPoly H a P A) (hc : F64.HasValue c (k : ℚ)) (hm : SmallSum (C k.natAbs * A))
      (h : sMul c a n = .ok (e, n')) : WritesPoly H e (C k * P) (C k.natAbs * A)
  | derivative {a x e P A regs n n'} (hr : ReachableApi H regs n) (hreg : a ∈ regs) (ha : WritesPoly H a P A) (hm : SmallSum (pderiv x.id A))
      (h : derivative H a x n = .ok (e, n')) : WritesPoly H e (pderiv x.id P) (pderiv x.id A)

end Verif
