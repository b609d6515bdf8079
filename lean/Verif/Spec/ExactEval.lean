import Verif.Spec.Binary64
import Verif.Code.Model

/-!
# Formulas over integers and fixed-point numbers in double precision

What is written down, in exact integer arithmetic: the value of a formula in units of a power of two. Nothing here says how the library evaluates.
-/

namespace Verif

variable [Libm]

/-- A size of `m` units of `2^g`: units in the range of doubles, and at most `2^53` of them. -/
def Fits (g : ℤ) (m : ℕ) : Prop := -1074 ≤ g ∧ g ≤ 970 ∧ m ≤ 2 ^ 53

/-- `Computes σ e z g m`: the handle `e` is the result of operator calls that write down a formula which has, in exact arithmetic and under the assignment
`σ`, the value `z * 2^g` for an integer `z`. `m * 2^g` is the value of the formula with all terms replaced by their absolute values; for the formula and all
its parts, `m` is at most `2^53`. Terms that are added are counted in the same unit (`finer` changes the unit); for integers the unit is `2^0`.
`n` and `n'` are the numbers of cells before and after the call. -/
inductive Computes (σ : Env F64) : Node F64 → ℤ → ℤ → ℕ → Prop
  | const {e n n' c} {z g : ℤ} (hc : F64.HasValue c (((z : ℤ) : ℚ) * 2 ^ g)) (hm : Fits g z.natAbs) (h : newConst c n = .ok (e, n')) : Computes σ e z g z.natAbs
  | var {e n n' s kind a} {z g : ℤ} (h : newVar s kind n = .ok (e, n')) (ha : σ n = some a) (hv : a.HasValue (((z : ℤ) : ℚ) * 2 ^ g)) (hm : Fits g z.natAbs) :
      Computes σ e z g z.natAbs
  | finer {e m} {z g : ℤ} (j : ℕ) (h : Computes σ e z g m) (hm : Fits (g - j) (m * 2 ^ j)) : Computes σ e (z * 2 ^ j) (g - j) (m * 2 ^ j)
  | add {a b e m m' n n'} {z w g : ℤ} (ha : Computes σ a z g m) (hb : Computes σ b w g m') (hm : Fits g (m + m')) (h : addN a b n = .ok (e, n')) :
      Computes σ e (z + w) g (m + m')
  | addScalar {a e m c n n'} {z g k : ℤ} (ha : Computes σ a z g m) (hc : F64.HasValue c (((k : ℤ) : ℚ) * 2 ^ g)) (hm : Fits g (m + k.natAbs))
      (h : addS a c n = .ok (e, n')) : Computes σ e (z + k) g (m + k.natAbs)
  | scalarAdd {a e m c n n'} {z g k : ℤ} (ha : Computes σ a z g m) (hc : F64.HasValue c (((k : ℤ) : ℚ) * 2 ^ g)) (hm : Fits g (k.natAbs + m))
      (h : sAdd c a n = .ok (e, n')) : Computes σ e (k + z) g (k.natAbs + m)
  | sub {a b e m m' n n'} {z w g : ℤ} (ha : Computes σ a z g m) (hb : Computes σ b w g m') (hm : Fits g (m + m')) (h : subN a b n = .ok (e, n')) :
      Computes σ e (z - w) g (m + m')
  | subScalar {a e m c n n'} {z g k : ℤ} (ha : Computes σ a z g m) (hc : F64.HasValue c (((k : ℤ) : ℚ) * 2 ^ g)) (hm : Fits g (m + k.natAbs))
      (h : subS a c n = .ok (e, n')) : Computes σ e (z - k) g (m + k.natAbs)
  | scalarSub {a e m c n n'} {z g k : ℤ} (ha : Computes σ a z g m) (hc : F64.HasValue c (((k : ℤ) : ℚ) * 2 ^ g)) (hm : Fits g (k.natAbs + m))
      (h : sSub c a n = .ok (e, n')) : Computes σ e (k - z) g (k.natAbs + m)
  | neg {a e m n n'} {z g : ℤ} (ha : Computes σ a z g m) (h : negN a n = .ok (e, n')) : Computes σ e (-z) g m
  | mul {a b e m m' n n'} {z w g g' : ℤ} (ha : Computes σ a z g m) (hb : Computes σ b w g' m') (hm : Fits (g + g') (m * m'))
      (h : mulN a b n = .ok (e, n')) : Computes σ e (z * w) (g + g') (m * m')
  | mulScalar {a e m c n n'} {z g g' k : ℤ} (ha : Computes σ a z g m) (hc : F64.HasValue c (((k : ℤ) : ℚ) * 2 ^ g')) (hm : Fits (g + g') (m * k.natAbs))
      (h : mulS c a n = .ok (e, n')) : Computes σ e (z * k) (g + g') (m * k.natAbs)
  | scalarMul {a e m c n n'} {z g g' k : ℤ} (ha : Computes σ a z g m) (hc : F64.HasValue c (((k : ℤ) : ℚ) * 2 ^ g')) (hm : Fits (g' + g) (k.natAbs * m))
      (h : sMul c a n = .ok (e, n')) : Computes σ e (k * z) (g' + g) (k.natAbs * m)

end Verif
