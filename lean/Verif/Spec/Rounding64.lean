import Mathlib.Analysis.SpecialFunctions.Trigonometric.Bounds
import Verif.Spec.Binary64
import Verif.Code.Model

/-!
# Formulas in double precision, with rounding, overflow and underflow

What is written down, in exact real arithmetic, and how large it is. Nothing here says how the library evaluates.
-/

namespace Verif

/-- The double `a` is finite and has the value `x`. -/
def F64.Is (a : F64) (x : ℝ) : Prop := ∃ q : ℚ, a.HasValue q ∧ (q : ℝ) = x

/-- The unit roundoff of double precision. -/
noncomputable def uD : ℝ := 2 ^ (-53 : ℤ)

/-- The smallest positive normal double. -/
noncomputable def tauD : ℝ := 2 ^ (-1022 : ℤ)

/-- The largest size of formulas that is considered here (the largest double is almost four times as large). -/
noncomputable def maxSize : ℝ := 2 ^ (1022 : ℤ)

open Classical in
/-- What a product with the number `c` can lose by underflow, in relation to the unit roundoff: nothing if `c` is an integer. -/
noncomputable def tiny (c : ℝ) : ℝ := if ∃ z : ℤ, c = z then 0 else tauD

/-- Formulas of size `m` with `k` roundings, without danger of overflow. -/
def InRange (m : ℝ) (k : ℕ) : Prop := m ≤ maxSize ∧ k ≤ 2 ^ 52

/-- A mathematical library whose `sin` and `cos` have an absolute error of at most `2^-52`. -/
def GoodLibm [Libm] : Prop := ∀ (a : F64) (x : ℝ), a.Is x →
  (∃ z, (Libm.sin a).Is z ∧ |z - Real.sin x| ≤ 2 ^ (-52 : ℤ)) ∧ ∃ z, (Libm.cos a).Is z ∧ |z - Real.cos x| ≤ 2 ^ (-52 : ℤ)

variable [Libm]

/-- `Writes64 σ e v m k`: the handle `e` is the result of operator calls that write down a formula with the exact value `v` under the assignment `σ`.
`m` is the value of the formula with all terms replaced by their absolute values (with `1 + m` for a sine or cosine of something of size `m`), with small
additions for products and quotients that may underflow, and `k` grows with the number of operations of the formula. The sizes must stay in the range of
doubles. A sine or cosine needs an accurate mathematical library. A divisor must not be lost in rounding errors: `κ` bounds its condition number `m' / |w|`. `n` and `n'` are the numbers of cells before and after the
call. -/
inductive Writes64 (σ : Env F64) : Node F64 → ℝ → ℝ → ℕ → Prop
  | const {e n n' c} {x : ℝ} (hc : F64.Is c x) (hR : InRange |x| 1) (h : newConst c n = .ok (e, n')) : Writes64 σ e x |x| 1
  | var {e n n' s kind c} {x : ℝ} (h : newVar s kind n = .ok (e, n')) (hv : σ n = some c) (hc : F64.Is c x) (hR : InRange |x| 1) : Writes64 σ e x |x| 1
  | add {a b e n n'} {v w m m' : ℝ} {k k' : ℕ} (ha : Writes64 σ a v m k) (hb : Writes64 σ b w m' k') (hR : InRange (m + m') (k + k' + 1))
      (h : addN a b n = .ok (e, n')) : Writes64 σ e (v + w) (m + m') (k + k' + 1)
  | addScalar {a e n n' c} {v m x : ℝ} {k : ℕ} (ha : Writes64 σ a v m k) (hc : F64.Is c x) (hR : InRange (m + |x|) (k + 2))
      (h : addS a c n = .ok (e, n')) : Writes64 σ e (v + x) (m + |x|) (k + 2)
  | scalarAdd {a e n n' c} {v m x : ℝ} {k : ℕ} (ha : Writes64 σ a v m k) (hc : F64.Is c x) (hR : InRange (|x| + m) (k + 2))
      (h : sAdd c a n = .ok (e, n')) : Writes64 σ e (x + v) (|x| + m) (k + 2)
  | sub {a b e n n'} {v w m m' : ℝ} {k k' : ℕ} (ha : Writes64 σ a v m k) (hb : Writes64 σ b w m' k') (hR : InRange (m + m') (k + k' + 2))
      (h : subN a b n = .ok (e, n')) : Writes64 σ e (v - w) (m + m') (k + k' + 2)
  | subScalar {a e n n' c} {v m x : ℝ} {k : ℕ} (ha : Writes64 σ a v m k) (hc : F64.Is c x) (hR : InRange (m + |x|) (k + 3))
      (h : subS a c n = .ok (e, n')) : Writes64 σ e (v - x) (m + |x|) (k + 3)
  | scalarSub {a e n n' c} {v m x : ℝ} {k : ℕ} (ha : Writes64 σ a v m k) (hc : F64.Is c x) (hR : InRange (|x| + m) (k + 3))
      (h : sSub c a n = .ok (e, n')) : Writes64 σ e (x - v) (|x| + m) (k + 3)
  | neg {a e n n'} {v m : ℝ} {k : ℕ} (ha : Writes64 σ a v m k) (hR : InRange m (k + 1)) (h : negN a n = .ok (e, n')) : Writes64 σ e (-v) m (k + 1)
  | mul {a b e n n'} {v w m m' : ℝ} {k k' : ℕ} (ha : Writes64 σ a v m k) (hb : Writes64 σ b w m' k')
      (hR : InRange (m * m' + (k + k' + 1) * tauD) (k + k' + 2)) (h : mulN a b n = .ok (e, n')) :
      Writes64 σ e (v * w) (m * m' + (k + k' + 1) * tauD) (k + k' + 2)
  | mulScalar {a e n n' c} {v m x : ℝ} {k : ℕ} (ha : Writes64 σ a v m k) (hc : F64.Is c x) (hR : InRange (m * |x| + k * tiny x) (k + 1))
      (h : mulS c a n = .ok (e, n')) : Writes64 σ e (v * x) (m * |x| + k * tiny x) (k + 1)
  | scalarMul {a e n n' c} {v m x : ℝ} {k : ℕ} (ha : Writes64 σ a v m k) (hc : F64.Is c x) (hR : InRange (|x| * m + k * tiny x) (k + 1))
      (h : sMul c a n = .ok (e, n')) : Writes64 σ e (x * v) (|x| * m + k * tiny x) (k + 1)
  | divScalar {a e n n' c} {v m x : ℝ} {k : ℕ} (ha : Writes64 σ a v m k) (hc : F64.Is c x) (hR : InRange (m / |x| + tauD) (k + 2))
      (h : divS a c n = .ok (e, n')) : Writes64 σ e (v / x) (m / |x| + tauD) (k + 2)
  | div {a b e n n'} {v w m m' : ℝ} {k k' : ℕ} (κ : ℕ) (ha : Writes64 σ a v m k) (hb : Writes64 σ b w m' k') (hw : w ≠ 0) (hκ : m' ≤ κ * |w|)
      (hs : κ * k' ≤ 2 ^ 51) (hR : InRange (m / |w| + tauD) (k + 2 * (κ * k') + 2)) (h : divN a b n = .ok (e, n')) :
      Writes64 σ e (v / w) (m / |w| + tauD) (k + 2 * (κ * k') + 2)
  | scalarDiv {b e n n' c} {w m' x : ℝ} {k' : ℕ} (κ : ℕ) (hb : Writes64 σ b w m' k') (hc : F64.Is c x) (hw : w ≠ 0) (hκ : m' ≤ κ * |w|)
      (hs : κ * k' ≤ 2 ^ 51) (hR : InRange (|x| / |w| + tauD) (2 * (κ * k') + 2)) (h : sDiv c b n = .ok (e, n')) :
      Writes64 σ e (x / w) (|x| / |w| + tauD) (2 * (κ * k') + 2)
  | sin {a e n n'} {v m : ℝ} {k : ℕ} (hL : GoodLibm) (ha : Writes64 σ a v m k) (hR : InRange (1 + m) (k + 3)) (h : sinN a n = .ok (e, n')) :
      Writes64 σ e (Real.sin v) (1 + m) (k + 3)
  | cos {a e n n'} {v m : ℝ} {k : ℕ} (hL : GoodLibm) (ha : Writes64 σ a v m k) (hR : InRange (1 + m) (k + 3)) (h : cosN a n = .ok (e, n')) :
      Writes64 σ e (Real.cos v) (1 + m) (k + 3)

end Verif
