import Verif.Spec.Rounding64
import Verif.Spec.ExactData

/-!
# Linear formulas in double precision, with rounding, overflow and underflow

What is written down, in exact real arithmetic; nothing here says how the library computes coefficients.
-/

namespace Verif

open Classical in
/-- The size of `k` terms of total size `m`, multiplied by `c`. -/
noncomputable def scaleSize (c : ℝ) (k : ℕ) (m : ℝ) : ℝ := if m = 0 then 0 else |c| * m + k * tiny c

open Classical in
/-- The size of something of size `m`, divided by `c`. -/
noncomputable def divSize (c m : ℝ) : ℝ := if m = 0 then 0 else m / |c| + tauD

/-- No coefficient and no constant is in danger of overflow. -/
def AllInRange (μ : ℕ → ℝ) (ν : ℝ) (k : ℕ) : Prop := (∀ i, InRange (μ i) k) ∧ InRange ν k

variable [Libm]

/-- `WritesLinear64 e α β μ ν k`: the handle `e` is the result of operator calls that write down the linear formula `∑ i, α i * x i + β`, where `x i` is the
variable with cell number `i`. `μ` and `ν` are the coefficients and the constant of the formula with all terms replaced by their absolute values, with small
additions for products and quotients that may underflow, and `k` grows with the number of operations of the formula. The sizes must stay in the range of
doubles. `n` and `n'` are the numbers of cells before and after the call. -/
inductive WritesLinear64 : Node F64 → (ℕ → ℝ) → ℝ → (ℕ → ℝ) → ℝ → ℕ → Prop
  | const {e n n' c} {x : ℝ} (hc : F64.Is c x) (hR : InRange |x| 1) (h : newConst c n = .ok (e, n')) : WritesLinear64 e 0 x 0 |x| 1
  | var {e n n' s kind} (h : newVar s kind n = .ok (e, n')) : WritesLinear64 e (Pi.single n 1) 0 (Pi.single n 1) 0 1
  | add {a b e n n' α α' μ μ'} {β ν β' ν' : ℝ} {k k' : ℕ} (ha : WritesLinear64 a α β μ ν k) (hb : WritesLinear64 b α' β' μ' ν' k')
      (hR : AllInRange (μ + μ') (ν + ν') (k + k' + 1)) (h : addN a b n = .ok (e, n')) : WritesLinear64 e (α + α') (β + β') (μ + μ') (ν + ν') (k + k' + 1)
  | addScalar {a e n n' c α μ} {β ν x : ℝ} {k : ℕ} (ha : WritesLinear64 a α β μ ν k) (hc : F64.Is c x) (hR : AllInRange μ (ν + |x|) (k + 2))
      (h : addS a c n = .ok (e, n')) : WritesLinear64 e α (β + x) μ (ν + |x|) (k + 2)
  | scalarAdd {a e n n' c α μ} {β ν x : ℝ} {k : ℕ} (ha : WritesLinear64 a α β μ ν k) (hc : F64.Is c x) (hR : AllInRange μ (|x| + ν) (k + 2))
      (h : sAdd c a n = .ok (e, n')) : WritesLinear64 e α (x + β) μ (|x| + ν) (k + 2)
  | sub {a b e n n' α α' μ μ'} {β ν β' ν' : ℝ} {k k' : ℕ} (ha : WritesLinear64 a α β μ ν k) (hb : WritesLinear64 b α' β' μ' ν' k')
      (hR : AllInRange (μ + μ') (ν + ν') (k + k' + 2)) (h : subN a b n = .ok (e, n')) : WritesLinear64 e (α - α') (β - β') (μ + μ') (ν + ν') (k + k' + 2)
  | subScalar {a e n n' c α μ} {β ν x : ℝ} {k : ℕ} (ha : WritesLinear64 a α β μ ν k) (hc : F64.Is c x) (hR : AllInRange μ (ν + |x|) (k + 3))
      (h : subS a c n = .ok (e, n')) : WritesLinear64 e α (β - x) μ (ν + |x|) (k + 3)
  | scalarSub {a e n n' c α μ} {β ν x : ℝ} {k : ℕ} (ha : WritesLinear64 a α β μ ν k) (hc : F64.Is c x) (hR : AllInRange μ (|x| + ν) (k + 3))
      (h : sSub c a n = .ok (e, n')) : WritesLinear64 e (-α) (x - β) μ (|x| + ν) (k + 3)
  | neg {a e n n' α μ} {β ν : ℝ} {k : ℕ} (ha : WritesLinear64 a α β μ ν k) (hR : AllInRange μ ν (k + 1)) (h : negN a n = .ok (e, n')) :
      WritesLinear64 e (-α) (-β) μ ν (k + 1)
  | mulScalar {a e n n' c α μ} {β ν x : ℝ} {k : ℕ} (ha : WritesLinear64 a α β μ ν k) (hc : F64.Is c x)
      (hR : AllInRange (fun i => scaleSize x k (μ i)) (scaleSize x k ν) (k + 1)) (h : mulS c a n = .ok (e, n')) :
      WritesLinear64 e (x • α) (x * β) (fun i => scaleSize x k (μ i)) (scaleSize x k ν) (k + 1)
  | scalarMul {a e n n' c α μ} {β ν x : ℝ} {k : ℕ} (ha : WritesLinear64 a α β μ ν k) (hc : F64.Is c x)
      (hR : AllInRange (fun i => scaleSize x k (μ i)) (scaleSize x k ν) (k + 1)) (h : sMul c a n = .ok (e, n')) :
      WritesLinear64 e (x • α) (x * β) (fun i => scaleSize x k (μ i)) (scaleSize x k ν) (k + 1)
  | mulConst {a b e n n' i i' c α μ} {β ν x : ℝ} {k : ℕ} (ha : WritesLinear64 a α β μ ν k) (hc : F64.Is c x)
      (hR : AllInRange (fun i => scaleSize x k (μ i)) (scaleSize x k ν) (k + 1)) (hb : newConst c i = .ok (b, i')) (h : mulN a b n = .ok (e, n')) :
      WritesLinear64 e (x • α) (x * β) (fun i => scaleSize x k (μ i)) (scaleSize x k ν) (k + 1)
  | constMul {a b e n n' i i' c α μ} {β ν x : ℝ} {k : ℕ} (ha : WritesLinear64 a α β μ ν k) (hc : F64.Is c x)
      (hR : AllInRange (fun i => scaleSize x k (μ i)) (scaleSize x k ν) (k + 1)) (hb : newConst c i = .ok (b, i')) (h : mulN b a n = .ok (e, n')) :
      WritesLinear64 e (x • α) (x * β) (fun i => scaleSize x k (μ i)) (scaleSize x k ν) (k + 1)
  | divScalar {a e n n' c α μ} {β ν x : ℝ} {k : ℕ} (ha : WritesLinear64 a α β μ ν k) (hc : F64.Is c x)
      (hR : AllInRange (fun i => divSize x (μ i)) (divSize x ν) (k + 2)) (h : divS a c n = .ok (e, n')) :
      WritesLinear64 e (x⁻¹ • α) (β / x) (fun i => divSize x (μ i)) (divSize x ν) (k + 2)
  | divConst {a b e n n' i i' c α μ} {β ν x : ℝ} {k : ℕ} (ha : WritesLinear64 a α β μ ν k) (hc : F64.Is c x)
      (hR : AllInRange (fun i => divSize x (μ i)) (divSize x ν) (k + 2)) (hb : newConst c i = .ok (b, i')) (h : divN a b n = .ok (e, n')) :
      WritesLinear64 e (x⁻¹ • α) (β / x) (fun i => divSize x (μ i)) (divSize x ν) (k + 2)

/-- The real number behind a finite double (0 for infinities and NaN, which do not occur below). -/
noncomputable def F64.toReal (a : F64) : ℝ := ((a.value.getD 0 : ℚ) : ℝ)

end Verif
