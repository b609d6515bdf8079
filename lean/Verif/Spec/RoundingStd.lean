import Verif.Spec.Rounding

/-!
# Linear formulas, written with the operators

What is written down, in exact arithmetic; nothing here says how the library computes coefficients.
-/

namespace Verif

variable {u : ℝ} {A : FlArith u}

/-- `WritesLinear e α β μ ν k`: the handle `e` is the result of operator calls that write down the linear formula `∑ i, α i * x i + β`, where `x i` is the
variable with cell number `i`. `μ` and `ν` are the coefficients and the constant of the formula with all terms replaced by their absolute values, and
`k` grows with the number of operations of the formula. `n` and `n'` are the numbers of cells before and after the call. -/
inductive WritesLinear : Node (Fl A) → (ℕ → ℝ) → ℝ → (ℕ → ℝ) → ℝ → ℕ → Prop
  | const {e n n'} (c : ℝ) (h : newConst (Fl.num A c) n = .ok (e, n')) : WritesLinear e 0 c 0 |c| 1
  | var {e n n' s kind} (h : newVar s kind n = .ok (e, n')) : WritesLinear e (Pi.single n 1) 0 (Pi.single n 1) 0 1
  | add {a b e α β μ ν α' β' μ' ν' k k' n n'} (ha : WritesLinear a α β μ ν k) (hb : WritesLinear b α' β' μ' ν' k') (h : addN a b n = .ok (e, n')) :
      WritesLinear e (α + α') (β + β') (μ + μ') (ν + ν') (k + k' + 1)
  | addScalar {a e α β μ ν k n n'} (c : ℝ) (ha : WritesLinear a α β μ ν k) (h : addS a (Fl.num A c) n = .ok (e, n')) :
      WritesLinear e α (β + c) μ (ν + |c|) (k + 2)
  | scalarAdd {a e α β μ ν k n n'} (c : ℝ) (ha : WritesLinear a α β μ ν k) (h : sAdd (Fl.num A c) a n = .ok (e, n')) :
      WritesLinear e α (c + β) μ (|c| + ν) (k + 2)
  | sub {a b e α β μ ν α' β' μ' ν' k k' n n'} (ha : WritesLinear a α β μ ν k) (hb : WritesLinear b α' β' μ' ν' k') (h : subN a b n = .ok (e, n')) :
      WritesLinear e (α - α') (β - β') (μ + μ') (ν + ν') (k + k' + 2)
  | subScalar {a e α β μ ν k n n'} (c : ℝ) (ha : WritesLinear a α β μ ν k) (h : subS a (Fl.num A c) n = .ok (e, n')) :
      WritesLinear e α (β - c) μ (ν + |c|) (k + 3)
  | scalarSub {a e α β μ ν k n n'} (c : ℝ) (ha : WritesLinear a α β μ ν k) (h : sSub (Fl.num A c) a n = .ok (e, n')) :
      WritesLinear e (-α) (c - β) μ (|c| + ν) (k + 3)
  | neg {a e α β μ ν k n n'} (ha : WritesLinear a α β μ ν k) (h : negN a n = .ok (e, n')) : WritesLinear e (-α) (-β) μ ν (k + 1)
  | mulScalar {a e α β μ ν k n n'} (c : ℝ) (ha : WritesLinear a α β μ ν k) (h : mulS (Fl.num A c) a n = .ok (e, n')) :
      WritesLinear e (c • α) (c * β) (|c| • μ) (|c| * ν) (k + 1)
  | scalarMul {a e α β μ ν k n n'} (c : ℝ) (ha : WritesLinear a α β μ ν k) (h : sMul (Fl.num A c) a n = .ok (e, n')) :
      WritesLinear e (c • α) (c * β) (|c| • μ) (|c| * ν) (k + 1)
  | mulConst {a b e α β μ ν k n n' i i'} (c : ℝ) (ha : WritesLinear a α β μ ν k) (hb : newConst (Fl.num A c) i = .ok (b, i'))
      (h : mulN a b n = .ok (e, n')) : WritesLinear e (c • α) (c * β) (|c| • μ) (|c| * ν) (k + 1)
  | constMul {a b e α β μ ν k n n' i i'} (c : ℝ) (ha : WritesLinear a α β μ ν k) (hb : newConst (Fl.num A c) i = .ok (b, i'))
      (h : mulN b a n = .ok (e, n')) : WritesLinear e (c • α) (c * β) (|c| • μ) (|c| * ν) (k + 1)
  | divScalar {a e α β μ ν k n n'} (c : ℝ) (ha : WritesLinear a α β μ ν k) (h : divS a (Fl.num A c) n = .ok (e, n')) :
      WritesLinear e (c⁻¹ • α) (β / c) (|c|⁻¹ • μ) (ν / |c|) (k + 2)
  | divConst {a b e α β μ ν k n n' i i'} (c : ℝ) (ha : WritesLinear a α β μ ν k) (hb : newConst (Fl.num A c) i = .ok (b, i'))
      (h : divN a b n = .ok (e, n')) : WritesLinear e (c⁻¹ • α) (β / c) (|c|⁻¹ • μ) (ν / |c|) (k + 2)

/-- The coefficient of the variable with the handle `x` in the properties of an expression; a variable that is not listed has coefficient 0. -/
def Prop'.coef (p : Prop' (Fl A)) (x : Node (Fl A)) : Fl A := (getN p.a x).getD (Fl.num A 0)

/-- The real number behind a number of the arithmetic (0 for NaN, which does not occur below). -/
def Fl.val (a : Fl A) : ℝ := Option.getD a 0

end Verif
