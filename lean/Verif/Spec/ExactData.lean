import Verif.Spec.Binary64
import Verif.Code.Model

/-!
# Linear formulas in double precision that are written down without rounding

What is written down: a list of terms and a constant. Nothing here says how the library computes coefficients.
-/

namespace Verif

variable [Libm]

/-- The coefficient of the variable `i` in a list of terms: the sum of its coefficients in the terms. -/
def termCoef (i : ℕ) (L : List (ℕ × ℚ)) : ℚ := ((L.filter fun t => t.1 = i).map fun t => t.2).sum

/-- The terms multiplied by `k`. -/
def scaleTerms (k : ℚ) (L : List (ℕ × ℚ)) : List (ℕ × ℚ) := L.map fun t => (t.1, k * t.2)

/-- `WritesTerms e L q`: the handle `e` is the result of operator calls that write down the terms `L` (pairs of the cell number of a variable and a
coefficient), in this order, and the constant `q`. Literals are finite doubles; whenever constants are added, and whenever a formula is multiplied by a
literal or divided by one, the exact results are doubles. Only a formula without constant in which no variable occurs twice may be divided. Nothing is
asked of the sums of coefficients of the same variable. `n` and `n'` are the numbers of cells before and after the call. -/
inductive WritesTerms : Node F64 → List (ℕ × ℚ) → ℚ → Prop
  | const {e n n' c q} (hc : F64.HasValue c q) (h : newConst c n = .ok (e, n')) : WritesTerms e [] q
  | var {e n n' s kind} (h : newVar s kind n = .ok (e, n')) : WritesTerms e [(n, 1)] 0
  | add {a b e L L' q q' n n'} (ha : WritesTerms a L q) (hb : WritesTerms b L' q') (hq : IsDouble (q + q')) (h : addN a b n = .ok (e, n')) :
      WritesTerms e (L ++ L') (q + q')
  | addScalar {a e L q c k n n'} (ha : WritesTerms a L q) (hc : F64.HasValue c k) (hq : IsDouble (q + k)) (h : addS a c n = .ok (e, n')) :
      WritesTerms e L (q + k)
  | scalarAdd {a e L q c k n n'} (ha : WritesTerms a L q) (hc : F64.HasValue c k) (hq : IsDouble (k + q)) (h : sAdd c a n = .ok (e, n')) :
      WritesTerms e L (k + q)
  | sub {a b e L L' q q' n n'} (ha : WritesTerms a L q) (hb : WritesTerms b L' q') (hq : IsDouble (q - q')) (h : subN a b n = .ok (e, n')) :
      WritesTerms e (L ++ scaleTerms (-1) L') (q - q')
  | subScalar {a e L q c k n n'} (ha : WritesTerms a L q) (hc : F64.HasValue c k) (hq : IsDouble (q - k)) (h : subS a c n = .ok (e, n')) :
      WritesTerms e L (q - k)
  | scalarSub {a e L q c k n n'} (ha : WritesTerms a L q) (hc : F64.HasValue c k) (hq : IsDouble (k - q)) (h : sSub c a n = .ok (e, n')) :
      WritesTerms e (scaleTerms (-1) L) (k - q)
  | neg {a e L q n n'} (ha : WritesTerms a L q) (h : negN a n = .ok (e, n')) : WritesTerms e (scaleTerms (-1) L) (-q)
  | mulScalar {a e L q c k n n'} (ha : WritesTerms a L q) (hc : F64.HasValue c k) (hL : ∀ t ∈ L, IsDouble (k * t.2)) (hq : IsDouble (k * q))
      (h : mulS c a n = .ok (e, n')) : WritesTerms e (scaleTerms k L) (k * q)
  | scalarMul {a e L q c k n n'} (ha : WritesTerms a L q) (hc : F64.HasValue c k) (hL : ∀ t ∈ L, IsDouble (k * t.2)) (hq : IsDouble (k * q))
      (h : sMul c a n = .ok (e, n')) : WritesTerms e (scaleTerms k L) (k * q)
  | mulConst {a b e L q c k n n' i i'} (ha : WritesTerms a L q) (hc : F64.HasValue c k) (hL : ∀ t ∈ L, IsDouble (k * t.2)) (hq : IsDouble (k * q))
      (hb : newConst c i = .ok (b, i')) (h : mulN a b n = .ok (e, n')) : WritesTerms e (scaleTerms k L) (k * q)
  | constMul {a b e L q c k n n' i i'} (ha : WritesTerms a L q) (hc : F64.HasValue c k) (hL : ∀ t ∈ L, IsDouble (k * t.2)) (hq : IsDouble (k * q))
      (hb : newConst c i = .ok (b, i')) (h : mulN b a n = .ok (e, n')) : WritesTerms e (scaleTerms k L) (k * q)
  | divScalar {a e L c k n n'} (ha : WritesTerms a L 0) (hc : F64.HasValue c k) (hL : ∀ t ∈ L, IsDouble (k⁻¹ * t.2)) (hn : (L.map Prod.fst).Nodup)
      (h : divS a c n = .ok (e, n')) : WritesTerms e (scaleTerms k⁻¹ L) 0
  | divConst {a b e L c k n n' i i'} (ha : WritesTerms a L 0) (hc : F64.HasValue c k) (hL : ∀ t ∈ L, IsDouble (k⁻¹ * t.2))
      (hn : (L.map Prod.fst).Nodup) (hb : newConst c i = .ok (b, i')) (h : divN a b n = .ok (e, n')) : WritesTerms e (scaleTerms k⁻¹ L) 0

/-- When the coefficients of variable `i` are added up in the order of the terms, all intermediate sums are doubles. -/
def SumsExact (L : List (ℕ × ℚ)) (i : ℕ) : Prop := ∀ l, l <+: L → IsDouble (termCoef i l)

/-- The coefficient of the variable `x` in the properties of an expression; a variable that is not listed has coefficient 0. -/
def Prop'.coefD (p : Prop' F64) (x : Node F64) : F64 := (getN p.a x).getD zero

end Verif
