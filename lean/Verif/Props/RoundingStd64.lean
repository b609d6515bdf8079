import Verif.Proofs.RoundingStd64
import Verif.Proofs.Comp
import Verif.Proofs.Solve
import Verif.Props.Rounding64

/-!
# C80: how far rounding errors, in double precision, can take the coefficients of linear expressions and constraints
-/

namespace Verif

set_option linter.unusedSectionVars false

section
variable [Libm]

theorem F64.Is.toReal {a : F64} {x : ℝ} (h : a.Is x) : a.toReal = x := by
  obtain ⟨q, h, rfl⟩ := h
  rw [F64.toReal, F64.value_iff.2 h]
  rfl

theorem F64.is_neg {a : F64} {x : ℝ} (h : a.Is x) : (FloatOps.neg a).Is (-x) := by
  obtain ⟨q, h, rfl⟩ := h
  exact ⟨-q, F64.neg_value h, by push_cast; rfl⟩

theorem R64.ptrEq_var_iff {x : Node F64} (hx : x.isVar = true) {y : Node F64} (hy : y.isVar = true) : x.ptrEq y = true ↔ x.id = y.id := by
  cases x <;> simp [Node.isVar] at hx
  cases y <;> simp [Node.isVar] at hy
  simp [Node.ptrEq, Node.tag, Node.id]

/-- The value of a list of coefficients at a point. -/
theorem R64.list_sum (S : Finset ℕ) (t : ℕ → ℝ) : ∀ (m : List (Node F64 × F64)), NodupP (keysN m) → (∀ q ∈ m, q.1.isVar = true) →
    (∀ q ∈ m, q.1.id ∉ S → q.2.toReal = 0) →
    (m.map fun q => q.2.toReal * t q.1.id).sum = ∑ i ∈ S, ((getN m (.var i "" .continuous)).getD zero).toReal * t i := by
  intro m
  have hz0 : (zero : F64).toReal = 0 := F64.is_zero.toReal
  induction m with
  | nil => intro _ _ _; simp [getN, hz0]
  | cons q m ih =>
    intro hn hv hS
    obtain ⟨x, c⟩ := q
    have hxv : x.isVar = true := hv (x, c) (by simp)
    rw [List.map_cons, List.sum_cons, ih (List.pairwise_cons.1 hn).2 (fun q hq => hv q (by simp [hq])) fun q hq => hS q (by simp [hq])]
    have hself : getN m (.var x.id "" .continuous) = none := getN_none_of fun y hy => by
      have h1 := (List.pairwise_cons.1 hn).1 y hy
      obtain ⟨q, hq, rfl⟩ := List.mem_map.1 hy
      have hyv : q.1.isVar = true := hv q (by simp [hq])
      by_contra hne
      rw [Bool.not_eq_false, R64.ptrEq_var_iff hyv rfl] at hne
      rw [(R64.ptrEq_var_iff hxv hyv).2 hne.symm] at h1
      cases h1
    have hget : ∀ i : ℕ, getN ((x, c) :: m) (.var i "" .continuous) = if x.id = i then some c else getN m (.var i "" .continuous) := by
      intro i
      simp only [getN]
      by_cases hi : x.id = i
      · rw [if_pos hi, if_pos ((R64.ptrEq_var_iff hxv (y := .var i "" .continuous) rfl).2 hi)]
      · rw [if_neg hi, if_neg (fun h => hi ((R64.ptrEq_var_iff hxv (y := .var i "" .continuous) rfl).1 h))]
    have hsplit : ∀ i ∈ S, ((getN ((x, c) :: m) (.var i "" .continuous)).getD zero).toReal * t i =
        (if i = x.id then c.toReal * t x.id else 0) + ((getN m (.var i "" .continuous)).getD zero).toReal * t i := by
      intro i _
      rw [hget]
      by_cases hi : x.id = i
      · subst hi
        simp [hself, hz0]
      · simp [hi, Ne.symm hi]
    rw [Finset.sum_congr rfl hsplit, Finset.sum_add_distrib, Finset.sum_ite_eq']
    by_cases hxS : x.id ∈ S
    · simp [hxS]
    · have hc0 : c.toReal = 0 := hS (x, c) (by simp) hxS
      simp [hxS, hc0]

/-- **C80** Write down a linear formula with the operators, whatever they simplify, fold, collect or distribute on the way, in IEEE double precision. The
library recognizes the handle as linear, and the coefficient that it extracts for a variable is finite, at a distance of at most
`((1 + 2^-53)^k - 1) * μ` from the coefficient of the formula; a variable that is not listed counts with coefficient 0. -/
theorem C80_coefficients {e : Node F64} {α μ : ℕ → ℝ} {β ν : ℝ} {k : ℕ} (h : WritesLinear64 e α β μ ν k) :
    e.stdProperties.affine = true ∧ ∀ x : Node F64, x.isVar = true →
      ∃ y, ((getN e.stdProperties.a x).getD zero).Is y ∧ |y - α x.id| ≤ ((1 + 2 ^ (-53 : ℤ)) ^ k - 1) * μ x.id := by
  refine ⟨(R64.writesLinear64_rep h).1.aff, fun x hx => ?_⟩
  obtain ⟨y, h1, h2⟩ := R64.writesLinear64_coef h hx
  exact ⟨y, h1, h2.1⟩

/-- The constant that the library extracts. -/
theorem C80_constant {e : Node F64} {α μ : ℕ → ℝ} {β ν : ℝ} {k : ℕ} (h : WritesLinear64 e α β μ ν k) :
    ∃ y, e.stdProperties.b.Is y ∧ |y - β| ≤ ((1 + 2 ^ (-53 : ℤ)) ^ k - 1) * ν := by
  obtain ⟨y, h1, h2⟩ := R64.writesLinear64_const h
  exact ⟨y, h1, h2.1⟩

/-- The linear function with the extracted coefficients, as a solver sees it, at any point `t`: it differs from the formula by the same factor times the
formula with all terms replaced by their absolute values. `S` contains the variables of the formula. -/
theorem C80_function {e : Node F64} {α μ : ℕ → ℝ} {β ν : ℝ} {k : ℕ} (h : WritesLinear64 e α β μ ν k) {S : Finset ℕ}
    (hS : ∀ i ∉ S, μ i = 0) (t : ℕ → ℝ) :
    |((e.stdProperties.a.map fun q => q.2.toReal * t q.1.id).sum + e.stdProperties.b.toReal) - (∑ i ∈ S, α i * t i + β)| ≤
      ((1 + 2 ^ (-53 : ℤ)) ^ k - 1) * (∑ i ∈ S, μ i * |t i| + ν) := by
  obtain ⟨hn, hv, -⟩ := stdProperties_keys e
  have hvar : ∀ q ∈ e.stdProperties.a, q.1.isVar = true := fun q hq => (hv q.1 (List.mem_map_of_mem hq)).1
  have hzero : ∀ q ∈ e.stdProperties.a, q.1.id ∉ S → q.2.toReal = 0 := by
    intro q hq hqS
    obtain ⟨y, h1, h2, h3⟩ := R64.writesLinear64_coef h (hvar q hq)
    rw [hS _ hqS] at h2 h3
    have hα : α q.1.id = 0 := abs_eq_zero.1 (le_antisymm h3 (abs_nonneg _))
    rw [hα, mul_zero] at h2
    have hy : y = 0 := by
      have := abs_eq_zero.1 (le_antisymm h2 (abs_nonneg _))
      simpa using this
    rw [hy] at h1
    unfold Prop'.coefD at h1
    rw [getN_mem hn hq] at h1
    exact h1.toReal
  rw [R64.list_sum S t _ hn hvar hzero]
  obtain ⟨y, h1, h2⟩ := R64.writesLinear64_const h
  rw [h1.toReal]
  have key : ∀ i, |((getN e.stdProperties.a (.var i "" .continuous)).getD zero).toReal * t i - α i * t i| ≤ ((1 + 2 ^ (-53 : ℤ)) ^ k - 1) * (μ i * |t i|) := by
    intro i
    obtain ⟨z, h3, h4⟩ := R64.writesLinear64_coef h (x := .var i "" .continuous) rfl
    unfold Prop'.coefD at h3
    rw [h3.toReal, ← sub_mul, abs_mul, ← mul_assoc]
    exact mul_le_mul_of_nonneg_right h4.1 (abs_nonneg _)
  have e1 : ∀ a b c d : ℝ, (a + b) - (c + d) = (a - c) + (b - d) := by intros; ring
  rw [e1, ← Finset.sum_sub_distrib, mul_add, Finset.mul_sum]
  refine le_trans (abs_add_le _ _) (add_le_add ?_ h2.1)
  exact le_trans (Finset.abs_sum_le_sum_abs _ _) (Finset.sum_le_sum fun i _ => key i)

/-- The gradient of a linear objective: constants that are within the same bounds, at every point. -/
theorem C80_gradient {H : HashOrder} {e : Node F64} {α μ : ℕ → ℝ} {β ν : ℝ} {k : ℕ} (h : WritesLinear64 e α β μ ν k) {c : NodeComp F64}
    {n m : ℕ} (hc : e.stdComponents H n = .ok (c, m)) {x : Node F64} (hx : x.isVar = true) (σ : Env F64) :
    ∃ y, (((getN c.gphi x).map fun d : Node F64 => d.evaluate σ).getD zero).Is y ∧ |y - α x.id| ≤ ((1 + 2 ^ (-53 : ℤ)) ^ k - 1) * μ x.id := by
  obtain ⟨y, h1, h2⟩ := (C80_coefficients h).2 x hx
  refine ⟨y, ?_, h2⟩
  obtain ⟨-, -, -, es, hp, hf⟩ := stdComponents_affine hc (C80_coefficients h).1
  rw [getN_perm hp.symm (stdProperties_keys e).1 x] at h1
  suffices hs : (getN c.gphi x).map (fun d : Node F64 => d.evaluate σ) = getN es x by rw [hs]; exact h1
  clear hc hp h1
  generalize c.gphi = g at hf
  induction hf with
  | nil => rfl
  | @cons kv p es g hk _ ih =>
    obtain ⟨hk1, i, hk2⟩ := hk
    obtain ⟨z, d⟩ := p
    obtain ⟨z', v⟩ := kv
    simp only at hk1 hk2
    subst hk1 hk2
    simp only [getN]
    split
    · rfl
    · exact ih

/-- A constraint between two linear formulas. It never becomes a nonlinear row. If it becomes a bound, the formula `lhs - rhs` is `x` up to rounding errors
and the bound is `β' - β` up to rounding errors. Otherwise it becomes one row: its coefficients are those of `lhs - rhs`, and its right-hand
side `β' - β`, up to rounding errors, and an inequality has a slack variable with coefficient -1 and the bound 0. -/
theorem C80_constraint {H : HashOrder} {c : Constraint F64} {α μ α' μ' : ℕ → ℝ} {β ν β' ν' : ℝ} {k k' : ℕ}
    (hl : WritesLinear64 c.lhs α β μ ν k) (hr : WritesLinear64 c.rhs α' β' μ' ν' k')
    (hR : AllInRange (μ + μ') (ν + ν') (k + k' + 2)) {arow jrow n n' : ℕ} {comp : ConstrComp F64} {p : ℕ × ℕ}
    (h : c.stdComponents H arow jrow n = .ok ((comp, p), n')) :
    (comp.f = [] ∧ comp.j = [] ∧ comp.h = []) ∧
    ((∃ x d y, comp.a = [] ∧ comp.b = [] ∧
        (c.kind = .lessEqual ∧ comp.u = [(x, d, c)] ∧ comp.l = [] ∨ c.kind = .greaterEqual ∧ comp.l = [(x, d, c)] ∧ comp.u = []) ∧
        d.Is y ∧ |y - (β' - β)| ≤ ((1 + 2 ^ (-53 : ℤ)) ^ (k + k' + 2) - 1) * (ν + ν') ∧
        |1 - (α - α') x.id| ≤ ((1 + 2 ^ (-53 : ℤ)) ^ (k + k' + 2) - 1) * (μ + μ') x.id ∧
        ∀ i, i ≠ x.id → |(α - α') i| ≤ ((1 + 2 ^ (-53 : ℤ)) ^ (k + k' + 2) - 1) * (μ + μ') i) ∨
     ∃ (es : List (Node F64 × F64)) (slack : List (ℕ × Node F64 × F64)) (d : F64) (y : ℝ),
        comp.a = es.map (fun e => (arow, e.1, e.2)) ++ slack ∧ comp.b = [d] ∧ d.Is y ∧
        (c.kind = .equal ∧ slack = [] ∧ comp.u = [] ∧ comp.l = [] ∨
          ∃ s, slack = [(arow, s, negOne)] ∧ (c.kind = .lessEqual ∧ comp.u = [(s, zero, c)] ∧ comp.l = [] ∨
            c.kind = .greaterEqual ∧ comp.l = [(s, zero, c)] ∧ comp.u = [])) ∧
        |y - (β' - β)| ≤ ((1 + 2 ^ (-53 : ℤ)) ^ (k + k' + 2) - 1) * (ν + ν') ∧
        ∀ x : Node F64, x.isVar = true →
          ∃ z, ((getN es x).getD zero).Is z ∧ |z - (α - α') x.id| ≤ ((1 + 2 ^ (-53 : ℤ)) ^ (k + k' + 2) - 1) * (μ + μ') x.id) := by
  unfold Constraint.stdComponents at h
  rw [M.bind_ok] at h
  obtain ⟨exp, n1, hexp, h⟩ := h
  rw [M.bind_ok] at h
  obtain ⟨nc, n2, hnc, h⟩ := h
  have hw : WritesLinear64 exp (α - α') (β - β') (μ + μ') (ν + ν') (k + k' + 2) := .sub hl hr hR hexp
  obtain ⟨haff, hco⟩ := C80_coefficients hw
  obtain ⟨y, hy, hyb⟩ := C80_constant hw
  have hprop : nc.prop = exp.stdProperties := (stdComponents_prop hnc).2
  have hneg : (FloatOps.neg nc.prop.b).Is (-y) := by rw [hprop]; exact F64.is_neg hy
  have hyb' : |-y - (β' - β)| ≤ ((1 + 2 ^ (-53 : ℤ)) ^ (k + k' + 2) - 1) * (ν + ν') := by
    rw [show -y - (β' - β) = -(y - (β - β')) by ring, abs_neg]; exact hyb
  have hnd := (stdProperties_keys exp).1
  have hperm : ∀ {es m m'}, H.iter nc.prop.a m = .ok (es, m') → ∀ x : Node F64, x.isVar = true →
      ∃ z, ((getN es x).getD zero).Is z ∧ |z - (α - α') x.id| ≤ ((1 + 2 ^ (-53 : ℤ)) ^ (k + k' + 2) - 1) * (μ + μ') x.id := by
    intro es m m' hit x hx
    have hp := HashOrder.iter_perm hit
    rw [hprop] at hp
    rw [getN_perm hp (hnd.perm (hp.symm.map _)) x]
    exact hco x hx
  cases hb : c.boundVar nc.prop with
  | some x =>
    have hb' : ∃ v, nc.prop.a = [(x, v)] ∧ (v ==. one) = true ∧ c.kind ≠ .equal := by
      unfold Constraint.boundVar at hb
      split at hb
      · rename_i x' v hy
        split at hb
        · rename_i hc
          simp only [Bool.and_eq_true, bne_iff_ne, ne_eq] at hc
          injection hb with hb
          subst hb
          exact ⟨v, hy, hc.1.2, hc.2⟩
        · cases hb
      · cases hb
    obtain ⟨v, hv, hv1, hkind⟩ := hb'
    have hv1 := F64.is_eqo.1 hv1
    rw [hprop] at hv
    have hxv : x.isVar = true := ((stdProperties_keys exp).2.1 x (by rw [hv]; simp)).1
    have h1 : |1 - (α - α') x.id| ≤ ((1 + 2 ^ (-53 : ℤ)) ^ (k + k' + 2) - 1) * (μ + μ') x.id := by
      obtain ⟨z, hz, hz'⟩ := hco x hxv
      rw [hv] at hz
      simp only [getN, ptrEq_refl, if_true, Option.getD_some] at hz
      rwa [hz.unique hv1] at hz'
    have h2 : ∀ i, i ≠ x.id → |(α - α') i| ≤ ((1 + 2 ^ (-53 : ℤ)) ^ (k + k' + 2) - 1) * (μ + μ') i := by
      intro i hi
      obtain ⟨z, hz, hz'⟩ := hco (.var i "" .continuous) rfl
      have hne : ¬ x.ptrEq (.var i "" .continuous) = true := fun h => hi ((R64.ptrEq_var_iff hxv (y := .var i "" .continuous) rfl).1 h).symm
      rw [hv] at hz
      simp only [getN, hne, Bool.false_eq_true, if_false, Option.getD_none] at hz
      rw [hz.unique F64.is_zero, zero_sub, abs_neg] at hz'
      exact hz'
    simp only [hb] at h
    cases hk : c.kind <;> simp only [hk, M.pure_ok] at h
    · exact absurd hk hkind
    all_goals
      obtain ⟨h, -⟩ := h
      injection h with h _
      subst h
      refine ⟨⟨rfl, rfl, rfl⟩, .inl ⟨x, FloatOps.neg nc.prop.b, -y, rfl, rfl, by simp [ConstrComp.empty], hneg, hyb', h1, h2⟩⟩
  | none =>
    simp only [hb] at h
    rw [if_pos (by rw [hprop]; exact haff)] at h
    cases hk : c.kind <;> simp only [hk, M.bind_ok, M.pure_ok] at h
    · obtain ⟨es, n3, hit, h, -⟩ := h
      injection h with h _
      subst h
      exact ⟨⟨rfl, rfl, rfl⟩, .inr ⟨es, [], _, -y, by simp, rfl, hneg, .inl ⟨rfl, rfl, rfl, rfl⟩, hyb', hperm hit⟩⟩
    all_goals
      obtain ⟨s, n3, hs, es, n4, hit, h, -⟩ := h
      injection h with h _
      subst h
      refine ⟨⟨rfl, rfl, rfl⟩, .inr ⟨es, _, _, -y, rfl, rfl, hneg, .inr ⟨s, rfl, ?_⟩, hyb', hperm hit⟩⟩
      simp [ConstrComp.empty]

end

/-! ## An example: `0.1 * (x + 3) <= x / 3 + 0.1 * y` -/

section Examples
attribute [local instance] exLibm

/-- The literal `0.1`: the closest double. -/
noncomputable def tenth : ℝ := ((3602879701896397 / 36028797018963968 : ℚ) : ℝ)

theorem tenth_lit : (dbl (1 / 10)).Is tenth := F64.is_lit (q := 3602879701896397 / 36028797018963968) (by decide +kernel) rfl

theorem tenth_pos : 0 < tenth := by unfold tenth; norm_num
theorem tenth_le : tenth ≤ 1 := by unfold tenth; norm_num
theorem abs_tenth : |tenth| ≤ 1 := by rw [abs_of_pos tenth_pos]; exact tenth_le

/-- `x + 3`, `0.1 * (x + 3)`, `x / 3`, `0.1 * y`, `x / 3 + 0.1 * y` -/
def exTenth1 := (gotD (addS (.var 0 "x" .continuous) (dbl 3) 2)).1
def exTenth2 := (gotD (sMul (dbl (1 / 10)) exTenth1 5)).1
def exTenth3 := (gotD (divS (.var 0 "x" .continuous) (dbl 3) 9)).1
def exTenth4 := (gotD (sMul (dbl (1 / 10)) (.var 1 "y" .continuous) 11)).1
def exTenth5 := (gotD (addN exTenth3 exTenth4 13)).1

theorem small_single (i j : ℕ) : (Pi.single i 1 : ℕ → ℝ) j ≤ 1 := by
  by_cases h : j = i
  · subst h; simp
  · simp [Pi.single_eq_of_ne h]

theorem small_scale {m : ℝ} (h : m ≤ 20) (hm : 0 ≤ m) {k : ℕ} (hk : k ≤ 10) : scaleSize tenth k m ≤ 30 := by
  unfold scaleSize
  split_ifs
  · norm_num
  · have h1 := mul_le_mul abs_tenth h hm (by norm_num)
    have h2 : (k : ℝ) * tiny tenth ≤ 10 * 1 :=
      mul_le_mul (by exact_mod_cast hk) (le_trans (tiny_le _) tauD_le_one) (tiny_nonneg _) (by norm_num)
    linarith

theorem small_div {m : ℝ} (h : m ≤ 20) : divSize 3 m ≤ 30 := by
  unfold divSize
  split_ifs
  · norm_num
  · have := tauD_le_one
    norm_num
    linarith

/-- Non-vacuity of C80: the left-hand side is written with the coefficient `0.1` of `x` and the constant `0.3` (which is no double). -/
theorem exTenth_left : WritesLinear64 exTenth2 (tenth • Pi.single 0 1) (tenth * (0 + 3)) (fun i => scaleSize tenth (1 + 2) ((Pi.single 0 1 : ℕ → ℝ) i))
    (scaleSize tenth (1 + 2) (0 + |3|)) (1 + 2 + 1) := by
  have hx : WritesLinear64 (.var 0 "x" .continuous) (Pi.single 0 1) 0 (Pi.single 0 1) 0 1 := .var (n := 0) (n' := 1) rfl
  have h1 : WritesLinear64 exTenth1 (Pi.single 0 1) (0 + 3) (Pi.single 0 1) (0 + |3|) (1 + 2) :=
    .addScalar (c := dbl 3) hx (F64.is_lit (q := 3) (by decide +kernel) (by norm_num))
      ⟨fun i => inRange_small (by have := small_single 0 i; linarith) (by norm_num), inRange_small (by norm_num) (by norm_num)⟩
      (gotD_ok (n := 2) (by decide +kernel))
  refine .scalarMul (c := dbl (1 / 10)) h1 tenth_lit
    ⟨fun i => inRange_small ?_ (by norm_num), inRange_small ?_ (by norm_num)⟩ (gotD_ok (n := 5) (by decide +kernel))
  · have := small_scale (k := 1 + 2) (m := (Pi.single 0 1 : ℕ → ℝ) i) (by have := small_single 0 i; linarith) (by
      by_cases h : i = 0
      · subst h; simp
      · simp [Pi.single_eq_of_ne h]) (by norm_num)
    linarith
  · have := small_scale (k := 1 + 2) (m := 0 + |3|) (by norm_num) (by norm_num) (by norm_num)
    linarith

/-- The right-hand side. -/
theorem exTenth_right : ∃ μ ν, WritesLinear64 exTenth5 ((3 : ℝ)⁻¹ • Pi.single 0 1 + tenth • Pi.single 1 1) (0 / 3 + tenth * 0) μ ν (1 + 2 + (1 + 1) + 1) ∧
    (∀ i, μ i ≤ 60) ∧ ν ≤ 60 := by
  have hx : WritesLinear64 (.var 0 "x" .continuous) (Pi.single 0 1) 0 (Pi.single 0 1) 0 1 := .var (n := 0) (n' := 1) rfl
  have hy : WritesLinear64 (.var 1 "y" .continuous) (Pi.single 1 1) 0 (Pi.single 1 1) 0 1 := .var (n := 1) (n' := 2) rfl
  have b1 : ∀ i, divSize 3 ((Pi.single 0 1 : ℕ → ℝ) i) ≤ 30 := fun i => small_div (by have := small_single 0 i; linarith)
  have b2 : divSize 3 0 ≤ 30 := small_div (by norm_num)
  have b3 : ∀ i, scaleSize tenth 1 ((Pi.single 1 1 : ℕ → ℝ) i) ≤ 30 := fun i => small_scale (by have := small_single 1 i; linarith) (by
      by_cases h : i = 1
      · subst h; simp
      · simp [Pi.single_eq_of_ne h]) (by norm_num)
  have b4 : scaleSize tenth 1 0 ≤ 30 := small_scale (by norm_num) le_rfl (by norm_num)
  have h1 : WritesLinear64 exTenth3 _ _ _ _ _ :=
    .divScalar (c := dbl 3) (x := 3) hx (F64.is_lit (q := 3) (by decide +kernel) (by norm_num))
      ⟨fun i => inRange_small (by have := b1 i; linarith) (by norm_num), inRange_small (by linarith) (by norm_num)⟩
      (gotD_ok (n := 9) (by decide +kernel))
  have h2 : WritesLinear64 exTenth4 _ _ _ _ _ :=
    .scalarMul (c := dbl (1 / 10)) (x := tenth) hy tenth_lit
      ⟨fun i => inRange_small (by have := b3 i; linarith) (by norm_num), inRange_small (by linarith) (by norm_num)⟩
      (gotD_ok (n := 11) (by decide +kernel))
  refine ⟨_, _, .add (k := 1 + 2) (k' := 1 + 1) h1 h2 ⟨fun i => inRange_small ?_ (by norm_num), inRange_small ?_ (by norm_num)⟩ (gotD_ok (n := 13) (by decide +kernel)), fun i => ?_, ?_⟩
  · have := b1 i
    have := b3 i
    simp only [Pi.add_apply]
    linarith
  · linarith
  · have := b1 i
    have := b3 i
    simp only [Pi.add_apply]
    linarith
  · linarith

/-- The extracted constant of the left-hand side is not `0.1 * 3`. -/
example : (exTenth2.stdProperties.b.value.map fun q => decide (q = 3602879701896397 / 36028797018963968 * 3)) = some false := by decide +kernel

/-- The constraint meets the hypotheses of `C80_constraint`, and standardizing it succeeds. -/
example : (Constraint.stdComponents HashOrder.listOrder ⟨14, exTenth2, .lessEqual, exTenth5, ""⟩ 0 0 15).toBool = true := by decide +kernel

end Examples

end Verif
