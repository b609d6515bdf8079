import Verif.Proofs.RoundingStd
import Verif.Proofs.Comp
import Verif.Proofs.Solve
import Verif.Props.Rounding

/-!
# C71: how far rounding errors can take the coefficients of linear expressions and constraints
-/

namespace Verif

set_option linter.unusedSectionVars false

variable {u : ℝ} {A : FlArith u}

/-- **C71** Write down a linear formula with the operators, whatever they simplify, fold, collect or distribute on the way. In any arithmetic with
relative errors of at most `u` per operation the library recognizes the handle as linear, and the coefficient that it extracts for a variable is a
number whose distance from the coefficient of the formula is at most `((1 + u)^k - 1) * μ`; a variable that is not listed counts with coefficient 0. -/
theorem C71_coefficients (hu : 0 ≤ u) {e : Node (Fl A)} {α μ : ℕ → ℝ} {β ν : ℝ} {k : ℕ} (h : WritesLinear e α β μ ν k) :
    e.stdProperties.affine = true ∧ ∀ x : Node (Fl A), x.isVar = true →
      ∃ y, (getN e.stdProperties.a x).getD (Fl.num A 0) = Fl.num A y ∧ |y - α x.id| ≤ ((1 + u) ^ k - 1) * μ x.id := by
  refine ⟨(writesLinear_rep hu h).1.aff, fun x hx => ?_⟩
  obtain ⟨y, h1, h2⟩ := writesLinear_coef hu h hx
  exact ⟨y, h1, h2.1⟩

/-- The constant that the library extracts. -/
theorem C71_constant (hu : 0 ≤ u) {e : Node (Fl A)} {α μ : ℕ → ℝ} {β ν : ℝ} {k : ℕ} (h : WritesLinear e α β μ ν k) :
    ∃ y, e.stdProperties.b = Fl.num A y ∧ |y - β| ≤ ((1 + u) ^ k - 1) * ν := by
  obtain ⟨y, h1, h2⟩ := writesLinear_const hu h
  exact ⟨y, h1, h2.1⟩

/-- Without rounding errors the coefficients and the constant are exact. -/
theorem C71_exact {A : FlArith 0} {e : Node (Fl A)} {α μ : ℕ → ℝ} {β ν : ℝ} {k : ℕ} (h : WritesLinear e α β μ ν k) :
    e.stdProperties.b = Fl.num A β ∧ ∀ x : Node (Fl A), x.isVar = true → (getN e.stdProperties.a x).getD (Fl.num A 0) = Fl.num A (α x.id) := by
  have h0 : ∀ {y z m : ℝ}, |y - z| ≤ ((1 + 0) ^ k - 1) * m → y = z := by
    intro y z m hy
    have : |y - z| ≤ 0 := by simpa using hy
    exact sub_eq_zero.1 (abs_eq_zero.1 (le_antisymm this (abs_nonneg _)))
  refine ⟨?_, fun x hx => ?_⟩
  · obtain ⟨y, h1, h2⟩ := C71_constant le_rfl h
    rw [h1, h0 h2]
  · obtain ⟨y, h1, h2⟩ := (C71_coefficients le_rfl h).2 x hx
    rw [h1, h0 h2]

/-- The linear function with the extracted coefficients, as a solver sees it, at any point `t`: it differs from the formula by the same factor times the
formula with all terms replaced by their absolute values. `S` contains the variables of the formula. -/
theorem C71_function (hu : 0 ≤ u) {e : Node (Fl A)} {α μ : ℕ → ℝ} {β ν : ℝ} {k : ℕ} (h : WritesLinear e α β μ ν k) {S : Finset ℕ}
    (hS : ∀ i ∉ S, μ i = 0) (t : ℕ → ℝ) :
    |((e.stdProperties.a.map fun q => q.2.val * t q.1.id).sum + e.stdProperties.b.val) - (∑ i ∈ S, α i * t i + β)| ≤
      ((1 + u) ^ k - 1) * (∑ i ∈ S, μ i * |t i| + ν) := by
  obtain ⟨hn, hv, -⟩ := stdProperties_keys e
  have hvar : ∀ q ∈ e.stdProperties.a, q.1.isVar = true := fun q hq => (hv q.1 (List.mem_map_of_mem hq)).1
  have hzero : ∀ q ∈ e.stdProperties.a, q.1.id ∉ S → q.2 = Fl.num A 0 := by
    intro q hq hqS
    obtain ⟨y, h1, h2, h3⟩ := writesLinear_coef hu h (hvar q hq)
    rw [hS _ hqS] at h2 h3
    have hα : α q.1.id = 0 := abs_eq_zero.1 (le_antisymm h3 (abs_nonneg _))
    rw [hα, mul_zero] at h2
    have hy : y = 0 := by
      have := abs_eq_zero.1 (le_antisymm h2 (abs_nonneg _))
      simpa using this
    rw [hy] at h1
    unfold Prop'.coef at h1
    rwa [getN_mem hn hq] at h1
  rw [list_sum S t _ hn hvar hzero]
  obtain ⟨y, h1, h2⟩ := writesLinear_const hu h
  rw [h1, Fl.val_num]
  have key : ∀ i, |((getN e.stdProperties.a (.var i "" .continuous)).getD (Fl.num A 0)).val * t i - α i * t i| ≤ ((1 + u) ^ k - 1) * (μ i * |t i|) := by
    intro i
    obtain ⟨z, h3, h4⟩ := writesLinear_coef hu h (x := .var i "" .continuous) rfl
    unfold Prop'.coef at h3
    rw [h3, Fl.val_num, ← sub_mul, abs_mul, ← mul_assoc]
    exact mul_le_mul_of_nonneg_right h4.1 (abs_nonneg _)
  have e1 : ∀ a b c d : ℝ, (a + b) - (c + d) = (a - c) + (b - d) := by intros; ring
  rw [e1, ← Finset.sum_sub_distrib, mul_add, Finset.mul_sum]
  refine le_trans (abs_add_le _ _) (add_le_add ?_ h2.1)
  exact le_trans (Finset.abs_sum_le_sum_abs _ _) (Finset.sum_le_sum fun i _ => key i)

/-- The gradient of a linear objective: constants that are within the same bounds, at every point. -/
theorem C71_gradient (hu : 0 ≤ u) {H : HashOrder} {e : Node (Fl A)} {α μ : ℕ → ℝ} {β ν : ℝ} {k : ℕ} (h : WritesLinear e α β μ ν k) {c : NodeComp (Fl A)}
    {n m : ℕ} (hc : e.stdComponents H n = .ok (c, m)) {x : Node (Fl A)} (hx : x.isVar = true) (σ : Env (Fl A)) :
    ∃ y, ((getN c.gphi x).map fun d => d.evaluate σ).getD (Fl.num A 0) = Fl.num A y ∧ |y - α x.id| ≤ ((1 + u) ^ k - 1) * μ x.id := by
  obtain ⟨y, h1, h2⟩ := (C71_coefficients hu h).2 x hx
  refine ⟨y, ?_, h2⟩
  obtain ⟨-, -, -, es, hp, hf⟩ := stdComponents_affine hc (C71_coefficients hu h).1
  rw [getN_perm hp.symm (stdProperties_keys e).1 x] at h1
  rw [← h1]
  clear hc hp h1
  generalize c.gphi = g at hf
  induction hf with
  | nil => rfl
  | @cons kv p es g hk _ ih =>
    obtain ⟨hk1, i, hk2⟩ := hk
    obtain ⟨z, d⟩ := p
    obtain ⟨z', v⟩ := kv
    simp only at hk1 hk2
    subst hk1 hk2
    simp only [getN]
    split
    · rfl
    · exact ih

/-- A constraint between two linear formulas. It never becomes a nonlinear row. If it becomes a bound, the formula `lhs - rhs` is `x` up to rounding errors
and the bound is `β' - β` up to rounding errors. Otherwise it becomes one row: its coefficients are those of `lhs - rhs`, and its right-hand
side `β' - β`, up to rounding errors, and an inequality has a slack variable with coefficient -1 and the bound 0. -/
theorem C71_constraint (hu : 0 ≤ u) {H : HashOrder} {c : Constraint (Fl A)} {α μ α' μ' : ℕ → ℝ} {β ν β' ν' : ℝ} {k k' : ℕ}
    (hl : WritesLinear c.lhs α β μ ν k) (hr : WritesLinear c.rhs α' β' μ' ν' k') {arow jrow n n' : ℕ} {comp : ConstrComp (Fl A)} {p : ℕ × ℕ}
    (h : c.stdComponents H arow jrow n = .ok ((comp, p), n')) :
    (comp.f = [] ∧ comp.j = [] ∧ comp.h = []) ∧
    ((∃ x y, comp.a = [] ∧ comp.b = [] ∧
        (c.kind = .lessEqual ∧ comp.u = [(x, Fl.num A y, c)] ∧ comp.l = [] ∨ c.kind = .greaterEqual ∧ comp.l = [(x, Fl.num A y, c)] ∧ comp.u = []) ∧
        |y - (β' - β)| ≤ ((1 + u) ^ (k + k' + 2) - 1) * (ν + ν') ∧
        |1 - (α - α') x.id| ≤ ((1 + u) ^ (k + k' + 2) - 1) * (μ + μ') x.id ∧
        ∀ i, i ≠ x.id → |(α - α') i| ≤ ((1 + u) ^ (k + k' + 2) - 1) * (μ + μ') i) ∨
     ∃ (es : List (Node (Fl A) × Fl A)) (slack : List (ℕ × Node (Fl A) × Fl A)) (y : ℝ),
        comp.a = es.map (fun e => (arow, e.1, e.2)) ++ slack ∧ comp.b = [Fl.num A y] ∧
        (c.kind = .equal ∧ slack = [] ∧ comp.u = [] ∧ comp.l = [] ∨
          ∃ s, slack = [(arow, s, Fl.num A (-1))] ∧ (c.kind = .lessEqual ∧ comp.u = [(s, Fl.num A 0, c)] ∧ comp.l = [] ∨
            c.kind = .greaterEqual ∧ comp.l = [(s, Fl.num A 0, c)] ∧ comp.u = [])) ∧
        |y - (β' - β)| ≤ ((1 + u) ^ (k + k' + 2) - 1) * (ν + ν') ∧
        ∀ x : Node (Fl A), x.isVar = true →
          ∃ z, (getN es x).getD (Fl.num A 0) = Fl.num A z ∧ |z - (α - α') x.id| ≤ ((1 + u) ^ (k + k' + 2) - 1) * (μ + μ') x.id) := by
  unfold Constraint.stdComponents at h
  rw [M.bind_ok] at h
  obtain ⟨exp, n1, hexp, h⟩ := h
  rw [M.bind_ok] at h
  obtain ⟨nc, n2, hnc, h⟩ := h
  have hw : WritesLinear exp (α - α') (β - β') (μ + μ') (ν + ν') (k + k' + 2) := .sub hl hr hexp
  obtain ⟨haff, hco⟩ := C71_coefficients hu hw
  obtain ⟨y, hy, hyb⟩ := C71_constant hu hw
  have hprop : nc.prop = exp.stdProperties := (stdComponents_prop hnc).2
  have hneg : FloatOps.neg nc.prop.b = Fl.num A (-y) := by rw [hprop, hy]; rfl
  have hyb' : |-y - (β' - β)| ≤ ((1 + u) ^ (k + k' + 2) - 1) * (ν + ν') := by
    rw [show -y - (β' - β) = -(y - (β - β')) by ring, abs_neg]; exact hyb
  have hnd := (stdProperties_keys exp).1
  have hperm : ∀ {es m m'}, H.iter nc.prop.a m = .ok (es, m') → ∀ x : Node (Fl A), x.isVar = true →
      ∃ z, (getN es x).getD (Fl.num A 0) = Fl.num A z ∧ |z - (α - α') x.id| ≤ ((1 + u) ^ (k + k' + 2) - 1) * (μ + μ') x.id := by
    intro es m m' hit x hx
    have hp := HashOrder.iter_perm hit
    rw [hprop] at hp
    rw [getN_perm hp (hnd.perm (hp.symm.map _)) x]
    exact hco x hx
  cases hb : c.boundVar nc.prop with
  | some x =>
    have hb' : ∃ v, nc.prop.a = [(x, v)] ∧ (v ==. one) = true ∧ c.kind ≠ .equal := by
      unfold Constraint.boundVar at hb
      split at hb
      · rename_i x' v hy
        split at hb
        · rename_i hc
          simp only [Bool.and_eq_true, bne_iff_ne, ne_eq] at hc
          injection hb with hb
          subst hb
          exact ⟨v, hy, hc.1.2, hc.2⟩
        · cases hb
      · cases hb
    obtain ⟨v, hv, hv1, hkind⟩ := hb'
    rw [Fl.one_def] at hv1
    have hv1 := Fl.eq_val hv1
    subst hv1
    rw [hprop] at hv
    have hxv : x.isVar = true := ((stdProperties_keys exp).2.1 x (by rw [hv]; simp)).1
    have h1 : |1 - (α - α') x.id| ≤ ((1 + u) ^ (k + k' + 2) - 1) * (μ + μ') x.id := by
      obtain ⟨z, hz, hz'⟩ := hco x hxv
      rw [hv] at hz
      simp only [getN, ptrEq_refl, if_true, Option.getD_some, Fl.num_inj] at hz
      rwa [← hz] at hz'
    have h2 : ∀ i, i ≠ x.id → |(α - α') i| ≤ ((1 + u) ^ (k + k' + 2) - 1) * (μ + μ') i := by
      intro i hi
      obtain ⟨z, hz, hz'⟩ := hco (.var i "" .continuous) rfl
      have hne : ¬ x.ptrEq (.var i "" .continuous) = true := fun h => hi ((ptrEq_var_iff hxv (y := .var i "" .continuous) rfl).1 h).symm
      rw [hv] at hz
      simp only [getN, hne, Bool.false_eq_true, if_false, Option.getD_none, Fl.num_inj] at hz
      rw [← hz, zero_sub, abs_neg] at hz'
      exact hz'
    simp only [hb, hneg] at h
    cases hk : c.kind <;> simp only [hk, M.pure_ok] at h
    · exact absurd hk hkind
    all_goals
      obtain ⟨h, -⟩ := h
      injection h with h _
      subst h
      refine ⟨⟨rfl, rfl, rfl⟩, .inl ⟨x, -y, rfl, rfl, by simp [ConstrComp.empty], hyb', h1, h2⟩⟩
  | none =>
    simp only [hb] at h
    rw [if_pos (by rw [hprop]; exact haff)] at h
    cases hk : c.kind <;> simp only [hk, M.bind_ok, M.pure_ok, hneg] at h
    · obtain ⟨es, n3, hit, h, -⟩ := h
      injection h with h _
      subst h
      exact ⟨⟨rfl, rfl, rfl⟩, .inr ⟨es, [], -y, by simp, rfl, .inl ⟨rfl, rfl, rfl, rfl⟩, hyb', hperm hit⟩⟩
    all_goals
      obtain ⟨s, n3, hs, es, n4, hit, h, -⟩ := h
      injection h with h _
      subst h
      refine ⟨⟨rfl, rfl, rfl⟩, .inr ⟨es, _, -y, rfl, rfl, .inr ⟨s, rfl, ?_⟩, hyb', hperm hit⟩⟩
      simp [ConstrComp.empty]

/-! ## An example: `2 * (x + 3) <= 5 * y` in an arithmetic in which every result is too large by an eighth -/

/-- The handle that `5 * y` returns. -/
noncomputable def eighthR : Node (Fl eighth) := .mul 10 (.const 9 (Fl.num eighth 5)) eighthY

/-- The handle that the difference of the two sides returns. -/
noncomputable def eighthD : Node (Fl eighth) :=
  .add 15 [.mul 6 (.const 5 (Fl.num eighth 2)) eighthX, .mul 13 (.const 12 (Fl.num eighth (-1))) eighthR, .const 14 (Fl.num eighth (2187 / 256))]

/-- The left-hand side is written as `2 * x + 6`. -/
theorem eighthT_linear : WritesLinear eighthT ((2 : ℝ) • Pi.single 0 1) (2 * (0 + 3)) ((|2| : ℝ) • Pi.single 0 1) (|2| * (0 + |3|)) (1 + 2 + 1) := by
  have hx : WritesLinear eighthX (Pi.single 0 1) 0 (Pi.single 0 1) 0 1 := .var (n := 0) rfl
  have hs : WritesLinear eighthS (Pi.single 0 1) (0 + 3) (Pi.single 0 1) (0 + |3|) (1 + 2) := by
    refine .addScalar (n := 2) (n' := 5) 3 hx ?_
    have h3 : FloatOps.add (Fl.num eighth 0) (Fl.num eighth 3) = Fl.num eighth (27 / 8) := by
      show Fl.num eighth (9 / 8 * (0 + 3)) = _; norm_num
    simp [addS, eighth_eq_false, M.bind, gather, eighthX, h3, finishAdd, newAdd, M.fresh, M.pure, newConst, eighthS]
  refine .scalarMul (n := 5) (n' := 9) 2 hs ?_
  have h3 : FloatOps.mul (Fl.num eighth 2) (Fl.num eighth (27 / 8)) = Fl.num eighth (243 / 32) := by
    show Fl.num eighth (9 / 8 * (2 * (27 / 8))) = _; norm_num
  simp [sMul, sMul.sMulL, eighth_eq_false, M.bind, eighthX, h3, newAdd, newMul, M.fresh, M.pure, newConst, eighthS, eighthT]

/-- The right-hand side is written as `5 * y`. -/
theorem eighthR_linear : WritesLinear eighthR ((5 : ℝ) • Pi.single 1 1) (5 * 0) ((|5| : ℝ) • Pi.single 1 1) (|5| * 0) (1 + 1) := by
  have hy : WritesLinear eighthY (Pi.single 1 1) 0 (Pi.single 1 1) 0 1 := .var (n := 1) rfl
  refine .scalarMul (n := 9) (n' := 11) 5 hy ?_
  simp [sMul, eighth_eq_false, M.bind, eighthY, newMul, M.fresh, M.pure, newConst, eighthR]

/-- The extracted coefficient of `x` is `2 * 9/8` and the constant `(9/8)^3 * 6`: off, and within the bounds. -/
example : (getN eighthT.stdProperties.a eighthX).getD (Fl.num eighth 0) = Fl.num eighth (9 / 4) ∧
    |9 / 4 - ((2 : ℝ) • Pi.single 0 1 : ℕ → ℝ) 0| ≤ ((1 + 1 / 8) ^ 4 - 1) * ((|2| : ℝ) • Pi.single 0 1 : ℕ → ℝ) 0 ∧
    ∃ y, eighthT.stdProperties.b = Fl.num eighth y ∧ y ≠ 6 ∧ |y - 6| ≤ ((1 + 1 / 8 : ℝ) ^ 4 - 1) * 6 := by
  refine ⟨?_, ?_, 9 / 8 * (9 / 8 * (0 + 9 / 8 * (2 * 0)) + 243 / 32), rfl, by norm_num, ?_⟩
  · show Fl.num eighth (9 / 8 * (1 * 2)) = _
    norm_num
  · simp only [Pi.smul_apply, Pi.single_eq_same, smul_eq_mul]
    rw [abs_le]; constructor <;> norm_num
  · rw [abs_le]; constructor <;> norm_num

/-- The constraint `2 * (x + 3) <= 5 * y` meets the hypotheses of `C71_constraint`, and standardizing it succeeds. -/
example : ∃ (c : Constraint (Fl eighth)) (r : (ConstrComp (Fl eighth) × ℕ × ℕ) × ℕ), leqNN eighthT eighthR "" 11 = .ok (c, 12) ∧
    WritesLinear c.lhs ((2 : ℝ) • Pi.single 0 1) (2 * (0 + 3)) ((|2| : ℝ) • Pi.single 0 1) (|2| * (0 + |3|)) (1 + 2 + 1) ∧
    WritesLinear c.rhs ((5 : ℝ) • Pi.single 1 1) (5 * 0) ((|5| : ℝ) • Pi.single 1 1) (|5| * 0) (1 + 1) ∧
    c.stdComponents HashOrder.listOrder 0 0 12 = .ok r ∧ r.1.1.a.length = 3 ∧ r.1.1.b.length = 1 ∧ r.1.1.u.length = 1 := by
  have hexp : subN eighthT eighthR 12 = .ok (eighthD, 16) := by
    have h3 : FloatOps.add (Fl.num eighth 0) (Fl.num eighth (243 / 32)) = Fl.num eighth (2187 / 256) := by
      show Fl.num eighth (9 / 8 * (0 + 243 / 32)) = _; norm_num
    simp [subN, sMul, addN, Node.isConstVal, gather, gatherArgs, finishAdd, eighth_eq_false, eighth_eq_false (show (-1 : ℝ) ≠ 1 by norm_num), M.bind,
      eighthX, eighthY, h3, newAdd, newMul, M.fresh, M.pure, newConst, eighthT, eighthR, eighthD]
  refine ⟨⟨11, eighthT, .lessEqual, eighthR, ""⟩, ?_⟩
  have : ∃ r : (ConstrComp (Fl eighth) × ℕ × ℕ) × ℕ,
      Constraint.stdComponents HashOrder.listOrder ⟨11, eighthT, .lessEqual, eighthR, ""⟩ 0 0 12 = .ok r ∧
      r.1.1.a.length = 3 ∧ r.1.1.b.length = 1 ∧ r.1.1.u.length = 1 := by
    unfold Constraint.stdComponents M.bind
    simp only [hexp]
    exact ⟨_, rfl, rfl, rfl, rfl⟩
  obtain ⟨r, h1, h2⟩ := this
  exact ⟨r, rfl, eighthT_linear, eighthR_linear, h1, h2⟩

end Verif
