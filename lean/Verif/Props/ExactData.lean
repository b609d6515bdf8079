import Verif.Proofs.ExactData
import Verif.Spec.ExampleD
import Verif.Spec.World

/-!
# Coefficients in double precision (C75)

Linear formulas whose terms are doubles reach the solver unchanged.
-/

set_option linter.unusedSectionVars false

namespace Verif

section
variable [Libm]

/-- **C75** A formula written as a list of terms and a constant is recognised as linear. Its extracted constant is exactly the written one, and the
extracted coefficient of each variable is exactly the sum of its written coefficients, provided that the sums of these coefficients are doubles. -/
theorem C75_coefficients {e : Node F64} {L : List (ℕ × ℚ)} {q : ℚ} (h : WritesTerms e L q) :
    e.stdProperties.affine = true ∧ e.stdProperties.b.HasValue q ∧
      ∀ x, x.isVar = true → SumsExact L x.id → ((getN e.stdProperties.a x).getD zero).HasValue (termCoef x.id L) := by
  have hr := writesTerms_rep h
  exact ⟨hr.lin.aff, hr.const_value, fun x hx hs => hr.coef_value hx hs⟩

/-- **C75** If every variable occurs in at most one term, all extracted coefficients are exactly the written ones: `t` for a term `t * x`, and 0 for
variables without term. -/
theorem C75_terms {e : Node F64} {L : List (ℕ × ℚ)} {q : ℚ} (h : WritesTerms e L q) (hn : (L.map Prod.fst).Nodup) :
    (∀ i t, (i, t) ∈ L → ∀ x : Node F64, x.isVar = true → x.id = i → ((getN e.stdProperties.a x).getD zero).HasValue t) ∧
    ∀ x : Node F64, x.isVar = true → x.id ∉ L.map Prod.fst → ((getN e.stdProperties.a x).getD zero).HasValue 0 := by
  have key : ∀ x : Node F64, x.isVar = true → ((getN e.stdProperties.a x).getD zero).HasValue (termCoef x.id L) := by
    intro x hx
    refine (C75_coefficients h).2.2 x hx (sumsExact_of_once h ?_)
    rcases coefsOf_nodup hn x.id with h | ⟨t, -, h⟩ <;> rw [h] <;> simp
  refine ⟨fun i t hm x hx hi => ?_, fun x hx hi => ?_⟩
  · have := key x hx
    have e1 : termCoef x.id L = t := by
      show (coefsOf x.id L).sum = t
      have hmem : t ∈ coefsOf x.id L := by
        simp only [coefsOf, List.mem_map, List.mem_filter, decide_eq_true_eq]
        exact ⟨(i, t), ⟨hm, hi.symm⟩, rfl⟩
      rcases coefsOf_nodup hn x.id with h | ⟨t', -, h⟩
      · rw [h] at hmem; simp at hmem
      · rw [h] at hmem ⊢
        rw [List.mem_singleton] at hmem
        rw [hmem, List.sum_singleton]
    rwa [e1] at this
  · have := key x hx
    have e1 : termCoef x.id L = 0 := by
      show (coefsOf x.id L).sum = 0
      rcases coefsOf_nodup hn x.id with h | ⟨t', h', -⟩
      · rw [h]; rfl
      · exact absurd (List.mem_map_of_mem h') hi
    rwa [e1] at this

/-- **C75** Integer data: if the written coefficients of a variable are integers (or multiples of the same power of two `2^g`) and the sum of their
absolute values is at most `2^53` (times `2^g`), then the extracted coefficient is exactly their sum. -/
theorem C75_integers {e : Node F64} {L : List (ℕ × ℚ)} {q : ℚ} (h : WritesTerms e L q) {g : ℤ} (h1 : -1074 ≤ g) (h2 : g ≤ 970) {x : Node F64}
    (hx : x.isVar = true) {ms : List ℤ} (hm : ((L.filter fun t => t.1 = x.id).map fun t => t.2) = ms.map fun m : ℤ => (m : ℚ) * 2 ^ g)
    (hs : (ms.map fun m => |m|).sum ≤ 2 ^ 53) :
    ((getN e.stdProperties.a x).getD zero).HasValue ((ms.sum : ℤ) * 2 ^ g) := by
  have hsum : ∀ l : List ℤ, (l.map fun m : ℤ => (m : ℚ) * 2 ^ g).sum = (l.sum : ℤ) * 2 ^ g := by
    intro l
    induction l with
    | nil => simp
    | cons a l ih => rw [List.map_cons, List.sum_cons, ih, List.sum_cons]; push_cast; ring
  have habs : ∀ l : List ℤ, |l.sum| ≤ (l.map fun m => |m|).sum := by
    intro l
    induction l with
    | nil => simp
    | cons a l ih =>
      rw [List.sum_cons, List.map_cons, List.sum_cons]
      exact le_trans (abs_add_le _ _) (by omega)
  have e1 : termCoef x.id L = (ms.sum : ℤ) * 2 ^ g := by
    unfold termCoef
    rw [hm, hsum]
  rw [← e1]
  refine (C75_coefficients h).2.2 x hx fun l hl => ?_
  have hp : ((l.filter fun t => t.1 = x.id).map fun t => t.2) <+: ms.map fun m : ℤ => (m : ℚ) * 2 ^ g := by rw [← hm]; exact (hl.filter _).map _
  obtain ⟨ms', hms', hl'⟩ : ∃ ms', ms' <+: ms ∧ ((l.filter fun t => t.1 = x.id).map fun t => t.2) = ms'.map fun m : ℤ => (m : ℚ) * 2 ^ g := by
    rw [List.prefix_iff_eq_take] at hp
    rw [← List.map_take] at hp
    exact ⟨_, List.take_prefix _ _, hp⟩
  unfold termCoef
  rw [hl', hsum]
  refine isDouble_fixed h1 h2 (le_trans (habs ms') (le_trans ?_ hs))
  obtain ⟨r, rfl⟩ := hms'
  rw [List.map_append, List.sum_append]
  have : 0 ≤ (r.map fun m => |m|).sum := List.sum_nonneg (by simp)
  omega

/-- **C75** The gradient of a linear objective consists of exactly the written coefficients, at every point. -/
theorem C75_gradient {H : HashOrder} {e : Node F64} {L : List (ℕ × ℚ)} {q : ℚ} (h : WritesTerms e L q) {c : NodeComp F64} {n m : ℕ}
    (hc : e.stdComponents H n = .ok (c, m)) {x : Node F64} (hx : x.isVar = true) (hs : SumsExact L x.id) (σ : Env F64) :
    (((getN c.gphi x).map fun d : Node F64 => d.evaluate σ).getD zero).HasValue (termCoef x.id L) := by
  obtain ⟨haff, -, h1⟩ := C75_coefficients h
  have h1 := h1 x hx hs
  obtain ⟨-, -, -, es, hp, hf⟩ := stdComponents_affine hc haff
  rw [getN_perm hp.symm (stdProperties_keys e).1 x] at h1
  have key : ((getN c.gphi x).map fun d : Node F64 => d.evaluate σ) = getN es x := by
    clear hc hp h1
    generalize c.gphi = g at hf
    induction hf with
    | nil => rfl
    | @cons kv p es g hk _ ih =>
      obtain ⟨hk1, i, hk2⟩ := hk
      obtain ⟨z, d⟩ := p
      obtain ⟨z', v⟩ := kv
      simp only at hk1 hk2
      subst hk1 hk2
      simp only [getN]
      split
      · rfl
      · exact ih
  rw [key]
  exact h1

/-- **C75** A constraint between two formulas that are written as terms, with all terms of the right-hand side moved to the left and the constants to
the right: it never becomes a nonlinear row. If it becomes a bound on a variable, then it says `x <= β' - β` or `x >= β' - β` and the bound is exactly
that number. Otherwise it becomes one row with exactly the written coefficients and the right-hand side `β' - β`; an inequality has a slack variable
with coefficient -1 and the bound 0. The difference of the two constants must be a double, and so must the sums of the coefficients of each variable:
with one constant and at most one term for each variable they always are. -/
theorem C75_constraint {H : HashOrder} {c : Constraint F64} {L L' : List (ℕ × ℚ)} {β β' : ℚ} (hl : WritesTerms c.lhs L β)
    (hr : WritesTerms c.rhs L' β') (hβ : IsDouble (β - β')) (hs : ∀ i, SumsExact (L ++ scaleTerms (-1) L') i) {arow jrow n n' : ℕ}
    {comp : ConstrComp F64} {p : ℕ × ℕ} (h : c.stdComponents H arow jrow n = .ok ((comp, p), n')) :
    (comp.f = [] ∧ comp.j = [] ∧ comp.h = []) ∧
    ((∃ x v, v.HasValue (β' - β) ∧ comp.a = [] ∧ comp.b = [] ∧
        (c.kind = .lessEqual ∧ comp.u = [(x, v, c)] ∧ comp.l = [] ∨ c.kind = .greaterEqual ∧ comp.l = [(x, v, c)] ∧ comp.u = []) ∧
        ∀ i, termCoef i L - termCoef i L' = if i = x.id then 1 else 0) ∨
     ∃ (es : List (Node F64 × F64)) (slack : List (ℕ × Node F64 × F64)) (v : F64), v.HasValue (β' - β) ∧
        comp.a = es.map (fun e => (arow, e.1, e.2)) ++ slack ∧ comp.b = [v] ∧
        (c.kind = .equal ∧ slack = [] ∧ comp.u = [] ∧ comp.l = [] ∨
          ∃ s, slack = [(arow, s, negOne)] ∧ (c.kind = .lessEqual ∧ comp.u = [(s, zero, c)] ∧ comp.l = [] ∨
            c.kind = .greaterEqual ∧ comp.l = [(s, zero, c)] ∧ comp.u = [])) ∧
        ∀ x : Node F64, x.isVar = true → ((getN es x).getD zero).HasValue (termCoef x.id L - termCoef x.id L')) := by
  unfold Constraint.stdComponents at h
  rw [M.bind_ok] at h
  obtain ⟨exp, n1, hexp, h⟩ := h
  rw [M.bind_ok] at h
  obtain ⟨nc, n2, hnc, h⟩ := h
  have hw : WritesTerms exp (L ++ scaleTerms (-1) L') (β - β') := .sub hl hr hβ hexp
  obtain ⟨haff, hb0, hco⟩ := C75_coefficients hw
  have hco : ∀ x : Node F64, x.isVar = true → ((getN exp.stdProperties.a x).getD zero).HasValue (termCoef x.id L - termCoef x.id L') := by
    intro x hx
    have := hco x hx (hs x.id)
    rwa [termCoef_append, termCoef_scale, neg_one_mul, ← sub_eq_add_neg] at this
  have hprop : nc.prop = exp.stdProperties := (stdComponents_prop hnc).2
  have hneg : (FloatOps.neg nc.prop.b).HasValue (β' - β) := by
    rw [hprop, ← neg_sub]
    exact F64.neg_value hb0
  have hnd := (stdProperties_keys exp).1
  have hperm : ∀ {es m m'}, H.iter nc.prop.a m = .ok (es, m') → ∀ x : Node F64, x.isVar = true →
      ((getN es x).getD zero).HasValue (termCoef x.id L - termCoef x.id L') := by
    intro es m m' hit x hx
    have hp := HashOrder.iter_perm hit
    rw [hprop] at hp
    rw [getN_perm hp (hnd.perm (hp.symm.map _)) x]
    exact hco x hx
  cases hb : c.boundVar nc.prop with
  | some x =>
    have hb' : ∃ v, nc.prop.a = [(x, v)] ∧ (v ==. one) = true ∧ c.kind ≠ .equal := by
      unfold Constraint.boundVar at hb
      split at hb
      · rename_i x' v hy
        split at hb
        · rename_i hc
          simp only [Bool.and_eq_true, bne_iff_ne, ne_eq] at hc
          injection hb with hb
          subst hb
          exact ⟨v, hy, hc.1.2, hc.2⟩
        · cases hb
      · cases hb
    obtain ⟨v, hv, hv1, hkind⟩ := hb'
    rw [hprop] at hv
    have hxv : x.isVar = true := ((stdProperties_keys exp).2.1 x (by rw [hv]; simp)).1
    have hcoef : ∀ i, termCoef i L - termCoef i L' = if i = x.id then 1 else 0 := by
      intro i
      have hz := hco (.var i "" .continuous) rfl
      rw [hv] at hz
      simp only [Node.id] at hz
      by_cases hi : i = x.id
      · rw [if_pos hi]
        have heq : x.ptrEq (.var i "" .continuous) = true := by
          cases x <;> simp [Node.isVar] at hxv
          simp only [Node.id] at hi
          simp [Node.ptrEq, Node.tag, Node.id, hi]
        simp only [getN, heq, if_true, Option.getD_some] at hz
        exact (F64.eqo hz).1 hv1
      · rw [if_neg hi]
        have hne : ¬ x.ptrEq (.var i "" .continuous) = true := by
          cases x <;> simp [Node.isVar] at hxv
          simp only [Node.id] at hi
          simpa [Node.ptrEq, Node.tag, Node.id] using fun h => hi h.symm
        simp only [getN, hne, Bool.false_eq_true, if_false, Option.getD_none] at hz
        exact F64.value_unique hz F64.zero_value
    simp only [hb] at h
    cases hk : c.kind <;> simp only [hk, M.pure_ok] at h
    · exact absurd hk hkind
    all_goals
      obtain ⟨h, -⟩ := h
      injection h with h _
      subst h
      refine ⟨⟨rfl, rfl, rfl⟩, .inl ⟨x, _, hneg, rfl, rfl, by simp [ConstrComp.empty], hcoef⟩⟩
  | none =>
    simp only [hb] at h
    rw [if_pos (by rw [hprop]; exact haff)] at h
    cases hk : c.kind <;> simp only [hk, M.bind_ok, M.pure_ok] at h
    · obtain ⟨es, n3, hit, h, -⟩ := h
      injection h with h _
      subst h
      exact ⟨⟨rfl, rfl, rfl⟩, .inr ⟨es, [], _, hneg, by simp, rfl, .inl ⟨rfl, rfl, rfl, rfl⟩, hperm hit⟩⟩
    all_goals
      obtain ⟨s, n3, hs, es, n4, hit, h, -⟩ := h
      injection h with h _
      subst h
      refine ⟨⟨rfl, rfl, rfl⟩, .inr ⟨es, _, _, hneg, rfl, rfl, .inr ⟨s, rfl, ?_⟩, hperm hit⟩⟩
      simp [ConstrComp.empty]

end

section Examples
attribute [local instance] exLibm

/-! ## An example: `0.1 * x + 0.2 * y` and `3 * x + 4 * x <= 0.3` -/

/-- The handle of `x`. -/
def exEx : Node F64 := .var 0 "x" .continuous
/-- The handle of `y`. -/
def exEy : Node F64 := .var 1 "y" .continuous
/-- The handle that `0.1 * x` returns. -/
def exEt : Node F64 := (gotD (sMul (dbl 0.1) exEx 2)).1
/-- The handle that `0.2 * y` returns. -/
def exEu : Node F64 := (gotD (sMul (dbl 0.2) exEy 4)).1
/-- The handle that `0.1 * x + 0.2 * y` returns. -/
def exEs : Node F64 := (gotD (addN exEt exEu 6)).1
/-- The handle that `3 * x` returns. -/
def exE3 : Node F64 := (gotD (sMul (dbl 3) exEx 2)).1
/-- The handle that `x * 4` returns. -/
def exE4 : Node F64 := (gotD (mulS (dbl 4) exEx 4)).1
/-- The handle that `3 * x + x * 4` returns. -/
def exE7 : Node F64 := (gotD (addN exE3 exE4 6)).1

/-- The values of the literals 0.1, 0.2 and 0.3. -/
def exV1 : ℚ := 3602879701896397 / 2 ^ 55
def exV2 : ℚ := 3602879701896397 / 2 ^ 54
def exV3 : ℚ := 5404319552844595 / 2 ^ 54

theorem exV1_value : (dbl 0.1).HasValue exV1 := F64.value_iff.1 (by decide +kernel)
theorem exV2_value : (dbl 0.2).HasValue exV2 := F64.value_iff.1 (by decide +kernel)
theorem exV3_value : (dbl 0.3).HasValue exV3 := F64.value_iff.1 (by decide +kernel)

/-- The written formula `0.1 * x + 0.2 * y`. -/
theorem exEs_writes : WritesTerms exEs (scaleTerms exV1 [(0, 1)] ++ scaleTerms exV2 [(1, 1)]) (exV1 * 0 + exV2 * 0) := by
  have hx : WritesTerms exEx [(0, 1)] 0 := .var (n := 0) rfl
  have hy : WritesTerms exEy [(1, 1)] 0 := .var (n := 1) rfl
  have h1 : WritesTerms exEt (scaleTerms exV1 [(0, 1)]) (exV1 * 0) :=
    .scalarMul hx exV1_value (by simpa using F64.double_of_value exV1_value) (by rw [mul_zero]; exact isDouble_zero) (gotD_ok (by decide +kernel))
  have h2 : WritesTerms exEu (scaleTerms exV2 [(1, 1)]) (exV2 * 0) :=
    .scalarMul hy exV2_value (by simpa using F64.double_of_value exV2_value) (by rw [mul_zero]; exact isDouble_zero) (gotD_ok (by decide +kernel))
  exact .add h1 h2 (by rw [mul_zero, mul_zero, add_zero]; exact isDouble_zero) (gotD_ok (n := 6) (by decide +kernel))

/-- Non-vacuity of `C75_terms`: the variables are different, and the extracted coefficients are the literals. -/
example : ((scaleTerms exV1 [(0, 1)] ++ scaleTerms exV2 [(1, 1)]).map Prod.fst).Nodup ∧
    exEs.stdProperties.a.map (fun p => (p.1.id, p.2.value)) = [(0, some exV1), (1, some exV2)] := by decide +kernel

/-- The written formula `3 * x + x * 4`. -/
theorem exE7_writes : WritesTerms exE7 (scaleTerms 3 [(0, 1)] ++ scaleTerms 4 [(0, 1)]) (3 * 0 + 4 * 0) := by
  have hx : WritesTerms exEx [(0, 1)] 0 := .var (n := 0) rfl
  have v3 : (dbl 3).HasValue 3 := F64.value_iff.1 (by decide +kernel)
  have v4 : (dbl 4).HasValue 4 := F64.value_iff.1 (by decide +kernel)
  have h1 : WritesTerms exE3 (scaleTerms 3 [(0, 1)]) (3 * 0) :=
    .scalarMul hx v3 (by simpa using F64.double_of_value v3) (by rw [mul_zero]; exact isDouble_zero) (gotD_ok (by decide +kernel))
  have h2 : WritesTerms exE4 (scaleTerms 4 [(0, 1)]) (4 * 0) :=
    .mulScalar hx v4 (by simpa using F64.double_of_value v4) (by rw [mul_zero]; exact isDouble_zero) (gotD_ok (by decide +kernel))
  exact .add h1 h2 (by rw [mul_zero, mul_zero, add_zero]; exact isDouble_zero) (gotD_ok (n := 6) (by decide +kernel))

/-- Non-vacuity of `C75_integers`: the coefficients of `x` in `3 * x + x * 4` are the integers 3 and 4, and 7 is extracted. -/
example : ((scaleTerms 3 [(0, 1)] ++ scaleTerms 4 [(0, 1)]).filter fun t => t.1 = exEx.id).map (fun t => t.2) =
      [3, 4].map (fun m : ℤ => (m : ℚ) * 2 ^ (0 : ℤ)) ∧
    exE7.stdProperties.a.map (fun p => (p.1.id, p.2.value)) = [(0, some 7)] := by decide +kernel

/-- Non-vacuity of `C75_constraint`: `3 * x + x * 4 <= 0.3` meets the hypotheses and becomes the row `7 x - s = 0.3` with `s <= 0`. -/
example : ∃ (c : Constraint F64) (r : (ConstrComp F64 × ℕ × ℕ) × ℕ),
    WritesTerms c.lhs (scaleTerms 3 [(0, 1)] ++ scaleTerms 4 [(0, 1)]) (3 * 0 + 4 * 0) ∧ WritesTerms c.rhs [] exV3 ∧
    IsDouble (3 * 0 + 4 * 0 - exV3) ∧ (∀ i, SumsExact ((scaleTerms 3 [(0, 1)] ++ scaleTerms 4 [(0, 1)]) ++ scaleTerms (-1) []) i) ∧
    c.stdComponents HashOrder.listOrder 0 0 9 = .ok r ∧ r.1.1.a.map (fun p => (p.1, p.2.2.value)) = [(0, some 7), (0, some (-1))] ∧
    r.1.1.b.map F64.value = [some exV3] ∧ r.1.1.u.map (fun p => p.2.1.value) = [some 0] := by
  refine ⟨⟨8, exE7, .lessEqual, .const 7 (dbl 0.3), ""⟩, ?_⟩
  have hok : (Constraint.stdComponents HashOrder.listOrder ⟨8, exE7, .lessEqual, .const 7 (dbl 0.3), ""⟩ 0 0 9).toBool = true := by decide +kernel
  have hdat : (match Constraint.stdComponents HashOrder.listOrder ⟨8, exE7, .lessEqual, .const 7 (dbl 0.3), ""⟩ 0 0 9 with
      | .ok r => decide (r.1.1.a.map (fun p => (p.1, p.2.2.value)) = [(0, some 7), (0, some (-1))] ∧
          r.1.1.b.map F64.value = [some exV3] ∧ r.1.1.u.map (fun p => p.2.1.value) = [some 0])
      | .error _ => false) = true := by decide +kernel
  revert hok hdat
  cases hr : Constraint.stdComponents HashOrder.listOrder ⟨8, exE7, .lessEqual, .const 7 (dbl 0.3), ""⟩ 0 0 9 with
  | error _ => intro h; simp [Except.toBool] at h
  | ok r =>
    intro _ hdat
    refine ⟨r, exE7_writes, .const exV3_value (n := 7) rfl, ?_, fun i l hl => ?_, rfl, of_decide_eq_true hdat⟩
    · have : (3 * 0 + 4 * 0 - exV3 : ℚ) = -exV3 := by ring
      rw [this]
      exact (F64.double_of_value exV3_value).neg
    · have hm : l ∈ List.inits [((0 : ℕ), (3 * 1 : ℚ)), (0, 4 * 1)] := (List.mem_inits _ _).2 hl
      have hcase : l = [] ∨ l = [(0, 3 * 1)] ∨ l = [(0, 3 * 1), (0, 4 * 1)] := by
        simpa [List.inits] using hm
      have d3 : IsDouble 3 := F64.double_of_value (a := dbl 3) (F64.value_iff.1 (by decide +kernel))
      have d7 : IsDouble 7 := F64.double_of_value (a := dbl 7) (F64.value_iff.1 (by decide +kernel))
      by_cases hi : (0 : ℕ) = i
      · subst hi
        rcases hcase with rfl | rfl | rfl
        · exact isDouble_zero
        · have : termCoef 0 [(0, (3 * 1 : ℚ))] = 3 := by decide +kernel
          rw [this]; exact d3
        · have : termCoef 0 [(0, (3 * 1 : ℚ)), (0, 4 * 1)] = 7 := by decide +kernel
          rw [this]; exact d7
      · rcases hcase with rfl | rfl | rfl <;> simpa [termCoef, hi] using isDouble_zero

end Examples

end Verif
