import Verif.Proofs.SumFormW
import Verif.Spec.Example
import Verif.Spec.Exact

/-!
# C85: sums are flat
-/

namespace Verif

set_option linter.unusedSectionVars false

section
variable {F : Type} [FloatOps F]

/-- **C85** Whatever a program builds with the operators, functions and derivatives: no term of a sum is a sum, and only the last term of a sum can be a constant. -/
theorem C85_flat {H : HashOrder} {regs : List (Node F)} {n : ℕ} (hr : ReachableApi H regs n) {e : Node F} (he : e ∈ regs) : FlatSums e := hr.flat e he

/-- The same for programs that also build constraints and models, and use their parts (components, derivatives, properties) further: all expressions that the
program holds, both sides of its constraints, and the objective and the constraints of its model. -/
theorem C85_model {H : HashOrder} {W : World F} {n : ℕ} (hr : ReachableApiW H W n) :
    (∀ e ∈ W.regs, FlatSums e) ∧ (∀ c ∈ W.cs, FlatSums c.lhs ∧ FlatSums c.rhs) ∧ (∀ c ∈ W.m.constraints, FlatSums c.lhs ∧ FlatSums c.rhs) ∧
      ∀ f, W.m.objective = .minimize f ∨ W.m.objective = .maximize f → FlatSums f :=
  ⟨hr.flat.regs, hr.flat.cs, hr.flat.constr, fun f hf => hf.elim (hr.flat.min f) (hr.flat.max f)⟩

/-- Hence a sum `a + b` of expressions that are not zero, of which one is not a constant, is a sum that has as its terms the terms of `a`, then the terms of `b`
(an expression that is not a sum being its own only term), without the constants, and then at most one constant. -/
theorem C85_terms {H : HashOrder} {regs : List (Node F)} {n m : ℕ} (hr : ReachableApi H regs n) {a b e : Node F} (ha : a ∈ regs) (hb : b ∈ regs)
    (h : addN a b n = .ok (e, m)) (ha0 : a.isConstVal zero = false) (hb0 : b.isConstVal zero = false) (hab : a.isConstant = false ∨ b.isConstant = false) :
    ∃ i cs, e = .add i ((a.terms ++ b.terms).filter (fun t => !t.isConstant) ++ cs) ∧ cs.length ≤ 1 ∧ ∀ c ∈ cs, c.isConstant = true := by
  have key : ∀ (acc : F × List (Node F)) (x : Node F), (gather acc x).2 = acc.2 ++ x.terms.filter fun t => !t.isConstant := by
    intro acc x
    cases x <;> simp [gather, Node.terms, Node.isConstant, gatherArgs_terms]
  have hne : (a.terms ++ b.terms).filter (fun t => !t.isConstant) ≠ [] := by
    have one : ∀ x ∈ regs, x.isConstant = false → x.terms.filter (fun t => !t.isConstant) ≠ [] := by
      intro x hx hc
      obtain ⟨hp, -, hg⟩ := hr.inv
      have hs := (hg x hx).shape
      cases x <;> simp [Node.terms, Node.isConstant] at hc ⊢
      obtain ⟨y, hy, hyc⟩ := hs.2 (by simp)
      exact ⟨y, hy, hyc⟩
    rw [List.filter_append]
    intro h0
    rw [List.append_eq_nil_iff] at h0
    rcases hab with hc | hc
    · exact one a ha hc h0.1
    · exact one b hb hc h0.2
  unfold addN at h
  rw [if_neg (by simp [ha0]), if_neg (by simp [hb0])] at h
  unfold finishAdd at h
  rw [key, key] at h
  simp only [List.nil_append, ← List.filter_append] at h
  rw [if_neg (by simpa using hne)] at h
  split at h
  · rw [M.bind_ok] at h
    obtain ⟨k, j, h1, h2⟩ := h
    rw [newConst_ok] at h1
    rw [newAdd_ok] at h2
    exact ⟨_, [k], h2.2.1, by simp, by rw [h1.1]; simp [Node.isConstant]⟩
  · rw [newAdd_ok] at h
    exact ⟨_, [], by rw [List.append_nil]; exact h.2.1, by simp, by simp⟩

end

/-! ## An example: `(x + 3) + 2 * (y + 5)` is stored as `x + 2 * y + 13` -/

/-- The program. -/
def exSops : List (Op Q) :=
  [.var "x" .continuous, .var "y" .continuous, .addScalar 0 (some 3), .addScalar 1 (some 5), .scalarMul (some 2) 3, .add 2 4]

example : ReachableApi HashOrder.listOrder (regsOf exSops) (countOf exSops) ∧
    (regsOf exSops)[5]? = some (.add 13 [.var 0 "x" .continuous, .mul 9 (.const 8 (some 2)) (.var 1 "y" .continuous), .const 12 (some 13)]) := by
  refine ⟨runs_reachableApi (by decide +kernel) (by decide), by decide +kernel⟩

/-- The hypotheses of `C85_terms` hold for the last addition. -/
example : let ops := exSops.take 5
    ReachableApi HashOrder.listOrder (regsOf ops) (countOf ops) ∧ (addN (regsOf ops)[2]! (regsOf ops)[4]! (countOf ops)).toBool = true ∧
    (regsOf ops).length = 5 ∧ (regsOf ops)[2]!.isConstVal zero = false ∧ (regsOf ops)[4]!.isConstVal zero = false ∧ (regsOf ops)[2]!.isConstant = false := by
  refine ⟨runs_reachableApi (by decide +kernel) (by decide), by decide +kernel, by decide +kernel, by decide +kernel, by decide +kernel, by decide +kernel⟩

/-- With the constructor `FunctionAdd::new` a sum of sums can be made: the restriction to the operators is needed. -/
example : ∃ e ∈ regsOf [.var "x" .continuous, .var "y" .continuous, .add 0 1, .rawAdd [2, 0]], ¬ FlatSums e := by
  have h : (regsOf [.var "x" .continuous, .var "y" .continuous, .add 0 1, .rawAdd [2, 0]])[3]? =
      some (.add 3 [.add 2 [.var 0 "x" .continuous, .var 1 "y" .continuous], .var 0 "x" .continuous]) := by decide +kernel
  refine ⟨_, List.mem_of_getElem? h, fun hf => ?_⟩
  exact (hf _ _ (.refl _)).1 (.add 2 [.var 0 "x" .continuous, .var 1 "y" .continuous]) (by simp) _ _ rfl

end Verif
