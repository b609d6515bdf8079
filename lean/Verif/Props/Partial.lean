import Verif.Props.Diff
import Verif.Spec.Operand

/-!
# Partial derivatives of single operations (C78)

`NodeBase::partial` of `/repo/src/model/node_base.rs`.
-/

set_option linter.unusedSectionVars false

namespace Verif

open Exact

theorem sum_set_deriv : ∀ (l : List ℝ) (k : ℕ) (t0 : ℝ), k < l.length → HasDerivAt (fun t => (l.set k t).sum) 1 t0
  | [], k, _, h => absurd h (Nat.not_lt_zero k)
  | a :: l, 0, t0, _ => by
    simp only [List.set_cons_zero, List.sum_cons]
    exact (hasDerivAt_id t0).add_const _
  | a :: l, k + 1, t0, h => by
    simp only [List.set_cons_succ, List.sum_cons]
    exact (sum_set_deriv l k t0 (by simpa using h)).const_add a

/-- **C78** With respect to an operand: if `e.partial(b)` returns for the operand `b` of `e`, the value of what it returns is the derivative of the outermost
operation of `e` with respect to that operand, at the current values of the operands. If the same node is an operand more than once, it is the derivative
with respect to the first of these positions. -/
theorem C78_operand {σ : Env (Option ℝ)} {e b p : Node (Option ℝ)} {k n n' : ℕ} (hd : Defined e σ) (hb : FirstOperand e b k)
    (h : partialN e b n = .ok (p, n')) :
    p.evaluate σ = some (deriv (fun t => withOperand σ k t e) (valueOr0 σ b)) := by
  obtain ⟨hb, hf⟩ := hb
  have hmem : b ∈ e.arguments := List.mem_of_getElem? hb
  rw [partialN_pdv hd hmem h]
  congr 1
  symm
  apply HasDerivAt.deriv
  have hval : ∀ e, val σ e = valueOr0 σ e := fun _ => rfl
  cases e
  case const => simp [Node.arguments] at hb
  case var => simp [Node.arguments] at hb
  case add i args =>
    simp only [Node.arguments] at hb
    obtain ⟨hk, -⟩ := List.getElem?_eq_some_iff.1 hb
    exact sum_set_deriv _ k _ (by simpa using hk)
  case cos i a =>
    simp only [Node.arguments, List.mem_singleton] at hmem
    subst hmem
    exact Real.hasDerivAt_cos _
  case sin i a =>
    simp only [Node.arguments, List.mem_singleton] at hmem
    subst hmem
    exact Real.hasDerivAt_sin _
  case mul i a c =>
    simp only [Node.arguments] at hb hf
    match k, hb, hf with
    | 0, hb, _ =>
      simp only [List.getElem?_cons_zero, Option.some.injEq] at hb
      subst hb
      simp only [withOperand, pdv, hval, ptrEq_refl, if_true]
      simpa using (hasDerivAt_id (valueOr0 σ a)).mul_const (valueOr0 σ c)
    | 1, hb, hf =>
      simp only [List.getElem?_cons_succ, List.getElem?_cons_zero, Option.some.injEq] at hb
      subst hb
      have := hf 0 a (by norm_num) rfl
      simp only [withOperand, pdv, hval, this, Bool.false_eq_true, if_false, one_ne_zero]
      simpa using (hasDerivAt_id (valueOr0 σ c)).const_mul (valueOr0 σ a)
    | k + 2, hb, _ => simp at hb
  case div i a c =>
    simp only [Node.arguments] at hb hf
    have hne := eval_div_ne hd
    match k, hb, hf with
    | 0, hb, _ =>
      simp only [List.getElem?_cons_zero, Option.some.injEq] at hb
      subst hb
      simp only [withOperand, pdv, hval, ptrEq_refl, if_true]
      simpa using (hasDerivAt_id (valueOr0 σ a)).div_const (valueOr0 σ c)
    | 1, hb, hf =>
      simp only [List.getElem?_cons_succ, List.getElem?_cons_zero, Option.some.injEq] at hb
      subst hb
      have := hf 0 a (by norm_num) rfl
      simp only [withOperand, pdv, hval, this, Bool.false_eq_true, if_false, one_ne_zero]
      have h1 := (hasDerivAt_inv (x := valueOr0 σ c) hne).const_mul (valueOr0 σ a)
      simp only [← div_eq_mul_inv] at h1
      have e1 : - valueOr0 σ a / (valueOr0 σ c * valueOr0 σ c) = valueOr0 σ a * -(valueOr0 σ c ^ 2)⁻¹ := by
        rw [← sq, neg_div, mul_neg, div_eq_mul_inv]
      rw [e1]
      exact h1
    | k + 2, hb, _ => simp at hb

section
variable {F : Type} [FloatOps F]

/-- **C78** With respect to anything else: if `b` is not an operand of `e` (and not the variable `e` itself), `e.partial(b)` is the constant 0, for all scalars and at
every assignment; it always returns. In particular the partial derivative of a sum of products with respect to a variable inside the products is 0: `partial`
looks at the outermost operation only. -/
theorem C78_other (e b : Node F) (n : ℕ) (hb : ∀ a ∈ e.arguments, a.ptrEq b = false) (he : e.isVar = true → e.ptrEq b = false) :
    ∃ p n', partialN e b n = .ok (p, n') ∧ p.isConstant = true ∧ ∀ σ, p.evaluate σ = zero := by
  have h0 : ∃ p n', newConst (zero : F) n = .ok (p, n') ∧ p.isConstant = true ∧ ∀ σ, p.evaluate σ = zero :=
    ⟨_, _, rfl, rfl, fun _ => by simp [Node.evaluate]⟩
  cases e with
  | const => exact h0
  | var i s k => simp only [partialN, he rfl, Bool.false_eq_true, if_false]; exact h0
  | add i args =>
    have : args.any (fun a => a.ptrEq b) = false := by
      rw [List.any_eq_false]
      intro a ha
      simp [hb a (by simpa [Node.arguments] using ha)]
    simp only [partialN, this, Bool.false_eq_true, if_false]
    exact h0
  | cos i a => simp only [partialN, hb a (by simp [Node.arguments]), Bool.false_eq_true, if_false]; exact h0
  | sin i a => simp only [partialN, hb a (by simp [Node.arguments]), Bool.false_eq_true, if_false]; exact h0
  | mul i a c =>
    simp only [partialN, hb a (by simp [Node.arguments]), hb c (by simp [Node.arguments]), Bool.false_eq_true, if_false]; exact h0
  | div i a c =>
    simp only [partialN, hb a (by simp [Node.arguments]), hb c (by simp [Node.arguments]), Bool.false_eq_true, if_false]; exact h0

/-- **C78** With respect to the handle itself: 1 for a variable, and 0 for constants. -/
theorem C78_self (e : Node F) (n : ℕ) :
    (e.isVar = true → ∃ p n', partialN e e n = .ok (p, n') ∧ ∀ σ, p.evaluate σ = one) ∧
    (e.isConstant = true → ∃ p n', partialN e e n = .ok (p, n') ∧ ∀ σ, p.evaluate σ = zero) := by
  refine ⟨fun h => ?_, fun h => ?_⟩ <;> cases e <;> simp [Node.isVar, Node.isConstant] at h
  · simp only [partialN, ptrEq_refl, if_true]
    exact ⟨_, _, rfl, fun _ => by simp [Node.evaluate]⟩
  · exact ⟨_, _, rfl, fun _ => by simp [Node.evaluate]⟩

/-- **C78** It returns: for expressions built with the operators, `e.partial(b)` does not panic for an operand that is not a constant. -/
theorem C78_returns {H : HashOrder} {regs : List (Node F)} {n : ℕ} (hr : ReachableApi H regs n) {e b : Node F} (he : e ∈ regs)
    (hb : b ∈ e.arguments) (hc : b.isConstant = false) (n' : ℕ) : ∃ p m, partialN e b n' = .ok (p, m) := by
  obtain ⟨hp, -, hg⟩ := hr.inv
  exact total_partialN ((hg e he).divOk (by simp)) hb hc n'

end

/-- Non-vacuity of C78: `x / y` at `x = 3`, `y = 2`. With respect to `y` the derivative is `-3/4`, and the program that builds it is reachable. -/
example :
    let ops : List (Op Q) := [.var "x" .continuous, .var "y" .continuous, .div 0 1, .partialD 2 1, .partialD 2 0]
    ReachableApi HashOrder.listOrder (regsOf ops) (countOf ops) ∧ FirstOperand ((regsOf ops)[2]!) ((regsOf ops)[1]!) 1 ∧
    ((regsOf ops)[3]!).evaluate (envOf [(0, 3), (1, 2)]) = some (-3 / 4) ∧ ((regsOf ops)[4]!).evaluate (envOf [(0, 3), (1, 2)]) = some (1 / 2) := by
  refine ⟨runs_reachableApi (by decide +kernel) (by decide +kernel), ⟨by decide +kernel, ?_⟩, by decide +kernel, by decide +kernel⟩
  intro j a hj ha
  obtain rfl : j = 0 := by omega
  have h0 : ((regsOf ([.var "x" .continuous, .var "y" .continuous, .div 0 1, .partialD 2 1, .partialD 2 0] : List (Op Q)))[2]!).arguments[0]? =
    some (.var 0 "x" .continuous) := by decide +kernel
  rw [h0] at ha
  cases ha
  decide +kernel

/-- Non-vacuity of C78 over the reals: `x / y`, with respect to `y`. -/
example : ∃ p n', partialN (F := Option ℝ) (.div 2 (.var 0 "x" .continuous) (.var 1 "y" .continuous)) (.var 1 "y" .continuous) 3 = .ok (p, n') ∧
    FirstOperand (F := Option ℝ) (.div 2 (.var 0 "x" .continuous) (.var 1 "y" .continuous)) (.var 1 "y" .continuous) 1 ∧
    Defined (.div 2 (.var 0 "x" .continuous) (.var 1 "y" .continuous)) (fun _ => some (some (3 : ℝ))) := by
  obtain ⟨p, n', h⟩ := C78_returns (H := HashOrder.listOrder) (F := Option ℝ) (n := 3) (n' := 3)
    (regs := [.var 0 "x" .continuous, .var 1 "y" .continuous, .div 2 (.var 0 "x" .continuous) (.var 1 "y" .continuous)])
    (e := .div 2 (.var 0 "x" .continuous) (.var 1 "y" .continuous)) (b := .var 1 "y" .continuous)
    ⟨[.var "x" .continuous, .var "y" .continuous, .div 0 1], by simp [Op.isRaw], rfl⟩ (by simp) (by simp [Node.arguments]) rfl
  refine ⟨p, n', h, ⟨rfl, ?_⟩, ?_⟩
  · intro j a hj ha
    obtain rfl : j = 0 := by omega
    cases ha
    rfl
  · exact ⟨1, by simp [Node.evaluate, div_eq_some]⟩

/-- A repeated operand: `x * x` with respect to `x` gives `x`, the derivative in the first factor only, and the sum `x + x` gives 1. (`derivative` adds up
the contributions of both positions.) -/
example :
    let ops : List (Op Q) := [.var "x" .continuous, .mul 0 0, .add 0 0, .partialD 1 0, .partialD 2 0]
    ((regsOf ops)[3]!).evaluate (envOf [(0, 5)]) = some 5 ∧ ((regsOf ops)[4]!).evaluate (envOf [(0, 5)]) = some 1 := by decide +kernel

end Verif
