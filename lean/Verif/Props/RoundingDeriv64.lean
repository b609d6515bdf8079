import Verif.Proofs.RoundingDeriv64
import Verif.Props.Diff
import Verif.Props.RoundingNlp64

/-!
# C84: derivatives in double precision
-/

namespace Verif

set_option linter.unusedSectionVars false

section
variable [Libm] {H : HashOrder} {regs : List (Node F64)} {n n' : ℕ}

/-- **C84** The double that an expression evaluates to is within the rounding error of its stored operations from the exact value of what is stored. -/
theorem C84_value (hr : ReachableApi H regs n) {e : Node F64} (he : e ∈ regs) {σ : Env F64} {t : ℕ → ℝ} {κ : ℕ} (ht : e.Tame σ t κ) :
    ∃ z, (e.evaluate σ).Is z ∧ |z - e.realAt t| ≤ ((1 + 2 ^ (-53 : ℤ)) ^ e.opsAt κ - 1) * e.sizeAt t := by
  have h := R64.tame_rep e (hr.flat e he) ht
  obtain ⟨z, hz, hap, -⟩ := h.eval (ht.range.mono le_rfl (by omega))
  exact ⟨z, hz, hap.1⟩

/-- **C84** The double that the derivative built by the library evaluates to is finite, and within the rounding error of the operations of the chain rule
from the derivative, as it is known from calculus, of the exact function that the expression stores. -/
theorem C84_derivative (hr : ReachableApi H regs n) {e x d : Node F64} (he : e ∈ regs) (hs : NoSelfDiv e) (h : derivative H e x n = .ok (d, n'))
    {σ : Env F64} {t : ℕ → ℝ} {κ : ℕ} (ht : e.Tame σ t κ) (hsize : 2 * (e.gradSize t κ x.id).size ≤ 2 ^ (1022 : ℤ))
    (hops : (e.gradSize t κ x.id).ops < 2 ^ 52) :
    ∃ z g, (d.evaluate σ).Is z ∧ HasDerivAt (fun s => e.realAt (Function.update t x.id s)) g (t x.id) ∧
      |z - g| ≤ ((1 + 2 ^ (-53 : ℤ)) ^ (2 * ((e.gradSize t κ x.id).ops + 1)) - 1) * (e.gradSize t κ x.id).size := by
  obtain ⟨hp, -, hg⟩ := hr.inv
  have hx := derivative_isVar h
  rw [derivative_eq hx] at h
  obtain ⟨z, hz, hb⟩ := R64.derivative_rep hx ((hg e he).strengthen hs) (hr.flat e he) ht hsize (by omega) rfl h
  exact ⟨z, _, hz, R64.realAt_hasDerivAt x.id e ht, hb⟩

/-- The same bound in simpler form: at most `(ops + 1) * 2^-51 * size`, for at most `2^50` operations. -/
theorem C84_simple (hr : ReachableApi H regs n) {e x d : Node F64} (he : e ∈ regs) (hs : NoSelfDiv e) (h : derivative H e x n = .ok (d, n'))
    {σ : Env F64} {t : ℕ → ℝ} {κ : ℕ} (ht : e.Tame σ t κ) (hsize : 2 * (e.gradSize t κ x.id).size ≤ 2 ^ (1022 : ℤ))
    (hops : (e.gradSize t κ x.id).ops < 2 ^ 50) :
    ∃ z g, (d.evaluate σ).Is z ∧ HasDerivAt (fun s => e.realAt (Function.update t x.id s)) g (t x.id) ∧
      |z - g| ≤ ((e.gradSize t κ x.id).ops + 1) * 2 ^ (-51 : ℤ) * (e.gradSize t κ x.id).size := by
  obtain ⟨z, g, h1, h2, h3⟩ := C84_derivative hr he hs h ht hsize (by omega)
  refine ⟨z, g, h1, h2, h3.trans (mul_le_mul_of_nonneg_right ?_ ?_)⟩
  · have key : ∀ j : ℕ, j ≤ 2 ^ 52 → (1 + uD) ^ j - 1 ≤ j * (2 * uD) := by
      intro j
      induction j with
      | zero => simp
      | succ j ih =>
        intro hj
        have h5 := ih (by omega)
        have h6 := mul_le_mul_of_nonneg_right (uD_pow_le (show j ≤ 2 ^ 52 by omega)) uD_nonneg
        push_cast
        rw [pow_succ]
        linarith
    have e0 : (2 : ℝ) ^ (-51 : ℤ) = 2 * (2 * uD) := by unfold uD; norm_num
    rw [e0]
    refine (key (2 * ((e.gradSize t κ x.id).ops + 1)) (by omega)).trans (le_of_eq ?_)
    push_cast
    ring
  · by_contra hneg
    push Not at hneg
    obtain ⟨hp, -, hg⟩ := hr.inv
    have hG := R64.pathsG_eq t κ (derivative_isVar h) e ((hg e he).strengthen hs)
    simp only [R64.pathsG, R64.ruleG, Prod.mk.injEq] at hG
    rw [← hG.2.1] at hneg
    refine absurd (List.sum_nonneg ?_) (not_le.2 hneg)
    intro y hy
    obtain ⟨a, -, rfl⟩ := List.mem_map.1 hy
    linarith [R64.pathS_one t a]

end

section Examples
attribute [local instance] exLibm

/-! ## An example: the derivative of `3 * x * x + x / y` at `x = 0.1`, `y = 2` -/

/-- The program. -/
def exDops : List (Op F64) := [.var "x" .continuous, .var "y" .continuous, .scalarMul (dbl 3) 0, .mul 2 0, .div 0 1, .add 3 4]

def exDx : Node F64 := .var 0 "x" .continuous
def exDy : Node F64 := .var 1 "y" .continuous
def exDe : Node F64 := .add 6 [.mul 4 (.mul 3 (.const 2 (dbl 3)) exDx) exDx, .div 5 exDx exDy]
def exDregs : List (Node F64) :=
  [exDx, exDy, .mul 3 (.const 2 (dbl 3)) exDx, .mul 4 (.mul 3 (.const 2 (dbl 3)) exDx) exDx, .div 5 exDx exDy, exDe]

theorem exD_run : (match runOps HashOrder.listOrder [] exDops 0 with | .ok r => decide (r = (exDregs, 7)) | .error _ => false) = true := by decide +kernel

theorem exD_reach : ReachableApi HashOrder.listOrder exDregs 7 := by
  refine ⟨exDops, by decide, ?_⟩
  have := exD_run
  revert this
  cases runOps HashOrder.listOrder [] exDops 0 <;> simp

/-- The values of the variables. -/
def exDenv : Env F64 := envD [(0, 1/10), (1, 2)]
noncomputable def exDt : ℕ → ℝ := fun i => if i = 0 then ((3602879701896397 / 36028797018963968 : ℚ) : ℝ) else 2

theorem exD_is0 : ∃ a, exDenv 0 = some a ∧ a.Is (exDt 0) :=
  ⟨dbl (1/10), by decide +kernel, F64.is_lit (q := 3602879701896397 / 36028797018963968) (by decide +kernel) (by simp [exDt])⟩
theorem exD_is1 : ∃ a, exDenv 1 = some a ∧ a.Is (exDt 1) := ⟨dbl 2, by decide +kernel, F64.is_lit (q := 2) (by decide +kernel) (by simp [exDt])⟩
theorem exD_three : (dbl 3).toReal = 3 := (F64.is_lit (q := 3) (by decide +kernel) (by norm_num) : (dbl 3).Is 3).toReal

theorem exD_max : (1000 : ℝ) ≤ maxSize := by
  unfold maxSize
  calc (1000 : ℝ) ≤ 2 ^ (10 : ℤ) := by norm_num
    _ ≤ _ := zpow_le_zpow_right₀ (by norm_num) (by norm_num)

theorem exD_range {m : ℝ} {k : ℕ} (hm : m ≤ 1000) (hk : k ≤ 1000) : InRange m k := ⟨hm.trans exD_max, hk.trans (by norm_num)⟩

theorem exD_size0 : max 1 |exDt 0| = 1 := by
  simp only [exDt, if_true]
  rw [abs_of_pos (by norm_num)]
  norm_num
theorem exD_size1 : max 1 |exDt 1| = 2 := by simp [exDt]

/-- All the hypotheses hold for the example, and the derivative is built. -/
theorem exD_tame : exDe.Tame exDenv exDt 1 := by
  have c3 : (dbl 3).isFinite = true := by decide +kernel
  simp only [exDe, exDx, exDy, Node.Tame, Node.Tame.tameL, Node.sizeAt, Node.sizeAt.sumL, Node.opsAt, Node.opsAt.sumL, Node.realAt, exD_size0, exD_size1, exD_three]
  have h1 : exDt 1 = 2 := by simp [exDt]
  simp only [h1]
  refine ⟨?_, ⟨?_, ⟨?_, ⟨?_, c3⟩, ?_, exD_is0⟩, ?_, exD_is0⟩, ⟨?_, ⟨?_, exD_is0⟩, ⟨?_, ?_⟩, ?_, ?_, ?_, ?_⟩, trivial⟩
  case refine_10 => simpa [h1] using exD_is1
  case refine_13 => exact le_trans (show (1 : ℝ) + 2 * 2 ≤ 1000 by norm_num) exD_max
  all_goals first
    | exact exD_range (by norm_num) (by norm_num)
    | norm_num

example : ReachableApi HashOrder.listOrder exDregs 7 ∧ exDe ∈ exDregs ∧ NoSelfDiv exDe ∧ (derivative HashOrder.listOrder exDe exDx 7).toBool = true ∧
    exDe.Tame exDenv exDt 1 ∧ 2 * (exDe.gradSize exDt 1 exDx.id).size ≤ 2 ^ (1022 : ℤ) ∧ (exDe.gradSize exDt 1 exDx.id).ops < 2 ^ 52 := by
  refine ⟨exD_reach, by simp [exDregs], ?_, ?_, exD_tame, ?_, ?_⟩
  · intro i a b ho
    have hx : ¬ Occurs (.div i a b) exDx := by rintro (_ | ⟨h, _⟩); simp [exDx, Node.arguments] at h
    have hy : ¬ Occurs (.div i a b) exDy := by rintro (_ | ⟨h, _⟩); simp [exDy, Node.arguments] at h
    have hc : ¬ Occurs (.div i a b) (.const 2 (dbl 3)) := by rintro (_ | ⟨h, _⟩); simp [Node.arguments] at h
    have h3 : ¬ Occurs (.div i a b) (.mul 3 (.const 2 (dbl 3)) exDx) := by
      rintro (_ | ⟨h, ho⟩)
      simp only [Node.arguments, List.mem_cons, List.not_mem_nil, or_false] at h
      rcases h with rfl | rfl
      exacts [hc ho, hx ho]
    have h4 : ¬ Occurs (.div i a b) (.mul 4 (.mul 3 (.const 2 (dbl 3)) exDx) exDx) := by
      rintro (_ | ⟨h, ho⟩)
      simp only [Node.arguments, List.mem_cons, List.not_mem_nil, or_false] at h
      rcases h with rfl | rfl
      exacts [h3 ho, hx ho]
    unfold exDe at ho
    rcases ho with _ | ⟨h, ho⟩
    simp only [Node.arguments, List.mem_cons, List.not_mem_nil, or_false] at h
    rcases h with rfl | rfl
    · exact absurd ho h4
    · rcases ho with _ | ⟨h, ho⟩
      · rfl
      · simp only [Node.arguments, List.mem_cons, List.not_mem_nil, or_false] at h
        rcases h with rfl | rfl
        exacts [absurd ho hx, absurd ho hy]
  · rw [derivative_eq rfl]
    decide +kernel
  · refine le_trans ?_ exD_max
    simp only [exDe, exDx, exDy, Node.gradSize, Node.gradSize.sumL, Node.id, GradSize.times, GradSize.add, GradSize.none, Node.sizeAt, Node.realAt, exD_size0, exD_three]
    have h1 : exDt 1 = 2 := by simp [exDt]
    norm_num [h1]
  · simp [exDe, exDx, exDy, Node.gradSize, Node.gradSize.sumL, Node.id, GradSize.times, GradSize.add, GradSize.none, Node.opsAt]

end Examples

end Verif
