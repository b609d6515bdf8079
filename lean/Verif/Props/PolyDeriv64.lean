import Verif.Proofs.PolyDeriv64
import Verif.Props.RoundingDeriv64
import Verif.Props.ExactEval

/-!
# C91: derivatives of polynomials with integer coefficients are exact in double precision
-/

namespace Verif

set_option linter.unusedSectionVars false

open MvPolynomial

section
variable [Libm] {H : HashOrder}

/-- One more call of a program. -/
theorem ReachableApi.step {regs rs : List (Node F64)} {n n' : ℕ} (hr : ReachableApi H regs n) (op : Op F64) (hop : op.isRaw = false)
    (h : op.exec H regs n = .ok (rs, n')) : ReachableApi H (regs ++ rs) n' := by
  obtain ⟨ops, h1, h2⟩ := hr
  refine ⟨ops ++ [op], ?_, ?_⟩
  · intro o ho
    rcases List.mem_append.1 ho with ho | ho
    · exact h1 o ho
    · simp at ho; subst ho; exact hop
  · have key : ∀ (ops : List (Op F64)) (r0 : List (Node F64)) (n0 : ℕ), runOps H r0 ops n0 = .ok (regs, n) →
        runOps H r0 (ops ++ [op]) n0 = .ok (regs ++ rs, n') := by
      intro ops
      induction ops with
      | nil =>
        intro r0 n0 h0
        simp only [runOps, M.pure_ok] at h0
        obtain ⟨rfl, rfl⟩ := h0
        simp only [List.nil_append, runOps, M.bind_ok]
        exact ⟨rs, n', h, rfl⟩
      | cons o ops ih =>
        intro r0 n0 h0
        simp only [runOps, List.cons_append, M.bind_ok] at h0 ⊢
        obtain ⟨rs', m, h3, h4⟩ := h0
        exact ⟨rs', m, h3, ih _ _ h4⟩
    exact key ops [] 0 h2

/-- **C91** A polynomial with integer coefficients that is written down with operators and with calls that differentiate (in any order, to any depth)
evaluates at integers to exactly its value. The condition: the polynomial with absolute values is at most `2^53` there. -/
theorem C91_exact {e : Node F64} {P : MvPolynomial ℕ ℤ} {A : MvPolynomial ℕ ℕ} (h : WritesPoly H e P A) {σ : Env F64} {z : ℕ → ℤ}
    (hσ : ∀ i ∈ A.vars, ∃ a, σ i = some a ∧ a.HasValue ((z i : ℤ) : ℚ)) (hs : eval (fun i => max 1 (z i).natAbs) A ≤ 2 ^ 53) :
    (e.evaluate σ).HasValue ((eval z P : ℤ) : ℚ) :=
  (P64.writes_rep h).eval hσ hs

/-- Coefficients that are small at a point are small. -/
theorem smallSum_of {A : MvPolynomial ℕ ℕ} {T : ℕ → ℕ} (hT : ∀ i, 1 ≤ T i) (h : eval T A ≤ 2 ^ 53) : SmallSum A := by
  refine le_trans ?_ h
  rw [eval_eq, eval_eq]
  refine Finset.sum_le_sum fun d _ => Nat.mul_le_mul_left _ ?_
  refine Finset.prod_le_prod (fun _ _ => by simp) fun i _ => ?_
  exact Nat.pow_le_pow_left (hT i) _

/-- **C91** In particular the derivative of an expression that writes down a polynomial: one bound at the point is enough. -/
theorem C91_derivative {regs : List (Node F64)} {n n' : ℕ} (hr : ReachableApi H regs n) {e x d : Node F64} (he : e ∈ regs) {P : MvPolynomial ℕ ℤ}
    {A : MvPolynomial ℕ ℕ} (hw : WritesPoly H e P A) (h : derivative H e x n = .ok (d, n')) {σ : Env F64} {z : ℕ → ℤ}
    (hσ : ∀ i ∈ (pderiv x.id A).vars, ∃ a, σ i = some a ∧ a.HasValue ((z i : ℤ) : ℚ))
    (hs : eval (fun i => max 1 (z i).natAbs) (pderiv x.id A) ≤ 2 ^ 53) : (d.evaluate σ).HasValue ((eval z (pderiv x.id P) : ℤ) : ℚ) :=
  C91_exact (.derivative hr he hw (smallSum_of (fun _ => le_max_left _ _) hs) h) hσ hs

/-- **C91** And second derivatives, for which the first derivative needs small coefficients only. -/
theorem C91_second {regs regs' : List (Node F64)} {n n' m m' : ℕ} (hr : ReachableApi H regs n) {e x y d d' : Node F64} (he : e ∈ regs)
    {P : MvPolynomial ℕ ℤ} {A : MvPolynomial ℕ ℕ} (hw : WritesPoly H e P A) (h : derivative H e x n = .ok (d, n')) (hr' : ReachableApi H regs' m)
    (hd : d ∈ regs') (h' : derivative H d y m = .ok (d', m')) {σ : Env F64} {z : ℕ → ℤ} (hA : SmallSum (pderiv x.id A))
    (hσ : ∀ i ∈ (pderiv y.id (pderiv x.id A)).vars, ∃ a, σ i = some a ∧ a.HasValue ((z i : ℤ) : ℚ))
    (hs : eval (fun i => max 1 (z i).natAbs) (pderiv y.id (pderiv x.id A)) ≤ 2 ^ 53) :
    (d'.evaluate σ).HasValue ((eval z (pderiv y.id (pderiv x.id P)) : ℤ) : ℚ) :=
  C91_derivative hr' hd (.derivative hr he hw hA h) h' hσ hs

end

section Examples
attribute [local instance] exLibm

/-! ## An example: `3 * x * x * y - 2 * y`, its derivative by `x`, and that by `y`, at `x = 7`, `y = -5` -/

/-- The program. -/
def exKops : List (Op F64) :=
  [.var "x" .integer, .var "y" .continuous, .scalarMul (dbl 3) 0, .mul 2 0, .mul 3 1, .scalarMul (dbl 2) 1, .sub 4 5]

def exKst : List (Node F64) × ℕ := match runOps HashOrder.listOrder [] exKops 0 with | .ok r => r | .error _ => ([], 0)

theorem exK_run : runOps HashOrder.listOrder [] exKops 0 = .ok exKst := by
  have : (runOps HashOrder.listOrder [] exKops 0).toBool = true := by decide +kernel
  unfold exKst
  revert this
  cases runOps HashOrder.listOrder [] exKops 0 <;> simp [Except.toBool]

theorem exK_reach : ReachableApi HashOrder.listOrder exKst.1 exKst.2 := ⟨exKops, by decide, exK_run⟩

/-- The handles. -/
def exKx : Node F64 := .var 0 "x" .integer
def exKy : Node F64 := .var 1 "y" .continuous
def exK2 := (gotD (sMul (dbl 3) exKx 2)).1
def exK3 := (gotD (mulN exK2 exKx 4)).1
def exK4 := (gotD (mulN exK3 exKy 5)).1
def exK5 := (gotD (sMul (dbl 2) exKy 6)).1
def exK6 := (gotD (subN exK4 exK5 8)).1

theorem exK_mem : exK6 ∈ exKst.1 := by decide +kernel

theorem exK_writes : WritesPoly HashOrder.listOrder exK6 (C 3 * X 0 * X 0 * X 1 - C 2 * X 1) (C 3 * X 0 * X 0 * X 1 + C 2 * X 1) := by
  have hx : WritesPoly HashOrder.listOrder exKx (X 0) (X 0) := .var (n := 0) rfl
  have hy : WritesPoly HashOrder.listOrder exKy (X 1) (X 1) := .var (n := 1) rfl
  have h2 : WritesPoly HashOrder.listOrder exK2 (C 3 * X 0) (C 3 * X 0) :=
    .scalarMul (c := dbl 3) (k := 3) hx (F64.value_iff.1 (by decide +kernel)) (by simp [SmallSum]) (gotD_ok (n := 2) (by decide +kernel))
  have h3 : WritesPoly HashOrder.listOrder exK3 (C 3 * X 0 * X 0) (C 3 * X 0 * X 0) := .mul h2 hx (by simp [SmallSum]) (gotD_ok (n := 4) (by decide +kernel))
  have h4 : WritesPoly HashOrder.listOrder exK4 (C 3 * X 0 * X 0 * X 1) (C 3 * X 0 * X 0 * X 1) :=
    .mul h3 hy (by simp [SmallSum]) (gotD_ok (n := 5) (by decide +kernel))
  have h5 : WritesPoly HashOrder.listOrder exK5 (C 2 * X 1) (C 2 * X 1) :=
    .scalarMul (c := dbl 2) (k := 2) hy (F64.value_iff.1 (by decide +kernel)) (by simp [SmallSum]) (gotD_ok (n := 6) (by decide +kernel))
  exact .sub h4 h5 (by simp [SmallSum]) (gotD_ok (n := 8) (by decide +kernel))

/-- The derivative by `x`, and the derivative of that by `y`. -/
def exKd := (gotD (pathSum (.const (exKst.2 + 2) zero) ((dfs exK6).filter (endsAt exKx)) (exKst.2 + 3)))
def exKdd := (gotD (pathSum (.const (exKd.2 + 2) zero) ((dfs exKd.1).filter (endsAt exKy)) (exKd.2 + 3)))

theorem exK_d : derivative HashOrder.listOrder exK6 exKx exKst.2 = .ok exKd := by
  rw [derivative_eq rfl]
  exact gotD_ok (f := pathSum (.const (exKst.2 + 2) zero) ((dfs exK6).filter (endsAt exKx))) (by decide +kernel)

theorem exK_dd : derivative HashOrder.listOrder exKd.1 exKy exKd.2 = .ok exKdd := by
  rw [derivative_eq rfl]
  exact gotD_ok (f := pathSum (.const (exKd.2 + 2) zero) ((dfs exKd.1).filter (endsAt exKy))) (by decide +kernel)

/-- The state after the first derivative. -/
theorem exK_reach' : ReachableApi HashOrder.listOrder (exKst.1 ++ [exKd.1]) exKd.2 := by
  refine exK_reach.step (.derivative 6 0) rfl ?_
  have h6 : exKst.1[6]? = some exK6 := by decide +kernel
  have h0 : exKst.1[0]? = some exKx := by decide +kernel
  simp only [Op.exec, h6, h0]
  rw [M.bind_ok]
  exact ⟨_, _, exK_d, rfl⟩

/-- `x = 7`, `y = -5`. -/
def exKz : ℕ → ℤ := fun i => if i = 0 then 7 else -5
def exKenv : Env F64 := envD [(0, 7), (1, -5)]

theorem exK_env : ∀ i ∈ ({0, 1} : Finset ℕ), ∃ a, exKenv i = some a ∧ a.HasValue ((exKz i : ℤ) : ℚ) := by
  intro i hi
  simp only [Finset.mem_insert, Finset.mem_singleton] at hi
  rcases hi with rfl | rfl
  · exact ⟨dbl 7, by decide +kernel, F64.value_iff.1 (by decide +kernel)⟩
  · exact ⟨dbl (-5), by decide +kernel, F64.value_iff.1 (by decide +kernel)⟩

theorem exK_vars (A : MvPolynomial ℕ ℕ) (h : A.vars ⊆ {0, 1}) : ∀ i ∈ A.vars, ∃ a, exKenv i = some a ∧ a.HasValue ((exKz i : ℤ) : ℚ) :=
  fun i hi => exK_env i (h hi)

theorem exK_pA : pderiv 0 (C 3 * X 0 * X 0 * X 1 + C 2 * X 1 : MvPolynomial ℕ ℕ) = C 6 * (X 0 * X 1) := by
  rw [show (C 6 : MvPolynomial ℕ ℕ) = C 3 + C 3 by rw [← C_add]]
  simp only [map_add, map_sub, pderiv_mul, pderiv_C, pderiv_X, Pi.single_apply]
  simp
  ring

theorem exK_pP : pderiv 0 (C 3 * X 0 * X 0 * X 1 - C 2 * X 1 : MvPolynomial ℕ ℤ) = C 6 * (X 0 * X 1) := by
  rw [show (C 6 : MvPolynomial ℕ ℤ) = C 3 + C 3 by rw [← C_add]; rfl]
  simp only [map_add, map_sub, pderiv_mul, pderiv_C, pderiv_X, Pi.single_apply]
  simp
  ring

/-- Non-vacuity: the derivative by `x` is `6 * x * y`, which is `-210`. -/
example : (exKd.1.evaluate exKenv).HasValue (-210) := by
  have h := C91_derivative exK_reach exK_mem exK_writes exK_d (σ := exKenv) (z := exKz) (by
      show ∀ i ∈ (pderiv 0 _).vars, _
      rw [exK_pA]
      refine exK_vars _ ((vars_mul _ _).trans ?_)
      rw [vars_C, Finset.empty_union]
      refine (vars_mul _ _).trans ?_
      rw [vars_X, vars_X]
      decide) (by
      show eval _ (pderiv 0 _) ≤ _
      rw [exK_pA]
      simp [exKz])
  have h' : eval exKz (pderiv exKx.id (C 3 * X 0 * X 0 * X 1 - C 2 * X 1)) = -210 := by
    show eval exKz (pderiv 0 _) = _
    rw [exK_pP]
    simp [exKz]
  rw [h'] at h
  exact_mod_cast h

/-- And its derivative by `y` is `6 * x`, which is `42`. -/
example : (exKdd.1.evaluate exKenv).HasValue 42 := by
  have eA : pderiv 1 (C 6 * (X 0 * X 1) : MvPolynomial ℕ ℕ) = C 6 * X 0 := by
    simp only [pderiv_mul, pderiv_C, pderiv_X, Pi.single_apply]; simp
  have eP : pderiv 1 (C 6 * (X 0 * X 1) : MvPolynomial ℕ ℤ) = C 6 * X 0 := by
    simp only [pderiv_mul, pderiv_C, pderiv_X, Pi.single_apply]; simp
  have h := C91_second exK_reach exK_mem exK_writes exK_d exK_reach' (List.mem_append_right _ (List.mem_singleton_self _)) exK_dd (σ := exKenv) (z := exKz) (by
      show SmallSum (pderiv 0 _)
      rw [exK_pA]
      simp [SmallSum]) (by
      show ∀ i ∈ (pderiv 1 (pderiv 0 _)).vars, _
      rw [exK_pA, eA]
      refine exK_vars _ ((vars_mul _ _).trans ?_)
      rw [vars_C, Finset.empty_union, vars_X]
      decide) (by
      show eval _ (pderiv 1 (pderiv 0 _)) ≤ _
      rw [exK_pA, eA]
      simp [exKz])
  have h' : eval exKz (pderiv exKy.id (pderiv exKx.id (C 3 * X 0 * X 0 * X 1 - C 2 * X 1))) = 42 := by
    show eval exKz (pderiv 1 (pderiv 0 _)) = _
    rw [exK_pP, eP]
    simp [exKz]
  rw [h'] at h
  exact_mod_cast h

/-- The same, computed. -/
example : (exKd.1.evaluate exKenv).value = some (-210) ∧ (exKdd.1.evaluate exKenv).value = some 42 := by decide +kernel

end Examples

end Verif
