import Verif.Props.PolyModel64
import Verif.Props.Ipopt2
import Verif.Props.RoundingNlp64

/-!
# C103: what the Ipopt callbacks write, in double precision
-/

namespace Verif

set_option linter.unusedSectionVars false

open MvPolynomial

section
variable {F : Type} [FloatOps F] {H : HashOrder} {W : World F} {n m₀ : ℕ} {sp : StdProb F} {q : Minlp F} {calls : List (Call F)} {p : Option (List F)} {xs : List F} {newX : Int}

/-- The number of columns of a model, and what the callbacks deliver in terms of `evaluate`. -/
theorem callbacks_evaluate (hr : ReachableW H W n) (h : W.m.stdProblem H n = .ok (sp, m₀)) (hq : q ∈ sp.prob.views) (hx : xs.length = sp.var2index.length) :
    q.Sound ∧ xs.length = q.nx ∧ (q.nx < 2 ^ 31 → q.na + q.nf < 2 ^ 31 → q.Small) ∧
    ∃ val r, EvalsTo q val ∧ q.evaluate xs = .ok r ∧ r.buf = val xs := by
  obtain ⟨hs, ⟨val, hv, he⟩, hsm⟩ := C51_model hr h hq
  obtain ⟨hp, k, comp, e, ps, cols, xes, ves, hf, -⟩ := hr.facts h
  have hlen : xs.length = q.nx := by
    have hnx : q.nx = cols.length := by simp [Minlp.nx, (hf.view hq).a, stdA, Coo.cols]
    rw [hx, hnx, hf.v2i]; simp
  obtain ⟨r, h1, h2⟩ := he xs hlen
  exact ⟨hs, hlen, hsm, val, r, hv, h1, h2⟩

/-- **C103** For a model, after any sequence of callbacks that obeys the `new_x` protocol, the callbacks deliver at a point exactly the numbers that `evaluate` computes when it
is called for that point with a fresh problem: the objective, its gradient, the rows, the entries of the Jacobian, and the entries of the Hessians times the factors. -/
theorem C103_evaluate (hr : ReachableW H W n) (h : W.m.stdProblem H n = .ok (sp, m₀)) (hq : q ∈ sp.prob.views) (hnx : q.nx < 2 ^ 31) (hng : q.na + q.nf < 2 ^ 31)
    (hpr : Protocol q none calls p) (hx : xs.length = sp.var2index.length) (hnew : newX = 1 ∨ p = some xs) :
    ∃ q' r, runCalls q calls = .ok q' ∧ q.evaluate xs = .ok r ∧
      (∃ q'', evalFCb q' q.nx (some xs) newX true true = .ok (q'', ⟨true, [r.buf.phi], [], []⟩)) ∧
      (∃ q'', evalGradFCb q' q.nx (some xs) newX true true = .ok (q'', ⟨true, r.buf.gphi, [], []⟩)) ∧
      (∃ q'', evalGCb q' q.nx (some xs) newX (q.na + q.nf : Nat) true true = .ok (q'', ⟨true, constraintValues q r.buf xs, [], []⟩)) ∧
      (∀ irow jcol, ∃ q'', evalJacGCb q' q.nx (some xs) newX (q.na + q.nf : Nat) (q.a.nnz + q.buf.j.nnz : Nat) irow jcol true true =
        .ok (q'', ⟨true, (jacobianEntries q r.buf).map (fun e => e.2.2), [], []⟩)) ∧
      ∀ s lambda irow jcol, lambda.length = q.na + q.nf → ∃ q'', evalHCb q' q.nx (some xs) newX s (q.na + q.nf : Nat) (some lambda) 1 (q.buf.hphi.nnz + q.hcomb.nnz : Nat)
        irow jcol true true = .ok (q'', ⟨true, (hessianEntries r.buf s (lambda.drop q.na)).map (fun e => e.2.2), [], []⟩) := by
  obtain ⟨hs, hlen, hsm, val, r, hv, hr', hb⟩ := callbacks_evaluate hr h hq hx
  obtain ⟨q', c1, c2, c3, c4, c5⟩ := C51_answers hs (hsm hnx hng) hv hpr hlen hnew
  rw [← hb] at c2 c3 c4 c5
  refine ⟨q', r, c1, hr', c2, c3, c4, c5, fun s lambda irow jcol hl => ?_⟩
  obtain ⟨q1, q2, e1, e2⟩ := C52_hessian_partial hs (hsm hnx hng) hv hpr hlen hnew hl s irow jcol
  rw [c1] at e1; cases e1
  rw [← hb] at e2
  exact ⟨q2, e2⟩

/-- The value of nonlinear row `k` stands after those of the linear rows. -/
theorem constraintValues_nonlinear {buf : EvalBuf F} (k : ℕ) : (constraintValues q buf xs)[q.na + k]? = buf.f[k]? := by
  have hna : q.b.length = q.na := rfl
  rw [constraintValues, List.getElem?_append_right (by simp [hna])]
  simp [hna]

end

section
variable [Libm] {H : HashOrder} {W : World F64} {n m₀ : ℕ} {sp : StdProb F64} {z : ℕ → ℤ} {P : MvPolynomial ℕ ℤ} {A : MvPolynomial ℕ ℕ}
  {q : Minlp F64} {calls : List (Call F64)} {p : Option (List F64)} {xs : List F64} {newX : Int}

/-- **C103** A model whose objective writes down a polynomial with integer coefficients and that gives a nonlinear problem, after any sequence of callbacks that obeys the
`new_x` protocol: `eval_f` at integers delivers exactly the value of the polynomial that is minimised, `eval_grad_f` exactly its partial derivatives, in the order
of the columns, and `eval_h` delivers the entries of the Hessians with the factors it is given, where those of the objective are exactly the second partial derivatives. -/
theorem C103_objective (hr : ReachableApiW H W n) (h : W.m.stdProblem H n = .ok (sp, m₀))
    (hc : (∃ q, sp.prob = .nlp q) ∨ ∃ q, sp.prob = .minlp q) (hq : q ∈ sp.prob.views) (hnx : q.nx < 2 ^ 31) (hng : q.na + q.nf < 2 ^ 31)
    (hpr : Protocol q none calls p) (hx : sp.IntegersAt xs z) (hP : W.m.MinimisesPoly H P A) (hnew : newX = 1 ∨ p = some xs) :
    ∃ q', runCalls q calls = .ok q' ∧
      (∃ q'' y, evalFCb q' q.nx (some xs) newX true true = .ok (q'', ⟨true, [y], [], []⟩) ∧ (SmallAt z A → y.HasValue ((eval z P : ℤ) : ℚ))) ∧
      (∃ q'' g, evalGradFCb q' q.nx (some xs) newX true true = .ok (q'', ⟨true, g, [], []⟩) ∧ g.length = sp.var2index.length ∧
        ∀ x i, (x, i) ∈ sp.var2index → SmallAt z (pderiv x.id A) → ∃ y, g[i]? = some y ∧ y.HasValue ((eval z (pderiv x.id P) : ℤ) : ℚ)) ∧
      ∃ buf : EvalBuf F64,
        (∀ s lambda irow jcol, lambda.length = q.na + q.nf → ∃ q'', evalHCb q' q.nx (some xs) newX s (q.na + q.nf : Nat) (some lambda) 1 (q.buf.hphi.nnz + q.hcomb.nnz : Nat)
          irow jcol true true = .ok (q'', ⟨true, (hessianEntries buf s (lambda.drop q.na)).map (fun e => e.2.2), [], []⟩)) ∧
        (∀ t ∈ buf.hphi.triplets, t.2.1 ≤ t.1) ∧
        ∀ x y i j, (x, i) ∈ sp.var2index → (y, j) ∈ sp.var2index → j ≤ i → SmallSum (pderiv x.id A) → SmallSum (pderiv y.id A) →
          SmallAt z (pderiv y.id (pderiv x.id A)) → (buf.hphi.dense i j).HasValue ((eval z (pderiv y.id (pderiv x.id P)) : ℤ) : ℚ) := by
  obtain ⟨r, hr', h1, h2, h3, h4, h5⟩ := C92_objective hr h hc hq (ops := []) rfl hx hP
  obtain ⟨q', r', c1, c0, ⟨qa, c2⟩, ⟨qb, c3⟩, -, -, c6⟩ := C103_evaluate hr.reachable h hq hnx hng hpr hx.1 hnew
  rw [hr'] at c0; cases c0
  exact ⟨q', c1, ⟨qa, _, c2, h1⟩, ⟨qb, _, c3, h2, h3⟩, r.buf, c6, h5, h4⟩

/-- **C103** The same for the nonlinear rows: what `eval_g` delivers after the linear rows is exactly the value of the polynomial left side minus right side minus slack,
`eval_jac_g` delivers the entries of the Jacobian, where those of the nonlinear rows are exactly the partial derivatives, and `eval_h` the entries of the Hessians, where those
of the row are exactly the second partial derivatives. -/
theorem C103_rows (hr : ReachableApiW H W n) (h : W.m.stdProblem H n = .ok (sp, m₀))
    (hc : (∃ q, sp.prob = .nlp q) ∨ ∃ q, sp.prob = .minlp q) (hq : q ∈ sp.prob.views) (hnx : q.nx < 2 ^ 31) (hng : q.na + q.nf < 2 ^ 31)
    (hpr : Protocol q none calls p) (hx : sp.IntegersAt xs z) {k : ℕ} {c : Constraint F64} (hkc : (k, c) ∈ sp.jindex2constr) (hP : sp.RowPoly H n k c P A)
    (hnew : newX = 1 ∨ p = some xs) :
    ∃ q', runCalls q calls = .ok q' ∧
      (∃ q'' g y, evalGCb q' q.nx (some xs) newX (q.na + q.nf : Nat) true true = .ok (q'', ⟨true, g, [], []⟩) ∧ g[q.na + k]? = some y ∧
        (SmallAt z A → y.HasValue ((eval z P : ℤ) : ℚ))) ∧
      ∃ (buf : EvalBuf F64) (hk : Coo F64), buf.h[k]? = some hk ∧
        (∀ irow jcol, ∃ q'', evalJacGCb q' q.nx (some xs) newX (q.na + q.nf : Nat) (q.a.nnz + q.buf.j.nnz : Nat) irow jcol true true =
          .ok (q'', ⟨true, (jacobianEntries q buf).map (fun e => e.2.2), [], []⟩)) ∧
        (∀ x i, (x, i) ∈ sp.var2index → SmallAt z (pderiv x.id A) → (buf.j.dense k i).HasValue ((eval z (pderiv x.id P) : ℤ) : ℚ)) ∧
        (∀ s lambda irow jcol, lambda.length = q.na + q.nf → ∃ q'', evalHCb q' q.nx (some xs) newX s (q.na + q.nf : Nat) (some lambda) 1 (q.buf.hphi.nnz + q.hcomb.nnz : Nat)
          irow jcol true true = .ok (q'', ⟨true, (hessianEntries buf s (lambda.drop q.na)).map (fun e => e.2.2), [], []⟩)) ∧
        (∀ t ∈ hk.triplets, t.2.1 ≤ t.1) ∧
        ∀ x y i j, (x, i) ∈ sp.var2index → (y, j) ∈ sp.var2index → j ≤ i → SmallSum (pderiv x.id A) → SmallSum (pderiv y.id A) →
          SmallAt z (pderiv y.id (pderiv x.id A)) → (hk.dense i j).HasValue ((eval z (pderiv y.id (pderiv x.id P)) : ℤ) : ℚ) := by
  obtain ⟨r, y, hk, hr', g1, g2, g3, g4, g5, g6⟩ := C92_rows hr h hc hq (ops := []) rfl hx hkc hP
  obtain ⟨q', r', c1, c0, -, -, ⟨qc, c4⟩, c5, c6⟩ := C103_evaluate hr.reachable h hq hnx hng hpr hx.1 hnew
  rw [hr'] at c0; cases c0
  exact ⟨q', c1, ⟨qc, _, y, c4, by rw [constraintValues_nonlinear, g1], g3⟩, r.buf, hk, g2, c5, g4, c6, g6, g5⟩

/-- **C103** Any model in double precision that gives a nonlinear problem: what `eval_f` delivers at any point is within the rounding error of the formula from the exact
value of the formula there, and what `eval_g` delivers for a nonlinear row is within the rounding error from the exact value of left side minus right side minus slack. -/
theorem C103_values (hr : ReachableW H W n) (h : W.m.stdProblem H n = .ok (sp, m₀))
    (hc : (∃ q, sp.prob = .nlp q) ∨ ∃ q, sp.prob = .minlp q) (hq : q ∈ sp.prob.views) (hnx : q.nx < 2 ^ 31) (hng : q.na + q.nf < 2 ^ 31)
    (hpr : Protocol q none calls p) (hx : xs.length = sp.var2index.length) (hnew : newX = 1 ∨ p = some xs) {σ : Env F64} (hσ : σ = pointOf sp.var2index xs) :
    ∃ q', runCalls q calls = .ok q' ∧
      (∃ q'' y, evalFCb q' q.nx (some xs) newX true true = .ok (q'', ⟨true, [y], [], []⟩) ∧
        ∀ v m k, W.m.Minimises64 σ v m k → ∃ z, y.Is z ∧ |z - v| ≤ ((1 + 2 ^ (-53 : ℤ)) ^ k - 1) * m) ∧
      ∃ q'' g, evalGCb q' q.nx (some xs) newX (q.na + q.nf : Nat) true true = .ok (q'', ⟨true, g, [], []⟩) ∧
        g.length = q.na + sp.jindex2constr.length ∧
        ∀ k c, (k, c) ∈ sp.jindex2constr → ∀ v w m m' a b t, Writes64 σ c.lhs v m a → Writes64 σ c.rhs w m' b → sp.SlackIs n k σ t →
          InRange (m + m' + |t|) (a + b + 5) →
          ∃ y z, g[q.na + k]? = some y ∧ y.Is z ∧ |z - (v - w - t)| ≤ ((1 + 2 ^ (-53 : ℤ)) ^ (a + b + 5) - 1) * (m + m' + |t|) := by
  obtain ⟨r, hr', h1, h2, h3⟩ := C83_values hr h hc hq (ops := []) rfl hx hσ
  obtain ⟨q', r', c1, c0, ⟨qa, c2⟩, -, ⟨qc, c4⟩, -⟩ := C103_evaluate hr h hq hnx hng hpr hx hnew
  rw [hr'] at c0; cases c0
  refine ⟨q', c1, ⟨qa, _, c2, h1⟩, qc, _, c4, ?_, ?_⟩
  · have hna : q.b.length = q.na := rfl
    simp [constraintValues, hna, h2]
  · intro k c hkc v w m m' a b t e1 e2 e3 e4
    obtain ⟨y, z, f1, f2⟩ := h3 k c hkc v w m m' a b t e1 e2 e3 e4
    exact ⟨y, z, by rw [constraintValues_nonlinear, f1], f2⟩

/-- **C103** The gradient in double precision: each entry that `eval_grad_f` delivers is finite and within the rounding error of the operations of the chain rule from the
derivative, as it is known from calculus, of the exact function that the objective stores. -/
theorem C103_gradient (hr : ReachableApiW H W n) (hs : W.m.NoSelfDiv) (h : W.m.stdProblem H n = .ok (sp, m₀))
    (hc : (∃ q, sp.prob = .nlp q) ∨ ∃ q, sp.prob = .minlp q) (hq : q ∈ sp.prob.views) (hnx : q.nx < 2 ^ 31) (hng : q.na + q.nf < 2 ^ 31)
    (hpr : Protocol q none calls p) (hx : xs.length = sp.var2index.length) (hnew : newX = 1 ∨ p = some xs) {f : Node F64} {t : ℕ → ℝ} {κ : ℕ}
    (ho : W.m.objective = .minimize f) (ht : f.Tame (pointOf sp.var2index xs) t κ) :
    ∃ q' q'' g, runCalls q calls = .ok q' ∧ evalGradFCb q' q.nx (some xs) newX true true = .ok (q'', ⟨true, g, [], []⟩) ∧ g.length = sp.var2index.length ∧
      ∀ x i, (x, i) ∈ sp.var2index → 2 * (f.gradSize t κ x.id).size ≤ 2 ^ (1022 : ℤ) → (f.gradSize t κ x.id).ops < 2 ^ 52 →
        ∃ y z d, g[i]? = some y ∧ y.Is z ∧ HasDerivAt (fun s => f.realAt (Function.update t x.id s)) d (t x.id) ∧
          |z - d| ≤ ((1 + 2 ^ (-53 : ℤ)) ^ (2 * ((f.gradSize t κ x.id).ops + 1)) - 1) * (f.gradSize t κ x.id).size := by
  obtain ⟨r, hr', h1, h2⟩ := C86_minimize hr hs h hc hq (ops := []) rfl hx ho ht
  obtain ⟨q', r', c1, c0, -, ⟨qb, c3⟩, -⟩ := C103_evaluate hr.reachable h hq hnx hng hpr hx hnew
  rw [hr'] at c0; cases c0
  exact ⟨q', qb, _, c1, c3, h1, h2⟩

/-- **C103** The Jacobian in double precision: the entry of a nonlinear row for a column that `eval_jac_g` delivers is finite and within the rounding error from the derivative of
left side minus right side minus slack, and this derivative is zero if there is no entry. -/
theorem C103_jacobian (hr : ReachableApiW H W n) (hs : W.m.NoSelfDiv) (h : W.m.stdProblem H n = .ok (sp, m₀))
    (hc : (∃ q, sp.prob = .nlp q) ∨ ∃ q, sp.prob = .minlp q) (hq : q ∈ sp.prob.views) (hnx : q.nx < 2 ^ 31) (hng : q.na + q.nf < 2 ^ 31)
    (hpr : Protocol q none calls p) (hx : xs.length = sp.var2index.length) (hnew : newX = 1 ∨ p = some xs) {t : ℕ → ℝ} {κ : ℕ}
    {k : ℕ} {c : Constraint F64} (hkc : (k, c) ∈ sp.jindex2constr) (ht : c.Tame (pointOf sp.var2index xs) t κ) :
    ∃ q' buf, runCalls q calls = .ok q' ∧
      (∀ irow jcol, ∃ q'', evalJacGCb q' q.nx (some xs) newX (q.na + q.nf : Nat) (q.a.nnz + q.buf.j.nnz : Nat) irow jcol true true =
        .ok (q'', ⟨true, (jacobianEntries q buf).map (fun e => e.2.2), [], []⟩)) ∧
      ∀ x i, (x, i) ∈ sp.var2index → 2 * (c.gradSize t κ x.id).size ≤ 2 ^ (1022 : ℤ) → (c.gradSize t κ x.id).ops < 2 ^ 52 →
        ∃ d, HasDerivAt (fun s => sp.rowReal n k c (Function.update t x.id s)) d (t x.id) ∧
          ((buf.j.triplets.filter (fun e => e.1 == k && e.2.1 == i) = [] ∧ d = 0) ∨
          ∃ y z, buf.j.triplets.filter (fun e => e.1 == k && e.2.1 == i) = [(k, i, y)] ∧ F64.Is y z ∧
            |z - d| ≤ ((1 + 2 ^ (-53 : ℤ)) ^ (2 * ((c.gradSize t κ x.id).ops + 1)) - 1) * (c.gradSize t κ x.id).size) := by
  obtain ⟨r, hr', h1⟩ := C86_rows hr hs h hc hq (ops := []) rfl hx hkc ht
  obtain ⟨q', r', c1, c0, -, -, -, c5, -⟩ := C103_evaluate hr.reachable h hq hnx hng hpr hx hnew
  rw [hr'] at c0; cases c0
  exact ⟨q', r.buf, c1, c5, h1⟩

end

section Examples
attribute [local instance] exLibm

/-- Non-vacuity: maximise `x * x * y` subject to `x * y <= 2` (the model of C92). After a request for the gradient at `x = 3`, `y = -4` and the slack `-14`, `eval_f` is asked
at the same point, which is not announced as new, and writes `36`; `eval_grad_f` writes the derivative `24` by `x`, and `eval_g` writes `0` for the row. -/
example : ∃ sp m q q', (worldD exL).m.stdProblem HashOrder.listOrder (countD exL) = .ok (sp, m) ∧ q ∈ sp.prob.views ∧
    runCalls q [.gradF q.nx (some exLxs) 1 true true] = .ok q' ∧
    (∃ q'' y, evalFCb q' q.nx (some exLxs) 0 true true = .ok (q'', ⟨true, [y], [], []⟩) ∧ y.HasValue 36) ∧
    (∃ q'' g y, evalGradFCb q' q.nx (some exLxs) 0 true true = .ok (q'', ⟨true, g, [], []⟩) ∧ g[1]? = some y ∧ y.HasValue 24) ∧
    ∃ q'' g y, evalGCb q' q.nx (some exLxs) 0 (q.na + q.nf : Nat) true true = .ok (q'', ⟨true, g, [], []⟩) ∧ g[q.na]? = some y ∧ y.HasValue 0 := by
  have hd := exL_data
  cases hsp : (worldD exL).m.stdProblem HashOrder.listOrder (countD exL) with
  | error _ => rw [hsp] at hd; cases hd
  | ok sp =>
    obtain ⟨sp, m⟩ := sp
    rw [hsp] at hd
    have hdim : (match (worldD exL).m.stdProblem HashOrder.listOrder (countD exL) with
      | .ok ((sp : StdProb F64), _) => sp.prob.views.all fun q => decide (q.nx < 2 ^ 31) && decide (q.na + q.nf < 2 ^ 31)
      | .error _ => false) = true := by decide +kernel
    rw [hsp] at hdim
    simp only [Bool.and_eq_true, List.all_eq_true, decide_eq_true_eq, Bool.not_eq_true'] at hd hdim
    obtain ⟨⟨⟨⟨⟨⟨⟨hall, hlen⟩, hx⟩, hy⟩, hj⟩, hne⟩, hn⟩, hsl⟩ := hd
    obtain ⟨q, hq⟩ := List.exists_mem_of_ne_nil sp.prob.views (by rintro h; rw [h] at hne; simp at hne)
    have hnlp : ∃ q, sp.prob = .nlp q := by
      cases hp : sp.prob <;> rw [hp] at hn <;> simp at hn
      exact ⟨_, rfl⟩
    have hint : sp.IntegersAt exLxs exLz := by
      refine ⟨by rw [hlen]; rfl, fun x i hxi => ?_⟩
      have := hall (x, i) hxi
      simp only [Option.map_eq_some_iff] at this
      obtain ⟨a, h1, h2⟩ := this
      exact ⟨a, h1, F64.value_iff.1 h2⟩
    obtain ⟨-, hqx, -⟩ := callbacks_evaluate exL_reach.reachable hsp hq hint.1
    have hpr : Protocol q none [.gradF q.nx (some exLxs) 1 true true] (some exLxs) :=
      .values (x := exLxs) ⟨rfl, rfl, hqx, rfl, rfl⟩ (.inl rfl) (.nil _)
    obtain ⟨q', c1, ⟨qa, w, c2, v1⟩, ⟨qb, g, c3, -, v2⟩, -⟩ := C103_objective exL_reach hsp (.inl hnlp) hq (hdim q hq).1 (hdim q hq).2 hpr hint exL_minimises (newX := 0) (.inr rfl)
    obtain ⟨q1, c1', ⟨qc, g', u, c4, hu, v3⟩, -⟩ := C103_rows exL_reach hsp (.inl hnlp) hq (hdim q hq).1 (hdim q hq).2 hpr hint (k := 0) (c := exLc) (by rw [hj]; simp)
      (exL_row hsl) (newX := 0) (.inr rfl)
    rw [c1] at c1'; cases c1'
    have dA : pderiv 0 (X 0 * X 0 * X 1 : MvPolynomial ℕ ℕ) = X 0 * X 1 + X 0 * X 1 := by
      simp only [pderiv_mul, pderiv_X, Pi.single_apply]; simp; ring
    have dP : pderiv 0 (-(X 0 * X 0 * X 1) : MvPolynomial ℕ ℤ) = -(X 0 * X 1 + X 0 * X 1) := by
      simp only [map_neg, pderiv_mul, pderiv_X, Pi.single_apply]; simp; ring
    have g1 := v1 (by simp [SmallAt, exLz])
    obtain ⟨y, hy1, hy2⟩ := v2 exLx 1 hx (by show SmallAt _ (pderiv 0 _); rw [dA]; simp [SmallAt, exLz])
    have g4 := v3 (by simp [SmallAt, exLz])
    refine ⟨sp, m, q, q', rfl, hq, c1, ⟨qa, w, c2, ?_⟩, ⟨qb, g, y, c3, hy1, ?_⟩, qc, g', u, c4, hu, ?_⟩
    · simpa [exLz] using g1
    · change y.HasValue ((eval exLz (pderiv 0 _) : ℤ) : ℚ) at hy2
      rw [dP] at hy2
      norm_num [exLz] at hy2
      exact hy2
    · norm_num [exLz] at g4
      exact g4

end Examples

end Verif
