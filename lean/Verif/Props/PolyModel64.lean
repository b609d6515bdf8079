import Verif.Proofs.PolyModel64
import Verif.Props.RoundingGrad64

/-!
# C92: what a nonlinear solver is told about polynomials with integer coefficients is exact at integers, in double precision
-/

namespace Verif

set_option linter.unusedSectionVars false

open MvPolynomial

section
variable [Libm] {H : HashOrder} {W : World F64} {n m₀ : ℕ} {sp : StdProb F64} {z : ℕ → ℤ} {P : MvPolynomial ℕ ℤ} {A : MvPolynomial ℕ ℕ}

theorem SpFacts.colVals {l : Level} {hp : Heap F64} {comp : ModelComp F64} {e : Node F64} {mod : Model F64} {ps : List (Piece F64)} {cols : List (Node F64)}
    {xes : List (Node F64 × F64)} {ves : List (Node F64 × Nat)} (hf : SpFacts H l hp n m₀ mod comp e ps cols xes ves sp) {xs : List F64} (hx : sp.IntegersAt xs z) :
    ColVals cols (pointEnv cols xs) z := by
  intro x hxc
  obtain ⟨i, hi⟩ := List.mem_iff_getElem?.1 hxc
  obtain ⟨a, h1, h2⟩ := hx.2 x i (hf.mem_v2i.2 hi)
  obtain ⟨hlt, hxi⟩ := List.getElem?_eq_some_iff.1 hi
  refine ⟨a, ?_, h2⟩
  rw [pointEnv_col hf.cok hxc, ← hxi, hf.cok.col_get hlt, h1]

/-- **C92** A model whose objective writes down a polynomial with integer coefficients and that gives a nonlinear problem: evaluating the problem at integers, after
any history of calls, gives exactly the value of the polynomial that is minimised, exactly its partial derivatives as gradient, and exactly its second partial
derivatives as the lower triangle of the Hessian. Each number needs that the polynomial with absolute values that belongs to it is at most `2^53`. -/
theorem C92_objective (hr : ReachableApiW H W n) (h : W.m.stdProblem H n = .ok (sp, m₀))
    (hc : (∃ q, sp.prob = .nlp q) ∨ ∃ q, sp.prob = .minlp q) {q q' : Minlp F64} (hq : q ∈ sp.prob.views)
    {ops : List (ProbOp F64)} (hops : runProb q ops = .ok q') {xs : List F64} (hx : sp.IntegersAt xs z) (hP : W.m.MinimisesPoly H P A) :
    ∃ r, q'.evaluate xs = .ok r ∧
      (SmallAt z A → r.buf.phi.HasValue ((eval z P : ℤ) : ℚ)) ∧
      r.buf.gphi.length = sp.var2index.length ∧
      (∀ x i, (x, i) ∈ sp.var2index → SmallAt z (pderiv x.id A) →
        ∃ y, r.buf.gphi[i]? = some y ∧ y.HasValue ((eval z (pderiv x.id P) : ℤ) : ℚ)) ∧
      (∀ x y i j, (x, i) ∈ sp.var2index → (y, j) ∈ sp.var2index → j ≤ i → SmallSum (pderiv x.id A) → SmallSum (pderiv y.id A) →
        SmallAt z (pderiv y.id (pderiv x.id A)) → (r.buf.hphi.dense i j).HasValue ((eval z (pderiv y.id (pderiv x.id P)) : ℤ) : ℚ)) ∧
      ∀ t ∈ r.buf.hphi.triplets, t.2.1 ≤ t.1 := by
  obtain ⟨hp, k, comp, e, ps, cols, xes, ves, hf, -⟩ := hr.facts h
  have hlen : xs.length = cols.length := by rw [hx.1, hf.v2i]; simp
  have hσ := hf.colVals hx
  rcases hf.life with ⟨-, hl, -⟩ | ⟨-, -, hi⟩
  · rcases hl with ⟨a, ha⟩ | ⟨a, ha⟩ <;> rcases hc with ⟨b, hb⟩ | ⟨b, hb⟩ <;> rw [ha] at hb <;> cases hb
  have hi' := (hi q hq).run hf.cok hf.cmpOk hf.vesP hops
  rw [hi'.evaluate hf.cok hf.cmpOk hf.vesP (by omega)]
  obtain ⟨B, ff⟩ := hf.objFn hP
  refine ⟨_, rfl, fun hs => ff.value hσ hs, by simp [evalBuf, hf.v2i], ?_, ?_, hess_lowerD⟩
  · intro x i hxi hs
    rw [hf.mem_v2i] at hxi
    refine ⟨_, ?_, grad_entryD (σ := pointEnv cols xs) hf.cok ff.gk (List.mem_of_getElem? hxi) (v := ((eval z (pderiv x.id P) : ℤ) : ℚ)) ?_ fun hno => ?_⟩
    · simp only [evalBuf]
      rw [List.getElem?_map, hxi]
      rfl
    · rintro p hp rfl
      exact ff.grad hσ (by simp) hp hs
    · rw [ff.noGrad (List.mem_of_getElem? hxi) hno]
      simp
  · intro x y i j hxi hyj hij hsx hsy hs
    rw [hf.mem_v2i] at hxi hyj
    exact ff.hess hσ (by simp) hxi hyj hij hsx hsy hs _ _

/-- **C92** The same for the nonlinear rows: at integers, the value of a row is exactly that of the polynomial left side minus right side minus slack, its line of the
Jacobian has exactly the partial derivatives of this polynomial, and its Hessian exactly the second partial derivatives, in the lower triangle. -/
theorem C92_rows (hr : ReachableApiW H W n) (h : W.m.stdProblem H n = .ok (sp, m₀))
    (hc : (∃ q, sp.prob = .nlp q) ∨ ∃ q, sp.prob = .minlp q) {q q' : Minlp F64} (hq : q ∈ sp.prob.views)
    {ops : List (ProbOp F64)} (hops : runProb q ops = .ok q') {xs : List F64} (hx : sp.IntegersAt xs z)
    {k : ℕ} {c : Constraint F64} (hkc : (k, c) ∈ sp.jindex2constr) (hP : sp.RowPoly H n k c P A) :
    ∃ r y hk, q'.evaluate xs = .ok r ∧ r.buf.f[k]? = some y ∧ r.buf.h[k]? = some hk ∧
      (SmallAt z A → y.HasValue ((eval z P : ℤ) : ℚ)) ∧
      (∀ x i, (x, i) ∈ sp.var2index → SmallAt z (pderiv x.id A) → (r.buf.j.dense k i).HasValue ((eval z (pderiv x.id P) : ℤ) : ℚ)) ∧
      (∀ x y i j, (x, i) ∈ sp.var2index → (y, j) ∈ sp.var2index → j ≤ i → SmallSum (pderiv x.id A) → SmallSum (pderiv y.id A) →
        SmallAt z (pderiv y.id (pderiv x.id A)) → (hk.dense i j).HasValue ((eval z (pderiv y.id (pderiv x.id P)) : ℤ) : ℚ)) ∧
      ∀ t ∈ hk.triplets, t.2.1 ≤ t.1 := by
  obtain ⟨hp, k', comp, e, ps, cols, xes, ves, hf, -⟩ := hr.facts h
  have hlen : xs.length = cols.length := by rw [hx.1, hf.v2i]; simp
  have hσ := hf.colVals hx
  rcases hf.life with ⟨-, hl, -⟩ | ⟨-, -, hi⟩
  · rcases hl with ⟨a, ha⟩ | ⟨a, ha⟩ <;> rcases hc with ⟨b, hb⟩ | ⟨b, hb⟩ <;> rw [ha] at hb <;> cases hb
  have hi' := (hi q hq).run hf.cok hf.cmpOk hf.vesP hops
  rw [hi'.evaluate hf.cok hf.cmpOk hf.vesP (by omega)]
  simp only [hf.jindex, List.mem_map, List.mem_filter, Prod.mk.injEq] at hkc
  obtain ⟨p, ⟨hp', hnl⟩, rfl, rfl⟩ := hkc
  obtain ⟨kc, -, hch⟩ := hf.mf.chain
  obtain ⟨hl, hr', hm⟩ := hP
  rename_i P Q A B
  rw [hf.slackPoly_eq hp' hnl] at hm ⊢
  rw [hf.slackPoly_eq hp' hnl]
  obtain ⟨D, ff⟩ := hf.rowFn hp' hl hr' (P64.Dom.small ⟨_, rfl⟩ hm)
  have hd : ∀ x, P64.Dom (pderiv x (A + B)) (pderiv x (A + B + slackP ℕ p.slack)) := fun x => P64.Dom.pderiv x ⟨_, rfl⟩
  refine ⟨_, p.fn.evaluate (pointEnv cols xs), valMat cols.length cols.length (hessP cols p.comp.hphi) (pointEnv cols xs), rfl, ?_, ?_, ?_, ?_, ?_, hess_lowerD⟩
  · simp only [evalBuf, hf.mf.f_eq]
    rw [List.getElem?_map, List.getElem?_map, hch.at hp' hnl]
    rfl
  · simp only [evalBuf, hf.mf.h_eq]
    rw [List.getElem?_map, List.getElem?_map, hch.at hp' hnl]
    rfl
  · intro hs
    exact hf.rowValue hp' hnl ff hσ hs
  · intro x i hxi hs
    rw [hf.mem_v2i] at hxi
    exact hf.rowJac (by simp) hp' hnl ff hσ hxi (dom_smallAt (hd _) hs) _ _
  · intro x y i j hxi hyj hij hsx hsy hs
    rw [hf.mem_v2i] at hxi hyj
    have h2 : pderiv y.id (pderiv x.id (P - Q - slackP ℤ p.slack)) = pderiv y.id (pderiv x.id (P - Q)) := by
      rw [map_sub, map_sub]
      have : pderiv y.id (pderiv x.id (slackP ℤ p.slack)) = 0 := by
        cases p.slack with
        | none => simp [slackP]
        | some s =>
          simp only [slackP, pderiv_X, Pi.single_apply]
          split <;> simp
      rw [this, sub_zero]
    rw [h2]
    exact ff.hess hσ (by simp) hxi hyj hij ((hd _).small hsx) ((hd _).small hsy) (dom_smallAt ((hd _).pderiv _) hs) _ _

end

section Examples
attribute [local instance] exLibm

/-! ## An example: maximise `x * x * y` subject to `x * y <= 2`, at `x = 3`, `y = -4`, with the slack `-14` -/

def exL : List (Cmd F64) :=
  [.expr (.var "x" .continuous), .expr (.var "y" .continuous), .expr (.mul 0 0), .expr (.mul 2 1), .expr (.mul 0 1), .cmpNodeScalar .lessEqual 4 (dbl 2) "",
   .newModel, .maximize 3, .addConstraints [0]]

def exLx : Node F64 := .var 0 "x" .continuous
def exLy : Node F64 := .var 1 "y" .continuous
def exLf : Node F64 := .mul 3 (.mul 2 exLx exLx) exLy
def exLc : Constraint F64 := ⟨6, .mul 4 exLx exLy, .lessEqual, .const 5 (dbl 2), ""⟩

theorem exL_reach : ReachableApiW HashOrder.listOrder (worldD exL) (countD exL) := runsD_reachable (by decide +kernel) (by decide +kernel)

theorem exL_model : (worldD exL).m.constraints = [exLc] ∧ (worldD exL).m.objective = .maximize exLf := by decide +kernel

/-- The values of the variables in the cells 0 and 1, and of the slack. -/
def exLz : ℕ → ℤ := fun i => if i = 0 then 3 else if i = 1 then -4 else -14
def exLxs : List F64 := [dbl (-14), dbl 3, dbl (-4)]

/-- What the standard problem is. -/
theorem exL_data : (match (worldD exL).m.stdProblem HashOrder.listOrder (countD exL) with
    | .ok ((sp : StdProb F64), _) => sp.var2index.all (fun e : Node F64 × ℕ => decide ((exLxs[e.2]?).map F64.value = some (some ((exLz e.1.id : ℤ) : ℚ)))) && decide (sp.var2index.length = 3) &&
        decide ((exLx, 1) ∈ sp.var2index) && decide ((exLy, 2) ∈ sp.var2index) && decide (sp.jindex2constr = [(0, exLc)]) && !sp.prob.views.isEmpty &&
        (match sp.prob with | .nlp _ => true | _ => false) && decide ((sp.slackOf (countD exL) 0).map Node.id = some 62)
    | .error _ => false) = true := by decide +kernel

theorem exL_x : WritesPoly HashOrder.listOrder exLx (X 0) (X 0) := .var (n := 0) rfl
theorem exL_y : WritesPoly HashOrder.listOrder exLy (X 1) (X 1) := .var (n := 1) rfl

theorem exL_minimises : (worldD exL).m.MinimisesPoly HashOrder.listOrder (-(X 0 * X 0 * X 1)) (X 0 * X 0 * X 1) :=
  .maximize exL_model.2 (.mul (.mul exL_x exL_x (by simp [SmallSum]) (gotD_ok (n := 2) (by decide +kernel))) exL_y (by simp [SmallSum])
    (gotD_ok (n := 3) (by decide +kernel))) (by simp [SmallSum])

theorem exL_row {sp : StdProb F64} {n : ℕ} (hs : (sp.slackOf n 0).map Node.id = some 62) :
    sp.RowPoly HashOrder.listOrder n 0 exLc (X 0 * X 1 - C 2 - X 62) (X 0 * X 1 + C 2 + X 62) := by
  have e1 : ∀ (R : Type) [CommSemiring R], sp.slackPoly R n 0 = X 62 := by
    intro R _
    unfold StdProb.slackPoly
    cases h : sp.slackOf n 0 with
    | none => rw [h] at hs; cases hs
    | some s => rw [h] at hs; simp at hs; simp [hs]
  have := StdProb.RowPoly.mk (H := HashOrder.listOrder) (sp := sp) (n := n) (k := 0) (c := exLc)
    (.mul exL_x exL_y (by simp [SmallSum]) (gotD_ok (n := 4) (by decide +kernel)))
    (.const (c := dbl 2) (k := 2) (n := 5) (n' := 6) (F64.value_iff.1 (by decide +kernel)) rfl) (by rw [e1]; simp [SmallSum])
  rw [e1, e1] at this
  exact this

/-- Non-vacuity: the library tells the solver `-(x * x * y) = 36`, the derivative `-2 * x * y = 24` by `x` and the second derivative `-2 * x = -6` by `x` and `y`;
for the row it says `x * y - 2 - s = 0`, with the derivatives `y = -4` by `x` and `-1` by the slack. -/
example : ∃ sp m q r, (worldD exL).m.stdProblem HashOrder.listOrder (countD exL) = .ok (sp, m) ∧ q ∈ sp.prob.views ∧ q.evaluate exLxs = .ok r ∧
    r.buf.phi.HasValue 36 ∧ (∃ y, r.buf.gphi[1]? = some y ∧ y.HasValue 24) ∧ (r.buf.hphi.dense 2 1).HasValue (-6) ∧
    (∃ y, r.buf.f[0]? = some y ∧ y.HasValue 0) ∧ (r.buf.j.dense 0 1).HasValue (-4) := by
  have hd := exL_data
  cases hsp : (worldD exL).m.stdProblem HashOrder.listOrder (countD exL) with
  | error _ => rw [hsp] at hd; cases hd
  | ok sp =>
    obtain ⟨sp, m⟩ := sp
    rw [hsp] at hd
    simp only [Bool.and_eq_true, List.all_eq_true, decide_eq_true_eq, Bool.not_eq_true'] at hd
    obtain ⟨⟨⟨⟨⟨⟨⟨hall, hlen⟩, hx⟩, hy⟩, hj⟩, hne⟩, hn⟩, hsl⟩ := hd
    obtain ⟨q, hq⟩ := List.exists_mem_of_ne_nil sp.prob.views (by rintro h; rw [h] at hne; simp at hne)
    have hnlp : ∃ q, sp.prob = .nlp q := by
      cases hp : sp.prob <;> rw [hp] at hn <;> simp at hn
      exact ⟨_, rfl⟩
    have hint : sp.IntegersAt exLxs exLz := by
      refine ⟨by rw [hlen]; rfl, fun x i hxi => ?_⟩
      have := hall (x, i) hxi
      simp only [Option.map_eq_some_iff] at this
      obtain ⟨a, h1, h2⟩ := this
      exact ⟨a, h1, F64.value_iff.1 h2⟩
    obtain ⟨r, hr, h1, -, h2, h3, -⟩ := C92_objective exL_reach hsp (.inl hnlp) hq (ops := []) rfl hint exL_minimises
    obtain ⟨r', w, hk, hr', hw, -, h4, h5, -⟩ := C92_rows exL_reach hsp (.inl hnlp) hq (ops := []) rfl hint (k := 0) (c := exLc) (by rw [hj]; simp) (exL_row hsl)
    rw [hr] at hr'
    cases hr'
    have dA : pderiv 0 (X 0 * X 0 * X 1 : MvPolynomial ℕ ℕ) = X 0 * X 1 + X 0 * X 1 := by
      simp only [pderiv_mul, pderiv_X, Pi.single_apply]; simp; ring
    have dA1 : pderiv 1 (X 0 * X 0 * X 1 : MvPolynomial ℕ ℕ) = X 0 * X 0 := by
      simp only [pderiv_mul, pderiv_X, Pi.single_apply]; simp
    have dA2 : pderiv 0 (X 0 * X 0 : MvPolynomial ℕ ℕ) = X 0 + X 0 := by
      simp only [pderiv_mul, pderiv_X, Pi.single_apply]; simp
    have dP : pderiv 0 (-(X 0 * X 0 * X 1) : MvPolynomial ℕ ℤ) = -(X 0 * X 1 + X 0 * X 1) := by
      simp only [map_neg, pderiv_mul, pderiv_X, Pi.single_apply]; simp; ring
    have dP1 : pderiv 1 (-(X 0 * X 0 * X 1) : MvPolynomial ℕ ℤ) = -(X 0 * X 0) := by
      simp only [map_neg, pderiv_mul, pderiv_X, Pi.single_apply]; simp
    have dP2 : pderiv 0 (-(X 0 * X 0) : MvPolynomial ℕ ℤ) = -(X 0 + X 0) := by
      simp only [map_neg, pderiv_mul, pderiv_X, Pi.single_apply]; simp
    have rA : pderiv 0 (X 0 * X 1 + C 2 + X 62 : MvPolynomial ℕ ℕ) = X 1 := by
      simp only [map_add, pderiv_mul, pderiv_C, pderiv_X, Pi.single_apply]; simp
    have rP : pderiv 0 (X 0 * X 1 - C 2 - X 62 : MvPolynomial ℕ ℤ) = X 1 := by
      simp only [map_sub, pderiv_mul, pderiv_C, pderiv_X, Pi.single_apply]; simp
    have g1 := h1 (by simp [SmallAt, exLz])
    obtain ⟨y, hy1, hy2⟩ := h2 exLx 1 hx (by show SmallAt _ (pderiv 0 _); rw [dA]; simp [SmallAt, exLz])
    have g3 := h3 exLy exLx 2 1 hy hx (by norm_num) (by show SmallSum (pderiv 1 _); rw [dA1]; simp [SmallSum])
      (by show SmallSum (pderiv 0 _); rw [dA]; simp [SmallSum]) (by show SmallAt _ (pderiv 0 (pderiv 1 _)); rw [dA1, dA2]; simp [SmallAt, exLz])
    have g4 := h4 (by simp [SmallAt, exLz])
    have g5 := h5 exLx 1 hx (by show SmallAt _ (pderiv 0 _); rw [rA]; simp [SmallAt, exLz])
    refine ⟨sp, m, q, r, rfl, hq, hr, ?_, ⟨y, hy1, ?_⟩, ?_, ⟨w, hw, ?_⟩, ?_⟩
    · simpa [exLz] using g1
    · change y.HasValue ((eval exLz (pderiv 0 _) : ℤ) : ℚ) at hy2
      rw [dP] at hy2
      norm_num [exLz] at hy2
      exact hy2
    · change F64.HasValue _ ((eval exLz (pderiv 0 (pderiv 1 _)) : ℤ) : ℚ) at g3
      rw [dP1, dP2] at g3
      norm_num [exLz] at g3
      exact g3
    · norm_num [exLz] at g4
      exact g4
    · change F64.HasValue _ ((eval exLz (pderiv 0 _) : ℤ) : ℚ) at g5
      rw [rP] at g5
      norm_num [exLz] at g5
      exact g5

end Examples

end Verif
