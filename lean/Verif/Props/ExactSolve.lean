import Verif.Proofs.ExactLp
import Verif.Props.Solve
import Verif.Spec.ExampleD

/-!
# C76: linear models in double precision, from the formulas to the reported point
-/

namespace Verif

set_option linter.unusedSectionVars false

section
variable [Libm] {H : HashOrder} {W : World F64} {n n' : ℕ} {solver : SolverFn F64} {mod' : Model F64}

theorem f64_neg_ne : (negOne ==. (zero : F64)) = false := by
  rw [← Bool.not_eq_true, F64.eqz F64.negOne_value]
  norm_num

/-- **C76** Write a model in double precision, with linear formulas whose numbers are representable, and solve it with any solver whose answers satisfy
the rows of the problem that it was given up to `δ`, the bounds up to `ε` and integrality up to `η`. If `solve` succeeds, every variable of the model has
a finite number as its final value, and at these values every such constraint, taken in exact arithmetic as it was written, holds up to `δ` (for an
equality) or `δ + ε` (for an inequality): the library adds no error of its own. -/
theorem C76_feasible (hr : ReachableW H W n) (hs : W.m.solve H solver n = .ok ((.ok (), mod'), n')) {δ ε η : ℚ} (hδ : 0 ≤ δ)
    (hsol : ∀ sp st sol, W.m.SolvedBy H n solver sp st sol → ∃ q ∈ sp.prob.views, ∃ xs : List ℚ, List.Forall₂ F64.HasValue sol.x xs ∧
      q.WithinD δ ε η xs) :
    (∃ t, W.m.ValuesD mod' t) ∧ ∀ t, W.m.ValuesD mod' t →
      (∀ c ∈ W.m.constraints, ∀ f g, c.SaysD f g → c.kind.Within (δ + if c.kind = .equal then 0 else ε) (f.value t) (g.value t)) ∧
      (∀ x, W.m.HasVar x → |t x.id| ≤ 10 ^ 8 + ε) ∧
      ∀ x, W.m.HasVar x → x.isInteger = true → ∃ z : ℤ, |t x.id - z| ≤ η := by
  obtain ⟨sp, k, hsp, -, hres⟩ := solve_ok hs
  rcases hres with ⟨_, -, hbad⟩ | ⟨st, sol, primals, duals, hsol', hx, hmod⟩
  · injection hbad with hbad; cases hbad
  injection hmod with _ hmod
  subst hmod
  obtain ⟨q, hq, xs, hxs, hwith⟩ := hsol _ _ _ ⟨k, hsp, hsol'⟩
  obtain ⟨hp, k', comp, e, ps, cols, xes, ves, hf, -⟩ := hr.facts hsp
  obtain ⟨hlen, hpt⟩ := (hf.pointD hq).1 hwith
  have hvar : ∀ x, W.m.HasVar x → x ∈ cols := fun x hx => (hf.mem x).2 (hf.mf.col_of_hasVar f64_neg_ne hx)
  have henv : ∀ x ∈ cols, ∃ a, mapEnv primals x.id = some a ∧ a.HasValue (colValD cols xs x) := by
    intro x hxm
    have h1 := colValD_get hf.cok hlen hxm
    rw [hx.env hf, pointEnv_col hf.cok hxm]
    obtain ⟨h2, h3⟩ := List.getElem?_eq_some_iff.1 h1
    have h4 : colOf cols x < sol.x.length := by rw [hxs.length_eq]; exact h2
    refine ⟨sol.x[colOf cols x], List.getElem?_eq_getElem h4, ?_⟩
    rw [← h3]
    exact List.forall₂_iff_get.1 hxs |>.2 _ h4 h2
  refine ⟨?_, fun t ht => ?_⟩
  · classical
    refine ⟨fun i => if hi : ∃ x ∈ cols, x.id = i then colValD cols xs hi.choose else 0, fun x hxv => ?_⟩
    have hxm := hvar x hxv
    have hi : ∃ y ∈ cols, y.id = x.id := ⟨x, hxm, rfl⟩
    have he : hi.choose = x := (hf.cok.good _ hi.choose_spec.1).eq_of_id (hf.cok.good _ hxm) hi.choose_spec.2
    obtain ⟨a, h1, h2⟩ := henv x hxm
    refine ⟨a, h1, ?_⟩
    beta_reduce
    rw [dif_pos hi, he]
    exact h2
  · have htv : ∀ x, W.m.HasVar x → t x.id = colValD cols xs x := by
      intro x hxv
      obtain ⟨a, h1, h2⟩ := ht x hxv
      obtain ⟨a', h1', h2'⟩ := henv x (hvar x hxv)
      change mapEnv primals x.id = _ at h1
      rw [h1] at h1'
      injection h1' with h1'
      subst h1'
      exact F64.value_unique h2 h2'
    refine ⟨fun c hc f g hsd => ?_, fun x hxv => ?_, fun x hxv hi => ?_⟩
    · rw [← hf.mf.cs] at hc
      obtain ⟨p, hpm, rfl⟩ := List.mem_map.1 hc
      obtain ⟨n1, m1, hn1, -, hok⟩ := hf.mf.piece hpm
      obtain ⟨b, hb, hnum, ⟨x, a, hk, -, hbnd, ha, herr⟩ | ⟨hk, hlin, -, herr⟩ | ⟨s, hlin, hsl, hbnd, herr⟩⟩ :=
        hf.pieceD hpm hsd (v := colValD cols xs) fun x hx => (htv x hx).symm
      · have hbd := hpt.bounds p hpm _ _ _ hbnd
        have hne : p.c.kind ≠ .equal := by rw [Ne, hok.equal, hbnd]; simp
        rw [F64.atMost_value ha, F64.atLeast_value ha] at hbd
        cases hkk : p.c.kind
        · exact absurd hkk hne
        all_goals
          simp only [hkk, CKind.Within, reduceCtorEq, decide_true, decide_false, if_true, if_false, Bool.false_eq_true] at hbd ⊢
          linarith
      · have hrow := hpt.rows p hpm hlin b hb hnum
        simp only [hk, CKind.Within, if_true, add_zero]
        rw [← herr]
        exact hrow
      · have hrow := hpt.rows p hpm hlin b hb hnum
        have hbd := hpt.bounds p hpm _ _ _ hbnd
        rw [F64.atMost_value F64.zero_value, F64.atLeast_value F64.zero_value] at hbd
        obtain ⟨h3, h4⟩ := abs_le.1 hrow
        have hne : p.c.kind ≠ .equal := by rw [Ne, hok.equal, hbnd]; simp
        cases hkk : p.c.kind
        · exact absurd hkk hne
        all_goals
          simp only [hkk, CKind.Within, reduceCtorEq, decide_true, decide_false, if_true, if_false, Bool.false_eq_true] at hbd ⊢
          linarith
    · rw [htv x hxv, abs_le]
      obtain ⟨h1, h2⟩ := hpt.box x (hvar x hxv)
      exact ⟨by linarith, h2⟩
    · rw [htv x hxv]
      exact hpt.integral x (hvar x hxv) hi

/-- A model of such formulas becomes a linear problem. -/
theorem C76_linear (hr : ReachableW H W n) {sp : StdProb F64} {m : ℕ} (hsp : W.m.stdProblem H n = .ok (sp, m))
    {F G : Constraint F64 → TermForm} (hc : ∀ c ∈ W.m.constraints, c.SaysD (F c) (G c)) {o : TermForm} (ho : W.m.ObjectiveSaysD o) :
    (∃ q, sp.prob = .lp q) ∨ ∃ q, sp.prob = .milp q := by
  obtain ⟨hp, k', comp, e, ps, cols, xes, ves, hf, -⟩ := hr.facts hsp
  exact (linear_probD hf hc ho).2

/-- Conversely, no solution is lost: an assignment `τ` that satisfies the constraints exactly as they were written, and the box that the library imposes,
gives a point that satisfies the standard problem exactly, and the values of this point are those of `τ`. -/
theorem C76_point (hr : ReachableW H W n) {sp : StdProb F64} {m : ℕ} (hsp : W.m.stdProblem H n = .ok (sp, m))
    {F G : Constraint F64 → TermForm} (hc : ∀ c ∈ W.m.constraints, c.SaysD (F c) (G c)) {τ : ℕ → ℚ}
    (hτ : ∀ c ∈ W.m.constraints, c.kind.Rel ((F c).value τ) ((G c).value τ))
    (hint : ∀ x, W.m.HasVar x → x.isInteger = true → ∃ z : ℤ, τ x.id = z)
    (hbox : ∀ x, W.m.HasVar x → |τ x.id| ≤ 10 ^ 8)
    (hsbox : ∀ c ∈ W.m.constraints, c.kind ≠ .equal → |(F c).value τ - (G c).value τ| ≤ 10 ^ 8) :
    ∃ xs : List ℚ, (∀ q ∈ sp.prob.views, q.WithinD 0 0 0 xs) ∧
      ∀ x, W.m.HasVar x → ∃ i, getN sp.var2index x = some i ∧ xs[i]? = some (τ x.id) := by
  obtain ⟨hp, k', comp, e, ps, cols, xes, ves, hf, -⟩ := hr.facts hsp
  have hlift := (lift_pointD hf hc hτ hbox hsbox (η := 0) fun x hx hi => (hint x hx hi).imp fun z hz => by rw [hz, sub_self, abs_zero]).congr hf
    (w := colValD cols (cols.map (liftD ps τ))) fun x hx => (colValD_map hf.cok _ hx).symm
  refine ⟨_, fun q hq => (hf.pointD hq).2 ⟨by simp, hlift⟩, fun x hx => ?_⟩
  have hxc := (hf.mem x).2 (hf.mf.col_of_hasVar f64_neg_ne hx)
  refine ⟨colOf cols x, ?_, ?_⟩
  · rw [hf.v2i]
    have : cols.any (fun y => y.ptrEq x) = true := List.any_eq_true.2 ⟨x, hxc, ptrEq_refl x⟩
    rw [getN_zipIdx, this]
    simp
  · rw [List.getElem?_map, (hf.cok.col hxc).2, Option.map_some, liftD_var hf hx]

/-- **C76, optimality.** If, in addition, all constraints and the objective are such formulas, and the cost of each answer of the solver is at most `γ`
more than the cost of any point that satisfies the standard problem exactly, then at the final values the objective, taken in exact arithmetic as it was
written, is at most `γ` worse than at any assignment that satisfies the constraints exactly as they were written and stays within the box that the
library imposes. -/
theorem C76_optimal (hr : ReachableW H W n) (hs : W.m.solve H solver n = .ok ((.ok (), mod'), n')) {γ : ℚ}
    {F G : Constraint F64 → TermForm} (hc : ∀ c ∈ W.m.constraints, c.SaysD (F c) (G c)) {o : TermForm} (ho : W.m.ObjectiveSaysD o)
    (hsol : ∀ sp st sol, W.m.SolvedBy H n solver sp st sol → ∃ q ∈ sp.prob.views, ∃ c xs, sp.prob.costsD = some c ∧
      List.Forall₂ F64.HasValue sol.x xs ∧ xs.length = q.nx ∧ ∀ ys, q.WithinD 0 0 0 ys → costD c xs ≤ costD c ys + γ)
    {t τ : ℕ → ℚ} (ht : W.m.ValuesD mod' t) (hτ : ∀ c ∈ W.m.constraints, c.kind.Rel ((F c).value τ) ((G c).value τ))
    (hint : ∀ x, W.m.HasVar x → x.isInteger = true → ∃ z : ℤ, τ x.id = z)
    (hbox : ∀ x, W.m.HasVar x → |τ x.id| ≤ 10 ^ 8)
    (hsbox : ∀ c ∈ W.m.constraints, c.kind ≠ .equal → |(F c).value τ - (G c).value τ| ≤ 10 ^ 8) :
    W.m.NoWorseD o γ t τ := by
  by_cases hne : W.m.objective = .empty
  · unfold Model.NoWorseD; rw [hne]; trivial
  obtain ⟨sp, k, hsp, -, hres⟩ := solve_ok hs
  rcases hres with ⟨_, -, hbad⟩ | ⟨st, sol, primals, duals, hsol', hx, hmod⟩
  · injection hbad with hbad; cases hbad
  injection hmod with _ hmod
  subst hmod
  obtain ⟨hp, k', comp, e, ps, cols, xes, ves, hf, -⟩ := hr.facts hsp
  obtain ⟨hcosts, -⟩ := linear_probD hf hc ho
  obtain ⟨q, hq, c, xs, hcc, hxs, hlen, hopt⟩ := hsol sp st sol ⟨k, hsp, hsol'⟩
  rw [hcosts] at hcc
  injection hcc with hcc
  subst hcc
  have hv := hf.view hq
  have hnx : q.nx = cols.length := by simp [Minlp.nx, hv.a, stdA, Coo.cols]
  rw [hnx] at hlen
  have hvar : ∀ x, W.m.HasVar x → x ∈ cols := fun x hx => (hf.mem x).2 (hf.mf.col_of_hasVar f64_neg_ne hx)
  have htv : ∀ x, W.m.HasVar x → colValD cols xs x = t x.id := by
    intro x hxv
    have hxm := hvar x hxv
    obtain ⟨a, h1, h2⟩ := ht x hxv
    change mapEnv primals x.id = _ at h1
    rw [hx.env hf, pointEnv_col hf.cok hxm] at h1
    obtain ⟨h3, h4⟩ := List.getElem?_eq_some_iff.1 (colValD_get hf.cok hlen hxm)
    obtain ⟨h5, h6⟩ := List.getElem?_eq_some_iff.1 h1
    rw [← h4]
    rw [← h6] at h2
    exact F64.value_unique (List.forall₂_iff_get.1 hxs |>.2 _ h5 h3) h2
  have hlift := (lift_pointD hf hc hτ hbox hsbox (η := 0) fun x hx hi => (hint x hx hi).imp fun z hz => by rw [hz, sub_self, abs_zero]).congr hf
    (w := colValD cols (cols.map (liftD ps τ))) fun x hx => (colValD_map hf.cok _ hx).symm
  have hle := hopt _ ((hf.pointD hq).2 ⟨by simp, hlift⟩)
  obtain ⟨o', hw, hse, hval⟩ := objective_saysD hf ho hne
  have c1 := cost_value hf hw hse hlen htv
  have c2 := cost_value hf hw hse (xs := cols.map (liftD ps τ)) (by simp) (t := τ) fun x hx => by
    rw [colValD_map hf.cok _ (hvar x hx), liftD_var hf hx]
  unfold Model.NoWorseD
  rcases hval with ⟨⟨f, hob⟩, hval⟩ | ⟨⟨f, hob⟩, hval⟩ <;> rw [hob]
  all_goals
    simp only
    rw [hval] at c1 c2
    linarith

end

section Examples
attribute [local instance] exLibm

/-! ## An example: maximise `0.1 * x + y` subject to `0.1 * x + y <= 0.3`, `x >= 0`, `y >= 0`, where 0.1 and 0.3 are the doubles closest to these
numbers -/

/-- The program. -/
def exF : List (Cmd F64) :=
  [.expr (.var "x" .continuous), .expr (.var "y" .continuous), .expr (.scalarMul (dbl 0.1) 0), .expr (.add 2 1),
   .cmpNodeScalar .lessEqual 3 (dbl 0.3) "", .cmpNodeScalar .greaterEqual 0 (dbl 0) "", .cmpNodeScalar .greaterEqual 1 (dbl 0) "",
   .newModel, .maximize 3, .addConstraints [0, 1, 2]]

def exFx : Node F64 := .var 0 "x" .continuous
def exFy : Node F64 := .var 1 "y" .continuous
def exFt : Node F64 := (gotD (sMul (dbl 0.1) exFx 2)).1
def exFe : Node F64 := (gotD (addN exFt exFy 4)).1

/-- The doubles closest to 0.1 and 0.3. -/
def exF1 : ℚ := 3602879701896397 / 2 ^ 55
def exF3 : ℚ := 5404319552844595 / 2 ^ 54

theorem exF1_value : (dbl 0.1).HasValue exF1 := F64.value_iff.1 (by decide +kernel)
theorem exF3_value : (dbl 0.3).HasValue exF3 := F64.value_iff.1 (by decide +kernel)
theorem exF0_value : (dbl 0).HasValue 0 := F64.value_iff.1 (by decide +kernel)

theorem exF_reach : ReachableW HashOrder.listOrder (worldD exF) (countD exF) :=
  (runsD_reachable (by decide +kernel) (by decide +kernel)).reachable

theorem exF_constraints : (worldD exF).m.constraints =
    [⟨6, exFe, .lessEqual, .const 5 (dbl 0.3), ""⟩, ⟨8, exFx, .greaterEqual, .const 7 (dbl 0), ""⟩, ⟨10, exFy, .greaterEqual, .const 9 (dbl 0), ""⟩] := by
  decide +kernel

theorem exF_objective : (worldD exF).m.objective = .maximize exFe := by decide +kernel

/-- The written formulas. -/
def exFF (c : Constraint F64) : TermForm :=
  if c.id = 6 then ⟨scaleTerms exF1 [(0, 1)] ++ [(1, 1)], exF1 * 0 + 0⟩ else if c.id = 8 then ⟨[(0, 1)], 0⟩ else ⟨[(1, 1)], 0⟩
def exFG (c : Constraint F64) : TermForm := if c.id = 6 then ⟨[], exF3⟩ else ⟨[], 0⟩

theorem exFe_writes : WritesTerms exFe (scaleTerms exF1 [(0, 1)] ++ [(1, 1)]) (exF1 * 0 + 0) := by
  have hx : WritesTerms exFx [(0, 1)] 0 := .var (n := 0) rfl
  have hy : WritesTerms exFy [(1, 1)] 0 := .var (n := 1) rfl
  have h1 : WritesTerms exFt (scaleTerms exF1 [(0, 1)]) (exF1 * 0) :=
    .scalarMul hx exF1_value (by simpa using F64.double_of_value exF1_value) (by rw [mul_zero]; exact isDouble_zero) (gotD_ok (by decide +kernel))
  exact .add h1 hy (by rw [mul_zero, add_zero]; exact isDouble_zero) (gotD_ok (n := 4) (by decide +kernel))

theorem exFe_sums (i : ℕ) : SumsExact (scaleTerms exF1 [(0, 1)] ++ [(1, 1)]) i := by
  refine sumsExact_of_once exFe_writes ?_
  rcases coefsOf_nodup (L := scaleTerms exF1 [(0, 1)] ++ [(1, 1)]) (by decide +kernel) i with h | ⟨t, -, h⟩ <;> rw [h] <;> simp

theorem exF_says : ∀ c ∈ (worldD exF).m.constraints, c.SaysD (exFF c) (exFG c) := by
  have hx : WritesTerms exFx [(0, 1)] 0 := .var (n := 0) rfl
  have hy : WritesTerms exFy [(1, 1)] 0 := .var (n := 1) rfl
  intro c hc
  rw [exF_constraints] at hc
  simp only [List.mem_cons, List.not_mem_nil, or_false] at hc
  rcases hc with rfl | rfl | rfl
  · refine ⟨exFe_writes, .const exF3_value (n := 5) rfl, ?_, fun i => ?_⟩
    · show IsDouble (exF1 * 0 + 0 - exF3)
      have : exF1 * 0 + 0 - exF3 = -exF3 := by ring
      rw [this]
      exact (F64.double_of_value exF3_value).neg
    · have := exFe_sums i
      simpa [exFF, exFG, scaleTerms] using this
  · refine ⟨hx, .const exF0_value (n := 7) rfl, ?_, fun i => ?_⟩
    · show IsDouble (0 - 0)
      rw [sub_zero]; exact isDouble_zero
    · show SumsExact ([(0, 1)] ++ []) i
      rw [List.append_nil]
      refine sumsExact_of_once hx ?_
      rcases coefsOf_nodup (L := [(0, (1 : ℚ))]) (by decide +kernel) i with h | ⟨t, -, h⟩ <;> rw [h] <;> simp
  · refine ⟨hy, .const exF0_value (n := 9) rfl, ?_, fun i => ?_⟩
    · show IsDouble (0 - 0)
      rw [sub_zero]; exact isDouble_zero
    · show SumsExact ([(1, 1)] ++ []) i
      rw [List.append_nil]
      refine sumsExact_of_once hy ?_
      rcases coefsOf_nodup (L := [(1, (1 : ℚ))]) (by decide +kernel) i with h | ⟨t, -, h⟩ <;> rw [h] <;> simp

/-- A solver that answers: slack 0, `x = 0`, `y = 0.3`. -/
def exFsolver : SolverFn F64 := fun _ => .ok (.ok (.solved, ⟨[dbl 0, dbl 0, dbl 0.3], [dbl 0], [], [dbl 0, dbl 0, dbl 0], [dbl 0, dbl 0, dbl 0]⟩))

/-- Its point. -/
def exFxs : List ℚ := [0, 0, exF3]

/-- The standard problem: minimise `-0.1 x - y` subject to `-s + 0.1 x + y = 0.3`, `s <= 0`, `x >= 0`, `y >= 0`. -/
def exFdata (sp : StdProb F64) : Bool :=
  sp.prob.views.all (fun q : Minlp F64 =>
    q.a.triplets.map (fun t : ℕ × ℕ × F64 => (t.1, t.2.1, t.2.2.value)) = [(0, 1, some exF1), (0, 2, some 1), (0, 0, some (-1))] &&
    q.b.map F64.value = [some exF3] && q.l.map F64.value = [some (-10 ^ 8), some 0, some 0] && q.u.map F64.value = [some 0, some (10 ^ 8), some (10 ^ 8)] &&
    q.p = [false, false, false] && q.nx = 3) &&
  !sp.prob.views.isEmpty &&
  sp.prob.costsD.map (fun c : List F64 => c.map F64.value) = some [some 0, some (-exF1), some (-1)]

theorem exF_data : (match (worldD exF).m.stdProblem HashOrder.listOrder (countD exF) with
    | .ok r => exFdata r.1
    | .error _ => false) = true := by decide +kernel

/-- What a point of the standard problem of the example satisfies. -/
theorem exF_solves {sp st sol} (h : (worldD exF).m.SolvedBy HashOrder.listOrder (countD exF) exFsolver sp st sol) :
    ∃ q ∈ sp.prob.views, ∃ c, sp.prob.costsD = some c ∧ List.Forall₂ F64.HasValue sol.x exFxs ∧ q.WithinD 0 0 0 exFxs ∧
      ∀ ys, q.WithinD 0 0 0 ys → costD c exFxs ≤ costD c ys + 0 := by
  obtain ⟨k, hsp, hsol⟩ := h
  cases hsol
  have hd := exF_data
  rw [hsp] at hd
  simp only [exFdata, Bool.and_eq_true, List.all_eq_true, decide_eq_true_eq, Bool.not_eq_true'] at hd
  obtain ⟨⟨hall, hne⟩, hcost⟩ := hd
  obtain ⟨q, hq⟩ := List.exists_mem_of_ne_nil sp.prob.views (by rintro h; rw [h] at hne; simp at hne)
  obtain ⟨⟨⟨⟨⟨ha, hb⟩, hl⟩, hu⟩, hp⟩, hnx⟩ := hall q hq
  obtain ⟨c, hc, hcv⟩ := Option.map_eq_some_iff.1 hcost
  -- the lists of numbers
  obtain ⟨c0, c1, c2, rfl⟩ : ∃ c0 c1 c2, c = [c0, c1, c2] := by
    revert hcv
    match c with
    | [c0, c1, c2] => exact fun _ => ⟨c0, c1, c2, rfl⟩
    | [] => simp
    | [_] => simp
    | [_, _] => simp
    | _ :: _ :: _ :: _ :: _ => simp
  obtain ⟨l0, l1, l2, hl'⟩ : ∃ l0 l1 l2, q.l = [l0, l1, l2] := by
    revert hl
    match q.l with
    | [c0, c1, c2] => exact fun _ => ⟨c0, c1, c2, rfl⟩
    | [] => simp
    | [_] => simp
    | [_, _] => simp
    | _ :: _ :: _ :: _ :: _ => simp
  obtain ⟨u0, u1, u2, hu'⟩ : ∃ l0 l1 l2, q.u = [l0, l1, l2] := by
    revert hu
    match q.u with
    | [c0, c1, c2] => exact fun _ => ⟨c0, c1, c2, rfl⟩
    | [] => simp
    | [_] => simp
    | [_, _] => simp
    | _ :: _ :: _ :: _ :: _ => simp
  obtain ⟨b0, hb'⟩ : ∃ b0, q.b = [b0] := by
    revert hb
    match q.b with
    | [c0] => exact fun _ => ⟨c0, rfl⟩
    | [] => simp
    | _ :: _ :: _ => simp
  obtain ⟨⟨r0, k0, a0⟩, ⟨r1, k1, a1⟩, ⟨r2, k2, a2⟩, ha'⟩ : ∃ t0 t1 t2, q.a.triplets = [t0, t1, t2] := by
    revert ha
    match q.a.triplets with
    | [c0, c1, c2] => exact fun _ => ⟨c0, c1, c2, rfl⟩
    | [] => simp
    | [_] => simp
    | [_, _] => simp
    | _ :: _ :: _ :: _ :: _ => simp
  rw [hl'] at hl
  rw [hu'] at hu
  rw [hb'] at hb
  rw [ha'] at ha
  simp only [List.map_cons, List.map_nil, List.cons.injEq, and_true, Prod.mk.injEq] at hl hu hb ha hcv
  obtain ⟨⟨rfl, rfl, ha0⟩, ⟨rfl, rfl, ha1⟩, rfl, rfl, ha2⟩ := ha
  rw [F64.value_iff] at ha0 ha1 ha2 hb
  obtain ⟨hl0, hl1, hl2⟩ := hl
  obtain ⟨hu0, hu1, hu2⟩ := hu
  obtain ⟨hc0, hc1, hc2⟩ := hcv
  rw [F64.value_iff] at hl0 hl1 hl2 hu0 hu1 hu2 hc0 hc1 hc2
  have hrow : ∀ ys : List ℚ, ((rowOf q.a.triplets 0).map fun e => e.2.val * ys.getD e.1 0).sum = exF1 * ys.getD 1 0 + ys.getD 2 0 - ys.getD 0 0 := by
    intro ys
    rw [ha']
    simp [rowOf, F64.val_of ha0, F64.val_of ha1, F64.val_of ha2]
    ring
  refine ⟨q, hq, _, hc, ?_, ?_, ?_⟩
  · exact .cons exF0_value (.cons exF0_value (.cons exF3_value .nil))
  · constructor
    · rw [hnx]; rfl
    · intro i a y hi hy _
      rw [hb'] at hi
      match i with
      | 0 =>
        simp only [List.getElem?_cons_zero, Option.some.injEq] at hi
        subst hi
        rw [hrow, F64.value_unique hy hb]
        simp [exFxs]
      | i + 1 => simp at hi
    · intro i x lo hx hlo
      rw [hl'] at hlo
      match i with
      | 0 =>
        simp [exFxs] at hx hlo
        subst hx hlo
        rw [F64.atLeast_value hl0]; norm_num
      | 1 =>
        simp [exFxs] at hx hlo
        subst hx hlo
        rw [F64.atLeast_value hl1]; norm_num
      | 2 =>
        simp [exFxs] at hx hlo
        subst hx hlo
        rw [F64.atLeast_value hl2]; norm_num [exF3]
      | i + 3 => simp [exFxs] at hx
    · intro i x lo hx hlo
      rw [hu'] at hlo
      match i with
      | 0 =>
        simp [exFxs] at hx hlo
        subst hx hlo
        rw [F64.atMost_value hu0]; norm_num
      | 1 =>
        simp [exFxs] at hx hlo
        subst hx hlo
        rw [F64.atMost_value hu1]; norm_num
      | 2 =>
        simp [exFxs] at hx hlo
        subst hx hlo
        rw [F64.atMost_value hu2]; norm_num [exF3]
      | i + 3 => simp [exFxs] at hx
    · intro i x hx hi
      rw [hp] at hi
      match i with
      | 0 => simp at hi
      | 1 => simp at hi
      | 2 => simp at hi
      | i + 3 => simp at hi
  · intro ys hy
    have hlen := hy.len
    rw [hnx] at hlen
    match ys, hlen with
    | [y0, y1, y2], _ =>
      have h1 := hy.rows 0 b0 exF3 (by rw [hb']; rfl) hb (by
        rw [ha']
        intro e he
        simp [rowOf] at he
        rcases he with rfl | rfl | rfl
        · exact ⟨_, ha0⟩
        · exact ⟨_, ha1⟩
        · exact ⟨_, ha2⟩)
      rw [hrow] at h1
      have h2 := hy.upper 0 y0 u0 rfl (by rw [hu']; rfl)
      rw [F64.atMost_value hu0] at h2
      have h3 := abs_nonpos_iff.1 h1
      simp only [List.getD_cons_zero, List.getD_cons_succ] at h3
      simp [costD, exFxs, F64.val_of hc0, F64.val_of hc1, F64.val_of hc2]
      linarith

theorem exFe_eq : exFe = .add 4 [.mul 3 (.const 2 (dbl 0.1)) exFx, exFy] := by decide +kernel

theorem exF_vars {x : Node F64} (h : (worldD exF).m.HasVar x) : x = exFx ∨ x = exFy := by
  obtain ⟨hv, h⟩ := h
  have oc : ∀ i v, ¬ Occurs x (.const i v) := fun i v h => by
    rw [occurs_iff] at h
    simp only [Node.arguments, List.not_mem_nil, false_and, exists_false, or_false] at h
    rw [h] at hv
    simp [Node.isVar] at hv
  have ov : ∀ i s k, Occurs x (.var i s k) → x = .var i s k := fun i s k h => by
    rw [occurs_iff] at h
    simpa [Node.arguments] using h
  have om : ∀ i a b, Occurs x (.mul i a b) → Occurs x a ∨ Occurs x b := fun i a b h => by
    rw [occurs_iff] at h
    rcases h with rfl | h
    · simp [Node.isVar] at hv
    · simpa [Node.arguments] using h
  have oa : ∀ i a b, Occurs x (.add i [a, b]) → Occurs x a ∨ Occurs x b := fun i a b h => by
    rw [occurs_iff] at h
    rcases h with rfl | h
    · simp [Node.isVar] at hv
    · simpa [Node.arguments] using h
  have he : Occurs x exFe → x = exFx ∨ x = exFy := by
    rw [exFe_eq]
    intro h
    rcases oa _ _ _ h with h | h
    · rcases om _ _ _ h with h | h
      · exact absurd h (oc _ _)
      · exact .inl (ov _ _ _ h)
    · exact .inr (ov _ _ _ h)
  rw [exF_objective, exF_constraints] at h
  rcases h with ⟨f, hf | hf, ho⟩ | ⟨c, hc, ho⟩
  · cases hf
  · cases hf; exact he ho
  · simp only [List.mem_cons, List.not_mem_nil, or_false] at hc
    rcases hc with rfl | rfl | rfl
    · exact ho.elim he fun h => absurd h (oc _ _)
    · exact ho.elim (fun h => .inl (ov _ _ _ h)) fun h => absurd h (oc _ _)
    · exact ho.elim (fun h => .inr (ov _ _ _ h)) fun h => absurd h (oc _ _)

/-- Non-vacuity of C76: the call succeeds, the hypotheses of `C76_feasible` and `C76_optimal` are met with all tolerances 0, and so the reported values
satisfy the constraints exactly, and are an exact optimum among all assignments within the box. -/
example : ∃ mod' n' t, (worldD exF).m.solve HashOrder.listOrder exFsolver (countD exF) = .ok ((.ok (), mod'), n') ∧ (worldD exF).m.ValuesD mod' t ∧
    (∀ c ∈ (worldD exF).m.constraints, c.kind.Rel ((exFF c).value t) ((exFG c).value t)) ∧
    ∀ τ : ℕ → ℚ, exF1 * τ 0 + τ 1 ≤ exF3 → 0 ≤ τ 0 → 0 ≤ τ 1 → |τ 0| ≤ 10 ^ 8 → |τ 1| ≤ 10 ^ 8 → exF1 * τ 0 + τ 1 ≤ exF1 * t 0 + t 1 := by
  have hok : (match (worldD exF).m.solve HashOrder.listOrder exFsolver (countD exF) with
    | .ok ((.ok (), _), _) => true
    | _ => false) = true := by decide +kernel
  obtain ⟨mod', n', hs⟩ : ∃ mod' n', (worldD exF).m.solve HashOrder.listOrder exFsolver (countD exF) = .ok ((.ok (), mod'), n') := by
    revert hok
    generalize (worldD exF).m.solve HashOrder.listOrder exFsolver (countD exF) = r
    match r with
    | .ok ((.ok (), mod'), n') => exact fun _ => ⟨mod', n', rfl⟩
    | .ok ((.error _, _), _) => simp
    | .error _ => simp
  obtain ⟨⟨t, ht⟩, hall⟩ := C76_feasible exF_reach hs (δ := 0) (ε := 0) (η := 0) le_rfl fun sp st sol h => by
    obtain ⟨q, hq, c, -, hx, hw, -⟩ := exF_solves h
    exact ⟨q, hq, _, hx, hw⟩
  refine ⟨mod', n', t, hs, ht, fun c hc => ?_, ?_⟩
  · have := (hall t ht).1 c hc _ _ (exF_says c hc)
    cases hk : c.kind <;> simp only [hk, CKind.Within, CKind.Rel, reduceCtorEq, if_true, if_false, add_zero] at this ⊢
    · exact sub_eq_zero.1 (abs_nonpos_iff.1 this)
    · exact this
    · exact this
  · intro τ h1 h2 h3 h4 h5
    have key : (worldD exF).m.NoWorseD (exFF ⟨6, exFe, .lessEqual, .const 5 (dbl 0.3), ""⟩) 0 t τ := by
      refine C76_optimal exF_reach hs exF_says (o := exFF ⟨6, exFe, .lessEqual, .const 5 (dbl 0.3), ""⟩) ?_ (fun sp st sol h => ?_) ht ?_ ?_ ?_ ?_
      · unfold Model.ObjectiveSaysD
        rw [exF_objective]
        exact ⟨exFe_writes, exFe_sums⟩
      · obtain ⟨q, hq, c, hc, hx, hw, ho⟩ := exF_solves h
        exact ⟨q, hq, c, _, hc, hx, hw.len, ho⟩
      · intro c hc
        rw [exF_constraints] at hc
        simp only [List.mem_cons, List.not_mem_nil, or_false] at hc
        rcases hc with rfl | rfl | rfl <;> simp [CKind.Rel, TermForm.value, exFF, exFG, scaleTerms, h1, h2, h3]
      · intro x hx hi
        rcases exF_vars hx with rfl | rfl <;> cases hi
      · intro x hx
        rcases exF_vars hx with rfl | rfl
        · exact h4
        · exact h5
      · intro c hc _
        have hb1 : exF1 ≤ 1 := by norm_num [exF1]
        have hb2 : 0 ≤ exF1 := by norm_num [exF1]
        have hb3 : exF3 ≤ 1 := by norm_num [exF3]
        have hb4 : 0 ≤ exF3 := by norm_num [exF3]
        have hm : 0 ≤ exF1 * τ 0 := mul_nonneg hb2 h2
        rw [exF_constraints] at hc
        simp only [List.mem_cons, List.not_mem_nil, or_false] at hc
        rcases hc with rfl | rfl | rfl
        · simp [TermForm.value, exFF, exFG, scaleTerms]
          rw [abs_le]
          constructor <;> linarith
        · simpa [TermForm.value, exFF, exFG] using h4
        · simpa [TermForm.value, exFF, exFG] using h5
    unfold Model.NoWorseD at key
    rw [exF_objective] at key
    simp [TermForm.value, exFF, scaleTerms] at key
    exact key

end Examples

end Verif
