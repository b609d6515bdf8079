import Verif.Proofs.RoundingLp64
import Verif.Props.RoundingStd64
import Verif.Props.Solve
import Verif.Props.CmdSolver
import Verif.Spec.ExampleD

/-!
# C81: linear models in double precision, from the formulas to the reported point
-/

namespace Verif

set_option linter.unusedSectionVars false

section
variable [Libm] {H : HashOrder} {W : World F64} {n n' : ℕ} {solver : SolverFn F64} {mod' : Model F64}

theorem R64.forall_get {as : List F64} {xs : List ℝ} (h : List.Forall₂ F64.Is as xs) {i : ℕ} {x : ℝ} (hx : xs[i]? = some x) :
    ∃ a, as[i]? = some a ∧ a.Is x := by
  induction h generalizing i with
  | nil => cases hx
  | cons h _ ih =>
    cases i with
    | zero =>
      simp only [List.getElem?_cons_zero, Option.some.injEq] at hx ⊢
      exact ⟨_, rfl, hx ▸ h⟩
    | succ i => exact ih hx

/-- **C81** Write a model with the operators in double precision, and solve it with any solver whose answers are finite and satisfy the rows of the problem
that it was given, taken in exact arithmetic, up to `δ`, the bounds up to `ε` and integrality up to `η`. If `solve` succeeds, every variable of the model
has a finite final value, and at these values every constraint between linear formulas, taken in exact arithmetic as it was written, holds up to `δ` (for
an equality) or `δ + ε` (for an inequality) and the rounding errors `pairErr` of its two formulas, if these stay in the range of doubles. -/
theorem C81_feasible (hr : ReachableW H W n) (hs : W.m.solve H solver n = .ok ((.ok (), mod'), n')) {δ ε η : ℝ} (hδ : 0 ≤ δ)
    (hsol : ∀ sp st sol, W.m.SolvedBy H n solver sp st sol → ∃ q ∈ sp.prob.views, ∃ xs : List ℝ, List.Forall₂ F64.Is sol.x xs ∧ q.LinearWithin64 δ ε η xs) :
    (∃ t, W.m.Values64 mod' t) ∧ ∀ t, W.m.Values64 mod' t →
      (∀ c ∈ W.m.constraints, ∀ f g, c.lhs.Says64 f → c.rhs.Says64 g → PairInRange f g →
        c.kind.Within (δ + (if c.kind = .equal then 0 else ε) + pairErr uD f g t) (f.value t) (g.value t)) ∧
      (∀ x, W.m.HasVar x → |t x.id| ≤ 10 ^ 8 + ε) ∧
      ∀ x, W.m.HasVar x → x.isInteger = true → ∃ z : ℤ, |t x.id - z| ≤ η := by
  obtain ⟨sp, k, hsp, -, hres⟩ := solve_ok hs
  rcases hres with ⟨_, -, hbad⟩ | ⟨st, sol, primals, duals, hsol', hx, hmod⟩
  · injection hbad with hbad; cases hbad
  injection hmod with _ hmod
  subst hmod
  obtain ⟨q, hq, xs, hxs, hwith⟩ := hsol _ _ _ ⟨k, hsp, hsol'⟩
  obtain ⟨hp, k', comp, e, ps, cols, xes, ves, hf, -⟩ := hr.facts hsp
  obtain ⟨hlen, hpt⟩ := (hf.pointFacts64 hq).1 hwith
  have hneg : (negOne ==. (zero : F64)) = false := by
    rfl
  have hvar : ∀ x, W.m.HasVar x → x ∈ cols := fun x hx => (hf.mem x).2 (hf.mf.col_of_hasVar hneg hx)
  have henv : ∀ x ∈ cols, ∃ a, mapEnv primals x.id = some a ∧ a.Is (colVal64 cols xs x) := by
    intro x hxm
    rw [hx.env hf, pointEnv_col hf.cok hxm]
    exact R64.forall_get hxs (colVal64_get hf.cok hlen hxm)
  refine ⟨?_, fun t ht => ?_⟩
  · classical
    refine ⟨fun i => if hi : ∃ x ∈ cols, x.id = i then colVal64 cols xs hi.choose else 0, fun x hxv => ?_⟩
    have hxm := hvar x hxv
    have hi : ∃ y ∈ cols, y.id = x.id := ⟨x, hxm, rfl⟩
    have he : hi.choose = x := (hf.cok.good _ hi.choose_spec.1).eq_of_id (hf.cok.good _ hxm) hi.choose_spec.2
    obtain ⟨a, h1, h2⟩ := henv x hxm
    refine ⟨a, h1, ?_⟩
    beta_reduce
    rw [dif_pos hi, he]
    exact h2
  · have htv : ∀ x, W.m.HasVar x → t x.id = colVal64 cols xs x := by
      intro x hxv
      obtain ⟨a, h1, h2⟩ := ht x hxv
      obtain ⟨a', h3, h4⟩ := henv x (hvar x hxv)
      change mapEnv primals x.id = _ at h1
      rw [h3] at h1
      cases h1
      exact h2.unique h4
    refine ⟨fun c hc f g hfs hgs hRg => ?_, fun x hxv => ?_, fun x hxv hi => ?_⟩
    · rw [← hf.mf.cs] at hc
      obtain ⟨p, hpm, rfl⟩ := List.mem_map.1 hc
      obtain ⟨n1, m1, hn1, -, hok⟩ := hf.mf.piece hpm
      obtain ⟨b, hb, hnum, ⟨x, hk, -, hbnd, herr⟩ | ⟨hk, hlin, -, herr⟩ | ⟨s, hlin, hsl, hbnd, herr⟩⟩ :=
        hf.pieceErr64 hpm hfs hgs hRg (v := colVal64 cols xs) fun x hx => (htv x hx).symm
      · have hbd := hpt.bounds p hpm _ _ _ hbnd
        obtain ⟨h1, h2⟩ := abs_le.1 herr
        have hne : p.c.kind ≠ .equal := by rw [Ne, hok.equal, hbnd]; simp
        cases hkk : p.c.kind
        · exact absurd hkk hne
        all_goals
          simp only [hkk, CKind.Within, reduceCtorEq, decide_true, decide_false, if_true, if_false, Bool.false_eq_true] at hbd ⊢
          simp only [F64.above_is (F64.is_neg hb), F64.below_is (F64.is_neg hb)] at hbd
          linarith
      · have hrow := hpt.rows p hpm hlin b hb hnum
        simp only [hk, CKind.Within, if_true, add_zero]
        have e1 : f.value t - g.value t = ((p.coefs.map fun q => q.2.toReal * colVal64 cols xs q.1).sum + b) -
          (((p.coefs.map fun q => q.2.toReal * colVal64 cols xs q.1).sum + b) - (f.value t - g.value t)) := by ring
        rw [e1]
        exact (abs_sub _ _).trans (add_le_add hrow herr)
      · have hrow := hpt.rows p hpm hlin b hb hnum
        have hbd := hpt.bounds p hpm _ _ _ hbnd
        obtain ⟨h1, h2⟩ := abs_le.1 herr
        obtain ⟨h3, h4⟩ := abs_le.1 hrow
        have hne : p.c.kind ≠ .equal := by rw [Ne, hok.equal, hbnd]; simp
        cases hkk : p.c.kind
        · exact absurd hkk hne
        all_goals
          simp only [hkk, CKind.Within, reduceCtorEq, decide_true, decide_false, if_true, if_false, Bool.false_eq_true] at hbd ⊢
          simp only [F64.above_is F64.is_zero, F64.below_is F64.is_zero] at hbd
          linarith
    · rw [htv x hxv, abs_le]
      obtain ⟨h1, h2⟩ := hpt.box x (hvar x hxv)
      exact ⟨by linarith, h2⟩
    · rw [htv x hxv]
      exact hpt.integral x (hvar x hxv) hi

/-- A model of linear formulas becomes a linear problem: rounding errors never make it a nonlinear one. -/
theorem C81_linear (hr : ReachableW H W n) {sp : StdProb F64} {m : ℕ} (hsp : W.m.stdProblem H n = .ok (sp, m))
    {F G : Constraint F64 → LinForm} (hc : ∀ c ∈ W.m.constraints, c.lhs.Says64 (F c) ∧ c.rhs.Says64 (G c)) (hRg : ∀ c ∈ W.m.constraints, PairInRange (F c) (G c)) {o : LinForm} (ho : W.m.ObjectiveSays64 o) :
    (∃ q, sp.prob = .lp q) ∨ ∃ q, sp.prob = .milp q := by
  obtain ⟨hp, k', comp, e, ps, cols, xes, ves, hf, -⟩ := hr.facts hsp
  exact (linear_prob64 hf hc hRg ho).2

/-- Conversely, rounding errors cannot make a model of linear formulas infeasible by more than their size: an assignment `τ` that satisfies the
constraints, in exact arithmetic and as they were written, and the box that the library imposes, gives a point that satisfies every face of the standard
problem up to the rounding errors. -/
theorem C81_point (hr : ReachableW H W n) {sp : StdProb F64} {m : ℕ} (hsp : W.m.stdProblem H n = .ok (sp, m)) {E η : ℝ} (hE0 : 0 ≤ E)
    {F G : Constraint F64 → LinForm} (hc : ∀ c ∈ W.m.constraints, c.lhs.Says64 (F c) ∧ c.rhs.Says64 (G c)) (hRg : ∀ c ∈ W.m.constraints, PairInRange (F c) (G c)) {τ : ℕ → ℝ}
    (hτ : ∀ c ∈ W.m.constraints, c.kind.Rel ((F c).value τ) ((G c).value τ))
    (hint : ∀ x, W.m.HasVar x → x.isInteger = true → ∃ z : ℤ, |τ x.id - z| ≤ η)
    (hbox : ∀ x, W.m.HasVar x → |τ x.id| ≤ 10 ^ 8)
    (hsbox : ∀ c ∈ W.m.constraints, c.kind ≠ .equal → |(F c).value τ - (G c).value τ| ≤ 10 ^ 8)
    (hE : ∀ c ∈ W.m.constraints, pairErr uD (F c) (G c) τ ≤ E) :
    ∃ xs : List ℝ, (∀ q ∈ sp.prob.views, q.LinearWithin64 E E η xs) ∧
      ∀ x, W.m.HasVar x → ∃ i, (x, i) ∈ sp.var2index ∧ xs[i]? = some (τ x.id) := by
  obtain ⟨hp, k', comp, e, ps, cols, xes, ves, hf, -⟩ := hr.facts hsp
  have hlift := (lift_facts64 hf hc hRg hE0 hE hτ hbox hsbox hint).congr hf (w := colVal64 cols (cols.map (liftVal64 ps τ)))
    fun x hx => (colVal64_map hf.cok _ hx).symm
  refine ⟨_, fun q hq => (hf.pointFacts64 hq).2 ⟨by simp, hlift⟩, fun x hx => ?_⟩
  have hneg : (negOne ==. (zero : F64)) = false := by
    rfl
  have hxc := (hf.mem x).2 (hf.mf.col_of_hasVar hneg hx)
  refine ⟨colOf cols x, ?_, ?_⟩
  · rw [hf.v2i]
    exact List.mk_mem_zipIdx_iff_getElem?.2 (hf.cok.col hxc).2
  · rw [List.getElem?_map, (hf.cok.col hxc).2, Option.map_some, liftVal64_var hf hx]

/-- **C81, optimality.** If, in addition, all constraints and the objective are linear formulas, and for each answer of the solver there are multipliers
with which it satisfies the optimality conditions of the problem that the solver was given up to tolerances, then at the final values the objective, taken
in exact arithmetic as it was written, is at most the given amount worse than at any assignment `τ` that satisfies the constraints exactly as they were
written and stays within the box that the library imposes. `N` is the number of columns, `Λ` and `Γ` bound the multipliers, `R` bounds the distance from
`τ`, and `E` the rounding errors of the constraints. -/
theorem C81_optimal (hr : ReachableW H W n) (hs : W.m.solve H solver n = .ok ((.ok (), mod'), n')) {δ ε η ρ κ Λ Γ R E : ℝ} {N : ℕ}
    (hδ : 0 ≤ δ) (hE0 : 0 ≤ E) {F G : Constraint F64 → LinForm} (hc : ∀ c ∈ W.m.constraints, c.lhs.Says64 (F c) ∧ c.rhs.Says64 (G c)) (hRg : ∀ c ∈ W.m.constraints, PairInRange (F c) (G c))
    {o : LinForm} (ho : W.m.ObjectiveSays64 o)
    (hsol : ∀ sp st sol c, W.m.SolvedBy H n solver sp st sol → sp.prob.costs = some c → sp.var2index.length = N ∧
      ∃ q ∈ sp.prob.views, ∃ xs lam mu pi : List ℝ, List.Forall₂ F64.Is sol.x xs ∧ q.LinearKkt64 c δ ε η ρ κ xs lam mu pi ∧
        ∑ i ∈ Finset.range q.na, |lam.getD i 0| ≤ Λ ∧ ∑ j ∈ Finset.range N, (mu.getD j 0 + pi.getD j 0) ≤ Γ)
    {t τ : ℕ → ℝ} (ht : W.m.Values64 mod' t) (hτ : ∀ c ∈ W.m.constraints, c.kind.Rel ((F c).value τ) ((G c).value τ))
    (hbox : ∀ x, W.m.HasVar x → |τ x.id| ≤ 10 ^ 8)
    (hsbox : ∀ c ∈ W.m.constraints, c.kind ≠ .equal → |(F c).value τ - (G c).value τ| ≤ 10 ^ 8)
    (hR : ∀ x, W.m.HasVar x → |t x.id - τ x.id| ≤ R)
    (hR' : ∀ c ∈ W.m.constraints, c.kind ≠ .equal → |((F c).value t - (G c).value t) - ((F c).value τ - (G c).value τ)| ≤ R)
    (hE : ∀ c ∈ W.m.constraints, pairErr uD (F c) (G c) t ≤ E ∧ pairErr uD (F c) (G c) τ ≤ E) :
    W.m.NoWorse o (N * (ρ * (R + δ + 2 * E) + 2 * κ) + (δ + E) * Λ + E * Γ + objErr uD o t + objErr uD o τ) t τ := by
  by_cases hne : W.m.objective = .empty
  · unfold Model.NoWorse; rw [hne]; trivial
  obtain ⟨sp, k, hsp, -, hres⟩ := solve_ok hs
  rcases hres with ⟨_, -, hbad⟩ | ⟨st, sol, primals, duals, hsol', hx, hmod⟩
  · injection hbad with hbad; cases hbad
  injection hmod with _ hmod
  subst hmod
  obtain ⟨hp, k', comp, e, ps, cols, xes, ves, hf, -⟩ := hr.facts hsp
  obtain ⟨hcosts, -⟩ := linear_prob64 hf hc hRg ho
  obtain ⟨hN, q, hq, xs, lam, mu, pi, hxs, hkkt, hΛ, hΓ⟩ := hsol sp st sol _ ⟨k, hsp, hsol'⟩ hcosts
  have hN' : cols.length = N := by rw [← hN, hf.v2i]; simp
  obtain ⟨hlen, hpt⟩ := (hf.pointFacts64 hq).1 hkkt.within
  have hv := hf.view hq
  have hnx : q.nx = N := by rw [← hN']; simp [Minlp.nx, hv.a, stdA, Coo.cols]
  have hneg : (negOne ==. (zero : F64)) = false := by
    rfl
  have hvar : ∀ x, W.m.HasVar x → x ∈ cols := fun x hx => (hf.mem x).2 (hf.mf.col_of_hasVar hneg hx)
  have htv : ∀ x, W.m.HasVar x → t x.id = colVal64 cols xs x := by
    intro x hxv
    obtain ⟨a, h1, h2⟩ := ht x hxv
    change mapEnv primals x.id = _ at h1
    rw [hx.env hf, pointEnv_col hf.cok (hvar x hxv)] at h1
    obtain ⟨a', h3, h4⟩ := R64.forall_get hxs (colVal64_get hf.cok hlen (hvar x hxv))
    rw [h3] at h1
    cases h1
    exact h2.unique h4
  -- the point of `τ`
  have hlift := (lift_facts64 hf hc hRg hE0 (fun c hc => (hE c hc).2) hτ hbox hsbox (η := 1 / 2)
    fun x _ _ => ⟨round (τ x.id), abs_sub_round _⟩).congr hf (w := colVal64 cols (cols.map (liftVal64 ps τ)))
    fun x hx => (colVal64_map hf.cok _ hx).symm
  have hy := (hf.pointFacts64 hq).2 ⟨by simp, hlift⟩
  have hps : ∀ p ∈ ps, p.c ∈ W.m.constraints := fun p hp => by rw [← hf.mf.cs]; exact List.mem_map_of_mem hp
  -- distances
  have hD : ∀ x ∈ cols, |colVal64 cols xs x - liftVal64 ps τ x| ≤ R + δ + 2 * E := by
    intro x hxc
    rcases (hf.mem x).1 hxc with hold | hsl
    · have hxv : W.m.HasVar x := by
        obtain ⟨hv, ho | ⟨p, hp, ho⟩⟩ := hold
        · exact hf.mf.objVar hv ho
        · exact hf.mf.pieceVar hp hv ho
      rw [liftVal64_var hf hxv, ← htv x hxv]
      linarith [hR x hxv]
    · obtain ⟨p, hp', hs⟩ := List.mem_filterMap.1 hsl
      obtain ⟨n1, m1, -, -, hok⟩ := hf.mf.piece hp'
      have hpc := hps p hp'
      have hne : p.c.kind ≠ .equal := by rw [Ne, hok.equal, Piece.bnd_slack hs]; simp
      have hr1 := hR' _ hpc hne
      obtain ⟨he1, he2⟩ := hE _ hpc
      have g1 : |colVal64 cols xs x - ((F p.c).value t - (G p.c).value t)| ≤ δ + E := by
        obtain ⟨b, hb, hnum, ⟨y, hk, -⟩ | ⟨-, -, hs', -⟩ | ⟨s', hlin, hs', -, herr⟩⟩ :=
          hf.pieceErr64 hp' (hc _ hpc).1 (hc _ hpc).2 (hRg _ hpc) (v := colVal64 cols xs) fun x hx => (htv x hx).symm
        · simp [Piece.slack, hk] at hs
        · rw [hs] at hs'; cases hs'
        · rw [hs] at hs'
          injection hs' with hs'
          subst hs'
          have hrow := hpt.rows p hp' hlin b hb hnum
          obtain ⟨h1, h2⟩ := abs_le.1 herr
          obtain ⟨h3, h4⟩ := abs_le.1 hrow
          rw [abs_le]
          constructor <;> linarith
      have g2 : |liftVal64 ps τ x - ((F p.c).value τ - (G p.c).value τ)| ≤ E := by
        obtain ⟨b, hb, hnum, ⟨y, hk, -⟩ | ⟨-, -, hs', -⟩ | ⟨s', hlin, hs', -, herr⟩⟩ :=
          hf.pieceErr64 hp' (hc _ hpc).1 (hc _ hpc).2 (hRg _ hpc) (t := τ) (v := liftVal64 ps τ) fun x hx => liftVal64_var hf hx τ
        · simp [Piece.slack, hk] at hs
        · rw [hs] at hs'; cases hs'
        · rw [hs] at hs'
          injection hs' with hs'
          subst hs'
          have hrow := liftVal64_row hf hp' hs hlin τ
          rw [hb.toReal] at hrow
          rw [hrow, zero_add] at herr
          exact herr.trans he2
      obtain ⟨a1, a2⟩ := abs_le.1 g1
      obtain ⟨a3, a4⟩ := abs_le.1 g2
      obtain ⟨a5, a6⟩ := abs_le.1 hr1
      rw [abs_le]
      constructor <;> linarith
  -- numbers of the problem
  have hcolj : ∀ j < N, ∃ x ∈ cols, cols[j]? = some x ∧ colOf cols x = j := by
    intro j hj
    have hlt : j < cols.length := by omega
    exact ⟨cols[j], List.getElem_mem hlt, List.getElem?_eq_getElem hlt, hf.cok.col_get hlt⟩
  have hbnum : ∀ i < q.na, ∃ c y, q.b[i]? = some c ∧ c.Is y := by
    intro i hi
    have hm := List.getElem_mem (l := q.b) hi
    rw [List.getElem?_eq_getElem (l := q.b) hi]
    generalize q.b[i]'hi = w at hm
    rw [hv.b, hf.mf.constr] at hm
    simp only [ConstrComp.concat, List.flatMap_map, List.mem_flatMap] at hm
    obtain ⟨p, hp', hm⟩ := hm
    obtain ⟨n1, m1, -, -, hok⟩ := hf.mf.piece hp'
    obtain ⟨b, hb, -⟩ := hok.linErr64 (hc _ (hps p hp')).1 (hc _ (hps p hp')).2 (hRg _ (hps p hp')) 0
    simp only [Piece.out] at hm
    split at hm
    · rw [List.mem_singleton] at hm
      exact ⟨_, -b, rfl, by rw [hm]; exact F64.is_neg hb⟩
    · cases hm
  have hrnum : ∀ i, ∀ e ∈ rowOf q.a.triplets i, ∃ v, e.2.Is v := by
    intro i e' he'
    rw [hv.a, rowOf_stdA] at he'
    obtain ⟨d, hd, rfl⟩ := List.mem_map.1 he'
    unfold entriesOf at hd
    obtain ⟨d', hd', rfl⟩ := List.mem_map.1 hd
    have hd' := (List.mem_filter.1 hd').1
    rw [hf.mf.constr] at hd'
    simp only [ConstrComp.concat, List.flatMap_map, List.mem_flatMap] at hd'
    obtain ⟨p, hp', hm⟩ := hd'
    simp only [Piece.out, List.mem_map] at hm
    obtain ⟨c', hc', rfl⟩ := hm
    obtain ⟨b, -, hnum, -⟩ := hf.pieceErr64 hp' (hc _ (hps p hp')).1 (hc _ (hps p hp')).2 (hRg _ (hps p hp')) (t := τ) (v := liftVal64 ps τ) fun x hx => liftVal64_var hf hx τ
    exact hnum c' hc'
  have hbfin : ∀ p ∈ ps, ∀ d x b, p.bnd = some (d, x, b) → ∃ y, b.Is y := by
    intro p hp' d x b' hb'
    obtain ⟨b, hb, -, ⟨y, -, -, hbnd, -⟩ | ⟨hk, -⟩ | ⟨s', -, -, hbnd, -⟩⟩ := hf.pieceErr64 hp' (hc _ (hps p hp')).1 (hc _ (hps p hp')).2
      (hRg _ (hps p hp')) (t := τ) (v := liftVal64 ps τ) fun x hx => liftVal64_var hf hx τ
    · rw [hbnd] at hb'
      cases hb'
      exact ⟨_, F64.is_neg hb⟩
    · obtain ⟨n1, m1, -, -, hok⟩ := hf.mf.piece hp'
      rw [hok.equal, hb'] at hk
      cases hk
    · rw [hbnd] at hb'
      cases hb'
      exact ⟨_, F64.is_zero⟩
  have hunum : ∀ j < N, ∃ c y, q.u[j]? = some c ∧ c.Is y := by
    intro j hj
    obtain ⟨x, -, hxj, -⟩ := hcolj j hj
    obtain ⟨y, hy⟩ := R64.tightest_is (cmp := fun v c => v <=. c) ⟨_, F64.is_inf⟩ (es := comp.constr.u) (fun e' he' => by
      obtain ⟨p, hp', hb', -⟩ := hf.mf.upper.1 he'
      exact hbfin p hp' _ _ _ hb') x
    exact ⟨_, y, by rw [hv.u, stdU, List.getElem?_map, hxj]; rfl, hy⟩
  have hlnum : ∀ j < N, ∃ c y, q.l[j]? = some c ∧ c.Is y := by
    intro j hj
    obtain ⟨x, -, hxj, -⟩ := hcolj j hj
    obtain ⟨y, hy⟩ := R64.tightest_is (cmp := fun v c => c <=. v) ⟨_, F64.is_neg F64.is_inf⟩ (es := comp.constr.l) (fun e' he' => by
      obtain ⟨p, hp', hb', -⟩ := hf.mf.lower.1 he'
      exact hbfin p hp' _ _ _ hb') x
    exact ⟨_, y, by rw [hv.l, stdL, List.getElem?_map, hxj]; rfl, hy⟩
  let T : List (ℕ × ℕ × ℝ) := q.a.triplets.map fun e => (e.1, e.2.1, e.2.2.toReal)
  have hTrow : ∀ (zs : List ℝ) i, ((T.filter fun e => e.1 == i).map fun e => e.2.2 * zs.getD e.2.1 0).sum =
      ((rowOf q.a.triplets i).map fun e => e.2.toReal * zs.getD e.1 0).sum := by
    intro zs i
    simp only [T, rowOf, List.filter_map, List.map_map, Function.comp_def]
  have hTcol : ∀ j, ((T.filter fun e => e.2.1 == j).map fun e => e.2.2 * lam.getD e.1 0).sum =
      ((q.a.triplets.filter fun e => e.2.1 == j).map fun e => e.2.2.toReal * lam.getD e.1 0).sum := by
    intro j
    simp only [T, List.filter_map, List.map_map, Function.comp_def]
  have hTlt : ∀ e ∈ T, e.2.1 < N := by
    intro e' he'
    obtain ⟨d, hd, rfl⟩ := List.mem_map.1 he'
    rw [hv.a] at hd
    have hmem := (List.of_mem_zip (List.of_mem_zip hd).2).1
    simp only [stdA, linP, List.map_map, List.mem_map, Function.comp] at hmem
    obtain ⟨d', hd', hd''⟩ := hmem
    have := (hf.cok.col (hf.cmpOk.a d' hd')).1
    rw [← hd'']
    omega
  have hget : ∀ (zs : List ℝ), zs.length = N → ∀ j < N, zs[j]? = some (zs.getD j 0) := by
    intro zs hz j hj
    rw [List.getD_eq_getElem?_getD, List.getElem?_eq_getElem (by omega)]
    rfl
  have hxlen : xs.length = N := by omega
  have hylen : (cols.map (liftVal64 ps τ)).length = N := by simpa using hN'
  have hdual := weak_duality (N := N) (m := q.na) (T := T) hTlt (c := fun j => (((stdC cols comp)[j]?).getD zero).toReal)
    (x := fun j => xs.getD j 0) (y := fun j => (cols.map (liftVal64 ps τ)).getD j 0) (mu := fun j => mu.getD j 0) (pi := fun j => pi.getD j 0)
    (lo := fun j => ((q.l[j]?).getD zero).toReal) (up := fun j => ((q.u[j]?).getD zero).toReal) (b := fun i => ((q.b[i]?).getD zero).toReal)
    (lam := fun i => lam.getD i 0) (δ := δ) (E := E) (ρ := ρ) (κ := κ) (D := R + δ + 2 * E)
    (fun i hi => by rw [List.getD_eq_getElem?_getD, List.getElem?_eq_none (by rw [hkkt.lamLen]; exact hi)]; rfl)
    (fun i hi => by
      obtain ⟨c, y, hy, hyc⟩ := hbnum i hi
      rw [hTrow, hy, Option.getD_some, hyc.toReal]
      exact hkkt.within.rows i c y hy hyc (hrnum i))
    (fun i hi => by
      obtain ⟨c, y, hy', hyc⟩ := hbnum i hi
      rw [hTrow, hy', Option.getD_some, hyc.toReal]
      exact hy.rows i c y hy' hyc (hrnum i))
    (fun j hj => (hkkt.nonneg j (by omega)).1) (fun j hj => (hkkt.nonneg j (by omega)).2)
    (fun j hj => by
      obtain ⟨c, y, hy, hyc⟩ := hunum j hj
      rw [hy, Option.getD_some, hyc.toReal]
      exact hkkt.upper j c y hy hyc)
    (fun j hj => by
      obtain ⟨c, y, hy, hyc⟩ := hlnum j hj
      rw [hy, Option.getD_some, hyc.toReal]
      exact hkkt.lower j c y hy hyc)
    (fun j hj => by
      obtain ⟨c, y, hy', hyc⟩ := hunum j hj
      have := hy.upper j _ c (hget _ hylen j hj) hy'
      rw [F64.above_is hyc] at this
      rw [hy', Option.getD_some, hyc.toReal]
      linarith)
    (fun j hj => by
      obtain ⟨c, y, hy', hyc⟩ := hlnum j hj
      have := hy.lower j _ c (hget _ hylen j hj) hy'
      rw [F64.below_is hyc] at this
      rw [hy', Option.getD_some, hyc.toReal]
      linarith)
    (fun j hj => by
      obtain ⟨x, hxc, hxj, hxo⟩ := hcolj j hj
      have h1 := hD x hxc
      rw [← colVal64_map hf.cok (liftVal64 ps τ) hxc] at h1
      simp only [colVal64, hxo] at h1
      exact h1)
    (fun j hj => by
      rw [hTcol]
      obtain ⟨x, hxc, hxj, hxo⟩ := hcolj j hj
      have h1 : (stdC cols comp)[j]? = some (valAt comp.obj.prop.a zero x) := by rw [stdC, List.getElem?_map, hxj]; rfl
      rw [h1]
      exact hkkt.stationary j _ h1)
  -- the objective
  obtain ⟨o', hos, hmag, hops, hval⟩ := objective_says64 hf ho hne
  have hobj : ∀ zs : List ℝ, zs.length = N → ∑ j ∈ Finset.range N, (((stdC cols comp)[j]?).getD zero).toReal * zs.getD j 0 =
      (e.stdProperties.a.map fun q => q.2.toReal * colVal64 cols zs q.1).sum := by
    intro zs hz
    rw [← hf.mf.objProp.2, ← costs_sum64 hf.cok (colVal64 cols zs) comp.obj.prop.a hf.cmpOk.paNd hf.cmpOk.pa, ← hN', Finset.sum_range,
      ← List.sum_ofFn]
    congr 1
    refine List.ext_getElem (by simp) fun i h1 h2 => ?_
    simp only [List.length_map] at h2
    simp only [List.getElem_ofFn, List.getElem_map, stdC, List.getElem?_map, List.getElem?_eq_getElem h2, Option.map_some, Option.getD_some, colVal64,
      hf.cok.col_get h2]
  rw [hobj _ hxlen, hobj _ hylen] at hdual
  have hkeyv : ∀ q ∈ e.stdProperties.a, W.m.HasVar q.1 := by
    intro q' hq'
    have hk := (stdProperties_keys e).2.1 q'.1 (List.mem_map_of_mem hq')
    exact hf.mf.objVar hk.1 hk.2
  have e1 : (e.stdProperties.a.map fun q => q.2.toReal * colVal64 cols xs q.1) = e.stdProperties.a.map fun q => q.2.toReal * t q.1.id :=
    List.map_congr_left fun q hq => by rw [htv _ (hkeyv q hq)]
  have e2 : (e.stdProperties.a.map fun q => q.2.toReal * colVal64 cols (cols.map (liftVal64 ps τ)) q.1) = e.stdProperties.a.map fun q => q.2.toReal * τ q.1.id :=
    List.map_congr_left fun q hq => by rw [colVal64_map hf.cok _ (hvar _ (hkeyv q hq)), liftVal64_var hf (hkeyv q hq)]
  rw [e1, e2] at hdual
  have hpow : ∀ s, ((1 + uD) ^ o'.ops - 1) * (∑ i ∈ o'.vars, o'.size i * |s i| + o'.sizeConst) ≤ objErr uD o s := by
    intro s
    have hm : ∑ i ∈ o'.vars, o'.size i * |s i| + o'.sizeConst = o.mag s := by rw [← hmag]; rfl
    rw [hm]
    have hm0 : 0 ≤ o.mag s := by
      rw [← hmag]
      have h0 : ∀ i, 0 ≤ o'.size i := fun i => (abs_nonneg _).trans (hos.1.coef_le64 i)
      obtain ⟨y, -, -, h3⟩ := R64.writesLinear64_const hos.1
      exact add_nonneg (Finset.sum_nonneg fun i _ => mul_nonneg (h0 i) (abs_nonneg _)) ((abs_nonneg _).trans h3)
    refine mul_le_mul_of_nonneg_right ?_ hm0
    have := pow_le_pow_right₀ (show (1 : ℝ) ≤ 1 + uD by linarith [uD_nonneg]) hops
    linarith
  have f1 := (C80_function hos.1 hos.2 t).trans (hpow t)
  have f2 := (C80_function hos.1 hos.2 τ).trans (hpow τ)
  obtain ⟨g1, g2⟩ := abs_le.1 f1
  obtain ⟨g3, g4⟩ := abs_le.1 f2
  have hmul : (δ + E) * ∑ i ∈ Finset.range q.na, |lam.getD i 0| ≤ (δ + E) * Λ := mul_le_mul_of_nonneg_left hΛ (by linarith)
  have hmul' : E * ∑ j ∈ Finset.range N, (mu.getD j 0 + pi.getD j 0) ≤ E * Γ := mul_le_mul_of_nonneg_left hΓ hE0
  have hv1 : ∀ s, ∑ i ∈ o'.vars, o'.coef i * s i + o'.const = o'.value s := fun s => rfl
  rw [hv1] at g1 g2 g3 g4
  unfold Model.NoWorse
  rcases hval with ⟨⟨f, hf1⟩, hval⟩ | ⟨⟨f, hf1⟩, hval⟩
  · rw [hf1]
    simp only
    rw [hval] at g1 g2 g3 g4
    linarith
  · rw [hf1]
    simp only
    rw [hval] at g1 g2 g3 g4
    linarith


end

section Examples
attribute [local instance] exLibm

/-! ## An example: minimise `y` subject to `0.1 * (x + 3) <= y` and `x >= 0`. The constant `0.1 * 3` of the row is not computed exactly. -/

/-- The program. -/
def exG : List (Cmd F64) :=
  [.expr (.var "x" .continuous), .expr (.var "y" .continuous), .expr (.addScalar 0 (dbl 3)), .expr (.scalarMul (dbl (1 / 10)) 2),
   .cmpNodeNode .lessEqual 3 1 "", .cmpNodeScalar .greaterEqual 0 (dbl 0) "", .newModel, .minimize 1, .addConstraints [0, 1]]

def exGx : Node F64 := .var 0 "x" .continuous
def exGy : Node F64 := .var 1 "y" .continuous

theorem exG_reach : ReachableW HashOrder.listOrder (worldD exG) (countD exG) :=
  (runsD_reachable (by decide +kernel) (by decide +kernel)).reachable

theorem exG_constraints : (worldD exG).m.constraints = [⟨9, exTenth2, .lessEqual, exGy, ""⟩, ⟨11, exGx, .greaterEqual, .const 10 (dbl 0), ""⟩] := by
  decide +kernel

theorem exG_objective : (worldD exG).m.objective = .minimize exGy := by decide +kernel

/-- The formula `y`. -/
noncomputable def exGo : LinForm := ⟨{1}, Pi.single 1 1, 0, Pi.single 1 1, 0, 1⟩

/-- The formulas of the left-hand sides, `0.1 * (x + 3)` and `x`. -/
noncomputable def exGF (c : Constraint F64) : LinForm :=
  if c.kind = .lessEqual then ⟨{0}, tenth • Pi.single 0 1, tenth * (0 + 3), fun i => scaleSize tenth (1 + 2) ((Pi.single 0 1 : ℕ → ℝ) i), scaleSize tenth (1 + 2) (0 + |3|), 1 + 2 + 1⟩
  else ⟨{0}, Pi.single 0 1, 0, Pi.single 0 1, 0, 1⟩

/-- The formulas of the right-hand sides, `y` and `0`. -/
noncomputable def exGG (c : Constraint F64) : LinForm := if c.kind = .lessEqual then exGo else ⟨∅, 0, 0, 0, |0|, 1⟩

theorem exG_y : exGy.Says64 exGo :=
  ⟨.var (n := 1) (n' := 2) rfl, fun i hi => Pi.single_eq_of_ne (by simpa [exGo] using hi) 1⟩

theorem exG_zero : (dbl 0).Is 0 := F64.is_lit (q := 0) (by decide +kernel) (by norm_num)

theorem exG_says : ∀ c ∈ (worldD exG).m.constraints, c.lhs.Says64 (exGF c) ∧ c.rhs.Says64 (exGG c) := by
  intro c hc
  rw [exG_constraints] at hc
  simp only [List.mem_cons, List.not_mem_nil, or_false] at hc
  rcases hc with rfl | rfl
  · refine ⟨⟨exTenth_left, fun i hi => ?_⟩, exG_y⟩
    have hi : i ≠ 0 := by simpa [exGF] using hi
    show scaleSize tenth (1 + 2) ((Pi.single 0 1 : ℕ → ℝ) i) = 0
    rw [Pi.single_eq_of_ne hi]
    simp [scaleSize]
  · refine ⟨⟨.var (n := 0) (n' := 1) rfl, fun i hi => Pi.single_eq_of_ne (by simpa [exGF] using hi) 1⟩, ⟨.const exG_zero ?_ (n := 10) rfl, fun i _ => rfl⟩⟩
    show InRange |(0 : ℝ)| 1
    exact inRange_small (by norm_num) (by norm_num)

theorem exG_scale (i : ℕ) : scaleSize tenth (1 + 2) ((Pi.single 0 1 : ℕ → ℝ) i) ≤ 30 :=
  small_scale (k := 1 + 2) (by have := small_single 0 i; linarith) (by
    by_cases h : i = 0
    · subst h; simp
    · simp [Pi.single_eq_of_ne h]) (by norm_num)

theorem exG_scale3 : scaleSize tenth (1 + 2) (0 + |3|) ≤ 30 := small_scale (k := 1 + 2) (by norm_num) (by norm_num) (by norm_num)

theorem exG_range : ∀ c ∈ (worldD exG).m.constraints, PairInRange (exGF c) (exGG c) := by
  intro c hc
  rw [exG_constraints] at hc
  simp only [List.mem_cons, List.not_mem_nil, or_false] at hc
  rcases hc with rfl | rfl
  · refine ⟨fun i => ?_, ?_⟩
    · show InRange (scaleSize tenth (1 + 2) ((Pi.single 0 1 : ℕ → ℝ) i) + (Pi.single 1 1 : ℕ → ℝ) i) (1 + 2 + 1 + 1 + 2)
      exact inRange_small (by have := exG_scale i; have := small_single 1 i; linarith) (by norm_num)
    · show InRange (scaleSize tenth (1 + 2) (0 + |3|) + 0) (1 + 2 + 1 + 1 + 2)
      exact inRange_small (by have := exG_scale3; linarith) (by norm_num)
  · refine ⟨fun i => ?_, ?_⟩
    · show InRange ((Pi.single 0 1 : ℕ → ℝ) i + 0) (1 + 1 + 2)
      exact inRange_small (by have := small_single 0 i; linarith) (by norm_num)
    · show InRange (0 + |0|) (1 + 1 + 2)
      exact inRange_small (by norm_num) (by norm_num)

theorem exG_obj : (worldD exG).m.ObjectiveSays64 exGo := by
  unfold Model.ObjectiveSays64
  rw [exG_objective]
  exact exG_y

/-- The value of `0.1 * 3` in double precision. -/
def exG3 : ℚ := 1351079888211149 / 4503599627370496
def exG1 : ℚ := 3602879701896397 / 36028797018963968

/-- A solver that answers: slack 0, `x = 0`, `y = 0.1 * 3`. -/
def exGsolver : SolverFn F64 := fun _ =>
  .ok (.ok (.solved, ⟨[dbl 0, dbl 0, dbl exG3], [dbl (-1)], [], [dbl 1, dbl 0, dbl 0], [dbl 0, dbl 0.1, dbl 0]⟩))

/-- Its point. -/
noncomputable def exGxs : List ℝ := [0, 0, (exG3 : ℝ)]

/-- The standard problem: minimise `y` subject to `-s + 0.1 x - y = -0.3`, `s <= 0`, `x >= 0`. -/
def exGdata (sp : StdProb F64) : Bool :=
  sp.prob.views.all (fun q : Minlp F64 =>
    q.a.triplets.map (fun t : ℕ × ℕ × F64 => (t.1, t.2.1, t.2.2.value)) = [(0, 1, some exG1), (0, 2, some (-1)), (0, 0, some (-1))] &&
    q.b.map F64.value = [some (-exG3)] && q.l.map F64.value = [some (-10 ^ 8), some 0, some (-10 ^ 8)] &&
    q.u.map F64.value = [some 0, some (10 ^ 8), some (10 ^ 8)] && q.p = [false, false, false] && q.nx = 3) &&
  !sp.prob.views.isEmpty && sp.var2index.length == 3 &&
  sp.prob.costs.map (fun c : List F64 => c.map F64.value) = some [some 0, some 0, some 1]

theorem exG_data : (match (worldD exG).m.stdProblem HashOrder.listOrder (countD exG) with
    | .ok r => exGdata r.1
    | .error _ => false) = true := by decide +kernel

theorem list_of_map1 {α β : Type} {f : α → β} {l : List α} {b : β} (h : l.map f = [b]) : ∃ a, l = [a] ∧ f a = b := by
  match l, h with
  | [a], h => exact ⟨a, rfl, by simpa using h⟩
  | [], h => simp at h
  | _ :: _ :: _, h => simp at h

theorem list_of_map3 {α β : Type} {f : α → β} {l : List α} {b c d : β} (h : l.map f = [b, c, d]) :
    ∃ x y z, l = [x, y, z] ∧ f x = b ∧ f y = c ∧ f z = d := by
  match l, h with
  | [x, y, z], h => exact ⟨x, y, z, rfl, by simpa using h⟩
  | [], h => simp at h
  | [_], h => simp at h
  | [_, _], h => simp at h
  | _ :: _ :: _ :: _ :: _, h => simp at h

/-- What the answer of the solver satisfies. -/
theorem exG_solves {sp st sol} (h : (worldD exG).m.SolvedBy HashOrder.listOrder (countD exG) exGsolver sp st sol) {c : List F64}
    (hc : sp.prob.costs = some c) : sp.var2index.length = 3 ∧ ∃ q ∈ sp.prob.views, q.na = 1 ∧ List.Forall₂ F64.Is sol.x exGxs ∧
      q.LinearKkt64 c 0 0 0 0 0 exGxs [-1] [1, 0, 0] [0, exG1, 0] := by
  obtain ⟨k, hsp, hsol⟩ := h
  cases hsol
  have hd := exG_data
  rw [hsp] at hd
  simp only [exGdata, Bool.and_eq_true, List.all_eq_true, decide_eq_true_eq, Bool.not_eq_true', beq_iff_eq] at hd
  obtain ⟨⟨⟨hall, hne⟩, hv2i⟩, hcost⟩ := hd
  obtain ⟨q, hq⟩ := List.exists_mem_of_ne_nil sp.prob.views (by rintro h; rw [h] at hne; simp at hne)
  obtain ⟨⟨⟨⟨⟨ha, hb⟩, hl⟩, hu⟩, hp⟩, hnx⟩ := hall q hq
  rw [hc, Option.map_some, Option.some.injEq] at hcost
  obtain ⟨c0, c1, c2, rfl, hc0, hc1, hc2⟩ := list_of_map3 hcost
  obtain ⟨l0, l1, l2, hl', hl0, hl1, hl2⟩ := list_of_map3 hl
  obtain ⟨u0, u1, u2, hu', hu0, hu1, hu2⟩ := list_of_map3 hu
  obtain ⟨b0, hb', hb0⟩ := list_of_map1 hb
  obtain ⟨⟨r0, k0, a0⟩, ⟨r1, k1, a1⟩, ⟨r2, k2, a2⟩, ha', ha0, ha1, ha2⟩ := list_of_map3 ha
  simp only [Prod.mk.injEq] at ha0 ha1 ha2
  obtain ⟨rfl, rfl, ha0⟩ := ha0
  obtain ⟨rfl, rfl, ha1⟩ := ha1
  obtain ⟨rfl, rfl, ha2⟩ := ha2
  have hna : q.na = 1 := by show q.b.length = 1; rw [hb']; rfl
  have is : ∀ {a : F64} {x : ℚ}, a.value = some x → a.Is x := fun h => F64.is_lit h rfl
  refine ⟨hv2i, q, hq, hna, ?_, ⟨⟨?_, ?_, ?_, ?_, ?_⟩, ?_, ?_, ?_, ?_, ?_⟩⟩
  · exact .cons exG_zero (.cons exG_zero (.cons (is (x := exG3) (by decide +kernel)) .nil))
  · rw [hnx]; rfl
  · intro i a y hi hy _
    rw [hb'] at hi
    match i with
    | 0 =>
      simp only [List.getElem?_cons_zero, Option.some.injEq] at hi
      subst hi
      rw [hy.unique (is hb0), ha']
      simp [rowOf, (is ha0).toReal, (is ha1).toReal, (is ha2).toReal, exGxs]
    | i + 1 => simp at hi
  · intro i x lo hx hlo
    rw [hl'] at hlo
    match i with
    | 0 =>
      simp [exGxs] at hx hlo
      subst hx hlo
      rw [F64.below_is (is hl0)]; norm_num
    | 1 =>
      simp [exGxs] at hx hlo
      subst hx hlo
      rw [F64.below_is (is hl1)]; norm_num
    | 2 =>
      simp [exGxs] at hx hlo
      subst hx hlo
      rw [F64.below_is (is hl2)]; norm_num [exG3]
    | i + 3 => simp [exGxs] at hx
  · intro i x lo hx hlo
    rw [hu'] at hlo
    match i with
    | 0 =>
      simp [exGxs] at hx hlo
      subst hx hlo
      rw [F64.above_is (is hu0)]; norm_num
    | 1 =>
      simp [exGxs] at hx hlo
      subst hx hlo
      rw [F64.above_is (is hu1)]; norm_num
    | 2 =>
      simp [exGxs] at hx hlo
      subst hx hlo
      rw [F64.above_is (is hu2)]; norm_num [exG3]
    | i + 3 => simp [exGxs] at hx
  · intro i x hx hi
    rw [hp] at hi
    match i with
    | 0 => simp at hi
    | 1 => simp at hi
    | 2 => simp at hi
    | i + 3 => simp at hi
  · rw [hna]; rfl
  · intro j hj
    rw [hnx] at hj
    have : (0 : ℝ) ≤ (exG1 : ℝ) := by norm_num [exG1]
    match j with
    | 0 => simp
    | 1 => simpa using this
    | 2 => simp
    | j + 3 => omega
  · intro j b y hj hy
    rw [hu'] at hj
    match j with
    | 0 =>
      simp at hj
      subst hj
      rw [hy.unique (is hu0)]
      simp [exGxs]
    | 1 => simp
    | 2 => simp
    | j + 3 => simp at hj
  · intro j b y hj hy
    rw [hl'] at hj
    match j with
    | 0 => simp
    | 1 =>
      simp at hj
      subst hj
      rw [hy.unique (is hl1)]
      simp [exGxs]
    | 2 => simp
    | j + 3 => simp at hj
  · intro j cj hj
    rw [ha']
    match j with
    | 0 =>
      simp at hj
      subst hj
      simp [(is hc0).toReal, (is ha2).toReal]
    | 1 =>
      simp at hj
      subst hj
      simp [(is hc1).toReal, (is ha0).toReal]
    | 2 =>
      simp at hj
      subst hj
      simp [(is hc2).toReal, (is ha1).toReal]
    | j + 3 => simp at hj

theorem exG_vars {x : Node F64} (h : (worldD exG).m.HasVar x) : x = exGx ∨ x = exGy := by
  obtain ⟨hv, h⟩ := h
  have oc : ∀ i v, ¬ Occurs x (.const i v) := fun i v h => by
    rw [occurs_iff] at h
    simp only [Node.arguments, List.not_mem_nil, false_and, exists_false, or_false] at h
    rw [h] at hv
    simp [Node.isVar] at hv
  have ov : ∀ i s k, Occurs x (.var i s k) → x = .var i s k := fun i s k h => by
    rw [occurs_iff] at h
    simpa [Node.arguments] using h
  have om : ∀ i a b, Occurs x (.mul i a b) → Occurs x a ∨ Occurs x b := fun i a b h => by
    rw [occurs_iff] at h
    rcases h with rfl | h
    · simp [Node.isVar] at hv
    · simpa [Node.arguments] using h
  have oa : ∀ i a b, Occurs x (.add i [a, b]) → Occurs x a ∨ Occurs x b := fun i a b h => by
    rw [occurs_iff] at h
    rcases h with rfl | h
    · simp [Node.isVar] at hv
    · simpa [Node.arguments] using h
  have he : Occurs x exTenth2 → x = exGx := by
    have : exTenth2 = .add 8 [.mul 6 (.const 5 (dbl (1 / 10))) exGx, .const 7 (dbl exG3)] := by decide +kernel
    rw [this]
    intro h
    rcases oa _ _ _ h with h | h
    · exact ov _ _ _ ((om _ _ _ h).resolve_left (oc _ _))
    · exact absurd h (oc _ _)
  rw [exG_objective, exG_constraints] at h
  rcases h with ⟨f, hf | hf, ho⟩ | ⟨c, hc, ho⟩
  · cases hf; exact .inr (ov _ _ _ ho)
  · cases hf
  · simp only [List.mem_cons, List.not_mem_nil, or_false] at hc
    rcases hc with rfl | rfl
    · exact ho.imp he (ov _ _ _)
    · exact ho.elim (fun h => .inl (ov _ _ _ h)) fun h => absurd h (oc _ _)

theorem exG_pow : (1 + uD) ^ 7 - 1 ≤ 1 / 10 ^ 15 := by unfold uD; norm_num

theorem exG_err {t : ℕ → ℝ} (h0 : |t 0| ≤ 10) (h1 : |t 1| ≤ 10) : ∀ c ∈ (worldD exG).m.constraints, pairErr uD (exGF c) (exGG c) t ≤ 1 / 10 ^ 12 := by
  intro c hc
  rw [exG_constraints] at hc
  simp only [List.mem_cons, List.not_mem_nil, or_false] at hc
  have hp := exG_pow
  have hp4 : (1 + uD) ^ 4 - 1 ≤ 1 / 10 ^ 15 := by
    have := pow_le_pow_right₀ (show (1 : ℝ) ≤ 1 + uD by linarith [uD_nonneg]) (show 4 ≤ 7 by norm_num)
    linarith
  rcases hc with rfl | rfl
  · have hm : (exGF ⟨9, exTenth2, .lessEqual, exGy, ""⟩).mag t + (exGG ⟨9, exTenth2, .lessEqual, exGy, ""⟩).mag t ≤ 340 := by
      simp only [exGF, exGG, exGo, if_true, LinForm.mag, Finset.sum_singleton, Pi.single_eq_same]
      have h2 := exG_scale 0
      rw [Pi.single_eq_same] at h2
      have h3 := exG_scale3
      have h4 := mul_le_mul h2 h0 (abs_nonneg _) (by norm_num)
      linarith
    calc _ ≤ (1 / 10 ^ 15 : ℝ) * 340 := by
          refine mul_le_mul hp hm ?_ (by norm_num)
          simp only [exGF, exGG, exGo, if_true, LinForm.mag, Finset.sum_singleton, Pi.single_eq_same]
          have : ∀ m : ℝ, 0 ≤ m → 0 ≤ scaleSize tenth (1 + 2) m := fun m hm => by
            unfold scaleSize
            split_ifs
            · exact le_rfl
            · have := tiny_nonneg tenth
              positivity
          have h5 := this 1 (by norm_num)
          have h6 := this (0 + |3|) (by norm_num)
          positivity
      _ ≤ _ := by norm_num
  · have hm : (exGF ⟨11, exGx, .greaterEqual, .const 10 (dbl 0), ""⟩).mag t + (exGG ⟨11, exGx, .greaterEqual, .const 10 (dbl 0), ""⟩).mag t = |t 0| := by
      simp [exGF, exGG, LinForm.mag]
    show ((1 + uD) ^ 4 - 1) * (_ + _) ≤ _
    rw [hm]
    calc _ ≤ (1 / 10 ^ 15 : ℝ) * 10 := mul_le_mul hp4 h0 (abs_nonneg _) (by norm_num)
      _ ≤ _ := by norm_num

/-- Non-vacuity of C81: the call succeeds, the hypotheses of `C81_feasible` and `C81_optimal` are met, and so the reported `x` and `y` satisfy the constraint
`0.1 * (x + 3) <= y` up to `10^-12`, and the reported `y` is at most `10^-11` worse than at any point between 0 and 10 that satisfies the constraints. -/
example : ∃ mod' n' t, (worldD exG).m.solve HashOrder.listOrder exGsolver (countD exG) = .ok ((.ok (), mod'), n') ∧ (worldD exG).m.Values64 mod' t ∧
    tenth * (t 0 + 3) ≤ t 1 + 1 / 10 ^ 12 ∧ ∀ τ : ℕ → ℝ, tenth * (τ 0 + 3) ≤ τ 1 → 0 ≤ τ 0 → τ 0 ≤ 10 → τ 1 ≤ 10 → t 1 ≤ τ 1 + 1 / 10 ^ 11 := by
  have hok : (match (worldD exG).m.solve HashOrder.listOrder exGsolver (countD exG) with
    | .ok ((.ok (), m), _) => mapEnv m.finalPrimals 0 = some (dbl 0) && mapEnv m.finalPrimals 1 = some (dbl exG3)
    | _ => false) = true := by decide +kernel
  obtain ⟨mod', n', hs, ht0, ht1⟩ : ∃ mod' n', (worldD exG).m.solve HashOrder.listOrder exGsolver (countD exG) = .ok ((.ok (), mod'), n') ∧
      mapEnv mod'.finalPrimals 0 = some (dbl 0) ∧ mapEnv mod'.finalPrimals 1 = some (dbl exG3) := by
    revert hok
    generalize (worldD exG).m.solve HashOrder.listOrder exGsolver (countD exG) = r
    match r with
    | .ok ((.ok (), mod'), n') => exact fun h => ⟨mod', n', rfl, by simpa using h⟩
    | .ok ((.error _, _), _) => simp
    | .error _ => simp
  have hcost : ∀ sp st sol, (worldD exG).m.SolvedBy HashOrder.listOrder (countD exG) exGsolver sp st sol → ∃ c, sp.prob.costs = some c := by
    rintro sp st sol ⟨k, hsp, -⟩
    have hd := exG_data
    rw [hsp] at hd
    simp only [exGdata, Bool.and_eq_true, decide_eq_true_eq] at hd
    obtain ⟨c, hc, -⟩ := Option.map_eq_some_iff.1 hd.2
    exact ⟨c, hc⟩
  obtain ⟨⟨t, ht⟩, hall⟩ := C81_feasible exG_reach hs (δ := 0) (ε := 0) (η := 0) le_rfl fun sp st sol h => by
    obtain ⟨c, hc⟩ := hcost sp st sol h
    obtain ⟨-, q, hq, -, hx, hk⟩ := exG_solves h hc
    exact ⟨q, hq, _, hx, hk.within⟩
  have hX : (worldD exG).m.HasVar exGx := ⟨rfl, .inr ⟨_, by rw [exG_constraints]; exact .tail _ (.head _), .inl (.refl _)⟩⟩
  have hY : (worldD exG).m.HasVar exGy := ⟨rfl, .inl ⟨_, .inl exG_objective, .refl _⟩⟩
  have t0 : t 0 = 0 := by
    obtain ⟨a, h1, h2⟩ := ht _ hX
    change mapEnv mod'.finalPrimals 0 = _ at h1
    rw [ht0] at h1
    cases h1
    exact F64.Is.unique h2 exG_zero
  have t1 : t 1 = exG3 := by
    obtain ⟨a, h1, h2⟩ := ht _ hY
    change mapEnv mod'.finalPrimals 1 = _ at h1
    rw [ht1] at h1
    cases h1
    exact F64.Is.unique h2 (F64.is_lit (q := exG3) (by decide +kernel) rfl)
  have b0 : |t 0| ≤ 10 := by rw [t0]; norm_num
  have b1 : |t 1| ≤ 10 := by rw [t1, abs_le]; constructor <;> norm_num [exG3]
  have vF : ∀ s, (exGF ⟨9, exTenth2, .lessEqual, exGy, ""⟩).value s = tenth * (s 0 + 3) := by intro s; simp [exGF, LinForm.value]; ring
  have vO : ∀ s, exGo.value s = s 1 := by intro s; simp [exGo, LinForm.value]
  have vX : ∀ s, (exGF ⟨11, exGx, .greaterEqual, .const 10 (dbl 0), ""⟩).value s = s 0 := by intro s; simp [exGF, LinForm.value]
  have vZ : ∀ s, (exGG ⟨11, exGx, .greaterEqual, .const 10 (dbl 0), ""⟩).value s = 0 := by intro s; simp [exGG, LinForm.value]
  have vY : ∀ s, (exGG ⟨9, exTenth2, .lessEqual, exGy, ""⟩).value s = s 1 := vO
  have hm1 : (⟨9, exTenth2, .lessEqual, exGy, ""⟩ : Constraint F64) ∈ (worldD exG).m.constraints := by rw [exG_constraints]; exact .head _
  refine ⟨mod', n', t, hs, ht, ?_, ?_⟩
  · have := (hall t ht).1 _ hm1 _ _ (exG_says _ hm1).1 (exG_says _ hm1).2 (exG_range _ hm1)
    have he := exG_err b0 b1 _ hm1
    rw [vF, vY] at this
    simp only [CKind.Within, reduceCtorEq, if_false, zero_add] at this
    linarith
  · intro τ h1 h2 h3 h4
    have hτ1 : 0 ≤ τ 1 := le_trans (mul_nonneg tenth_pos.le (by linarith)) h1
    have c0 : |τ 0| ≤ 10 := by rw [abs_of_nonneg h2]; exact h3
    have c1 : |τ 1| ≤ 10 := by rw [abs_of_nonneg hτ1]; exact h4
    have h5 : 0 ≤ tenth * (τ 0 + 3) := mul_nonneg tenth_pos.le (by linarith)
    have h6 : tenth * (t 0 + 3) ≤ 3 ∧ 0 ≤ tenth * (t 0 + 3) := by
      rw [t0]
      have := tenth_le
      have := tenth_pos
      constructor <;> linarith
    obtain ⟨d1, d2⟩ := abs_le.1 b1
    have key : (worldD exG).m.NoWorse exGo _ t τ :=
      C81_optimal exG_reach hs (δ := 0) (ε := 0) (η := 0) (ρ := 0) (κ := 0) (Λ := 1) (Γ := 2) (R := 30) (E := 1 / 10 ^ 12) (N := 3) le_rfl (by norm_num)
        exG_says exG_range exG_obj (fun sp st sol c h hc => by
          obtain ⟨hn, q, hq, hna, hx, hk⟩ := exG_solves h hc
          refine ⟨hn, q, hq, _, _, _, _, hx, hk, ?_, ?_⟩
          · rw [hna]; simp
          · simp [Finset.sum_range_succ]
            norm_num [exG1])
        ht (by
          intro c hc
          rw [exG_constraints] at hc
          simp only [List.mem_cons, List.not_mem_nil, or_false] at hc
          rcases hc with rfl | rfl
          · rw [vF, vY]; exact h1
          · rw [vX, vZ]; exact h2)
        (by
          intro x hx
          rcases exG_vars hx with rfl | rfl
          · exact c0.trans (by norm_num)
          · exact c1.trans (by norm_num))
        (by
          intro c hc _
          rw [exG_constraints] at hc
          simp only [List.mem_cons, List.not_mem_nil, or_false] at hc
          rcases hc with rfl | rfl
          · rw [vF, vY, abs_le]; constructor <;> linarith
          · rw [vX, vZ, sub_zero]; exact c0.trans (by norm_num))
        (by
          intro x hx
          rcases exG_vars hx with rfl | rfl
          · exact (abs_sub (t 0) (τ 0)).trans (by linarith)
          · exact (abs_sub (t 1) (τ 1)).trans (by linarith))
        (by
          intro c hc _
          rw [exG_constraints] at hc
          simp only [List.mem_cons, List.not_mem_nil, or_false] at hc
          rcases hc with rfl | rfl
          · rw [vF, vY, vF, vY, abs_le]; constructor <;> linarith [h6.1, h6.2]
          · rw [vX, vZ, vX, vZ, sub_zero, sub_zero]; exact (abs_sub _ _).trans (by linarith))
        (fun c hc => ⟨exG_err b0 b1 c hc, exG_err c0 c1 c hc⟩)
    have ho : ∀ s : ℕ → ℝ, |s 1| ≤ 10 → objErr uD exGo s ≤ 1 / 10 ^ 12 := by
      intro s hs
      have hm : exGo.mag s = |s 1| := by simp [exGo, LinForm.mag]
      have hp : (1 + uD) ^ (1 + 1) - 1 ≤ 1 / 10 ^ 15 := by
        have := pow_le_pow_right₀ (show (1 : ℝ) ≤ 1 + uD by linarith [uD_nonneg]) (show 1 + 1 ≤ 7 by norm_num)
        exact (sub_le_sub_right this 1).trans exG_pow
      show ((1 + uD) ^ (1 + 1) - 1) * _ ≤ _
      rw [hm]
      calc _ ≤ (1 / 10 ^ 15 : ℝ) * 10 := mul_le_mul hp hs (abs_nonneg _) (by norm_num)
        _ ≤ _ := by norm_num
    unfold Model.NoWorse at key
    rw [exG_objective] at key
    simp only [vO] at key
    have := ho t b1
    have := ho τ c1
    norm_num at key ⊢
    linarith

end Examples

end Verif
